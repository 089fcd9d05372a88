import Verif.Remesh.Model

/-!
# Data of meshes that change: what the user relies on

Independent of the steps of the model: what a user does to one time window, and what a reader gets.
-/

set_option autoImplicit false

namespace Verif.Remesh

variable {α : Type}

/-- What the users may do in the window from `a` to `b`: time steps before its end are ordered, there are none if the
sender resets its mesh, and the next window ends later. -/
structure Input.Valid (i : Input α) (a b : ℚ) : Prop where
  sorted : (i.subs.map Prod.fst).Pairwise (· < ·)
  after : ∀ x ∈ i.subs, a < x.1
  before : ∀ x ∈ i.subs, x.1 < b
  reset : i.chS.isSome = true → i.subs = []
  next : b < i.next

/-- The sequence of inputs is what users may do from a window on. A window that is not complete is repeated. -/
def ValidAll (implicit : Bool) : List (Input α) → ℚ → ℚ → Prop
  | [], _, _ => True
  | i :: is, a, b => i.Valid a b ∧
      if implicit = true ∧ i.conv = false then ValidAll implicit is a b else ValidAll implicit is b i.next

/-- What reading at a time gives if that is the time of a sample, or if there is only one: that sample
(`Waveform::sample`, `src/time/Waveform.cpp:205-228`). -/
def valueAt (w : Wave α) (t : ℚ) : Option (Sample α) :=
  match w with
  | [x] => some x.2
  | _ => (w.find? fun x => x.1 = t).map Prod.snd

/-- The value as the reader has to see it: mapped from the mesh of the sender to the mesh of the reader, unless the mesh
of the sender is accessed directly. -/
def seen (c : Config α) (nS nR : ℕ) (v : α) : Sample α := match c.kind with
  | .direct => ⟨nS, v⟩
  | _ => ⟨nR, c.f nS nR v⟩

/-- The values that count in a window: all that have been written if substeps are exchanged, otherwise the last one. -/
def written (c : Config α) (i : Input α) (b : ℚ) : List (ℚ × α) :=
  (if c.substeps then i.subs else []) ++ [(b, i.v)]

/-- Sizes after a window. -/
def newS (i : Input α) (n : ℕ) : ℕ := i.chS.getD n
def newR (i : Input α) (n : ℕ) : ℕ := i.chR.getD n

/-- All samples have the size of the mesh they are on. -/
structure Sized (c : Config α) (s : State α) : Prop where
  src : ∀ x ∈ s.src, x.2.n = s.nS
  mapped : c.kind = .write → ∀ x ∈ s.mapped, x.2.n = s.nR
  got : ∀ x ∈ s.got, x.2.n = (match c.kind with | .write => s.nR | _ => s.nS)
  tgt : ∀ x ∈ s.tgt, x.2.n = s.nR

end Verif.Remesh
