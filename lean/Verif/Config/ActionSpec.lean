import Verif.Config.Action

/-!
# What a user expects from the configuration of actions and from Python actions (C124)
-/

set_option autoImplicit false

namespace Verif.Config.Act

/-! ## Configuration -/

/-- The tag conforms to the schema: what is required occurs, and what the kind does not have does not occur. -/
def Tag.Valid (t : Tag) : Prop :=
  match t.kind with
  | .multiplyByArea | .divideByArea => t.sources = [] ∧ t.target.isSome = true
  | .summation => t.sources ≠ [] ∧ t.target.isSome = true
  | .recorder => t.sources = [] ∧ t.target = none
  | .python => t.sources.length ≤ 1

/-- The expected action. "If it doesn't occur, the current path is used"; source and target of Python actions can be omitted. -/
def Tag.expected (t : Tag) : Action :=
  match t.kind with
  | .multiplyByArea => .scale t.timing t.mesh (t.target.getD "") true
  | .divideByArea => .scale t.timing t.mesh (t.target.getD "") false
  | .summation => .summation t.timing t.mesh t.sources (t.target.getD "")
  | .recorder => .recorder t.timing t.mesh
  | .python => .python t.timing (t.path.getD ".") t.modul t.mesh t.target t.sources.head?

/-- When the tag should be accepted: the mesh exists and is used by the participant and has the data, sums are of data of the same dimension, and the directory
exists. -/
structure Tag.WellFormed (w : World) (t : Tag) : Prop where
  mesh : w.isMesh t.mesh = true
  used : w.isUsed t.mesh = true
  source : ∀ n ∈ t.sources, (w.dims t.mesh n).isSome = true
  target : ∀ n, t.target = some n → (w.dims t.mesh n).isSome = true
  dims : t.kind = .summation → ∀ n, t.target = some n → ∀ m ∈ t.sources, w.dims t.mesh m = w.dims t.mesh n
  path : t.kind = .python → w.isDirectory (t.path.getD ".") = true

/-! ## Python actions -/

variable {σ V : Type}

/-- The user's function is called with the given arguments one after the other, from state `s` to state `s'`, and leaves `outs` in the arrays. -/
inductive Calls (f : UserFunction σ V) : σ → List (ℚ × Option V × V) → σ → List (Option V × V) → Prop
  | nil (s : σ) : Calls f s [] s []
  | cons {s s₁ s₂ : σ} {t : ℚ} {src src' : Option V} {v v' : V} {l : List (ℚ × Option V × V)} {outs : List (Option V × V)}
    (h : f s t src v = some (s₁, src', v')) (rest : Calls f s₁ l s₂ outs) : Calls f s ((t, src, v) :: l) s₂ ((src', v') :: outs)

/-- The arguments of the calls: one call for each sample, in the order of time. -/
def argsBoth (src tgt : List (ℚ × V)) : List (ℚ × Option V × V) := List.zipWith (fun a b => (b.1, some a.2, b.2)) src tgt
def argsTarget (tgt : List (ℚ × V)) : List (ℚ × Option V × V) := tgt.map fun b => (b.1, none, b.2)

/-- The samples after the calls. -/
def newTarget (tgt : List (ℚ × V)) (outs : List (Option V × V)) : List (ℚ × V) := List.zipWith (fun b o => (b.1, o.2)) tgt outs
def newSource (src : List (ℚ × V)) (outs : List (Option V × V)) : List (ℚ × V) := List.zipWith (fun a o => (a.1, o.1.getD a.2)) src outs

end Verif.Config.Act
