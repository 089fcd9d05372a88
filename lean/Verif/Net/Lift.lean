import Verif.Net.Rendezvous

/-!
# Programs with a smaller set of messages

A program whose messages are of type `M` as part of a larger program whose messages are of type `M'`, and sequences of programs that all complete.
-/

set_option autoImplicit false

namespace Verif

open Function (update)

variable {ι M M' α β : Type} [DecidableEq ι]

/-- The same program with the messages embedded by `inj`; a message of another kind is a failure. -/
def Prog.lift (inj : M → M') (proj : M' → Option M) : Prog ι M α → Prog ι M' α
  | .ret a => .ret a
  | .send q m k => .send q (inj m) (lift inj proj k)
  | .recv q k => .recv q fun m' => match proj m' with
    | some m => lift inj proj (k m)
    | none => .fail .assert
  | .fail e => .fail e

theorem RNet.Steps.lift {inj : M → M'} {proj : M' → Option M} (h : ∀ m, proj (inj m) = some m) {k : ℕ} {p p' : ι → Prog ι M α} (hs : RNet.Steps k p p') :
    RNet.Steps k (fun i => (p i).lift inj proj) (fun i => (p' i).lift inj proj) := by
  induction hs with
  | refl p => exact .refl _
  | head hs _ ih =>
    refine .head ?_ ih
    obtain ⟨i, j, m, k, k', hi, hj, rfl⟩ := hs
    refine ⟨i, j, inj m, k.lift inj proj, _, by simp only [hi, Prog.lift], by simp only [hj, Prog.lift]; rfl, ?_⟩
    funext x
    by_cases hxj : x = j
    · subst hxj; simp [h]
    · by_cases hxi : x = i
      · subst hxi; simp [hxj]
      · simp [hxj, hxi]

theorem RNet.AlwaysCompletes.lift {inj : M → M'} {proj : M' → Option M} (h : ∀ m, proj (inj m) = some m) {p : ι → Prog ι M α} {r : ι → α}
    (hp : RNet.AlwaysCompletes p r) : RNet.AlwaysCompletes (fun i => (p i).lift inj proj) r := by
  obtain ⟨k, q, hd, hs, -⟩ := hp
  refine RNet.alwaysCompletes_of_steps (hs.lift h) fun i => ?_
  rw [hd i]
  rfl

theorem RNet.AlwaysCompletes.bind {p : ι → Prog ι M α} {r : ι → α} (hp : RNet.AlwaysCompletes p r) {f : ι → α → Prog ι M β} {s : ι → β}
    (hf : RNet.AlwaysCompletes (fun i => f i (r i)) s) : RNet.AlwaysCompletes (fun i => (p i).bind (f i)) s := by
  obtain ⟨k, q, hd, hs, -⟩ := hp
  obtain ⟨k', q', hd', hs', -⟩ := hf
  have h1 := hs.bind f
  rw [show (fun i => (q i).bind (f i)) = fun i => f i (r i) from funext fun i => by rw [hd i]; rfl] at h1
  exact RNet.alwaysCompletes_of_steps (h1.trans hs') hd'

end Verif
