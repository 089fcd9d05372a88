import Verif.Protocol.Props

/-!
# A deadlock caused by the numerical tolerance

`PlanOk` asks the solvers to hit window ends exactly. This file shows that the assumption cannot be
weakened to "within the tolerance of 1e-14", which is all that preCICE checks.
-/

set_option autoImplicit false

namespace Verif

open Prog

/-- Run two programs together with blocking sends for at most `n` messages. -/
def play {M α : Type} : ℕ → Prog Bool M α → Prog Bool M α → Prog Bool M α × Prog Bool M α
  | 0, p, q => (p, q)
  | n + 1, .send false m k, .recv true k' => play n k (k' m)
  | n + 1, .recv false k, .send true m k' => play n (k m) k'
  | _ + 1, p, q => (p, q)

theorem play_steps {M α : Type} (n : ℕ) (p q : Prog Bool M α) :
    ∃ k, RNet.Steps k (pair p q) (pair (play n p q).1 (play n p q).2) := by
  induction n generalizing p q with
  | zero => exact ⟨0, .refl _⟩
  | succ n ih =>
    unfold play
    split
    · cases ‹_ + 1 = 0›
    · next m k k' h =>
      injection h with h; subst h
      obtain ⟨j, ih⟩ := ih k (k' m)
      refine ⟨j + 1, .head ⟨true, false, m, k, k', rfl, rfl, ?_⟩ ih⟩
      funext x; cases x <;> rfl
    · next k' m k h =>
      injection h with h; subst h
      obtain ⟨j, ih⟩ := ih (k' m) k
      refine ⟨j + 1, .head ⟨false, true, m, k, k', rfl, rfl, ?_⟩ ih⟩
      funext x; cases x <;> rfl
    · exact ⟨0, .refl _⟩

/-- The first program has returned, the second one waits for a message from it. -/
def waitsForever {M α : Type} : Prog Bool M α × Prog Bool M α → Bool
  | (.ret _, .recv true _) => true
  | _ => false

theorem waitsForever_stuck {M α : Type} {p q : Prog Bool M α} (h : waitsForever (p, q) = true) :
    Net.Stuck (RNet.toNet (pair p q)) ∧ ¬ ∃ r, Net.Done r (RNet.toNet (pair p q)) := by
  unfold waitsForever at h
  split at h
  · next a k heq =>
    simp only [Prod.mk.injEq] at heq
    obtain ⟨rfl, rfl⟩ := heq
    refine ⟨fun x => by cases x <;> rfl, ?_⟩
    rintro ⟨r, hr, _⟩
    have := hr false
    cases this
  · cases h

/-- A solver that makes one step per window which stays `e` below the window end. -/
def inexactPlan (c : Config) (e : ℚ) : Plan ℚ := fun hist =>
  match hist with
  | [] => []
  | s :: _ => [⟨s.maxStep c - e, s.recvBuf, true, id⟩]

/-- A serial-explicit configuration without initial data and without a window limit. -/
def dlCfg (first : Bool) : Config :=
  { implicit := false, first := first, maxWindows := none, minIter := 1, maxIter := none }

def dlProg (first : Bool) : Prog Bool (Msg ℚ) (List (State ℚ)) :=
  participant (dlCfg first) (BiKind.hooks .serial (dlCfg first)) (some (1 + 2 / 10 ^ 15)) 1 0
    (inexactPlan (dlCfg first) (if first then 0 else 9 / 10 ^ 15)) 10

/-- Serial-explicit coupling, window size 1, max-time 1 + 2e-15. The second participant's step of
1 - 9e-15 is accepted and ends the window, but its remaining time 1.1e-14 exceeds the tolerance, so it
waits for the next window. The first participant stepped exactly to 1 and is finished. Every
execution ends in this state, with blocking and with buffered sends. -/
theorem C14_tolerance_deadlock :
    ∃ (cA cB : Config) (w m e : ℚ), FixedPair cA cB ∧ w = 1 ∧ tol < m ∧ 0 < e ∧ e < tol ∧
      ∃ k a, Net.Steps k (RNet.toNet (biPrograms .serial cA cB (some m) w 0 0
        (inexactPlan cA 0) (inexactPlan cB e) 10)) a ∧ Net.Stuck a ∧ ¬ ∃ r, Net.Done r a := by
  refine ⟨dlCfg true, dlCfg false,
    1, 1 + 2 / 10 ^ 15, 9 / 10 ^ 15, ⟨rfl, rfl, rfl, rfl, rfl, rfl, rfl, rfl, rfl, rfl⟩, rfl,
    by norm_num [tol], by norm_num, by norm_num [tol], ?_⟩
  obtain ⟨k, hk⟩ := play_steps 10 (dlProg true) (dlProg false)
  have h : waitsForever (play 10 (dlProg true) (dlProg false)) = true := by decide +kernel
  have hs := waitsForever_stuck h
  exact ⟨_, _, RNet.steps_buffered hk, hs.1, hs.2⟩

end Verif
