import Verif.Protocol.Participant
import Verif.Scheme.CheckpointProps

/-!
# Synchronisation of the participants' control states (helper lemmas)
-/

set_option autoImplicit false

namespace Verif

open Prog

variable {ι D : Type}

/-- Two-participant configurations that come from the same `<coupling-scheme>` tag with a fixed
window size. -/
structure FixedPair (cA cB : Config) : Prop where
  firstA : cA.first = true
  firstB : cB.first = false
  implicit : cA.implicit = cB.implicit
  maxWindows : cA.maxWindows = cB.maxWindows
  setsA : cA.setsSize = false
  receivesA : cA.receivesSize = false
  setsB : cB.setsSize = false
  receivesB : cB.receivesSize = false
  initAB : cA.sendsInit = cB.receivesInit
  initBA : cB.sendsInit = cA.receivesInit

/-- A state at an iteration start. -/
structure AtStart (mt : Option ℚ) (w : ℚ) (s : State D) : Prop where
  maxTime : s.time.maxTime = mt
  size : s.size = w
  nextSize : s.nextSize = w
  progress : s.time.progress = 0
  windows : 1 ≤ s.windows
  iters : 1 ≤ s.iters
  start : s.time.start = ((s.windows : ℚ) - 1) * w ∨ s.time.reachedEnd
  below : ∀ m, mt = some m → s.time.start ≤ m + tol

/-- Both participants are at the same point of the coupling. -/
structure Agree (a b : State D) : Prop where
  time : a.time = b.time
  windows : a.windows = b.windows
  iters : a.iters = b.iters
  complete : a.complete = b.complete

/-- `W` bounds the number of windows: through max-time-windows or max-time. -/
def WindowBound (c : Config) (mt : Option ℚ) (w : ℚ) (W : ℕ) : Prop :=
  (∃ N, c.maxWindows = some N ∧ N ≤ W) ∨ ∃ m, mt = some m ∧ m ≤ W * w

theorem AtStart.hasSize {mt : Option ℚ} {w : ℚ} {s : State D} (hw : tol < w)
    (h : AtStart mt w s) : s.hasSize := by
  have htol := tol_pos
  unfold State.hasSize; rw [h.size]; exact hasSize_of_pos (by linarith)

theorem AtStart.maxStep {c : Config} {mt : Option ℚ} {w : ℚ} {s : State D} (hw : tol < w)
    (h : AtStart mt w s) (hon : s.ongoing c) : s.maxStep c = s.time.untilWindowEnd w := by
  rw [maxStep_of hon (h.hasSize hw), h.size]

theorem AtStart.lt_end {c : Config} {mt : Option ℚ} {w : ℚ} {s : State D}
    (h : AtStart mt w s) (hon : s.ongoing c) {m : ℚ} (hm : mt = some m) :
    tol < m - s.time.start := by
  by_contra hcon
  push Not at hcon
  have := h.below m hm
  refine hon.2 (TimeHandler.reachedEnd_iff.mpr ⟨m, by rw [h.maxTime, hm], ?_, ?_⟩) <;>
    simp only [TimeHandler.time, h.progress] <;> linarith

theorem AtStart.pos {c : Config} {mt : Option ℚ} {w : ℚ} {s : State D} (hw : tol < w)
    (h : AtStart mt w s) (hon : s.ongoing c) : tol < s.time.untilWindowEnd w := by
  rw [TimeHandler.lt_untilWindowEnd]
  refine ⟨by rw [h.progress]; linarith, fun m hm => ?_⟩
  have := h.lt_end hon (by rw [← h.maxTime, hm])
  simpa [TimeHandler.time, h.progress] using this

theorem AtStart.windows_le {c : Config} {mt : Option ℚ} {w : ℚ} {s : State D} (hw : tol < w)
    (h : AtStart mt w s) (hon : s.ongoing c) {W : ℕ} (hW : WindowBound c mt w W) :
    s.windows ≤ W := by
  have htol := tol_pos
  rcases hW with ⟨N, hN, hNW⟩ | ⟨m, hm, hmW⟩
  · have := hon.1; rw [hN] at this; exact le_trans this hNW
  · have h1 := h.lt_end hon hm
    rw [h.start.resolve_right hon.2] at h1
    have h2 : ((s.windows : ℚ) - 1) * w < W * w := by linarith
    have h3 : ((s.windows : ℚ) - 1) < W := lt_of_mul_lt_mul_right h2 (by linarith)
    have h4 : (s.windows : ℚ) < ((W + 1 : ℕ) : ℚ) := by push_cast; linarith
    have h5 : s.windows < W + 1 := by exact_mod_cast h4
    omega

/-- An iteration leads from an iteration start to an iteration start. -/
theorem AfterIter.atStart {c : Config} {mt : Option ℚ} {w : ℚ} {s s' : State D} {b : Bool}
    (h : AtStart mt w s) (hon : s.ongoing c) (ha : AfterIter c w s s' b) :
    AtStart mt w s' := by
  have htol := tol_pos
  have ht := ha.time
  have hwi := ha.windows
  have hit := ha.iters
  have hst := h.start.resolve_right hon.2
  cases b with
  | false =>
    simp only [Bool.false_eq_true, if_false, add_zero] at ht hwi hit
    exact ⟨by rw [ht, h.maxTime], ha.size, ha.nextSize, by rw [ht, h.progress],
      by rw [hwi]; exact h.windows, by omega, by rw [ht, hwi]; exact h.start,
      by rw [ht]; exact h.below⟩
  | true =>
    simp only [if_true] at ht hwi hit
    have hle := TimeHandler.untilWindowEnd_le s.time w
    rw [h.progress] at hle
    refine ⟨?_, ha.size, ha.nextSize, ?_, by omega, ?_, ?_, ?_⟩
    · rw [ht, nextTime, TimeHandler.completeTimeWindow]; split <;>
        simp [TimeHandler.progressBy, h.maxTime]
    · rw [ht, nextTime, TimeHandler.completeTimeWindow]; split <;> rfl
    · rw [hit]; split
      · exact le_refl _
      · exact h.iters
    · rw [ht, hwi, nextTime, TimeHandler.completeTimeWindow]
      split
      · left; simp only [TimeHandler.progressBy, hst]; push_cast; ring
      · next hne =>
        right
        simp only [TimeHandler.progressBy, h.progress, zero_add, equals_iff] at hne
        cases hm : s.time.maxTime with
        | none =>
          rw [TimeHandler.untilWindowEnd_none hm, h.progress] at hne
          exact absurd ⟨by linarith, by linarith⟩ hne
        | some m =>
          rw [TimeHandler.untilWindowEnd_some hm, h.progress] at hne
          refine TimeHandler.reachedEnd_iff.mpr ⟨m, hm, ?_, ?_⟩ <;>
            simp only [TimeHandler.progressBy, TimeHandler.time, TimeHandler.untilWindowEnd_some hm,
              h.progress] at hne ⊢ <;>
            rcases min_choice (w - 0) (m - (s.time.start + 0)) with hc | hc <;> rw [hc] at hne ⊢ <;>
            first
            | (exact absurd ⟨by linarith, by linarith⟩ hne)
            | linarith
    · intro m hm
      have hmm : s.time.maxTime = some m := by rw [h.maxTime, hm]
      have hle2 := TimeHandler.untilWindowEnd_le_end hmm w
      simp only [TimeHandler.time, h.progress] at hle2
      rw [ht, nextTime, TimeHandler.completeTimeWindow]
      split
      · next heq =>
        simp only [TimeHandler.progressBy, h.progress, equals_iff] at heq ⊢
        linarith [heq.1]
      · simp only [TimeHandler.progressBy, h.progress]; linarith

theorem AfterIterG.agree {cA cB : Config} {w wA wB : ℚ} {a a' b b' : State D} {x : Bool}
    (himp : cA.implicit = cB.implicit) (h : Agree a b) (ha : AfterIterG cA w wA a a' x)
    (hb : AfterIterG cB w wB b b' x) : Agree a' b' :=
  ⟨by rw [ha.time, hb.time, h.time], by rw [ha.windows, hb.windows, h.windows],
    by rw [ha.iters, hb.iters, h.iters, himp], by rw [ha.complete, hb.complete]⟩

theorem Agree.ongoing {cA cB : Config} (hm : cA.maxWindows = cB.maxWindows) {a b : State D}
    (h : Agree a b) : a.ongoing cA ↔ b.ongoing cB := by
  unfold State.ongoing; rw [h.time, h.windows, hm]

/-- Every window needs at most `N` iterations: the decision is positive in iteration `N`. With
max-iterations `N` this holds for all solvers. -/
def IterBound (c : Config) (plan : Plan D) (N : ℕ) : Prop :=
  1 ≤ N ∧ (c.implicit = true → ∀ s hist i, s.iters = N →
    lastStep (plan (s :: hist)) = some i → decision c N i.verdict = true)

theorem iterBound_of_maxIter {c : Config} {plan : Plan D} {N : ℕ} (hN : 1 ≤ N)
    (h : c.maxIter = some N) : IterBound c plan N :=
  ⟨hN, fun _ _ _ _ _ _ => by simp [decision, h]⟩

/-- Number of iterations that are still possible. -/
def remaining (W N : ℕ) (s : State D) : ℕ := (W - s.windows) * N + (N + 1 - s.iters)

/-- The number of remaining iterations decreases. -/
theorem remaining_lt {c : Config} {w w' : ℚ} {W N : ℕ} {s s' : State D} {b : Bool}
    (ha : AfterIterG c w w' s s' b) (hN : 1 ≤ N) (hi : s.iters ≤ N)
    (hexp : c.implicit = false → b = true ∧ s.iters = 1)
    (hb : b = false → s.iters < N) (hW' : s'.windows ≤ W) :
    remaining W N s' < remaining W N s ∧ s'.iters ≤ N ∧ (c.implicit = false → s'.iters = 1) := by
  have hwi := ha.windows
  have hit := ha.iters
  unfold remaining
  cases b with
  | false =>
    have := hb rfl
    simp only [Bool.false_eq_true, if_false, add_zero] at hwi hit
    rw [hwi, hit]
    refine ⟨by omega, by omega, fun h => ?_⟩
    have := (hexp h).1; cases this
  | true =>
    simp only [if_true] at hwi hit
    have hit' : s'.iters = 1 := by
      rw [hit]; split
      · rfl
      · next h => exact (hexp (by simpa using h)).2
    rw [hwi, hit']
    rw [hwi] at hW'
    refine ⟨?_, hN, fun _ => rfl⟩
    have : W - s.windows = (W - (s.windows + 1)) + 1 := by omega
    rw [this, Nat.add_mul]
    omega

theorem started_atStart {mt : Option ℚ} {w : ℚ} {s : State D}
    (hmt : ∀ m, mt = some m → 0 < m) (ht : s.time = ⟨mt, 0, 0⟩) (hs : s.size = w)
    (hn : s.nextSize = w) (hwi : s.windows = 1) (hit : s.iters = 1) : AtStart mt w s := by
  have htol := tol_pos
  exact ⟨by rw [ht], hs, hn, by rw [ht], by omega, by omega, Or.inl (by rw [ht, hwi]; simp),
    fun m hm => by rw [ht]; show (0:ℚ) ≤ _; linarith [hmt m hm]⟩

/-- The history is consistent with what the solver wrote: every state after an iteration carries
the value the solver wrote last in that iteration (for the accelerating participant: if the
iteration completed the window). -/
def Wrote (plan : Plan D) (accelerated : Bool) : List (State D) → Prop
  | s' :: s :: hist =>
    (∃ i, lastStep (plan (s :: hist)) = some i ∧
      (accelerated = false ∨ s'.complete = true → s'.sendBuf = i.value)) ∧
    Wrote plan accelerated (s :: hist)
  | _ => True

/-- Every window was completed exactly by a positive decision. -/
def Decided (c : Config) (plan : Plan D) : List (State D) → Prop
  | s' :: s :: hist =>
    (∃ i, lastStep (plan (s :: hist)) = some i ∧
      s'.complete = (!c.implicit || decision c s.iters i.verdict)) ∧
    Decided c plan (s :: hist)
  | _ => True

end Verif
