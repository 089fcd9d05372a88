import Verif.Protocol.Props

/-!
# Serial coupling with the first-participant window size method (helper lemmas)

The first participant's step defines the window size; the second participant receives it.
-/

set_option autoImplicit false

namespace Verif

open Prog

variable {ι D : Type}

/-- Configurations of both participants for `<time-window-size method="first-participant"/>`. -/
structure FirstPair (cA cB : Config) : Prop where
  firstA : cA.first = true
  firstB : cB.first = false
  implicit : cA.implicit = cB.implicit
  maxWindows : cA.maxWindows = cB.maxWindows
  setsA : cA.setsSize = true
  receivesA : cA.receivesSize = false
  setsB : cB.setsSize = false
  receivesB : cB.receivesSize = true
  initAB : cA.sendsInit = cB.receivesInit
  initBA : cB.sendsInit = cA.receivesInit

/-- The first participant's solver: one step per window, of any size that fits into the remaining
time (at least `δ` unless it is the last one); a repeated iteration uses the same size, as the code
demands in SerialCouplingScheme.cpp:80-84. -/
structure FirstPlan (cA : Config) (δ : ℚ) (plan : Plan D) : Prop where
  step : ∀ s hist, s.ongoing cA → ¬ s.hasSize → tol < s.time.untilEnd → ∃ i, plan (s :: hist) = [i] ∧ tol < i.dt ∧
    i.dt ≤ s.time.untilEnd ∧ i.dt < dblMax ∧ (δ ≤ i.dt ∨ i.dt = s.time.untilEnd)
  same : ∀ s' s hist i i', s'.complete = false → s'.time = s.time → lastStep (plan (s :: hist)) = some i →
    lastStep (plan (s' :: s :: hist)) = some i' → i'.dt = i.dt

/-- Bound on the number of windows. -/
def WindowBoundF (c : Config) (mt : Option ℚ) (δ : ℚ) (W : ℕ) : Prop :=
  (∃ N, c.maxWindows = some N ∧ N ≤ W) ∨ ∃ m, mt = some m ∧ 0 < δ ∧ m ≤ W * δ

/-- State of the first participant at an iteration start. -/
structure AtStartF (mt : Option ℚ) (δ : ℚ) (s : State D) : Prop where
  maxTime : s.time.maxTime = mt
  size : s.size = undefinedSize
  nextSize : s.nextSize = undefinedSize
  progress : s.time.progress = 0
  windows : 1 ≤ s.windows
  iters : 1 ≤ s.iters
  start : ((s.windows : ℚ) - 1) * δ ≤ s.time.start ∨ s.time.reachedEnd
  below : ∀ m, mt = some m → s.time.start ≤ m

theorem undefined_noSize {s : State D} (h : s.size = undefinedSize) : ¬ s.hasSize := by
  have := tol_pos
  unfold State.hasSize
  rw [not_not, h, equals_iff]; constructor <;> linarith

/-- Every advance of a participant without window size ends the window. -/
theorem iterate_nosize {c : Config} {h : Hooks ι D} {i : StepIn D} {s : State D}
    (hon : s.ongoing c) (hpos : tol < i.dt) (hle : i.dt ≤ s.time.untilEnd) (hlt : i.dt < dblMax)
    (hsz : ¬ s.hasSize) :
    iterate c h [i] s = (h.first i (atEnd s i.dt i.value)).bind (secondExchange c h i) := by
  have htol := tol_pos
  have h1 : ¬ equals i.dt 0 := by rw [equals_iff]; rintro ⟨_, h2⟩; linarith
  have h2 : i.dt > 0 := by linarith
  have hms : s.maxStep c = s.time.untilEnd := by
    unfold State.maxStep; rw [if_pos hon, if_neg hsz]
  have h3 : greaterEquals (s.fulfilAll.maxStep c) i.dt := by
    unfold greaterEquals; rw [fulfilAll_maxStep, hms]; linarith
  have h4 : s.fulfilAll.hasSize ∨ i.dt < dblMax := Or.inr hlt
  have hnil : iterate (ι := ι) c h [] = ret := by funext x; rfl
  unfold iterate
  rw [hnil, bind_ret]
  unfold advance addComputedTime ensure
  rw [if_pos (show s.fulfilAll.ongoing c from hon), if_pos h1, if_pos h2, if_pos h4, if_pos h3]
  beta_reduce
  congr 1
  unfold firstExchange checkActions ensure
  rw [if_pos (by exact actionsDone_fulfilAll s)]
  exact if_pos (fun hx => absurd hx hsz)

theorem AtStartF.lt_end {c : Config} {mt : Option ℚ} {δ : ℚ} {s : State D}
    (h : AtStartF mt δ s) (hon : s.ongoing c) : tol < s.time.untilEnd := by
  cases hm : s.time.maxTime with
  | none =>
    simp only [TimeHandler.untilEnd, hm]
    have := dblMax_pos
    have : tol < 1 := by norm_num [tol]
    linarith
  | some m =>
    simp only [TimeHandler.untilEnd, hm, TimeHandler.untilTime, h.progress]
    by_contra hcon
    push Not at hcon
    have := h.below m (by rw [← h.maxTime, hm])
    refine hon.2 (TimeHandler.reachedEnd_iff.mpr ⟨m, hm, ?_, ?_⟩) <;>
      simp only [TimeHandler.time, h.progress] <;> linarith [tol_pos]

theorem AtStartF.windows_le {c : Config} {mt : Option ℚ} {δ : ℚ} {s : State D}
    (h : AtStartF mt δ s) (hon : s.ongoing c) {W : ℕ} (hW : WindowBoundF c mt δ W) :
    s.windows ≤ W := by
  have htol := tol_pos
  rcases hW with ⟨N, hN, hNW⟩ | ⟨m, hm, hδ, hmW⟩
  · have := hon.1; rw [hN] at this; exact le_trans this hNW
  · have h0 : tol < m - s.time.start := by
      have h1 := h.lt_end hon
      simp only [TimeHandler.untilEnd, h.maxTime, hm, TimeHandler.untilTime, h.progress] at h1
      linarith
    have h1 := h.start.resolve_right hon.2
    have h2 : ((s.windows : ℚ) - 1) * δ < W * δ := by linarith
    have h3 : ((s.windows : ℚ) - 1) < W := lt_of_mul_lt_mul_right h2 (by linarith)
    have h4 : (s.windows : ℚ) < ((W + 1 : ℕ) : ℚ) := by push_cast; linarith
    have h5 : s.windows < W + 1 := by exact_mod_cast h4
    omega

/-- The window size equals the step if the step fits into the remaining time. -/
theorem untilWindowEnd_step {t : TimeHandler} {dt : ℚ} (hp : t.progress = 0)
    (hle : dt ≤ t.untilEnd) : t.untilWindowEnd dt = dt := by
  cases hm : t.maxTime with
  | none => rw [TimeHandler.untilWindowEnd_none hm, hp]; ring
  | some m =>
    rw [TimeHandler.untilWindowEnd_some hm, hp]
    simp only [TimeHandler.untilEnd, hm, TimeHandler.untilTime, hp] at hle
    simp only [TimeHandler.time, hp]
    rw [min_eq_left (by linarith)]; ring

theorem nextTime_step {t : TimeHandler} {dt : ℚ} (hp : t.progress = 0)
    (hle : dt ≤ t.untilEnd) : nextTime t dt = { t with start := t.start + dt, progress := 0 } := by
  have htol := tol_pos
  unfold nextTime
  rw [untilWindowEnd_step hp hle, TimeHandler.completeTimeWindow]
  rw [if_pos (by simp only [TimeHandler.progressBy, hp, equals_iff]; constructor <;> linarith)]
  rfl

theorem AfterIterG.atStartF {c : Config} {mt : Option ℚ} {δ dt : ℚ} {s s' : State D} {b : Bool}
    (h : AtStartF mt δ s) (hon : s.ongoing c) (hle : dt ≤ s.time.untilEnd)
    (hδ : δ ≤ dt ∨ dt = s.time.untilEnd) (hlt : dt < dblMax)
    (ha : AfterIterG c dt undefinedSize s s' b) : AtStartF mt δ s' := by
  have htol := tol_pos
  have ht := ha.time
  have hwi := ha.windows
  have hit := ha.iters
  cases b with
  | false =>
    simp only [Bool.false_eq_true, if_false, add_zero] at ht hwi hit
    exact ⟨by rw [ht, h.maxTime], ha.size, ha.nextSize, by rw [ht, h.progress],
      by rw [hwi]; exact h.windows, by omega, by rw [ht, hwi]; exact h.start,
      by rw [ht]; exact h.below⟩
  | true =>
    simp only [if_true] at ht hwi hit
    rw [nextTime_step h.progress hle] at ht
    refine ⟨by rw [ht]; exact h.maxTime, ha.size, ha.nextSize, by rw [ht], by omega, ?_, ?_, ?_⟩
    · rw [hit]; split
      · exact le_refl _
      · exact h.iters
    · have hst := h.start.resolve_right hon.2
      cases hm : s.time.maxTime with
      | none =>
        left
        have : δ ≤ dt := by
          rcases hδ with h1 | h1
          · exact h1
          · simp only [TimeHandler.untilEnd, hm] at h1
            exact absurd h1 (ne_of_lt hlt)
        rw [ht, hwi]; push_cast; linarith
      | some m =>
        rcases hδ with h1 | h1
        · left; rw [ht, hwi]; push_cast; linarith
        · right
          rw [ht]
          simp only [TimeHandler.untilEnd, hm, TimeHandler.untilTime, h.progress] at h1
          refine TimeHandler.reachedEnd_iff.mpr ⟨m, hm, ?_, ?_⟩ <;>
            simp only [TimeHandler.time] <;> linarith
    · intro m hm
      have hmm : s.time.maxTime = some m := by rw [h.maxTime, hm]
      simp only [TimeHandler.untilEnd, hmm, TimeHandler.untilTime, h.progress] at hle
      rw [ht]; show s.time.start + dt ≤ m; linarith

/-- The second participant is about to receive the window size and the data of the first
participant's iteration. -/
def WaitingF (cB : Config) (planB : Plan D) (k : ℕ) (sA : State D)
    (histB : List (State D)) (prev : Option ℚ) (P : State D → Prop)
    (q : Prog Bool (Msg D) (List (State D))) : Prop :=
  ∃ k1, q = .recv true k1 ∧ ∀ dt, tol < dt → (∀ p, prev = some p → dt = p) →
    ∃ k2, k1 (.size dt) = .recv true k2 ∧ ∀ d, ∃ sB,
      k2 (.data d) = coupled cB (Serial.hooks cB) planB k sB histB ∧
      sB.recvBuf = d ∧ sB.size = dt ∧ sB.nextSize = dt ∧ Agree sA sB ∧ P sB

/-- In every iteration the second participant's window size is the first participant's step, and a
completed window advances the time by exactly this step. -/
def Follows (planA : Plan D) : List (State D) → List (State D) → Prop
  | sA' :: sA :: hA, sB' :: sB :: hB =>
    (∃ i, lastStep (planA (sA :: hA)) = some i ∧ sB.size = i.dt ∧
      (sA'.complete = true → sA'.time.start = sA.time.start + i.dt ∧
        sB'.time.start = sB.time.start + i.dt)) ∧
    Follows planA (sA :: hA) (sB :: hB)
  | _, _ => True

theorem Serial.first_meet {cA cB : Config} {mt : Option ℚ} {δ : ℚ} {W N : ℕ}
    {planA planB : Plan D}
    (hp : FirstPair cA cB) (okA : FirstPlan cA δ planA) (okB : PlanOk cB planB)
    (hW : WindowBoundF cA mt δ W) (hN : IterBound cB planB N) :
    ∀ (k : ℕ) (sA : State D) (histA histB : List (State D)) (q : Prog Bool (Msg D) (List (State D)))
      (prev : Option ℚ) (P : State D → Prop),
      AtStartF mt δ sA → sA.ongoing cA → sA.iters ≤ N →
      (cB.implicit = false → sA.iters = 1) →
      remaining W N sA < k →
      (∀ i p, lastStep (planA (sA :: histA)) = some i → prev = some p → i.dt = p) →
      Wrote planA false (sA :: histA) →
      WaitingF cB planB k sA histB prev (fun sB => (Wrote planB true (sB :: histB) ∧
        Decided cB planB (sB :: histB) ∧ Follows planA (sA :: histA) (sB :: histB)) ∧ P sB) q →
      ∃ lA lB sB, Meet (coupled cA (Serial.hooks cA) planA k sA histA) q
          (lA ++ sA :: histA) (lB ++ sB :: histB) ∧ Agree sA sB ∧
        List.Forall₂ ExchangedSerial lA lB ∧
        List.Forall₂ (fun a b => b.recvBuf = a.sendBuf) lA (lB ++ [sB]).tail ∧
        Wrote planA false (lA ++ sA :: histA) ∧
        Wrote planB true (lB ++ sB :: histB) ∧ Decided cB planB (lB ++ sB :: histB) ∧
        Follows planA (lA ++ sA :: histA) (lB ++ sB :: histB) ∧
        (∀ s ∈ (lA ++ sA :: histA).head?, ¬ s.ongoing cA) ∧ P sB := by
  intro k
  have htol := tol_pos
  have hfB : ¬ cB.first = true := by rw [hp.firstB]; exact Bool.false_ne_true
  induction k with
  | zero => intro sA histA histB q prev P _ _ _ _ h0; omega
  | succ k ih =>
    intro sA histA histB q prev P stA hon hi hexp hk hprev wrA hwait
    obtain ⟨k1, rfl, hk1⟩ := hwait
    obtain ⟨iA, hplA, hdt, hdtle, hdtlt, hδ⟩ := okA.step sA histA hon (undefined_noSize stA.size)
      (stA.lt_end hon)
    have hiA : lastStep (planA (sA :: histA)) = some iA := by rw [hplA]; rfl
    have eA := iterate_nosize (h := Serial.hooks cA) hon hdt hdtle hdtlt (undefined_noSize stA.size)
    obtain ⟨k2, ek2, hk2⟩ := hk1 iA.dt hdt (fun p hpv => hprev iA p hiA hpv)
    obtain ⟨sB, eqB, recvB, szB, nszB, ag, ⟨wrB, deB, foB⟩, hP⟩ := hk2 iA.value
    have honB := (ag.ongoing hp.maxWindows).mp hon
    have hpB : sB.time.progress = 0 := by rw [← ag.time]; exact stA.progress
    have hsB : sB.hasSize := by
      unfold State.hasSize; rw [szB]; exact hasSize_of_pos (by linarith)
    set w := iA.dt with hw
    have hLA : sA.time.untilWindowEnd w = w := untilWindowEnd_step stA.progress hdtle
    have hLB : sB.time.untilWindowEnd w = w := by rw [← ag.time]; exact hLA
    have hmsB : sB.maxStep cB = w := by rw [maxStep_of honB hsB, szB, hLB]
    obtain ⟨iB, hiB, eB⟩ := iterate_eq (h := Serial.hooks cB) (L := w)
      (hmsB ▸ okB sB histB honB hpB) hmsB hdt honB hsB
    have aB : ∀ s : State D, s.size = sB.size → s.time = sB.time.progressBy w → s.atWindowEnd :=
      fun s h1 h2 => atWindowEnd_of (by unfold State.hasSize; rw [h1]; exact hsB)
        (h1.trans szB) h2 hLB
    have fB : ∀ s : State D, s.size = sB.size → s.time = sB.time.progressBy w →
        s.time.reachedEndOfWindow s.size := by
      intro s h1 h2
      rw [h1, h2, szB]; exact reachedEndOfWindow_exact hLB
    -- state of the second participant after its first exchange
    obtain ⟨sB2, hsB2, hfirstB⟩ : ∃ sB2, sB2 = (if cB.implicit then
        doImplicitStep cB false iB (atEnd sB w iB.value) else atEnd sB w iB.value) ∧
        Serial.first cB iB (atEnd sB w iB.value) =
          (if cB.implicit then .send true (.conv sB2.converged) (.send true (.data sB2.sendBuf) (ret sB2))
            else .send true (.data sB2.sendBuf) (ret sB2)) := by
      refine ⟨_, rfl, ?_⟩
      unfold Serial.first
      rw [if_neg hfB]
      by_cases himp : cB.implicit = true
      · simp only [if_pos himp, ensure]
        rw [if_pos (aB (doImplicitStep cB false iB (atEnd sB w iB.value)) rfl rfl)]
      · simp only [if_neg himp, ensure]
        rw [if_pos (aB (atEnd sB w iB.value) rfl rfl)]
    have e2time : sB2.time = sB.time.progressBy w := by rw [hsB2]; split <;> rfl
    have e2size : sB2.size = sB.size := by rw [hsB2]; split <;> rfl
    have e2next : sB2.nextSize = sB.nextSize := by rw [hsB2]; split <;> rfl
    have e2win : sB2.windows = sB.windows + 1 := by rw [hsB2]; split <;> rfl
    have e2it : sB2.iters = sB.iters := by rw [hsB2]; split <;> rfl
    have e2rec : sB2.received = false := by rw [hsB2]; split <;> rfl
    have e2com : sB2.complete = false := by rw [hsB2]; split <;> rfl
    have e2req : sB2.reqInit = false ∧ sB2.reqRead = false ∧ sB2.reqWrite = false := by
      rw [hsB2]; split <;> exact ⟨rfl, rfl, rfl⟩
    set b := (!cB.implicit || decision cB sB.iters iB.verdict) with hb
    have e2conv : (!cB.implicit || sB2.converged) = b := by
      rw [hb, hsB2]
      by_cases himp : cB.implicit = true
      · rw [if_pos himp]; rfl
      · simp only [Bool.not_eq_true] at himp; rw [himp]; rfl
    have e2send : b = true → sB2.sendBuf = iB.value := by
      intro h
      rw [← e2conv] at h
      rw [hsB2] at h ⊢
      by_cases himp : cB.implicit = true
      · rw [if_pos himp] at h ⊢
        rw [himp] at h
        simp only [Bool.not_true, Bool.false_or] at h
        unfold doImplicitStep; exact if_pos h
      · rw [if_neg himp]; rfl
    -- the first participant
    set sA1 : State D := { atEnd sA w iA.value with size := w, nextSize := undefinedSize } with hsA1
    have hsz1 : ∀ s : State D, s.size = w → s.hasSize := by
      intro s h; unfold State.hasSize; rw [h]; exact hasSize_of_pos (by linarith)
    have aA : ∀ s : State D, s.size = w → s.time = sA.time.progressBy w → s.atWindowEnd :=
      fun s h1 h2 => atWindowEnd_of (hsz1 s h1) h1 h2 hLA
    have fA : ∀ s : State D, s.size = w → s.time = sA.time.progressBy w →
        s.time.reachedEndOfWindow s.size := by
      intro s h1 h2
      rw [h1, h2]; exact reachedEndOfWindow_exact hLA
    set sA2 : State D := { sA1 with
      converged := if cA.implicit then sB2.converged else sA.converged,
      recvBuf := sB2.sendBuf, received := true } with hsA2
    obtain ⟨sA', eA', afA, sbA, rbA, -⟩ := finishWindow_eqG (ι := Bool) (c := cA) (w := w)
      (w' := undefinedSize) (s := sA)
      (s2 := sA2) stA.progress hLA hdt rfl rfl rfl rfl rfl (Or.inl rfl)
    have hbA : (!cA.implicit || sA2.converged) = b := by
      rw [← e2conv, hsA2, ← hp.implicit]
      cases cA.implicit <;> simp
    rw [hbA] at afA
    have hAprog : ∀ {f : State D → Prog Bool (Msg D) (List (State D))}
        {g : State D → Prog Bool (Msg D) (List (State D))} {x y : List (State D)},
        Meet (f sA') (g sB2) x y →
        Meet (((secondExchange cA (Serial.hooks cA) iA sA1)).bind f)
          ((Serial.first cB iB (atEnd sB w iB.value)).bind g) x y := by
      intro f g x y hmeet
      rw [secondExchange_end (by exact ⟨rfl, rfl, rfl⟩) rfl (fA sA1 rfl rfl), hfirstB]
      show Meet (((Serial.second cA iA sA1.clearActions).bind
        (finishWindow cA)).bind f) _ x y
      unfold Serial.second
      rw [if_pos hp.firstA]
      have fin : Meet ((((notify { sA1.clearActions with
          converged := if cA.implicit then sB2.converged else sA.converged,
          recvBuf := sB2.sendBuf } ret) : Prog Bool (Msg D) (State D)).bind (finishWindow cA)).bind f)
          (g sB2) x y := by
        have : (notify { sA1.clearActions with
          converged := if cA.implicit then sB2.converged else sA.converged,
          recvBuf := sB2.sendBuf } ret : Prog Bool (Msg D) (State D)) = ret sA2 := rfl
        rw [this, ret_bind, eA', ret_bind]
        exact hmeet
      by_cases himp : cB.implicit = true
      · have himpA : cA.implicit = true := by rw [hp.implicit]; exact himp
        rw [if_pos himp, if_pos himpA]
        refine .bwd ?_
        simp only [ensure]
        rw [if_pos (aA { sA1.clearActions with converged := sB2.converged } rfl rfl)]
        refine .bwd ?_
        rw [if_pos himpA] at fin
        exact fin
      · have himpA : ¬ cA.implicit = true := by rw [hp.implicit]; exact himp
        rw [if_neg himp, if_neg himpA]
        simp only [ensure]
        rw [if_pos (aA sA1.clearActions rfl rfl)]
        refine .bwd ?_
        rw [if_neg himpA] at fin
        exact fin
    have stA' := afA.atStartF stA hon hdtle hδ hdtlt
    have hbf : b = false → sA.iters < N := by
      intro h
      rw [hb] at h
      simp only [Bool.or_eq_false_iff, Bool.not_eq_false'] at h
      rcases Nat.lt_or_ge sA.iters N with h1 | h1
      · exact h1
      · have : sB.iters = N := by rw [← ag.iters]; omega
        have h2 := hN.2 h.1 sB histB iB this hiB
        rw [← this, h.2] at h2; cases h2
    have hexpA : cA.implicit = false → b = true ∧ sA.iters = 1 := by
      intro h; rw [hp.implicit] at h; exact ⟨by rw [hb, h]; rfl, hexp h⟩
    have hit' : sA'.iters ≤ N ∧ (cA.implicit = false → sA'.iters = 1) :=
      (remaining_lt (W := sA'.windows) afA hN.1 hi hexpA hbf (le_refl _)).2
    have startM : (secondExchange cB (Serial.hooks cB) iB sB2) =
        (Serial.second cB iB sB2.clearActions).bind (finishWindow cB) := by
      rw [secondExchange_end e2req e2com (fB sB2 e2size e2time)]; rfl
    -- reduce both programs to what follows the iteration
    have reduce : ∀ {x y : List (State D)},
        Meet (coupled cA (Serial.hooks cA) planA k sA' (sA :: histA))
          ((((Serial.second cB iB sB2.clearActions).bind (finishWindow cB))).bind
            fun s' => coupled cB (Serial.hooks cB) planB k s' (sB :: histB)) x y →
        Meet (coupled cA (Serial.hooks cA) planA (k + 1) sA histA) (.recv true k1) x y := by
      intro x y hm
      rw [← startM] at hm
      have hm2 := hAprog (f := fun s' => coupled cA (Serial.hooks cA) planA k s' (sA :: histA))
        (g := fun s => (secondExchange cB (Serial.hooks cB) iB s).bind
          fun s' => coupled cB (Serial.hooks cB) planB k s' (sB :: histB)) hm
      rw [coupled_ongoing hon, hplA, eA]
      have hf : (Serial.hooks cA).first iA (atEnd sA w iA.value) =
          .send false (.size w) (.send false (.data iA.value) (ret sA1)) := by
        show Serial.first cA iA _ = _
        unfold Serial.first Serial.sendSize
        rw [if_pos hp.firstA, if_pos hp.setsA]
        have hpr : (atEnd sA w iA.value).time.progress = w := by
          show sA.time.progress + w = w; rw [stA.progress]; ring
        rw [hpr]
        congr 1
        exact if_pos (aA sA1 rfl rfl)
      rw [hf]
      refine .fwd ?_
      rw [ek2]
      refine .fwd ?_
      rw [eqB]
      rw [coupled_ongoing honB, eB]
      simp only [bind_assoc, ret_bind]
      exact hm2
    have wrA' : Wrote planA false (sA' :: sA :: histA) := ⟨⟨iA, hiA, fun _ => sbA⟩, wrA⟩
    have hBcond : ∀ sB' w', AfterIterG cB w w' sB sB' b →
        ((sB2.clearActions.ongoing cB ∨ (cB.implicit = true ∧ sB2.clearActions.converged = false)) ↔
          sB'.ongoing cB) := by
      intro sB' w' afB
      cases hbv : b with
      | true =>
        rw [hbv] at afB
        have h1 := ongoing_next (s2 := sB2.clearActions) hpB afB (by rw [hLB]; exact e2time) e2win
        rw [h1]
        refine ⟨fun h => h.resolve_right ?_, Or.inl⟩
        rintro ⟨h2, h3⟩
        have h3' : sB2.converged = false := h3
        rw [hbv, h2, h3'] at e2conv
        cases e2conv
      | false =>
        rw [hbv] at afB
        refine ⟨fun _ => ongoing_repeat afB honB, fun _ => Or.inr ?_⟩
        rw [hbv] at e2conv
        simp only [Bool.or_eq_false_iff, Bool.not_eq_false'] at e2conv
        exact e2conv
    have hfol : ∀ sB' w', AfterIterG cB w w' sB sB' b →
        Follows planA (sA' :: sA :: histA) (sB' :: sB :: histB) := by
      intro sB' w' afB
      refine ⟨⟨iA, hiA, szB, fun hc => ?_⟩, foB⟩
      have hbt : b = true := by rw [← afA.complete]; exact hc
      have h1 := afA.time
      have h2 := afB.time
      rw [hbt, if_pos rfl] at h1 h2
      rw [nextTime_step stA.progress hdtle] at h1
      rw [nextTime_step hpB (by rw [← ag.time]; exact hdtle)] at h2
      rw [h1, h2]
      exact ⟨rfl, rfl⟩
    by_cases hon' : sA'.ongoing cA
    · -- another iteration follows
      have hwait' : WaitingF cB planB k sA' (sB :: histB) (if b then none else some w)
          (fun s => (Wrote planB true (s :: sB :: histB) ∧
            Decided cB planB (s :: sB :: histB) ∧
            Follows planA (sA' :: sA :: histA) (s :: sB :: histB)) ∧ s.sendBuf = sB2.sendBuf)
          ((((Serial.second cB iB sB2.clearActions).bind (finishWindow cB))).bind
            fun s' => coupled cB (Serial.hooks cB) planB k s' (sB :: histB)) := by
        have fin : ∀ dt d, ∃ sB', (finishWindow cB { sB2.clearActions with
              nextSize := dt, recvBuf := d, received := true } :
            Prog Bool (Msg D) (State D)) = ret sB' ∧ sB'.recvBuf = d ∧ AfterIterG cB w dt sB sB' b ∧
            sB'.sendBuf = sB2.sendBuf := by
          intro dt d
          obtain ⟨sB', eB', afB, sbB, rbB, -⟩ := finishWindow_eqG (ι := Bool) (c := cB) (w := w)
            (w' := dt) (s := sB)
            (s2 := { sB2.clearActions with nextSize := dt, recvBuf := d, received := true }) hpB hLB
            hdt e2time e2win (e2size.trans szB) rfl e2it
            (Or.inl rfl)
          have : (!cB.implicit || sB2.clearActions.converged) = b := e2conv
          exact ⟨sB', eB', rbB, by rw [← this]; exact afB, sbB⟩
        have hcond : sB2.clearActions.ongoing cB ∨
            (cB.implicit = true ∧ sB2.clearActions.converged = false) := by
          obtain ⟨sB', -, -, afB, -⟩ := fin w iA.value
          rw [hBcond sB' w afB]
          exact ((afA.agree hp.implicit ag afB).ongoing hp.maxWindows).mp hon'
        unfold Serial.second Serial.receiveSize
        rw [if_neg hfB, if_pos hcond, if_pos hp.receivesB]
        refine ⟨_, rfl, fun dt hdt' hallow => ⟨fun m => Prog.bind (Prog.bind (match m with
          | .data d => notify { sB2.clearActions with nextSize := dt, recvBuf := d } ret
          | _ => fail .assert) (finishWindow cB))
          (fun s' => coupled cB (Serial.hooks cB) planB k s' (sB :: histB)), ?_, fun d => ?_⟩⟩
        · have h1 : ¬ equals dt undefinedSize := by
            rw [equals_iff]; unfold undefinedSize; rintro ⟨_, h2⟩; linarith
          have h2 : sB2.clearActions.hasSize ∧ cB.implicit = true ∧ sB2.clearActions.converged = false →
              dt = sB2.clearActions.size := by
            rintro ⟨-, h1, h2⟩
            show dt = sB2.size
            have h2' : sB2.converged = false := h2
            have hbfv : b = false := by rw [← e2conv, h1, h2']; rfl
            rw [e2size, szB]
            exact hallow w (by rw [hbfv]; rfl)
          show Prog.bind (Prog.bind (ensure _ _ (ensure _ _ (ensure _ _ (recvData true _ _)))) _) _ = _
          simp only [ensure]
          rw [if_pos h1, if_pos h2,
            if_pos (aB { sB2.clearActions with nextSize := dt } e2size e2time)]
          rfl
        · obtain ⟨sB', eB', rbB, afB, sbB⟩ := fin dt d
          refine ⟨sB', ?_, rbB, afB.size, afB.nextSize, afA.agree hp.implicit ag afB, ⟨⟨⟨iB, hiB, ?_⟩, wrB⟩,
            ⟨⟨iB, hiB, afB.complete⟩, deB⟩, hfol sB' dt afB⟩, sbB⟩
          · show (Prog.bind (Prog.bind (notify { sB2.clearActions with nextSize := dt, recvBuf := d } ret) _) _) = _
            have : (notify { sB2.clearActions with nextSize := dt, recvBuf := d } ret :
                Prog Bool (Msg D) (State D)) =
              ret { sB2.clearActions with nextSize := dt, recvBuf := d, received := true } := if_pos e2rec
            rw [this, ret_bind, eB', ret_bind]
          · intro h
            rw [sbB]
            exact e2send (by rw [← afB.complete]; exact h.resolve_left (by simp))
      have hw' := stA'.windows_le hon' hW
      have hrem := (remaining_lt (W := W) afA hN.1 hi hexpA hbf hw').1
      obtain ⟨lA, lB, sB', hm, ag', hf, hf2, h1, h2, h3, h3', h4, h5⟩ := ih sA' (sA :: histA) (sB :: histB)
        _ _ _ stA' hon' hit'.1 (fun h => hit'.2 (by rw [hp.implicit]; exact h)) (by omega) (by
          intro i p hi' hpv
          cases hbv : b with
          | true => rw [hbv] at hpv; cases hpv
          | false =>
            rw [hbv] at hpv
            injection hpv with hpv
            rw [← hpv]
            exact okA.same sA' sA histA iA i (by rw [afA.complete, hbv])
              (by rw [afA.time, hbv]; rfl) hiA hi') wrA' hwait'
      refine ⟨lA ++ [sA'], lB ++ [sB'], sB, ?_, ag, ?_, ?_, ?_, ?_, ?_, ?_, ?_, hP⟩
      · have := reduce hm
        simpa only [List.append_assoc, List.singleton_append] using this
      · refine forall₂_append hf (List.Forall₂.cons ⟨ag', ?_⟩ List.Forall₂.nil)
        rw [rbA, h5]
      · have : (lB ++ [sB'] ++ [sB]).tail = (lB ++ [sB']).tail ++ [sB] := by cases lB <;> simp
        rw [this]
        exact forall₂_append hf2 (List.Forall₂.cons (recvB.trans sbA.symm) List.Forall₂.nil)
      all_goals simpa only [List.append_assoc, List.singleton_append]
    · -- the coupling ends
      have hbt : b = true := by
        by_contra h
        simp only [Bool.not_eq_true] at h
        rw [h] at afA
        exact hon' (ongoing_repeat afA hon)
      obtain ⟨sB', eB', afB, sbB, rbB, -⟩ := finishWindow_eqG (ι := Bool) (c := cB) (w := w)
        (w' := sB2.nextSize) (s := sB)
        (s2 := sB2.clearActions) hpB hLB
        hdt e2time e2win (e2size.trans szB) rfl e2it
        (Or.inr (by
          rw [hbt] at afA
          have h1 : sB2.ongoing cB ↔ sA'.ongoing cA := by
            have h2 := ongoing_next (s2 := sA2) stA.progress afA (by rw [hLA]; rfl) rfl
            rw [← h2]
            unfold State.ongoing
            have h3 : sA2.time = sB2.time := by
              rw [e2time, ← ag.time]; rfl
            have h4 : sA2.windows = sB2.windows := by rw [e2win, ← ag.windows]; rfl
            rw [h3, h4, hp.maxWindows]
          refine ⟨fun h => hon' (h1.mp h), fun h => ?_⟩
          rw [h, hbt] at e2conv
          exact e2conv))
      have hcc : (!cB.implicit || sB2.clearActions.converged) = b := e2conv
      rw [hcc] at afB
      have hoB : ¬ sB'.ongoing cB :=
        fun h => hon' (((afA.agree hp.implicit ag afB).ongoing hp.maxWindows).mpr h)
      have hrest : ¬ (sB2.clearActions.ongoing cB ∨
          (cB.implicit = true ∧ sB2.clearActions.converged = false)) := by
        rw [hBcond sB' _ afB]; exact hoB
      refine ⟨[sA'], [sB'], sB, ?_, ag, ?_, ?_, wrA', ?_, ?_, hfol sB' _ afB, by simpa using hon', hP⟩
      · refine reduce ?_
        unfold Serial.second
        rw [if_neg hfB, if_neg hrest, ret_bind, eB', ret_bind]
        cases k with
        | zero =>
          have h2 : 0 < remaining W N sA := by unfold remaining; omega
          omega
        | succ k =>
          unfold coupled
          rw [if_neg hon', if_neg hoB]
          exact .ret _ _
      · refine List.Forall₂.cons ⟨afA.agree hp.implicit ag afB, ?_⟩ List.Forall₂.nil
        rw [rbA, sbB]; rfl
      · exact List.Forall₂.cons (recvB.trans sbA.symm) List.Forall₂.nil
      · refine ⟨⟨iB, hiB, fun _ => ?_⟩, wrB⟩
        rw [sbB]; exact e2send hbt
      · exact ⟨⟨iB, hiB, afB.complete⟩, deB⟩

end Verif
