import Verif.Protocol.Sync

/-!
# Parallel coupling: the two programs match (helper lemmas)
-/

set_option autoImplicit false

namespace Verif

open Prog

variable {D : Type}

theorem atWindowEnd_of {s : State D} {t : TimeHandler} {w L : ℚ} (hsz : s.hasSize)
    (hw : s.size = w) (ht : s.time = t.progressBy L) (hL : t.untilWindowEnd w = L) :
    s.atWindowEnd := by
  have htol := tol_pos
  unfold State.atWindowEnd State.windowEndTime
  rw [if_pos hsz, hw, ht, TimeHandler.untilWindowEnd_progressBy, hL, equals_iff]
  constructor <;> linarith

/-- What one iteration of both participants does. -/
structure IterFacts (cA cB : Config) (w : ℚ) (sA sB sA' sB' : State D) (iA iB : StepIn D) (b : Bool) :
    Prop where
  afterA : AfterIter cA w sA sA' b
  afterB : AfterIter cB w sB sB' b
  sendA : sA'.sendBuf = iA.value
  sendB : b = true → sB'.sendBuf = iB.value
  recvA : sA'.recvBuf = sB'.sendBuf
  recvB : b = true → sB'.recvBuf = iA.value

theorem Parallel.iter_meet {cA cB : Config} {mt : Option ℚ} {w : ℚ} {planA planB : Plan D}
    {sA sB : State D} {hA hB : List (State D)}
    (hp : FixedPair cA cB) (hw : tol < w) (okA : PlanOk cA planA) (okB : PlanOk cB planB)
    (stA : AtStart mt w sA) (stB : AtStart mt w sB) (ag : Agree sA sB) (hon : sA.ongoing cA) :
    ∃ iA iB sA' sB', lastStep (planA (sA :: hA)) = some iA ∧ lastStep (planB (sB :: hB)) = some iB ∧
      Meet (iterate cA (Parallel.hooks cA) (planA (sA :: hA)) sA)
        (iterate cB (Parallel.hooks cB) (planB (sB :: hB)) sB) sA' sB' ∧
      IterFacts cA cB w sA sB sA' sB' iA iB (!cB.implicit || decision cB sB.iters iB.verdict) := by
  have honB := (ag.ongoing hp.maxWindows).mp hon
  have hfB : ¬ cB.first = true := by rw [hp.firstB]; exact Bool.false_ne_true
  obtain ⟨iA, hiA, eA⟩ := iterate_eq (h := Parallel.hooks cA) (L := sA.time.untilWindowEnd w)
    (stA.maxStep hw hon ▸ okA sA hA hon stA.progress)
    (stA.maxStep hw hon) (stA.pos hw hon) hon (stA.hasSize hw)
  obtain ⟨iB, hiB, eB⟩ := iterate_eq (h := Parallel.hooks cB) (L := sB.time.untilWindowEnd w)
    (stB.maxStep hw honB ▸ okB sB hB honB stB.progress)
    (stB.maxStep hw honB) (stB.pos hw honB) honB (stB.hasSize hw)
  set LA := sA.time.untilWindowEnd w with hLA
  set LB := sB.time.untilWindowEnd w with hLB
  have hszA := stA.hasSize hw
  have hszB := stB.hasSize hw
  -- first exchange
  have aA : ∀ s : State D, s.size = sA.size → s.time = sA.time.progressBy LA → s.atWindowEnd :=
    fun s h1 h2 => atWindowEnd_of (by unfold State.hasSize; rw [h1]; exact hszA)
      (h1.trans stA.size) h2 hLA.symm
  have aB : ∀ s : State D, s.size = sB.size → s.time = sB.time.progressBy LB → s.atWindowEnd :=
    fun s h1 h2 => atWindowEnd_of (by unfold State.hasSize; rw [h1]; exact hszB)
      (h1.trans stB.size) h2 hLB.symm
  have m1 : Meet (Parallel.first cA iA (atEnd sA LA iA.value)) (Parallel.first cB iB (atEnd sB LB iB.value))
      (atEnd sA LA iA.value)
      { atEnd sB LB iB.value with recvBuf := iA.value, received := true } := by
    unfold Parallel.first ensure
    rw [if_pos (aA (atEnd sA LA iA.value) rfl rfl), if_pos (aB (atEnd sB LB iB.value) rfl rfl), if_pos hp.firstA,
      if_neg hfB]
    refine .fwd ?_
    simp only [notify, ensure, atEnd, if_true]
    exact .ret _ _
  have fA : (atEnd sA LA iA.value).time.reachedEndOfWindow (atEnd sA LA iA.value).size := by
    show (sA.time.progressBy LA).reachedEndOfWindow sA.size
    rw [stA.size]; exact reachedEndOfWindow_exact hLA.symm
  have fB : ∀ s : State D, s.size = sB.size → s.time = sB.time.progressBy LB →
      s.time.reachedEndOfWindow s.size := by
    intro s h1 h2
    rw [h1, h2, stB.size]; exact reachedEndOfWindow_exact hLB.symm
  -- second exchange
  by_cases himp : cB.implicit = true
  · have himpA : cA.implicit = true := by rw [hp.implicit]; exact himp
    set sB1 : State D := { atEnd sB LB iB.value with recvBuf := iA.value, received := true } with hsB1
    set sB2 := doImplicitStep cB true iB sB1 with hsB2
    set sA2 : State D := { atEnd sA LA iA.value with converged := sB2.converged,
                                                     recvBuf := sB2.sendBuf, received := true }
      with hsA2
    have hconv : sB2.converged = decision cB sB.iters iB.verdict := rfl
    have m2 : Meet (Parallel.second cA iA (atEnd sA LA iA.value).clearActions)
        (Parallel.second cB iB sB1.clearActions) sA2 sB2 := by
      unfold Parallel.second ensure
      rw [if_pos (aA (atEnd sA LA iA.value).clearActions rfl rfl), if_pos (aB sB1.clearActions rfl rfl), if_pos hp.firstA,
        if_neg hfB, if_pos himp, if_pos himpA]
      refine .bwd (.bwd ?_)
      simp only [notify, ensure, atEnd, if_true, State.clearActions]
      exact .ret _ _
    obtain ⟨sA', eA', afA, sbA, rbA, cvA⟩ := finishWindow_eq (ι := Bool) (c := cA) (w := w) (s := sA)
      (s2 := sA2) stA.progress hLA.symm (stA.pos hw hon) rfl rfl stA.size stA.nextSize rfl (Or.inl rfl)
    obtain ⟨sB', eB', afB, sbB, rbB, cvB⟩ := finishWindow_eq (ι := Bool) (c := cB) (w := w) (s := sB)
      (s2 := sB2) stB.progress hLB.symm (stB.pos hw honB) rfl rfl stB.size stB.nextSize rfl (Or.inl rfl)
    refine ⟨iA, iB, sA', sB', hiA, hiB, ?_, ?_⟩
    · rw [eA, eB]
      refine m1.bind ?_
      rw [secondExchange_end (by exact ⟨rfl, rfl, rfl⟩) rfl fA,
        secondExchange_end (by exact ⟨rfl, rfl, rfl⟩) rfl (fB sB1 rfl rfl)]
      refine m2.bind ?_
      rw [eA', eB']
      exact .ret _ _
    · rw [himp]
      rw [himpA] at afA
      rw [himp] at afB
      have hcvA : sA2.converged = decision cB sB.iters iB.verdict := rfl
      rw [hcvA] at afA
      rw [hconv] at afB
      refine ⟨afA, afB, sbA, fun h => ?_, by rw [rbA, sbB], fun h => ?_⟩
      · rw [sbB]; simp only [Bool.not_true, Bool.false_or, ← hconv] at h
        rw [hsB2]; unfold doImplicitStep
        exact if_pos (show sB2.converged = true from h)
      · rw [rbB]; simp only [Bool.not_true, Bool.false_or, ← hconv] at h
        rw [hsB2]; unfold doImplicitStep
        exact if_pos (show (sB2.converged || !true) = true by rw [h]; rfl)
  · have himp' : cB.implicit = false := by simpa using himp
    have himpA : cA.implicit = false := by rw [hp.implicit]; exact himp'
    have hiA' : ¬ cA.implicit = true := by rw [himpA]; exact Bool.false_ne_true
    set sB2 : State D := { atEnd sB LB iB.value with recvBuf := iA.value, received := true } with hsB2
    set sA2 : State D := { atEnd sA LA iA.value with recvBuf := iB.value, received := true } with hsA2
    have m2 : Meet (Parallel.second cA iA (atEnd sA LA iA.value).clearActions)
        (Parallel.second cB iB sB2.clearActions) sA2 sB2 := by
      unfold Parallel.second ensure
      rw [if_pos (aA (atEnd sA LA iA.value).clearActions rfl rfl), if_pos (aB sB2.clearActions rfl rfl), if_pos hp.firstA,
        if_neg hfB, if_neg himp,
        if_neg hiA']
      refine .bwd ?_
      simp only [notify, ensure, atEnd, if_true, State.clearActions]
      exact .ret _ _
    obtain ⟨sA', eA', afA, sbA, rbA, cvA⟩ := finishWindow_eq (ι := Bool) (c := cA) (w := w) (s := sA)
      (s2 := sA2) stA.progress hLA.symm (stA.pos hw hon) rfl rfl stA.size stA.nextSize rfl (Or.inl rfl)
    obtain ⟨sB', eB', afB, sbB, rbB, cvB⟩ := finishWindow_eq (ι := Bool) (c := cB) (w := w) (s := sB)
      (s2 := sB2) stB.progress hLB.symm (stB.pos hw honB) rfl rfl stB.size stB.nextSize rfl (Or.inl rfl)
    refine ⟨iA, iB, sA', sB', hiA, hiB, ?_, ?_⟩
    · rw [eA, eB]
      refine m1.bind ?_
      rw [secondExchange_end (by exact ⟨rfl, rfl, rfl⟩) rfl fA,
        secondExchange_end (by exact ⟨rfl, rfl, rfl⟩) rfl (fB sB2 rfl rfl)]
      refine m2.bind ?_
      rw [eA', eB']
      exact .ret _ _
    · rw [himp']
      rw [himpA] at afA
      rw [himp'] at afB
      exact ⟨afA, afB, sbA, fun _ => sbB, by rw [rbA, sbB]; rfl, fun _ => rbB⟩

theorem forall₂_append {α β : Type} {R : α → β → Prop} {a c : List α} {b d : List β}
    (h1 : List.Forall₂ R a b) (h2 : List.Forall₂ R c d) : List.Forall₂ R (a ++ c) (b ++ d) := by
  induction h1 with
  | nil => exact h2
  | cons h _ ih => exact .cons h ih

/-- Agreement after an iteration, including the exchanged data. -/
structure Exchanged (a b : State D) : Prop extends Agree a b where
  recvA : a.recvBuf = b.sendBuf
  recvB : b.complete = true → b.recvBuf = a.sendBuf

theorem Parallel.coupled_meet {cA cB : Config} {mt : Option ℚ} {w : ℚ} {W N : ℕ}
    {planA planB : Plan D}
    (hp : FixedPair cA cB) (hw : tol < w) (okA : PlanOk cA planA) (okB : PlanOk cB planB)
    (hW : WindowBound cA mt w W) (hN : IterBound cB planB N) :
    ∀ (k : ℕ) (sA sB : State D) (histA histB : List (State D)),
      AtStart mt w sA → AtStart mt w sB → Agree sA sB → sA.iters ≤ N →
      (cB.implicit = false → sB.iters = 1) →
      (sA.ongoing cA → remaining W N sA < k) → 0 < k →
      Wrote planA false (sA :: histA) → Wrote planB true (sB :: histB) →
      Decided cB planB (sB :: histB) →
      ∃ lA lB, Meet (coupled cA (Parallel.hooks cA) planA k sA histA)
          (coupled cB (Parallel.hooks cB) planB k sB histB)
          (lA ++ sA :: histA) (lB ++ sB :: histB) ∧
        List.Forall₂ Exchanged lA lB ∧ Wrote planA false (lA ++ sA :: histA) ∧
        Wrote planB true (lB ++ sB :: histB) ∧ Decided cB planB (lB ++ sB :: histB) ∧
        (∀ s ∈ (lA ++ sA :: histA).head?, ¬ s.ongoing cA) := by
  intro k
  induction k with
  | zero => intro sA sB histA histB _ _ _ _ _ _ h0; omega
  | succ k ih =>
    intro sA sB histA histB stA stB ag hi hexp hk _ wrA wrB deB
    unfold coupled
    by_cases hon : sA.ongoing cA
    · have honB := (ag.ongoing hp.maxWindows).mp hon
      rw [if_pos hon, if_pos honB]
      obtain ⟨iA, iB, sA', sB', hiA, hiB, hmeet, facts⟩ :=
        Parallel.iter_meet (hA := histA) (hB := histB) hp hw okA okB stA stB ag hon
      have stA' := facts.afterA.atStart stA hon
      have stB' := facts.afterB.atStart stB honB
      have ag' := facts.afterA.agree hp.implicit ag facts.afterB
      set b := (!cB.implicit || decision cB sB.iters iB.verdict) with hb
      have hbf : b = false → sA.iters < N := by
        intro h
        rw [hb] at h
        simp only [Bool.or_eq_false_iff, Bool.not_eq_false'] at h
        rcases Nat.lt_or_ge sA.iters N with h1 | h1
        · exact h1
        · have : sB.iters = N := by rw [← ag.iters]; omega
          have h2 := hN.2 h.1 sB histB iB this hiB
          rw [← this, h.2] at h2; cases h2
      have hexpA : cA.implicit = false → b = true ∧ sA.iters = 1 := by
        intro h; rw [hp.implicit] at h; exact ⟨by rw [hb, h]; rfl, by rw [ag.iters]; exact hexp h⟩
      have hit' : sA'.iters ≤ N ∧ (cA.implicit = false → sA'.iters = 1) := by
        have := remaining_lt (W := sA'.windows) facts.afterA hN.1 hi hexpA hbf (le_refl _)
        exact this.2
      obtain ⟨lA, lB, hm, hf, h1, h2, h3, h4⟩ := ih sA' sB' (sA :: histA) (sB :: histB) stA' stB' ag'
        hit'.1 (fun h => by rw [← ag'.iters]; exact hit'.2 (by rw [hp.implicit]; exact h))
        (fun hon' => by
          have hw' := stA'.windows_le hw hon' hW
          have := (remaining_lt (W := W) facts.afterA hN.1 hi hexpA hbf hw').1
          have := hk hon
          omega)
        (by have := hk hon
            have h2 : 0 < remaining W N sA := by unfold remaining; omega
            omega)
        ⟨⟨iA, hiA, fun _ => facts.sendA⟩, wrA⟩
        ⟨⟨iB, hiB, fun h => facts.sendB (by
          rw [← facts.afterB.complete]; exact h.resolve_left (by simp))⟩, wrB⟩
        ⟨⟨iB, hiB, facts.afterB.complete⟩, deB⟩
      refine ⟨lA ++ [sA'], lB ++ [sB'], ?_, ?_, ?_, ?_, ?_, ?_⟩
      · simp only [List.append_assoc, List.singleton_append]
        exact hmeet.bind hm
      · refine forall₂_append hf (List.Forall₂.cons ⟨ag', facts.recvA, fun h => ?_⟩ List.Forall₂.nil)
        rw [facts.recvB (by rw [← facts.afterB.complete]; exact h), facts.sendA]
      all_goals simpa only [List.append_assoc, List.singleton_append]
    · have honB : ¬ sB.ongoing cB := fun h => hon ((ag.ongoing hp.maxWindows).mpr h)
      rw [if_neg hon, if_neg honB]
      exact ⟨[], [], .ret _ _, List.Forall₂.nil, wrA, wrB, deB, by simpa using hon⟩

/-- `initialize` of both participants. -/
theorem Parallel.init_meet {cA cB : Config} {mt : Option ℚ} {w : ℚ} {dA dB : D}
    (hp : FixedPair cA cB) (hmt : ∀ m, mt = some m → 0 < m) :
    ∃ sA sB, Meet (initScheme cA (Parallel.hooks cA) (constructed cA mt w dA).fulfilAll)
        (initScheme cB (Parallel.hooks cB) (constructed cB mt w dB).fulfilAll) sA sB ∧
      AtStart mt w sA ∧ AtStart mt w sB ∧ Agree sA sB ∧ sA.iters = 1 ∧
      sA.recvBuf = (if cA.receivesInit then dB else dA) ∧
      sB.recvBuf = (if cB.receivesInit then dA else dB) := by
  set iA : State D := { (constructed cA mt w dA).fulfilAll with
    time := (constructed cA mt w dA).fulfilAll.time.resetTo 0, windows := 1, received := false,
    reqWrite := (constructed cA mt w dA).fulfilAll.reqWrite || cA.implicit } with hiA
  set iB : State D := { (constructed cB mt w dB).fulfilAll with
    time := (constructed cB mt w dB).fulfilAll.time.resetTo 0, windows := 1, received := false,
    reqWrite := (constructed cB mt w dB).fulfilAll.reqWrite || cB.implicit } with hiB
  refine ⟨if cA.receivesInit then { iA with recvBuf := dB, received := true } else iA,
    if cB.receivesInit then { iB with recvBuf := dA, received := true } else iB, ?_, ?_, ?_, ?_, ?_,
    ?_, ?_⟩
  · show Meet (Parallel.initial cA iA) (Parallel.initial cB iB) _ _
    unfold Parallel.initial
    simp only [hp.firstA, hp.firstB, if_true, Bool.false_eq_true, if_false, hp.initAB, hp.initBA]
    cases hBr : cB.receivesInit <;> cases hAr : cA.receivesInit <;>
      simp only [Bool.false_eq_true, if_true, if_false]
    · exact .ret _ _
    · exact .bwd (.ret _ _)
    · exact .fwd (.ret _ _)
    · exact .fwd (.bwd (.ret _ _))
  all_goals cases cB.receivesInit <;> cases cA.receivesInit <;>
    simp only [Bool.false_eq_true, if_true, if_false] <;>
    first
    | rfl
    | exact started_atStart hmt rfl rfl rfl rfl rfl
    | exact ⟨rfl, rfl, rfl, rfl⟩

end Verif
