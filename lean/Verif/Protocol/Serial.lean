import Verif.Protocol.Parallel

/-!
# Serial coupling: the two programs match (helper lemmas)

The second participant receives the data of the next iteration at the end of its own iteration, so
the programs are matched with the second participant waiting in that receive.
-/

set_option autoImplicit false

namespace Verif

open Prog

variable {D : Type}

/-- The state in which the second serial participant decides whether another iteration follows and
the state after the window agree on `isCouplingOngoing`. -/
theorem ongoing_next {c : Config} {w w' : ℚ} {s s2 s' : State D}
    (hp0 : s.time.progress = 0) (ha : AfterIterG c w w' s s' true)
    (htime : s2.time = s.time.progressBy (s.time.untilWindowEnd w))
    (hwin : s2.windows = s.windows + 1) : s2.ongoing c ↔ s'.ongoing c := by
  have htol := tol_pos
  have h1 : s'.windows = s2.windows := by rw [ha.windows, hwin]; rfl
  have h2 : s'.time.reachedEnd ↔ s2.time.reachedEnd := by
    have ht := ha.time
    simp only [if_true] at ht
    rw [ht, htime, nextTime, TimeHandler.completeTimeWindow]
    split
    · next heq =>
      cases hm : s.time.maxTime with
      | none =>
        rw [TimeHandler.untilWindowEnd_none hm, TimeHandler.reachedEnd_iff,
          TimeHandler.reachedEnd_iff]
        constructor <;> rintro ⟨m, hm', _⟩ <;>
          (simp only [TimeHandler.progressBy, hm] at hm'; cases hm')
      | some m =>
        rw [TimeHandler.reachedEnd_iff, TimeHandler.reachedEnd_iff]
        simp only [TimeHandler.progressBy, TimeHandler.time, hp0, hm, equals_iff,
          Option.some.injEq, zero_add, add_zero] at heq ⊢
        rw [TimeHandler.untilWindowEnd_some hm] at heq ⊢
        simp only [TimeHandler.time, hp0, add_zero, sub_zero] at heq ⊢
        rcases le_total w (m - s.time.start) with hc | hc
        · rw [min_eq_left hc]
        · rw [min_eq_right hc] at heq ⊢
          constructor
          · rintro ⟨_, rfl, h1, h2⟩; exact ⟨m, rfl, by linarith, by linarith⟩
          · rintro ⟨_, rfl, h1, h2⟩; exact ⟨m, rfl, by linarith [heq.1], by linarith [heq.1, heq.2]⟩
    · rw [TimeHandler.reachedEnd_iff, TimeHandler.reachedEnd_iff]
      simp only [TimeHandler.progressBy, TimeHandler.time, hp0, zero_add, add_zero]
  unfold State.ongoing
  rw [h1, h2]

theorem ongoing_repeat {c : Config} {w w' : ℚ} {s s' : State D} (ha : AfterIterG c w w' s s' false)
    (h : s.ongoing c) : s'.ongoing c := by
  have h1 := ha.time
  have h2 := ha.windows
  simp only [Bool.false_eq_true, if_false, add_zero] at h1 h2
  unfold State.ongoing at h ⊢
  rw [h1, h2]; exact h

/-- The second participant is about to receive the data of the first participant's iteration `sA`. -/
def Waiting (cB : Config) (mt : Option ℚ) (w : ℚ) (planB : Plan D) (k : ℕ) (sA : State D)
    (histB : List (State D)) (P : State D → Prop) (q : Prog Bool (Msg D) (List (State D))) : Prop :=
  ∃ k', q = .recv true k' ∧ ∀ d, ∃ sB, k' (.data d) = coupled cB (Serial.hooks cB) planB k sB histB ∧
    sB.recvBuf = d ∧ AtStart mt w sB ∧ Agree sA sB ∧ P sB

/-- Agreement after an iteration of a serial scheme. -/
structure ExchangedSerial (a b : State D) : Prop extends Agree a b where
  recvA : a.recvBuf = b.sendBuf

theorem Serial.coupled_meet {cA cB : Config} {mt : Option ℚ} {w : ℚ} {W N : ℕ}
    {planA planB : Plan D}
    (hp : FixedPair cA cB) (hw : tol < w) (okA : PlanOk cA planA) (okB : PlanOk cB planB)
    (hW : WindowBound cA mt w W) (hN : IterBound cB planB N) :
    ∀ (k : ℕ) (sA : State D) (histA histB : List (State D)) (q : Prog Bool (Msg D) (List (State D)))
      (P : State D → Prop),
      AtStart mt w sA → sA.ongoing cA → sA.iters ≤ N →
      (cB.implicit = false → sA.iters = 1) →
      remaining W N sA < k →
      Wrote planA false (sA :: histA) →
      Waiting cB mt w planB k sA histB (fun sB => (Wrote planB true (sB :: histB) ∧
        Decided cB planB (sB :: histB)) ∧ P sB) q →
      ∃ lA lB sB, Meet (coupled cA (Serial.hooks cA) planA k sA histA) q
          (lA ++ sA :: histA) (lB ++ sB :: histB) ∧ Agree sA sB ∧
        List.Forall₂ ExchangedSerial lA lB ∧
        List.Forall₂ (fun a b => b.recvBuf = a.sendBuf) lA (lB ++ [sB]).tail ∧
        Wrote planA false (lA ++ sA :: histA) ∧
        Wrote planB true (lB ++ sB :: histB) ∧ Decided cB planB (lB ++ sB :: histB) ∧
        (∀ s ∈ (lA ++ sA :: histA).head?, ¬ s.ongoing cA) ∧ P sB := by
  intro k
  have hfB : ¬ cB.first = true := by rw [hp.firstB]; exact Bool.false_ne_true
  have hsA : ¬ cA.setsSize = true := by rw [hp.setsA]; exact Bool.false_ne_true
  have hrB : ¬ cB.receivesSize = true := by rw [hp.receivesB]; exact Bool.false_ne_true
  induction k with
  | zero => intro sA histA histB q P _ _ _ _ h0; omega
  | succ k ih =>
    intro sA histA histB q P stA hon hi hexp hk wrA hwait
    obtain ⟨k', rfl, hk'⟩ := hwait
    obtain ⟨iA, hiA, eA⟩ := iterate_eq (h := Serial.hooks cA) (L := sA.time.untilWindowEnd w)
      (stA.maxStep hw hon ▸ okA sA histA hon stA.progress)
      (stA.maxStep hw hon) (stA.pos hw hon) hon (stA.hasSize hw)
    obtain ⟨sB, eqB, recvB, stB, ag, ⟨wrB, deB⟩, hP⟩ := hk' iA.value
    have honB := (ag.ongoing hp.maxWindows).mp hon
    obtain ⟨iB, hiB, eB⟩ := iterate_eq (h := Serial.hooks cB) (L := sB.time.untilWindowEnd w)
      (stB.maxStep hw honB ▸ okB sB histB honB stB.progress)
      (stB.maxStep hw honB) (stB.pos hw honB) honB (stB.hasSize hw)
    set LA := sA.time.untilWindowEnd w with hLA
    set LB := sB.time.untilWindowEnd w with hLB
    have aA : ∀ s : State D, s.size = sA.size → s.time = sA.time.progressBy LA → s.atWindowEnd :=
      fun s h1 h2 => atWindowEnd_of (by unfold State.hasSize; rw [h1]; exact stA.hasSize hw)
        (h1.trans stA.size) h2 hLA.symm
    have aB : ∀ s : State D, s.size = sB.size → s.time = sB.time.progressBy LB → s.atWindowEnd :=
      fun s h1 h2 => atWindowEnd_of (by unfold State.hasSize; rw [h1]; exact stB.hasSize hw)
        (h1.trans stB.size) h2 hLB.symm
    have fA : ∀ s : State D, s.size = sA.size → s.time = sA.time.progressBy LA →
        s.time.reachedEndOfWindow s.size := by
      intro s h1 h2
      rw [h1, h2, stA.size]; exact reachedEndOfWindow_exact hLA.symm
    have fB : ∀ s : State D, s.size = sB.size → s.time = sB.time.progressBy LB →
        s.time.reachedEndOfWindow s.size := by
      intro s h1 h2
      rw [h1, h2, stB.size]; exact reachedEndOfWindow_exact hLB.symm
    -- state of the second participant after its first exchange
    obtain ⟨sB2, hsB2, hfirstB⟩ : ∃ sB2, sB2 = (if cB.implicit then
        doImplicitStep cB false iB (atEnd sB LB iB.value) else atEnd sB LB iB.value) ∧
        Serial.first cB iB (atEnd sB LB iB.value) =
          (if cB.implicit then .send true (.conv sB2.converged) (.send true (.data sB2.sendBuf) (ret sB2))
            else .send true (.data sB2.sendBuf) (ret sB2)) := by
      refine ⟨_, rfl, ?_⟩
      unfold Serial.first
      rw [if_neg hfB]
      by_cases himp : cB.implicit = true
      · simp only [if_pos himp, ensure]
        rw [if_pos (aB (doImplicitStep cB false iB (atEnd sB LB iB.value)) rfl rfl)]
      · simp only [if_neg himp, ensure]
        rw [if_pos (aB (atEnd sB LB iB.value) rfl rfl)]
    have e2time : sB2.time = sB.time.progressBy LB := by rw [hsB2]; split <;> rfl
    have e2size : sB2.size = sB.size := by rw [hsB2]; split <;> rfl
    have e2next : sB2.nextSize = sB.nextSize := by rw [hsB2]; split <;> rfl
    have e2win : sB2.windows = sB.windows + 1 := by rw [hsB2]; split <;> rfl
    have e2it : sB2.iters = sB.iters := by rw [hsB2]; split <;> rfl
    have e2rec : sB2.received = false := by rw [hsB2]; split <;> rfl
    have e2com : sB2.complete = false := by rw [hsB2]; split <;> rfl
    have e2req : sB2.reqInit = false ∧ sB2.reqRead = false ∧ sB2.reqWrite = false := by
      rw [hsB2]; split <;> exact ⟨rfl, rfl, rfl⟩
    have e2recv : sB2.recvBuf = iA.value := by
      rw [hsB2, ← recvB]
      split
      · unfold doImplicitStep; exact if_pos (by simp)
      · rfl
    set b := (!cB.implicit || decision cB sB.iters iB.verdict) with hb
    have e2conv : (!cB.implicit || sB2.converged) = b := by
      rw [hb, hsB2]
      by_cases himp : cB.implicit = true
      · rw [if_pos himp]; rfl
      · simp only [Bool.not_eq_true] at himp; rw [himp]; rfl
    have e2send : b = true → sB2.sendBuf = iB.value := by
      intro h
      rw [← e2conv] at h
      rw [hsB2] at h ⊢
      by_cases himp : cB.implicit = true
      · rw [if_pos himp] at h ⊢
        rw [himp] at h
        simp only [Bool.not_true, Bool.false_or] at h
        unfold doImplicitStep; exact if_pos h
      · rw [if_neg himp]; rfl
    -- state of the first participant after its second exchange
    set sA2 : State D := { atEnd sA LA iA.value with
      converged := if cA.implicit then sB2.converged else sA.converged,
      recvBuf := sB2.sendBuf, received := true } with hsA2
    obtain ⟨sA', eA', afA, sbA, rbA, -⟩ := finishWindow_eq (ι := Bool) (c := cA) (w := w) (s := sA)
      (s2 := sA2) stA.progress hLA.symm (stA.pos hw hon) rfl rfl stA.size stA.nextSize rfl (Or.inl rfl)
    have hbA : (!cA.implicit || sA2.converged) = b := by
      rw [← e2conv, hsA2, ← hp.implicit]
      cases cA.implicit <;> simp
    rw [hbA] at afA
    have hAprog : ∀ {f : State D → Prog Bool (Msg D) (List (State D))}
        {g : State D → Prog Bool (Msg D) (List (State D))} {x y : List (State D)},
        Meet (f sA') (g sB2) x y →
        Meet (((secondExchange cA (Serial.hooks cA) iA (atEnd sA LA iA.value))).bind f)
          ((Serial.first cB iB (atEnd sB LB iB.value)).bind g) x y := by
      intro f g x y hmeet
      rw [secondExchange_end (by exact ⟨rfl, rfl, rfl⟩) rfl (fA (atEnd sA LA iA.value) rfl rfl), hfirstB]
      show Meet (((Serial.second cA iA (atEnd sA LA iA.value).clearActions).bind
        (finishWindow cA)).bind f) _ x y
      unfold Serial.second
      rw [if_pos hp.firstA]
      have fin : Meet ((((notify { (atEnd sA LA iA.value).clearActions with
          converged := if cA.implicit then sB2.converged else sA.converged,
          recvBuf := sB2.sendBuf } ret) : Prog Bool (Msg D) (State D)).bind (finishWindow cA)).bind f)
          (g sB2) x y := by
        have : (notify { (atEnd sA LA iA.value).clearActions with
          converged := if cA.implicit then sB2.converged else sA.converged,
          recvBuf := sB2.sendBuf } ret : Prog Bool (Msg D) (State D)) = ret sA2 := rfl
        rw [this, ret_bind, eA', ret_bind]
        exact hmeet
      by_cases himp : cB.implicit = true
      · have himpA : cA.implicit = true := by rw [hp.implicit]; exact himp
        rw [if_pos himp, if_pos himpA]
        refine .bwd ?_
        simp only [ensure]
        rw [if_pos (aA { (atEnd sA LA iA.value).clearActions with converged := sB2.converged } rfl rfl)]
        refine .bwd ?_
        rw [if_pos himpA] at fin
        exact fin
      · have himpA : ¬ cA.implicit = true := by rw [hp.implicit]; exact himp
        rw [if_neg himp, if_neg himpA]
        simp only [ensure]
        rw [if_pos (aA (atEnd sA LA iA.value).clearActions rfl rfl)]
        refine .bwd ?_
        rw [if_neg himpA] at fin
        exact fin
    have stA' := afA.atStart stA hon
    have hbf : b = false → sA.iters < N := by
      intro h
      rw [hb] at h
      simp only [Bool.or_eq_false_iff, Bool.not_eq_false'] at h
      rcases Nat.lt_or_ge sA.iters N with h1 | h1
      · exact h1
      · have : sB.iters = N := by rw [← ag.iters]; omega
        have h2 := hN.2 h.1 sB histB iB this hiB
        rw [← this, h.2] at h2; cases h2
    have hexpA : cA.implicit = false → b = true ∧ sA.iters = 1 := by
      intro h; rw [hp.implicit] at h; exact ⟨by rw [hb, h]; rfl, hexp h⟩
    have hit' : sA'.iters ≤ N ∧ (cA.implicit = false → sA'.iters = 1) :=
      (remaining_lt (W := sA'.windows) afA hN.1 hi hexpA hbf (le_refl _)).2
    have startM : Meet (coupled cA (Serial.hooks cA) planA k sA' (sA :: histA))
        (((secondExchange cB (Serial.hooks cB) iB sB2)).bind
          fun s' => coupled cB (Serial.hooks cB) planB k s' (sB :: histB)) = 
        Meet (coupled cA (Serial.hooks cA) planA k sA' (sA :: histA))
        ((((Serial.second cB iB sB2.clearActions).bind (finishWindow cB))).bind
          fun s' => coupled cB (Serial.hooks cB) planB k s' (sB :: histB)) := by
      rw [secondExchange_end e2req e2com (fB sB2 e2size e2time)]; rfl
    -- reduce both programs to what follows the iteration
    have reduce : ∀ {x y : List (State D)},
        Meet (coupled cA (Serial.hooks cA) planA k sA' (sA :: histA))
          ((((Serial.second cB iB sB2.clearActions).bind (finishWindow cB))).bind
            fun s' => coupled cB (Serial.hooks cB) planB k s' (sB :: histB)) x y →
        Meet (coupled cA (Serial.hooks cA) planA (k + 1) sA histA) (.recv true k') x y := by
      intro x y hm
      rw [← startM] at hm
      have hm2 := hAprog (f := fun s' => coupled cA (Serial.hooks cA) planA k s' (sA :: histA))
        (g := fun s => (secondExchange cB (Serial.hooks cB) iB s).bind
          fun s' => coupled cB (Serial.hooks cB) planB k s' (sB :: histB)) hm
      rw [coupled_ongoing hon, eA]
      have hf : (Serial.hooks cA).first iA (atEnd sA LA iA.value) =
          .send false (.data iA.value) (ret (atEnd sA LA iA.value)) := by
        show Serial.first cA iA _ = _
        unfold Serial.first Serial.sendSize
        rw [if_pos hp.firstA, if_neg hsA]
        exact if_pos (aA (atEnd sA LA iA.value) rfl rfl)
      rw [hf]
      refine .fwd ?_
      rw [eqB]
      rw [coupled_ongoing honB, eB]
      simp only [bind_assoc, ret_bind]
      exact hm2
    have wrA' : Wrote planA false (sA' :: sA :: histA) := ⟨⟨iA, hiA, fun _ => sbA⟩, wrA⟩
    have hBcond : ∀ sB', AfterIter cB w sB sB' b → 
        ((sB2.clearActions.ongoing cB ∨ (cB.implicit = true ∧ sB2.clearActions.converged = false)) ↔
          sB'.ongoing cB) := by
      intro sB' afB
      cases hbv : b with
      | true =>
        rw [hbv] at afB
        have h1 := ongoing_next (s2 := sB2.clearActions) stB.progress afB e2time e2win
        rw [h1]
        refine ⟨fun h => h.resolve_right ?_, Or.inl⟩
        rintro ⟨h2, h3⟩
        have h3' : sB2.converged = false := h3
        rw [hbv, h2, h3'] at e2conv
        cases e2conv
      | false =>
        rw [hbv] at afB
        refine ⟨fun _ => ongoing_repeat afB honB, fun _ => Or.inr ?_⟩
        rw [hbv] at e2conv
        simp only [Bool.or_eq_false_iff, Bool.not_eq_false'] at e2conv
        exact e2conv
    by_cases hon' : sA'.ongoing cA
    · -- another iteration follows
      have hwait' : Waiting cB mt w planB k sA' (sB :: histB) (fun s => (Wrote planB true (s :: sB :: histB) ∧
          Decided cB planB (s :: sB :: histB)) ∧ s.sendBuf = sB2.sendBuf)
          ((((Serial.second cB iB sB2.clearActions).bind (finishWindow cB))).bind
            fun s' => coupled cB (Serial.hooks cB) planB k s' (sB :: histB)) := by
        have fin : ∀ d, ∃ sB', (finishWindow cB { sB2.clearActions with recvBuf := d, received := true } :
            Prog Bool (Msg D) (State D)) = ret sB' ∧ sB'.recvBuf = d ∧ AfterIter cB w sB sB' b ∧
            sB'.sendBuf = sB2.sendBuf := by
          intro d
          obtain ⟨sB', eB', afB, sbB, rbB, -⟩ := finishWindow_eq (ι := Bool) (c := cB) (w := w) (s := sB)
            (s2 := { sB2.clearActions with recvBuf := d, received := true }) stB.progress hLB.symm
            (stB.pos hw honB) e2time e2win (e2size.trans stB.size) (e2next.trans stB.nextSize) e2it
            (Or.inl rfl)
          have : (!cB.implicit || sB2.clearActions.converged) = b := e2conv
          exact ⟨sB', eB', rbB, by rw [← this]; exact afB, sbB⟩
        have hcond : sB2.clearActions.ongoing cB ∨
            (cB.implicit = true ∧ sB2.clearActions.converged = false) := by
          obtain ⟨sB', -, -, afB, -⟩ := fin iA.value
          rw [hBcond sB' afB]
          exact ((afA.agree hp.implicit ag afB).ongoing hp.maxWindows).mp hon'
        unfold Serial.second Serial.receiveSize
        rw [if_neg hfB, if_pos hcond, if_neg hrB]
        simp only [ensure]
        rw [if_pos (aB sB2.clearActions e2size e2time)]
        refine ⟨_, rfl, fun d => ?_⟩
        obtain ⟨sB', eB', rbB, afB, sbB⟩ := fin d
        refine ⟨sB', ?_, rbB, afB.atStart stB honB, afA.agree hp.implicit ag afB, ⟨⟨⟨iB, hiB, ?_⟩, wrB⟩,
          ⟨⟨iB, hiB, afB.complete⟩, deB⟩⟩, sbB⟩
        · show (Prog.bind (Prog.bind (notify { sB2.clearActions with recvBuf := d } ret) _) _) = _
          have : (notify { sB2.clearActions with recvBuf := d } ret : Prog Bool (Msg D) (State D)) =
            ret { sB2.clearActions with recvBuf := d, received := true } := if_pos e2rec
          rw [this, ret_bind, eB', ret_bind]
        · intro h
          rw [sbB]
          exact e2send (by rw [← afB.complete]; exact h.resolve_left (by simp))
      have hw' := stA'.windows_le hw hon' hW
      have hrem := (remaining_lt (W := W) afA hN.1 hi hexpA hbf hw').1
      obtain ⟨lA, lB, sB', hm, ag', hf, hf2, h1, h2, h3, h4, h5⟩ := ih sA' (sA :: histA) (sB :: histB)
        _ _ stA' hon' hit'.1 (fun h => hit'.2 (by rw [hp.implicit]; exact h)) (by omega) wrA' hwait'
      refine ⟨lA ++ [sA'], lB ++ [sB'], sB, ?_, ag, ?_, ?_, ?_, ?_, ?_, ?_, hP⟩
      · have := reduce hm
        simpa only [List.append_assoc, List.singleton_append] using this
      · refine forall₂_append hf (List.Forall₂.cons ⟨ag', ?_⟩ List.Forall₂.nil)
        rw [rbA, h5]
      · have : (lB ++ [sB'] ++ [sB]).tail = (lB ++ [sB']).tail ++ [sB] := by cases lB <;> simp
        rw [this]
        exact forall₂_append hf2 (List.Forall₂.cons (recvB.trans sbA.symm) List.Forall₂.nil)
      all_goals simpa only [List.append_assoc, List.singleton_append]
    · -- the coupling ends
      have hrest : ∀ sB', AfterIter cB w sB sB' b → ¬ (sB2.clearActions.ongoing cB ∨
          (cB.implicit = true ∧ sB2.clearActions.converged = false)) := by
        intro sB' afB
        rw [hBcond sB' afB]
        exact fun h => hon' (((afA.agree hp.implicit ag afB).ongoing hp.maxWindows).mpr h)
      have hbt : b = true := by
        by_contra h
        simp only [Bool.not_eq_true] at h
        rw [h] at afA
        exact hon' (ongoing_repeat afA hon)
      obtain ⟨sB', eB', afB, sbB, rbB, -⟩ := finishWindow_eq (ι := Bool) (c := cB) (w := w) (s := sB)
        (s2 := sB2.clearActions) stB.progress hLB.symm
        (stB.pos hw honB) e2time e2win (e2size.trans stB.size) (e2next.trans stB.nextSize) e2it
        (Or.inr (by
          have afB0 : ¬ sA'.ongoing cA := hon'
          rw [hbt] at afA
          have h1 : sB2.ongoing cB ↔ sA'.ongoing cA := by
            have h2 := ongoing_next (s2 := sA2) stA.progress afA rfl rfl
            rw [← h2]
            unfold State.ongoing
            have h3 : sA2.time = sB2.time := by
              rw [e2time, hLB, ← ag.time]; rfl
            have h4 : sA2.windows = sB2.windows := by rw [e2win, ← ag.windows]; rfl
            rw [h3, h4, hp.maxWindows]
          refine ⟨fun h => hon' (h1.mp h), fun h => ?_⟩
          rw [h, hbt] at e2conv
          exact e2conv))
      have hcc : (!cB.implicit || sB2.clearActions.converged) = b := e2conv
      rw [hcc] at afB
      refine ⟨[sA'], [sB'], sB, ?_, ag, ?_, ?_, wrA', ?_, ?_, by simpa using hon', hP⟩
      · refine reduce ?_
        unfold Serial.second
        rw [if_neg hfB, if_neg (hrest sB' afB), ret_bind, eB', ret_bind]
        have hoB : ¬ sB'.ongoing cB :=
          fun h => hon' (((afA.agree hp.implicit ag afB).ongoing hp.maxWindows).mpr h)
        cases k with
        | zero =>
          have h2 : 0 < remaining W N sA := by unfold remaining; omega
          omega
        | succ k =>
          unfold coupled
          rw [if_neg hon', if_neg hoB]
          exact .ret _ _
      · refine List.Forall₂.cons ⟨afA.agree hp.implicit ag afB, ?_⟩ List.Forall₂.nil
        rw [rbA, sbB]; rfl
      · exact List.Forall₂.cons (recvB.trans sbA.symm) List.Forall₂.nil
      · refine ⟨⟨iB, hiB, fun _ => ?_⟩, wrB⟩
        rw [sbB]; exact e2send hbt
      · exact ⟨⟨iB, hiB, afB.complete⟩, deB⟩

/-- `initialize` of both participants: the first one returns, the second one waits for the data of
the first iteration. -/
theorem Serial.init_meet {cA cB : Config} {mt : Option ℚ} {w : ℚ} {dA dB : D} {planB : Plan D}
    (hp : FixedPair cA cB) (hmt : ∀ m, mt = some m → 0 < m) (k : ℕ) :
    ∃ sA q, (∀ {f : State D → Prog Bool (Msg D) (List (State D))} {x y : List (State D)},
        Meet (f sA) q x y →
        Meet ((initScheme cA (Serial.hooks cA) (constructed cA mt w dA).fulfilAll).bind f)
          (participant cB (Serial.hooks cB) mt w dB planB k) x y) ∧
      AtStart mt w sA ∧ sA.iters = 1 ∧ sA.windows = 1 ∧ sA.time = ⟨mt, 0, 0⟩ ∧
      sA.recvBuf = (if cA.receivesInit then dB else dA) ∧
      Waiting cB mt w planB k sA [] (fun sB => (Wrote planB true [sB] ∧ Decided cB planB [sB]) ∧ True)
        q := by
  have hfB : ¬ cB.first = true := by rw [hp.firstB]; exact Bool.false_ne_true
  have hrB : ¬ cB.receivesSize = true := by rw [hp.receivesB]; exact Bool.false_ne_true
  set iA : State D := { (constructed cA mt w dA).fulfilAll with
    time := (constructed cA mt w dA).fulfilAll.time.resetTo 0, windows := 1, received := false,
    reqWrite := (constructed cA mt w dA).fulfilAll.reqWrite || cA.implicit } with hiA
  set iB : State D := { (constructed cB mt w dB).fulfilAll with
    time := (constructed cB mt w dB).fulfilAll.time.resetTo 0, windows := 1, received := false,
    reqWrite := (constructed cB mt w dB).fulfilAll.reqWrite || cB.implicit } with hiB
  set q : Prog Bool (Msg D) (List (State D)) :=
    (recvData true (if cB.receivesInit then { iB with recvBuf := dA } else iB) fun s => notify s ret).bind
      fun s => coupled cB (Serial.hooks cB) planB k s [] with hq
  refine ⟨if cA.receivesInit then { iA with recvBuf := dB, received := true } else iA, q, ?_, ?_, ?_, ?_,
    ?_, ?_, ?_⟩
  · intro f x y hm
    show Meet ((Serial.initial cA iA).bind f)
      ((Serial.initial cB iB).bind fun s => coupled cB (Serial.hooks cB) planB k s []) x y
    unfold Serial.initial Serial.receiveSize
    rw [if_pos hp.firstA, if_neg hfB]
    simp only [hp.initAB, hp.initBA, if_neg hrB]
    cases hBr : cB.receivesInit <;> cases hAr : cA.receivesInit <;>
      simp only [hBr, hAr, hq, Bool.false_eq_true, if_true, if_false] at hm ⊢
    · exact hm
    · exact .bwd hm
    · exact .fwd hm
    · exact .bwd (.fwd hm)
  · cases cA.receivesInit <;> exact started_atStart hmt rfl rfl rfl rfl rfl
  · cases cA.receivesInit <;> rfl
  · cases cA.receivesInit <;> rfl
  · cases cA.receivesInit <;> rfl
  · cases cA.receivesInit <;> rfl
  · refine ⟨_, rfl, fun d => ⟨{ (if cB.receivesInit then { iB with recvBuf := dA } else iB) with
      recvBuf := d, received := true }, ?_, rfl, ?_, ?_, ⟨trivial, trivial⟩, trivial⟩⟩
    · cases cB.receivesInit <;> rfl
    · cases cB.receivesInit <;> exact started_atStart hmt rfl rfl rfl rfl rfl
    · cases cB.receivesInit <;> cases cA.receivesInit <;> exact ⟨rfl, rfl, rfl, rfl⟩

end Verif
