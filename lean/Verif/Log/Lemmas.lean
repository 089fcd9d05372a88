import Verif.Log.Model

/-!
# One call of `advance` with log files (helper lemmas)
-/

set_option autoImplicit false

namespace Verif.Log

open Prog

variable {ι D R : Type}

theorem run_lift {M α : Type} {e : Except Err α} {tr : List (Ev ι M)} {a : α} :
    Run (lift e : Prog ι M α) tr a ↔ tr = [] ∧ e = .ok a := by
  cases e with
  | error e => simp [lift]
  | ok b => simp [lift, eq_comm]

theorem run_checkActions' {α : Type} {s : State D} {k : State D → Prog ι (Msg D) α} {tr a} :
    Run (checkActions s k) tr a ↔ s.actionsDone ∧ Run (k s.clearActions) tr a := by
  simp [checkActions]

theorem run_logMeasure {c : Config} {g : LogCfg} {here : Bool} {l : LogIn R} {s : State D}
    {f f' : Files R} {tr : List (Ev ι (Msg D))} :
    Run (logMeasure c g here l s f) tr f' ↔ tr = [] ∧
      (if (here && measures c) = true then
        ∃ w, measureLog c g l s f.conv = .ok w ∧ f' = { f with conv := w } else f' = f) := by
  unfold logMeasure
  cases hx : (here && measures c)
  · simp [eq_comm]
  · simp only [if_true, run_bind, run_lift, run_ret]
    constructor
    · rintro ⟨t1, t2, w, rfl, ⟨rfl, h⟩, rfl, rfl⟩; exact ⟨rfl, w, h, rfl⟩
    · rintro ⟨rfl, w, h, rfl⟩; exact ⟨[], [], w, rfl, ⟨rfl, h⟩, rfl, rfl⟩

theorem measureLog_congr {c : Config} {g : LogCfg} {l : LogIn R} {s s' : State D} {w : Writer R}
    (h1 : s'.windows = s.windows) (h2 : s'.iters = s.iters) :
    measureLog c g l s' w = measureLog c g l s w := by
  simp [measureLog, h1, h2]

theorem advanceWriters_congr {c : Config} {g : LogCfg} {l : LogIn R} {s s' : State D} {w : Writer R}
    (h1 : s'.windows = s.windows) (h2 : s'.iters = s.iters) (h3 : s'.total = s.total) :
    advanceWriters c g l s' w = advanceWriters c g l s w := by
  simp [advanceWriters, h1, h2, h3]

/-- What happens to the files at the end of a window. -/
def FilesStep (c : Config) (g : LogCfg) (l : LogIn R) (s : State D) (converged : Bool)
    (f0 f' : Files R) : Prop :=
  ∃ f1, (if measures c = true then
      ∃ w, measureLog c g l s f0.conv = .ok w ∧ f1 = { f0 with conv := w } else f1 = f0) ∧
    (if c.implicit = true ∧ converged = true then
      ∃ w, advanceWriters c g l s f1.iter = .ok w ∧ f' = { f1 with iter := w } else f' = f1)

theorem finishWindow_converged {c : Config} {s s' : State D} {tr : List (Ev ι (Msg D))}
    (hr : Run (finishWindow c s) tr s') : s'.converged = s.converged := by
  unfold finishWindow at hr
  rw [run_bind] at hr
  obtain ⟨t5, t6, s3, rfl, h5, h6⟩ := hr
  rw [run_ensure, run_bind] at h6
  obtain ⟨_, t7, t8, s4, rfl, h7, h8⟩ := h6
  simp only [run_ret] at h8
  obtain ⟨rfl, rfl⟩ := h8
  have e1 : s3.converged = s.converged := by
    split at h5
    · split at h5
      · simp only [run_ensure, run_ret] at h5; obtain ⟨_, _, rfl⟩ := h5; rfl
      · simp only [run_ret] at h5; obtain ⟨_, rfl⟩ := h5; rfl
    · simp only [run_ret] at h5; obtain ⟨_, rfl⟩ := h5; rfl
  split at h7
  · simp only [run_ensure, run_ret] at h7; obtain ⟨_, _, rfl⟩ := h7; exact e1
  · simp only [run_ret] at h7; obtain ⟨_, rfl⟩ := h7; exact e1

/-- The state in which the rows are written: the window counter has been incremented. -/
def State.counted (s : State D) : State D := { s with windows := s.windows + 1 }

theorem advanceL_cases {c : Config} {h : Hooks ι D} (hh : FixedHooks h) {g : LogCfg} {i : StepIn D}
    {l : LogIn R} {s s' : State D} {f f' : Files R} {tr} (hsize : s.hasSize)
    (hr : Run (advanceL c h g i l s f) tr (s', f')) :
    Run (advance c h i s) tr s' ∧
    (¬ (s.time.progressBy i.dt).reachedEndOfWindow s.size → f' = f) ∧
    ((s.time.progressBy i.dt).reachedEndOfWindow s.size →
      FilesStep c g l (State.counted s) s'.converged
        (if c.implicit = true ∧ l.remesh = true then openFiles c g else f) f') := by
  unfold advanceL at hr
  rw [run_bind] at hr
  obtain ⟨t0, t1, s0, rfl, h0, hr⟩ := hr
  unfold addComputedTime at h0
  simp only [run_ensure, run_ret] at h0
  obtain ⟨hon, hne, hpos, hfin, hle, rfl, rfl⟩ := h0
  rw [run_bind] at hr
  obtain ⟨t2, t3, ⟨s1, f1⟩, rfl, h1, h2⟩ := hr
  unfold firstExchangeL at h1
  rw [run_checkActions'] at h1
  obtain ⟨hact, h1⟩ := h1
  unfold secondExchangeL at h2
  rw [run_checkActions', run_ensure] at h2
  obtain ⟨hact2, hcompl, h2⟩ := h2
  have hplain : ∀ {tr' : List (Ev ι (Msg D))} {x : State D},
      Run ((firstExchange h i { s with time := s.time.progressBy i.dt, sendBuf := i.value }).bind
        (secondExchange c h i)) tr' x → Run (advance c h i s) tr' x := by
    intro tr' x hx
    unfold advance addComputedTime
    simp only [run_ensure]
    exact ⟨hon, hne, hpos, hfin, hle, hx⟩
  by_cases hend : (s.time.progressBy i.dt).reachedEndOfWindow s.size
  · have hcond : State.reachedEndOfWindow
        { (State.clearActions { s with time := s.time.progressBy i.dt, sendBuf := i.value }) with
          received := false, complete := false } := fun _ => hend
    have hre : reopen c g l { s with time := s.time.progressBy i.dt } f =
        if c.implicit = true ∧ l.remesh = true then openFiles c g else f := by
      have : State.reachedEndOfWindow { s with time := s.time.progressBy i.dt } := fun _ => hend
      simp only [reopen, this, and_true]
    simp only [if_pos hcond] at h1
    rw [run_bind] at h1
    obtain ⟨t4, t5, f2, rfl, hm1, h1⟩ := h1
    rw [run_logMeasure, hre] at hm1
    obtain ⟨rfl, hm1⟩ := hm1
    rw [run_bind] at h1
    obtain ⟨t6, t7, s1', rfl, h1, h1'⟩ := h1
    simp only [run_ret, Prod.mk.injEq] at h1'
    obtain ⟨rfl, rfl, rfl⟩ := h1'
    obtain ⟨hc, hs⟩ := hh.first _ _ _ _ h1
    have e1 := hc.time; have e2 := hc.windows; have e3 := hc.iters; have e4 := hc.total
    have e5 := hs.size
    simp only [State.clearActions] at e1 e2 e3 e4 e5
    have hcond2 : State.reachedEndOfWindow s1.clearActions := by
      intro _
      simpa [State.clearActions, e1, e5] using hend
    rw [if_pos hcond2, run_bind] at h2
    obtain ⟨t8, t9, f3, rfl, hm2, h2⟩ := h2
    rw [run_logMeasure] at hm2
    obtain ⟨rfl, hm2⟩ := hm2
    rw [run_bind] at h2
    obtain ⟨t10, t11, s2, rfl, h3, h4⟩ := h2
    obtain ⟨hc2, hs2⟩ := hh.second _ _ _ _ h3
    have k2 : s2.windows = s.windows + 1 := by rw [hc2.windows]; exact e2
    have k3 : s2.iters = s.iters := by rw [hc2.iters]; exact e3
    have k4 : s2.total = s.total := by rw [hc2.total]; exact e4
    unfold finishWindowL at h4
    rw [run_bind] at h4
    obtain ⟨t12, t13, f4, rfl, h4, h5⟩ := h4
    rw [run_bind] at h5
    obtain ⟨t14, t15, s3, rfl, h5, h6⟩ := h5
    simp only [run_ret, Prod.mk.injEq] at h6
    obtain ⟨rfl, rfl, rfl⟩ := h6
    have hcv := finishWindow_converged h5
    -- the row of the convergence log
    have hmeas : if measures c = true then
        ∃ w, measureLog c g l (State.counted s)
          (if c.implicit = true ∧ l.remesh = true then openFiles c g else f).conv = .ok w ∧
          f3 = { (if c.implicit = true ∧ l.remesh = true then openFiles c g else f) with conv := w }
        else f3 = (if c.implicit = true ∧ l.remesh = true then openFiles c g else f) := by
      cases hin : g.inFirst
      · simp only [hin, Bool.false_and, Bool.false_eq_true, if_false, Bool.not_false,
          Bool.true_and] at hm1 hm2
        subst hm1
        have hcg : ∀ w, measureLog c g l s1.clearActions w = measureLog c g l (State.counted s) w :=
          fun w => measureLog_congr (by exact e2) (by exact e3)
        simpa only [hcg] using hm2
      · simp only [hin, Bool.true_and, Bool.not_true, Bool.false_and, Bool.false_eq_true,
          if_false] at hm1 hm2
        subst hm2
        exact hm1
    have hrows : t12 = [] ∧ (if c.implicit = true ∧ s'.converged = true then
        ∃ w, advanceWriters c g l (State.counted s) f3.iter = .ok w ∧ f' = { f3 with iter := w }
        else f' = f3) := by
      rw [hcv]
      split at h4
      · next hx =>
        rw [run_bind] at h4
        obtain ⟨t16, t17, w, rfl, h7, h8⟩ := h4
        rw [run_lift] at h7
        obtain ⟨rfl, h7⟩ := h7
        simp only [run_ret] at h8
        obtain ⟨rfl, rfl⟩ := h8
        refine ⟨rfl, ?_⟩
        rw [if_pos hx]
        refine ⟨w, ?_, rfl⟩
        rw [← h7]
        exact (advanceWriters_congr (s := State.counted s) k2 k3 k4).symm
      · next hx =>
        simp only [run_ret] at h4
        rw [if_neg hx]
        exact ⟨h4.1, h4.2⟩
    obtain ⟨rfl, hrows⟩ := hrows
    refine ⟨hplain ?_, fun hx => absurd hend hx, fun _ => ⟨f3, hmeas, hrows⟩⟩
    rw [run_bind]
    refine ⟨t6, t10 ++ t14, s1, by simp, ?_, ?_⟩
    · unfold firstExchange
      rw [run_checkActions]
      refine ⟨hact, ?_⟩
      simp only [if_pos hcond]
      exact h1
    · unfold secondExchange
      rw [run_checkActions, run_ensure]
      refine ⟨hact2, hcompl, ?_⟩
      rw [if_pos hcond2, run_bind]
      exact ⟨t10, t14, s2, rfl, h3, h5⟩
  · have hcond : ¬ State.reachedEndOfWindow
        { (State.clearActions { s with time := s.time.progressBy i.dt, sendBuf := i.value }) with
          received := false, complete := false } := fun hx => hend (hx hsize)
    have hre : reopen c g l { s with time := s.time.progressBy i.dt } f = f := by
      have : ¬ State.reachedEndOfWindow { s with time := s.time.progressBy i.dt } :=
        fun hx => hend (hx hsize)
      simp only [reopen, this, and_false, if_false]
    simp only [if_neg hcond, run_ret, Prod.mk.injEq] at h1
    obtain ⟨rfl, rfl, rfl⟩ := h1
    have hcond2 : ¬ State.reachedEndOfWindow (State.clearActions
        { (State.clearActions { s with time := s.time.progressBy i.dt, sendBuf := i.value }) with
          received := false, complete := false }) := fun hx => hend (hx hsize)
    simp only [if_neg hcond2, run_ret, Prod.mk.injEq] at h2
    obtain ⟨rfl, rfl, rfl⟩ := h2
    refine ⟨hplain ?_, fun _ => hre, fun hx => absurd hx hend⟩
    rw [run_bind]
    refine ⟨[], [], { (State.clearActions
      { s with time := s.time.progressBy i.dt, sendBuf := i.value }) with
        received := false, complete := false }, rfl, ?_, ?_⟩
    · unfold firstExchange
      rw [run_checkActions]
      refine ⟨hact, ?_⟩
      simp only [if_neg hcond, run_ret]
      exact ⟨trivial, trivial⟩
    · unfold secondExchange
      rw [run_checkActions, run_ensure]
      refine ⟨hact2, hcompl, ?_⟩
      simp only [if_neg hcond2, run_ret]
      exact ⟨trivial, trivial⟩

end Verif.Log
