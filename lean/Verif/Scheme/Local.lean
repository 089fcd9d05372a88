import Verif.Scheme.Schemes

/-!
# Case analysis of one `advance` call (helper lemmas)

`advance_cases` splits every normally returning `advance` call into three cases: subcycling,
completed window, repeated window. It holds for every scheme whose exchange functions only touch
data, the convergence flag, the received flag and (for the first-participant method) sizes.
-/

set_option autoImplicit false

namespace Verif

open Prog

variable {ι D : Type}

/-- Two states agree on everything the exchange functions must not touch. -/
structure SameControl (s s' : State D) : Prop where
  time : s'.time = s.time
  windows : s'.windows = s.windows
  iters : s'.iters = s.iters
  total : s'.total = s.total
  complete : s'.complete = s.complete
  reqInit : s'.reqInit = s.reqInit
  reqWrite : s'.reqWrite = s.reqWrite
  reqRead : s'.reqRead = s.reqRead

/-- Two states agree on the window sizes. -/
structure SameSize (s s' : State D) : Prop where
  size : s'.size = s.size
  nextSize : s'.nextSize = s.nextSize

/-- Exchange functions that leave time, counters, actions and window sizes alone. -/
structure FixedHooks (h : Hooks ι D) : Prop where
  first : ∀ i s tr s', Run (h.first i s) tr s' → SameControl s s' ∧ SameSize s s'
  second : ∀ i s tr s', Run (h.second i s) tr s' → SameControl s s' ∧ SameSize s s'
  initial : ∀ s tr s', Run (h.initial s) tr s' → SameControl s s' ∧ s'.nextSize = s.nextSize ∧
    (s'.size = s.size ∨ s'.size = s.nextSize)

theorem run_checkActions {s : State D} {k : State D → Prog ι (Msg D) (State D)} {tr s'} :
    Run (checkActions s k) tr s' ↔ s.actionsDone ∧ Run (k s.clearActions) tr s' := by
  simp [checkActions]

/-- The three possible outcomes of a normally returning `advance`. -/
inductive Outcome (c : Config) (i : StepIn D) (s s' : State D) : Prop where
  | subcycle
      (hend : ¬ (s.time.progressBy i.dt).reachedEndOfWindow s.size)
      (time : s'.time = s.time.progressBy i.dt)
      (windows : s'.windows = s.windows)
      (iters : s'.iters = s.iters)
      (total : s'.total = s.total)
      (complete : s'.complete = false)
      (reqRead : s'.reqRead = false)
      (reqWrite : s'.reqWrite = false)
  | completed
      (hend : (s.time.progressBy i.dt).reachedEndOfWindow s.size)
      (hconv : c.implicit = true → s'.converged = true)
      (hok : (s.time.progressBy i.dt).completeOk s.size)
      (time : s'.time = (s.time.progressBy i.dt).completeTimeWindow s.size)
      (windows : s'.windows = s.windows + 1)
      (iters : s'.iters = if c.implicit then 1 else s.iters)
      (total : s'.total = if c.implicit then s.total + 1 else s.total)
      (complete : s'.complete = true)
      (reqRead : s'.reqRead = false)
      (reqWrite : s'.reqWrite = true ↔ c.implicit = true ∧
        (match c.maxWindows with | none => True | some m => m ≥ s.windows + 1) ∧
        ¬ (s.time.progressBy i.dt).reachedEnd)
  | repeated
      (hend : (s.time.progressBy i.dt).reachedEndOfWindow s.size)
      (himp : c.implicit = true)
      (hconv : s'.converged = false)
      (time : s'.time = s.time.resetProgress)
      (windows : s'.windows = s.windows)
      (iters : s'.iters = s.iters + 1)
      (total : s'.total = s.total + 1)
      (complete : s'.complete = false)
      (reqRead : s'.reqRead = true)
      (reqWrite : s'.reqWrite = false)

/-- Everything that is known after a normally returning `advance`. -/
structure Advanced (c : Config) (h : Hooks ι D) (i : StepIn D) (s : State D)
    (tr : List (Ev ι (Msg D))) (s' : State D) : Prop where
  ongoing : s.ongoing c
  dt_pos : tol < i.dt
  dt_le : i.dt ≤ s.maxStep c + tol
  actions : s.actionsDone
  size : s'.size = s.nextSize ∨ s'.size = s.size
  nextSize : s'.nextSize = s.nextSize
  reqInit : s'.reqInit = false
  outcome : Outcome c i s s'
  /-- at the end of a window both exchange functions were executed -/
  exchanged : (s.time.progressBy i.dt).reachedEndOfWindow s.size →
    ∃ sa t1 s1 t2 s2, sa.iters = s.iters ∧ sa.time = s.time.progressBy i.dt ∧
      sa.windows = s.windows + 1 ∧
      Run (h.first i sa) t1 s1 ∧ Run (h.second i s1.clearActions) t2 s2 ∧
      s'.converged = s2.converged ∧ tr = t1 ++ t2
  /-- inside a window no message is exchanged -/
  silent : ¬ (s.time.progressBy i.dt).reachedEndOfWindow s.size → tr = []

theorem advance_cases {c : Config} {h : Hooks ι D} (hh : FixedHooks h) {i : StepIn D}
    {s s' : State D} {tr} (hsize : s.hasSize) (hr : Run (advance c h i s) tr s') :
    Advanced c h i s tr s' := by
  have htol := tol_pos
  unfold advance addComputedTime at hr
  simp only [run_ensure] at hr
  obtain ⟨hon, hne, hpos, _, hle, hr⟩ := hr
  rw [run_bind] at hr
  obtain ⟨t1, t2, s1, rfl, h1, h2⟩ := hr
  unfold firstExchange at h1
  rw [run_checkActions] at h1
  obtain ⟨hact, h1⟩ := h1
  unfold secondExchange at h2
  rw [run_checkActions] at h2
  obtain ⟨hact2, h2⟩ := h2
  rw [run_ensure] at h2
  obtain ⟨hcompl, h2⟩ := h2
  have hdt : tol < i.dt := by
    by_contra hcon
    push Not at hcon
    exact hne (equals_iff.mpr ⟨by linarith, by linarith⟩)
  have hle' : i.dt ≤ s.maxStep c + tol := by
    unfold greaterEquals at hle; linarith
  have hact' : s.actionsDone := hact
  by_cases hend : (s.time.progressBy i.dt).reachedEndOfWindow s.size
  · have hcond : State.reachedEndOfWindow
        { (State.clearActions { s with time := s.time.progressBy i.dt, sendBuf := i.value }) with
          received := false, complete := false } := fun _ => hend
    simp only [if_pos hcond] at h1
    obtain ⟨hc, hs⟩ := hh.first _ _ _ _ h1
    have e1 := hc.time; have e2 := hc.windows; have e3 := hc.iters; have e4 := hc.total
    have e5 := hs.size; have e6 := hs.nextSize
    simp only [State.clearActions] at e1 e2 e3 e4 e5 e6
    have hcond2 : State.reachedEndOfWindow s1.clearActions := by
      intro _
      simpa [State.clearActions, e1, e5] using hend
    rw [if_pos hcond2, run_bind] at h2
    obtain ⟨t3, t4, s2, rfl, h3, h4⟩ := h2
    have hex : ∃ sa ta sb tb s2', sa.iters = s.iters ∧ sa.time = s.time.progressBy i.dt ∧
        sa.windows = s.windows + 1 ∧ Run (h.first i sa) ta sb ∧
        Run (h.second i sb.clearActions) tb s2' ∧ s2.converged = s2'.converged ∧
        t1 ++ t3 = ta ++ tb := by
      refine ⟨_, _, _, _, _, ?_, ?_, ?_, h1, h3, rfl, rfl⟩ <;> rfl
    obtain ⟨hc2, hs2⟩ := hh.second _ _ _ _ h3
    have f1 := hc2.time; have f2 := hc2.windows; have f3 := hc2.iters; have f4 := hc2.total
    have f5 := hs2.size; have f6 := hs2.nextSize; have f7 := hc2.complete
    have f8 := hc2.reqWrite; have f9 := hc2.reqRead; have f10 := hc2.reqInit
    simp only [State.clearActions, e1, e2, e3, e4, e5, e6] at f1 f2 f3 f4 f5 f6 f8 f9 f10
    unfold finishWindow at h4
    rw [run_bind] at h4
    obtain ⟨t5, t6, s3, rfl, h5, h6⟩ := h4
    rw [run_ensure] at h6
    obtain ⟨hrec, h6⟩ := h6
    rw [run_bind] at h6
    obtain ⟨t7, t8, s4, rfl, h7, h8⟩ := h6
    simp only [run_ret] at h8
    obtain ⟨rfl, rfl⟩ := h8
    by_cases himp : c.implicit = true
    · simp only [himp, if_true] at h5
      by_cases hcv : s2.converged = false
      · simp only [hcv, if_true, run_ensure, run_ret] at h5
        obtain ⟨_, rfl, rfl⟩ := h5
        simp only [Bool.false_eq_true, if_false, run_ret] at h7
        obtain ⟨rfl, rfl⟩ := h7
        refine ⟨hon, hdt, hle', hact', Or.inl ?_, ?_, ?_, ?_,
          fun _ => ?_, fun hx => absurd hend hx⟩
        · exact f6
        · exact f6
        · exact f10
        rotate_left
        · simpa [hcv] using hex
        refine .repeated hend himp rfl ?_ ?_ ?_ ?_ rfl rfl ?_
        · simp [f1, TimeHandler.resetProgress, TimeHandler.progressBy]
        · simp [f2]
        · simp [f3]
        · simp [f4]
        · exact f8
      · have hcv' : s2.converged = true := by simpa using hcv
        simp only [hcv', Bool.true_eq_false, if_false, run_ret] at h5
        obtain ⟨rfl, rfl⟩ := h5
        simp only [if_true, run_ensure, run_ret] at h7
        obtain ⟨hok, rfl, rfl⟩ := h7
        refine ⟨hon, hdt, hle', hact', Or.inl ?_, ?_, ?_, ?_,
          fun _ => ?_, fun hx => absurd hend hx⟩
        · exact f6
        · exact f6
        · exact f10
        rotate_left
        · simpa [hcv'] using hex
        refine .completed hend (fun _ => rfl) ?_ ?_ ?_ ?_ ?_ rfl ?_ ?_
        · simpa [f1, f5] using hok
        · simp [f1, f5]
        · simp [f2]
        · simp [himp]
        · simp [f4, himp]
        · exact f9
        · show (s2.reqWrite || decide (s2.ongoing c)) = true ↔ _
          rw [f8, Bool.false_or, decide_eq_true_eq]
          simp only [State.ongoing, f1, f2, himp, true_and]
          exact Iff.rfl
    · have himp' : c.implicit = false := by simpa using himp
      simp only [himp', Bool.false_eq_true, if_false, run_ret] at h5
      obtain ⟨rfl, rfl⟩ := h5
      simp only [if_true, run_ensure, run_ret] at h7
      obtain ⟨hok, rfl, rfl⟩ := h7
      refine ⟨hon, hdt, hle', hact', Or.inl ?_, ?_, ?_, ?_,
          fun _ => ?_, fun hx => absurd hend hx⟩
      · exact f6
      · exact f6
      · exact f10
      rotate_left
      · simpa using hex
      refine .completed hend (fun h => absurd h himp) ?_ ?_ ?_ ?_ ?_ rfl ?_ ?_
      · simpa [f1, f5] using hok
      · simp [f1, f5]
      · simp [f2]
      · simp [f3, himp']
      · simp [f4, himp']
      · exact f9
      · simp [f8, himp']
  · have hcond : ¬ State.reachedEndOfWindow
        { (State.clearActions { s with time := s.time.progressBy i.dt, sendBuf := i.value }) with
          received := false, complete := false } := fun hx => hend (hx hsize)
    simp only [if_neg hcond, run_ret] at h1
    obtain ⟨rfl, rfl⟩ := h1
    have hcond2 : ¬ State.reachedEndOfWindow (State.clearActions
        { (State.clearActions { s with time := s.time.progressBy i.dt, sendBuf := i.value }) with
          received := false, complete := false }) := fun hx => hend (hx hsize)
    simp only [if_neg hcond2, run_ret] at h2
    obtain ⟨rfl, rfl⟩ := h2
    exact ⟨hon, hdt, hle', hact', Or.inr rfl, rfl, rfl,
      .subcycle hend rfl rfl rfl rfl rfl rfl rfl, fun hx => absurd hx hend, fun _ => rfl⟩

/-! ### The concrete schemes satisfy the contract -/

theorem SameControl.refl (s : State D) : SameControl s s := ⟨rfl, rfl, rfl, rfl, rfl, rfl, rfl, rfl⟩

theorem run_recvData {src : ι} {s : State D} {k : State D → Prog ι (Msg D) (State D)} {tr s'} :
    Run (recvData src s k) tr s' ↔
      ∃ d tr', tr = .got src (.data d) :: tr' ∧ Run (k { s with recvBuf := d }) tr' s' := by
  unfold recvData
  rw [run_recv]
  constructor
  · rintro ⟨m, tr', rfl, h⟩
    cases m <;> simp_all
  · rintro ⟨d, tr', rfl, h⟩; exact ⟨_, _, rfl, h⟩

theorem run_recvConv {src : ι} {s : State D} {k : State D → Prog ι (Msg D) (State D)} {tr s'} :
    Run (recvConv src s k) tr s' ↔
      ∃ b tr', tr = .got src (.conv b) :: tr' ∧ Run (k { s with converged := b }) tr' s' := by
  unfold recvConv
  rw [run_recv]
  constructor
  · rintro ⟨m, tr', rfl, h⟩
    cases m <;> simp_all
  · rintro ⟨d, tr', rfl, h⟩; exact ⟨_, _, rfl, h⟩

theorem run_notify {s : State D} {k : State D → Prog ι (Msg D) (State D)} {tr s'} :
    Run (notify s k) tr s' ↔ s.received = false ∧ Run (k { s with received := true }) tr s' := by
  simp [notify]

theorem Serial.initial_control {c : Config} (h2 : c.receivesSize = false)
    {s : State D} {tr s'} (hr : Run (Serial.initial c s) tr s') :
    SameControl s s' ∧ s'.nextSize = s.nextSize ∧ (s'.size = s.size ∨ s'.size = s.nextSize) := by
  simp only [Serial.initial, Serial.receiveSize, h2, Bool.false_eq_true, if_false] at hr
  split at hr
  · split at hr
    · simp only [run_recvData, run_notify] at hr
      obtain ⟨_, _, _, _, hr⟩ := hr
      split at hr
      · simp only [run_send, run_ret] at hr
        obtain ⟨_, _, _, rfl⟩ := hr
        exact ⟨⟨rfl, rfl, rfl, rfl, rfl, rfl, rfl, rfl⟩, rfl, Or.inl rfl⟩
      · simp only [run_ret] at hr
        obtain ⟨_, rfl⟩ := hr
        exact ⟨⟨rfl, rfl, rfl, rfl, rfl, rfl, rfl, rfl⟩, rfl, Or.inl rfl⟩
    · split at hr
      · simp only [run_send, run_ret] at hr
        obtain ⟨_, _, _, rfl⟩ := hr
        exact ⟨⟨rfl, rfl, rfl, rfl, rfl, rfl, rfl, rfl⟩, rfl, Or.inl rfl⟩
      · simp only [run_ret] at hr
        obtain ⟨_, rfl⟩ := hr
        exact ⟨⟨rfl, rfl, rfl, rfl, rfl, rfl, rfl, rfl⟩, rfl, Or.inl rfl⟩
  · split at hr
    · rw [run_send] at hr
      obtain ⟨_, _, hr⟩ := hr
      split at hr
      · simp only [run_recvData, run_notify, run_ret] at hr
        obtain ⟨_, _, _, _, _, _, _, _, rfl⟩ := hr
        exact ⟨⟨rfl, rfl, rfl, rfl, rfl, rfl, rfl, rfl⟩, rfl, Or.inr rfl⟩
      · simp only [run_recvData, run_notify, run_ret] at hr
        obtain ⟨_, _, _, _, _, rfl⟩ := hr
        exact ⟨⟨rfl, rfl, rfl, rfl, rfl, rfl, rfl, rfl⟩, rfl, Or.inr rfl⟩
    · split at hr
      · simp only [run_recvData, run_notify, run_ret] at hr
        obtain ⟨_, _, _, _, _, _, _, _, rfl⟩ := hr
        exact ⟨⟨rfl, rfl, rfl, rfl, rfl, rfl, rfl, rfl⟩, rfl, Or.inr rfl⟩
      · simp only [run_recvData, run_notify, run_ret] at hr
        obtain ⟨_, _, _, _, _, rfl⟩ := hr
        exact ⟨⟨rfl, rfl, rfl, rfl, rfl, rfl, rfl, rfl⟩, rfl, Or.inr rfl⟩

theorem Serial.fixedHooks {c : Config} (h1 : c.setsSize = false) (h2 : c.receivesSize = false) :
    FixedHooks (Serial.hooks (D := D) c) := by
  refine ⟨?_, ?_, fun s tr s' hr => Serial.initial_control h2 hr⟩
  · intro i s tr s' hr
    simp only [Serial.hooks, Serial.first, Serial.sendSize, h1, Bool.false_eq_true, if_false] at hr
    split at hr
    · simp only [run_ensure, run_send, run_ret] at hr
      obtain ⟨_, _, _, _, rfl⟩ := hr
      exact ⟨.refl _, rfl, rfl⟩
    · split at hr
      · simp only [run_ensure, run_send, run_ret] at hr
        obtain ⟨_, _, _, _, _, _, rfl⟩ := hr
        exact ⟨⟨rfl, rfl, rfl, rfl, rfl, rfl, rfl, rfl⟩, rfl, rfl⟩
      · simp only [run_ensure, run_send, run_ret] at hr
        obtain ⟨_, _, _, _, rfl⟩ := hr
        exact ⟨.refl _, rfl, rfl⟩
  · intro i s tr s' hr
    simp only [Serial.hooks, Serial.second, Serial.receiveSize, h2, Bool.false_eq_true, if_false] at hr
    split at hr
    · split at hr
      · simp only [run_recvConv, run_ensure, run_recvData, run_notify, run_ret] at hr
        obtain ⟨_, _, _, _, _, _, _, _, _, rfl⟩ := hr
        exact ⟨⟨rfl, rfl, rfl, rfl, rfl, rfl, rfl, rfl⟩, rfl, rfl⟩
      · simp only [run_ensure, run_recvData, run_notify, run_ret] at hr
        obtain ⟨_, _, _, _, _, _, rfl⟩ := hr
        exact ⟨⟨rfl, rfl, rfl, rfl, rfl, rfl, rfl, rfl⟩, rfl, rfl⟩
    · split at hr
      · simp only [run_ensure, run_recvData, run_notify, run_ret] at hr
        obtain ⟨_, _, _, _, _, _, rfl⟩ := hr
        exact ⟨⟨rfl, rfl, rfl, rfl, rfl, rfl, rfl, rfl⟩, rfl, rfl⟩
      · simp only [run_ret] at hr
        obtain ⟨_, rfl⟩ := hr
        exact ⟨.refl _, rfl, rfl⟩

theorem Parallel.fixedHooks (c : Config) : FixedHooks (Parallel.hooks (D := D) c) := by
  refine ⟨?_, ?_, ?_⟩
  · intro i s tr s' hr
    simp only [Parallel.hooks, Parallel.first, run_ensure] at hr
    obtain ⟨_, hr⟩ := hr
    split at hr
    · simp only [run_send, run_ret] at hr
      obtain ⟨_, _, _, rfl⟩ := hr
      exact ⟨.refl _, rfl, rfl⟩
    · simp only [run_recvData, run_notify, run_ret] at hr
      obtain ⟨_, _, _, _, _, rfl⟩ := hr
      exact ⟨⟨rfl, rfl, rfl, rfl, rfl, rfl, rfl, rfl⟩, rfl, rfl⟩
  · intro i s tr s' hr
    simp only [Parallel.hooks, Parallel.second, run_ensure] at hr
    obtain ⟨_, hr⟩ := hr
    split at hr
    · split at hr
      · simp only [run_recvConv, run_recvData, run_notify, run_ret] at hr
        obtain ⟨_, _, _, _, _, _, _, _, rfl⟩ := hr
        exact ⟨⟨rfl, rfl, rfl, rfl, rfl, rfl, rfl, rfl⟩, rfl, rfl⟩
      · simp only [run_recvData, run_notify, run_ret] at hr
        obtain ⟨_, _, _, _, _, rfl⟩ := hr
        exact ⟨⟨rfl, rfl, rfl, rfl, rfl, rfl, rfl, rfl⟩, rfl, rfl⟩
    · split at hr
      · simp only [run_send, run_ret] at hr
        obtain ⟨_, _, _, _, _, rfl⟩ := hr
        exact ⟨⟨rfl, rfl, rfl, rfl, rfl, rfl, rfl, rfl⟩, rfl, rfl⟩
      · simp only [run_send, run_ret] at hr
        obtain ⟨_, _, _, rfl⟩ := hr
        exact ⟨.refl _, rfl, rfl⟩
  · intro s tr s' hr
    simp only [Parallel.hooks, Parallel.initial] at hr
    split at hr
    · split at hr
      · rw [run_send] at hr
        obtain ⟨_, _, hr⟩ := hr
        split at hr
        · simp only [run_recvData, run_notify, run_ret] at hr
          obtain ⟨_, _, _, _, _, rfl⟩ := hr
          exact ⟨⟨rfl, rfl, rfl, rfl, rfl, rfl, rfl, rfl⟩, rfl, Or.inl rfl⟩
        · simp only [run_ret] at hr
          obtain ⟨_, rfl⟩ := hr
          exact ⟨.refl _, rfl, Or.inl rfl⟩
      · split at hr
        · simp only [run_recvData, run_notify, run_ret] at hr
          obtain ⟨_, _, _, _, _, rfl⟩ := hr
          exact ⟨⟨rfl, rfl, rfl, rfl, rfl, rfl, rfl, rfl⟩, rfl, Or.inl rfl⟩
        · simp only [run_ret] at hr
          obtain ⟨_, rfl⟩ := hr
          exact ⟨.refl _, rfl, Or.inl rfl⟩
    · split at hr
      · simp only [run_recvData, run_notify] at hr
        obtain ⟨_, _, _, _, hr⟩ := hr
        split at hr
        · simp only [run_send, run_ret] at hr
          obtain ⟨_, _, _, rfl⟩ := hr
          exact ⟨⟨rfl, rfl, rfl, rfl, rfl, rfl, rfl, rfl⟩, rfl, Or.inl rfl⟩
        · simp only [run_ret] at hr
          obtain ⟨_, rfl⟩ := hr
          exact ⟨⟨rfl, rfl, rfl, rfl, rfl, rfl, rfl, rfl⟩, rfl, Or.inl rfl⟩
      · split at hr
        · simp only [run_send, run_ret] at hr
          obtain ⟨_, _, _, rfl⟩ := hr
          exact ⟨.refl _, rfl, Or.inl rfl⟩
        · simp only [run_ret] at hr
          obtain ⟨_, rfl⟩ := hr
          exact ⟨.refl _, rfl, Or.inl rfl⟩

end Verif
