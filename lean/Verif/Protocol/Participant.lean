import Verif.Scheme.Exec
import Verif.Net.Rendezvous

/-!
# A complete participant run as a communicating program

`participant` is the standard solver loop: `initialize()`, then `while (isCouplingOngoing())` the
steps of one iteration. In every iteration the solver decides on its steps (any number) and on the
values it writes, depending on everything it has seen so far. Within an iteration no new data
arrives, so deciding at the start of the iteration loses no generality.
-/

set_option autoImplicit false

namespace Verif

open Prog

variable {ι D : Type}

/-- A solver: for the states seen at iteration starts (newest first) the steps of the next
iteration. -/
abbrev Plan (D : Type) := List (State D) → List (StepIn D)

/-- The `advance` calls of one iteration; all requested actions are performed before each call. -/
def iterate (c : Config) (h : Hooks ι D) : List (StepIn D) → State D → Prog ι (Msg D) (State D)
  | [], s => ret s
  | i :: is, s => (advance c h i s.fulfilAll).bind (iterate c h is)

/-- The solver loop. Returns the states at all iteration starts plus the final one, newest first.
`fuel` bounds the number of iterations; running out of it is an error, so that a theorem about
completion has to show that the fuel suffices. -/
def coupled (c : Config) (h : Hooks ι D) (plan : Plan D) :
    ℕ → State D → List (State D) → Prog ι (Msg D) (List (State D))
  | 0, _, _ => fail .check
  | k + 1, s, hist =>
    if s.ongoing c then
      (iterate c h (plan (s :: hist)) s).bind fun s' => coupled c h plan k s' (s :: hist)
    else ret (s :: hist)

theorem coupled_ongoing {c : Config} {h : Hooks ι D} {plan : Plan D} {k : ℕ} {s : State D}
    {hist : List (State D)} (hon : s.ongoing c) : coupled c h plan (k + 1) s hist =
      (iterate c h (plan (s :: hist)) s).bind fun s' => coupled c h plan k s' (s :: hist) :=
  if_pos hon

/-- One complete run: construction, `initialize()` and the solver loop. -/
def participant (c : Config) (h : Hooks ι D) (mt : Option ℚ) (w : ℚ) (d : D) (plan : Plan D)
    (fuel : ℕ) : Prog ι (Msg D) (List (State D)) :=
  (initScheme c h (constructed c mt w d).fulfilAll).bind fun s => coupled c h plan fuel s []

/-- The steps lead exactly to the window end, `L` away, without leaving a remainder in the range of
the numerical tolerance. -/
inductive StepsTo : ℚ → List (StepIn D) → Prop where
  | last {L : ℚ} {i : StepIn D} : i.dt = L → StepsTo L [i]
  | cons {L : ℚ} {i : StepIn D} {is : List (StepIn D)} :
      tol < i.dt → tol < L - i.dt → StepsTo (L - i.dt) is → StepsTo L (i :: is)

/-- A solver that uses `getMaxTimeStepSize()` to hit every window end exactly. -/
def PlanOk (c : Config) (plan : Plan D) : Prop :=
  ∀ s hist, s.ongoing c → s.time.progress = 0 → StepsTo (s.maxStep c) (plan (s :: hist))

/-- The last step of an iteration. -/
def lastStep : List (StepIn D) → Option (StepIn D) := List.getLast?

theorem StepsTo.ne_nil {L : ℚ} {is : List (StepIn D)} (h : StepsTo L is) : is ≠ [] := by
  cases h <;> simp

/-- State in which the exchange functions are entered at the window end. -/
def atEnd (s : State D) (L : ℚ) (v : D) : State D :=
  { s with time := s.time.progressBy L, sendBuf := v, received := false, complete := false,
           windows := s.windows + 1, reqInit := false, reqWrite := false, reqRead := false,
           fulInit := false, fulWrite := false, fulRead := false }

/-- State after a subcycle. -/
def midWindow (s : State D) (dt : ℚ) (v : D) : State D :=
  { s with time := s.time.progressBy dt, sendBuf := v, received := false, complete := false,
           reqInit := false, reqWrite := false, reqRead := false,
           fulInit := false, fulWrite := false, fulRead := false }

theorem actionsDone_fulfilAll (s : State D) : s.fulfilAll.actionsDone := by
  unfold State.actionsDone State.fulfilAll
  refine ⟨fun h => ?_, fun h => ?_, fun h => ?_⟩ <;> simp_all

theorem advance_eq {c : Config} {h : Hooks ι D} {i : StepIn D} {s : State D}
    (hon : s.ongoing c) (hpos : tol < i.dt) (hle : i.dt ≤ s.maxStep c) (hsz : s.hasSize) :
    advance c h i s.fulfilAll =
      (if (s.time.progressBy i.dt).reachedEndOfWindow s.size then
        h.first i (atEnd s i.dt i.value) else ret (midWindow s i.dt i.value)).bind
          (secondExchange c h i) := by
  have htol := tol_pos
  have h1 : ¬ equals i.dt 0 := by rw [equals_iff]; rintro ⟨_, h2⟩; linarith
  have h2 : i.dt > 0 := by linarith
  have h3 : greaterEquals (s.fulfilAll.maxStep c) i.dt := by
    unfold greaterEquals; rw [fulfilAll_maxStep]; linarith
  have h4 : s.fulfilAll.hasSize ∨ i.dt < dblMax := Or.inl hsz
  unfold advance addComputedTime ensure
  rw [if_pos (show s.fulfilAll.ongoing c from hon), if_pos h1, if_pos h2, if_pos h4, if_pos h3]
  beta_reduce
  congr 1
  unfold firstExchange checkActions ensure
  rw [if_pos (by exact actionsDone_fulfilAll s)]
  by_cases hend : (s.time.progressBy i.dt).reachedEndOfWindow s.size
  · rw [if_pos hend]; exact if_pos (fun _ => hend)
  · rw [if_neg hend]; exact if_neg (fun hx => hend (hx hsz))

theorem secondExchange_end {c : Config} {h : Hooks ι D} {i : StepIn D} {s : State D}
    (hr : s.reqInit = false ∧ s.reqRead = false ∧ s.reqWrite = false) (hc : s.complete = false)
    (hend : s.time.reachedEndOfWindow s.size) :
    secondExchange c h i s = (h.second i s.clearActions).bind (finishWindow c) := by
  unfold secondExchange checkActions ensure
  rw [if_pos (by simp [State.actionsDone, hr])]
  exact (if_pos hc).trans (if_pos (fun _ => hend))

theorem secondExchange_mid {c : Config} {h : Hooks ι D} {i : StepIn D} {s : State D} {dt : ℚ} {v : D}
    (hsz : s.hasSize) (hend : ¬ (s.time.progressBy dt).reachedEndOfWindow s.size) :
    secondExchange c h i (midWindow s dt v) = ret (midWindow s dt v) := by
  unfold secondExchange checkActions ensure
  rw [if_pos (by simp [State.actionsDone, midWindow])]
  exact (if_pos rfl).trans (if_neg (fun hx => hend (hx hsz)))

theorem not_reachedEndOfWindow {t : TimeHandler} {w dt : ℚ} (h : tol < t.untilWindowEnd w - dt) :
    ¬ (t.progressBy dt).reachedEndOfWindow w := by
  unfold TimeHandler.reachedEndOfWindow
  rw [TimeHandler.untilWindowEnd_progressBy, equals_iff]
  rintro ⟨_, h2⟩; linarith

theorem reachedEndOfWindow_exact {t : TimeHandler} {w L : ℚ} (h : t.untilWindowEnd w = L) :
    (t.progressBy L).reachedEndOfWindow w := by
  have htol := tol_pos
  unfold TimeHandler.reachedEndOfWindow
  rw [TimeHandler.untilWindowEnd_progressBy, h, equals_iff]
  constructor <;> linarith

theorem maxStep_of {c : Config} {s : State D} (hon : s.ongoing c) (hsz : s.hasSize) :
    s.maxStep c = s.time.untilWindowEnd s.size := by
  unfold State.maxStep; rw [if_pos hon, if_pos hsz]

theorem ongoing_mid {c : Config} {s : State D} (hon : s.ongoing c) {dt : ℚ} {v : D}
    (h : tol < s.time.untilWindowEnd s.size - dt) : (midWindow s dt v).ongoing c := by
  refine ⟨hon.1, fun hx => ?_⟩
  obtain ⟨m, hm, h1, h2⟩ := TimeHandler.reachedEnd_iff.mp hx
  have := TimeHandler.untilWindowEnd_le_end (t := s.time) (m := m) hm s.size
  simp only [midWindow, TimeHandler.progressBy, TimeHandler.time] at h1 this
  linarith

/-- One iteration, whatever its substeps, is: enter the first exchange function at the window end
with the last written value, then the second exchange. Substeps communicate nothing. -/
theorem iterate_eq {c : Config} {h : Hooks ι D} {s : State D} {L : ℚ} {is : List (StepIn D)}
    (hs : StepsTo L is) (hL : s.maxStep c = L) (hpos : tol < L) (hon : s.ongoing c)
    (hsz : s.hasSize) :
    ∃ i, lastStep is = some i ∧
      iterate c h is s = (h.first i (atEnd s L i.value)).bind (secondExchange c h i) := by
  induction hs generalizing s with
  | @last L i hi =>
    refine ⟨i, rfl, ?_⟩
    have hend : (s.time.progressBy i.dt).reachedEndOfWindow s.size := by
      apply reachedEndOfWindow_exact; rw [← maxStep_of hon hsz, hL, hi]
    unfold iterate
    rw [advance_eq hon (by linarith) (by linarith) hsz, if_pos hend, hi]
    have : iterate (ι := ι) c h [] = ret := by funext x; rfl
    rw [this, bind_ret]
  | @cons L i is h1 h2 h3 ih =>
    have hms := maxStep_of hon hsz
    have hL' : s.time.untilWindowEnd s.size = L := by rw [← hms, hL]
    have hend : ¬ (s.time.progressBy i.dt).reachedEndOfWindow s.size :=
      not_reachedEndOfWindow (by rw [hL']; exact h2)
    have hon' : (midWindow s i.dt i.value).ongoing c := ongoing_mid hon (by rw [hL']; exact h2)
    have hsz' : (midWindow s i.dt i.value).hasSize := hsz
    obtain ⟨j, hj, hit⟩ := ih (s := midWindow s i.dt i.value) (by
      rw [maxStep_of hon' hsz']
      show (s.time.progressBy i.dt).untilWindowEnd s.size = _
      rw [TimeHandler.untilWindowEnd_progressBy, hL']) h2 hon' hsz'
    refine ⟨j, ?_, ?_⟩
    · have := h3.ne_nil
      unfold lastStep at hj ⊢
      rw [List.getLast?_cons_of_ne_nil this]
      exact hj
    · unfold iterate
      rw [advance_eq hon h1 (by linarith [tol_pos]) hsz, if_neg hend, ret_bind, secondExchange_mid hsz hend,
        ret_bind, hit]
      congr 2
      simp only [atEnd, midWindow, TimeHandler.progressBy]
      congr 2
      ring

/-! ### The end of an iteration -/

/-- Time after a completed window. -/
def nextTime (t : TimeHandler) (w : ℚ) : TimeHandler :=
  (t.progressBy (t.untilWindowEnd w)).completeTimeWindow w

/-- Facts after an iteration that started in `s`; `w`, `w'`: size of the finished and of the next
window; `b`: the window was completed. -/
structure AfterIterG (c : Config) (w w' : ℚ) (s s' : State D) (b : Bool) : Prop where
  size : s'.size = w'
  nextSize : s'.nextSize = w'
  time : s'.time = if b then nextTime s.time w else s.time
  windows : s'.windows = s.windows + if b then 1 else 0
  iters : s'.iters = if b then (if c.implicit then 1 else s.iters) else s.iters + 1
  complete : s'.complete = b

/-- With a fixed window size. -/
abbrev AfterIter (c : Config) (w : ℚ) (s s' : State D) (b : Bool) : Prop := AfterIterG c w w s s' b

theorem finishWindow_eqG {c : Config} {w w' L : ℚ} {s s2 : State D}
    (hp : s.time.progress = 0) (hL : s.time.untilWindowEnd w = L) (hpos : tol < L)
    (htime : s2.time = s.time.progressBy L) (hwin : s2.windows = s.windows + 1)
    (hsize : s2.size = w) (hnext : s2.nextSize = w') (hit : s2.iters = s.iters)
    (hrec : s2.received = true ∨ (¬ s2.ongoing c ∧ (c.implicit = true → s2.converged = true))) :
    ∃ s', (finishWindow c s2 : Prog ι (Msg D) (State D)) = ret s' ∧
      AfterIterG c w w' s s' (!c.implicit || s2.converged) ∧ s'.sendBuf = s2.sendBuf ∧
      s'.recvBuf = s2.recvBuf ∧ s'.converged = s2.converged := by
  have htol := tol_pos
  have hgr : greater s2.time.time s2.time.start := by
    unfold greater; rw [htime]; simp only [TimeHandler.progressBy, TimeHandler.time, hp]; linarith
  have hok : s2.time.completeOk s2.size := by
    unfold TimeHandler.completeOk
    rw [htime, hsize]
    cases hm : s.time.maxTime with
    | none =>
      left
      rw [TimeHandler.untilWindowEnd_none hm] at hL
      rw [equals_iff]; simp only [TimeHandler.progressBy]; constructor <;> linarith
    | some m =>
      rw [TimeHandler.untilWindowEnd_some hm] at hL
      rcases min_choice (w - s.time.progress) (m - s.time.time) with hc | hc <;> rw [hc] at hL
      · left; rw [equals_iff]; simp only [TimeHandler.progressBy]; constructor <;> linarith
      · right
        refine TimeHandler.reachedEnd_iff.mpr ⟨m, hm, ?_, ?_⟩ <;>
          simp only [TimeHandler.progressBy, TimeHandler.time] at hL ⊢ <;> linarith
  have hreset : s2.time.resetProgress = s.time := by
    rw [htime]; simp only [TimeHandler.resetProgress, TimeHandler.progressBy]
    rw [← hp]
  have hnt : s2.time.completeTimeWindow s2.size = nextTime s.time w := by
    rw [htime, hsize, nextTime, hL]
  unfold finishWindow ensure
  by_cases himp : c.implicit = true
  · by_cases hcv : s2.converged = false
    · have hrec' : s2.received = true := by
        rcases hrec with h | ⟨_, h⟩
        · exact h
        · rw [h himp] at hcv; cases hcv
      simp only [himp, hcv, if_true, if_pos hgr, ret_bind, hrec']
      simp only [implies_true, if_true, Bool.false_eq_true, if_false, ret_bind]
      exact ⟨_, rfl, ⟨hnext, hnext, hreset, by simp [hwin], by simp [hit], rfl⟩, rfl, rfl, rfl⟩
    · have hcv' : s2.converged = true := by simpa using hcv
      have hrec' : s2.ongoing c → s2.received = true := by
        intro h4
        rcases hrec with h | ⟨h, _⟩
        · exact h
        · exact absurd h4 h
      simp only [himp, hcv', if_true, Bool.true_eq_false, if_false, ret_bind]
      rw [if_pos (by exact hrec')]
      simp only [if_pos hok, ret_bind]
      exact ⟨_, rfl, ⟨hnext, hnext, hnt, by simp [hwin], by simp [himp], rfl⟩, rfl, rfl, rfl⟩
  · have himp' : c.implicit = false := by simpa using himp
    have hrec' : s2.ongoing c → s2.received = true := by
      intro h4
      rcases hrec with h | ⟨h, _⟩
      · exact h
      · exact absurd h4 h
    simp only [himp', Bool.false_eq_true, if_false, ret_bind]
    rw [if_pos (by exact hrec')]
    simp only [if_true, if_pos hok, ret_bind]
    exact ⟨_, rfl, ⟨hnext, hnext, hnt, by simp [hwin], by simp [hit, himp'], rfl⟩, rfl, rfl, by simp⟩

theorem finishWindow_eq {c : Config} {w L : ℚ} {s s2 : State D}
    (hp : s.time.progress = 0) (hL : s.time.untilWindowEnd w = L) (hpos : tol < L)
    (htime : s2.time = s.time.progressBy L) (hwin : s2.windows = s.windows + 1)
    (hsize : s2.size = w) (hnext : s2.nextSize = w) (hit : s2.iters = s.iters)
    (hrec : s2.received = true ∨ (¬ s2.ongoing c ∧ (c.implicit = true → s2.converged = true))) :
    ∃ s', (finishWindow c s2 : Prog ι (Msg D) (State D)) = ret s' ∧
      AfterIter c w s s' (!c.implicit || s2.converged) ∧ s'.sendBuf = s2.sendBuf ∧
      s'.recvBuf = s2.recvBuf ∧ s'.converged = s2.converged :=
  finishWindow_eqG hp hL hpos htime hwin hsize hnext hit hrec

end Verif
