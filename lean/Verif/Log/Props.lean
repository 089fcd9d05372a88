import Verif.Log.Spec

/-!
# C121: what the log files say
-/

set_option autoImplicit false

namespace Verif.Log

open Prog

variable {ι D R : Type}

/-- **C121.** The log files do not influence the coupling. -/
theorem C121_transparent {c : Config} {h : Hooks ι D} (hh : FixedHooks h) {g : LogCfg}
    {P : State D → ℚ → Prop} {mt : Option ℚ} {w : ℚ} (hw : tol < w) {s₀ : State D}
    (hs : Started c h mt w s₀) {log : List (Obs × LogIn R)} {s : State D} {f : Files R}
    (he : LExec c h g P s₀ log s f) : Exec c h P s₀ (seen log) s := by
  induction he with
  | nil => exact .nil
  | @step log s s' f f' i l tr he' hp hf hr ih =>
    have hi := ih.inv hh hw hs
    have := (advanceL_cases hh (hasSize_fulfil hw hi) hr).1
    have := Exec.step ih hp this
    simpa [seen] using this

/-- The number of iterations in total. -/
theorem total_eq {c : Config} {h : Hooks ι D} (hh : FixedHooks h) (himp : c.implicit = true)
    {P : State D → ℚ → Prop} {mt : Option ℚ} {w : ℚ} (hw : tol < w) {s₀ : State D}
    (hs : Started c h mt w s₀) {log : List Obs} {s : State D} (he : Exec c h P s₀ log s) :
    s.total = iterationsDone log + 1 := by
  induction he with
  | nil => have f := hs.facts hh; rw [f.total]; rfl
  | @step log s s' i tr he' hp hr ih =>
    have hi := he'.inv hh hw hs
    have adv := advance_cases hh (hasSize_fulfil hw hi) hr
    rw [iterationsDone_snoc]
    cases adv.outcome with
    | subcycle _ _ _ _ tt hc hrd => simp [ended, State.obs, hc, hrd, tt, ih]
    | repeated _ _ _ _ _ _ tt hc hrd => simp [ended, State.obs, hc, hrd, tt, ih]
    | completed _ _ _ _ _ _ tt hc => simp [ended, State.obs, hc, tt, himp, ih]

/-- **C121, both files at any time.** The files contain the rows of the windows and iterations since the
participant was last reinitialized. -/
theorem C121_files {c : Config} {h : Hooks ι D} (hh : FixedHooks h) (himp : c.implicit = true)
    {g : LogCfg} {P : State D → ℚ → Prop} {mt : Option ℚ} {w : ℚ} (hw : tol < w) {s₀ : State D}
    (hs : Started c h mt w s₀) {log : List (Obs × LogIn R)} {s : State D} {f : Files R}
    (he : LExec c h g P s₀ log s f) :
    f.iter = ⟨iterCols c g, (iterCols c g).length, rowsFrom (lastRemesh log) (iterRow c g) log⟩ ∧
    (c.first = false →
      f.conv = ⟨convCols g, (convCols g).length, rowsFrom (lastRemesh log) convRow log⟩) := by
  induction he with
  | nil => exact ⟨by rw [openFiles_iter]; rfl, fun h1 => by rw [openFiles_conv _ _ h1]; rfl⟩
  | @step log s s' f f' i l tr he' hp hf hr ih =>
    have hex := C121_transparent hh hw hs he'
    have hi := hex.inv hh hw hs
    obtain ⟨hrun, hno, hyes⟩ := advanceL_cases hh (hasSize_fulfil hw hi) hr
    have adv := advance_cases hh (hasSize_fulfil hw hi) hrun
    have hit := iters_eq hh himp hw hs hex
    have htot := total_eq hh himp hw hs hex
    have hwin := hi.windows
    have hle := lastRemesh_le log
    by_cases hend : (s.fulfilAll.time.progressBy i.dt).reachedEndOfWindow s.fulfilAll.size
    · -- the end of an iteration
      have hended : ended (s'.obs i) = true := by
        cases adv.outcome with
        | subcycle hx => exact absurd hend hx
        | completed _ _ _ _ _ _ _ hc => simp [ended, State.obs, hc]
        | repeated _ _ _ _ _ _ _ _ hrd => simp [ended, State.obs, hrd]
      have hcompl : s'.complete = s'.converged := by
        cases adv.outcome with
        | subcycle hx => exact absurd hend hx
        | completed _ hcv _ _ _ _ _ hc => rw [hc, hcv himp]
        | repeated _ _ hcv _ _ _ _ hc => rw [hc, hcv]
      obtain ⟨f1, hm, hrow⟩ := hyes hend
      -- the files before the row is written
      set r := lastRemesh (log ++ [(s'.obs i, l)]) with hr'
      have hrle : r ≤ log.length := by
        rw [hr', lastRemesh_snoc]; split
        · exact le_rfl
        · exact hle
      have hrows : ∀ {F : List (Obs × LogIn R) → Obs × LogIn R → Option (List (Cell R))},
          rowsFrom r F log = if l.remesh = true then [] else rowsFrom (lastRemesh log) F log := by
        intro F
        rw [hr', lastRemesh_snoc]
        simp only [hended, Bool.and_true]
        split
        · unfold rowsFrom
          rw [List.filterMap_eq_nil_iff]
          intro p hp'
          rw [if_pos (List.mem_range.mp hp')]
        · rfl
      have h0i : (if c.implicit = true ∧ l.remesh = true then openFiles c g else f).iter =
          ⟨iterCols c g, (iterCols c g).length, rowsFrom r (iterRow c g) log⟩ := by
        rw [hrows]
        by_cases hl : l.remesh = true
        · rw [if_pos ⟨himp, hl⟩, if_pos hl, openFiles_iter]
        · rw [if_neg (fun hx => hl hx.2), if_neg hl, ih.1]
      have h0c : c.first = false →
          (if c.implicit = true ∧ l.remesh = true then openFiles c g else f).conv =
          ⟨convCols g, (convCols g).length, rowsFrom r convRow log⟩ := by
        intro h1
        rw [hrows]
        by_cases hl : l.remesh = true
        · rw [if_pos ⟨himp, hl⟩, if_pos hl, openFiles_conv _ _ h1]
        · rw [if_neg (fun hx => hl hx.2), if_neg hl, ih.2 h1]
      generalize (if c.implicit = true ∧ l.remesh = true then openFiles c g else f) = f0 at hm h0i h0c
      have hk : ((State.counted s.fulfilAll).windows : ℤ) - 1 =
          ((completedWindows (seen log) + 1 : ℕ) : ℤ) := by
        simp [State.counted, hwin]; omega
      have hk2 : (State.counted s.fulfilAll).iters = repeats (seen log) + 1 := hit
      have hk3 : (State.counted s.fulfilAll).total = iterationsDone (seen log) + 1 := htot
      -- the convergence log
      have h1c : f1.iter = f0.iter ∧ (c.first = false →
          f1.conv = ⟨convCols g, (convCols g).length, rowsFrom r convRow (log ++ [(s'.obs i, l)])⟩) := by
        cases hfst : c.first
        · have hme : measures c = true := by simp [measures, himp, hfst]
          rw [if_pos hme, h0c hfst] at hm
          obtain ⟨wr, hwr, rfl⟩ := hm
          have := measureLog_ok c g l (hf.length hme) _ _ _ hwr
          refine ⟨rfl, fun _ => ?_⟩
          rw [this, rowsFrom_snoc hrle, hk, hk2]
          simp [convRow, hended]
        · have hme : ¬ measures c = true := by simp [measures, hfst]
          rw [if_neg hme] at hm
          rw [hm]
          exact ⟨rfl, fun hx => by cases hx⟩
      by_cases hcv : s'.converged = true
      · rw [if_pos ⟨himp, hcv⟩, h1c.1, h0i, advanceWriters_ok, hk, hk2, hk3] at hrow
        obtain ⟨wr, hwr, rfl⟩ := hrow
        injection hwr with hwr
        refine ⟨?_, h1c.2⟩
        rw [← hwr, rowsFrom_snoc hrle]
        simp [iterRow, State.obs, hcompl, hcv]
      · rw [if_neg (fun hx => hcv hx.2)] at hrow
        subst hrow
        refine ⟨?_, h1c.2⟩
        rw [h1c.1, h0i, rowsFrom_snoc hrle]
        simp [iterRow, State.obs, hcompl, hcv]
    · -- a substep
      have hob : (s'.obs i).complete = false ∧ (s'.obs i).reqRead = false := by
        cases adv.outcome with
        | subcycle _ _ _ _ _ hc hrd => exact ⟨hc, hrd⟩
        | completed hx => exact absurd hx hend
        | repeated hx => exact absurd hx hend
      have hr' : lastRemesh (log ++ [(s'.obs i, l)]) = lastRemesh log := by
        rw [lastRemesh_snoc]; simp [ended, hob]
      rw [hno hend, hr', rowsFrom_snoc hle, rowsFrom_snoc hle, ih.1]
      refine ⟨by simp [iterRow, hob], fun h1 => ?_⟩
      rw [ih.2 h1]
      simp [convRow, ended, hob]

/-- The participant is never reinitialized. -/
def NoRemeshing (log : List (Obs × LogIn R)) : Prop := ∀ x ∈ log, x.2.remesh = false

theorem lastRemesh_none {log : List (Obs × LogIn R)} (h : NoRemeshing log) : lastRemesh log = 0 := by
  induction log using List.reverseRecOn with
  | nil => rfl
  | append_singleton log x ih =>
    rw [lastRemesh_snoc, h x (by simp)]
    simpa using ih fun y hy => h y (by simp [hy])

/-- **C121, iterations log.** Without remeshing the file has one row for every completed window, in order. -/
theorem C121_iterations_log {c : Config} {h : Hooks ι D} (hh : FixedHooks h) (himp : c.implicit = true)
    {g : LogCfg} {P : State D → ℚ → Prop} {mt : Option ℚ} {w : ℚ} (hw : tol < w) {s₀ : State D}
    (hs : Started c h mt w s₀) {log : List (Obs × LogIn R)} {s : State D} {f : Files R}
    (he : LExec c h g P s₀ log s f) (hnr : NoRemeshing log) :
    f.iter.rows = rowsFrom 0 (iterRow c g) log ∧
    f.iter.rows.length = completedWindows (seen log) ∧
    ∀ (k : ℕ) (row : List (Cell R)), f.iter.rows[k]? = some row →
      row.length = (iterCols c g).length ∧ row[0]? = some (.int (k + 1 : ℕ)) := by
  have hfile := (C121_files hh himp hw hs he).1
  rw [lastRemesh_none hnr] at hfile
  have hr : f.iter.rows = rowsFrom 0 (iterRow c g) log := by rw [hfile]
  refine ⟨hr, ?_⟩
  rw [hr]
  clear hr hfile hnr he hs
  induction log using List.reverseRecOn with
  | nil => exact ⟨rfl, fun k row hk => by simp [rowsFrom_nil] at hk⟩
  | append_singleton log x ih =>
    rw [rowsFrom_snoc (Nat.zero_le _)]
    have hseen : seen (log ++ [x]) = seen log ++ [x.1] := by simp [seen]
    rw [hseen, completedWindows_snoc]
    cases hc : x.1.complete
    · have : iterRow c g log x = none := by simp [iterRow, hc]
      rw [this]
      simpa using ih
    · obtain ⟨row, hrow, hlen, hfst⟩ : ∃ row, iterRow c g log x = some row ∧
          row.length = (iterCols c g).length ∧
          row[0]? = some (.int (completedWindows (seen log) + 1 : ℕ)) := by
        refine ⟨_, by simp only [iterRow, hc, if_true]; rfl, ?_, ?_⟩
        · simp only [iterCols]; split <;> simp
        · simp
      rw [hrow]
      refine ⟨by simp [ih.1], ?_⟩
      intro k row' hk
      simp only [Option.toList] at hk
      by_cases hlt : k < (rowsFrom 0 (iterRow c g) log).length
      · rw [List.getElem?_append_left hlt] at hk
        exact ih.2 k row' hk
      · rw [List.getElem?_append_right (by omega)] at hk
        have hk0 : k - (rowsFrom 0 (iterRow c g) log).length = 0 := by
          by_contra hne
          rw [List.getElem?_eq_none (by simp; omega)] at hk
          cases hk
        rw [hk0] at hk
        simp only [List.getElem?_cons_zero, Option.some.injEq] at hk
        subst hk
        refine ⟨hlen, ?_⟩
        rw [hfst]
        have : k = completedWindows (seen log) := by rw [ih.1] at hk0 hlt; omega
        rw [this]

/-- The numbers in the column `Iterations` of the specification. -/
def iterationsOf (log : List Obs) : List ℕ :=
  rowsFrom 0 (fun past o => if o.complete = true then some (repeats past + 1) else none) log

/-- **C121, totals.** Every iteration is counted once: the iterations of the completed windows and those of
the current one sum up to all iterations. -/
theorem C121_total_is_sum (log : List Obs) :
    iterationsDone log = (iterationsOf log).sum + repeats log := by
  induction log using List.reverseRecOn with
  | nil => rfl
  | append_singleton log o ih =>
    unfold iterationsOf at ih ⊢
    rw [iterationsDone_snoc, rowsFrom_snoc (Nat.zero_le _), repeats_snoc, ih]
    cases hc : o.complete <;> cases hr : o.reqRead <;> simp [ended, hc, hr] <;> omega

/-- **C121, convergence log.** Without remeshing the file has one row for every iteration, in order, with the
residuals of that iteration. -/
theorem C121_convergence_log {c : Config} {h : Hooks ι D} (hh : FixedHooks h) (himp : c.implicit = true)
    (hsecond : c.first = false)
    {g : LogCfg} {P : State D → ℚ → Prop} {mt : Option ℚ} {w : ℚ} (hw : tol < w) {s₀ : State D}
    (hs : Started c h mt w s₀) {log : List (Obs × LogIn R)} {s : State D} {f : Files R}
    (he : LExec c h g P s₀ log s f) (hnr : NoRemeshing log) :
    f.conv.rows = rowsFrom 0 convRow log ∧ f.conv.rows.length = iterationsDone (seen log) := by
  have hfile := (C121_files hh himp hw hs he).2 hsecond
  rw [lastRemesh_none hnr] at hfile
  have hr : f.conv.rows = rowsFrom 0 convRow log := by rw [hfile]
  refine ⟨hr, ?_⟩
  rw [hr]
  clear hr hfile hnr he hs
  induction log using List.reverseRecOn with
  | nil => rfl
  | append_singleton log x ih =>
    rw [rowsFrom_snoc (Nat.zero_le _)]
    have hseen : seen (log ++ [x]) = seen log ++ [x.1] := by simp [seen]
    rw [hseen, iterationsDone_snoc, List.length_append, ih]
    cases hc : ended x.1 <;> simp [convRow, hc]

/-- **C121, convergence flag, partial.** The entry `Convergence` of a completed window is 0 exactly if the
maximum number of iterations was used; if it is 1 then the convergence measures were satisfied in the last
iteration. Missing: 1 whenever they were satisfied (`C121_flag_at_max`). -/
theorem C121_flag_partial {c : Config} {h : Hooks ι D} (hh : FixedHooks h) (hm : Measures c h)
    (himp : c.implicit = true) (hsecond : c.first = false)
    (hmm : ∀ N, c.maxIter = some N → 1 ≤ N ∧ c.minIter ≤ N) {g : LogCfg}
    {P : State D → ℚ → Prop} {mt : Option ℚ} {w : ℚ} (hw : tol < w) {s₀ : State D}
    (hs : Started c h mt w s₀) {log : List (Obs × LogIn R)} {s s' : State D} {f f' : Files R}
    (he : LExec c h g P s₀ log s f) {i : StepIn D} {l : LogIn R} (hf : Fits c g i l) {tr}
    (hr : Run (advanceL c h g i l s.fulfilAll f) tr (s', f')) (hc : s'.complete = true) :
    (convFlag c (repeats (seen log) + 1) = 0 ↔ c.maxIter = some (repeats (seen log) + 1)) ∧
    (convFlag c (repeats (seen log) + 1) = 1 → l.meas ≠ [] ∧ Measure.verdict (l.meas.map (·.2))) := by
  have hex := C121_transparent hh hw hs he
  have hi := hex.inv hh hw hs
  have hrun := (advanceL_cases hh (hasSize_fulfil hw hi) hr).1
  obtain ⟨_, hd⟩ := (complete_iff_decision hh hm himp hw hs hex hrun).mp hc
  have hmin : c.minIter ≤ repeats (seen log) + 1 :=
    C10_min_iterations hh hm himp (fun N hN => (hmm N hN).2) hw hs hex hrun hc
  have hme : measures c = true := by simp [measures, himp, hsecond]
  by_cases hx : c.maxIter = some (repeats (seen log) + 1)
  · have : convFlag c (repeats (seen log) + 1) = 0 := by
      unfold convFlag
      rw [if_neg]
      rw [hx]
      simp only [Measure.rawMax]
      omega
    rw [this]
    exact ⟨⟨fun _ => hx, fun _ => rfl⟩, fun h1 => by norm_num at h1⟩
  · have : convFlag c (repeats (seen log) + 1) = 1 := by
      unfold convFlag
      rw [if_pos]
      refine ⟨hmin, ?_⟩
      cases hN : c.maxIter with
      | none => left; simp [Measure.rawMax]
      | some N =>
        right
        have h9 := C09_max_iterations hh hm himp hN (hmm N hN).1 hw hs hex
        have hne : N ≠ repeats (seen log) + 1 := fun e => hx (by rw [hN, e])
        simp only [Measure.rawMax]
        omega
    rw [this]
    refine ⟨⟨fun h1 => by norm_num at h1, fun h1 => absurd h1 hx⟩, fun _ => ?_⟩
    unfold decision at hd
    rw [if_neg hx, Bool.and_eq_true] at hd
    exact (hf.verdict hme).mp hd.1

/-- **C121, the files are always written.** Every `advance` that succeeds without log files succeeds with
them, unless a strict convergence measure stops the simulation; no assertion of the writer fails. -/
theorem C121_always_written {c : Config} {h : Hooks ι D} (hh : FixedHooks h) (himp : c.implicit = true)
    {g : LogCfg} {P : State D → ℚ → Prop} {mt : Option ℚ} {w : ℚ} (hw : tol < w) {s₀ : State D}
    (hs : Started c h mt w s₀) {log : List (Obs × LogIn R)} {s s' : State D} {f : Files R}
    (he : LExec c h g P s₀ log s f) {i : StepIn D} {l : LogIn R} (hf : Fits c g i l)
    (hst : c.first = false → ¬ StrictStop c (repeats (seen log) + 1) l.meas) {tr}
    (hr : Run (advance c h i s.fulfilAll) tr s') :
    ∃ f', Run (advanceL c h g i l s.fulfilAll f) tr (s', f') := by
  have hfile := C121_files hh himp hw hs he
  have hex := C121_transparent hh hw hs he
  have hi := hex.inv hh hw hs
  have hit : s.fulfilAll.iters = repeats (seen log) + 1 :=
    (fulfilAll_iters s).trans (iters_eq hh himp hw hs hex)
  have hsize := hasSize_fulfil hw hi
  rw [← hit] at hst
  clear hit
  generalize s.fulfilAll = s at hr hst hsize
  unfold advance addComputedTime at hr
  simp only [run_ensure] at hr
  obtain ⟨hon, hne, hpos, hfin, hle, hr⟩ := hr
  rw [run_bind] at hr
  obtain ⟨t1, t2, s1, rfl, h1, h2⟩ := hr
  unfold firstExchange at h1
  rw [run_checkActions] at h1
  obtain ⟨hact, h1⟩ := h1
  unfold secondExchange at h2
  rw [run_checkActions, run_ensure] at h2
  obtain ⟨hact2, hcompl, h2⟩ := h2
  -- the files after a possible reinitialization
  obtain ⟨ri, rc, hri, hrc⟩ : ∃ ri rc,
      (reopen c g l { s with time := s.time.progressBy i.dt } f).iter =
        ⟨iterCols c g, (iterCols c g).length, ri⟩ ∧
      (c.first = false → (reopen c g l { s with time := s.time.progressBy i.dt } f).conv =
        ⟨convCols g, (convCols g).length, rc⟩) := by
    unfold reopen
    split
    · exact ⟨[], [], openFiles_iter c g, openFiles_conv c g⟩
    · exact ⟨_, _, hfile.1, hfile.2⟩
  -- the convergence log can be written
  have hmeas : ∀ (here : Bool) (x : State D) (f0 : Files R), x.iters = s.iters →
      f0.iter = ⟨iterCols c g, (iterCols c g).length, ri⟩ →
      (c.first = false → f0.conv = ⟨convCols g, (convCols g).length, rc⟩) →
      ∃ f1, Run (logMeasure c g here l x f0 : Prog ι (Msg D) (Files R)) [] f1 ∧
        f1.iter = f0.iter ∧ (here = false → f1 = f0) := by
    intro here x f0 hx _ h0
    cases hb : (here && measures c)
    · refine ⟨f0, ?_, rfl, fun _ => rfl⟩
      rw [run_logMeasure, hb]; simp
    · rw [Bool.and_eq_true] at hb
      have hfst : c.first = false := by
        have := hb.2; simp only [measures, Bool.and_eq_true, Bool.not_eq_true'] at this; exact this.2
      obtain ⟨wr, hwr⟩ := measureLog_succeeds c g l (hf.length hb.2) x
        (by rw [hx]; exact hst hfst) rc
      refine ⟨{ f0 with conv := wr }, ?_, rfl, fun hz => by rw [hz] at hb; simp at hb⟩
      rw [run_logMeasure]
      refine ⟨rfl, ?_⟩
      rw [if_pos (by simp [hb]), h0 hfst]
      exact ⟨wr, hwr, rfl⟩
  have hadd : Run (addComputedTime c s i.dt ret : Prog ι (Msg D) (State D)) []
      { s with time := s.time.progressBy i.dt } := by
    unfold addComputedTime
    simp only [run_ensure, run_ret]
    exact ⟨hon, hne, hpos, hfin, hle, trivial, trivial⟩
  by_cases hend : (s.time.progressBy i.dt).reachedEndOfWindow s.size
  · have hcond : State.reachedEndOfWindow
        { (State.clearActions { s with time := s.time.progressBy i.dt, sendBuf := i.value }) with
          received := false, complete := false } := fun _ => hend
    simp only [if_pos hcond] at h1
    obtain ⟨hc, hsz⟩ := hh.first _ _ _ _ h1
    have e1 := hc.time; have e3 := hc.iters; have e5 := hsz.size
    simp only [State.clearActions] at e1 e3 e5
    have hcond2 : State.reachedEndOfWindow s1.clearActions := by
      intro _
      simpa [State.clearActions, e1, e5] using hend
    rw [if_pos hcond2, run_bind] at h2
    obtain ⟨t3, t4, s2, rfl, h3, h4⟩ := h2
    obtain ⟨f1, hf1, hf1i, hf1n⟩ := hmeas g.inFirst
      { (State.clearActions { s with time := s.time.progressBy i.dt, sendBuf := i.value }) with
          received := false, complete := false, windows := s.windows + 1 } _ rfl hri hrc
    obtain ⟨f2, hf2, hf2i⟩ : ∃ f2,
        Run (logMeasure c g (!g.inFirst) l s1.clearActions f1 : Prog ι (Msg D) (Files R)) [] f2 ∧
        f2.iter = ⟨iterCols c g, (iterCols c g).length, ri⟩ := by
      cases hin : g.inFirst
      · rw [hf1n hin]
        obtain ⟨f2, a, b, _⟩ := hmeas true s1.clearActions _ e3 hri hrc
        exact ⟨f2, a, by rw [b, hri]⟩
      · refine ⟨f1, ?_, by rw [hf1i, hri]⟩
        rw [run_logMeasure]; simp
    obtain ⟨f3, hf3⟩ : ∃ f3, Run (finishWindowL c g l s2 f2 : Prog ι (Msg D) (State D × Files R)) t4
        (s', f3) := by
      by_cases hx : c.implicit = true ∧ s2.converged = true
      · obtain ⟨wr, hwr⟩ : ∃ wr, advanceWriters c g l s2 f2.iter = .ok wr :=
          ⟨_, by rw [hf2i]; exact advanceWriters_ok c g l s2 ri⟩
        refine ⟨{ f2 with iter := wr }, ?_⟩
        unfold finishWindowL
        rw [if_pos hx, run_bind]
        refine ⟨[], t4, { f2 with iter := wr }, rfl, ?_, ?_⟩
        · rw [run_bind]
          exact ⟨[], [], wr, rfl, run_lift.mpr ⟨rfl, hwr⟩, by rw [run_ret]; exact ⟨rfl, rfl⟩⟩
        · rw [run_bind]
          exact ⟨t4, [], s', by simp, h4, by rw [run_ret]; exact ⟨rfl, rfl⟩⟩
      · refine ⟨f2, ?_⟩
        unfold finishWindowL
        rw [if_neg hx, run_bind]
        refine ⟨[], t4, f2, rfl, by rw [run_ret]; exact ⟨rfl, rfl⟩, ?_⟩
        rw [run_bind]
        exact ⟨t4, [], s', by simp, h4, by rw [run_ret]; exact ⟨rfl, rfl⟩⟩
    refine ⟨f3, ?_⟩
    unfold advanceL
    rw [run_bind]
    refine ⟨[], _, _, rfl, hadd, ?_⟩
    rw [run_bind]
    refine ⟨t1, t3 ++ t4, (s1, f1), rfl, ?_, ?_⟩
    · unfold firstExchangeL
      rw [run_checkActions']
      refine ⟨hact, ?_⟩
      simp only [if_pos hcond]
      rw [run_bind]
      refine ⟨[], t1, f1, rfl, hf1, ?_⟩
      rw [run_bind]
      exact ⟨t1, [], s1, by simp, h1, by rw [run_ret]; exact ⟨rfl, rfl⟩⟩
    · unfold secondExchangeL
      rw [run_checkActions', run_ensure]
      refine ⟨hact2, hcompl, ?_⟩
      rw [if_pos hcond2, run_bind]
      refine ⟨[], t3 ++ t4, f2, rfl, hf2, ?_⟩
      rw [run_bind]
      exact ⟨t3, t4, s2, rfl, h3, hf3⟩
  · have hcond : ¬ State.reachedEndOfWindow
        { (State.clearActions { s with time := s.time.progressBy i.dt, sendBuf := i.value }) with
          received := false, complete := false } := fun hx => hend (hx hsize)
    simp only [if_neg hcond, run_ret] at h1
    obtain ⟨rfl, rfl⟩ := h1
    have hcond2 : ¬ State.reachedEndOfWindow (State.clearActions
        { (State.clearActions { s with time := s.time.progressBy i.dt, sendBuf := i.value }) with
          received := false, complete := false }) := fun hx => hend (hx hsize)
    rw [if_neg hcond2, run_ret] at h2
    obtain ⟨rfl, rfl⟩ := h2
    refine ⟨reopen c g l { s with time := s.time.progressBy i.dt } f, ?_⟩
    unfold advanceL
    rw [run_bind]
    refine ⟨[], [], _, rfl, hadd, ?_⟩
    rw [run_bind]
    refine ⟨[], [], ({ (State.clearActions
      { s with time := s.time.progressBy i.dt, sendBuf := i.value }) with
        received := false, complete := false }, reopen c g l { s with time := s.time.progressBy i.dt } f),
      rfl, ?_, ?_⟩
    · unfold firstExchangeL
      rw [run_checkActions']
      refine ⟨hact, ?_⟩
      simp only [if_neg hcond]
      rw [run_ret]
      exact ⟨rfl, rfl⟩
    · unfold secondExchangeL
      rw [run_checkActions', run_ensure]
      refine ⟨hact2, hcompl, ?_⟩
      rw [if_neg hcond2, run_ret]
      exact ⟨rfl, rfl⟩

end Verif.Log
