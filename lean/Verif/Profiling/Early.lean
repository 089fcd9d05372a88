import Verif.Profiling.Lemmas

/-!
# Profiling: lemmas about the constructor of a participant (C130)
-/

set_option autoImplicit false

namespace Verif.Profiling

/-- The records before the settings are known -/
def earlyQueue (env : Env) (k : ℕ) : List Entry :=
  if env.mpi then
    [.name "_GLOBAL" 0, .start 0 (env.clk k), .name "construction" 1, .start 1 (env.clk (k + 1)),
      .name "com.initializeMPI" 2, .start 2 (env.clk (k + 2)), .stop 2 (env.clk (k + 3)),
      .name "configure" 3, .start 3 (env.clk (k + 4)),
      .name "readConfiguration" 4, .start 4 (env.clk (k + 5)), .stop 4 (env.clk (k + 6))]
  else
    [.name "_GLOBAL" 0, .start 0 (env.clk k), .name "construction" 1, .start 1 (env.clk (k + 1)),
      .name "configure" 2, .start 2 (env.clk (k + 2)),
      .name "readConfiguration" 3, .start 3 (env.clk (k + 3)), .stop 3 (env.clk (k + 4))]

/-- The names before the settings are known -/
def earlyDict (env : Env) : List String :=
  if env.mpi then ["_GLOBAL", "construction", "com.initializeMPI", "configure", "readConfiguration"]
  else ["_GLOBAL", "construction", "configure", "readConfiguration"]

/-- The registry before the settings are known -/
def earlyReg (env : Env) (r : Reg) : Reg :=
  { r with mode := .fundamental, parallel := env.parallel, sync := false, globalId := 0, dict := earlyDict env,
           queue := earlyQueue env r.reads, queueMax := 50, initialized := true, finalized := false,
           reads := r.reads + if env.mpi then 7 else 5 }

theorem early_eq (env : Env) (r : Reg) (hr : r.running = false) :
    (beforeConfigure env r).1
        = { eid := 1, sid := none, running := true, group := .fundamental, synchronize := false }
      ∧ (beforeConfigure env r).2.1
        = { eid := if env.mpi then 3 else 2, sid := none, running := true, group := .fundamental, synchronize := false }
      ∧ configure env (beforeConfigure env r).2.2
        = match env.tag with
          | none => some (earlyReg env r)
          | some t => tagCallback t (earlyReg env r) := by
  obtain ⟨clk, mpi, par, tag⟩ := env
  obtain ⟨md, pr, sn, gi, di, qu, qm, ini, fi, ru, op, fl, clo, re⟩ := r
  simp only at hr
  subst hr
  cases mpi
  · refine ⟨?_, ?_, ?_⟩
    · simp [beforeConfigure, initRegistry, applyDefaults, Event.create, Event.start, nameToID, push, put, now, accepting, Entry.isStart]
    · simp [beforeConfigure, initRegistry, applyDefaults, Event.create, Event.start, nameToID, push, put, now, accepting, Entry.isStart]
    · have : ∀ x y : Reg, x = y → (match tag with | none => some x | some t => tagCallback t x) = (match tag with | none => some y | some t => tagCallback t y) := by
        rintro x y rfl; rfl
      unfold configure
      dsimp only
      refine this _ _ ?_
      simp [beforeConfigure, initRegistry, applyDefaults, Event.create, Event.start, Event.stop, nameToID, push, put, now, accepting, Entry.isStart, earlyReg, earlyDict, earlyQueue]
  · refine ⟨?_, ?_, ?_⟩
    · simp [beforeConfigure, initRegistry, applyDefaults, Event.create, Event.start, nameToID, push, put, now, accepting, Entry.isStart]
    · simp [beforeConfigure, initRegistry, applyDefaults, Event.create, Event.start, Event.stop, nameToID, push, put, now, accepting, Entry.isStart]
    · have : ∀ x y : Reg, x = y → (match tag with | none => some x | some t => tagCallback t x) = (match tag with | none => some y | some t => tagCallback t y) := by
        rintro x y rfl; rfl
      unfold configure
      dsimp only
      refine this _ _ ?_
      simp [beforeConfigure, initRegistry, applyDefaults, Event.create, Event.start, Event.stop, nameToID, push, put, now, accepting, Entry.isStart, earlyReg, earlyDict, earlyQueue]

/-- The registry when no participant is alive -/
structure Idle (r : Reg) : Prop where
  running : r.running = false
  isOpen : r.isOpen = false
  file : r.file = []

/-- The registry when the settings are known -/
def confReg (env : Env) (r : Reg) : Reg :=
  { earlyReg env r with sync := env.settings.synchronize, queueMax := env.settings.flushEvery.toNat,
                        mode := env.settings.mode }

theorem configure_eq (env : Env) (r : Reg) (hr : r.running = false) :
    configure env (beforeConfigure env r).2.2
      = if 0 ≤ env.settings.flushEvery then some (confReg env r) else none := by
  rw [(early_eq env r hr).2.2]
  obtain ⟨clk, mpi, par, tag⟩ := env
  cases tag with
  | none => rfl
  | some t => rfl

/-- the event `startProfilingBackend` -/
def backendEvent (env : Env) : Event :=
  { eid := if env.mpi then 5 else 4, sid := none, running := true, group := .other, synchronize := false }

/-- the event `construction` -/
def constructionEvent : Event :=
  { eid := 1, sid := none, running := true, group := .fundamental, synchronize := false }

/-- the remainder of the constructor once `configure` has ended -/
def afterConfigure (env : Env) (r : Reg) : Participant :=
  let r := startBackend (Event.create env.clk "startProfilingBackend" .other false r).2
  let r := ((backendEvent env).stop env.clk r).2
  let r :=
    if env.parallel then
      runForest env.clk (.node "com.initializeIntraCom" .fundamental false [] .nil .nil) r
    else
      r
  let r := (constructionEvent.stop env.clk r).2
  let i := Event.create env.clk "solver.initialize" .fundamental true r
  { reg := i.2, phase := .constructed, solverInit := some i.1, solverAdvance := none, userEvents := [] }

/-- the event `configure` -/
def confEvent (env : Env) : Event :=
  { eid := if env.mpi then 3 else 2, sid := none, running := true, group := .fundamental, synchronize := false }

theorem conf_stop_dict (env : Env) (r : Reg) :
    ((confEvent env).stop env.clk (confReg env r)).2.dict = earlyDict env := by
  rw [stop_dict]
  rfl

theorem backend_fst (env : Env) (r : Reg) (h : r.dict = earlyDict env) :
    (Event.create env.clk "startProfilingBackend" .other false r).1 = backendEvent env := by
  have : "startProfilingBackend" ∉ r.dict := by
    rw [h]
    unfold earlyDict
    split_ifs <;> simp
  unfold Event.create
  dsimp only
  rw [if_neg (by simp), start_fst]
  unfold nameToID
  rw [if_neg this, h]
  unfold earlyDict backendEvent
  split_ifs <;> rfl

theorem construct_eq (env : Env) (r : Reg) (hr : r.running = false) :
    construct env r
      = if 0 ≤ env.settings.flushEvery then
          some (afterConfigure env ((confEvent env).stop env.clk (confReg env r)).2)
        else none := by
  unfold construct
  dsimp only
  rw [configure_eq env r hr]
  by_cases h : 0 ≤ env.settings.flushEvery
  · rw [if_pos h, if_pos h]
    obtain ⟨h1, h2, -⟩ := early_eq env r hr
    dsimp only
    rw [h1, h2]
    unfold afterConfigure
    dsimp only
    rw [← backend_fst env _ (conf_stop_dict env r)]
    rfl
  · rw [if_neg h, if_neg h]

theorem fund_le {m : Mode} (h : m ≠ .off) : Group.fundamental.level ≤ m.level := by
  cases m
  · exact absurd rfl h
  · exact le_refl 1
  · exact show 1 ≤ 2 by decide
  · exact show 1 ≤ 3 by decide

theorem acc_fund {m : Mode} (h : m ≠ .off) : accepting m .fundamental = true := by
  rw [accepting_iff]
  simpa using fund_le h

theorem stop_acc (clk : ℕ → ℤ) (e : Event) (r : Reg) (h : accepting r.mode e.group = true) :
    (e.stop clk r).2 = put (.stop e.eid (clk r.reads)) { r with reads := r.reads + 1 } :=
  if_pos h

theorem put_push (e : Entry) (r : Reg) (h : r.queueMax = 0 ∨ r.queue.length + 1 ≤ r.queueMax) :
    put e r = push e r := by
  unfold put
  dsimp only
  rw [if_neg]
  change ¬ (_ && decide (0 < r.queueMax) && decide (r.queueMax < (r.queue ++ [e]).length)) = true
  simp only [Bool.and_eq_true, decide_eq_true_eq, List.length_append, List.length_singleton]
  omega

theorem put_flush (e : Entry) (r : Reg) (hs : r.queueMax = 1 ∨ e.isStart = false) (h0 : 0 < r.queueMax)
    (h : r.queueMax < r.queue.length + 1) : put e r = flush (push e r) := by
  unfold put
  dsimp only
  rw [if_pos]
  change (!(r.queueMax != 1 && e.isStart) && decide (0 < r.queueMax)
    && decide (r.queueMax < (r.queue ++ [e]).length)) = true
  simp only [Bool.and_eq_true, decide_eq_true_eq, List.length_append, List.length_singleton]
  refine ⟨⟨?_, h0⟩, h⟩
  rcases hs with hs | hs
  · simp [hs]
  · simp [hs]

/-- Without a flush: the registry when the file is opened -/
theorem opened_eq (env : Env) (r : Reg) (hm : env.settings.mode ≠ .off)
    (hf : env.settings.flushEvery.toNat = 0 ∨ env.early ≤ env.settings.flushEvery.toNat) :
    startBackend (Event.create env.clk "startProfilingBackend" .other false
        ((confEvent env).stop env.clk (confReg env r)).2).2
      = { confReg env r with
            dict := earlyDict env ++ ["startProfilingBackend"]
            queue := earlyQueue env r.reads
              ++ [.stop (confEvent env).eid (env.clk (confReg env r).reads),
                .name "startProfilingBackend" (if env.mpi then 5 else 4)]
              ++ (if env.settings.mode = .all then
                  [.start (if env.mpi then 5 else 4) (env.clk ((confReg env r).reads + 1))] else [])
            reads := (confReg env r).reads + if env.settings.mode = .all then 2 else 1
            isOpen := true, file := [], running := true } := by
  obtain ⟨clk, mpi, par, tag⟩ := env
  obtain ⟨t, ht⟩ : ∃ t, Env.settings ⟨clk, mpi, par, tag⟩ = t := ⟨_, rfl⟩
  obtain ⟨tm, tf, ts⟩ := t
  unfold confReg
  rw [ht] at hm hf ⊢
  dsimp only at hm hf ⊢
  obtain ⟨k, hk⟩ : ∃ k, tf.toNat = k := ⟨_, rfl⟩
  rw [hk] at hf ⊢
  have e1 : (Event.stop clk (confEvent ⟨clk, mpi, par, tag⟩)
      { earlyReg ⟨clk, mpi, par, tag⟩ r with sync := ts, queueMax := k, mode := tm }).2
      = { earlyReg ⟨clk, mpi, par, tag⟩ r with
            sync := ts, queueMax := k, mode := tm
            queue := earlyQueue ⟨clk, mpi, par, tag⟩ r.reads ++
              [.stop (confEvent ⟨clk, mpi, par, tag⟩).eid (clk (earlyReg ⟨clk, mpi, par, tag⟩ r).reads)]
            reads := (earlyReg ⟨clk, mpi, par, tag⟩ r).reads + 1 } := by
    rw [stop_acc clk _ _ (acc_fund hm)]
    refine (put_push _ _ ?_).trans rfl
    have hl : (earlyQueue ⟨clk, mpi, par, tag⟩ r.reads).length + 1 = Env.early ⟨clk, mpi, par, tag⟩ := by
      cases mpi <;> rfl
    change k = 0 ∨ (earlyQueue ⟨clk, mpi, par, tag⟩ r.reads).length + 1 ≤ k
    omega
  rw [e1]
  have hk1 : (k != 1) = true := by
    have : Env.early ⟨clk, mpi, par, tag⟩ ≠ 0 ∧ Env.early ⟨clk, mpi, par, tag⟩ ≠ 1 := by
      cases mpi <;> simp [Env.early]
    simp only [bne_iff_ne, ne_eq]
    omega
  cases mpi <;> cases tm <;>
    first
    | exact absurd rfl hm
    | simp [Event.create, Event.start, nameToID, push, put, now, accepting, Entry.isStart, earlyReg, earlyDict,
        startBackend, hk1, confEvent]

theorem opened_good (env : Env) (r : Reg) (hm : env.settings.mode ≠ .off)
    (hf : env.settings.flushEvery.toNat = 0 ∨ env.early ≤ env.settings.flushEvery.toNat) :
    Good env.settings.mode env.parallel env.settings.synchronize r.closed
      (startBackend (Event.create env.clk "startProfilingBackend" .other false
        ((confEvent env).stop env.clk (confReg env r)).2).2)
      ([.open "_GLOBAL", .open "construction"]
        ++ (if env.mpi then empty "com.initializeMPI" else [])
        ++ [.open "configure"] ++ empty "readConfiguration" ++ [.close "configure"]
        ++ (if env.settings.mode = .all then [.open "startProfilingBackend"] else [])) := by
  rw [opened_eq env r hm hf]
  refine ⟨rfl, hm, rfl, rfl, rfl, rfl, rfl, rfl, rfl, ?_, ?_⟩
  · change (earlyDict env ++ ["startProfilingBackend"])[0]? = _
    unfold earlyDict
    split_ifs <;> rfl
  · change Reader.start.readAll ([] ++ (earlyQueue env r.reads
              ++ [.stop (confEvent env).eid (env.clk (confReg env r).reads),
                .name "startProfilingBackend" (if env.mpi then 5 else 4)]
              ++ (if env.settings.mode = .all then
                  [.start (if env.mpi then 5 else 4) (env.clk ((confReg env r).reads + 1))] else [])))
        = some ⟨fun i => (earlyDict env ++ ["startProfilingBackend"])[i]?, _⟩
    obtain ⟨clk, mpi, par, tag⟩ := env
    by_cases ha : (Env.settings ⟨clk, mpi, par, tag⟩).mode = .all
    · rw [if_pos ha]
      cases mpi
      · simp [Reader.readAll, Reader.read, Reader.start, earlyQueue, earlyDict, confEvent, empty, ha]
        funext j
        match j with
        | 0 => rfl
        | 1 => rfl
        | 2 => rfl
        | 3 => rfl
        | 4 => rfl
        | j + 5 => simp
      · simp [Reader.readAll, Reader.read, Reader.start, earlyQueue, earlyDict, confEvent, empty, ha]
        funext j
        match j with
        | 0 => rfl
        | 1 => rfl
        | 2 => rfl
        | 3 => rfl
        | 4 => rfl
        | 5 => rfl
        | j + 6 => simp
    · rw [if_neg ha]
      cases mpi
      · simp [Reader.readAll, Reader.read, Reader.start, earlyQueue, earlyDict, confEvent, empty, ha]
        funext j
        match j with
        | 0 => rfl
        | 1 => rfl
        | 2 => rfl
        | 3 => rfl
        | 4 => rfl
        | j + 5 => simp
      · simp [Reader.readAll, Reader.read, Reader.start, earlyQueue, earlyDict, confEvent, empty, ha]
        funext j
        match j with
        | 0 => rfl
        | 1 => rfl
        | 2 => rfl
        | 3 => rfl
        | 4 => rfl
        | 5 => rfl
        | j + 6 => simp

end Verif.Profiling
