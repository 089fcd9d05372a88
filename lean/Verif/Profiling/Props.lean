import Verif.Profiling.Steps

/-!
# Profiling: the theorems (C130)

A process creates a participant, calls it and finalizes it. `r` is the registry before: of a fresh process, or with the
files of participants that have been finalized.
-/

set_option autoImplicit false

namespace Verif.Profiling

/-- **C130** (partial) The file of a participant tells exactly what happened: the sections of the user, of the API and
of the code below in the order of the calls, those that the mode hides left out, and nothing else, with all sections
named, independent of how often the records are written.

Partial: the claim is false if `flush-every` is one of 1, …, 12 (1, …, 9 without MPI), see `C130_lost`, and if the
participant is finalized without having been initialized, see `C130_unstopped`. -/
theorem C130_told_partial (env : Env) (r : Reg) (hr : Idle r) (hm : env.settings.mode ≠ .off)
    (hf : env.settings.flushEvery = 0 ∨ (env.early : ℤ) ≤ env.settings.flushEvery) {p p' : Participant}
    (h : construct env r = some p) (cs : List Call) (hc : Call.finalize ∉ cs) (hi : ∃ c ∈ cs, c.isInitialize = true)
    (hp : calls env.clk (cs ++ [.finalize]) p = .ok p') :
    ∃ file, p'.reg.closed = r.closed ++ [file] ∧ Idle p'.reg
      ∧ decode file = some (preamble env env.settings.mode (env.parallel && env.settings.synchronize)
        ++ tellAll env.settings.mode (env.parallel && env.settings.synchronize) ⟨[], "solver.initialize"⟩
          (cs ++ [.finalize])) := by
  obtain ⟨g, hph⟩ := construct_good env r hr.running hm (by omega) h
  rw [calls_append] at hp
  rcases hcs : calls env.clk cs p with e | p1
  · rw [hcs] at hp; cases hp
  rw [hcs] at hp
  have hp : (match call env.clk .finalize p1 with
    | .error e => .error e
    | .ok p => .ok p) = Except.ok p' := hp
  rcases hfin : call env.clk .finalize p1 with e | p2
  · rw [hfin] at hp; cases hp
  rw [hfin] at hp
  simp only [Except.ok.injEq] at hp
  subst hp
  obtain ⟨g1, e1⟩ := calls_good env.clk cs hc g hcs
  obtain ⟨file, h1, h2, h3⟩ := finalize_good env.clk g1 hfin
  refine ⟨file, h1, h2, ?_⟩
  have hany : cs.any Call.isInitialize = true := List.any_eq_true.2 hi
  rw [hany, if_pos rfl] at e1
  rw [h3, if_pos e1, tellAll_append]
  simp [tellAll, tell, List.append_assoc]

/-- **C130** (partial, as above) In the file every section that begins ends, and the sections are properly nested. -/
theorem C130_nested_partial (env : Env) (r : Reg) (hr : Idle r) (hm : env.settings.mode ≠ .off)
    (hf : env.settings.flushEvery = 0 ∨ (env.early : ℤ) ≤ env.settings.flushEvery) {p p' : Participant}
    (h : construct env r = some p) (cs : List Call) (hc : Call.finalize ∉ cs) (hi : ∃ c ∈ cs, c.isInitialize = true)
    (hp : calls env.clk (cs ++ [.finalize]) p = .ok p') :
    ∃ file rs, p'.reg.closed = r.closed ++ [file] ∧ decode file = some rs ∧ Nested rs := by
  obtain ⟨g, hph⟩ := construct_good env r hr.running hm (by omega) h
  rw [calls_append] at hp
  rcases hcs : calls env.clk cs p with e | p1
  · rw [hcs] at hp; cases hp
  rw [hcs] at hp
  have hp : (match call env.clk .finalize p1 with
    | .error e => .error e
    | .ok p => .ok p) = Except.ok p' := hp
  rcases hfin : call env.clk .finalize p1 with e | p2
  · rw [hfin] at hp; cases hp
  rw [hfin] at hp
  simp only [Except.ok.injEq] at hp
  subst hp
  obtain ⟨g1, e1⟩ := calls_good env.clk cs hc g hcs
  obtain ⟨file, h1, -, h3⟩ := finalize_good env.clk g1 hfin
  have hany : cs.any Call.isInitialize = true := List.any_eq_true.2 hi
  rw [hany, if_pos rfl] at e1
  rw [if_pos e1] at h3
  refine ⟨file, _, h1, h3, ?_⟩
  unfold Nested
  rw [nesting_append, g1.nested]
  unfold Now.stack
  simp only [Option.bind_some, List.append_assoc]
  rw [nesting_append, nesting_close_all]
  simp [nesting, empty]

/-- **C130** The times in a file never decrease, for all settings. -/
theorem C130_times (env : Env) (hclk : Monotone env.clk) (r : Reg) (hr : Idle r) (hm : env.settings.mode ≠ .off)
    {p p' : Participant} (h : construct env r = some p) (cs : List Call) (hc : Call.finalize ∉ cs)
    (hp : calls env.clk (cs ++ [.finalize]) p = .ok p') :
    ∃ file, p'.reg.closed = r.closed ++ [file]
      ∧ file.Pairwise fun a b => ∀ s t, a.time = some s → b.time = some t → s ≤ t := by
  obtain ⟨r1, r2, h1, -, h2, he⟩ := used env r hr h cs hc hp
  refine ⟨_, by rw [he]; exact used_file hm h1 h2, ?_⟩
  have t1 := timed_steps hclk h1 (conf_timed env hclk r hr)
  have hm1 : r1.mode ≠ .off := by rw [(same_steps h1).mode]; exact hm
  have t2 : Timed env.clk (startBackend r1) := by
    rw [startBackend_on hm1]
    exact ⟨(List.pairwise_append.1 t1.1).2.1, fun e he => t1.2 e (List.mem_append_right _ he)⟩
  obtain ⟨t3, t4⟩ := timed_steps hclk h2 t2
  rw [List.pairwise_append]
  refine ⟨t3, List.pairwise_singleton _ _, fun a ha b hb s t hs ht => ?_⟩
  simp only [List.mem_singleton] at hb
  subst hb
  obtain ⟨k, hk, rfl⟩ := t4 a ha s hs
  simp only [Entry.time, Option.some.injEq] at ht
  subst ht
  exact hclk hk.le

/-- **C130** If profiling is off, no file is written. -/
theorem C130_off (env : Env) (r : Reg) (hr : Idle r) (hm : env.settings.mode = .off) {p p' : Participant}
    (h : construct env r = some p) (cs : List Call) (hc : Call.finalize ∉ cs)
    (hp : calls env.clk (cs ++ [.finalize]) p = .ok p') :
    p'.reg.closed = r.closed ∧ p'.reg.isOpen = false := by
  obtain ⟨r1, r2, h1, -, h2, he⟩ := used env r hr h cs hc hp
  have s1 := same_steps h1
  have hm1 : r1.mode = .off := by rw [s1.mode]; exact hm
  rw [startBackend_off hm1] at h2
  have s2 := same_steps h2
  have hm2 : r2.mode = .off := s2.mode.trans hm1
  rw [he]
  unfold finalizeRegistry stopBackend
  rw [if_pos (Or.inl hm2)]
  split_ifs
  · exact ⟨s2.closed.trans s1.closed, (s2.isOpen.trans s1.isOpen).trans hr.isOpen⟩
  · exact ⟨s2.closed.trans s1.closed, (s2.isOpen.trans s1.isOpen).trans hr.isOpen⟩

/-- **C130** Negation: if records are to be written often, the records of the constructor get lost: they are written
before the file is opened. Among them are names of ids, and the file cannot be read, whatever the solver does. -/
theorem C130_lost (env : Env) (r : Reg) (hr : Idle r) (hm : env.settings.mode ≠ .off)
    (h1 : 1 ≤ env.settings.flushEvery) (h2 : env.settings.flushEvery < env.early) {p p' : Participant}
    (h : construct env r = some p) (cs : List Call) (hc : Call.finalize ∉ cs)
    (hp : calls env.clk (cs ++ [.finalize]) p = .ok p') :
    ∃ file t, p'.reg.closed = r.closed ++ [file] ∧ .stop 0 t ∈ file ∧ (∀ n, .name n 0 ∉ file)
      ∧ decode file = none := by
  obtain ⟨r1, r2, hs1, hs1', hs2, he⟩ := used env r hr h cs hc hp
  have hempty : ((confEvent env).stop env.clk (confReg env r)).2.queue = []
      ∧ ((confEvent env).stop env.clk (confReg env r)).2.file = [] := by
    rw [stop_acc env.clk _ _ (acc_fund hm)]
    have hl : (earlyQueue env r.reads).length + 1 = env.early := by
      unfold earlyQueue Env.early
      split_ifs <;> rfl
    rw [put_flush _ _ (Or.inr rfl) (by change 0 < env.settings.flushEvery.toNat; omega) (by
      change env.settings.flushEvery.toNat < (earlyQueue env r.reads).length + 1
      omega)]
    unfold flush
    rw [if_neg (by simp [push, confReg, hm]), if_neg (by simp [push, confReg, earlyReg, hr.isOpen])]
    exact ⟨rfl, hr.file⟩
  have n0 : Nameless ((confEvent env).stop env.clk (confReg env r)).2 := by
    refine ⟨?_, ?_⟩
    · rw [conf_stop_dict]
      unfold earlyDict
      split_ifs <;> simp
    · rw [hempty.1, hempty.2]
      simp
  have n1 := nameless_steps hs1' n0
  have hm1 : r1.mode ≠ .off := by rw [(same_steps hs1).mode]; exact hm
  have n2 : Nameless (startBackend r1) := by
    rw [startBackend_on hm1]
    exact ⟨n1.1, fun n hn => n1.2 n (List.mem_append_right _ hn)⟩
  have n3 := nameless_steps hs2 n2
  have hno : ∀ n, Entry.name n 0 ∉ r2.file ++ r2.queue ++ [.stop 0 (env.clk r2.reads)] := by
    intro n hn
    rcases List.mem_append.1 hn with hn | hn
    · exact n3.2 n hn
    · simp at hn
  exact ⟨_, env.clk r2.reads, by rw [he]; exact used_file hm hs1 hs2, by simp, hno,
    nameless_decode (t := env.clk r2.reads) hno (by simp)⟩

/-- **C130** Negation: if the participant is finalized without having been initialized, the section
`solver.initialize` never ends: the file tells everything else, and is not nested. -/
theorem C130_unstopped (env : Env) (r : Reg) (hr : Idle r) (hm : env.settings.mode ≠ .off)
    (hf : env.settings.flushEvery = 0 ∨ (env.early : ℤ) ≤ env.settings.flushEvery) {p p' : Participant}
    (h : construct env r = some p) (cs : List Call) (hc : Call.finalize ∉ cs)
    (hi : ∀ c ∈ cs, c.isInitialize = false) (hp : calls env.clk (cs ++ [.finalize]) p = .ok p') :
    ∃ file rs, p'.reg.closed = r.closed ++ [file] ∧ decode file = some rs ∧ ¬ Nested rs := by
  obtain ⟨g, hph⟩ := construct_good env r hr.running hm (by omega) h
  rw [calls_append] at hp
  rcases hcs : calls env.clk cs p with e | p1
  · rw [hcs] at hp; cases hp
  rw [hcs] at hp
  have hp : (match call env.clk .finalize p1 with
    | .error e => .error e
    | .ok p => .ok p) = Except.ok p' := hp
  rcases hfin : call env.clk .finalize p1 with e | p2
  · rw [hfin] at hp; cases hp
  rw [hfin] at hp
  simp only [Except.ok.injEq] at hp
  subst hp
  obtain ⟨g1, e1⟩ := calls_good env.clk cs hc g hcs
  obtain ⟨file, h1, -, h3⟩ := finalize_good env.clk g1 hfin
  have hany : cs.any Call.isInitialize = false := by
    rw [List.any_eq_false]
    exact fun c hc => by simp [hi c hc]
  have hsol : (whereAfter env.settings.mode (env.parallel && env.settings.synchronize) ⟨[], "solver.initialize"⟩
      cs).solver = "solver.initialize" := by
    rcases g1.phase with ⟨-, hs, -⟩ | ⟨hph1, -⟩
    · exact hs
    · rw [e1, hany, hph] at hph1
      cases hph1
  rw [e1, hany, hph] at h3
  refine ⟨file, _, h1, h3, ?_⟩
  unfold Nested
  rw [nesting_append, g1.nested]
  unfold Now.stack
  simp only [Option.bind_some, List.append_assoc]
  rw [nesting_append, nesting_close_all, hsol]
  simp [nesting, empty]

/-- **C130** After a section has been stopped, at most `flush-every` records are kept in memory. -/
theorem C130_memory (env : Env) (r : Reg) (hr : Idle r) (hm : env.settings.mode ≠ .off)
    (h1 : 0 < env.settings.flushEvery) {p p' : Participant} (h : construct env r = some p) (cs : List Call)
    (hc : Call.finalize ∉ cs) (hp : calls env.clk (cs ++ [.stopSection]) p = .ok p') :
    (p'.reg.queue.length : ℤ) ≤ env.settings.flushEvery := by
  rw [calls_append] at hp
  rcases hcs : calls env.clk cs p with e | p1
  · rw [hcs] at hp; cases hp
  rw [hcs] at hp
  have hp : (match call env.clk .stopSection p1 with
    | .error e => .error e
    | .ok p => .ok p) = Except.ok p' := hp
  rcases hst : call env.clk .stopSection p1 with e | p2
  · rw [hst] at hp; cases hp
  rw [hst] at hp
  simp only [Except.ok.injEq] at hp
  subst hp
  obtain ⟨r1, hs1, hs2⟩ := construct_steps env r hr.running h
  have s1 := same_steps ((steps_stop (clk := env.clk) (confEvent env) (confReg env r)).trans hs1)
  have s2 := same_steps hs2
  have s3 := same_steps (steps_calls cs hc hcs)
  have hm1 : r1.mode ≠ .off := by rw [s1.mode]; exact hm
  rw [startBackend_on hm1] at s2
  have hmode : p1.reg.mode ≠ .off := by rw [s3.mode, s2.mode]; exact hm1
  have hmax : p1.reg.queueMax = env.settings.flushEvery.toNat := (s3.queueMax.trans s2.queueMax).trans s1.queueMax
  have hue : UserEvents p := by
    rw [construct_eq env r hr.running] at h
    split_ifs at h
    simp only [Option.some.injEq] at h
    subst h
    intro e he
    cases he
  have hu := user_calls cs hue hcs
  simp only [call] at hst
  split at hst
  · cases hst
  · rename_i e he
    simp only [Except.ok.injEq] at hst
    subst hst
    obtain ⟨hrun, hgr⟩ := hu e (List.mem_of_getLast? he)
    change ((e.destroy env.clk p1.reg).queue.length : ℤ) ≤ _
    unfold Event.destroy
    rw [if_pos hrun, stop_acc env.clk _ _ (by rw [hgr]; exact acc_fund hmode)]
    have := put_length (e := .stop e.eid (env.clk p1.reg.reads)) (r := { p1.reg with reads := p1.reg.reads + 1 }) rfl
      hmode (by change 0 < p1.reg.queueMax; omega)
    refine le_trans (Int.ofNat_le.2 this) ?_
    change (p1.reg.queueMax : ℤ) ≤ _
    omega

/-- A participant with MPI, a single rank and the given settings -/
def sample (fe : ℤ) : Env := ⟨fun k => k, true, false, some { flushEvery := fe }⟩

/-- The open file, the records in memory, and the closed files after calls of the only participant of a process -/
def state (env : Env) (cs : List Call) : Option (List Entry × List Entry × List (List Entry)) :=
  (construct env Reg.fresh).bind fun p =>
    match calls env.clk cs p with
    | .error _ => none
    | .ok p => some (p.reg.file, p.reg.queue, p.reg.closed)

/-- **C130** Negation: "1 writes records directly to the file" is false: the end of a section stays in memory. -/
theorem C130_not_direct :
    ((state (sample 1) [.startSection "a", .stopSection]).map fun s => s.2.1) = some [.stop 7 12] := by
  decide

/-- **C130** `advance` before `initialize` dereferences a null pointer, before the check with the error. -/
theorem C130_advance_null (env : Env) (r : Reg) (hr : Idle r) {p p' : Participant} (h : construct env r = some p)
    (inner f : Forest) (hp : call env.clk (.api f) p = .ok p') :
    call env.clk (.advance inner) p' = .error .null := by
  rw [construct_eq env r hr.running] at h
  split_ifs at h
  simp only [Option.some.injEq] at h
  subst h
  simp only [call, Except.ok.injEq] at hp
  subst hp
  rfl

/-- **C130** Errors: sections whose name contains a slash, stopping a section that has not been started, and calling
`initialize` or `advance` inside a section. -/
theorem C130_errors (clk : ℕ → ℤ) (p : Participant) :
    (∀ n : String, '/' ∈ n.toList → call clk (.startSection n) p = .error .check)
      ∧ (p.userEvents = [] → call clk .stopSection p = .error .check)
      ∧ (p.userEvents ≠ [] → ∀ data inner, call clk (.initialize data inner) p = .error .check)
      ∧ (p.userEvents ≠ [] → ∀ inner, call clk (.advance inner) p = .error .check) := by
  refine ⟨fun n hn => if_pos hn, fun h => ?_, fun h data inner => ?_, fun h inner => if_pos h⟩
  · simp [call, h]
  · simp only [call]
    split_ifs with h1
    · rfl
    · rfl

set_option maxRecDepth 4000 in
/-- **C130** Negation: with a second participant in a process, constructed while the first one is alive, the file of
the first one loses its records and in the file of the second one `construction` ends twice. -/
theorem C130_second :
    ((construct (sample 50) Reg.fresh).bind fun p =>
      (construct (sample 50) p.reg).bind fun q =>
        match calls (sample 50).clk [.initialize [] .nil, .finalize] q with
        | .error _ => none
        | .ok q => some (q.reg.closed.map fun f => (decode f).bind (nesting []))) = some [some [], none] := by
  decide

end Verif.Profiling
