import Verif.Profiling.Early
import Mathlib.Data.List.Forall2

/-!
# Profiling: lemmas about the calls of a participant (C130)
-/

set_option autoImplicit false

namespace Verif.Profiling

theorem nesting_append (st : List String) (a b : List Rec) :
    nesting st (a ++ b) = (nesting st a).bind fun st => nesting st b := by
  induction a generalizing st with
  | nil => rfl
  | cons x a ih =>
    cases x with
    | «open» n => exact ih _
    | close n =>
      cases st with
      | nil => rfl
      | cons t st =>
        simp only [List.cons_append, nesting]
        split_ifs
        · exact ih _
        · rfl
    | data n k v =>
      cases st with
      | nil => rfl
      | cons t st =>
        simp only [List.cons_append, nesting]
        split_ifs
        · exact ih _
        · rfl

theorem nesting_enter (st : List String) (sy : Bool) (n : String) (s : Bool) :
    nesting st (enter sy n s) = some (n :: st) := by
  unfold enter
  split_ifs
  · simp [nesting]
  · rfl

theorem nesting_data (st : List String) (n : String) (data : List (String × ℤ)) :
    nesting (n :: st) (data.map fun kv => .data n kv.1 kv.2) = some (n :: st) := by
  induction data with
  | nil => rfl
  | cons kv data ih => simpa [nesting] using ih

theorem nesting_shown (st : List String) (m : Mode) (sy : Bool) (f : Forest) :
    nesting st (shown m sy f) = some st := by
  induction f generalizing st with
  | nil => rfl
  | node n g s data inner rest ih1 ih2 =>
    unfold shown
    split_ifs
    · simp [nesting_append, nesting_enter, nesting_data, ih1, ih2, nesting]
    · simp [nesting_append, ih1, ih2]

theorem nesting_close_all (l : List String) (st : List String) :
    nesting (l.reverse ++ st) (l.reverse.map Rec.close) = some st := by
  generalize l.reverse = k
  induction k with
  | nil => rfl
  | cons a k ih => simpa [nesting] using ih

/-- the open sections, the latest first -/
def Now.stack (s : Now) : List String := s.sections.reverse ++ [s.solver, "_GLOBAL"]

/-- The participant while a file is open, and what has been told so far -/
structure PGood (m : Mode) (par sy : Bool) (cl : List (List Entry)) (p : Participant) (s : Now) (out : List Rec) :
    Prop where
  good : Good m par sy cl p.reg out
  nested : nesting [] out = some s.stack
  users : List.Forall₂ (fun e n => Is par p.reg e n .fundamental false ∧ e.running = true) p.userEvents s.sections
  phase : (p.phase = .constructed ∧ s.solver = "solver.initialize" ∧ p.solverAdvance = none
      ∧ ∃ e, p.solverInit = some e ∧ Is par p.reg e "solver.initialize" .fundamental true ∧ e.running = true)
    ∨ (p.phase = .initialized ∧ s.solver = "solver.advance" ∧ p.solverInit = none
      ∧ ∃ e, p.solverAdvance = some e ∧ Is par p.reg e "solver.advance" .fundamental true ∧ e.running = true)

variable {m : Mode} {par sy : Bool} {cl : List (List Entry)}

theorem construct_good (env : Env) (r : Reg) (hr : r.running = false) (hm : env.settings.mode ≠ .off)
    (hf : env.settings.flushEvery.toNat = 0 ∨ env.early ≤ env.settings.flushEvery.toNat) {p : Participant}
    (h : construct env r = some p) :
    PGood env.settings.mode env.parallel env.settings.synchronize r.closed p ⟨[], "solver.initialize"⟩
        (preamble env env.settings.mode (env.parallel && env.settings.synchronize))
      ∧ p.phase = .constructed := by
  rw [construct_eq env r hr] at h
  split_ifs at h with h0
  simp only [Option.some.injEq] at h
  subst h
  have h1 := opened_good env r hm hf
  have hd : (startBackend (Event.create env.clk "startProfilingBackend" .other false
        ((confEvent env).stop env.clk (confReg env r)).2).2).dict = earlyDict env ++ ["startProfilingBackend"] := by
    rw [opened_eq env r hm hf]
  unfold afterConfigure
  dsimp only
  generalize startBackend (Event.create env.clk "startProfilingBackend" .other false
        ((confEvent env).stop env.clk (confReg env r)).2).2 = r1 at h1 hd ⊢
  have he2 : Is env.parallel r1 (backendEvent env) "startProfilingBackend" .other false := by
    refine ⟨?_, rfl, rfl, fun h => absurd h (by simp)⟩
    rw [hd]
    unfold earlyDict backendEvent
    split_ifs <;> rfl
  have he : Is env.parallel r1 constructionEvent "construction" .fundamental false := by
    refine ⟨?_, rfl, rfl, fun h => absurd h (by simp)⟩
    rw [hd]
    unfold earlyDict
    split_ifs <;> rfl
  have h2 := good_stop env.clk h1 he2
  have he' := he.ext (ext_of_eq (stop_dict env.clk (backendEvent env) r1))
  generalize (Event.stop env.clk (backendEvent env) r1).2 = r2 at h2 he' ⊢
  obtain ⟨h3, hx3⟩ : Good env.settings.mode env.parallel env.settings.synchronize r.closed
      (if env.parallel then runForest env.clk (.node "com.initializeIntraCom" .fundamental false [] .nil .nil) r2
        else r2)
      (([.open "_GLOBAL", .open "construction"]
        ++ (if env.mpi then empty "com.initializeMPI" else [])
        ++ [.open "configure"] ++ empty "readConfiguration" ++ [.close "configure"]
        ++ (if env.settings.mode = .all then [.open "startProfilingBackend"] else []))
        ++ (if Group.other.level ≤ env.settings.mode.level then [.close "startProfilingBackend"] else [])
        ++ (if env.parallel then empty "com.initializeIntraCom" else []))
      ∧ Ext r2 (if env.parallel then
          runForest env.clk (.node "com.initializeIntraCom" .fundamental false [] .nil .nil) r2 else r2) := by
    by_cases hp : env.parallel = true
    · rw [if_pos hp, if_pos hp]
      have := good_forest env.clk (.node "com.initializeIntraCom" .fundamental false [] .nil .nil) h2
      simpa [shown, fund_le hm, enter, empty] using this
    · rw [if_neg hp, if_neg hp, List.append_nil]
      exact ⟨h2, Ext.refl r2⟩
  have he3 := he'.ext hx3
  generalize (if env.parallel then
          runForest env.clk (.node "com.initializeIntraCom" .fundamental false [] .nil .nil) r2 else r2) = r3
    at h3 he3 ⊢
  have h4 := good_stop env.clk h3 he3
  generalize (Event.stop env.clk constructionEvent r3).2 = r4 at h4 ⊢
  obtain ⟨h5, hi, hrun, -⟩ := good_create env.clk "solver.initialize" .fundamental true h4
  have hout : (([.open "_GLOBAL", .open "construction"]
        ++ (if env.mpi then empty "com.initializeMPI" else [])
        ++ [.open "configure"] ++ empty "readConfiguration" ++ [.close "configure"]
        ++ (if env.settings.mode = .all then [.open "startProfilingBackend"] else []))
        ++ (if Group.other.level ≤ env.settings.mode.level then [.close "startProfilingBackend"] else [])
        ++ (if env.parallel then empty "com.initializeIntraCom" else [])
        ++ (if Group.fundamental.level ≤ env.settings.mode.level then [.close "construction"] else [])
        ++ if Group.fundamental.level ≤ env.settings.mode.level then
            enter (env.parallel && env.settings.synchronize) "solver.initialize" true else [])
      = preamble env env.settings.mode (env.parallel && env.settings.synchronize) := by
    rw [if_pos (fund_le hm), if_pos (fund_le hm)]
    unfold preamble
    have : (Group.other.level ≤ env.settings.mode.level) ↔ env.settings.mode = .all := by
      cases env.settings.mode <;> simp [Group.level, Mode.level]
    by_cases ha : env.settings.mode = .all
    · rw [if_pos ha, if_pos (this.2 ha), if_pos ha]
      simp [empty, List.append_assoc]
    · rw [if_neg ha, if_neg (fun h => ha (this.1 h)), if_neg ha]
      simp [List.append_assoc]
  rw [hout] at h5
  refine ⟨⟨h5, ?_, List.Forall₂.nil, Or.inl ⟨rfl, rfl, rfl, _, rfl, hi, hrun⟩⟩, rfl⟩
  unfold preamble Now.stack
  by_cases c1 : env.mpi = true <;> by_cases c2 : env.settings.mode = .all <;> by_cases c3 : env.parallel = true <;>
    simp [c1, c2, c3, nesting, empty, nesting_enter]

theorem users_ext {r r' : Reg} {es : List Event} {ns : List String} (hx : Ext r r')
    (h : List.Forall₂ (fun e n => Is par r e n .fundamental false ∧ e.running = true) es ns) :
    List.Forall₂ (fun e n => Is par r' e n .fundamental false ∧ e.running = true) es ns :=
  h.imp fun _ _ h => ⟨h.1.ext hx, h.2⟩

theorem phase_ext {p : Participant} {s : Now} {r' : Reg} (hx : Ext p.reg r')
    (h : (p.phase = .constructed ∧ s.solver = "solver.initialize" ∧ p.solverAdvance = none
      ∧ ∃ e, p.solverInit = some e ∧ Is par p.reg e "solver.initialize" .fundamental true ∧ e.running = true)
    ∨ (p.phase = .initialized ∧ s.solver = "solver.advance" ∧ p.solverInit = none
      ∧ ∃ e, p.solverAdvance = some e ∧ Is par p.reg e "solver.advance" .fundamental true ∧ e.running = true)) :
    (p.phase = .constructed ∧ s.solver = "solver.initialize" ∧ p.solverAdvance = none
      ∧ ∃ e, p.solverInit = some e ∧ Is par r' e "solver.initialize" .fundamental true ∧ e.running = true)
    ∨ (p.phase = .initialized ∧ s.solver = "solver.advance" ∧ p.solverInit = none
      ∧ ∃ e, p.solverAdvance = some e ∧ Is par r' e "solver.advance" .fundamental true ∧ e.running = true) := by
  rcases h with ⟨a, b, c, e, d, f, g⟩ | ⟨a, b, c, e, d, f, g⟩
  · exact Or.inl ⟨a, b, c, e, d, f.ext hx, g⟩
  · exact Or.inr ⟨a, b, c, e, d, f.ext hx, g⟩

theorem good_destroy (clk : ℕ → ℤ) {r : Reg} {out : List Rec} {e : Event} {n : String} {s : Bool}
    (h : Good m par sy cl r out) (he : Is par r e n .fundamental s) (hr : e.running = true) :
    Good m par sy cl (e.destroy clk r) (out ++ [.close n]) ∧ Ext r (e.destroy clk r) := by
  unfold Event.destroy
  rw [if_pos hr]
  have := good_stop clk h he
  rw [if_pos (fund_le h.on)] at this
  exact ⟨this, ext_of_eq (stop_dict _ _ _)⟩

theorem good_popAll (clk : ℕ → ℤ) {r : Reg} {out : List Rec} {es : List Event} {ns : List String}
    (h : Good m par sy cl r out)
    (hu : List.Forall₂ (fun e n => Is par r e n .fundamental false ∧ e.running = true) es ns) :
    Good m par sy cl (popAll clk es r) (out ++ ns.reverse.map Rec.close) ∧ Ext r (popAll clk es r) := by
  unfold popAll
  have hu' := List.rel_reverse hu
  clear hu
  generalize es.reverse = es' at hu' ⊢
  generalize ns.reverse = ns' at hu' ⊢
  induction ns' generalizing r out es' with
  | nil =>
    cases hu'
    simpa using ⟨h, Ext.refl r⟩
  | cons n ns' ih =>
    obtain ⟨e, es'', hd, tl, rfl⟩ := List.forall₂_cons_right_iff.1 hu'
    obtain ⟨h1, hx1⟩ := good_destroy clk h hd.1 hd.2
    obtain ⟨h2, hx2⟩ := ih h1 es'' (users_ext hx1 tl)
    refine ⟨?_, hx1.trans hx2⟩
    simpa using h2

theorem call_good (clk : ℕ → ℤ) {p p' : Participant} {s : Now} {out : List Rec} (h : PGood m par sy cl p s out)
    (c : Call) (hc : c ≠ .finalize) (hp : call clk c p = .ok p') :
    PGood m par sy cl p' (tell m (par && sy) s c).2 (out ++ (tell m (par && sy) s c).1)
      ∧ p'.phase = if c.isInitialize then .initialized else p.phase := by
  have hfund := fund_le h.good.on
  cases c with
  | startSection n =>
    simp only [call] at hp
    split_ifs at hp with h1
    simp only [Except.ok.injEq] at hp
    subst hp
    obtain ⟨g1, hi, hr, hx⟩ := good_create clk n .fundamental false h.good
    rw [if_pos hfund] at g1
    refine ⟨⟨g1, ?_, ?_, phase_ext (p := p) (s := s) hx h.phase⟩, rfl⟩
    · simp only [tell]
      rw [nesting_append, h.nested]
      simp [nesting, Now.stack]
    · exact List.rel_append (users_ext hx h.users) (List.Forall₂.cons ⟨hi, hr⟩ List.Forall₂.nil)
  | stopSection =>
    simp only [call] at hp
    rcases hu : p.userEvents.getLast? with _ | e
    · rw [hu] at hp
      cases hp
    · rw [hu] at hp
      simp only [Except.ok.injEq] at hp
      subst hp
      obtain ⟨es, hes⟩ : ∃ es, p.userEvents = es ++ [e] := by
        rw [List.getLast?_eq_some_iff] at hu
        exact hu
      have hus := h.users
      rw [hes] at hus
      obtain ⟨ns, n, hns⟩ : ∃ ns n, s.sections = ns ++ [n] := by
        rcases List.eq_nil_or_concat s.sections with hn | ⟨ns, n, hn⟩
        · rw [hn] at hus
          have := hus.length_eq
          simp at this
        · exact ⟨ns, n, hn.trans (List.concat_eq_append ..)⟩
      rw [hns] at hus
      have hrev := List.rel_reverse hus
      simp only [List.reverse_append, List.reverse_singleton, List.singleton_append, List.forall₂_cons] at hrev
      obtain ⟨⟨hi, hr⟩, hrest⟩ := hrev
      have hrest := List.rel_reverse hrest
      simp only [List.reverse_reverse] at hrest
      obtain ⟨g1, hx⟩ := good_destroy clk h.good hi hr
      have ht : tell m (par && sy) s .stopSection = ([.close n], { s with sections := ns }) := by
        simp [tell, hns]
      rw [ht]
      refine ⟨⟨g1, ?_, ?_, phase_ext (p := p) (s := s) hx h.phase⟩, rfl⟩
      · rw [nesting_append, h.nested]
        simp [nesting, Now.stack, hns]
      · simp only [hes, List.dropLast_concat]
        exact users_ext hx hrest
  | api f =>
    simp only [call, Except.ok.injEq] at hp
    subst hp
    obtain ⟨g1, hx⟩ := good_forest clk f h.good
    refine ⟨⟨g1, ?_, users_ext hx h.users, phase_ext (p := p) (s := s) hx h.phase⟩, rfl⟩
    simp only [tell]
    rw [nesting_append, h.nested]
    exact nesting_shown _ _ _ _
  | «initialize» data inner =>
    simp only [call] at hp
    split_ifs at hp with h1 h2
    simp only [Except.ok.injEq] at hp
    subst hp
    simp only [ne_eq, Decidable.not_not] at h1 h2
    have hsec : s.sections = [] := by
      have := h.users
      rw [h2] at this
      cases hs : s.sections with
      | nil => rfl
      | cons a b => rw [hs] at this; cases this
    rcases h.phase with ⟨-, hs, -, e, he, hi, hr⟩ | ⟨hph, -⟩
    · rw [he]
      obtain ⟨g1, hx1⟩ := good_destroy clk h.good hi hr
      obtain ⟨g2, hx2⟩ := good_forest clk (.node "initialize" .fundamental true data inner .nil) g1
      obtain ⟨g3, hi3, hr3, hx3⟩ := good_create clk "solver.advance" .fundamental true g2
      rw [if_pos hfund] at g3
      refine ⟨⟨?_, ?_, ?_, Or.inr ⟨rfl, rfl, rfl, _, rfl, hi3, hr3⟩⟩, rfl⟩
      · simpa [tell, reset, List.append_assoc] using g3
      · simp only [tell]
        rw [nesting_append, h.nested]
        have hn := nesting_shown ["_GLOBAL"] m (par && sy) (.node "initialize" .fundamental true data inner .nil)
        simp only [Now.stack, hsec, hs, List.reverse_nil, List.nil_append, Option.bind_some, List.cons_append]
        simp only [nesting, if_true]
        rw [nesting_append, hn]
        exact nesting_enter _ _ _ _
      · simp only [tell, hsec]
        exact List.Forall₂.nil
    · rw [hph] at h1
      cases h1
  | advance inner =>
    simp only [call] at hp
    by_cases h1' : p.userEvents ≠ []
    · rw [if_pos h1'] at hp
      cases hp
    rw [if_neg h1'] at hp
    have h1 : p.userEvents = [] := by simpa using h1'
    have hsec : s.sections = [] := by
      have := h.users
      rw [h1] at this
      cases hs : s.sections with
      | nil => rfl
      | cons a b => rw [hs] at this; cases this
    rcases h.phase with ⟨-, -, hn, -⟩ | ⟨hph, hs, hini, e, he, hi, hr⟩
    · rw [hn] at hp
      cases hp
    · rw [he] at hp
      simp only [hph, ne_eq, not_true_eq_false, if_false, Except.ok.injEq] at hp
      subst hp
      have g1 := good_stop clk h.good hi
      have hx1 : Ext p.reg (e.stop clk p.reg).2 := ext_of_eq (stop_dict _ _ _)
      rw [if_pos hfund] at g1
      obtain ⟨g2, hx2⟩ := good_forest clk (.node "advance" .fundamental true [] inner .nil) g1
      have hi2 : Is par (runForest clk (.node "advance" .fundamental true [] inner .nil) (e.stop clk p.reg).2)
          (e.stop clk p.reg).1 "solver.advance" .fundamental true := (hi.ext (hx1.trans hx2)).run
      have g3 := good_start clk g2 hi2
      rw [if_pos hfund] at g3
      have hx3 := ext_of_eq (start_dict clk (e.stop clk p.reg).1
        (runForest clk (.node "advance" .fundamental true [] inner .nil) (e.stop clk p.reg).2))
      refine ⟨⟨?_, ?_, ?_, Or.inr ⟨rfl, hs, hini, _, rfl, ?_, ?_⟩⟩, hph.symm⟩
      · simpa [tell, List.append_assoc] using g3
      · simp only [tell]
        rw [nesting_append, h.nested]
        have hn := nesting_shown ["_GLOBAL"] m (par && sy) (.node "advance" .fundamental true [] inner .nil)
        simp only [Now.stack, hsec, hs, List.reverse_nil, List.nil_append, Option.bind_some, List.cons_append]
        simp only [nesting, if_true]
        rw [nesting_append, hn]
        exact nesting_enter _ _ _ _
      · simp only [tell, hsec]
        rw [show p.userEvents = [] from h1]
        exact List.Forall₂.nil
      · rw [start_fst]
        exact (hi2.ext hx3).run
      · rw [start_fst]
  | finalize => exact absurd rfl hc

/-- where the solver is after calls -/
def whereAfter (m : Mode) (sync : Bool) : Now → List Call → Now
  | s, [] => s
  | s, c :: cs => whereAfter m sync (tell m sync s c).2 cs

theorem calls_good (clk : ℕ → ℤ) (cs : List Call) (hc : Call.finalize ∉ cs) {p p' : Participant} {s : Now}
    {out : List Rec} (h : PGood m par sy cl p s out) (hp : calls clk cs p = .ok p') :
    PGood m par sy cl p' (whereAfter m (par && sy) s cs) (out ++ tellAll m (par && sy) s cs)
      ∧ p'.phase = if cs.any Call.isInitialize then .initialized else p.phase := by
  induction cs generalizing p s out with
  | nil =>
    simp only [calls, Except.ok.injEq] at hp
    subst hp
    simpa [whereAfter, tellAll] using h
  | cons c cs ih =>
    simp only [calls] at hp
    rcases hcall : call clk c p with e | p1
    · rw [hcall] at hp; cases hp
    · rw [hcall] at hp
      simp only at hp
      have hc1 : c ≠ .finalize := fun h => hc (h ▸ List.mem_cons_self)
      obtain ⟨g1, e1⟩ := call_good clk h c hc1 hcall
      obtain ⟨g2, e2⟩ := ih (fun h => hc (List.mem_cons_of_mem _ h)) g1 hp
      refine ⟨by simpa [whereAfter, tellAll, List.append_assoc] using g2, ?_⟩
      rw [e2, e1]
      cases hb : c.isInitialize <;> cases hb2 : cs.any Call.isInitialize <;> simp [hb, hb2]

theorem calls_append (clk : ℕ → ℤ) (as bs : List Call) (p : Participant) :
    calls clk (as ++ bs) p = (calls clk as p).bind (calls clk bs) := by
  induction as generalizing p with
  | nil => rfl
  | cons a as ih =>
    simp only [List.cons_append, calls]
    rcases call clk a p with e | p1
    · rfl
    · exact ih p1

theorem tellAll_append (sync : Bool) (s : Now) (as bs : List Call) :
    tellAll m sync s (as ++ bs) = tellAll m sync s as ++ tellAll m sync (whereAfter m sync s as) bs := by
  induction as generalizing s with
  | nil => rfl
  | cons a as ih => simp [tellAll, whereAfter, ih]

/-- The file is closed with all the records. -/
theorem good_finalize (clk : ℕ → ℤ) {r : Reg} {out : List Rec} (h : Good m par sy cl r out) :
    ∃ file, (finalizeRegistry clk r).closed = cl ++ [file] ∧ decode file = some (out ++ [.close "_GLOBAL"])
      ∧ Idle (finalizeRegistry clk r) := by
  unfold finalizeRegistry
  rw [if_neg (by simp [h.init, h.fin])]
  unfold stopBackend
  rw [if_neg (by simp [h.mode, h.on, h.running])]
  dsimp only
  have g := good_flush (good_put (good_now (clk := clk) h) (read_stop (now clk r).1 h.gid))
  have hq : (flush (put (.stop r.globalId (now clk r).1) (now clk r).2)).queue = [] := by
    generalize put (.stop r.globalId (now clk r).1) (now clk r).2 = r1 at g
    unfold flush
    have hm1 : r1.mode ≠ .off := by
      have := g.mode
      have hon := h.on
      intro h1
      apply hon
      rw [← this]
      unfold flush
      split_ifs <;> exact h1
    split_ifs with h1
    · rcases h1 with h1 | h1
      · exact absurd h1 hm1
      · exact h1
    · rfl
    · rfl
  refine ⟨_, congrArg (· ++ [_]) g.closed, ?_, rfl, rfl, rfl⟩
  have hr := g.read
  rw [hq, List.append_nil] at hr
  unfold decode
  rw [hr]
  rfl

theorem finalize_good (clk : ℕ → ℤ) {p p' : Participant} {s : Now} {out : List Rec} (h : PGood m par sy cl p s out)
    (hp : call clk .finalize p = .ok p') :
    ∃ file, p'.reg.closed = cl ++ [file] ∧ Idle p'.reg
      ∧ decode file = some (out ++ (s.sections.reverse.map Rec.close
        ++ (if p.phase = .initialized then [.close s.solver] else []) ++ empty "finalize" ++ [.close "_GLOBAL"])) := by
  have hfund := fund_le h.good.on
  simp only [call] at hp
  split_ifs at hp with h1
  simp only [Except.ok.injEq] at hp
  subst hp
  obtain ⟨g1, hx1⟩ := good_popAll clk h.good h.users
  have g2 : Good m par sy cl (reset clk p.solverAdvance (popAll clk p.userEvents p.reg))
      (out ++ s.sections.reverse.map Rec.close ++ (if p.phase = .initialized then [.close s.solver] else [])) := by
    rcases h.phase with ⟨hph, -, hn, -⟩ | ⟨hph, hs, -, e, he, hi, hr⟩
    · rw [hn, hph, if_neg (by simp), List.append_nil]
      exact g1
    · rw [he, if_pos hph, hs]
      exact (good_destroy clk g1 (hi.ext hx1) hr).1
  obtain ⟨g3, -⟩ := good_forest clk (.node "finalize" .fundamental false [] .nil .nil) g2
  obtain ⟨file, hf, hd, hidle⟩ := good_finalize clk g3
  refine ⟨file, hf, hidle, ?_⟩
  rw [hd]
  simp [shown, hfund, enter, empty, List.append_assoc]

end Verif.Profiling
