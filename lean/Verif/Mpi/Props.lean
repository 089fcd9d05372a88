import Verif.Mpi.Lemmas

/-!
# C133: preCICE leaves MPI and PETSc of the application alone

The full claim: preCICE initializes MPI exactly if nobody has, finalizes exactly what it has initialized, never touches
communicators and PETSc of the application, makes no call that MPI or PETSc forbid, and works for each participant on
the communicator given to it, or else on the world, in whatever order participants are constructed and finalized and
configurations are checked.

Proved for all programs: nothing is freed, and preCICE finalizes only what it has initialized. The rest is proved for
participants one after the other whose construction succeeds. Missing, as the code does otherwise: constructions and
checks that fail (`C133_failed`, `C133_stale`, `C133_check_failed`), participants after an environment managed by
preCICE (`C133_again`, `C133_after_check`), two participants at the same time (`C133_two`, `C133_two_comm`), and PETSc
used by the application and by preCICE in turns (`C133_petsc`, `C133_petsc_left`).
-/

set_option autoImplicit false

namespace Verif.Mpi

/-- Whatever the application does, preCICE never frees a communicator. -/
theorem C133_frees_nothing (b : Build) (ops : List Op) (w : Option ℕ) (c : Comm) (v : Bool) :
    (⟨.lib w, .free c, v⟩ : Event) ∉ (({} : Proc).run b ops).2.env.trace :=
  fun h => (Inv.run Inv.start).free _ h rfl c rfl

/-- Whatever the application does, preCICE initializes MPI at most once, and at every time it has finalized MPI at most
as often as it has initialized it. -/
theorem C133_balanced (b : Build) (ops : List Op) {l : List Event}
    (h : l <+: (({} : Proc).run b ops).2.env.trace) : fins l ≤ inits l ∧ inits l ≤ 1 := by
  have hi := Inv.run (b := b) (ops := ops) Inv.start
  exact ⟨hi.pre l h, Nat.le_trans h.sublist.countP_le hi.one⟩

/-- If the application initializes MPI, preCICE neither initializes nor finalizes it, whatever else happens. -/
theorem C133_application (b : Build) (ops : List Op) :
    inits (({} : Proc).run b (.app .init :: ops)).2.env.trace = 0 ∧
    fins (({} : Proc).run b (.app .init :: ops)).2.env.trace = 0 := by
  rw [run_cons_ok (q := ({} : Proc).call .app .init) rfl]
  have h : Left (({} : Proc).call .app .init) := ⟨rfl, by simp [Proc.call]⟩
  obtain ⟨h1, h2⟩ := h.run (b := b) (ops := ops)
  rw [h1, h2]
  exact ⟨rfl, rfl⟩

/-- In a process whose MPI is run by the application, participants one after the other make exactly the calls expected
of them, all of them allowed, and leave no state behind but the memory that PETSc has been initialized once. -/
theorem C133_sessions_partial {b : Build} : ∀ {ss : List Session}, (∀ s ∈ ss, s.Good b) →
    ∀ (t : List Event) (m : Mode) (we : Bool), ∃ we' m',
    (⟨⟨true, false, false, t⟩, [], false, m, we, []⟩ : Proc).run b (ss.flatMap Session.ops) =
      (.ok, ⟨⟨true, false, false, t ++ ss.flatMap Session.events⟩, [], false, m', we', []⟩)
  | [], _, t, m, we => ⟨we, m, by simp [Proc.run]⟩
  | s :: ss, hg, t, m, we => by
    have g := hg s (by simp)
    have key : ∃ m' we', (⟨⟨true, false, false, t⟩, [], false, m, we, []⟩ : Proc).run b s.ops =
        (.ok, ⟨⟨true, false, false, t ++ s.events⟩, [], false, m', we', []⟩) := by
      refine ⟨.uninitialized, we || s.args.cfg.petsc, ?_⟩
      obtain ⟨c, m1, hc, ho, hm1, hm2, hd⟩ : ∃ (c : CommState) (m1 : Mode), c.comm = s.comm ∧
          (c.owning = true → c.comm = .world) ∧ m1 ≠ .testing ∧ m1 ≠ .managed ∧
          (⟨⟨true, false, false, t⟩, [], false, m, we, []⟩ : Proc).initializeOrDetect b.asserts (.lib (some s.id))
            s.args.comm = some ⟨⟨true, false, false, t⟩, [c], false, m1, we, []⟩ := by
        cases hu : s.args.comm with
        | none =>
          exact ⟨.world, .unmanaged, by simp [Session.comm, hu, CommState.world, CommState.fromComm], fun _ => rfl,
            by simp, by simp, by simp [Proc.initializeOrDetect]⟩
        | some c =>
          exact ⟨.fromExtern c, .provided, by simp [Session.comm, hu, CommState.fromExtern],
            by simp [CommState.fromExtern], by simp, by simp, by simp [Proc.initializeOrDetect, Proc.pushState]⟩
      unfold Session.ops
      have hcon := construct_ok g hc hd
      rw [run_cons_ok (op := .construct s.id s.args) hcon, run_append_ok (run_work (by rw [hc]; exact g.comm) _ _),
        run_cons_ok (op := .finalize s.id) (finalize_ok (by simp +contextual) ho hm1), hc]
      simp [Proc.run, Session.events, hm2]
    obtain ⟨m', we', hk⟩ := key
    obtain ⟨we2, m2, h2⟩ := C133_sessions_partial (ss := ss) (fun s' hs' => hg s' (by simp [hs'])) (t ++ s.events) m' we'
    refine ⟨we2, m2, ?_⟩
    rw [List.flatMap_cons, run_append_ok hk, h2]
    simp

/-- A single participant in a process without MPI: preCICE initializes MPI before it does anything else, and finalizes
it after everything else. All its calls are allowed. -/
theorem C133_alone {b : Build} {s : Session} (g : s.Good b) (hu : s.args.comm = none) :
    ∃ q, ({} : Proc).run b s.ops = (.ok, q) ∧ q.env.finalized = true ∧ q.env.petsc = false ∧
    q.env.trace = ⟨.lib (some s.id), .init, true⟩ :: (s.events ++ [⟨.lib (some s.id), .finalize, true⟩]) := by
  have hd : ({} : Proc).initializeOrDetect b.asserts (.lib (some s.id)) s.args.comm =
      some ⟨⟨true, false, false, [⟨.lib (some s.id), .init, true⟩]⟩, [.world], true, .managed, false, []⟩ := by
    rw [hu]
    simp [Proc.initializeOrDetect, Proc.assign, Proc.call, Env.call, Env.allows]
  have hc : CommState.world.comm = s.comm := by
    simp [Session.comm, hu, CommState.world, CommState.fromComm]
  have hcon := construct_ok g hc hd
  unfold Session.ops
  rw [run_cons_ok (op := .construct s.id s.args) hcon, run_append_ok (run_work (by rw [hc]; exact g.comm) _ _),
    run_cons_ok (op := .finalize s.id) (finalize_ok (by simp +contextual) (fun _ => rfl) (by simp)), Proc.run]
  refine ⟨_, rfl, by simp, by simp, ?_⟩
  rw [hc]
  simp [Session.events]

/-- In a process whose MPI is run by the application and without other participants, a construction succeeds if and only
if rank and size are those in the communicator of the participant and the configuration is accepted. -/
theorem C133_accepts (b : Build) (i : ℕ) (a : Args) (t : List Event) (m : Mode) (we : Bool) :
    ((⟨⟨true, false, false, t⟩, [], false, m, we, []⟩ : Proc).construct b i a).1 = .ok ↔
      a.plausible = true ∧ a.rank < a.size ∧ b.shape (a.comm.getD .world) = (a.rank, a.size) ∧ a.cfg.ok = true := by
  have key : ∀ (c : CommState) (m1 : Mode), c.comm = a.comm.getD .world →
      (⟨⟨true, false, false, t⟩, [], false, m, we, []⟩ : Proc).initializeOrDetect b.asserts (.lib (some i)) a.comm =
        some ⟨⟨true, false, false, t⟩, [c], false, m1, we, []⟩ →
      (((⟨⟨true, false, false, t⟩, [], false, m, we, []⟩ : Proc).construct b i a).1 = .ok ↔
        a.plausible = true ∧ a.rank < a.size ∧ b.shape (a.comm.getD .world) = (a.rank, a.size) ∧ a.cfg.ok = true) := by
    intro c m1 hc hd
    generalize hp0 : (⟨⟨true, false, false, t⟩, [c], false, m1, we, []⟩ : Proc) = p0 at hd
    have hc1 : (p0.use (.lib (some i))).comm = c.comm := by
      subst hp0
      rfl
    have hc2 : ((p0.use (.lib (some i))).use (.lib (some i))).comm = c.comm := by
      subst hp0
      rfl
    unfold Proc.construct
    simp only [hd, hc1, hc2, ← hc]
    rcases b.shape c.comm with ⟨r, n⟩
    simp only [Prod.mk.injEq]
    split
    · next h =>
      simp only [Bool.or_eq_true, Bool.not_eq_true', decide_eq_true_eq] at h
      refine ⟨by simp, fun h' => ?_⟩
      rcases h with h | h
      · rw [h] at h'
        simp at h'
      · omega
    next h =>
    split
    · refine ⟨by simp, fun h' => ?_⟩
      omega
    next hr =>
    split
    · refine ⟨by simp, fun h' => ?_⟩
      omega
    next hz =>
    split
    · next hk =>
      refine ⟨by simp, fun h' => ?_⟩
      rw [h'.2.2.2] at hk
      simp at hk
    · next hk =>
      simp only [Bool.or_eq_true, Bool.not_eq_true', decide_eq_true_eq, not_or, Bool.not_eq_false] at h hk
      exact ⟨fun _ => ⟨h.1, by omega, ⟨by omega, by omega⟩, hk⟩, fun _ => rfl⟩
  cases hu : a.comm with
  | none =>
    rw [← hu]
    exact key .world .unmanaged (by simp [hu, CommState.world, CommState.fromComm])
      (by simp [Proc.initializeOrDetect, hu])
  | some c =>
    rw [← hu]
    exact key (.fromExtern c) .provided (by simp [hu, CommState.fromExtern])
      (by simp [Proc.initializeOrDetect, Proc.pushState, hu])

/-- A construction that fails after preCICE has initialized MPI leaves it to nobody: whatever the application calls
afterwards, preCICE does not finalize MPI. -/
theorem C133_failed {b : Build} {i : ℕ} {a : Args} (hu : a.comm = none) (hp : a.plausible = true)
    (hlt : a.rank < a.size) (hf : b.shape .world ≠ (a.rank, a.size) ∨ a.cfg.ok = false) (ops : List Op) :
    inits (({} : Proc).run b (.construct i a :: ops)).2.env.trace = 1 ∧
    fins (({} : Proc).run b (.construct i a :: ops)).2.env.trace = 0 := by
  have hd : ({} : Proc).initializeOrDetect b.asserts (.lib (some i)) a.comm =
      some ⟨⟨true, false, false, [⟨.lib (some i), .init, true⟩]⟩, [.world], true, .managed, false, []⟩ := by
    rw [hu]
    simp [Proc.initializeOrDetect, Proc.assign, Proc.call, Env.call, Env.allows]
  have hlt' : ¬ a.size ≤ a.rank := by omega
  obtain ⟨q, hq, hl, h1, h2⟩ : ∃ q, ({} : Proc).construct b i a = (.error, q) ∧ Left q ∧ inits q.env.trace = 1 ∧
      fins q.env.trace = 0 := by
    generalize hp0 : (⟨⟨true, false, false, [⟨.lib (some i), .init, true⟩]⟩, [.world], true, .managed, false, []⟩ :
      Proc) = p0 at hd
    have key : ∀ r, Quiet p0 r → Left r ∧ inits r.env.trace = 1 ∧ fins r.env.trace = 0 := by
      intro r hr
      subst hp0
      refine ⟨Left.quiet ⟨rfl, fun _ => rfl⟩ hr, ?_, ?_⟩
      · rw [hr.same.1]
        rfl
      · rw [hr.same.2]
        rfl
    have q1 := quiet_use p0 (.lib (some i))
    have q2 := q1.trans (quiet_use _ (.lib (some i)))
    have q3 := (q2.trans (quiet_use _ (.lib (some i)))).trans (quiet_readConfig _ (.lib (some i)) a.cfg)
    have hc1 : (p0.use (.lib (some i))).comm = .world := by
      subst hp0
      rfl
    have hc2 : ((p0.use (.lib (some i))).use (.lib (some i))).comm = .world := by
      subst hp0
      rfl
    unfold Proc.construct
    simp only [hp, hd, hlt', hc1, hc2, decide_false, Bool.not_true, Bool.or_false]
    by_cases hr : a.rank = (b.shape .world).1
    · by_cases hz : a.size = (b.shape .world).2
      · have hk : a.cfg.ok = false := hf.resolve_left fun h => h (Prod.ext hr.symm hz.symm)
        exact ⟨_, by simp [hr.symm, hz.symm, hk], key _ q3⟩
      · exact ⟨_, by simp [hr.symm, hz], key _ q2⟩
    · exact ⟨_, by simp [hr], key _ q1⟩
  rw [Proc.run, show ({} : Proc).step b (.construct i a) = _ from hq]
  obtain ⟨e1, e2⟩ := hl.run (b := b) (ops := ops)
  exact ⟨e1.trans h1, e2.trans h2⟩

/-- A participant of a process without MPI and a further one constructed before the first has been finalized, in a build
without assertions: nobody finalizes MPI, whatever the application calls afterwards. -/
theorem C133_two {b : Build} (hb : b.asserts = false) {s s' : Session} (g : s.Good b) (hu : s.args.comm = none)
    (g' : s'.Good b) (ops : List Op) :
    inits (({} : Proc).run b (.construct s.id s.args :: .construct s'.id s'.args :: ops)).2.env.trace = 1 ∧
    fins (({} : Proc).run b (.construct s.id s.args :: .construct s'.id s'.args :: ops)).2.env.trace = 0 := by
  have hd : ({} : Proc).initializeOrDetect b.asserts (.lib (some s.id)) s.args.comm =
      some ⟨⟨true, false, false, [⟨.lib (some s.id), .init, true⟩]⟩, [.world], true, .managed, false, []⟩ := by
    rw [hu]
    simp [Proc.initializeOrDetect, Proc.assign, Proc.call, Env.call, Env.allows]
  have hc : CommState.world.comm = s.comm := by
    simp [Session.comm, hu, CommState.world, CommState.fromComm]
  have hcon := construct_ok g hc hd
  rw [run_cons_ok (op := .construct s.id s.args) hcon]
  generalize hp0 : (⟨⟨true, false, s.args.cfg.petsc, _⟩, _, _, _, _, _⟩ : Proc) = p0
  have hini : p0.env.initialized = true := by
    subst hp0
    rfl
  have hi : inits p0.env.trace = 1 ∧ fins p0.env.trace = 0 := by
    subst hp0
    cases s.args.cfg.petsc <;> simp [inits, fins, Event.byLib, List.replicate_succ]
  obtain ⟨k1, k2, k3⟩ := construct_left (b := b) hini s'.id s'.args
  have hm : (p0.construct b s'.id s'.args).2.mode ≠ .managed := by
    refine k3.resolve_left fun h => ?_
    have := h.2 g'.plausible g'.lt
    rw [hb] at this
    simp at this
  have hl : Left (p0.construct b s'.id s'.args).2 := ⟨k1, fun h => absurd h hm⟩
  have hr := hl.run (b := b) (ops := ops)
  have hs : Same p0 (p0.run b (.construct s'.id s'.args :: ops)).2 := by
    rw [Proc.run, show p0.step b (.construct s'.id s'.args) = p0.construct b s'.id s'.args from rfl]
    generalize p0.construct b s'.id s'.args = r at k2 hr ⊢
    obtain ⟨st, q⟩ := r
    cases st with
    | abort => exact k2
    | ok => exact k2.trans hr
    | error => exact k2.trans hr
  exact ⟨hs.1.trans hi.1, hs.2.trans hi.2⟩

/-- Serial processes: rank 0 of 1 in every communicator. -/
def serial (asserts : Bool) : Build := ⟨asserts, fun _ => (0, 1)⟩

/-- A participant without communicator whose configuration is accepted. -/
def plain (i : ℕ) : Session := ⟨i, { comm := none, rank := 0, size := 1, cfg := ⟨false, true⟩ }, 0⟩

/-- The events that MPI or PETSc forbid. -/
def illegal (l : List Event) : List Event := l.filter fun e => !e.legal

/-- A second participant in a process without MPI, after the first has been finalized: a build with assertions aborts,
any other uses MPI after it has been finalized. -/
theorem C133_again :
    (({} : Proc).run (serial true) ((plain 0).ops ++ (plain 1).ops)).1 = .abort ∧
    illegal (({} : Proc).run (serial false) ((plain 0).ops ++ (plain 1).ops)).2.env.trace =
      List.replicate 3 ⟨.lib (some 1), .use .world, false⟩ := by
  decide

/-- A participant in a process without MPI, after a configuration has been checked successfully: every build uses MPI
after it has been finalized. -/
theorem C133_after_check (asserts : Bool) :
    illegal (({} : Proc).run (serial asserts) (.check ⟨false, true⟩ :: (plain 0).ops)).2.env.trace =
      List.replicate 3 ⟨.lib (some 0), .use .world, false⟩ := by
  revert asserts
  decide

/-- A check that fails in a process without MPI initializes MPI and leaves it to nobody, whatever the application calls
afterwards. -/
theorem C133_check_failed (b : Build) (petsc : Bool) (ops : List Op) :
    inits (({} : Proc).run b (.check ⟨petsc, false⟩ :: ops)).2.env.trace = 1 ∧
    fins (({} : Proc).run b (.check ⟨petsc, false⟩ :: ops)).2.env.trace = 0 := by
  have key : ∀ petsc, ∃ q, ({} : Proc).check ⟨petsc, false⟩ = (.error, q) ∧ Left q ∧ inits q.env.trace = 1 ∧
      fins q.env.trace = 0 := by
    intro petsc
    cases petsc
    · exact ⟨_, rfl, ⟨rfl, by decide⟩, by decide, by decide⟩
    · exact ⟨_, rfl, ⟨rfl, by decide⟩, by decide, by decide⟩
  obtain ⟨q, hq, hl, h1, h2⟩ := key petsc
  rw [Proc.run, show ({} : Proc).step b (.check ⟨petsc, false⟩) = _ from hq]
  obtain ⟨e1, e2⟩ := hl.run (b := b) (ops := ops)
  exact ⟨e1.trans h1, e2.trans h2⟩

/-- After a construction with a communicator has failed, the next participant without communicator works on that of the
failed construction instead of the world. -/
theorem C133_stale (asserts : Bool) :
    (({} : Proc).run (serial asserts)
      (.app .init :: .construct 0 { comm := some (.user 7), rank := 0, size := 1, cfg := ⟨false, false⟩ } ::
        (plain 1).ops)).2.env.trace.filter (fun e => e.who = .lib (some 1)) =
      List.replicate 3 ⟨.lib (some 1), .use (.user 7), true⟩ := by
  revert asserts
  decide

/-- The communicator of a participant changes when another one is constructed. -/
theorem C133_two_comm (asserts : Bool) :
    (({} : Proc).run (serial asserts)
      [.app .init, .construct 0 { comm := some (.user 7), rank := 0, size := 1, cfg := ⟨false, true⟩ }, .work 0,
        .construct 1 { comm := some (.user 8), rank := 0, size := 1, cfg := ⟨false, true⟩ }, .work 0]).2.env.trace.filter
      (fun e => e.who = .lib (some 0)) =
      List.replicate 4 ⟨.lib (some 0), .use (.user 7), true⟩ ++ [⟨.lib (some 0), .use (.user 8), true⟩] := by
  revert asserts
  decide

/-- preCICE finalizes PETSc although the application has initialized it, if an earlier participant has used PETSc: the
memory of having initialized PETSc is never cleared. -/
theorem C133_petsc (asserts : Bool) :
    (⟨.lib (some 1), .petscFinalize, true⟩ : Event) ∈ (({} : Proc).run (serial asserts)
      (.app .init :: .construct 0 { comm := none, rank := 0, size := 1, cfg := ⟨true, true⟩ } :: .finalize 0 ::
        .app (.petscInit .world) :: (plain 1).ops)).2.env.trace := by
  revert asserts
  decide

/-- Checking a configuration that needs PETSc in a process whose MPI is run by the application leaves PETSc running: the
application must not finalize MPI then. -/
theorem C133_petsc_left (asserts : Bool) :
    (({} : Proc).run (serial asserts) [.app .init, .check ⟨true, true⟩, .app .finalize]).2.env.trace =
      [⟨.app, .init, true⟩, ⟨.lib none, .petscInit .world, true⟩, ⟨.app, .finalize, false⟩] := by
  revert asserts
  decide

end Verif.Mpi
