import Verif.Compositional.Step
import Verif.Scheme.Simulate

/-!
# Properties C20 and C21: compositional coupling
-/

set_option autoImplicit false

namespace Verif

open Prog

variable {ι D : Type}

namespace Comp

/-! ### Specification -/

/-- A composition right after `initialize()`: one implicit scheme and at least one explicit scheme,
all with window size `w` and max-time `mt`; explicit schemes are serial or parallel ones with
pairwise different partners; the implicit scheme communicates with other partners. -/
structure Begun (mt : Option ℚ) (w : ℚ) (m : Member ι D) (c : Comp ι D) : Prop where
  impl : ∃ s, c.impl = some (m, s) ∧ Started m.cfg m.hooks mt w s
  expl : ∀ ms ∈ c.expl, BiExplicit ms.1 ∧ Started ms.1.cfg ms.1.hooks mt w ms.2
  free : c.onHold = false
  shape : Shape w c m

/-! ### C20 -/

theorem Begun.inv {mt : Option ℚ} {w : ℚ} {m : Member ι D} {c : Comp ι D} (h : Begun mt w m c) :
    ∃ s, CInv w m s c := by
  obtain ⟨s, hs, hst⟩ := h.impl
  have f := hst.facts h.shape.fixed
  refine ⟨s, hs, ⟨rfl, f.size, f.nextSize, rfl⟩, by rw [f.time], fun _ ms hm => ?_, fun hx => ?_⟩
  · have g := (h.expl ms hm).2.facts (h.expl ms hm).1.fixed
    exact ⟨g.time.trans f.time.symm, g.size, g.nextSize, g.windows.trans f.windows.symm⟩
  · rw [h.free] at hx; cases hx

theorem sharp_fulfilAll {c : Comp ι D} {dt : ℚ} (h : Sharp c dt) : Sharp c.fulfilAll dt := by
  have : c.fulfilAll.maxStep = c.maxStep := by
    unfold maxStep active Comp.fulfilAll
    cases hc : c.impl with
    | none =>
      simp only [Option.map_none, Option.isSome_none, Bool.false_and, Bool.false_eq_true, if_false]
      rw [List.foldr_map]; rfl
    | some ms =>
      cases hh : c.onHold
      · simp only [Option.map_some, Option.isSome_some, Bool.and_false, Bool.false_eq_true, if_false,
          List.foldr_cons, fulfilAll_maxStep]
        rw [List.foldr_map]; rfl
      · simp
  unfold Sharp at h ⊢; rw [this]; exact h

/-- invariant of executions -/
theorem Exec.cinv [DecidableEq ι] {mt : Option ℚ} {w : ℚ} (hw : tol < w) (hwd : w ≤ dblMax)
    {m : Member ι D} {c₀ c : Comp ι D} (hb : Begun mt w m c₀) {log : List (Call ι D)}
    (he : Exec Sharp c₀ log c) :
    (∃ s, CInv w m s c) ∧ c.expl.map (·.1) = c₀.expl.map (·.1) ∧
    ∀ k ∈ log, ∀ ms ∈ c₀.expl,
      sentMsgs ms.1.peer k.events = (if k.complete then [.data k.inp.value] else []) ∧
      (k.complete = false → ∀ e ∈ k.events, e.peer ≠ ms.1.peer) := by
  induction he with
  | nil => exact ⟨hb.inv, rfl, by simp⟩
  | @step log c c' i tr _ hp hr ih =>
    obtain ⟨⟨s, hi⟩, hm, hl⟩ := ih
    have hsh : Shape w c.fulfilAll m := hb.shape.congr ((members_fulfilAll c).trans hm)
    have st := step_cases hw hwd hsh hi.fulfilAll (sharp_fulfilAll hp) hr
    refine ⟨st.inv, st.members.trans ((members_fulfilAll c).trans hm), ?_⟩
    intro k hk ms hms
    rw [List.mem_append, List.mem_singleton] at hk
    rcases hk with hk | rfl
    · exact hl k hk ms hms
    · have hpm : ms.1.peer ∈ c.fulfilAll.expl.map (·.1.peer) := by
        have h1 : c.fulfilAll.expl.map (·.1.peer) = c₀.expl.map (·.1.peer) := by
          have := congrArg (List.map Member.peer) ((members_fulfilAll c).trans hm)
          simpa [List.map_map, Function.comp_def] using this
        rw [h1]; exact List.mem_map_of_mem hms
      exact ⟨st.sent _ hpm, fun hc e he hx => st.quiet hc e he (hx ▸ hpm)⟩

/-- C20: in every `advance` call of every execution, every explicit scheme of the composition sends
its partner exactly one message, the value written for this window end, if the window is complete
after the call (so the implicit scheme has converged), and otherwise exchanges nothing with it. -/
theorem C20_explicit_exchange_once_per_window [DecidableEq ι] {mt : Option ℚ} {w : ℚ} (hw : tol < w)
    (hwd : w ≤ dblMax) {m : Member ι D} {c₀ c : Comp ι D} (hb : Begun mt w m c₀)
    {log : List (Call ι D)} (he : Exec Sharp c₀ log c) :
    ∀ k ∈ log, ∀ ms ∈ c₀.expl,
      sentMsgs ms.1.peer k.events = (if k.complete then [.data k.inp.value] else []) ∧
      (k.complete = false → ∀ e ∈ k.events, e.peer ≠ ms.1.peer) :=
  (he.cinv hw hwd hb).2.2

/-- C20: over a whole execution the explicit schemes send exactly as many messages as windows have
been completed. -/
theorem C20_explicit_count [DecidableEq ι] {mt : Option ℚ} {w : ℚ} (hw : tol < w)
    (hwd : w ≤ dblMax) {m : Member ι D} {c₀ c : Comp ι D} (hb : Begun mt w m c₀)
    {log : List (Call ι D)} (he : Exec Sharp c₀ log c) {ms : Member ι D × State D} (hms : ms ∈ c₀.expl) :
    (sentMsgs ms.1.peer (log.flatMap (·.events))).length = (log.filter (·.complete)).length := by
  have h := fun k hk => (C20_explicit_exchange_once_per_window hw hwd hb he k hk ms hms).1
  clear he
  induction log with
  | nil => rfl
  | cons k log ih =>
    simp only [List.mem_cons, forall_eq_or_imp] at h
    rw [List.flatMap_cons, sentMsgs_append, List.length_append, h.1, ih h.2]
    cases hk : k.complete <;> simp [hk, Nat.add_comm]

/-- C20: while the implicit scheme repeats a window, the explicit schemes are not touched at all. -/
theorem C20_explicit_on_hold [DecidableEq ι] {mt : Option ℚ} {w : ℚ} (hw : tol < w)
    (hwd : w ≤ dblMax) {m : Member ι D} {c₀ c c' : Comp ι D} (hb : Begun mt w m c₀)
    {log : List (Call ι D)} (he : Exec Sharp c₀ log c) {i : StepIn D} {tr : List (Ev ι (Msg D))}
    (hp : Sharp c i.dt) (hr : Run (advance i c.fulfilAll) tr c') (hold : c.onHold = true)
    (hc : c'.complete = false) : c'.expl = c.expl ∧ c'.onHold = true := by
  obtain ⟨⟨s, hi⟩, hm, _⟩ := he.cinv hw hwd hb
  have hsh : Shape w c.fulfilAll m := hb.shape.congr ((members_fulfilAll c).trans hm)
  have st := step_cases hw hwd hsh hi.fulfilAll (sharp_fulfilAll hp) hr
  obtain ⟨h1, h2⟩ := st.held hold hc
  refine ⟨h1.trans ?_, h2⟩
  simp [Comp.fulfilAll, hi.impl, hold]

/-! ### C21 -/

/-- C21: `getMaxTimeStepSize()` of a composition is at most what each active member allows, and
one of them (or the largest double) attains it. -/
theorem C21_max_step_min (c : Comp ι D) :
    (∀ ms ∈ c.active, c.maxStep ≤ ms.2.maxStep ms.1.cfg) ∧
    (c.maxStep = dblMax ∨ ∃ ms ∈ c.active, c.maxStep = ms.2.maxStep ms.1.cfg) := by
  unfold maxStep
  generalize c.active = l
  induction l with
  | nil => simp
  | cons a l ih =>
    simp only [List.foldr_cons, List.mem_cons, forall_eq_or_imp, exists_eq_or_imp]
    refine ⟨⟨min_le_left _ _, fun ms hm => (min_le_right _ _).trans (ih.1 ms hm)⟩, ?_⟩
    rcases min_choice (a.2.maxStep a.1.cfg)
      (List.foldr (fun ms x => min (ms.2.maxStep ms.1.cfg) x) dblMax l) with h | h
    · exact .inr (.inl h)
    · rw [h]
      exact ih.2.imp id .inr

/-- C21: every accepted step of a composition is accepted by every active member: no member
overshoots its own limit by more than the numerical tolerance. This holds for any window sizes. -/
theorem C21_accepted_step_fits_all {c c' : Comp ι D} {i : StepIn D} {tr : List (Ev ι (Msg D))}
    (hr : Run (advance i c) tr c') :
    ∀ ms ∈ c.active, ms.2.ongoing ms.1.cfg ∧ i.dt ≤ ms.2.maxStep ms.1.cfg + tol := by
  have each : ∀ (l : List (Member ι D × State D)) tr l', RunEach
      (fun m s => addComputedTime m.cfg s i.dt ret) l tr l' →
      ∀ ms ∈ l, ms.2.ongoing ms.1.cfg ∧ i.dt ≤ ms.2.maxStep ms.1.cfg + tol := by
    intro l tr l' hl
    induction hl with
    | nil => simp
    | cons h1 _ ih =>
      obtain ⟨_, _, a, _, b⟩ := run_addTime h1
      simp only [List.mem_cons, forall_eq_or_imp]
      exact ⟨⟨a, b⟩, ih⟩
  unfold advance at hr
  rw [run_bind] at hr
  obtain ⟨ta, tb, c1, rfl, r1, _⟩ := hr
  unfold addTime at r1
  unfold active
  cases him : c.impl with
  | none =>
    simp only [him] at r1 ⊢
    rw [run_bind] at r1
    obtain ⟨tx, ty, l, rfl, x1, _⟩ := r1
    exact each _ _ _ (run_forEach x1)
  | some mm =>
    obtain ⟨m, s⟩ := mm
    simp only [him] at r1 ⊢
    rw [run_bind] at r1
    obtain ⟨tx, ty, s1, rfl, x1, x2⟩ := r1
    obtain ⟨_, _, a, _, b⟩ := run_addTime x1
    simp only [List.mem_cons, forall_eq_or_imp]
    refine ⟨⟨a, b⟩, ?_⟩
    cases hh : c.onHold with
    | true => simp
    | false =>
      rw [hh, if_neg (by simp), run_bind] at x2
      obtain ⟨tz, tw, l1, rfl, z1, _⟩ := x2
      simpa using each _ _ _ (run_forEach z1)

/-- C21: with a common window size the reported time is the time of every active member. -/
theorem C21_common_time [DecidableEq ι] {mt : Option ℚ} {w : ℚ} (hw : tol < w)
    (hwd : w ≤ dblMax) {m : Member ι D} {c₀ c : Comp ι D} (hb : Begun mt w m c₀)
    {log : List (Call ι D)} (he : Exec Sharp c₀ log c) :
    ∃ t, c.time = some t ∧ ∀ ms ∈ c.active, ms.2.time.time = t := by
  obtain ⟨⟨s, hi⟩, _⟩ := he.cinv hw hwd hb
  refine ⟨s.time.time, by simp [time, hi.impl], ?_⟩
  unfold active
  simp only [hi.impl, List.mem_cons, forall_eq_or_imp, true_and]
  cases hh : c.onHold with
  | true => simp
  | false =>
    simp only [Bool.false_eq_true, if_false]
    intro ms hm
    rw [(hi.free hh ms hm).time]

/-- C21: with a common window size, max-time and max-time-windows, the composition is ongoing iff
some active member is ongoing, iff all active members are. -/
theorem C21_ongoing_iff [DecidableEq ι] {mt : Option ℚ} {w : ℚ} (hw : tol < w)
    (hwd : w ≤ dblMax) {m : Member ι D} {c₀ c : Comp ι D} (hb : Begun mt w m c₀)
    (hN : ∀ ms ∈ c₀.expl, ms.1.cfg.maxWindows = m.cfg.maxWindows)
    {log : List (Call ι D)} (he : Exec Sharp c₀ log c) :
    (c.ongoing ↔ ∃ ms ∈ c.active, ms.2.ongoing ms.1.cfg) ∧
    (c.ongoing ↔ ∀ ms ∈ c.active, ms.2.ongoing ms.1.cfg) := by
  obtain ⟨⟨s, hi⟩, hm, _⟩ := he.cinv hw hwd hb
  have key : ∀ ms ∈ c.active, (ms.2.ongoing ms.1.cfg ↔ s.ongoing m.cfg) := by
    unfold active
    simp only [hi.impl, List.mem_cons, forall_eq_or_imp, true_and]
    cases hh : c.onHold with
    | true => simp
    | false =>
      simp only [Bool.false_eq_true, if_false]
      intro ms hms
      have a := hi.free hh ms hms
      have hw' : ms.1.cfg.maxWindows = m.cfg.maxWindows := by
        have : ms.1 ∈ c₀.expl.map (·.1) := by rw [← hm]; exact List.mem_map_of_mem hms
        rw [List.mem_map] at this
        obtain ⟨ms', h1, h2⟩ := this
        rw [← h2]; exact hN _ h1
      unfold State.ongoing
      rw [a.time, a.windows, hw']
  have hc : c.ongoing ↔ s.ongoing m.cfg := by unfold ongoing; simp [hi.impl]
  have hmem : (m, s) ∈ c.active := by unfold active; simp [hi.impl]
  rw [hc]
  refine ⟨⟨fun h => ⟨_, hmem, h⟩, fun ⟨ms, h1, h2⟩ => (key ms h1).mp h2⟩,
    ⟨fun h ms h1 => (key ms h1).mpr h, fun h => h _ hmem⟩⟩

/-! ### Concrete compositions -/

/-- Evaluate a program on received messages, recording its events. -/
def evalT {M α : Type} : Prog ι M α → List M → Option (α × List (Ev ι M) × List M)
  | ret a, ms => some (a, [], ms)
  | send d m k, ms => (evalT k ms).map fun r => (r.1, .sent d m :: r.2.1, r.2.2)
  | recv _ _, [] => none
  | recv s k, m :: ms => (evalT (k m) ms).map fun r => (r.1, .got s m :: r.2.1, r.2.2)
  | fail _, _ => none

theorem run_of_evalT {M α : Type} {p : Prog ι M α} {ms ms' : List M} {a : α} {tr : List (Ev ι M)}
    (h : evalT p ms = some (a, tr, ms')) : Run p tr a := by
  induction p generalizing ms tr with
  | ret b =>
    simp only [evalT, Option.some.injEq, Prod.mk.injEq] at h
    obtain ⟨rfl, rfl, _⟩ := h; exact .ret _
  | send dst m k ih =>
    simp only [evalT, Option.map_eq_some_iff, Prod.mk.injEq] at h
    obtain ⟨⟨a', t', m'⟩, h1, rfl, rfl, rfl⟩ := h
    exact .send _ _ (ih h1)
  | recv src k ih =>
    cases ms with
    | nil => simp [evalT] at h
    | cons m ms =>
      simp only [evalT, Option.map_eq_some_iff, Prod.mk.injEq] at h
      obtain ⟨⟨a', t', m'⟩, h1, rfl, rfl, rfl⟩ := h
      exact .recv _ m (ih m h1)
  | fail e => simp [evalT] at h

/-- Run a composition on concrete steps and received messages. -/
def simulate (P : Comp ι D → ℚ → Prop) [∀ c dt, Decidable (P c dt)] :
    List (Call ι D) → Comp ι D → List (StepIn D × List (Msg D)) → Option (List (Call ι D) × Comp ι D)
  | log, c, [] => some (log, c)
  | log, c, (i, ms) :: rest =>
    if P c i.dt then
      match evalT (advance i c.fulfilAll) ms with
      | some (c', tr, []) => simulate P (log ++ [⟨i, tr, c'.complete⟩]) c' rest
      | _ => none
    else none

theorem simulate_sound {P : Comp ι D → ℚ → Prop} [∀ c dt, Decidable (P c dt)] {c₀ : Comp ι D}
    {ins : List (StepIn D × List (Msg D))} {log log' : List (Call ι D)} {c c' : Comp ι D}
    (he : Exec P c₀ log c) (hs : simulate P log c ins = some (log', c')) : Exec P c₀ log' c' := by
  induction ins generalizing log c with
  | nil => simp only [simulate, Option.some.injEq, Prod.mk.injEq] at hs; rwa [← hs.1, ← hs.2]
  | cons x rest ih =>
    obtain ⟨i, ms⟩ := x
    simp only [simulate] at hs
    split at hs
    · next hp =>
      split at hs
      · next c1 tr heq => exact ih (.step he hp (run_of_evalT heq)) hs
      · cases hs
    · cases hs

theorem exec_of_check {P : Comp ι D → ℚ → Prop} [∀ c dt, Decidable (P c dt)] {c₀ : Comp ι D}
    {ins : List (StepIn D × List (Msg D))} {Q : List (Call ι D) × Comp ι D → Prop} [DecidablePred Q]
    (h : (simulate P [] c₀ ins).any (fun r => decide (Q r)) = true) :
    ∃ log c, Exec P c₀ log c ∧ Q (log, c) := by
  rw [Option.any_eq_true] at h
  obtain ⟨⟨log, c⟩, h1, h2⟩ := h
  exact ⟨log, c, simulate_sound .nil h1, by simpa using h2⟩

instance (c : Comp ι D) (dt : ℚ) : Decidable (Sharp c dt) := by unfold Sharp; exact inferInstance

/-- Steps limited by `getMaxTimeStepSize()` up to the tolerance that `advance` grants. -/
def Any (_ : Comp ι D) (_ : ℚ) : Prop := True

instance (c : Comp ι D) (dt : ℚ) : Decidable (Any c dt) := inferInstanceAs (Decidable True)

/-- implicit member: first participant of a parallel-implicit scheme, partner 0 -/
def exImpl : Member ℕ ℕ := ⟨exPI1, (Parallel.hooks exPI1).rename fun _ => 0, 0⟩
/-- explicit members: first participant of parallel-explicit schemes with partners 1 and 2 -/
def exExpl (p : ℕ) : Member ℕ ℕ := ⟨exPE1, (Parallel.hooks exPE1).rename fun _ => p, p⟩
def exExpl2 : Member ℕ ℕ := ⟨exPE1, (Serial.hooks exPE1).rename fun _ => 2, 2⟩

/-- state of a member after `initialize()` (none of these schemes exchanges initial data) -/
def exStart (m : Member ℕ ℕ) (mt : Option ℚ) (w : ℚ) : State ℕ :=
  { (constructed m.cfg mt w 0).fulfilAll with reqWrite := m.cfg.implicit }

def exComp : Comp ℕ ℕ :=
  ⟨some (exImpl, exStart exImpl (some (5/2)) 1),
    [(exExpl 1, exStart (exExpl 1) (some (5/2)) 1), (exExpl2, exStart exExpl2 (some (5/2)) 1)], false⟩

theorem exComp_begun : Begun (some (5/2)) 1 exImpl exComp := by
  refine ⟨⟨_, rfl, 0, [], ?_⟩, ?_, rfl, ?_⟩
  · exact .ret _
  · simp only [exComp, List.mem_cons, List.not_mem_nil, or_false, forall_eq_or_imp, forall_eq]
    exact ⟨⟨⟨rfl, rfl, rfl, .inr rfl⟩, 0, [], .ret _⟩, ⟨⟨rfl, rfl, rfl, .inl rfl⟩, 0, [], .ret _⟩⟩
  · refine ⟨?_, by decide, by simp [exComp], rfl, (Parallel.fixedHooks _).rename, ?_, ?_⟩
    · simp only [exComp, List.mem_cons, List.not_mem_nil, or_false, forall_eq_or_imp, forall_eq]
      exact ⟨⟨rfl, rfl, rfl, .inr rfl⟩, ⟨rfl, rfl, rfl, .inl rfl⟩⟩
    · intro i s tr s' hr e he
      obtain ⟨tr', _, rfl⟩ := run_mapPeer hr
      rw [List.mem_map] at he
      obtain ⟨e', _, rfl⟩ := he
      cases e' <;> simp [Ev.mapPeer, Ev.peer, exComp, exExpl, exExpl2]
    · intro i s tr s' hr e he
      obtain ⟨tr', _, rfl⟩ := run_mapPeer hr
      rw [List.mem_map] at he
      obtain ⟨e', _, rfl⟩ := he
      cases e' <;> simp [Ev.mapPeer, Ev.peer, exComp, exExpl, exExpl2]

/-- The hypotheses of C20 and C21 are satisfiable: an execution with a repeated window, substeps and
a truncated last window. -/
example : Begun (some (5/2)) 1 exImpl exComp ∧
    ∃ log c, Exec Sharp exComp log c ∧ log.map (·.complete) = [false, false, false, true, true, true] ∧
      (log.filter (fun k => !(sentMsgs 1 k.events).isEmpty)).length = 3 ∧ ¬ c.ongoing :=
  ⟨exComp_begun, by
    obtain ⟨log, c, h1, h2, h3, h4⟩ := exec_of_check (P := Sharp) (c₀ := exComp)
      (ins := [(stp (1/2), []), (stp (1/2), [.conv false, .data 7]),
        (stp (1/4), []), (stp (3/4), [.conv true, .data 8, .data 20, .data 30]),
        (stp 1, [.conv true, .data 8, .data 21, .data 31]),
        (stp (1/2), [.conv true, .data 8, .data 22, .data 32])])
      (Q := fun r => r.1.map (·.complete) = [false, false, false, true, true, true] ∧
        (r.1.filter (fun k => !(sentMsgs 1 k.events).isEmpty)).length = 3 ∧
        ¬ r.2.ongoing)
      (by decide +kernel)
    exact ⟨log, c, h1, h2, h3, h4⟩⟩

/-- C20 needs sharp steps: after a step that overshoots the window end within the tolerance, the
composition reports two completed windows, but the explicit schemes exchange data only once. (The
implicit scheme's time is corrected to the window end, the explicit ones' on hold are not, and the
exact comparison in CompositionalCouplingScheme.cpp:203-205 takes the converged window for a
repeated one.) -/
theorem C20_tolerated_overshoot_skips_exchange :
    ∃ log c, Exec Any exComp log c ∧ (∀ k ∈ log, k.inp.dt ≤ 1 + tol) ∧
      (log.filter (·.complete)).length = 2 ∧
      (sentMsgs 1 (log.flatMap (·.events))).length = 1 := by
  obtain ⟨log, c, h1, h2⟩ := exec_of_check (P := Any) (c₀ := exComp)
    (ins := [(stp (1 + 5 / 10 ^ 15), [.conv true, .data 8]),
      (stp 1, [.conv true, .data 8, .data 21, .data 31])])
    (Q := fun r => (∀ k ∈ r.1, k.inp.dt ≤ 1 + tol) ∧ (r.1.filter (·.complete)).length = 2 ∧
      (sentMsgs 1 (r.1.flatMap (·.events))).length = 1)
    (by decide +kernel)
  exact ⟨log, c, h1, h2⟩

/-- implicit window size 2, explicit window size 1 -/
def exMisaligned : Comp ℕ ℕ :=
  ⟨some (exImpl, exStart exImpl none 2), [(exExpl 1, exStart (exExpl 1) none 1)], false⟩

/-- C20 needs aligned windows: with an explicit window half as long as the implicit one (accepted
with a warning) the explicit scheme sends its data twice in a single `advance` call and counts two
windows. -/
theorem C20_misaligned_sends_twice :
    ∃ log c, Exec Sharp exMisaligned log c ∧ log.length = 1 ∧
      (sentMsgs 1 (log.flatMap (·.events))).length = 2 ∧
      ∀ ms ∈ c.expl, ms.2.windows = 3 := by
  obtain ⟨log, c, h1, h2⟩ := exec_of_check (P := Sharp) (c₀ := exMisaligned)
    (ins := [(stp 1, [.data 21])])
    (Q := fun r => r.1.length = 1 ∧ (sentMsgs 1 (r.1.flatMap (·.events))).length = 2 ∧
      ∀ ms ∈ r.2.expl, ms.2.windows = 3)
    (by decide +kernel)
  exact ⟨log, c, h1, h2⟩

/-- two explicit schemes, the first without max-time, the second with max-time 1 -/
def exUneven : Comp ℕ ℕ :=
  ⟨none, [(exExpl 1, exStart (exExpl 1) none 1), (exExpl 2, exStart (exExpl 2) (some 1) 1)], false⟩

/-- C21 needs equal end conditions: if one explicit scheme ends before the first one, coupling is
reported as ongoing although the largest allowed step is 0, so that no further step is possible. -/
theorem C21_uneven_end_stuck :
    ∃ log c, Exec Sharp exUneven log c ∧ c.ongoing ∧ c.maxStep = 0 ∧
      ∀ i tr c', ¬ Run (advance i c.fulfilAll) tr c' := by
  obtain ⟨log, c, h1, h2, h3, h4⟩ := exec_of_check (P := Sharp) (c₀ := exUneven)
    (ins := [(stp 1, [.data 21, .data 22])])
    (Q := fun r => r.2.ongoing ∧ r.2.maxStep = 0 ∧
      ∃ ms, ms ∈ r.2.fulfilAll.active ∧ ¬ ms.2.ongoing ms.1.cfg)
    (by decide +kernel)
  refine ⟨log, c, h1, h2, h3, ?_⟩
  intro i tr c' hr
  obtain ⟨ms, h5, h6⟩ := h4
  exact h6 (C21_accepted_step_fits_all hr ms h5).1

end Comp
end Verif
