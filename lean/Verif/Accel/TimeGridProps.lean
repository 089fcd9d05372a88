import Verif.Accel.TimeGridLemmas

/-!
# Quasi-Newton acceleration keeps the times of the data consistent (C105)
-/

set_option autoImplicit false

namespace Verif.TimeGrid

open DataPath

/-! ## Specification -/

/-- The times of the data in the first iteration of a window. -/
def firstTimes (w : Window) : List ℚ := w.repeated.headD w.last

/-- The times of the window `w` with the relative positions that the times of the window `ref` have after its start. -/
def expected (ref w : Window) : List ℚ :=
  (firstTimes ref).tail.map fun t => w.start + (t - ref.start) / (ref.stop - ref.start) * (w.stop - w.start)

/-- The times used in each iteration of each window: those of the first window with more than one iteration, and in the windows before those of
the window itself. -/
def expectRun : Option Window → List Window → List (List (List ℚ))
  | _, [] => []
  | ref, w :: l =>
    List.replicate (w.repeated.length + 1) (expected (ref.getD w) w) ::
      expectRun (if ref.isSome || !w.repeated.isEmpty then some (ref.getD w) else none) l

/-- In every iteration the data have samples from the start of the window to its end. -/
def Valid (w : Window) : Prop := ∀ l ∈ w.repeated ++ [w.last], Times w.start w.stop l

/-- The window is long enough for the times of the other one: none of them is within the tolerance of its start. -/
def Resolves (ref w : Window) : Prop := ∀ t ∈ expected ref w, w.start + tol < t

/-! ## The times -/

theorem Valid.first {w : Window} (h : Valid w) : Times w.start w.stop (firstTimes w) := by
  unfold firstTimes
  cases hr : w.repeated with
  | nil => exact h _ (by rw [hr]; simp)
  | cons a l => exact h _ (by rw [hr]; simp)

theorem Valid.last {w : Window} (h : Valid w) : Times w.start w.stop w.last := h _ (by simp)

theorem gridAfter_transform {ref w : Window} (hr : Valid ref) (hres : Resolves ref w) :
    gridAfter w.start ((firstTimes ref).map (transform ref.start ref.stop w.start w.stop)) = expected ref w := by
  obtain ⟨m, hm⟩ := hr.first.shape
  have htol := tol_pos
  have e : expected ref w = (m ++ [ref.stop]).map (transform ref.start ref.stop w.start w.stop) := by
    unfold expected
    rw [hm, List.tail_cons]
    exact List.map_congr_left fun t _ => by unfold transform; ring
  unfold gridAfter
  rw [hm, List.map_cons, transform_start, List.filter_cons_of_neg (by rw [decide_eq_true_eq]; unfold greater; linarith), ← e,
    List.filter_eq_self.2]
  intro t ht
  have := hres t ht
  rw [decide_eq_true_eq]
  unfold greater
  linarith

theorem prepare_fixed {reduced fw : Bool} {times g : List ℚ} : (⟨fw, false, some g⟩ : State).prepare reduced times = some g := by
  unfold State.prepare
  simp

/-- Once the grid of a window is fixed, all its iterations use it. -/
theorem iterations_fixed {reduced fw : Bool} {start : ℚ} {g : List ℚ} (l : List (List ℚ)) :
    iterations reduced start l ⟨fw, false, some g⟩ = some (List.replicate l.length (gridAfter start g), ⟨fw, false, some g⟩) := by
  induction l with
  | nil => rfl
  | cons a l ih =>
    simp only [iterations, State.perform, State.prepare, Bool.and_false, Bool.false_eq_true, if_false, bind, Option.bind, ih,
      List.length_cons, List.replicate_succ]

theorem window_of_prepare {reduced fw : Bool} {w : Window} {grid : Option (List ℚ)} {g : List ℚ}
    (h : (⟨fw, true, grid⟩ : State).prepare reduced (firstTimes w) = some g) :
    window reduced w ⟨fw, true, grid⟩ =
      some (List.replicate (w.repeated.length + 1) (gridAfter w.start g), ⟨fw && w.repeated.isEmpty, true, some g⟩) := by
  unfold window
  unfold firstTimes at h
  cases hr : w.repeated with
  | nil =>
    rw [hr, List.headD_nil] at h
    simp only [iterations, State.converged, bind, Option.bind, h, List.length_nil, List.isEmpty_nil, List.nil_append]
    rfl
  | cons a l =>
    rw [hr, List.headD_cons] at h
    simp only [iterations, State.perform, bind, Option.bind, h, iterations_fixed, State.converged, prepare_fixed, List.length_cons,
      List.isEmpty_cons, Bool.and_false]
    rw [List.replicate_succ' (n := l.length + 1), List.replicate_succ]

/-- The state at the start of a window. -/
def Ready (ref : Option Window) (s : State) : Prop :=
  s.firstIteration = true ∧ match ref with
  | none => s.firstWindow = true
  | some r => s.firstWindow = false ∧ ∃ c d, c < d ∧ s.grid = some ((firstTimes r).map (transform r.start r.stop c d))

theorem window_ok {ref : Option Window} {w : Window} {s : State} (hs : Ready ref s) (hw : Valid w) (hr : ∀ r, ref = some r → Valid r)
    (hres : Resolves (ref.getD w) w) :
    ∃ s', window false w s = some (List.replicate (w.repeated.length + 1) (expected (ref.getD w) w), s') ∧
      Ready (if ref.isSome || !w.repeated.isEmpty then some (ref.getD w) else none) s' := by
  obtain ⟨fw, fi, grid⟩ := s
  obtain ⟨h1, h2⟩ := hs
  change fi = true at h1
  subst h1
  have hv : Valid (ref.getD w) := by
    cases ref with
    | none => exact hw
    | some r => exact hr r rfl
  have hp : (⟨fw, true, grid⟩ : State).prepare false (firstTimes w) =
      some ((firstTimes (ref.getD w)).map (transform (ref.getD w).start (ref.getD w).stop w.start w.stop)) := by
    unfold State.prepare
    cases ref with
    | none =>
      change fw = true at h2
      subst h2
      simp only [Bool.and_self, if_true, create_times hw.first, Bool.false_eq_true, if_false, bind, Option.bind, Option.getD_none]
      exact moveGrid_times hw.first hw.first
    | some r =>
      obtain ⟨h2, c, d, hcd, h3⟩ := h2
      change fw = false at h2
      change grid = _ at h3
      subst h2 h3
      simp only [Bool.false_and, Bool.false_eq_true, if_false, if_true, bind, Option.bind, Option.getD_some]
      rw [moveGrid_times ((hr r rfl).first.transform hcd) hw.first, List.map_map]
      exact congrArg some (List.map_congr_left fun t _ => transform_transform _ _ _ hcd)
  refine ⟨_, by rw [window_of_prepare hp, gridAfter_transform hv hres], rfl, ?_⟩
  cases ref with
  | none =>
    change fw = true at h2
    subst h2
    cases he : w.repeated.isEmpty with
    | true => simp
    | false =>
      simp only [Option.isSome_none, Bool.false_or, Bool.not_false, if_true, Bool.true_and, Option.getD_none]
      exact ⟨trivial, w.start, w.stop, hw.first.lt, rfl⟩
  | some r =>
    change fw = false ∧ _ at h2
    rw [h2.1]
    simp only [Option.isSome_some, Bool.true_or, if_true, Option.getD_some, Bool.false_and]
    exact ⟨trivial, w.start, w.stop, hw.first.lt, rfl⟩

theorem run_ok {ref : Option Window} {l : List Window} {s : State} (hs : Ready ref s) (hl : ∀ w ∈ l, Valid w)
    (hr : ∀ r, ref = some r → Valid r) (hres : ∀ r ∈ ref.toList ++ l, ∀ w ∈ l, Resolves r w) :
    run false l s = some (expectRun ref l) := by
  induction l generalizing ref s with
  | nil => rfl
  | cons w l ih =>
    have hw := hl w (by simp)
    have hget : ref.getD w ∈ ref.toList ++ w :: l := by cases ref <;> simp
    obtain ⟨s', h1, h2⟩ := window_ok hs hw hr (hres _ hget w (by simp))
    have h3 := ih h2 (fun x hx => hl x (by simp [hx]))
      (by
        intro r h
        split at h
        · rw [Option.some.injEq] at h
          subst h
          cases ref with
          | none => exact hw
          | some r => exact hr r rfl
        · cases h)
      (by
        intro r h x hx
        refine hres r ?_ x (by simp [hx])
        rw [List.mem_append] at h
        rcases h with h | h
        · split at h
          · simp only [Option.toList_some, List.mem_singleton] at h
            subst h
            exact hget
          · simp at h
        · simp [h])
    simp only [run, bind, Option.bind, h1, h3, expectRun]

/-- **C105, times.** Whatever the times of the written data in each iteration of each window, the quasi-Newton methods sample and store all data at the same
relative times in all windows, namely those of the first window with more than one iteration. -/
theorem C105_times {l : List Window} (hl : ∀ w ∈ l, Valid w) (hres : ∀ r ∈ l, ∀ w ∈ l, Resolves r w) :
    run false l State.init = some (expectRun none l) :=
  run_ok ⟨rfl, rfl⟩ hl (by simp) (by simpa using hres)

/-- The reduced grid: the end of each window only. -/
theorem C105_reduced {l : List Window} (hl : ∀ w ∈ l, Valid w) (hlong : ∀ w ∈ l, w.start + tol < w.stop) :
    run true l State.init = some (l.map fun w => List.replicate (w.repeated.length + 1) [w.stop]) := by
  have key : ∀ s : State, s.firstIteration = true → (s.firstWindow = true ∨ ∃ x, s.grid = some [x]) →
      run true l s = some (l.map fun w => List.replicate (w.repeated.length + 1) [w.stop]) := by
    induction l with
    | nil => intro s _ _; rfl
    | cons w l ih =>
      rintro ⟨fw, fi, grid⟩ h1 h2
      change fi = true at h1
      subst h1
      have hw := hl w (by simp)
      have hp : (⟨fw, true, grid⟩ : State).prepare true (firstTimes w) = some [w.stop] := by
        unfold State.prepare
        cases fw with
        | true =>
          simp only [Bool.and_self, if_true, create_times hw.first, bind, Option.bind]
          exact moveGrid_single hw.first
        | false =>
          rcases h2 with h2 | ⟨x, h2⟩
          · cases h2
          · change grid = _ at h2
            subst h2
            simp only [Bool.false_and, Bool.false_eq_true, if_false, if_true, bind, Option.bind]
            exact moveGrid_single hw.first
      have h3 := ih (fun x hx => hl x (by simp [hx])) (fun x hx => hlong x (by simp [hx]))
        ⟨fw && w.repeated.isEmpty, true, some [w.stop]⟩ rfl (.inr ⟨_, rfl⟩)
      have hg : gridAfter w.start [w.stop] = [w.stop] := by
        have := hlong w (by simp)
        unfold gridAfter
        rw [List.filter_eq_self.2]
        intro t ht
        rw [List.mem_singleton] at ht
        subst ht
        rw [decide_eq_true_eq]; unfold greater; linarith
      simp only [run, bind, Option.bind, window_of_prepare hp, h3, hg, List.map_cons]
  exact key _ rfl (.inl rfl)

/-- The times are increasing, inside the window, and the last one is its end. -/
theorem C105_inside {ref w : Window} (hr : Valid ref) (hw : w.start < w.stop) :
    (expected ref w).Pairwise (· < ·) ∧ (∀ t ∈ expected ref w, w.start < t ∧ t ≤ w.stop) ∧ (expected ref w).getLast? = some w.stop := by
  have e : expected ref w = (firstTimes ref).tail.map (transform ref.start ref.stop w.start w.stop) := by
    unfold expected
    exact List.map_congr_left fun t _ => by unfold transform; ring
  obtain ⟨m, hm⟩ := hr.first.shape
  have ht := hr.first.transform hw
  have hinc := ht.inc
  rw [hm, List.map_cons, transform_start, List.pairwise_cons] at hinc
  rw [e, hm, List.tail_cons]
  have hlast : (m ++ [ref.stop]).map (transform ref.start ref.stop w.start w.stop) =
      m.map (transform ref.start ref.stop w.start w.stop) ++ [w.stop] := by
    rw [List.map_append, List.map_singleton, transform_stop _ _ hr.first.lt]
  refine ⟨hinc.2, fun t h => ⟨hinc.1 t h, ?_⟩, by rw [hlast]; simp⟩
  rw [hlast] at h hinc
  rcases List.mem_append.1 h with h | h
  · exact ((List.pairwise_append.1 hinc.2).2.2 t h w.stop (by simp)).le
  · exact (List.mem_singleton.1 h).le

/-- In the first of the windows with more than one iteration, and in a window whose steps have the same relative positions, these are the times of the data
itself. -/
theorem C105_same_steps {ref w : Window} (hw : w.start < w.stop) {times : List ℚ}
    (h : times.tail.map (fun t => (t - w.start) / (w.stop - w.start)) =
      (firstTimes ref).tail.map fun t => (t - ref.start) / (ref.stop - ref.start)) :
    expected ref w = times.tail := by
  have hd : w.stop - w.start ≠ 0 := by intro h; linarith
  unfold expected
  have e : (firstTimes ref).tail.map (fun t => w.start + (t - ref.start) / (ref.stop - ref.start) * (w.stop - w.start)) =
      ((firstTimes ref).tail.map fun t => (t - ref.start) / (ref.stop - ref.start)).map fun x => w.start + x * (w.stop - w.start) := by
    rw [List.map_map]; rfl
  rw [e, ← h, List.map_map]
  conv_rhs => rw [← List.map_id times.tail]
  refine List.map_congr_left fun t _ => ?_
  simp only [Function.comp, id]
  field_simp
  ring

theorem expectRun_some {r : Window} (l : List Window) :
    expectRun (some r) l = l.map fun w => List.replicate (w.repeated.length + 1) (expected r w) := by
  induction l with
  | nil => rfl
  | cons w l ih => simp [expectRun, ih]

/-- **C105, number of unknowns.** From the first window with more than one iteration on, the same number of times is used in all iterations of all windows,
whatever the numbers of steps. -/
theorem C105_constant {pre post : List Window} {w : Window} (hw : w.repeated ≠ []) (hpre : ∀ x ∈ pre, x.repeated = [])
    (hl : ∀ x ∈ pre ++ w :: post, Valid x) (hres : ∀ r ∈ pre ++ w :: post, ∀ x ∈ pre ++ w :: post, Resolves r x) :
    ∃ r, run false (pre ++ w :: post) State.init = some r ∧
      ∀ times ∈ (r.drop pre.length).flatten, times.length + 1 = (firstTimes w).length := by
  refine ⟨_, C105_times hl hres, ?_⟩
  have key : (expectRun none (pre ++ w :: post)).drop pre.length =
      (w :: post).map fun x => List.replicate (x.repeated.length + 1) (expected w x) := by
    clear hl hres
    induction pre with
    | nil =>
      have : w.repeated.isEmpty = false := by simpa using hw
      simp [expectRun, this, expectRun_some]
    | cons a pre ih =>
      simp only [List.cons_append, expectRun, hpre a (by simp), List.isEmpty_nil, Option.isSome_none, Bool.not_true, Bool.or_self,
        Bool.false_eq_true, if_false, List.length_cons, List.drop_succ_cons]
      exact ih fun x hx => hpre x (by simp [hx])
  rw [key]
  intro times ht
  obtain ⟨b, hb, ht⟩ := List.mem_flatten.1 ht
  obtain ⟨x, -, rfl⟩ := List.mem_map.1 hb
  rw [List.eq_of_mem_replicate ht]
  unfold expected
  obtain ⟨m, hm⟩ := (hl w (by simp)).first.shape
  rw [hm]
  simp

end Verif.TimeGrid
