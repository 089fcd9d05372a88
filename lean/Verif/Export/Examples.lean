import Verif.Export.Props
import Verif.Api.DataPath

/-!
# Examples for exports (C117), and what does not hold
-/

set_option autoImplicit false

namespace Verif.Export.Examples

def name (s : String) : Name := s.toList

/-- Every second time window as VTU, updating the series; every iteration as CSV. Three ranks. -/
def vtu : Exporter := ⟨['P'], ['o', 'u', 't'], ['M'], .vtu, false, 2, true, 0, 3⟩
def csv : Exporter := ⟨['P'], ['o', 'u', 't'], ['M'], .csv, true, 1, false, 0, 3⟩

/-- Rank 1 has no vertices. The state has a number. -/
def state (n : ℕ) : Instant ℕ := ⟨fun r => 10 * n + r, [2, 2, 5]⟩

def counts : ℕ → ℕ := fun r => if r = 0 then 2 else if r = 2 then 3 else 0

theorem distributed (n : ℕ) : Distributed 3 counts (state n) :=
  ⟨rfl, by show ∀ r < 3, [2, 2, 5][r]? = _; decide⟩

/-- Window 1 takes two iterations, the first of them with a subcycling step; windows 2 to 4 one. -/
def calls : List (Advance ℕ) :=
  [⟨false, [false], true, 1 / 2, state 1⟩, ⟨true, [false], true, 0, state 2⟩,
   ⟨true, [true], true, 1, state 3⟩, ⟨true, [true], true, 2, state 4⟩,
   ⟨true, [true], true, 3, state 5⟩, ⟨true, [true], false, 4, state 6⟩]

theorem single : Single calls := by unfold Single; decide

/-- A possible order: one rank after the other. -/
def log : List ((ℕ × ℕ) × Write ℕ) :=
  [(0, 0), (0, 2), (0, 1), (1, 2), (1, 1), (1, 0)].flatMap fun l =>
    ((([vtu, csv].getD l.1 vtu).on l.2).writes 1 (state 0) calls).map fun w => (l, w)

theorem filter_tag (l m : ℕ × ℕ) (ws : List (Write ℕ)) :
    ((ws.map fun w => (l, w)).filter fun w => w.1 = m) = if l = m then ws.map fun w => (l, w) else [] := by
  split_ifs with h
  · exact List.filter_eq_self.2 (by simp [h])
  · exact List.filter_eq_nil_iff.2 (by simp [h])

theorem exports : Exports [vtu, csv] 1 3 (state 0) calls log where
  log := by
    refine ⟨?_, by decide, ?_⟩
    · intro w hw
      simp only [log, List.mem_flatMap, List.mem_map] at hw
      obtain ⟨l, hl, v, -, rfl⟩ := hw
      have key : ∀ l ∈ [((0, 0) : ℕ × ℕ), (0, 2), (0, 1), (1, 2), (1, 1), (1, 0)],
          ∃ h : l.1 < [vtu, csv].length, l.2 < [vtu, csv][l.1].size := by decide
      exact key l hl
    · intro i hi r hr
      have hi2 : i < 2 := hi
      have hr : r < 3 := by
        have h3 : ∀ j (hj : j < 2), ([vtu, csv][j]'hj).size = 3 := by decide
        rw [h3 i hi2] at hr; exact hr
      have hi' : i = 0 ∨ i = 1 := by omega
      have hr' : r = 0 ∨ r = 1 ∨ r = 2 := by omega
      clear hr
      rcases hi' with rfl | rfl <;> rcases hr' with rfl | rfl | rfl <;>
        simp [log, List.flatMap_cons, List.filter_append, filter_tag]
  apart := C117_apart _ (by decide) (by decide) (by decide)
  accepted := by unfold Accepted; decide

theorem vtu_exported : exported vtu (state 0) calls = [(0, 0, state 0), (2, 2, state 4), (4, 4, state 6)] := rfl

theorem csv_exported : exported csv (state 0) calls =
    [(0, 0, state 0), (2, 0, state 2), (3, 1, state 3), (4, 2, state 4), (5, 3, state 5), (6, 4, state 6)] := rfl

/-- The hypotheses of `C117_files`: the end of window 2 as VTU, in pieces of ranks 0 and 2. -/
example : Stored vtu 2 counts (state 4) (Files.after (fun _ => none) (log.map (·.2))) :=
  C117_files (t := 2) exports _ (by simp) (.inr ⟨rfl, single⟩) (by simp [vtu_exported]) (distributed 4)

/-- The state after the third call as CSV. -/
example : Stored csv 3 counts (state 3) (Files.after (fun _ => none) (log.map (·.2))) :=
  C117_files (t := 1) exports _ (by simp) (.inl rfl) (by simp [csv_exported]) (distributed 3)

/-- The hypotheses of `C117_series`. -/
example : Files.after (fun _ => none) (log.map (·.2)) vtu.seriesPath = some (.series
    [("M-P.init.pvtu".toList, 0), ("M-P.dt2.pvtu".toList, 2), ("M-P.dt4.pvtu".toList, 4)]) :=
  (C117_series exports _ (by simp) single rfl (by decide) (by decide) (.inl rfl)).1.trans
    (by decide +kernel)

/-- The hypotheses of `C117_nothing_else`. -/
example : Files.after (fun _ => none) (log.map (·.2)) (name "out", name "M-P.dt2_0.vtu") ≠
    (fun _ => none : Files ℕ) (name "out", name "M-P.dt2_0.vtu") := by decide +kernel

/-- The hypotheses of `C117_disabled` and `C117_iteration_series`. -/
example : ∃ e : Exporter, e.everyIteration = false ∧ e.freq < 1 := ⟨⟨[], [], [], .vtu, false, 0, true, 0, 1⟩, rfl, by decide⟩
example : Accepted ⟨['P'], [], ['M'], .vtu, true, 1, true, 0, 1⟩ := by unfold Accepted; decide

/-! ### Several coupling schemes -/

/-- A participant in two explicit coupling schemes with window sizes 1 and 2. -/
def twoSchemes : List (Advance ℕ) :=
  [⟨true, [true, false], true, 1, state 1⟩, ⟨true, [true, true], true, 2, state 2⟩,
   ⟨true, [true, false], true, 3, state 3⟩, ⟨true, [true, true], false, 4, state 4⟩]

def serial : Exporter := ⟨['P'], [], ['M'], .vtu, false, 1, false, 0, 1⟩

/-- The claim for exports every n time windows needs a single coupling scheme: with schemes of
different window sizes, the exported states are numbered by the scheme with the fewest windows. The
file of the initial state is overwritten at time 1, later states overwrite each other, and the series
lists the same files at different times. -/
theorem C117_compositional_overwrites :
    Files.after (fun _ => none) (serial.writes 2 (state 0) twoSchemes) (serial.serialPath 0) =
      some (.snapshot ((state 1).part 0)) ∧
    Files.after (fun _ => none) (serial.writes 2 (state 0) twoSchemes) serial.seriesPath =
      some (.series [("M-P.init.vtu".toList, 0), ("M-P.init.vtu".toList, 1), ("M-P.dt1.vtu".toList, 2),
        ("M-P.dt1.vtu".toList, 3), ("M-P.dt2.vtu".toList, 4)]) := by
  decide +kernel

/-! ### File names -/

/-- Two participants that export to the same directory can overwrite each other's files. -/
theorem C117_names_collide :
    let a : Exporter := ⟨name "C", name "out", name "A-B", .vtu, false, 1, false, 0, 1⟩
    let b : Exporter := ⟨name "B-C", name "out", name "A", .vtu, false, 1, false, 0, 1⟩
    (a.participant ≠ b.participant ∧ a.mesh ≠ b.mesh) ∧ ∀ k, a.serialPath k = b.serialPath k := by
  refine ⟨by decide, fun k => ?_⟩
  show ((_, _) : Path) = (_, _)
  congr 1

/-! ### What is exported after an iteration -/

open Verif.DataPath in
/-- Exports of written data after an iteration that is repeated do not show that iteration: the
samples written in it are dropped before the export (ParticipantImpl.cpp:513 before 542). All that is
left is the beginning of the time window. -/
theorem C117_iteration_written_data {V : Type} (c : Writer V) (start next : ℚ) (s : WriterState V) :
    ∀ x ∈ (c.finish start next false s).prov, x.1 ≤ start + tol := by
  intro x hx
  simp only [Writer.finish, Bool.false_eq_true, if_false, trimAfter, List.mem_filter,
    decide_eq_true_eq, greater, not_lt] at hx
  linarith [hx.2]

open Verif.DataPath in
/-- The value 5 is written in the first iteration of the window from 0 to 1, but the export after it
shows the initial value 7. -/
example : (do
    let s ← Writer.init (⟨none, false, false⟩ : Writer ℚ) 7
    let r ← Writer.iterate ⟨none, false, false⟩ 0 [(1, 5)] none s
    pure (Writer.finish (⟨none, false, false⟩ : Writer ℚ) 0 1 false r.1).prov.getLast?) =
      (.ok (some (0, 7)) : Except Err _) := by decide +kernel

end Verif.Export.Examples
