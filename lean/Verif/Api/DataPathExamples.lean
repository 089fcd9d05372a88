import Verif.Api.DataPathReads

/-!
# Examples for the path of coupling data (C104)
-/

set_option autoImplicit false

namespace Verif.DataPath

/-- A mapping that multiplies by a factor. -/
def times (f : ℚ) : SampleMap ℚ := ⟨fun v => f * v, fun v => decide (|v| < tol), 0⟩

/-- A writer with a mapping and substeps. -/
def doubling : Writer ℚ := ⟨some (times 2), true, true⟩

/-- A participant of a parallel-implicit scheme with a read mapping. -/
def tripling : Reader ℚ := ⟨some (times 3), true, false, true, 0⟩

/-- The first window is repeated once, with acceleration by the reader; the second is not. The writer changes its step size. -/
def twoWindows : List (Iter ℚ) :=
  [⟨0, 1, 2, 1, false, [(1 / 2, 1), (1, 2)], none, some [(1 / 2, 5), (1, 6)]⟩,
   ⟨0, 1, 2, 1, true, [(1, 3)], none, none⟩,
   ⟨1, 2, 3, 2, true, [(3 / 2, 4), (2, 5)], none, none⟩]

theorem covers_pair {a b t now : ℚ} (x y : ℚ) (h1 : t + 2 * tol < a) (h2 : a + 2 * tol < b) (hb : b = now) : Covers t now [(a, x), (b, y)] := by
  have := tol_pos
  subst hb
  refine ⟨?_, ?_, [(a, x)], y, rfl⟩
  · intro c hc
    simp only [List.mem_cons, List.not_mem_nil, or_false] at hc
    rcases hc with rfl | rfl
    · exact h1
    · change t + 2 * tol < b
      linarith
  · exact Gap.cons_iff.2 ⟨by simpa using h2, List.pairwise_singleton _ _⟩

theorem twoWindows_schedule : Schedule true true 0 0 twoWindows := by
  refine ⟨rfl, covers_pair _ _ (by norm_num [tol]) (by norm_num [tol]) rfl, by simp, ?_, by simp, fun _ => ⟨rfl, ?_, ?_⟩⟩
  · intro n hn
    cases hn
    exact ⟨covers_pair _ _ (by norm_num [tol]) (by norm_num [tol]) rfl, .inl rfl⟩
  · intro j hj
    cases hj
    rfl
  · refine ⟨rfl, covers_single (by norm_num [tol]) _, by simp, by simp, fun _ => ⟨rfl, rfl, by norm_num [tol], ?_⟩, by simp⟩
    exact ⟨rfl, covers_pair _ _ (by norm_num [tol]) (by norm_num [tol]) rfl, by simp, by simp, fun _ => ⟨rfl, rfl, by norm_num [tol], trivial⟩, by simp⟩

/-- The hypotheses of `C104_behind`, with initial data. -/
example : ∃ p obs, Shows doubling.map (0, 7) p ∧ runBehind doubling tripling true 7 twoWindows = .ok obs ∧
    List.Forall₂ (List.Forall₂ (Shows tripling.map)) ([p] :: expectBehind doubling p twoWindows) obs :=
  C104_behind doubling tripling true 7 twoWindows (fun _ => rfl) rfl rfl twoWindows_schedule (by simp)

/-- The samples that can be read in this run. -/
example : runBehind doubling tripling true 7 twoWindows =
    .ok [[(0, 42)], [(0, 42), (1 / 2, 15), (1, 18)], [(1, 18)], [(2, 30)]] := by decide +kernel

/-- The second participant of a serial-implicit scheme with a read mapping. -/
def triplingSecond : Reader ℚ := ⟨some (times 3), true, true, true, 0⟩

/-- The same windows; there is no acceleration of the data of the first participant. -/
def twoWindowsSerial : List (Iter ℚ) := twoWindows.map fun i => { i with accR := none }

theorem twoWindowsSerial_schedule : Schedule true true 0 0 twoWindowsSerial := by
  refine ⟨rfl, covers_pair _ _ (by norm_num [tol]) (by norm_num [tol]) rfl, by simp, by simp, by simp, fun _ => ⟨rfl, ?_, ?_⟩⟩
  · intro j hj
    cases hj
    rfl
  · refine ⟨rfl, covers_single (by norm_num [tol]) _, by simp, by simp, fun _ => ⟨rfl, rfl, by norm_num [tol], ?_⟩, by simp⟩
    exact ⟨rfl, covers_pair _ _ (by norm_num [tol]) (by norm_num [tol]) rfl, by simp, by simp, fun _ => ⟨rfl, rfl, by norm_num [tol], trivial⟩, by simp⟩

/-- The hypotheses of `C104_ahead_partial`. -/
example : ∃ p obs, Shows doubling.map (0, 7) p ∧ runAhead doubling triplingSecond true 7 1 (twoWindowsSerial.headD window1) twoWindowsSerial.tail = .ok obs ∧
    List.Forall₂ (List.Forall₂ (Shows triplingSecond.map)) (expectAhead doubling p twoWindowsSerial) obs :=
  C104_ahead_partial doubling triplingSecond true 7 1 (twoWindowsSerial.headD window1) twoWindowsSerial.tail (fun _ => rfl) rfl rfl twoWindowsSerial_schedule rfl
    ⟨by simp [twoWindowsSerial, twoWindows], fun _ => rfl, trivial⟩ (by simp)

example : runAhead doubling triplingSecond true 7 1 (twoWindowsSerial.headD window1) twoWindowsSerial.tail =
    .ok [[(0, 42), (1 / 2, 6), (1, 12)], [(0, 42), (1, 18)], [(1, 18), (3 / 2, 24), (2, 30)]] := by decide +kernel

/-- The hypotheses of `C104_window_end`. -/
example : ∃ obs y, runBehind doubling tripling true 7 twoWindows = .ok obs ∧ obs[2]? = some [y] ∧ Shows tripling.map (mapped doubling.map (1, 3)) y :=
  C104_window_end doubling tripling true 7 (twoWindows.take 1) (twoWindows.drop 2) ⟨0, 1, 2, 1, true, [(1, 3)], none, none⟩ [] 3 (fun _ => rfl) rfl rfl
    twoWindows_schedule (by simp) rfl rfl

/-- The hypotheses of `C104_next_window_partial`. -/
example : ∃ obs y ys, runAhead doubling triplingSecond true 7 1 (twoWindowsSerial.headD window1) twoWindowsSerial.tail = .ok obs ∧ obs[2]? = some (y :: ys) ∧
    Shows triplingSecond.map (mapped doubling.map (1, 3)) y ∧
    List.Forall₂ (Shows triplingSecond.map) (exchanged true 2 ([(3 / 2, 4), (2, 5)].map (mapped doubling.map))) ys :=
  C104_next_window_partial doubling triplingSecond true 7 1 (twoWindowsSerial.headD window1) (twoWindowsSerial.take 1) []
    ⟨0, 1, 2, 1, true, [(1, 3)], none, none⟩ ⟨1, 2, 3, 2, true, [(3 / 2, 4), (2, 5)], none, none⟩ twoWindowsSerial.tail rfl [] 3 (fun _ => rfl) rfl rfl
    twoWindowsSerial_schedule rfl ⟨by simp [twoWindowsSerial, twoWindows], fun _ => rfl, trivial⟩ (by simp) rfl rfl rfl

/-! ## Initial data that are not configured -/

/-- A participant without mapping in a parallel-implicit scheme with substeps. -/
def plainImplicit : Reader ℚ := ⟨none, true, false, true, 0⟩

/-- The same with a read mapping that changes nothing. -/
def mappedImplicit : Reader ℚ := ⟨some (times 1), true, false, true, 0⟩

/-- One window with a repetition; the writer writes 2 in both iterations. -/
def oneWindow : List (Iter ℚ) := [⟨0, 1, 2, 1, false, [(1, 2)], none, none⟩, ⟨0, 1, 2, 1, true, [(1, 2)], none, none⟩]

/-- **The window start changes between iterations.** The writer writes 7 before `initialize`, although no initial data are configured (`sends = false`). Without read mapping the
reader sees 0 at the window start in the first iteration and 7 in the second iteration of the same window. With a read mapping it sees 0 in both. So the hypothesis on
initial data of `C104_behind` is needed. -/
theorem C104_unannounced_initial_data :
    runBehind ⟨none, true, true⟩ plainImplicit false 7 oneWindow = .ok [[(0, 0)], [(0, 7), (1, 2)], [(1, 2)]] ∧
    runBehind ⟨none, true, true⟩ mappedImplicit false 7 oneWindow = .ok [[(0, 0)], [(0, 0), (1, 2)], [(1, 2)]] := by
  constructor <;> decide +kernel

end Verif.DataPath
