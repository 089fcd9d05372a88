import Verif.Api.DataPathProps
import Verif.Waveform.Props
import Verif.Time.TimeHandler

/-!
# Values that are read after a complete window, and truncated windows (C104)
-/

set_option autoImplicit false

namespace Verif.DataPath

variable {V : Type}

theorem expectBehind_append (w : Writer V) (p : ℚ × V) (l k : List (Iter V)) : ∃ p' e, expectBehind w p (l ++ k) = e ++ expectBehind w p' k ∧ e.length = l.length := by
  induction l generalizing p with
  | nil => exact ⟨p, [], rfl, rfl⟩
  | cons i l ih =>
    rw [List.cons_append, expectBehind]
    split
    · obtain ⟨p', e, h1, h2⟩ := ih ((arrived w i).getLastD p)
      exact ⟨p', _ :: e, by rw [h1]; rfl, by simp [h2]⟩
    · obtain ⟨p', e, h1, h2⟩ := ih p
      exact ⟨p', _ :: e, by rw [h1]; rfl, by simp [h2]⟩

theorem expectAhead_append (w : Writer V) (p : ℚ × V) (l k : List (Iter V)) : ∃ p' e, expectAhead w p (l ++ k) = e ++ expectAhead w p' k ∧ e.length = l.length := by
  induction l generalizing p with
  | nil => exact ⟨p, [], rfl, rfl⟩
  | cons i l ih =>
    rw [List.cons_append, expectAhead]
    obtain ⟨p', e, h1, h2⟩ := ih (if i.complete then (transferred w i).getLastD p else p)
    exact ⟨p', _ :: e, by rw [h1]; rfl, by simp [h2]⟩

theorem forall₂_at {α β : Type} {R : α → β → Prop} {e e' : List α} {a : α} {obs : List β} (h : List.Forall₂ R (e ++ a :: e') obs) :
    ∃ b, obs[e.length]? = some b ∧ R a b := by
  induction e generalizing obs with
  | nil =>
    cases h with
    | cons h1 h2 => exact ⟨_, rfl, h1⟩
  | cons x e ih =>
    cases h with
    | cons h1 h2 =>
      obtain ⟨b, hb, hr⟩ := ih h2
      exact ⟨b, by simpa using hb, hr⟩

theorem schedule_at {b s : Bool} {t T : ℚ} {l k : List (Iter V)} {i : Iter V} (h : Schedule b s t T (l ++ i :: k)) :
    (∃ t', Covers t' i.now i.steps) ∧ (i.complete = true → i.accW = none ∧ i.accR = none) := by
  induction l generalizing t T with
  | nil =>
    obtain ⟨-, h1, -, -, h2, -⟩ := h
    exact ⟨⟨_, h1⟩, fun hc => ⟨(h2 hc).1, (h2 hc).2.1⟩⟩
  | cons a l ih =>
    obtain ⟨-, -, -, -, h1, h2⟩ := h
    cases hc : a.complete with
    | true => exact ih (h1 hc).2.2.2
    | false => exact ih (h2 hc).2.2

/-- After a complete window the only sample that can be read is the last value that was written in the window, mapped by the writer and by the reader. -/
theorem C104_window_end (w : Writer V) (r : Reader V) (sends : Bool) (v : V) (l k : List (Iter V)) (i : Iter V) (ini : Samples V) (x : V)
    (hk : w.substeps = true → w.keepSteps = true) (hsub : r.substeps = w.substeps) (hsec : r.second = false)
    (hsch : Schedule r.implicit w.substeps 0 0 (l ++ i :: k)) (hz : sends = false → ∀ p, Shows w.map (0, v) p → p.2 = r.zero)
    (hc : i.complete = true) (hs : i.steps = ini ++ [(i.now, x)]) :
    ∃ obs y, runBehind w r sends v (l ++ i :: k) = .ok obs ∧ obs[l.length + 1]? = some [y] ∧ Shows r.map (mapped w.map (i.now, x)) y := by
  obtain ⟨p, obs, -, h2, h3⟩ := C104_behind w r sends v _ hk hsub hsec hsch hz
  obtain ⟨p', e, he, hlen⟩ := expectBehind_append w p l (i :: k)
  obtain ⟨ha, hb⟩ := (schedule_at hsch).2 hc
  obtain ⟨m, hm⟩ := transferred_last (w := w) hs ha
  have harr : (arrived w i).getLastD p' = mapped w.map (i.now, x) := by
    unfold arrived
    rw [hb, Option.getD_none, hm]
    simp
  have hexp : expectBehind w p' (i :: k) = [mapped w.map (i.now, x)] :: expectBehind w (mapped w.map (i.now, x)) k := by
    rw [expectBehind, if_pos hc, harr]
  rw [he, hexp, ← List.cons_append] at h3
  obtain ⟨b, hb1, hb2⟩ := forall₂_at h3
  obtain ⟨y, b', rfl, hy, hn⟩ := forall₂_cons_left hb2
  cases hn
  exact ⟨obs, y, h2, by rw [← hlen]; exact hb1, hy⟩

/-- In the first iteration of a window the second participant of a serial scheme reads, at the start, the last value written in the window before, and the samples
that the first participant has written in this iteration. -/
theorem C104_next_window_partial (w : Writer V) (r : Reader V) (sends : Bool) (v : V) (stamp : ℚ) (i0 : Iter V) (l k : List (Iter V)) (i j : Iter V) (all : List (Iter V))
    (hall : i0 :: all = l ++ i :: j :: k) (ini : Samples V) (x : V) (hk : w.substeps = true → w.keepSteps = true) (hsub : r.substeps = w.substeps)
    (hsec : r.second = true) (hsch : Schedule r.implicit w.substeps 0 0 (i0 :: all)) (hstamp : stamp = i0.now) (hst : Stamped i0 all)
    (hz : sends = false → ∀ p, Shows w.map (0, v) p → p.2 = r.zero) (hc : i.complete = true) (hs : i.steps = ini ++ [(i.now, x)])
    (ha : j.accW = none) :
    ∃ obs y ys, runAhead w r sends v stamp i0 all = .ok obs ∧ obs[l.length + 1]? = some (y :: ys) ∧ Shows r.map (mapped w.map (i.now, x)) y ∧
      List.Forall₂ (Shows r.map) (exchanged w.substeps j.now (j.steps.map (mapped w.map))) ys := by
  obtain ⟨p, obs, -, h2, h3⟩ := C104_ahead_partial w r sends v stamp i0 all hk hsub hsec hsch hstamp hst hz
  rw [hall] at h3 hsch
  obtain ⟨p', e, he, hlen⟩ := expectAhead_append w p l (i :: j :: k)
  obtain ⟨hw, -⟩ := (schedule_at hsch).2 hc
  obtain ⟨m, hm⟩ := transferred_last (w := w) hs hw
  have hl : (transferred w i).getLastD p' = mapped w.map (i.now, x) := by rw [hm]; simp
  have hexp : ∃ a c, expectAhead w p' (i :: j :: k) = a :: (mapped w.map (i.now, x) :: transferred w j) :: c := by
    refine ⟨p' :: transferred w i, expectAhead w (if j.complete then (transferred w j).getLastD (mapped w.map (i.now, x)) else mapped w.map (i.now, x)) k, ?_⟩
    rw [expectAhead, expectAhead, if_pos hc, hl]
  obtain ⟨a, c, hac⟩ := hexp
  rw [he, hac, show e ++ a :: (mapped w.map (i.now, x) :: transferred w j) :: c = (e ++ [a]) ++ (mapped w.map (i.now, x) :: transferred w j) :: c by simp] at h3
  obtain ⟨b, hb1, hb2⟩ := forall₂_at h3
  obtain ⟨y, ys, rfl, hy, hn⟩ := forall₂_cons_left hb2
  refine ⟨obs, y, ys, h2, ?_, hy, ?_⟩
  · rw [List.length_append, hlen] at hb1
    exact hb1
  · unfold transferred at hn
    rw [ha] at hn
    exact hn

/-! ## Truncated windows -/

/-- The time stamped by `receiveDataForWindowEnd` at the end of a window, BaseCouplingScheme.cpp:205-217. -/
def stampOf (h : TimeHandler) (size : ℚ) : ℚ := (h.progressBy size).time

/-- The end of the window after it, `getWindowEndTime()` after `completeTimeWindow`. -/
def nextEnd (h : TimeHandler) (size : ℚ) : ℚ := (h.completeTimeWindow size).time + (h.completeTimeWindow size).untilWindowEnd size

/-- The stamp is the end of the next window exactly if the maximal time does not cut that window short. -/
theorem C104_stamp (start size max : ℚ) :
    stampOf ⟨some max, start, size⟩ size = nextEnd ⟨some max, start, size⟩ size ↔ start + 2 * size ≤ max := by
  have he : equals size size := equals_refl size
  simp only [stampOf, nextEnd, TimeHandler.progressBy, TimeHandler.time, TimeHandler.completeTimeWindow, he, if_true, TimeHandler.untilWindowEnd,
    TimeHandler.untilProgress, TimeHandler.untilEnd, TimeHandler.untilTime]
  constructor
  · intro h
    by_contra hc
    rw [min_eq_right (by linarith)] at h
    linarith
  · intro h
    rw [min_eq_left (by linarith)]
    linarith

/-- Without maximal time the stamp is always the end of the next window. -/
theorem C104_stamp_unlimited (start size : ℚ) : stampOf ⟨none, start, size⟩ size = nextEnd ⟨none, start, size⟩ size := by
  have he : equals size size := equals_refl size
  simp only [stampOf, nextEnd, TimeHandler.progressBy, TimeHandler.time, TimeHandler.completeTimeWindow, he, if_true, TimeHandler.untilWindowEnd,
    TimeHandler.untilProgress]
  ring

/-- A writer without mapping and without substeps. -/
def plainWriter : Writer ℚ := ⟨none, false, false⟩

/-- The second participant of a serial-explicit or serial-implicit scheme without mapping and without substeps. -/
def plainSecond (implicit : Bool) : Reader ℚ := ⟨none, implicit, true, false, 0⟩

/-- The first window from 0 to 1. At its end the stamp for the next window is 2. -/
def window1 : Iter ℚ := ⟨0, 1, 2, 1, true, [(1, 10)], none, none⟩

/-- The second window starts at 1 and is cut short by the maximal time 3/2. -/
def window2 (complete : Bool) : Iter ℚ := ⟨1, 3 / 2, 5 / 2, 3 / 2, complete, [(3 / 2, 20)], none, none⟩

/-- The times of these windows are those of the time handler. -/
example : stampOf ⟨some (3 / 2), 0, 1⟩ 1 = window1.stamp ∧ nextEnd ⟨some (3 / 2), 0, 1⟩ 1 = (window2 true).now := by
  constructor <;> norm_num [stampOf, nextEnd, window1, window2, TimeHandler.progressBy, TimeHandler.time, TimeHandler.completeTimeWindow, equals_refl,
    TimeHandler.untilWindowEnd, TimeHandler.untilProgress, TimeHandler.untilEnd, TimeHandler.untilTime]

theorem truncated_run : runAhead plainWriter (plainSecond false) false 0 1 window1 [window2 true] = .ok [[(0, 0), (1, 10)], [(1, 10), (2, 20)]] := by
  decide +kernel

/-- **Wrong value in a truncated last window.** The first participant writes 10 at the end of the first window and 20 at the end of the last window, which the
maximal time cuts short. The second participant, reading at the end of that window with the default linear interpolation, gets 15. -/
theorem C104_truncated_wrong {q : Bspline.Solver} (hq : q.Exact) {w : Waveform} (h : Waveform.ReachableNoReset q w) (hd : w.degree = 1)
    (hs : .ok [[(0, 0), (1, 10)], w.samples] = runAhead plainWriter (plainSecond false) false 0 1 window1 [window2 true]) :
    w.read q (window2 true).now = some 15 := by
  rw [truncated_run] at hs
  have hs : w.samples = [(1, 10), (2, 20)] := by
    injection hs with hs
    injection hs with _ hs
    injection hs with hs _
  have hu : w.usedDegree = 1 := by
    unfold Waveform.usedDegree
    rw [hs, hd]
    rfl
  have := Waveform.C26_linear hq h hu (k := 0) (t := 3 / 2) (by rw [hs]; simp) (by simp only [hs]; norm_num [tol]) (by simp only [hs]; norm_num [tol])
  simp only [hs] at this
  change w.read q (3 / 2) = some 15
  rw [this]
  norm_num

/-- The storage of the example is reachable. -/
example (q : Bspline.Solver) : ∃ w, Waveform.ReachableNoReset q w ∧ w.degree = 1 ∧
    .ok [[(0, 0), (1, 10)], w.samples] = runAhead plainWriter (plainSecond false) false 0 1 window1 [window2 true] := by
  refine ⟨⟨[(1, 10), (2, 20)], 1, none⟩, ⟨1, [.setSample 1 10, .setSample 2 20], ?_, ?_⟩, rfl, truncated_run.symm⟩
  · intro op hop
    simp only [List.mem_cons, List.not_mem_nil, or_false] at hop
    rcases hop with rfl | rfl <;> simp [Waveform.Op.InPlace]
  · simp only [Waveform.applyAll, List.foldlM_cons, List.foldlM_nil, Waveform.apply, Waveform.empty, Waveform.setSample]
    norm_num [equals, tol, smallerEquals, smaller, Waveform.maxStoredTime, bind, pure]

/-- **Failure in a truncated last window.** With an implicit scheme the second iteration of that window violates an assertion of the storage. -/
theorem C104_truncated_fails : runAhead plainWriter (plainSecond true) false 0 1 window1 [window2 false, window2 true] = .error .assert := by
  decide +kernel

end Verif.DataPath
