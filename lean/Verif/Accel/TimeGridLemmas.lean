import Verif.Accel.TimeGrid

/-!
# Lemmas on time grids (C105)
-/

set_option autoImplicit false

namespace Verif.TimeGrid

open DataPath

/-- The times of the samples of a data in an iteration of a window: increasing from the start of the window to its end. -/
structure Times (start stop : ℚ) (l : List ℚ) : Prop where
  inc : l.Pairwise (· < ·)
  head : l.head? = some start
  last : l.getLast? = some stop
  lt : start < stop

theorem Times.shape {start stop : ℚ} {l : List ℚ} (h : Times start stop l) : ∃ m, l = start :: (m ++ [stop]) := by
  obtain ⟨a, t, rfl⟩ : ∃ a t, l = a :: t := by
    cases l with
    | nil => have := h.head; simp at this
    | cons a t => exact ⟨a, t, rfl⟩
  have h1 := h.head
  simp only [List.head?_cons, Option.some.injEq] at h1
  subst h1
  rcases List.eq_nil_or_concat t with rfl | ⟨m, b, rfl⟩
  · have h2 := h.last
    have h3 := h.lt
    simp only [List.getLast?_singleton, Option.some.injEq] at h2
    exact absurd h3 (by rw [h2]; exact lt_irrefl _)
  · rw [List.concat_eq_append] at h ⊢
    have h2 := h.last
    rw [← List.cons_append, List.getLast?_append] at h2
    simp only [List.getLast?_singleton, Option.some_or, Option.some.injEq] at h2
    exact ⟨m, by rw [h2]⟩

theorem Times.length {start stop : ℚ} {l : List ℚ} (h : Times start stop l) : l.length ≠ 1 := by
  obtain ⟨m, rfl⟩ := h.shape
  simp

theorem transform_self {a b t : ℚ} (h : a < b) : transform a b a b t = t := by
  unfold transform
  have : b - a ≠ 0 := by linarith
  field_simp
  ring

theorem transform_start (a b c d : ℚ) : transform a b c d a = c := by
  unfold transform; simp

theorem transform_stop {a b : ℚ} (c d : ℚ) (h : a < b) : transform a b c d b = d := by
  unfold transform
  have : b - a ≠ 0 := by linarith
  rw [div_self this]
  ring

/-- Transforming twice. -/
theorem transform_transform {a b c d : ℚ} (e f t : ℚ) (h : c < d) :
    transform c d e f (transform a b c d t) = transform a b e f t := by
  unfold transform
  have : d - c ≠ 0 := by linarith
  field_simp
  ring

theorem transform_mono {a b c d s t : ℚ} (h : a < b) (h' : c < d) (hst : s < t) : transform a b c d s < transform a b c d t := by
  unfold transform
  have h1 : 0 < b - a := by linarith
  have h2 : 0 < d - c := by linarith
  have : (s - a) / (b - a) < (t - a) / (b - a) := by gcongr
  nlinarith

theorem Times.transform {a b c d : ℚ} {l : List ℚ} (h : Times a b l) (h' : c < d) : Times c d (l.map (transform a b c d)) where
  inc := by
    rw [List.pairwise_map]
    exact h.inc.imp fun hst => transform_mono h.lt h' hst
  head := by rw [List.head?_map, h.head]; simp [transform_start]
  last := by rw [List.getLast?_map, h.last]; simp [transform_stop _ _ h.lt]
  lt := h'

theorem moveGrid_times {a b c d : ℚ} {grid times : List ℚ} (hg : Times a b grid) (ht : Times c d times) :
    moveGrid times grid = some (grid.map (transform a b c d)) := by
  unfold moveGrid
  simp only [ht.head, ht.last, hg.head, hg.last]
  rw [if_neg hg.length, if_neg (by have := hg.lt; intro h; linarith)]

theorem moveGrid_single {c d x : ℚ} {times : List ℚ} (ht : Times c d times) : moveGrid times [x] = some [d] := by
  unfold moveGrid
  simp only [ht.head, ht.last]
  rfl

theorem create_times {a b : ℚ} {times : List ℚ} (ht : Times a b times) (r : Bool) :
    create r times = some (if r then [b] else times) := by
  unfold create
  simp only [ht.last]

theorem map_transform_self {a b : ℚ} (l : List ℚ) (h : a < b) : l.map (transform a b a b) = l := by
  conv_rhs => rw [← List.map_id l]
  exact List.map_congr_left fun t _ => transform_self h

end Verif.TimeGrid
