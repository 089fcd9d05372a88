import Verif.Accel.TimeGridValues

/-!
# Time grids: examples (C105)
-/

set_option autoImplicit false

namespace Verif.TimeGrid

open DataPath

/-- A window that converges at once, one of length 2 with two iterations of two and three steps, and a truncated one with four steps. -/
def windows : List Window :=
  [⟨0, 2, [], [0, 1, 2]⟩, ⟨2, 4, [[2, 5 / 2, 4]], [2, 3, 7 / 2, 4]⟩, ⟨4, 5, [[4, 17 / 4, 9 / 2, 19 / 4, 5]], [4, 5]⟩]

theorem windows_valid : ∀ w ∈ windows, Valid w := by
  have key : ∀ w ∈ windows, ∀ l ∈ w.repeated ++ [w.last],
      l.Pairwise (· < ·) ∧ l.head? = some w.start ∧ l.getLast? = some w.stop ∧ w.start < w.stop := by decide +kernel
  intro w hw l hl
  obtain ⟨h1, h2, h3, h4⟩ := key w hw l hl
  exact ⟨h1, h2, h3, h4⟩

theorem windows_resolve : ∀ r ∈ windows, ∀ w ∈ windows, Resolves r w := by
  unfold Resolves
  decide +kernel

/-- The hypotheses of `C105_times`, `C105_inside` and `C105_constant` are met: the second window fixes the grid. -/
example : run false windows State.init =
    some [[[1, 2]], [[5 / 2, 4], [5 / 2, 4]], [[17 / 4, 5], [17 / 4, 5]]] := by
  rw [C105_times windows_valid windows_resolve]
  decide +kernel

example : ∃ r, run false windows State.init = some r ∧ ∀ times ∈ (r.drop 1).flatten, times.length + 1 = 3 :=
  C105_constant (pre := windows.take 1) (w := ⟨2, 4, [[2, 5 / 2, 4]], [2, 3, 7 / 2, 4]⟩) (post := windows.drop 2) (by simp) (by simp [windows])
    windows_valid windows_resolve

example : run true windows State.init = some [[[2]], [[4], [4]], [[5], [5]]] := by
  rw [C105_reduced windows_valid (by decide +kernel)]
  rfl

/-- The hypothesis of `C105_same_steps` is met by a window of another length with the same relative steps. -/
example : expected ⟨0, 2, [], [0, 1, 2]⟩ ⟨2, 8, [[2, 3, 8]], [2, 5, 8]⟩ = [5, 8] :=
  C105_same_steps (times := [2, 5, 8]) (by norm_num) (by decide +kernel)

/-- Two data in the second window: the first has the steps of the grid, the second has a different number of steps. -/
def fields : List Field :=
  [⟨2, 1, [(2, [0, 0]), (5 / 2, [1, 10]), (4, [2, 20])], [(2, [0, 0])], [2, 5 / 2, 4]⟩,
   ⟨1, 1, [(2, [0]), (3, [4]), (4, [6])], [(2, [0])], [2, 5 / 2, 4]⟩]

theorem fields_spread : ∀ f ∈ fields, Spread 2 f := by
  unfold Spread
  decide +kernel

theorem fields_samplable (old : Bool) : ∀ f ∈ fields, Samplable old 2 f := by
  intro f hf
  cases old with
  | true =>
    left
    have : ∀ f ∈ fields, f.previous.length = 1 := by decide +kernel
    exact List.length_eq_one_iff.1 (this f hf)
  | false =>
    right
    have : ∀ f ∈ fields, ∀ t ∈ gridAfter 2 f.grid, ∃ s ∈ f.samples, t ≤ s.1 := by decide +kernel
    exact this f hf

/-- The hypotheses of `C105_gathered`, `C105_stored` and `C105_round_trip` are met; six unknowns. -/
example (q : Bspline.Solver) (old : Bool) : ∃ v, concatenate q old 2 6 fields = some v ∧ v.length = 6 := by
  have hu : unknowns 2 fields = 6 := by decide +kernel
  obtain ⟨xs, -, h1, h2⟩ := C105_gathered q (fields_samplable old)
  rw [hu] at h1 h2
  exact ⟨_, h1, h2⟩

/-- Each data gets its own part. -/
example : (update 2 [1, 2, 3, 4, 5, 6] fields 0).toOption.map (·.map (·.samples)) =
    some [[(2, [0, 0]), (5 / 2, [1, 2]), (4, [3, 4])], [(2, [0]), (5 / 2, [5]), (4, [6])]] := by
  decide +kernel

example : ∃ r, update 2 [1, 2, 3, 4, 5, 6] fields 0 = .ok r ∧ r.length = 2 := by
  obtain ⟨r, h1, h2, -⟩ := C105_stored (v := [1, 2, 3, 4, 5, 6]) fields_spread (by decide +kernel)
  exact ⟨r, h1, h2⟩

example (q : Bspline.Solver) : ∃ v r, concatenate q false 2 6 fields = some v ∧ update 2 v fields 0 = .ok r := by
  have hu : unknowns 2 fields = 6 := by decide +kernel
  obtain ⟨v, r, h1, h2, -⟩ := C105_round_trip q fields_spread (fields_samplable false)
  rw [hu] at h1
  exact ⟨v, r, h1, h2⟩

/-- The hypotheses of `C105_unchanged` are met by the first data. -/
example (q : Bspline.Solver) : ∃ v, concatenate q false 2 4 (fields.take 1) = some v ∧ update 2 v (fields.take 1) 0 = .ok (fields.take 1) := by
  have h := C105_unchanged q (start := 2) (l := fields.take 1) (by decide +kernel) (by decide +kernel) (by decide +kernel)
  rwa [show unknowns 2 (fields.take 1) = 4 by decide +kernel] at h

/-- The hypotheses of `C105_covers` are met. -/
example : Covers 4 5 (part 4 [1, 2, 3, 4] ⟨2, 1, [(4, [0, 0]), (5, [7, 7])], [(4, [0, 0])], [4, 17 / 4, 5]⟩ 0) :=
  C105_covers (ref := ⟨2, 4, [[2, 5 / 2, 4]], [2, 3, 7 / 2, 4]⟩) (w := ⟨4, 5, [[4, 17 / 4, 9 / 2, 19 / 4, 5]], [4, 5]⟩) 0
    (windows_valid _ (by simp [windows])) (by norm_num) (by decide +kernel) (by decide +kernel) (by decide +kernel)

/-- Without `Resolves` the number of unknowns changes: in a last window that is cut so short that a time of the grid is within the tolerance of its start,
this time is left out, although the vectors and matrices of the method keep their size. -/
theorem C105_tiny_window :
    (∀ w ∈ [⟨0, 1, [[0, 1 / 10, 1]], [0, 1 / 10, 1]⟩, (⟨1, 1 + 5 * tol, [[1, 1 + 5 * tol]], [1, 1 + 5 * tol]⟩ : Window)], Valid w) ∧
    run false [⟨0, 1, [[0, 1 / 10, 1]], [0, 1 / 10, 1]⟩, ⟨1, 1 + 5 * tol, [[1, 1 + 5 * tol]], [1, 1 + 5 * tol]⟩] State.init =
      some [[[1 / 10, 1], [1 / 10, 1]], [[1 + 5 * tol], [1 + 5 * tol]]] := by
  have key : ∀ w ∈ [⟨0, 1, [[0, 1 / 10, 1]], [0, 1 / 10, 1]⟩, (⟨1, 1 + 5 * tol, [[1, 1 + 5 * tol]], [1, 1 + 5 * tol]⟩ : Window)],
      ∀ l ∈ w.repeated ++ [w.last],
      l.Pairwise (· < ·) ∧ l.head? = some w.start ∧ l.getLast? = some w.stop ∧ w.start < w.stop := by decide +kernel
  refine ⟨fun w hw l hl => ?_, by decide +kernel⟩
  obtain ⟨h1, h2, h3, h4⟩ := key w hw l hl
  exact ⟨h1, h2, h3, h4⟩

end Verif.TimeGrid
