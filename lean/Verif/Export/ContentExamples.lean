import Verif.Export.ContentProps
import Mathlib.Tactic.FinCases

/-!
# C118: examples, and what is not shown
-/

set_option autoImplicit false

namespace Verif.Export

namespace ContentEx

/-- A triangle in the plane with a scalar with gradient and a vector. -/
def plane : Exported where
  dim := 2
  verts := [[0, 0], [1, 0], [0, 1]]
  edges := [(0, 1), (0, 2), (1, 2)]
  tris := [(0, 1, 2)]
  tets := []
  fields := [⟨"T".toList, 1, [[3], [4], [5]], some [[[1, 1]], [[1, 2]], [[1, 3]]]⟩,
    ⟨"F".toList, 2, [[1, 2], [3, 4], [5, 6]], none⟩]

/-- Only the edges of it. -/
def wire : Exported := { plane with tris := [] }

/-- A tetrahedron with a vector and its gradient at every vertex. -/
def solid : Exported where
  dim := 3
  verts := [[0, 0, 0], [1, 0, 0], [0, 1, 0], [0, 0, 1]]
  edges := []
  tris := [(0, 1, 2)]
  tets := [(0, 1, 2, 3)]
  fields := [⟨"F".toList, 3, [[1, 2, 3], [4, 5, 6], [7, 8, 9], [0, 0, 1]],
    some [[[1, 0, 0], [0, 1, 0], [0, 0, 1]], [[1, 0, 0], [0, 1, 0], [0, 0, 1]],
      [[1, 0, 0], [0, 1, 0], [0, 0, 1]], [[1, 0, 0], [0, 1, 0], [0, 0, 2]]]⟩]

theorem plane_ok : plane.Ok where
  dim := .inl rfl
  verts := by decide
  comps := by simp [plane]
  values := by simp [plane]
  gradient := by simp [plane]

theorem wire_ok : wire.Ok where
  dim := .inl rfl
  verts := by decide
  comps := by simp [wire, plane]
  values := by simp [wire, plane]
  gradient := by simp [wire, plane]

theorem solid_ok : solid.Ok where
  dim := .inr rfl
  verts := by decide
  comps := by simp [solid]
  values := by simp [solid]
  gradient := by simp [solid]

/-- What a reader of the VTU file of the triangle sees. -/
example : (toVtu id 7 plane.store).read = some
    ⟨[[0, 0, 0], [1, 0, 0], [0, 1, 0]], [(5, [0, 1, 2]), (3, [0, 1]), (3, [0, 2]), (3, [1, 2])],
      [("Rank".toList, [[7], [7], [7]]), ("T".toList, [[3], [4], [5]]),
       ("T_gradient".toList, [[1, 1, 0], [1, 2, 0], [1, 3, 0]]),
       ("F".toList, [[1, 2, 0], [3, 4, 0], [5, 6, 0]])]⟩ := by
  rw [C118_vtu id 7 plane plane_ok]; decide

example : ∃ cells, cells.Perm plane.cells ∧ ∃ v, (toVtp id 0 plane.store).read = some v ∧
    v.cells = cells := by
  obtain ⟨c, hc, h⟩ := C118_vtp_partial id 0 plane plane_ok rfl
  exact ⟨c, hc, _, h, rfl⟩

example : ∃ cells, cells.Perm solid.cells ∧ ∃ v, (toVtk solid.store).read = some v ∧
    v.cells = cells := by
  obtain ⟨c, hc, d, -, h⟩ := C118_vtk_partial solid solid_ok (by intro h; cases h)
  exact ⟨c, hc, _, h, rfl⟩

example : ∃ cells, cells.Perm wire.cells ∧ ∃ v, (toVtk wire.store).read = some v ∧
    v.cells = cells := by
  obtain ⟨c, hc, d, -, h⟩ := C118_vtk_partial wire wire_ok (fun _ => ⟨rfl, rfl⟩)
  exact ⟨c, hc, _, h, rfl⟩

example : (toCsv id 1 plane.store).header =
    ["PosX".toList, "PosY".toList, "Rank".toList, "T".toList, "FX".toList, "FY".toList] ∧
    (toCsv id 1 plane.store).rows[1]? = some [1, 0, 1, 4, 3, 4] := by
  refine ⟨by decide, ?_⟩
  rw [((C118_csv id 1 plane plane_ok).2 1 (by decide)).1]; decide

/-- 1/3 is printed as 0.333333. -/
example : sixDigits (1 / 3) = 333333 / 1000000 := by
  have h : Int.log 10 (|1 / 3| : ℚ) = -1 := by
    rw [abs_of_pos (by norm_num), Int.log_of_right_le_one _ (by norm_num)]
    norm_num
    decide
  unfold sixDigits
  rw [if_neg (by norm_num), h]
  norm_num [round_eq]

end ContentEx

/-- **C118, tetrahedra.** VTP files of meshes with tetrahedra do not show them. -/
theorem C118_vtp_drops_tetrahedra : ∃ x : Exported, x.Ok ∧ x.tets ≠ [] ∧
    ∃ v, (toVtp id 0 x.store).read = some v ∧ ∀ c ∈ v.cells, c.1 ≠ 10 := by
  refine ⟨ContentEx.solid, ContentEx.solid_ok, by decide, _, rfl, by decide⟩

/-- **C118, triangles.** Legacy VTK files of two-dimensional meshes do not show the triangles. -/
theorem C118_vtk_drops_triangles : ∃ x : Exported, x.Ok ∧ x.dim = 2 ∧ x.tris ≠ [] ∧
    ∃ v, (toVtk x.store).read = some v ∧ ∀ c ∈ v.cells, c.1 ≠ 5 := by
  refine ⟨ContentEx.plane, ContentEx.plane_ok, rfl, by decide, _, rfl, by decide⟩

/-- **C118, columns.** The columns of a table can have the same name: here for a vector `F` and a
scalar `FX`. -/
theorem C118_csv_ambiguous : ∃ x : Exported, x.Ok ∧ (x.fields.map FieldData.name).Nodup ∧
    ¬ (toCsv id 0 x.store).header.Nodup := by
  refine ⟨{ ContentEx.plane with fields := [⟨"F".toList, 2, [[1, 2], [3, 4], [5, 6]], none⟩,
    ⟨"FX".toList, 1, [[1], [2], [3]], none⟩] }, ?_, ?_, ?_⟩
  · exact ⟨.inl rfl, by decide, by simp [ContentEx.plane], by simp [ContentEx.plane], by simp⟩
  · decide
  · decide

/-- **C118, arrays.** The gradient of a scalar can hide another data of the mesh, which has the name
of its array. -/
theorem C118_names_ambiguous : ∃ x : Exported, x.Ok ∧ (x.fields.map FieldData.name).Nodup ∧
    ¬ ((toVtu id 0 x.store).data.map Arr.name).Nodup := by
  refine ⟨{ ContentEx.plane with fields := [⟨"T".toList, 1, [[3], [4], [5]],
    some [[[1, 1]], [[1, 2]], [[1, 3]]]⟩, ⟨"T_gradient".toList, 2, [[1, 1], [1, 2], [1, 3]], none⟩] },
    ?_, ?_, ?_⟩
  · exact ⟨.inl rfl, by decide, by simp [ContentEx.plane], by simp [ContentEx.plane],
      by simp [ContentEx.plane]⟩
  · decide
  · decide

/-- **C118, digits.** With the default precision different vertices are shown at the same place. -/
theorem C118_digits_merge : ∃ a b : ℚ, a ≠ b ∧ sixDigits a = sixDigits b := by
  refine ⟨1000000, 1000001, by norm_num, ?_⟩
  have h1 : Int.log 10 (|1000000| : ℚ) = 6 := by
    rw [abs_of_pos (by norm_num), Int.log_ofNat]
    decide
  have h2 : Int.log 10 (|1000001| : ℚ) = 6 := by
    rw [abs_of_pos (by norm_num), Int.log_ofNat]
    decide
  unfold sixDigits
  rw [if_neg (by norm_num), if_neg (by norm_num), h1, h2]
  norm_num [round_eq]

end Verif.Export
