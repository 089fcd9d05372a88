import Verif.Mapping.CellSearch

/-!
# Properties of linear cell interpolation inside the mesh (C120)
-/

set_option autoImplicit false

namespace Verif.Mapping

open Geometry

variable {d : ℕ}

/-! ## Lemmas -/

theorem cell_candidates {q : Query d} {m : Mesh d} {u : Pt d} {found : List Polation}
    (hf : found = if d = 2 then candidates m u m.tris (q.closestTriangles m u 4) else candidates m u m.tets (q.enclosingTetrahedra m u)) {p : Polation} (hp : p ∈ found) :
    search .cell q m u ∈ found := by
  unfold search findCellOrProjection
  simp only
  rw [← hf]
  cases found with
  | nil => simp at hp
  | cons a l => simp

/-- Affine data at a location inside an element. -/
theorem inside_affine {m : Mesh d} (hok : m.Ok) {cells : List Cell} (hcells : ∀ c ∈ cells, Elem m c) {u : Pt d} {p : Polation} (h : Inside m cells u p) (v : ℕ → ℚ) (c : ℚ) (g : Pt d)
    (hv : ∀ j < m.verts.length, v j = c + dot g (coordsOf m j)) {B : ℚ} (hB : ∀ j < m.verts.length, |v j| ≤ B) : |applied p v - (c + dot g u)| ≤ 4 * tol * B := by
  obtain ⟨cell, hc, ws, h1, h2, h3, -, h5⟩ := h
  have hel := hcells cell hc
  have hlt : ∀ j ∈ cell, j < m.verts.length := elem_lt hok hel
  have hfull : full p v = c + dot g u := by
    have e1 : full p v = (((cell.map (coordsOf m)).zip ws).map fun p => p.2 * (c + dot g p.1)).sum := by
      unfold full
      rw [h1, List.zip_map_left, List.map_map]
      congr 1
      refine List.map_congr_left fun e he => ?_
      rw [hv _ (hlt _ (List.of_mem_zip he).1)]
      rfl
    have e2 : (((cell.map (coordsOf m)).zip ws).map fun p => p.2 • p.1).sum = u := h5
    rw [e1, affine_combine, List.map_snd_zip (by rw [List.length_map]; omega), h3, one_mul, e2]
  have hlen : p.elems.length ≤ 4 := by
    rw [h1, List.length_zip, h2, Nat.min_self]
    exact elem_length hok hel
  have hne : 0 ≤ B := by
    cases hcl : cell with
    | nil =>
      rw [hcl] at h2
      rw [List.length_eq_zero_iff.1 h2] at h3
      simp at h3
    | cons a l => exact (abs_nonneg _).trans (hB a (hlt a (by simp [hcl])))
  have := applied_full p v B (fun e he => hB _ (hlt _ (by
    rw [h1] at he
    exact (List.of_mem_zip he).1)))
  rw [hfull] at this
  exact this.trans (four_le p hlen hne)

theorem tetra_polation {q : Query 3} (hb : q.Boxes) {m : Mesh 3} (hok : m.Ok) {c : Cell} (hc : c ∈ m.tets) (hp : Proper m c) {u : Pt 3} (hu : InCell m c u) :
    ∃ c' ∈ m.tets, polation m u c' = some (search .cell q m u) ∧ (search .cell q m u).isInterpolation := by
  obtain ⟨i, hi, rfl⟩ := List.mem_iff_getElem.1 hc
  have hci : m.tets[i]? = some m.tets[i] := List.getElem?_eq_getElem hi
  obtain ⟨p, h1, h2⟩ := admissible_tetra (hok.tets _ hc).1 hp hu
  have hmem := mem_candidates_of ((hb.covers m u i _ hci).2 (inBox_of_inCell hu)) hci h1 h2
  have := cell_candidates (q := q) (m := m) (u := u) rfl (by simpa using hmem)
  simp only [show (3 : ℕ) ≠ 2 by norm_num, if_false] at this
  obtain ⟨j, -, c', hc', hp', hint⟩ := mem_candidates this
  exact ⟨c', List.mem_of_getElem? hc', hp', hint⟩

theorem triangle_polation {q : Query 2} (hq : q.Valid) (hb : q.Boxes) {m : Mesh 2} (hok : m.Ok) {c : Cell} (hc : c ∈ m.tris) (hp : Proper m c) {u : Pt 2} (hu : InCell m c u)
    (hfour : (m.tris.filter fun c => InBox m c u).length ≤ 4) :
    ∃ c' ∈ m.tris, polation m u c' = some (search .cell q m u) ∧ (search .cell q m u).isInterpolation := by
  obtain ⟨i, hi, rfl⟩ := List.mem_iff_getElem.1 hc
  have hci : m.tris[i]? = some m.tris[i] := List.getElem?_eq_getElem hi
  obtain ⟨p, h1, h2⟩ := admissible_triangle (hok.tris _ hc).1 hp hu
  have hmem := mem_candidates_of (found_box hb hq hci (inBox_of_inCell hu) hfour) hci h1 h2
  have := cell_candidates (q := q) (m := m) (u := u) rfl (by simpa using hmem)
  simp only [if_true] at this
  obtain ⟨j, -, c', hc', hp', hint⟩ := mem_candidates this
  exact ⟨c', List.mem_of_getElem? hc', hp', hint⟩

/-! ## Theorems -/

/-- Three dimensions: a location in a tetrahedron of the mesh is interpolated in a tetrahedron that contains it. -/
theorem C120_tetrahedra {q : Query 3} (hb : q.Boxes) {m : Mesh 3} (hok : m.Ok) {c : Cell} (hc : c ∈ m.tets) (hp : Proper m c) {u : Pt 3} (hu : InCell m c u) :
    Inside m m.tets u (search .cell q m u) := by
  obtain ⟨c', hc', hp', hint⟩ := tetra_polation hb hok hc hp hu
  exact inside_of_polation hc' hp' hint fun ws hws => combine_tetra (by rw [List.length_map, (hok.tets _ hc').1]) hws

/-- Two dimensions: the same for triangles if the location is in the bounding boxes of at most four triangles. -/
theorem C120_triangles {q : Query 2} (hq : q.Valid) (hb : q.Boxes) {m : Mesh 2} (hok : m.Ok) {c : Cell} (hc : c ∈ m.tris) (hp : Proper m c) {u : Pt 2} (hu : InCell m c u)
    (hfour : (m.tris.filter fun c => InBox m c u).length ≤ 4) : Inside m m.tris u (search .cell q m u) := by
  obtain ⟨c', hc', hp', hint⟩ := triangle_polation hq hb hok hc hp hu hfour
  exact inside_of_polation hc' hp' hint fun ws hws => combine_triangle (by rw [List.length_map, (hok.tris _ hc').1]) hws

/-- Triangles in two dimensions, otherwise tetrahedra. -/
def cellsOf (m : Mesh d) : List Cell := if d = 2 then m.tris else m.tets

/-- The location is inside the mesh, in a way that linear cell interpolation is certain to see. -/
structure Seen (m : Mesh d) (u : Pt d) : Prop where
  dim : d = 2 ∨ d = 3
  inside : ∃ c ∈ cellsOf m, Proper m c ∧ InCell m c u
  few : d = 2 → (m.tris.filter fun c => InBox m c u).length ≤ 4

/-- Both together. -/
theorem C120_inside {q : Query d} (hq : q.Valid) (hb : q.Boxes) {m : Mesh d} (hok : m.Ok) {u : Pt d} (h : Seen m u) : Inside m (cellsOf m) u (search .cell q m u) := by
  obtain ⟨hd, ⟨c, h1, h2, h3⟩, h4⟩ := h
  rcases hd with rfl | rfl
  · exact C120_triangles hq hb hok h1 h2 h3 (h4 rfl)
  · exact C120_tetrahedra hb hok h1 h2 h3

theorem seen_polation {q : Query d} (hq : q.Valid) (hb : q.Boxes) {m : Mesh d} (hok : m.Ok) {u : Pt d} (h : Seen m u) :
    ∃ c ∈ cellsOf m, polation m u c = some (search .cell q m u) ∧ (search .cell q m u).isInterpolation ∧
      ∀ ws, weights d (c.map (coordsOf m)) u = some ws → combine (c.map (coordsOf m)) ws = u := by
  obtain ⟨hd, ⟨c, h1, h2, h3⟩, h4⟩ := h
  rcases hd with rfl | rfl
  · obtain ⟨c', hc', hp', hint⟩ := triangle_polation hq hb hok h1 h2 h3 (h4 rfl)
    exact ⟨c', hc', hp', hint, fun ws hws => combine_triangle (by rw [List.length_map, (hok.tris _ hc').1]) hws⟩
  · obtain ⟨c', hc', hp', hint⟩ := tetra_polation hb hok h1 h2 h3
    exact ⟨c', hc', hp', hint, fun ws hws => combine_tetra (by rw [List.length_map, (hok.tets _ hc').1]) hws⟩

theorem elem_cellsOf {m : Mesh d} {c : Cell} (h : c ∈ cellsOf m) : Elem m c := by
  unfold cellsOf at h
  split at h
  · exact .inr (.inr (.inl h))
  · exact .inr (.inr (.inr h))

/-- Affine data are mapped exactly to vertices inside the mesh, up to the tolerance for dropped weights. -/
theorem C120_affine {q : Query d} (hq : q.Valid) (hb : q.Boxes) {con : Constraint} (hcon : con ≠ .conservative) (input output : Mesh d) (hok : input.Ok) (n k : ℕ) (hk : k < n) (x : Data)
    (c : ℚ) (g : Pt d) (hx : ∀ j < input.verts.length, x (j * n + k) = c + dot g (coordsOf input j)) (B : ℚ) (hB : ∀ j < input.verts.length, |x (j * n + k)| ≤ B) (i : ℕ)
    (hi : i < output.verts.length) (hs : Seen input (coordsOf output i)) :
    |mapProjection .cell q con input output n x (i * n + k) - (c + dot g (coordsOf output i))| ≤ 4 * tol * B := by
  rw [consistent_value .cell q con hcon _ _ hk _ hi]
  exact inside_affine hok (fun _ h => elem_cellsOf h) (C120_inside hq hb hok hs) (fun j => x (j * n + k)) c g hx hB

/-- Conservative mapping from vertices inside the mesh: weighted with any affine function, the total is kept up to the tolerance. With the constant function this is the sum of the values,
with the coordinates these are the moments. -/
theorem C120_moments {q : Query d} (hq : q.Valid) (hb : q.Boxes) (input output : Mesh d) (hout : output.verts ≠ []) (hok : output.Ok) (n k : ℕ) (hk : k < n) (y : Data)
    (hs : ∀ i < input.verts.length, Seen output (coordsOf input i)) (c : ℚ) (g : Pt d) (B : ℚ) (hB : ∀ j < output.verts.length, |c + dot g (coordsOf output j)| ≤ B) :
    |∑ j ∈ Finset.range output.verts.length, mapProjection .cell q .conservative input output n y (j * n + k) * (c + dot g (coordsOf output j)) -
      ∑ i ∈ Finset.range input.verts.length, y (i * n + k) * (c + dot g (coordsOf input i))| ≤ 4 * tol * B * ∑ i ∈ Finset.range input.verts.length, |y (i * n + k)| := by
  let x : Data := fun t => c + dot g (coordsOf output (t / n))
  have hx : ∀ j, x (j * n + k) = c + dot g (coordsOf output j) := by
    intro j
    simp only [x, idx_div j hk]
  have h := C45_projection .cell hq (c := .consistent) (by decide) input output hout hok n k hk x y
  simp only [hx] at h
  rw [← h, ← Finset.sum_sub_distrib, Finset.mul_sum]
  refine (Finset.abs_sum_le_sum_abs _ _).trans (Finset.sum_le_sum fun i hi => ?_)
  have hi := Finset.mem_range.1 hi
  have := C120_affine hq hb (con := .consistent) (by decide) output input hok n k hk x c g (fun j _ => hx j) B (fun j hj => by rw [hx]; exact hB j hj) i hi (hs i hi)
  rw [← mul_sub, abs_mul, mul_comm]
  exact mul_le_mul_of_nonneg_right this (abs_nonneg _)

/-! ## Examples -/

/-- The unit tetrahedron and one beside it. -/
def tetMesh : Mesh 3 := ⟨[vtx ![0, 0, 0], vtx ![1, 0, 0], vtx ![0, 1, 0], vtx ![0, 0, 1], vtx ![1, 1, 1]], [], [], [[0, 1, 2, 3], [1, 2, 3, 4]]⟩
def tetPoint : Mesh 3 := ⟨[vtx ![1 / 8, 1 / 4, 1 / 2]], [], [], []⟩

theorem tetMesh_ok : tetMesh.Ok := by
  constructor <;> intro c hc <;> simp [tetMesh] at hc
  rcases hc with rfl | rfl <;> exact ⟨rfl, by decide, by decide, by decide⟩

theorem tetMesh_seen : Seen tetMesh (coordsOf tetPoint 0) :=
  ⟨.inr rfl, ⟨[0, 1, 2, 3], by decide, ⟨0, [1, 0, 0, 0], by decide +kernel⟩, [1 / 8, 1 / 8, 1 / 4, 1 / 2], rfl, by decide +kernel, by decide +kernel, by decide +kernel⟩,
    fun h => absurd h (by decide)⟩

/-- `1 + 2 x + 4 y + 8 z` at (1/8, 1/4, 1/2). -/
example : (boxSearch 3).Valid ∧ (boxSearch 3).Boxes ∧ tetMesh.Ok ∧ Seen tetMesh (coordsOf tetPoint 0) ∧
    mapProjection .cell (boxSearch 3) .consistent tetMesh tetPoint 1 (fun j => 1 + dot ![2, 4, 8] (coordsOf tetMesh j)) 0 = 1 + 1 / 4 + 1 + 4 :=
  ⟨boxSearch_valid 3, boxSearch_boxes 3, tetMesh_ok, tetMesh_seen, by decide +kernel⟩

/-- A band of eight slender triangles across the diagonal direction; all edges are given. -/
def band : Mesh 2 where
  verts := [vtx ![0, 0], vtx ![1, -1], vtx ![2, -2], vtx ![3, -3], vtx ![4, -4], vtx ![10, 10], vtx ![11, 9], vtx ![12, 8], vtx ![13, 7], vtx ![14, 6]]
  edges := [[0, 1], [1, 2], [2, 3], [3, 4], [5, 6], [6, 7], [7, 8], [8, 9], [0, 5], [1, 6], [2, 7], [3, 8], [4, 9], [1, 5], [2, 6], [3, 7], [4, 8]]
  tris := [[0, 1, 5], [1, 5, 6], [1, 2, 6], [2, 6, 7], [2, 3, 7], [3, 7, 8], [3, 4, 8], [4, 8, 9]]
  tets := []

def bandPoint : Mesh 2 := ⟨[vtx ![20 / 3, 0]], [], [], []⟩

theorem band_ok : band.Ok := by
  constructor <;> intro c hc <;> simp [band] at hc
  · rcases hc with rfl | rfl | rfl | rfl | rfl | rfl | rfl | rfl | rfl | rfl | rfl | rfl | rfl | rfl | rfl | rfl | rfl <;> exact ⟨rfl, by decide, by decide, by decide⟩
  · rcases hc with rfl | rfl | rfl | rfl | rfl | rfl | rfl | rfl <;> exact ⟨rfl, by decide, by decide, by decide⟩

/-- Without the other half of the band the triangle is found. -/
def narrow : Mesh 2 := { band with tris := band.tris.drop 4 }

theorem narrow_ok : narrow.Ok where
  edges := band_ok.edges
  tris := fun c hc => band_ok.tris c (List.mem_of_mem_drop hc)
  tets := band_ok.tets

example : (boxSearch 2).Valid ∧ (boxSearch 2).Boxes ∧ narrow.Ok ∧ Seen narrow (coordsOf bandPoint 0) ∧
    mapProjection .cell (boxSearch 2) .consistent narrow bandPoint 1 (fun j => dot ![1, -1] (coordsOf narrow j)) 0 = dot ![1, -1] (coordsOf bandPoint 0) :=
  ⟨boxSearch_valid 2, boxSearch_boxes 2, narrow_ok,
    ⟨.inl rfl, ⟨[3, 4, 8], by decide, ⟨![3, -3], [1, 0, 0], by decide +kernel⟩, [1 / 3, 1 / 3, 1 / 3], rfl, by decide +kernel, by decide +kernel, by decide +kernel⟩,
      fun _ => by decide +kernel⟩, by decide +kernel⟩

/-- Disagreement in two dimensions: the location is the centre of a triangle, but in the boxes of more than four. Searches as documented may return four others, and the value is taken from
an edge instead: `x - y` there is 20/3, the mapped value is 740/101. -/
theorem C120_missed_2d : ∃ q : Query 2, q.Valid ∧ q.Boxes ∧ band.Ok ∧ (∃ c ∈ band.tris, Proper band c ∧ InCell band c (coordsOf bandPoint 0)) ∧
    (band.tris.filter fun c => InBox band c (coordsOf bandPoint 0)).length = 8 ∧
    mapProjection .cell q .consistent band bandPoint 1 (fun j => dot ![1, -1] (coordsOf band j)) 0 = 740 / 101 ∧ dot ![1, -1] (coordsOf bandPoint 0) = 20 / 3 := by
  refine ⟨boxSearch 2, boxSearch_valid 2, boxSearch_boxes 2, band_ok, ⟨[3, 4, 8], by decide, ⟨![3, -3], [1, 0, 0], by decide +kernel⟩, [1 / 3, 1 / 3, 1 / 3], rfl, by decide +kernel, by decide +kernel, by decide +kernel⟩, by decide +kernel, by decide +kernel, by decide +kernel⟩

end Verif.Mapping
