import Verif.Mapping.Props
import Mathlib.Data.List.Sort

/-!
# Linear cell interpolation inside the mesh (C120)

The trees of triangles and tetrahedra hold bounding boxes: `bg::return_envelope`, `/repo/src/query/Index.cpp:99-102`, and `makeBox`, Index.cpp:130-135 with
`/repo/src/query/impl/RTreeAdapter.hpp:213-223`. The searches compare the location with these boxes only: `bgi::nearest` (Index.cpp:211-223) and `bgi::covers` (Index.cpp:258-268).
-/

set_option autoImplicit false

namespace Verif.Mapping

open Geometry

variable {d : ℕ}

/-! ## Specification -/

/-- Smallest number of a list, 0 if there is none. -/
def lowest : List ℚ → ℚ
  | [] => 0
  | [x] => x
  | x :: y :: xs => min x (lowest (y :: xs))

/-- Largest number of a list, 0 if there is none. -/
def highest : List ℚ → ℚ
  | [] => 0
  | [x] => x
  | x :: y :: xs => max x (highest (y :: xs))

/-- The coordinates of the vertices of an element in one direction. -/
def along (m : Mesh d) (c : Cell) (k : Fin d) : List ℚ := c.map fun i => coordsOf m i k

/-- The location is in the bounding box of the element. -/
def InBox (m : Mesh d) (c : Cell) (u : Pt d) : Prop := ∀ k, lowest (along m c k) ≤ u k ∧ u k ≤ highest (along m c k)

instance (m : Mesh d) (c : Cell) (u : Pt d) : Decidable (InBox m c u) := by unfold InBox; exact inferInstance

/-- The squared distance to the bounding box of the element. -/
def boxDist2 (m : Mesh d) (c : Cell) (u : Pt d) : ℚ :=
  ∑ k, max 0 (max (lowest (along m c k) - u k) (u k - highest (along m c k))) ^ 2

/-- What the searches in the trees of triangles and tetrahedra give: `n` triangles, or all if there are fewer, with the closest bounding boxes, where nothing is said about the choice between
boxes at the same distance; all tetrahedra whose bounding boxes contain the location. -/
structure Query.Boxes (q : Query d) : Prop where
  nodup : ∀ m u n, (q.closestTriangles m u n).Nodup
  count : ∀ m u n, (q.closestTriangles m u n).length = min n m.tris.length
  closest : ∀ m u n, ∀ i ∈ q.closestTriangles m u n, ∀ j, j ∉ q.closestTriangles m u n → ∀ c c', m.tris[i]? = some c → m.tris[j]? = some c' → boxDist2 m c u ≤ boxDist2 m c' u
  covers : ∀ m u i c, m.tets[i]? = some c → (i ∈ q.enclosingTetrahedra m u ↔ InBox m c u)

/-- An element with an area (triangle) or volume (tetrahedron). -/
def Proper (m : Mesh d) (c : Cell) : Prop := ∃ u ws, weights d (c.map (coordsOf m)) u = some ws

/-- The polation interpolates in an element of the list that contains the location: weights for its vertices with sum one, none below minus the tolerance, and the weighted point is the
location. -/
def Inside (m : Mesh d) (cells : List Cell) (u : Pt d) (p : Polation) : Prop :=
  ∃ c ∈ cells, ∃ ws : List ℚ, p.elems = c.zip ws ∧ ws.length = c.length ∧ ws.sum = 1 ∧ (∀ w ∈ ws, -tol ≤ w) ∧ combine (c.map (coordsOf m)) ws = u

/-! ## A search that satisfies it -/

/-- Exhaustive search in the boxes. -/
def boxSearch (d : ℕ) : Query d where
  closestVertex := (bruteForce d).closestVertex
  closestEdges := (bruteForce d).closestEdges
  closestTriangles m u n := ((List.range m.tris.length).insertionSort fun i j => boxDist2 m (m.tris[i]?.getD []) u ≤ boxDist2 m (m.tris[j]?.getD []) u).take n
  enclosingTetrahedra m u := (List.range m.tets.length).filter fun i => InBox m (m.tets[i]?.getD []) u

theorem boxSearch_valid (d : ℕ) : (boxSearch d).Valid where
  vertex := (bruteForce_valid d).vertex
  edge := (bruteForce_valid d).edge
  triangle m u n i hi := by
    have := List.mem_of_mem_take hi
    rw [List.mem_insertionSort] at this
    exact List.mem_range.1 this
  tetrahedron m u i hi := List.mem_range.1 (List.mem_of_mem_filter hi)

theorem boxSearch_boxes (d : ℕ) : (boxSearch d).Boxes where
  nodup m u n := by
    refine List.Nodup.sublist (List.take_sublist _ _) ?_
    exact ((List.perm_insertionSort _ _).nodup_iff).2 List.nodup_range
  count m u n := by
    simp [boxSearch, List.length_take, List.length_insertionSort]
  closest m u n i hi j hj c c' hc hc' := by
    let r : ℕ → ℕ → Prop := fun i j => boxDist2 m (m.tris[i]?.getD []) u ≤ boxDist2 m (m.tris[j]?.getD []) u
    have : Std.Total r := ⟨fun a b => le_total _ _⟩
    have : IsTrans ℕ r := ⟨fun a b c h1 h2 => le_trans h1 h2⟩
    have hs : List.Pairwise r ((List.range m.tris.length).insertionSort r) := List.pairwise_insertionSort r _
    have hjl : j ∈ (List.range m.tris.length).insertionSort r := by
      rw [List.mem_insertionSort, List.mem_range]
      exact (List.getElem?_eq_some_iff.1 hc').1
    have hsplit := List.take_append_drop n ((List.range m.tris.length).insertionSort r)
    rw [← hsplit] at hs hjl
    have hjd : j ∈ ((List.range m.tris.length).insertionSort r).drop n := (List.mem_append.1 hjl).resolve_left hj
    have := (List.pairwise_append.1 hs).2.2 i hi j hjd
    simpa [r, hc, hc'] using this
  covers m u i c hc := by
    have := (List.getElem?_eq_some_iff.1 hc).1
    unfold boxSearch
    simp only [List.mem_filter, List.mem_range, this, true_and, decide_eq_true_eq, hc, Option.getD_some]

/-! ## Lemmas -/

theorem lowest_le {xs : List ℚ} {x : ℚ} (h : x ∈ xs) : lowest xs ≤ x := by
  induction xs with
  | nil => simp at h
  | cons a xs ih =>
    cases xs with
    | nil => rw [List.mem_singleton.1 h]; exact le_refl _
    | cons b xs =>
      rcases List.mem_cons.1 h with rfl | h
      · exact min_le_left _ _
      · exact (min_le_right _ _).trans (ih h)

theorem le_highest {xs : List ℚ} {x : ℚ} (h : x ∈ xs) : x ≤ highest xs := by
  induction xs with
  | nil => simp at h
  | cons a xs ih =>
    cases xs with
    | nil => rw [List.mem_singleton.1 h]; exact le_refl _
    | cons b xs =>
      rcases List.mem_cons.1 h with rfl | h
      · exact le_max_left _ _
      · exact (ih h).trans (le_max_right _ _)

/-- Weighted means are between the bounds of the numbers. -/
theorem mean_bounds {xs : List (Pt d)} {ws : List ℚ} (hl : ws.length = xs.length) (h0 : ∀ w ∈ ws, 0 ≤ w) (k : Fin d) {lo hi : ℚ} (hb : ∀ x ∈ xs, lo ≤ x k ∧ x k ≤ hi) :
    ws.sum * lo ≤ combine xs ws k ∧ combine xs ws k ≤ ws.sum * hi := by
  rw [combine_apply]
  induction xs generalizing ws with
  | nil =>
    have : ws = [] := List.length_eq_zero_iff.1 (by simpa using hl)
    simp [this]
  | cons x xs ih =>
    cases ws with
    | nil => simp at hl
    | cons w ws =>
      obtain ⟨h1, h2⟩ := ih (by simpa using hl) (fun w hw => h0 w (by simp [hw])) (fun x hx => hb x (by simp [hx]))
      have hw := h0 w (by simp)
      have hx := hb x (by simp)
      have h3 := mul_le_mul_of_nonneg_left hx.1 hw
      have h4 := mul_le_mul_of_nonneg_left hx.2 hw
      simp only [List.zip_cons_cons, List.map_cons, List.sum_cons]
      constructor <;> nlinarith

theorem inBox_of_inCell {m : Mesh d} {c : Cell} {u : Pt d} (h : InCell m c u) : InBox m c u := by
  obtain ⟨ws, h1, h2, h3, rfl⟩ := h
  intro k
  have := mean_bounds (xs := c.map (coordsOf m)) (by rw [h1, List.length_map]) h2 k (lo := lowest (along m c k)) (hi := highest (along m c k)) (by
    intro x hx
    obtain ⟨i, hi, rfl⟩ := List.mem_map.1 hx
    have : coordsOf m i k ∈ along m c k := List.mem_map_of_mem (f := fun i => coordsOf m i k) hi
    exact ⟨lowest_le this, le_highest this⟩)
  rwa [h3, one_mul, one_mul] at this

theorem boxDist2_nonneg (m : Mesh d) (c : Cell) (u : Pt d) : 0 ≤ boxDist2 m c u := Finset.sum_nonneg fun _ _ => sq_nonneg _

theorem inBox_iff (m : Mesh d) (c : Cell) (u : Pt d) : InBox m c u ↔ boxDist2 m c u = 0 := by
  unfold InBox boxDist2
  rw [Finset.sum_eq_zero_iff_of_nonneg fun _ _ => sq_nonneg _]
  simp only [Finset.mem_univ, true_implies]
  refine forall_congr' fun k => ?_
  rw [pow_eq_zero_iff (by norm_num), max_eq_left_iff, max_le_iff, sub_nonpos, sub_nonpos]

/-- Barycentric coordinates are unique. -/
theorem baryTriangle2_unique {a b c u : Pt 2} {ws : List ℚ} (h : baryTriangle2 a b c u = some ws) {vs : List ℚ} (hl : vs.length = 3) (hs : vs.sum = 1) (hu : combine [a, b, c] vs = u) :
    ws = vs := by
  match vs, hl with
  | [x, y, z], _ =>
    have hz : z = 1 - x - y := by
      simp only [List.sum_cons, List.sum_nil] at hs
      linarith
    subst hz
    unfold baryTriangle2 at h
    simp only at h
    split at h
    · simp at h
    · rename_i hne
      simp only [Option.some.injEq] at h
      have h0 : u 0 = x * a 0 + y * b 0 + (1 - x - y) * c 0 := by rw [← hu, combine3]
      have h1 : u 1 = x * a 1 + y * b 1 + (1 - x - y) * c 1 := by rw [← hu, combine3]
      generalize hA : cross2 (b - a) (c - a) = A at *
      have hx : cross2 (b - u) (c - u) * (1 / A) = x := by
        rw [mul_one_div, div_eq_iff hne, ← hA]
        unfold cross2
        simp only [Pi.sub_apply, h0, h1]
        ring
      have hy : cross2 (c - u) (a - u) * (1 / A) = y := by
        rw [mul_one_div, div_eq_iff hne, ← hA]
        unfold cross2
        simp only [Pi.sub_apply, h0, h1]
        ring
      rw [hx, hy] at h
      exact h.symm

theorem baryTetra_unique {a b c e u : Pt 3} {ws : List ℚ} (h : baryTetra a b c e u = some ws) {vs : List ℚ} (hl : vs.length = 4) (hs : vs.sum = 1) (hu : combine [a, b, c, e] vs = u) :
    ws = vs := by
  match vs, hl with
  | [t, x, y, z], _ =>
    have ht : t = 1 - z - y - x := by
      simp only [List.sum_cons, List.sum_nil] at hs
      linarith
    subst ht
    unfold baryTetra at h
    simp only at h
    split at h
    · simp at h
    · rename_i hne
      simp only [Option.some.injEq] at h
      have hk : ∀ k, u k = (1 - z - y - x) * a k + x * b k + y * c k + z * e k := by
        intro k
        rw [← hu, combine4]
      generalize hV : dot (cross (b - a) (c - b)) (e - a) = V at *
      have hz : dot (cross (b - a) (c - b)) (u - a) / V = z := by
        rw [div_eq_iff hne, ← hV]
        simp only [dot3, cross_apply.1, cross_apply.2.1, cross_apply.2.2, Pi.sub_apply, hk]
        ring
      have hy : dot (cross (b - a) (-(e - a))) (u - e) / V = y := by
        rw [div_eq_iff hne, ← hV]
        simp only [dot3, cross_apply.1, cross_apply.2.1, cross_apply.2.2, Pi.sub_apply, Pi.neg_apply, hk]
        ring
      have hx : dot (cross (c - a) (e - a)) (u - c) / V = x := by
        rw [div_eq_iff hne, ← hV]
        simp only [dot3, cross_apply.1, cross_apply.2.1, cross_apply.2.2, Pi.sub_apply, hk]
        ring
      rw [hx, hy, hz] at h
      exact h.symm

theorem weights_triangle {xs : List (Pt 2)} (h3 : xs.length = 3) {v : Pt 2} {vs : List ℚ} (hv : weights 2 xs v = some vs) (u : Pt 2) : ∃ ws, weights 2 xs u = some ws := by
  match xs, h3 with
  | [a, b, c], _ =>
    simp only [weights, baryTriangle2] at hv ⊢
    split at hv
    · simp at hv
    · rename_i hne
      rw [if_neg hne]
      exact ⟨_, rfl⟩

theorem weights_tetra {xs : List (Pt 3)} (h4 : xs.length = 4) {v : Pt 3} {vs : List ℚ} (hv : weights 3 xs v = some vs) (u : Pt 3) : ∃ ws, weights 3 xs u = some ws := by
  match xs, h4 with
  | [a, b, c, e], _ =>
    simp only [weights, baryTetra] at hv ⊢
    split at hv
    · simp at hv
    · rename_i hne
      rw [if_neg hne]
      exact ⟨_, rfl⟩

theorem combine_triangle {xs : List (Pt 2)} (h3 : xs.length = 3) {u : Pt 2} {ws : List ℚ} (h : weights 2 xs u = some ws) : combine xs ws = u := by
  match xs, h3 with
  | [a, b, c], _ => exact (baryTriangle2_spec h).2.2

theorem combine_tetra {xs : List (Pt 3)} (h4 : xs.length = 4) {u : Pt 3} {ws : List ℚ} (h : weights 3 xs u = some ws) : combine xs ws = u := by
  match xs, h4 with
  | [a, b, c, e], _ => exact (baryTetra_spec h).2.2

/-- An element that contains the location is admissible. -/
theorem admissible {m : Mesh d} {c : Cell} {u : Pt d} (hex : ∃ ws, weights d (c.map (coordsOf m)) u = some ws)
    (huniq : ∀ ws, weights d (c.map (coordsOf m)) u = some ws → ∀ vs : List ℚ, vs.length = c.length → vs.sum = 1 → combine (c.map (coordsOf m)) vs = u → ws = vs) (h : InCell m c u) :
    ∃ p, polation m u c = some p ∧ p.isInterpolation := by
  obtain ⟨vs, h1, h2, h3, h4⟩ := h
  obtain ⟨ws, hws⟩ := hex
  have := huniq ws hws vs h1 h3 h4.symm
  subst this
  unfold polation
  rw [hws]
  refine ⟨_, rfl, ?_⟩
  intro e he
  have := h2 e.2 (List.of_mem_zip he).2
  unfold greaterEquals
  linarith [tol_pos]

theorem admissible_triangle {m : Mesh 2} {c : Cell} (hc : c.length = 3) (hp : Proper m c) {u : Pt 2} (h : InCell m c u) : ∃ p, polation m u c = some p ∧ p.isInterpolation := by
  obtain ⟨v, vs, hv⟩ := hp
  have hl : (c.map (coordsOf m)).length = 3 := by rw [List.length_map, hc]
  refine admissible (weights_triangle hl hv u) ?_ h
  match c, hc with
  | [i, j, k], _ => exact fun ws hws vs h1 h2 h3 => baryTriangle2_unique hws h1 h2 h3

theorem admissible_tetra {m : Mesh 3} {c : Cell} (hc : c.length = 4) (hp : Proper m c) {u : Pt 3} (h : InCell m c u) : ∃ p, polation m u c = some p ∧ p.isInterpolation := by
  obtain ⟨v, vs, hv⟩ := hp
  have hl : (c.map (coordsOf m)).length = 4 := by rw [List.length_map, hc]
  refine admissible (weights_tetra hl hv u) ?_ h
  match c, hc with
  | [i, j, k, l], _ => exact fun ws hws vs h1 h2 h3 => baryTetra_unique hws h1 h2 h3

theorem inside_of_polation {m : Mesh d} {cells : List Cell} {u : Pt d} {c : Cell} {p : Polation} (hc : c ∈ cells) (hp : polation m u c = some p) (hint : p.isInterpolation)
    (hcomb : ∀ ws, weights d (c.map (coordsOf m)) u = some ws → combine (c.map (coordsOf m)) ws = u) : Inside m cells u p := by
  obtain ⟨ws, h1, h2, h3, -, h5, h6⟩ := polation_elems hp
  refine ⟨c, hc, ws, h2, h3, h6, ?_, hcomb ws h1⟩
  intro w hw
  rw [← h5] at hw
  obtain ⟨e, he, rfl⟩ := List.mem_map.1 hw
  have := hint e he
  unfold greaterEquals at this
  linarith

theorem countP_range {α : Type} (l : List α) (e : α) (p : α → Bool) : (List.range l.length).countP (fun j => p (l[j]?.getD e)) = l.countP p := by
  induction l with
  | nil => rfl
  | cons a l ih =>
    rw [List.length_cons, List.range_succ_eq_map, List.countP_cons, List.countP_cons, List.countP_map, ← ih]
    rfl

/-- Nearest boxes: if at most `n` boxes contain the location, all of them are found. -/
theorem found_box {q : Query d} (hb : q.Boxes) (hq : q.Valid) {m : Mesh d} {u : Pt d} {n : ℕ} {i : ℕ} {c : Cell} (hc : m.tris[i]? = some c) (hin : InBox m c u)
    (hn : (m.tris.filter fun c => InBox m c u).length ≤ n) : i ∈ q.closestTriangles m u n := by
  by_contra hi
  -- all that were found contain the location, and there are `n` of them
  have hall : ∀ j ∈ q.closestTriangles m u n, ∃ c', m.tris[j]? = some c' ∧ InBox m c' u := by
    intro j hj
    have hlt := hq.triangle m u n j hj
    refine ⟨_, List.getElem?_eq_getElem hlt, ?_⟩
    have := hb.closest m u n j hj i hi _ c (List.getElem?_eq_getElem hlt) hc
    rw [(inBox_iff m c u).1 hin] at this
    exact (inBox_iff m _ u).2 (le_antisymm this (boxDist2_nonneg _ _ _))
  -- indices of boxes with the location
  let S : Finset ℕ := (Finset.range m.tris.length).filter fun j => InBox m (m.tris[j]?.getD []) u
  have hS : S.card = (m.tris.filter fun c => InBox m c u).length := by
    have e : S.card = ((List.range m.tris.length).filter fun j => InBox m (m.tris[j]?.getD []) u).length := rfl
    rw [e, ← List.countP_eq_length_filter, ← List.countP_eq_length_filter]
    exact countP_range m.tris [] fun c => InBox m c u
  have hsub : (q.closestTriangles m u n).toFinset ⊆ S.erase i := by
    intro j hj
    have hj := List.mem_toFinset.1 hj
    obtain ⟨c', h1, h2⟩ := hall j hj
    rw [Finset.mem_erase, Finset.mem_filter, Finset.mem_range]
    refine ⟨fun h => hi (h ▸ hj), (List.getElem?_eq_some_iff.1 h1).1, ?_⟩
    rw [h1]
    exact h2
  have hi' : i ∈ S := by
    rw [Finset.mem_filter, Finset.mem_range]
    refine ⟨(List.getElem?_eq_some_iff.1 hc).1, ?_⟩
    rw [hc]
    exact hin
  have hcard := Finset.card_le_card hsub
  rw [List.toFinset_card_of_nodup (hb.nodup m u n), hb.count m u n, Finset.card_erase_of_mem hi', hS] at hcard
  have hpos : 0 < S.card := Finset.card_pos.2 ⟨i, hi'⟩
  have hle : S.card ≤ m.tris.length := by
    rw [hS]
    exact List.length_filter_le _ _
  omega

end Verif.Mapping
