import Verif.Mesh.Mesh
import Verif.Mesh.Geometry

/-!
# Barycentric coordinates and polations

Model of `/repo/src/math/barycenter.cpp` and `/repo/src/mapping/Polation.cpp`.

Arithmetic is exact (ℚ). For degenerate elements the C++ code divides by zero (in debug builds an assertion
fails for triangles); the results are NaN or infinite with at least one weight that is NaN or -∞, so the
polation is never accepted. This is represented by `none`.
Distances are only compared with each other, so squared distances are stored.
-/

set_option autoImplicit false

namespace Verif.Mapping

open Geometry

/-- `calcBarycentricCoordsForEdge`, barycenter.cpp:11-38 -/
def baryEdge {d : ℕ} (a b u : Pt d) : Option (List ℚ) :=
  let ab := b - a
  let au := u - a
  if dot ab ab = 0 then none
  else
    let b1 := dot au ab / dot ab ab
    some [1 - b1, b1]

/-- `crossProduct2D`, barycenter.cpp:40-43 -/
def cross2 (u v : Pt 2) : ℚ := u 0 * v 1 - u 1 * v 0

/-- `calcBarycentricCoordsForTriangle` in two dimensions, barycenter.cpp:78-96 -/
def baryTriangle2 (a b c u : Pt 2) : Option (List ℚ) :=
  let ab := b - a
  let ac := c - a
  let ub := b - u
  let uc := c - u
  let ua := a - u
  let twiceArea := cross2 ab ac
  if twiceArea = 0 then none
  else
    let scale := 1 / twiceArea
    let b0 := cross2 ub uc * scale
    let b1 := cross2 uc ua * scale
    some [b0, b1, 1 - b0 - b1]

/-- `calcBarycentricCoordsForTriangle` in three dimensions, barycenter.cpp:61-77 -/
def baryTriangle3 (a b c u : Pt 3) : Option (List ℚ) :=
  let ab := b - a
  let ac := c - a
  let n := cross ab ac
  let nn := dot n n
  if nn = 0 then none
  else
    let scale := 1 / nn
    let au := u - a
    let b2 := dot n (cross ab au) * scale
    let b1 := dot n (cross au ac) * scale
    some [1 - b1 - b2, b1, b2]

/-- `calcBarycentricCoordsForTetrahedron`, barycenter.cpp:101-145 -/
def baryTetra (a b c d u : Pt 3) : Option (List ℚ) :=
  let au := u - a
  let du := u - d
  let cu := u - c
  let ab := b - a
  let ac := c - a
  let ad := d - a
  let bc := c - b
  let abc := cross ab bc
  let abd := cross ab (-ad)
  let acd := cross ac ad
  let volume := dot abc ad
  if volume = 0 then none
  else
    let b3 := dot abc au / volume
    let b2 := dot abd du / volume
    let b1 := dot acd cu / volume
    some [1 - b3 - b2 - b1, b1, b2, b3]

/-- Squared norm of the difference. -/
def dist2 {d : ℕ} (x y : Pt d) : ℚ := dot (x - y) (x - y)

/-- `Polation`: weights of vertex IDs and the (squared) distance, Polation.hpp -/
structure Polation where
  elems : List (ℕ × ℚ)
  dist2 : ℚ
deriving DecidableEq

/-- Coordinates of a vertex, `Mesh::vertex(id).getCoords()`. -/
def coordsOf {d : ℕ} (m : Mesh d) (i : ℕ) : Pt d := (m.verts[i]?.map (·.coords)).getD 0

/-- The weighted sum of the coordinates of the vertices. -/
def combine {d : ℕ} (xs : List (Pt d)) (ws : List ℚ) : Pt d := ((xs.zip ws).map fun p => p.2 • p.1).sum

/-- Weights of a location with respect to an element with the given corner points: chooses by the number of
vertices and dimension like the overloads of the constructor of `Polation`. -/
def weights : (d : ℕ) → List (Pt d) → Pt d → Option (List ℚ)
  | _, [_], _ => some [1]
  | _, [a, b], u => baryEdge a b u
  | 2, [a, b, c], u => baryTriangle2 a b c u
  | 3, [a, b, c], u => baryTriangle3 a b c u
  | 3, [a, b, c, d], u => baryTetra a b c d u
  | _, _, _ => none

/-- The constructors of `Polation`, Polation.cpp:9-80, for a vertex, edge, triangle or tetrahedron with the
given vertex IDs. The distance of a tetrahedron is set to zero. -/
def polation {d : ℕ} (m : Mesh d) (u : Pt d) (cell : Cell) : Option Polation :=
  match weights d (cell.map (coordsOf m)) u with
  | none => none
  | some ws => some
    ⟨cell.zip ws, if cell.length = 4 then 0 else dist2 u (combine (cell.map (coordsOf m)) ws)⟩

/-- `Polation::isInterpolation`, Polation.cpp:92-95 -/
def Polation.isInterpolation (p : Polation) : Prop := ∀ e ∈ p.elems, greaterEquals e.2 0

instance (p : Polation) : Decidable p.isInterpolation := by unfold Polation.isInterpolation; exact inferInstance

/-! ## Lemmas about the weights -/

theorem dot_self_nonneg {d : ℕ} (v : Pt d) : 0 ≤ dot v v := Finset.sum_nonneg fun _ _ => mul_self_nonneg _

theorem dot_self_eq_zero {d : ℕ} {v : Pt d} (h : dot v v = 0) : v = 0 := by
  funext i
  exact mul_self_eq_zero.1 ((Finset.sum_eq_zero_iff_of_nonneg fun i _ => mul_self_nonneg (v i)).1 h i (Finset.mem_univ i))

/-- Weights of an edge: sum one, and the weighted point is the orthogonal projection. -/
theorem baryEdge_spec {d : ℕ} {a b u : Pt d} {ws : List ℚ} (h : baryEdge a b u = some ws) :
    ws.length = 2 ∧ ws.sum = 1 ∧ dot (u - combine [a, b] ws) (b - a) = 0 := by
  unfold baryEdge at h
  simp only at h
  split at h
  · simp at h
  · rename_i hne
    simp only [Option.some.injEq] at h
    subst h
    refine ⟨rfl, by simp, ?_⟩
    generalize ht : dot (u - a) (b - a) / dot (b - a) (b - a) = t
    have e : t * dot (b - a) (b - a) = dot (u - a) (b - a) := by rw [← ht, div_mul_cancel₀ _ hne]
    have : dot (u - combine [a, b] [1 - t, t]) (b - a) = dot (u - a) (b - a) - t * dot (b - a) (b - a) := by
      unfold dot combine
      rw [Finset.mul_sum, ← Finset.sum_sub_distrib]
      refine Finset.sum_congr rfl fun i _ => ?_
      simp only [List.zip_cons_cons, List.zip_nil_right, List.map_cons, List.map_nil, List.sum_cons, List.sum_nil,
        Pi.sub_apply, Pi.add_apply, Pi.smul_apply, Pi.zero_apply, smul_eq_mul]
      ring
    rw [this, e, sub_self]

theorem baryTriangle2_spec {a b c u : Pt 2} {ws : List ℚ} (h : baryTriangle2 a b c u = some ws) :
    ws.length = 3 ∧ ws.sum = 1 ∧ combine [a, b, c] ws = u := by
  unfold baryTriangle2 at h
  simp only at h
  split at h
  · simp at h
  · rename_i hne
    simp only [Option.some.injEq] at h
    subst h
    refine ⟨rfl, by simp, ?_⟩
    unfold cross2 at hne
    simp only [Pi.sub_apply] at hne
    unfold combine cross2
    funext i
    simp only [List.zip_cons_cons, List.zip_nil_right, List.map_cons, List.map_nil, List.sum_cons, List.sum_nil,
        Pi.sub_apply, Pi.add_apply, Pi.smul_apply, Pi.zero_apply, smul_eq_mul]
    fin_cases i <;> simp only [Fin.isValue, Fin.zero_eta, Fin.mk_one] <;> field_simp <;> ring

theorem cross_apply {u v : Pt 3} : cross u v 0 = u 1 * v 2 - u 2 * v 1 ∧ cross u v 1 = u 2 * v 0 - u 0 * v 2 ∧
    cross u v 2 = u 0 * v 1 - u 1 * v 0 := ⟨rfl, rfl, rfl⟩

theorem dot3 (u v : Pt 3) : dot u v = u 0 * v 0 + u 1 * v 1 + u 2 * v 2 := by
  unfold dot; rw [Fin.sum_univ_three]

theorem combine3 {d : ℕ} (a b c : Pt d) (x y z : ℚ) (i : Fin d) :
    combine [a, b, c] [x, y, z] i = x * a i + y * b i + z * c i := by
  unfold combine
  simp only [List.zip_cons_cons, List.zip_nil_right, List.map_cons, List.map_nil, List.sum_cons, List.sum_nil,
        Pi.add_apply, Pi.smul_apply, Pi.zero_apply, smul_eq_mul]
  ring

theorem combine4 {d : ℕ} (a b c e : Pt d) (x y z w : ℚ) (i : Fin d) :
    combine [a, b, c, e] [x, y, z, w] i = x * a i + y * b i + z * c i + w * e i := by
  unfold combine
  simp only [List.zip_cons_cons, List.zip_nil_right, List.map_cons, List.map_nil, List.sum_cons, List.sum_nil,
        Pi.add_apply, Pi.smul_apply, Pi.zero_apply, smul_eq_mul]
  ring

theorem baryTriangle3_spec {a b c u : Pt 3} {ws : List ℚ} (h : baryTriangle3 a b c u = some ws) :
    ws.length = 3 ∧ ws.sum = 1 ∧ dot (u - combine [a, b, c] ws) (b - a) = 0 ∧
      dot (u - combine [a, b, c] ws) (c - a) = 0 := by
  unfold baryTriangle3 at h
  simp only at h
  split at h
  · simp at h
  · rename_i hne
    simp only [Option.some.injEq] at h
    subst h
    refine ⟨rfl, by simp only [List.sum_cons, List.sum_nil]; ring, ?_⟩
    generalize hV : dot (cross (b - a) (c - a)) (cross (b - a) (c - a)) = V at *
    generalize h2 : dot (cross (b - a) (c - a)) (cross (b - a) (u - a)) * (1 / V) = w2
    generalize h1 : dot (cross (b - a) (c - a)) (cross (u - a) (c - a)) * (1 / V) = w1
    have e2 : w2 * V = dot (cross (b - a) (c - a)) (cross (b - a) (u - a)) := by
      rw [← h2, mul_assoc, one_div_mul_cancel hne, mul_one]
    have e1 : w1 * V = dot (cross (b - a) (c - a)) (cross (u - a) (c - a)) := by
      rw [← h1, mul_assoc, one_div_mul_cancel hne, mul_one]
    clear h1 h2
    simp only [dot3, cross_apply.1, cross_apply.2.1, cross_apply.2.2, Pi.sub_apply, combine3] at e1 e2 hV ⊢
    constructor
    · refine (mul_eq_zero.1 (?_ : V * _ = 0)).resolve_left hne
      linear_combination (-(b 0 - a 0) * (b 0 - a 0) - (b 1 - a 1) * (b 1 - a 1) - (b 2 - a 2) * (b 2 - a 2)) * e1 -
        ((c 0 - a 0) * (b 0 - a 0) + (c 1 - a 1) * (b 1 - a 1) + (c 2 - a 2) * (b 2 - a 2)) * e2 -
        ((u 0 - a 0) * (b 0 - a 0) + (u 1 - a 1) * (b 1 - a 1) + (u 2 - a 2) * (b 2 - a 2)) * hV
    · refine (mul_eq_zero.1 (?_ : V * _ = 0)).resolve_left hne
      linear_combination (-(b 0 - a 0) * (c 0 - a 0) - (b 1 - a 1) * (c 1 - a 1) - (b 2 - a 2) * (c 2 - a 2)) * e1 -
        ((c 0 - a 0) * (c 0 - a 0) + (c 1 - a 1) * (c 1 - a 1) + (c 2 - a 2) * (c 2 - a 2)) * e2 -
        ((u 0 - a 0) * (c 0 - a 0) + (u 1 - a 1) * (c 1 - a 1) + (u 2 - a 2) * (c 2 - a 2)) * hV

theorem baryTetra_spec {a b c d u : Pt 3} {ws : List ℚ} (h : baryTetra a b c d u = some ws) :
    ws.length = 4 ∧ ws.sum = 1 ∧ combine [a, b, c, d] ws = u := by
  unfold baryTetra at h
  simp only at h
  split at h
  · simp at h
  · rename_i hne
    simp only [Option.some.injEq] at h
    subst h
    refine ⟨rfl, by simp only [List.sum_cons, List.sum_nil]; ring, ?_⟩
    generalize hV : dot (cross (b - a) (c - b)) (d - a) = V at *
    generalize h3 : dot (cross (b - a) (c - b)) (u - a) / V = w3
    generalize h2 : dot (cross (b - a) (-(d - a))) (u - d) / V = w2
    generalize h1 : dot (cross (c - a) (d - a)) (u - c) / V = w1
    have e3 : w3 * V = dot (cross (b - a) (c - b)) (u - a) := by rw [← h3, div_mul_cancel₀ _ hne]
    have e2 : w2 * V = dot (cross (b - a) (-(d - a))) (u - d) := by rw [← h2, div_mul_cancel₀ _ hne]
    have e1 : w1 * V = dot (cross (c - a) (d - a)) (u - c) := by rw [← h1, div_mul_cancel₀ _ hne]
    clear h1 h2 h3
    funext i
    simp only [dot3, cross_apply.1, cross_apply.2.1, cross_apply.2.2, Pi.sub_apply, Pi.neg_apply, combine4] at e1 e2 e3 hV ⊢
    refine sub_eq_zero.1 ((mul_eq_zero.1 (?_ : V * _ = 0)).resolve_left hne)
    fin_cases i
    · change V * ((1 - w3 - w2 - w1) * a 0 + w1 * b 0 + w2 * c 0 + w3 * d 0 - u 0) = 0
      linear_combination (b 0 - a 0) * e1 + (c 0 - a 0) * e2 + (d 0 - a 0) * e3 + (u 0 - a 0) * hV
    · change V * ((1 - w3 - w2 - w1) * a 1 + w1 * b 1 + w2 * c 1 + w3 * d 1 - u 1) = 0
      linear_combination (b 1 - a 1) * e1 + (c 1 - a 1) * e2 + (d 1 - a 1) * e3 + (u 1 - a 1) * hV
    · change V * ((1 - w3 - w2 - w1) * a 2 + w1 * b 2 + w2 * c 2 + w3 * d 2 - u 2) = 0
      linear_combination (b 2 - a 2) * e1 + (c 2 - a 2) * e2 + (d 2 - a 2) * e3 + (u 2 - a 2) * hV

/-- All weights sum to one, and the difference between the location and the weighted point is orthogonal to the
element, whatever the element is. -/
theorem weights_spec {d : ℕ} {xs : List (Pt d)} {u : Pt d} {ws : List ℚ} (h : weights d xs u = some ws) :
    ws.length = xs.length ∧ ws.sum = 1 ∧ ∀ x ∈ xs, ∀ y ∈ xs, dot (u - combine xs ws) (x - y) = 0 := by
  have zero : ∀ v : Pt d, dot v 0 = 0 := fun v => by simp [dot]
  have zero' : ∀ v : Pt d, dot 0 v = 0 := fun v => by simp [dot]
  have lin : ∀ v x y z : Pt d, dot v (x - y) = dot v (x - z) - dot v (y - z) := by
    intro v x y z
    unfold dot
    rw [← Finset.sum_sub_distrib]
    exact Finset.sum_congr rfl fun i _ => by simp only [Pi.sub_apply]; ring
  have base : ∀ (v z : Pt d), (∀ x ∈ xs, dot v (x - z) = 0) → ∀ x ∈ xs, ∀ y ∈ xs, dot v (x - y) = 0 := by
    intro v z hz x hx y hy
    rw [lin v x y z, hz x hx, hz y hy, sub_zero]
  unfold weights at h
  split at h
  · rename_i a
    simp only [Option.some.injEq] at h
    subst h
    refine ⟨rfl, by simp, base _ a ?_⟩
    intro x hx
    simp only [List.mem_singleton] at hx
    subst hx
    rw [sub_self, zero]
  · rename_i a b
    obtain ⟨h1, h2, h3⟩ := baryEdge_spec h
    refine ⟨h1, h2, base _ a ?_⟩
    intro x hx
    simp only [List.mem_cons, List.not_mem_nil, or_false] at hx
    rcases hx with rfl | rfl
    · rw [sub_self, zero]
    · exact h3
  · obtain ⟨h1, h2, h3⟩ := baryTriangle2_spec h
    refine ⟨h1, h2, fun x _ y _ => ?_⟩
    rw [h3, sub_self, zero']
  · rename_i a b c _
    obtain ⟨h1, h2, h3, h4⟩ := baryTriangle3_spec h
    refine ⟨h1, h2, base _ a ?_⟩
    intro x hx
    simp only [List.mem_cons, List.not_mem_nil, or_false] at hx
    rcases hx with rfl | rfl | rfl
    · rw [sub_self, zero]
    · exact h3
    · exact h4
  · obtain ⟨h1, h2, h3⟩ := baryTetra_spec h
    refine ⟨h1, h2, fun x _ y _ => ?_⟩
    rw [h3, sub_self, zero']
  · simp at h

end Verif.Mapping
