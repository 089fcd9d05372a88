import Verif.Time.Differences
import Mathlib.Analysis.Real.Sqrt
import Mathlib.Algebra.BigOperators.Fin
import Mathlib.Algebra.Order.BigOperators.Group.Finset
import Mathlib.Data.Fin.VecNotation
import Mathlib.Tactic.Ring
import Mathlib.Tactic.Linarith
import Mathlib.Tactic.LinearCombination
import Mathlib.Tactic.FieldSimp
import Mathlib.Tactic.FinCases

/-!
# Geometric primitives

Model of `/repo/src/math/geometry.cpp`, of `Edge::getLength`, `Triangle::getArea`,
`Triangle::computeNormal` and `Tetrahedron::getVolume`. Functions that need square roots are over ℝ, the
others over ℚ. No rounding.
-/

set_option autoImplicit false

namespace Verif.Geometry

/-- Euclidean norm, Eigen's `norm()`. -/
noncomputable def norm {d : ℕ} (v : Fin d → ℝ) : ℝ := Real.sqrt (∑ i, v i * v i)

/-- Eigen's `cross`. -/
def cross {R : Type} [Mul R] [Sub R] (u v : Fin 3 → R) : Fin 3 → R :=
  ![u 1 * v 2 - u 2 * v 1, u 2 * v 0 - u 0 * v 2, u 0 * v 1 - u 1 * v 0]

/-- Eigen's `dot`. -/
def dot {R : Type} [Mul R] [AddCommMonoid R] {d : ℕ} (u v : Fin d → R) : R := ∑ i, u i * v i

/-- `Edge::getLength`, Edge.cpp:23-27 -/
noncomputable def edgeLength {d : ℕ} (a b : Fin d → ℝ) : ℝ := norm (b - a)

/-- `triangleArea` in two dimensions, geometry.cpp:100-105 -/
noncomputable def triangleArea2 (a b c : Fin 2 → ℝ) : ℝ :=
  let A := b - a
  let B := c - a
  1 / 2 * |A 0 * B 1 - A 1 * B 0|

/-- `triangleArea` in three dimensions, geometry.cpp:107-113 -/
noncomputable def triangleArea3 (a b c : Fin 3 → ℝ) : ℝ :=
  let A := b - a
  let B := c - a
  1 / 2 * norm (cross A B)

/-- `tetraVolume`, geometry.cpp:116-123 -/
noncomputable def tetraVolume (a b c d : Fin 3 → ℝ) : ℝ := |dot (a - d) (cross (b - d) (c - d))| / 6

/-- Eigen's `normalized()`: the zero vector is left as it is. -/
noncomputable def normalized {d : ℕ} (v : Fin d → ℝ) : Fin d → ℝ :=
  if dot v v > 0 then fun i => v i / Real.sqrt (dot v v) else v

/-- `Triangle::computeNormal`, Triangle.cpp:75-82. Both vectors are computed from the first two vertices. -/
noncomputable def computeNormal (v0 v1 _v2 : Fin 3 → ℝ) : Fin 3 → ℝ :=
  let A : Fin 3 → ℝ := fun i => (v1 i - v0 i) / 2
  let B : Fin 3 → ℝ := fun i => (v1 i - v0 i) / 2
  normalized (cross A B)

/-- `lineIntersection`, geometry.cpp:16-40: `none` for parallel lines. -/
def lineIntersection (a b c d : Fin 2 → ℚ) : Option (Fin 2 → ℚ) :=
  let D := a 0 * (d 1 - c 1) + b 0 * (c 1 - d 1) + d 0 * (b 1 - a 1) - c 0 * (a 1 - b 1)
  if equals D 0 then none
  else
    let s := (a 0 * (d 1 - c 1) + c 0 * (a 1 - d 1) + d 0 * (c 1 - a 1)) / D
    some (fun i => a i + s * (b i - a i))

/-- `ResultConstants`, geometry.hpp -/
inductive Result where
  | noIntersection
  | contained
  | touching
  | intersection
deriving DecidableEq

/-- `segmentPlaneIntersection`, geometry.cpp:42-91; the point is only set in the last two cases. -/
def segmentPlaneIntersection (point normal first second : Fin 3 → ℚ) : Result × Option (Fin 3 → ℚ) :=
  let d := dot point normal
  let seg := second - first
  let nominator := d - dot first normal
  let denominator := dot seg normal
  if equals denominator 0 then
    if equals nominator 0 then (.contained, none) else (.noIntersection, none)
  else
    let t := nominator / denominator
    if greater t 1 ∨ greater 0 t then (.noIntersection, none)
    else
      let p : Fin 3 → ℚ := fun i => first i + seg i * t
      if equals t 0 ∨ equals t 1 then (.touching, some p) else (.intersection, some p)

/-! ## Properties -/

/-- Edge lengths are non-negative, independent of the order, and zero exactly for equal end points. -/
theorem C88_edge {d : ℕ} (a b : Fin d → ℝ) :
    0 ≤ edgeLength a b ∧ edgeLength a b = edgeLength b a ∧ edgeLength a b ^ 2 = ∑ i, (b i - a i) ^ 2 ∧
      (edgeLength a b = 0 ↔ a = b) := by
  have hnn : ∀ v : Fin d → ℝ, 0 ≤ ∑ i, v i * v i := fun v => Finset.sum_nonneg fun i _ => mul_self_nonneg _
  refine ⟨Real.sqrt_nonneg _, ?_, ?_, ?_⟩
  · unfold edgeLength norm
    congr 1
    refine Finset.sum_congr rfl fun i _ => ?_
    simp only [Pi.sub_apply]; ring
  · unfold edgeLength norm
    rw [Real.sq_sqrt (hnn _)]
    refine Finset.sum_congr rfl fun i _ => ?_
    simp only [Pi.sub_apply]; ring
  · unfold edgeLength norm
    rw [Real.sqrt_eq_zero (hnn _), Finset.sum_eq_zero_iff_of_nonneg (fun i _ => mul_self_nonneg _)]
    constructor
    · intro h
      funext i
      have := mul_self_eq_zero.1 (h i (Finset.mem_univ i))
      simp only [Pi.sub_apply] at this
      linarith
    · rintro rfl i _
      simp

/-- Triangle areas in two dimensions: non-negative, given by the Gram determinant of two sides, independent
of the order of the vertices. -/
theorem C88_area2 (p : Fin 3 → Fin 2 → ℝ) :
    0 ≤ triangleArea2 (p 0) (p 1) (p 2) ∧
    (2 * triangleArea2 (p 0) (p 1) (p 2)) ^ 2 =
      dot (p 1 - p 0) (p 1 - p 0) * dot (p 2 - p 0) (p 2 - p 0) - dot (p 1 - p 0) (p 2 - p 0) ^ 2 ∧
    ∀ i j k : Fin 3, i ≠ j → j ≠ k → i ≠ k →
      triangleArea2 (p i) (p j) (p k) = triangleArea2 (p 0) (p 1) (p 2) := by
  refine ⟨mul_nonneg (by norm_num) (abs_nonneg _), ?_, ?_⟩
  · unfold triangleArea2 dot
    simp only [Fin.sum_univ_two, Pi.sub_apply]
    rw [← mul_assoc, show (2 : ℝ) * (1 / 2) = 1 by norm_num, one_mul, sq_abs]; ring
  · intro i j k hij hjk hik
    unfold triangleArea2
    simp only [Pi.sub_apply]
    congr 1
    rw [abs_eq_abs]
    fin_cases i <;> fin_cases j <;> first | exact absurd rfl hij | skip
    all_goals fin_cases k <;> first | exact absurd rfl hjk | exact absurd rfl hik | skip
    all_goals simp only [Fin.isValue, Fin.mk_one, Fin.zero_eta, Fin.reduceFinMk]
    all_goals first | exact Or.inl trivial | (left; ring1) | (right; ring1)

theorem area3_sq (a b c : Fin 3 → ℝ) : ∑ i, cross (b - a) (c - a) i * cross (b - a) (c - a) i =
    dot (b - a) (b - a) * dot (c - a) (c - a) - dot (b - a) (c - a) ^ 2 := by
  unfold cross dot
  simp only [Fin.sum_univ_three, Pi.sub_apply, Matrix.cons_val_zero, Matrix.cons_val_one, Matrix.cons_val]
  ring

/-- The same in three dimensions. -/
theorem C88_area3 (p : Fin 3 → Fin 3 → ℝ) :
    0 ≤ triangleArea3 (p 0) (p 1) (p 2) ∧
    (2 * triangleArea3 (p 0) (p 1) (p 2)) ^ 2 =
      dot (p 1 - p 0) (p 1 - p 0) * dot (p 2 - p 0) (p 2 - p 0) - dot (p 1 - p 0) (p 2 - p 0) ^ 2 ∧
    ∀ i j k : Fin 3, i ≠ j → j ≠ k → i ≠ k →
      triangleArea3 (p i) (p j) (p k) = triangleArea3 (p 0) (p 1) (p 2) := by
  refine ⟨mul_nonneg (by norm_num) (Real.sqrt_nonneg _), ?_, ?_⟩
  · unfold triangleArea3 norm
    simp only
    rw [← mul_assoc, show (2 : ℝ) * (1 / 2) = 1 by norm_num, one_mul,
      Real.sq_sqrt (Finset.sum_nonneg fun i _ => mul_self_nonneg _), area3_sq]
  · intro i j k hij hjk hik
    unfold triangleArea3 norm
    simp only [area3_sq]
    congr 2
    unfold dot
    simp only [Fin.sum_univ_three, Pi.sub_apply]
    fin_cases i <;> fin_cases j <;> first | exact absurd rfl hij | skip
    all_goals fin_cases k <;> first | exact absurd rfl hjk | exact absurd rfl hik | skip
    all_goals simp only [Fin.isValue, Fin.mk_one, Fin.zero_eta, Fin.reduceFinMk]
    all_goals ring1

/-- Volumes of tetrahedra: non-negative, a sixth of the determinant, independent of the order. -/
theorem C88_volume (p : Fin 4 → Fin 3 → ℝ) :
    0 ≤ tetraVolume (p 0) (p 1) (p 2) (p 3) ∧
    6 * tetraVolume (p 0) (p 1) (p 2) (p 3) =
      |dot (p 1 - p 0) (cross (p 2 - p 0) (p 3 - p 0))| ∧
    ∀ i j k l : Fin 4, i ≠ j → i ≠ k → i ≠ l → j ≠ k → j ≠ l → k ≠ l →
      tetraVolume (p i) (p j) (p k) (p l) = tetraVolume (p 0) (p 1) (p 2) (p 3) := by
  have hd : ∀ a b c d : Fin 3 → ℝ, dot (a - d) (cross (b - d) (c - d)) =
      (a 0 - d 0) * ((b 1 - d 1) * (c 2 - d 2) - (b 2 - d 2) * (c 1 - d 1)) +
      (a 1 - d 1) * ((b 2 - d 2) * (c 0 - d 0) - (b 0 - d 0) * (c 2 - d 2)) +
      (a 2 - d 2) * ((b 0 - d 0) * (c 1 - d 1) - (b 1 - d 1) * (c 0 - d 0)) := by
    intro a b c d
    unfold dot cross
    simp only [Fin.sum_univ_three, Pi.sub_apply, Matrix.cons_val_zero, Matrix.cons_val_one, Matrix.cons_val]
  refine ⟨div_nonneg (abs_nonneg _) (by norm_num), ?_, ?_⟩
  · unfold tetraVolume
    rw [mul_div_cancel₀ _ (by norm_num : (6 : ℝ) ≠ 0), abs_eq_abs, hd, hd]
    right; ring
  · intro i j k l h1 h2 h3 h4 h5 h6
    unfold tetraVolume
    congr 1
    rw [abs_eq_abs, hd, hd]
    fin_cases i <;> fin_cases j <;> first | exact absurd rfl h1 | skip
    all_goals fin_cases k <;> first | exact absurd rfl h2 | exact absurd rfl h4 | skip
    all_goals fin_cases l <;> first | exact absurd rfl h3 | exact absurd rfl h5 | exact absurd rfl h6 | skip
    all_goals simp only [Fin.isValue, Fin.mk_one, Fin.zero_eta, Fin.reduceFinMk]
    all_goals first | exact Or.inl trivial | (left; ring1) | (right; ring1)

example : triangleArea2 ![0, 0] ![2, 0] ![0, 3] = 3 ∧ tetraVolume ![0, 0, 0] ![1, 0, 0] ![0, 1, 0] ![0, 0, 6] = 1 := by
  constructor
  · norm_num [triangleArea2]
  · have : dot (![0, 0, 0] - ![0, 0, 6]) (cross (![1, 0, 0] - ![0, 0, 6]) (![0, 1, 0] - ![0, 0, 6])) = (-6 : ℝ) := by
      unfold dot cross
      simp [Fin.sum_univ_three, Matrix.cons_val]
    unfold tetraVolume
    rw [this]; norm_num

/-- If a point of intersection is reported then it lies on the plane and on the segment (up to the tolerance). -/
theorem C88_plane (point normal first second p : Fin 3 → ℚ) (r : Result)
    (h : segmentPlaneIntersection point normal first second = (r, some p)) :
    dot p normal = dot point normal ∧
      ∃ t, -tol ≤ t ∧ t ≤ 1 + tol ∧ p = fun i => first i + t * (second i - first i) := by
  unfold segmentPlaneIntersection at h
  simp only at h
  split at h
  · split at h <;> simp at h
  · rename_i hD
    have hD' : dot (second - first) normal ≠ 0 := fun e => hD (e ▸ equals_refl 0)
    have fin : ∀ t, t = (dot point normal - dot first normal) / dot (second - first) normal →
        ¬ (greater t 1 ∨ greater 0 t) → p = (fun i => first i + (second - first) i * t) →
        dot p normal = dot point normal ∧
          ∃ t, -tol ≤ t ∧ t ≤ 1 + tol ∧ p = fun i => first i + t * (second i - first i) := by
      intro t ht hb hp
      refine ⟨?_, t, ?_, ?_, ?_⟩
      · have e : t * dot (second - first) normal = dot point normal - dot first normal := by
          rw [ht, div_mul_cancel₀ _ hD']
        rw [hp]
        unfold dot at e ⊢
        simp only [Fin.sum_univ_three, Pi.sub_apply] at e ⊢
        linarith
      · by_contra hn
        exact hb (.inr (by unfold greater; linarith))
      · by_contra hn
        exact hb (.inl (by unfold greater; linarith))
      · rw [hp]; funext i; simp only [Pi.sub_apply]; ring
    split at h
    · simp at h
    · rename_i hb
      split at h <;> simp only [Prod.mk.injEq, Option.some.injEq] at h <;> exact fin _ rfl hb h.2.symm

example : segmentPlaneIntersection ![0, 0, 1] ![0, 0, 1] ![1, 1, 0] ![1, 1, 2] = (.intersection, some ![1, 1, 1]) := by
  decide +kernel

/-- A segment that crosses the plane well inside is reported as an intersection. -/
theorem C88_plane_found (point normal first second : Fin 3 → ℚ)
    (h1 : tol < dot (second - first) normal) (h2 : tol * dot (second - first) normal < dot (point - first) normal)
    (h3 : dot (point - first) normal < (1 - tol) * dot (second - first) normal) :
    (segmentPlaneIntersection point normal first second).1 = .intersection := by
  have ht := tol_pos
  have hD : 0 < dot (second - first) normal := by linarith
  have hD' : ¬ equals (dot (second - first) normal) 0 := by
    rw [equals_iff]; intro h; linarith [h.2]
  have hn : dot point normal - dot first normal = dot (point - first) normal := by
    unfold dot; simp only [Fin.sum_univ_three, Pi.sub_apply]; ring
  have b1 : tol < dot (point - first) normal / dot (second - first) normal := by
    rw [lt_div_iff₀ hD]; exact h2
  have b2 : dot (point - first) normal / dot (second - first) normal < 1 - tol := by
    rw [div_lt_iff₀ hD]; exact h3
  unfold segmentPlaneIntersection
  simp only [hD', if_false, hn]
  rw [if_neg, if_neg]
  · rintro (h | h) <;> rw [equals_iff] at h <;> linarith [h.1, h.2]
  · rintro (h | h) <;> unfold greater at h <;> linarith

/-- The intersection of two lines is on both lines if the first line is not inclined or the second line
starts on the second axis. Missing (`_partial`): all other cases, where the sign of one summand of the
denominator is wrong, see `C88_line_wrong`. -/
theorem C88_line_partial (a b c d p : Fin 2 → ℚ) (h : lineIntersection a b c d = some p)
    (hsign : c 0 * (a 1 - b 1) = 0) :
    (∃ s, p = fun i => a i + s * (b i - a i)) ∧ (p 0 - c 0) * (d 1 - c 1) = (p 1 - c 1) * (d 0 - c 0) := by
  unfold lineIntersection at h
  simp only at h
  split at h
  · simp at h
  · rename_i hD
    have hD' : a 0 * (d 1 - c 1) + b 0 * (c 1 - d 1) + d 0 * (b 1 - a 1) - c 0 * (a 1 - b 1) ≠ 0 :=
      fun e => hD (e ▸ equals_refl 0)
    simp only [Option.some.injEq] at h
    refine ⟨⟨_, h.symm⟩, ?_⟩
    rw [← h]
    simp only
    generalize hDD : a 0 * (d 1 - c 1) + b 0 * (c 1 - d 1) + d 0 * (b 1 - a 1) - c 0 * (a 1 - b 1) = D at *
    generalize hs : (a 0 * (d 1 - c 1) + c 0 * (a 1 - d 1) + d 0 * (c 1 - a 1)) / D = s
    have e : s * D = a 0 * (d 1 - c 1) + c 0 * (a 1 - d 1) + d 0 * (c 1 - a 1) := by
      rw [← hs, div_mul_cancel₀ _ hD']
    rw [← hDD] at e
    linear_combination -e - 2 * s * hsign

example : lineIntersection ![0, 0] ![2, 2] ![0, 2] ![2, 0] = some ![1, 1] := by decide +kernel

/-- Disagreement: crossing lines are reported as parallel, or a point that is not on the second line is
returned. -/
theorem C88_line_wrong :
    lineIntersection ![0, 0] ![1, 1] ![1, 0] ![0, 1] = none ∧
      lineIntersection ![0, 0] ![1, 1] ![2, 0] ![2, 1] = some ![-2 / 3, -2 / 3] := by
  decide +kernel

/-- Disagreement: the unit normal of every triangle is the zero vector. -/
theorem C88_normal_zero (v0 v1 v2 : Fin 3 → ℝ) : computeNormal v0 v1 v2 = 0 := by
  unfold computeNormal normalized cross dot
  simp only [mul_comm, sub_self]
  simp only [Fin.sum_univ_three, Matrix.cons_val_zero, Matrix.cons_val_one, Matrix.cons_val, mul_zero, add_zero, lt_irrefl,
    if_false]
  funext i; fin_cases i <;> rfl

end Verif.Geometry
