import Verif.Mapping.BasisProps
import Verif.Mapping.RbfExamples

/-!
The effect of a support radius on the mapping (C98).
-/

set_option autoImplicit false

namespace Verif.Basis
open Rbf Matrix

variable {n m : ℕ} {pol : Polynomial} {active : Fin 3 → Bool}

/-- The distance of the basis functions, without the dead axes -/
noncomputable def axisDistance (active : Fin 3 → Bool) (u v : Point) : ℝ := √(squaredDifference active u v)

theorem row_zero {kind : Kind} (hk : Compact kind) {R shape : ℝ} {b : Fn} (h : constructRBF kind R shape = some b) {e : Eigen} {X : Fin n → Point} {Y : Fin m → Point} {s : Solver n m pol active}
    (hs : construct e b.definite b.eval pol active X Y = some s) (hpol : pol ≠ .on) {j : Fin m} (hj : ∀ i, R ≤ axisDistance active (Y j) (X i)) : s.A j = 0 := by
  have hA : s.A = buildA b.eval X Y := (construct_built hs).A
  funext q
  rw [hA]
  rcases q with i | k
  · exact (C98_support kind hk R shape b h).2.2 _ (hj i)
  · exact absurd k.2 hpol

/-- **Beyond the support.** An output vertex which is farther than the support radius from all input vertices gets the
value of the polynomial, and zero without polynomial. -/
theorem C98_beyond (kind : Kind) (hk : Compact kind) (R shape : ℝ) (b : Fn) (h : constructRBF kind R shape = some b) (e : Eigen) (X : Fin n → Point) (Y : Fin m → Point) (s : Solver n m pol active)
    (hs : construct e b.definite b.eval pol active X Y = some s) (hpol : pol ≠ .on) (j : Fin m) (hj : ∀ i, R ≤ axisDistance active (Y j) (X i)) (f : Fin n → ℝ) :
    s.mapConsistent f j = if pol = .separate then (s.V *ᵥ (s.G *ᵥ f)) j else 0 := by
  have h0 := row_zero hk h hs hpol hj
  unfold Solver.mapConsistent Solver.solveConsistent
  split
  · simp only [Pi.add_apply, Matrix.mulVec, h0, zero_dotProduct, zero_add]
    rfl
  · simp only [Matrix.mulVec, h0, zero_dotProduct]

/-- **Loads beyond the support are lost without polynomial**: a conservative mapping ignores the values at such a
vertex. -/
theorem C98_load_beyond (kind : Kind) (hk : Compact kind) (R shape : ℝ) (b : Fn) (h : constructRBF kind R shape = some b) (e : Eigen) (X : Fin n → Point) (Y : Fin m → Point) (s : Solver n m .off active)
    (hs : construct e b.definite b.eval .off active X Y = some s) (j : Fin m) (hj : ∀ i, R ≤ axisDistance active (Y j) (X i)) (u v : Fin m → ℝ) (huv : ∀ j', j' ≠ j → u j' = v j') :
    s.mapConservative u = s.mapConservative v := by
  have h0 := row_zero hk h hs (by decide) hj
  have hA : s.Aᵀ *ᵥ u = s.Aᵀ *ᵥ v := by
    funext q
    simp only [Matrix.mulVec, dotProduct, Matrix.transpose_apply]
    refine Finset.sum_congr rfl fun j' _ => ?_
    by_cases hjj : j' = j
    · rw [hjj, h0]
      simp
    · rw [huv j' hjj]
  unfold Solver.mapConservative Solver.solveConservative
  simp only [hA, reduceCtorEq, if_false]

/-- The hypotheses can be met: the triangle of RbfExamples with a vertex outside. -/
example : ∃ b, constructRBF .c0 1 0 = some b ∧ (∃ s, construct someEigen b.definite b.eval .separate planar triangle (fun _ : Fin 1 => ![9, 9, 0]) = some s) ∧
    ∀ i, 1 ≤ axisDistance planar ![9, 9, 0] (triangle i) := by
  refine ⟨⟨polynomialC0 (1 / 1), some (1 / (1 / 1)), true⟩, ?_, ?_, ?_⟩
  · unfold constructRBF compact
    simp only
    rw [if_pos (by unfold tiny; norm_num)]
  · have hφ : polynomialC0 (1 / 1) = compactC0 := by
      funext r
      simp [polynomialC0, compactC0, C98_power]
    simp only [hφ]
    exact (triangle_constructs _).1
  · intro i
    unfold axisDistance
    rw [Real.one_le_sqrt, squaredDifference_planar]
    fin_cases i <;> simp [triangle] <;> norm_num

end Verif.Basis
