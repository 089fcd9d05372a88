import Verif.Accel.SVDProps
import Mathlib.Analysis.InnerProductSpace.SingularValues
import Mathlib.Analysis.InnerProductSpace.PiL2

/-!
# C102: the assumption about the singular value decomposition can be met, and what changing weights do
-/

set_option autoImplicit false
set_option linter.unusedSectionVars false

namespace Verif.Accel.Svd

open Finset Matrix Module InnerProductSpace

section Exists

variable {m n : Type} [Fintype m] [Fintype n] [DecidableEq m] [DecidableEq n]

theorem sum_castLE_of {k t : ℕ} (h : k ≤ t) (f : Fin t → ℝ) (h0 : ∀ i : Fin t, k ≤ i.1 → f i = 0) : ∑ j : Fin k, f (Fin.castLE h j) = ∑ j, f j := by
  rw [sum_castLE]
  refine Finset.sum_congr rfl fun j _ => ?_
  split_ifs with hj
  · rfl
  · exact (h0 j (not_lt.1 hj)).symm

theorem basis_orth {k t : ℕ} (u : OrthonormalBasis (Fin t) ℝ (EuclideanSpace ℝ m)) (h : k ≤ t) :
    (Matrix.of fun x (j : Fin k) => u (Fin.castLE h j) x)ᵀ * (Matrix.of fun x (j : Fin k) => u (Fin.castLE h j) x) = 1 := by
  ext i j
  rw [Matrix.mul_apply, Matrix.one_apply]
  have := orthonormal_iff_ite.1 u.orthonormal (Fin.castLE h i) (Fin.castLE h j)
  rw [PiLp.inner_apply] at this
  refine Eq.trans ?_ (this.trans (if_congr (by rw [Fin.ext_iff, Fin.ext_iff]; rfl) rfl rfl))
  refine Finset.sum_congr rfl fun x _ => ?_
  exact mul_comm _ _

/-- Every matrix has a singular value decomposition. -/
theorem exists_svd (K : Matrix m n ℝ) : ∃ d : Thin m n, d.IsSvd K := by
  classical
  let T : EuclideanSpace ℝ n →ₗ[ℝ] EuclideanSpace ℝ m := toEuclideanLin K
  have hN : finrank ℝ (EuclideanSpace ℝ n) = Fintype.card n := finrank_euclideanSpace
  have hM : finrank ℝ (EuclideanSpace ℝ m) = Fintype.card (Fin (Fintype.card m)) := by rw [finrank_euclideanSpace, Fintype.card_fin]
  let hT := T.isSymmetric_adjoint_comp_self
  let b := hT.eigenvectorBasis hN
  let σ : ℕ → ℝ := fun i => T.singularValues i
  have hip : ∀ i j : Fin (Fintype.card n), ⟪T (b i), T (b j)⟫_ℝ = if i = j then σ i ^ 2 else 0 := by
    intro i j
    rw [← LinearMap.adjoint_inner_right]
    have := hT.apply_eigenvectorBasis hN j
    rw [LinearMap.comp_apply] at this
    rw [this, inner_smul_right, orthonormal_iff_ite.1 b.orthonormal i j]
    by_cases hij : i = j
    · subst hij
      rw [if_pos rfl, if_pos rfl, mul_one]
      exact (T.sq_singularValues_fin hN i).symm
    · rw [if_neg hij, if_neg hij, mul_zero]
  have hzero : ∀ i : Fin (Fintype.card n), σ i = 0 → T (b i) = 0 := by
    intro i hi
    have := hip i i
    rw [if_pos rfl, hi] at this
    simpa using this
  have hlt : ∀ i : ℕ, σ i ≠ 0 → i < Fintype.card m := by
    intro i hi
    have h1 := (T.singularValues_pos_iff_lt_finrank_range).1 ((T.singularValues_pos_iff_ne_zero i).2 hi)
    have h2 : finrank ℝ T.range ≤ finrank ℝ (EuclideanSpace ℝ m) := Submodule.finrank_le _
    rw [finrank_euclideanSpace] at h2
    omega
  let v : Fin (Fintype.card m) → EuclideanSpace ℝ m := fun i => if h : i.1 < Fintype.card n then (1 / σ i) • T (b ⟨i, h⟩) else 0
  let S : Set (Fin (Fintype.card m)) := {i | i.1 < Fintype.card n ∧ σ i ≠ 0}
  have hv : Orthonormal ℝ (S.domRestrict v) := by
    rw [orthonormal_iff_ite]
    rintro ⟨i, hi⟩ ⟨j, hj⟩
    show ⟪v i, v j⟫_ℝ = _
    simp only [v]
    rw [dif_pos hi.1, dif_pos hj.1, inner_smul_left, inner_smul_right, hip]
    by_cases hij : i = j
    · subst hij
      rw [if_pos rfl, if_pos rfl]
      have := hi.2
      simp only [conj_trivial]
      field_simp
    · rw [if_neg (fun e => hij (Fin.ext (Fin.mk.inj e))), if_neg (fun e => hij (Subtype.mk.inj e)), mul_zero, mul_zero]
  obtain ⟨u, hu⟩ := hv.exists_orthonormalBasis_extension_of_card_eq hM
  have h1 : min (Fintype.card m) (Fintype.card n) ≤ Fintype.card m := min_le_left _ _
  have h2 : min (Fintype.card m) (Fintype.card n) ≤ Fintype.card n := min_le_right _ _
  refine ⟨⟨min (Fintype.card m) (Fintype.card n), Matrix.of fun x j => u (Fin.castLE h1 j) x, fun j => σ j, Matrix.of fun y j => b (Fin.castLE h2 j) y⟩, rfl, ?_, ?_, ?_, ?_, ?_⟩
  · ext x y
    rw [Matrix.mul_apply]
    simp only [mul_diagonal, transpose_apply, Matrix.of_apply]
    have e1 : K x y = T (EuclideanSpace.single y 1) x := by
      simp [T, toEuclideanLin]
    have e2 : T (EuclideanSpace.single y 1) x = ∑ i, b i y * T (b i) x := by
      conv_lhs => rw [← b.sum_repr' (EuclideanSpace.single y 1)]
      rw [map_sum]
      simp [EuclideanSpace.inner_single_right]
    rw [e1, e2, ← sum_castLE_of h2 (fun i => b i y * T (b i) x)]
    · refine Finset.sum_congr rfl fun j _ => ?_
      by_cases hj : σ j = 0
      · rw [hj, mul_zero, zero_mul, hzero (Fin.castLE h2 j) hj]
        simp
      · rw [hu (Fin.castLE h1 j) ⟨(Fin.castLE h2 j).2, hj⟩]
        simp only [v]
        rw [dif_pos (show (Fin.castLE h1 j).1 < Fintype.card n from (Fin.castLE h2 j).2)]
        simp only [PiLp.smul_apply, smul_eq_mul, Fin.val_castLE]
        show b (Fin.castLE h2 j) y * T (b (Fin.castLE h2 j)) x = 1 / σ j * T (b (Fin.castLE h2 j)) x * σ j * b (Fin.castLE h2 j) y
        field_simp
    · intro i hi
      have : σ i = 0 := by
        by_contra hn
        have := hlt i hn
        omega
      rw [hzero i this]
      simp
  · exact basis_orth u h1
  · exact basis_orth b h2
  · exact fun i => T.singularValues_nonneg i
  · exact fun i j hij => T.singularValues_antitone hij

end Exists

/-- The assumption about Eigen can be met. -/
theorem exists_solver : ∃ svd : Solver, svd.Correct :=
  ⟨fun _ _ _ K => Classical.choose (exists_svd K), fun _ _ _ K => Classical.choose_spec (exists_svd K)⟩

/-! ## Weights that change between restarts -/

section Weights

open scoped Matrix.Norms.L2Operator

variable {ι κ : Type} [Fintype ι] [Fintype κ] [DecidableEq ι] [DecidableEq κ]

theorem close_empty {w : Weights ι κ} {f : Factor ι κ} (h : f.W = []) {D : Matrix κ ι ℝ} (hD : Close w f D) : D = 0 := by
  obtain ⟨A, B, -, -, rfl⟩ := hD
  ext k i
  rw [Matrix.mul_apply]
  have : IsEmpty (Fin f.W.length) := by rw [h]; exact Fin.isEmpty'
  exact Finset.sum_of_isEmpty _

/-- C102 is false if the weights change: after a restart with weights `w₀` a window that stores nothing and triggers a restart with weights `w` gives, up to the truncation, the Jacobian whose
representation in the variables scaled with `w` is the old one in the variables scaled with `w₀`. -/
theorem C102_changed_weights {svd : Solver} (hsvd : svd.Correct) {eps : ℝ} (he : 0 ≤ eps) {size : ℕ} {w₀ w : Weights ι κ} {s s' : Store ι κ} {f : Factor ι κ} (hr : Runs svd eps size w₀ s)
    (hs : s.svd.isSome) (hl : s.chunk.length = 1) (hsize : size ≤ 1) (hf : f.W = []) (hw : w.Ok) (h : s.window svd eps size w f = some s') :
    ‖scale w (kept s'.chunk) - scale w₀ (kept s.chunk)‖ ≤ eps * ‖scale w₀ (kept s.chunk)‖ := by
  obtain ⟨Δ, hΔ, hE⟩ := C102_restart hsvd he hr (show Fits f by simp [Fits, hf]) hw (by omega) h
  obtain ⟨g, hg⟩ := List.length_eq_one_iff.1 hl
  have hd : s.done = 1 := if_pos hs
  rw [hd, hg] at hΔ hE
  simp only [List.cons_append, List.nil_append, List.drop_succ_cons, List.drop_zero, List.take_succ_cons, List.take_zero] at hΔ hE
  cases hΔ with
  | cons h1 h2 =>
    cases h2
    rw [close_empty hf h1] at hE
    rw [hg]
    simpa using hE

theorem abs_le_l2 (x : ι → ℝ) (i : ι) : |x i| ≤ l2 x := by
  unfold l2 ip
  rw [← Real.sqrt_sq_eq_abs, sq]
  exact Real.sqrt_le_sqrt (Finset.single_le_sum (f := fun i => x i * x i) (fun j _ => mul_self_nonneg (x j)) (Finset.mem_univ i))

theorem dblMin_lt : dblMin < 1 / 2 := by
  unfold dblMin
  rw [one_div_lt_one_div (by positivity) (by norm_num)]
  calc (2 : ℝ) = 2 ^ 1 := by norm_num
    _ < 2 ^ 1022 := pow_lt_pow_right₀ (by norm_num) (by norm_num)

/-- A window with one column. -/
def oneColumn : Factor (Fin 2) (Fin 2) := ⟨[fun k => if k = 0 then 1 else 0], fun _ i => if i = 1 then 1 else 0⟩

/-- A window without columns. -/
def noColumn : Factor (Fin 2) (Fin 2) := ⟨[], fun _ _ => 0⟩

/-- All weights are one. -/
def ones : Weights (Fin 2) (Fin 2) := ⟨fun _ => 1, fun _ => 1⟩

/-- The second weight is two. -/
def onetwo : Weights (Fin 2) (Fin 2) := ⟨fun k => if k = 0 then 1 else 2, fun k => if k = 0 then 1 else 2⟩

theorem ones_ok : ones.Ok := ⟨fun _ => one_ne_zero, fun _ => one_ne_zero⟩

theorem onetwo_ok : onetwo.Ok := by
  constructor <;> intro k <;> show (if k = 0 then (1 : ℝ) else 2) ≠ 0 <;> split_ifs <;> norm_num

/-- C102 is false if the weights change, even without truncation: a window that stores nothing doubles an entry of the Jacobian. -/
theorem C102_doubled {svd : Solver} (hsvd : svd.Correct) : ∃ (s s' : Store (Fin 2) (Fin 2)), Runs svd 0 1 ones s ∧ s.window svd 0 1 onetwo noColumn = some s' ∧ matrixOf noColumn = 0 ∧
    kept s.chunk 0 1 ≠ 0 ∧ kept s'.chunk 0 1 = 2 * kept s.chunk 0 1 := by
  have hA : ∃ j, dblMin < l2 fun x => scaledW ones oneColumn x j := ⟨(0 : Fin 1), by
    refine (dblMin_lt.trans (show (1 / 2 : ℝ) < 1 by norm_num)).trans_le (le_trans (le_of_eq ?_) (abs_le_l2 _ 0))
    show (1 : ℝ) = |(if (0 : Fin 2) = 0 then 1 else 0) * 1|
    simp⟩
  have hB : ∃ j, dblMin < l2 fun x => scaledZ ones oneColumn x j := ⟨(0 : Fin 1), by
    refine (dblMin_lt.trans (show (1 / 2 : ℝ) < 1 by norm_num)).trans_le (le_trans (le_of_eq ?_) (abs_le_l2 _ 1))
    show (1 : ℝ) = |(if (1 : Fin 2) = 1 then 1 else 0) * (1 / 1)|
    simp⟩
  have fits1 : Fits oneColumn := by constructor <;> simp [oneColumn]
  have fits0 : Fits noColumn := by constructor <;> simp [noColumn]
  obtain ⟨d1, hd1, hc1⟩ := C102_first_update_defined hsvd zero_le_one fits1.1 fits1.2 hA hB
  obtain ⟨d2, hd2, hc2⟩ := C102_update_defined hsvd zero_le_one hc1 (scaledW ones noColumn) (scaledZ ones noColumn)
  obtain ⟨d3, hd3, hc3⟩ := C102_update_defined hsvd zero_le_one hc2 (scaledW onetwo noColumn) (scaledZ onetwo noColumn)
  have r1 : Runs svd 0 1 ones (⟨none, [oneColumn]⟩ : Store (Fin 2) (Fin 2)) := Runs.stored (w := ones) (Runs.init ones ones_ok) fits1 (by simp [Store.init]) rfl
  have w2 : (⟨none, [oneColumn]⟩ : Store (Fin 2) (Fin 2)).window svd 0 1 ones noColumn = some ⟨some d2, [d2.factor ones]⟩ := by
    unfold Store.window Store.restart
    simp only [updates, List.cons_append, List.nil_append, hd1, hd2, Option.bind_some, List.length_cons, List.length_nil, Option.map_some]
    rfl
  have r2 : Runs svd 0 1 ones (⟨some d2, [d2.factor ones]⟩ : Store (Fin 2) (Fin 2)) := Runs.restarted r1 fits0 ones_ok (by simp) w2
  have w3 : (⟨some d2, [d2.factor ones]⟩ : Store (Fin 2) (Fin 2)).window svd 0 1 onetwo noColumn = some ⟨some d3, [d3.factor onetwo]⟩ := by
    unfold Store.window Store.restart
    simp only [updates, List.cons_append, List.nil_append, List.drop_succ_cons, List.drop_zero, hd3, Option.bind_some, List.length_cons, List.length_nil, Option.map_some]
    rfl
  refine ⟨_, _, r2, w3, ?_, ?_, ?_⟩
  · ext k i
    show ∑ j : Fin (noColumn.W).length, noColumn.Z j i * noColumn.W[j] k = 0
    have : IsEmpty (Fin (noColumn.W).length) := inferInstanceAs (IsEmpty (Fin 0))
    exact Finset.sum_of_isEmpty _
  · obtain ⟨Δ, hΔ, hE⟩ := C102_restart hsvd (le_refl 0) r1 fits0 ones_ok (by simp) w2
    have hd : (⟨none, [oneColumn]⟩ : Store (Fin 2) (Fin 2)).done = 0 := rfl
    rw [hd] at hΔ hE
    simp only [List.cons_append, List.nil_append, List.drop_zero, List.take_zero] at hΔ hE
    cases hΔ with
    | cons h1 h2 =>
      cases h2 with
      | cons h3 h4 =>
        cases h4
        rw [close_empty rfl h3] at hE
        obtain ⟨A, B, hA', hB', rfl⟩ := h1
        have e := sub_eq_zero.1 (norm_le_zero_iff.1 (hE.trans_eq (by simp)))
        have e01 := congrFun (congrFun e 0) 1
        rw [show scale ones (kept ([] : List (Factor (Fin 2) (Fin 2)))) = 0 from scale_zero _, zero_add, List.sum_cons, List.sum_cons, List.sum_nil, add_zero, add_zero] at e01
        have e1 : kept [d2.factor ones] 0 1 = A 0 (0 : Fin 1) * B 1 (0 : Fin 1) := by
          refine Eq.trans ?_ (e01.trans ?_)
          · show _ = 1 * kept [d2.factor ones] 0 1 * (1 / 1)
            ring
          · rw [Matrix.mul_apply]
            exact Fin.sum_univ_one _
        have a1 := (abs_le_l2 _ 0).trans (hA' (0 : Fin 1))
        have b1 := (abs_le_l2 _ 1).trans (hB' (0 : Fin 1))
        have a2 : |1 - A 0 (0 : Fin 1)| < 1 / 2 := by
          refine lt_of_le_of_lt (le_of_eq_of_le ?_ a1) dblMin_lt
          show _ = |(if (0 : Fin 2) = 0 then 1 else 0) * 1 - A 0 (0 : Fin 1)|
          simp
        have b2 : |1 - B 1 (0 : Fin 1)| < 1 / 2 := by
          refine lt_of_le_of_lt (le_of_eq_of_le ?_ b1) dblMin_lt
          show _ = |(if (1 : Fin 2) = 1 then 1 else 0) * (1 / 1) - B 1 (0 : Fin 1)|
          simp
        rw [abs_lt] at a2 b2
        rw [e1]
        have : 0 < A 0 (0 : Fin 1) * B 1 (0 : Fin 1) := mul_pos (by linarith) (by linarith)
        exact this.ne'
  · have hE := C102_changed_weights hsvd (le_refl 0) r2 rfl rfl (le_refl 1) rfl onetwo_ok w3
    have e := sub_eq_zero.1 (norm_le_zero_iff.1 (hE.trans_eq (by simp)))
    have e01 := congrFun (congrFun e 0) 1
    have e1 : scale onetwo (kept [d3.factor onetwo]) 0 1 = kept [d3.factor onetwo] 0 1 / 2 := by
      show 1 * kept [d3.factor onetwo] 0 1 * (1 / 2) = _
      ring
    have e2 : scale ones (kept [d2.factor ones]) 0 1 = kept [d2.factor ones] 0 1 := by
      show 1 * kept [d2.factor ones] 0 1 * (1 / 1) = _
      ring
    simp only at e01
    rw [e1, e2] at e01
    show kept [d3.factor onetwo] 0 1 = 2 * kept [d2.factor ones] 0 1
    linarith

end Weights

/-- The hypotheses of the theorems can be met: a run with a restart. -/
example : ∃ (svd : Solver) (s : Store (Fin 2) (Fin 2)), svd.Correct ∧ Runs svd 0 1 ones s ∧ kept s.chunk 0 1 ≠ 0 := by
  obtain ⟨svd, h⟩ := exists_solver
  obtain ⟨s, -, hr, -, -, hk, -⟩ := C102_doubled h
  exact ⟨svd, s, h, hr, hk⟩

end Verif.Accel.Svd
