import Verif.Accel.SVDLemmas
import Mathlib.LinearAlgebra.Matrix.Rank
import Mathlib.Data.List.TakeWhile

/-!
# C102: RS-SVD keeps the Jacobian up to the truncation threshold
-/

set_option autoImplicit false
set_option linter.unusedSectionVars false

namespace Verif.Accel.Svd

open Finset Matrix
open scoped Matrix.Norms.L2Operator

variable {ι κ : Type} [Fintype ι] [Fintype κ] [DecidableEq ι] [DecidableEq κ]

/-- What is assumed of Eigen. -/
def Solver.Correct (svd : Solver) : Prop := ∀ (c a b : ℕ) (K : Matrix (Fin c ⊕ Fin a) (Fin c ⊕ Fin b) ℝ), (svd c a b K).IsSvd K

/-! ## Truncation -/

theorem norm_le_one {c : ℕ} {U : Matrix ι (Fin c) ℝ} (h : Uᵀ * U = 1) : ‖U‖ ≤ 1 := by
  have h1 := Matrix.l2_opNorm_conjTranspose_mul_self U
  rw [conjTranspose_eq_transpose_of_trivial, h] at h1
  have h2 : ‖(1 : Matrix (Fin c) (Fin c) ℝ)‖ ≤ 1 := by
    rw [← diagonal_one, Matrix.l2_opNorm_diagonal]
    exact (pi_norm_le_iff_of_nonneg zero_le_one).2 fun _ => by simp
  nlinarith [norm_nonneg U]

theorem norm_transpose (U : Matrix ι κ ℝ) : ‖Uᵀ‖ = ‖U‖ := by
  rw [← conjTranspose_eq_transpose_of_trivial]
  exact Matrix.l2_opNorm_conjTranspose U

theorem norm_product_le {c : ℕ} {U : Matrix κ (Fin c) ℝ} {V : Matrix ι (Fin c) ℝ} (hU : Uᵀ * U = 1) (hV : Vᵀ * V = 1) (D : Matrix (Fin c) (Fin c) ℝ) : ‖U * D * Vᵀ‖ ≤ ‖D‖ := by
  have h1 := Matrix.l2_opNorm_mul (U * D) Vᵀ
  have h2 := Matrix.l2_opNorm_mul U D
  have h3 := norm_le_one hU
  have h4 := norm_le_one hV
  rw [norm_transpose] at h1
  have := norm_nonneg D
  have := norm_nonneg U
  have := norm_nonneg V
  calc _ ≤ ‖U * D‖ * ‖V‖ := h1
    _ ≤ ‖U * D‖ * 1 := mul_le_mul_of_nonneg_left h4 (norm_nonneg _)
    _ = ‖U * D‖ := mul_one _
    _ ≤ ‖U‖ * ‖D‖ := h2
    _ ≤ 1 * ‖D‖ := mul_le_mul_of_nonneg_right h3 (norm_nonneg _)
    _ = ‖D‖ := one_mul _

theorem norm_le_product {c : ℕ} {U : Matrix κ (Fin c) ℝ} {V : Matrix ι (Fin c) ℝ} (hU : Uᵀ * U = 1) (hV : Vᵀ * V = 1) (D : Matrix (Fin c) (Fin c) ℝ) : ‖D‖ ≤ ‖U * D * Vᵀ‖ := by
  have e : D = Uᵀ * (U * D * Vᵀ) * V := by
    rw [← Matrix.mul_assoc, ← Matrix.mul_assoc, hU, Matrix.one_mul, Matrix.mul_assoc, hV, Matrix.mul_one]
  have h1 := Matrix.l2_opNorm_mul (Uᵀ * (U * D * Vᵀ)) V
  have h2 := Matrix.l2_opNorm_mul Uᵀ (U * D * Vᵀ)
  rw [norm_transpose] at h2
  calc ‖D‖ = ‖Uᵀ * (U * D * Vᵀ) * V‖ := by rw [← e]
    _ ≤ ‖Uᵀ * (U * D * Vᵀ)‖ * ‖V‖ := h1
    _ ≤ ‖Uᵀ * (U * D * Vᵀ)‖ * 1 := mul_le_mul_of_nonneg_left (norm_le_one hV) (norm_nonneg _)
    _ = ‖Uᵀ * (U * D * Vᵀ)‖ := mul_one _
    _ ≤ ‖U‖ * ‖U * D * Vᵀ‖ := h2
    _ ≤ 1 * ‖U * D * Vᵀ‖ := mul_le_mul_of_nonneg_right (norm_le_one hU) (norm_nonneg _)
    _ = ‖U * D * Vᵀ‖ := one_mul _

/-- A singular value is at most the norm of the matrix. -/
theorem SVD.Valid.sigma_le {s : SVD κ ι} (h : s.Valid) (j : Fin s.cols) : s.sigma j ≤ ‖s.matrix‖ := by
  refine le_trans ?_ (norm_le_product h.left h.right (diagonal s.sigma))
  rw [Matrix.l2_opNorm_diagonal]
  exact (le_abs_self _).trans (norm_le_pi_norm s.sigma j)

theorem sum_castLE {k t : ℕ} (h : k ≤ t) (f : Fin t → ℝ) : ∑ j : Fin k, f (Fin.castLE h j) = ∑ j : Fin t, if j.1 < k then f j else 0 := by
  obtain ⟨d, rfl⟩ := Nat.exists_eq_add_of_le h
  rw [Fin.sum_univ_add]
  simp only [Fin.val_castAdd, Fin.is_lt, if_true, Fin.val_natAdd, add_lt_iff_neg_left, not_lt_zero, if_false, Finset.sum_const_zero, add_zero]
  rfl

theorem takeWhile_stop {α : Type} (p : α → Bool) : ∀ (l : List α) (h : (l.takeWhile p).length < l.length), p (l[(l.takeWhile p).length]) = false
  | [], h => absurd h (Nat.not_lt_zero _)
  | a :: l, h => by
    by_cases ha : p a = true
    · have e : (a :: l).takeWhile p = a :: l.takeWhile p := List.takeWhile_cons_of_pos ha
      have h' : (l.takeWhile p).length < l.length := by
        rw [e] at h
        simpa using h
      have := takeWhile_stop p l h'
      simp only [e, List.length_cons, List.getElem_cons_succ]
      exact this
    · have e : (a :: l).takeWhile p = [] := List.takeWhile_cons_of_neg ha
      simp only [e, List.length_nil, List.getElem_cons_zero]
      simpa using ha

theorem resize_matrix (s : SVD κ ι) (k : ℕ) (h : k ≤ s.cols) : (s.resize k h).matrix = s.matrix - s.psi * diagonal (fun j => if j.1 < k then 0 else s.sigma j) * s.phiᵀ := by
  ext x y
  have e : ∀ (t : ℕ) (U : Matrix κ (Fin t) ℝ) (d : Fin t → ℝ) (V : Matrix ι (Fin t) ℝ), (U * diagonal d * Vᵀ) x y = ∑ j, U x j * d j * V y j := fun t U d V => by
    rw [Matrix.mul_apply]
    simp only [mul_diagonal, transpose_apply]
  rw [Matrix.sub_apply, SVD.matrix, SVD.matrix, e, e, e, ← Finset.sum_sub_distrib]
  refine (sum_castLE h fun j => s.psi x j * s.sigma j * s.phi y j).trans (Finset.sum_congr rfl fun j _ => ?_)
  split_ifs <;> ring

theorem SVD.Valid.resize {s : SVD κ ι} (h : s.Valid) (k : ℕ) (hk : k ≤ s.cols) : (s.resize k hk).Valid := by
  have e : ∀ {α : Type} [Fintype α] (U : Matrix α (Fin s.cols) ℝ), Uᵀ * U = 1 → (U.submatrix id (Fin.castLE hk))ᵀ * U.submatrix id (Fin.castLE hk) = 1 := by
    intro α _ U hU
    ext i j
    have := congrFun (congrFun hU (Fin.castLE hk i)) (Fin.castLE hk j)
    rw [Matrix.mul_apply, Matrix.one_apply] at this
    rw [Matrix.mul_apply, Matrix.one_apply]
    refine this.trans (if_congr ?_ rfl rfl)
    rw [Fin.ext_iff, Fin.ext_iff]
    rfl
  exact ⟨e _ h.left, e _ h.right, fun i => h.nonneg _, fun i j hij => h.sorted _ _ hij⟩

/-- Singular values that are cut off are small, the others are not. -/
theorem keep_spec {eps : ℝ} {t : ℕ} (σ : Fin t → ℝ) (hs : ∀ i j, i ≤ j → σ j ≤ σ i) :
    (∀ j : Fin t, keep eps (List.ofFn σ) ≤ j → σ j < σ ⟨0, Nat.lt_of_le_of_lt (Nat.zero_le _) j.2⟩ * eps) ∧
    ∀ j : Fin t, j < keep eps (List.ofFn σ) → σ ⟨0, Nat.lt_of_le_of_lt (Nat.zero_le _) j.2⟩ * eps ≤ σ j := by
  classical
  cases t with
  | zero => exact ⟨fun j => j.elim0, fun j => j.elim0⟩
  | succ t =>
    have e : keep eps (List.ofFn σ) = ((List.ofFn σ).takeWhile fun x => decide (¬ x < σ 0 * eps)).length := by
      conv_lhs => rw [List.ofFn_succ]
      unfold keep
      simp only
      congr 1
      rw [List.ofFn_succ]
    constructor
    · intro j hj
      rw [e] at hj
      have hlt : ((List.ofFn σ).takeWhile fun x => decide (¬ x < σ 0 * eps)).length < (List.ofFn σ).length := by
        rw [List.length_ofFn]; omega
      have h1 := takeWhile_stop _ _ hlt
      rw [decide_eq_false_iff_not, not_not, List.getElem_ofFn] at h1
      exact (hs _ j hj).trans_lt h1
    · intro j hj
      rw [e] at hj
      have h1 : ((List.ofFn σ).takeWhile fun x => decide (¬ x < σ 0 * eps))[j.1] ∈ (List.ofFn σ).takeWhile fun x => decide (¬ x < σ 0 * eps) := List.getElem_mem _
      have h2 := List.mem_takeWhile_imp h1
      rw [decide_eq_true_iff, not_lt] at h2
      rw [List.IsPrefix.getElem (List.takeWhile_prefix _), List.getElem_ofFn] at h2
      exact h2

/-- Truncation changes the matrix by at most `eps` times its norm. -/
theorem truncate_error {eps : ℝ} (he : 0 ≤ eps) {s : SVD κ ι} (h : s.Valid) : ‖(s.truncate eps).matrix - s.matrix‖ ≤ eps * ‖s.matrix‖ := by
  unfold SVD.truncate
  rw [resize_matrix, sub_sub_cancel_left, norm_neg]
  refine (norm_product_le h.left h.right _).trans ?_
  rw [Matrix.l2_opNorm_diagonal, pi_norm_le_iff_of_nonneg (mul_nonneg he (norm_nonneg _))]
  intro j
  split_ifs with hj
  · rw [norm_zero]; exact mul_nonneg he (norm_nonneg _)
  · rw [Real.norm_eq_abs, abs_of_nonneg (h.nonneg j)]
    refine ((keep_spec s.sigma h.sorted).1 j (not_lt.1 hj)).le.trans ?_
    rw [mul_comm]
    exact mul_le_mul_of_nonneg_left (h.sigma_le _) he

theorem truncate_valid {eps : ℝ} {s : SVD κ ι} (h : s.Valid) : (s.truncate eps).Valid := h.resize _ _

/-! ## One update -/

/-- C102: an update replaces the decomposition of `J` by one of `J + A Bᵀ` with orthonormal singular vectors and singular values that are not negative, in decreasing order and not smaller than
`eps` times the largest one. The error is at most `eps` times the norm of the sum. (Columns of `A` and `B` may be changed by at most `dblMin`, the smallest positive normalised number of the code.) -/
theorem C102_update {svd : Solver} (hsvd : svd.Correct) {eps : ℝ} (he : 0 ≤ eps) {s s' : SVD κ ι} (hs : s.Valid) {m : ℕ} {A : Matrix κ (Fin m) ℝ} {B : Matrix ι (Fin m) ℝ}
    (h1 : m ≤ Fintype.card κ) (h2 : m ≤ Fintype.card ι) (h : s.update svd eps A B = some s') :
    s'.Valid ∧ (∀ i j, s'.sigma i * eps ≤ s'.sigma j) ∧
      ∃ A' B', Near A A' ∧ Near B B' ∧ ‖s'.matrix - (s.matrix + A' * B'ᵀ)‖ ≤ eps * ‖s.matrix + A' * B'ᵀ‖ := by
  unfold SVD.update at h
  simp only at h
  split_ifs at h
  obtain rfl := Option.some.inj h
  have hg := grow_valid hs h1 h2 hsvd (A := A) (B := B)
  refine ⟨truncate_valid hg, fun i j => ?_, approx s.psi A, approx s.phi B, near_approx _ _ h1, near_approx _ _ h2, ?_⟩
  · have hk := (keep_spec (eps := eps) (s.grow svd A B).sigma hg.sorted).2 (Fin.castLE (show keep eps (List.ofFn (s.grow svd A B).sigma) ≤ _ by simpa using keep_le eps (List.ofFn (s.grow svd A B).sigma)) j) j.2
    refine le_trans ?_ hk
    exact mul_le_mul_of_nonneg_right (hg.sorted _ _ (Nat.zero_le _)) he
  · rw [← grow_matrix hsvd]
    exact truncate_error he hg

/-- C102: the decomposition is never larger than the matrix. -/
theorem C102_rank {s : SVD κ ι} (h : s.Valid) : s.cols ≤ Fintype.card κ ∧ s.cols ≤ Fintype.card ι := by
  have e : ∀ {α : Type} [Fintype α] {c : ℕ} (U : Matrix α (Fin c) ℝ), Uᵀ * U = 1 → c ≤ Fintype.card α := by
    intro α _ c U hU
    have h1 : (Uᵀ * U).rank = c := by rw [hU, rank_one, Fintype.card_fin]
    calc c = (Uᵀ * U).rank := h1.symm
      _ ≤ U.rank := rank_mul_le_right _ _
      _ ≤ Fintype.card α := rank_le_card_height _
  exact ⟨e _ h.left, e _ h.right⟩

/-- C102: once there is a decomposition, updates do not fail (thresholds up to one). -/
theorem C102_update_defined {svd : Solver} (hsvd : svd.Correct) {eps : ℝ} (he : eps ≤ 1) {s : SVD κ ι} (hs : 0 < s.cols) {m : ℕ} (A : Matrix κ (Fin m) ℝ) (B : Matrix ι (Fin m) ℝ) :
    ∃ s', s.update svd eps A B = some s' ∧ 0 < s'.cols := by
  have hd := hsvd _ _ _ (small s A B (decompose (A - s.psi * (s.psiᵀ * A))) (decompose (B - s.phi * (s.phiᵀ * B))))
  have hsize : 0 < (s.grow svd A B).cols := by
    show 0 < (svd _ _ _ _).size
    rw [hd.size, Fintype.card_sum, Fintype.card_sum, Fintype.card_fin, Fintype.card_fin]
    omega
  have hk : 0 < ((s.grow svd A B).truncate eps).cols := by
    show 0 < keep eps (List.ofFn (s.grow svd A B).sigma)
    by_contra hn
    have := (keep_spec (eps := eps) (s.grow svd A B).sigma hd.sorted).1 ⟨0, hsize⟩ (by simpa using hn)
    have h0 : 0 ≤ (s.grow svd A B).sigma ⟨0, hsize⟩ := hd.nonneg _
    nlinarith
  refine ⟨(s.grow svd A B).truncate eps, ?_, hk⟩
  unfold SVD.update
  rw [if_neg hk.ne']

/-- C102: the first update does not fail if both factors have a column that is not zero. -/
theorem C102_first_update_defined {svd : Solver} (hsvd : svd.Correct) {eps : ℝ} (he : eps ≤ 1) {m : ℕ} {A : Matrix κ (Fin m) ℝ} {B : Matrix ι (Fin m) ℝ}
    (h1 : m ≤ Fintype.card κ) (h2 : m ≤ Fintype.card ι) (hA : ∃ j, dblMin < l2 fun x => A x j) (hB : ∃ j, dblMin < l2 fun x => B x j) :
    ∃ s', (SVD.empty : SVD κ ι).update svd eps A B = some s' ∧ 0 < s'.cols := by
  have e : ∀ {α : Type} [Fintype α] (C : Matrix α (Fin m) ℝ) (U : Matrix α (Fin 0) ℝ), m ≤ Fintype.card α → (∃ j, dblMin < l2 fun x => C x j) → 0 < (decompose (C - U * (Uᵀ * C))).cols := by
    intro α _ C U hm ⟨j, hj⟩
    have hU : U * (Uᵀ * C) = 0 := by
      ext x y
      rw [Matrix.mul_apply]
      exact Finset.sum_of_isEmpty _
    rw [hU, sub_zero]
    by_contra hn
    have h0 : (decompose C).cols = 0 := by omega
    have := (decompose_parts C hm).near j (by simp [cols])
    rw [h0] at this
    simp only [Finset.range_zero, Finset.sum_empty, sub_zero] at this
    unfold cols at this
    simp only [List.getElem_ofFn] at this
    exact absurd this (not_le.2 hj)
  set s : SVD κ ι := SVD.empty
  have hd := hsvd _ _ _ (small s A B (decompose (A - s.psi * (s.psiᵀ * A))) (decompose (B - s.phi * (s.phiᵀ * B))))
  have hsize : 0 < (s.grow svd A B).cols := by
    show 0 < (svd _ _ _ _).size
    rw [hd.size, Fintype.card_sum, Fintype.card_sum, Fintype.card_fin, Fintype.card_fin, Fintype.card_fin]
    exact lt_min (Nat.lt_of_lt_of_le (e A s.psi h1 hA) (Nat.le_add_left _ _)) (Nat.lt_of_lt_of_le (e B s.phi h2 hB) (Nat.le_add_left _ _))
  have hk : 0 < ((s.grow svd A B).truncate eps).cols := by
    show 0 < keep eps (List.ofFn (s.grow svd A B).sigma)
    by_contra hn
    have := (keep_spec (eps := eps) (s.grow svd A B).sigma hd.sorted).1 ⟨0, hsize⟩ (by simpa using hn)
    have h0 : 0 ≤ (s.grow svd A B).sigma ⟨0, hsize⟩ := hd.nonneg _
    nlinarith
  refine ⟨(s.grow svd A B).truncate eps, ?_, hk⟩
  unfold SVD.update
  rw [if_neg hk.ne']

/-- C102 is false for a first stored factor without columns (a first window that converges in its first iteration): there is no singular value, but the first one is read. -/
theorem C102_empty_first {svd : Solver} (hsvd : svd.Correct) {eps : ℝ} (A : Matrix κ (Fin 0) ℝ) (B : Matrix ι (Fin 0) ℝ) : (SVD.empty : SVD κ ι).update svd eps A B = none := by
  have hd := hsvd _ _ _ (small (SVD.empty : SVD κ ι) A B (decompose (A - (SVD.empty : SVD κ ι).psi * ((SVD.empty : SVD κ ι).psiᵀ * A)))
    (decompose (B - (SVD.empty : SVD κ ι).phi * ((SVD.empty : SVD κ ι).phiᵀ * B))))
  have hg : ((SVD.empty : SVD κ ι).grow svd A B).cols = 0 := by
    refine hd.size.trans ?_
    rw [Fintype.card_sum, Fintype.card_sum, Fintype.card_fin, Fintype.card_fin, Fintype.card_fin]
    rfl
  unfold SVD.update
  rw [if_pos]
  have := keep_le eps (List.ofFn ((SVD.empty : SVD κ ι).grow svd A B).sigma)
  rw [List.length_ofFn] at this
  exact Nat.le_zero.1 (this.trans_eq hg)

/-! ## Restarts -/

/-- Specification: the matrix of a stored factor. -/
def matrixOf (f : Factor ι κ) : Matrix κ ι ℝ := Matrix.of (product f.W f.Z)

/-- Specification: the Jacobian that stored factors represent. -/
def kept (l : List (Factor ι κ)) : Matrix κ ι ℝ := (l.map matrixOf).sum

/-- Specification: the matrix in scaled variables. -/
noncomputable def scale (w : Weights ι κ) (J : Matrix κ ι ℝ) : Matrix κ ι ℝ := Matrix.of fun k i => w.all k * J k i * (1 / w.primary i)

/-- Weights are not zero (C77). -/
def Weights.Ok (w : Weights ι κ) : Prop := (∀ k, w.all k ≠ 0) ∧ ∀ i, w.primary i ≠ 0

/-- A factor has no more columns than rows. -/
def Fits (f : Factor ι κ) : Prop := f.W.length ≤ Fintype.card κ ∧ f.W.length ≤ Fintype.card ι

/-- The scaled product of the factor, up to a change of the columns by the smallest positive number. -/
def Close (w : Weights ι κ) (f : Factor ι κ) (Δ : Matrix κ ι ℝ) : Prop := ∃ A' B', Near (scaledW w f) A' ∧ Near (scaledZ w f) B' ∧ Δ = A' * B'ᵀ

theorem scaled_product (w : Weights ι κ) (f : Factor ι κ) : scaledW w f * (scaledZ w f)ᵀ = scale w (matrixOf f) := by
  ext k i
  rw [Matrix.mul_apply]
  show ∑ j : Fin f.W.length, f.W[j] k * w.all k * (f.Z j i * (1 / w.primary i)) = w.all k * (∑ j : Fin f.W.length, f.Z j i * f.W[j] k) * (1 / w.primary i)
  rw [Finset.mul_sum, Finset.sum_mul]
  exact Finset.sum_congr rfl fun j _ => by ring

theorem scale_add (w : Weights ι κ) (J J' : Matrix κ ι ℝ) : scale w (J + J') = scale w J + scale w J' := by
  ext k i
  show w.all k * (J k i + J' k i) * (1 / w.primary i) = w.all k * J k i * (1 / w.primary i) + w.all k * J' k i * (1 / w.primary i)
  ring

theorem scale_zero (w : Weights ι κ) : scale w (0 : Matrix κ ι ℝ) = 0 := by
  ext k i
  show w.all k * 0 * _ = 0
  ring

theorem scale_kept (w : Weights ι κ) : ∀ l : List (Factor ι κ), scale w (kept l) = (l.map fun f => scale w (matrixOf f)).sum
  | [] => scale_zero w
  | f :: l => by
    show scale w (matrixOf f + kept l) = _ + _
    rw [scale_add, scale_kept w l]
    rfl

theorem scale_factor {w : Weights ι κ} (hw : w.Ok) (d : SVD κ ι) : scale w (matrixOf (d.factor w)) = d.matrix := by
  ext k i
  have e : (d.matrix) k i = ∑ j, d.psi k j * d.sigma j * d.phi i j := by
    rw [SVD.matrix, Matrix.mul_apply]
    simp only [mul_diagonal, transpose_apply]
  rw [e]
  show w.all k * (∑ j : Fin (d.factor w).W.length, (d.factor w).Z j i * (d.factor w).W[j] k) * (1 / w.primary i) = _
  have hl : (d.factor w).W.length = d.cols := List.length_ofFn
  rw [← Equiv.sum_comp (finCongr hl.symm), Finset.mul_sum, Finset.sum_mul]
  refine Finset.sum_congr rfl fun j _ => ?_
  have e1 : (d.factor w).Z (finCongr hl.symm j) i = d.phi i j * d.sigma j * w.primary i := by
    show (if h : j.1 < d.cols then d.phi i ⟨j.1, h⟩ * d.sigma ⟨j.1, h⟩ * w.primary i else 0) = _
    rw [dif_pos j.2]
  have e2 : (d.factor w).W[(finCongr hl.symm j)] k = d.psi k j * (1 / w.all k) := by
    exact congrFun (List.getElem_ofFn (f := fun j k => d.psi k j * (1 / w.all k)) _) k
  rw [e1, e2]
  have h1 := hw.1 k
  have h2 := hw.2 i
  field_simp

theorem updates_error {svd : Solver} (hsvd : svd.Correct) {eps : ℝ} (he : 0 ≤ eps) {w : Weights ι κ} : ∀ {l : List (Factor ι κ)} {s s' : SVD κ ι}, s.Valid → (∀ f ∈ l, Fits f) →
    updates svd eps w l s = some s' → s'.Valid ∧ ∃ Δ, List.Forall₂ (Close w) l Δ ∧
      ‖s'.matrix - (s.matrix + Δ.sum)‖ ≤ ((1 + eps) ^ l.length - 1) * (‖s.matrix‖ + (Δ.map fun D => ‖D‖).sum)
  | [], s, s', hs, _, h => by
    obtain rfl := Option.some.inj h
    exact ⟨hs, [], .nil, by simp⟩
  | f :: l, s, s', hs, hf, h => by
    rw [updates, Option.bind_eq_some_iff] at h
    obtain ⟨s1, h1, h⟩ := h
    obtain ⟨hv, -, A', B', hA, hB, hE⟩ := C102_update hsvd he hs (hf f (by simp)).1 (hf f (by simp)).2 h1
    obtain ⟨hv', Δ, hΔ, hE'⟩ := updates_error hsvd he hv (fun g hg => hf g (List.mem_cons_of_mem _ hg)) h
    refine ⟨hv', (A' * B'ᵀ) :: Δ, .cons ⟨A', B', hA, hB, rfl⟩ hΔ, ?_⟩
    rw [List.sum_cons, List.map_cons, List.sum_cons, List.length_cons]
    set D := A' * B'ᵀ
    have hb : 0 ≤ (Δ.map fun D => ‖D‖).sum := List.sum_nonneg (by
      intro x hx
      rw [List.mem_map] at hx
      obtain ⟨y, -, rfl⟩ := hx
      exact norm_nonneg y)
    have n1 : ‖s.matrix + D‖ ≤ ‖s.matrix‖ + ‖D‖ := norm_add_le _ _
    have n2 : ‖s1.matrix‖ ≤ ‖s1.matrix - (s.matrix + D)‖ + ‖s.matrix + D‖ := by
      have := norm_add_le (s1.matrix - (s.matrix + D)) (s.matrix + D)
      rwa [sub_add_cancel] at this
    have n3 : ‖s'.matrix - (s.matrix + (D + Δ.sum))‖ ≤ ‖s'.matrix - (s1.matrix + Δ.sum)‖ + ‖s1.matrix - (s.matrix + D)‖ := by
      have := norm_add_le (s'.matrix - (s1.matrix + Δ.sum)) (s1.matrix - (s.matrix + D))
      refine le_of_eq_of_le ?_ this
      congr 1
      abel
    have hp : 1 ≤ (1 + eps) ^ l.length := one_le_pow₀ (by linarith)
    have ha := norm_nonneg (s.matrix + D)
    have g1 : ((1 + eps) ^ l.length - 1) * (‖s1.matrix‖ + (Δ.map fun D => ‖D‖).sum) ≤ ((1 + eps) ^ l.length - 1) * ((1 + eps) * (‖s.matrix‖ + ‖D‖) + (Δ.map fun D => ‖D‖).sum) := by
      refine mul_le_mul_of_nonneg_left ?_ (by linarith)
      nlinarith
    have g2 : eps * ‖s.matrix + D‖ ≤ eps * (‖s.matrix‖ + ‖D‖) := mul_le_mul_of_nonneg_left n1 he
    rw [pow_succ]
    have g3 : 0 ≤ (1 + eps) ^ l.length * eps * (Δ.map fun D => ‖D‖).sum := mul_nonneg (mul_nonneg (by linarith) he) hb
    nlinarith

/-- Runs: the windows append a factor; `w₀` are the weights at the last restart. -/
inductive Runs (svd : Solver) (eps : ℝ) (size : ℕ) : Weights ι κ → Store ι κ → Prop
  | init (w : Weights ι κ) : w.Ok → Runs svd eps size w Store.init
  | stored {w₀ : Weights ι κ} {s s' : Store ι κ} {w : Weights ι κ} {f : Factor ι κ} : Runs svd eps size w₀ s → Fits f → s.chunk.length < size → s.window svd eps size w f = some s' →
      Runs svd eps size w₀ s'
  | restarted {w₀ : Weights ι κ} {s s' : Store ι κ} {w : Weights ι κ} {f : Factor ι κ} : Runs svd eps size w₀ s → Fits f → w.Ok → size ≤ s.chunk.length → s.window svd eps size w f = some s' →
      Runs svd eps size w s'

/-- Invariant of the runs. -/
structure Inv (w₀ : Weights ι κ) (s : Store ι κ) : Prop where
  ok : w₀.Ok
  none : s.svd = none → ∀ f ∈ s.chunk, Fits f
  some : ∀ d, s.svd = some d → d.Valid ∧ ∃ rest, s.chunk = d.factor w₀ :: rest ∧ ∀ f ∈ rest, Fits f

theorem window_stored {svd : Solver} {eps : ℝ} {size : ℕ} {s s' : Store ι κ} {w : Weights ι κ} {f : Factor ι κ} (hc : s.chunk.length < size) (h : s.window svd eps size w f = some s') :
    s' = { s with chunk := s.chunk ++ [f] } := by
  unfold Store.window at h
  simp only [List.length_append, List.length_singleton] at h
  rw [if_neg (by omega)] at h
  exact (Option.some.inj h).symm

/-- The number of stored factors which are in the decomposition already. -/
def Store.done (s : Store ι κ) : ℕ := if s.svd.isSome then 1 else 0

theorem window_restarted {svd : Solver} (hsvd : svd.Correct) {eps : ℝ} (he : 0 ≤ eps) {size : ℕ} {s s' : Store ι κ} {w₀ w : Weights ι κ} {f : Factor ι κ} (hi : Inv w₀ s) (hf : Fits f)
    (hc : size ≤ s.chunk.length) (h : s.window svd eps size w f = some s') :
    ∃ d, s'.svd = some d ∧ s'.chunk = [d.factor w] ∧ d.Valid ∧ ∃ Δ, List.Forall₂ (Close w) ((s.chunk ++ [f]).drop s.done) Δ ∧
      ‖d.matrix - (scale w₀ (kept ((s.chunk ++ [f]).take s.done)) + Δ.sum)‖ ≤
        ((1 + eps) ^ ((s.chunk ++ [f]).drop s.done).length - 1) * (‖scale w₀ (kept ((s.chunk ++ [f]).take s.done))‖ + (Δ.map fun D => ‖D‖).sum) := by
  unfold Store.window at h
  simp only [List.length_append, List.length_singleton] at h
  rw [if_pos (by omega)] at h
  unfold Store.restart at h
  simp only at h
  unfold Store.done
  cases hs : s.svd with
  | none =>
    rw [hs] at h
    simp only [Option.map_eq_some_iff] at h
    obtain ⟨d, hd, rfl⟩ := h
    refine ⟨d, rfl, rfl, ?_⟩
    obtain ⟨hv, Δ, hΔ, hE⟩ := updates_error hsvd he valid_empty (fun g hg => by
      rcases List.mem_append.1 hg with hg | hg
      · exact hi.none hs g hg
      · rw [List.mem_singleton.1 hg]; exact hf) hd
    refine ⟨hv, Δ, hΔ, ?_⟩
    simp only [Option.isSome_none, Bool.false_eq_true, if_false, List.drop_zero, List.take_zero]
    rw [show kept ([] : List (Factor ι κ)) = 0 from rfl, scale_zero]
    rw [matrix_empty] at hE
    exact hE
  | some d0 =>
    rw [hs] at h
    simp only [Option.map_eq_some_iff] at h
    obtain ⟨d, hd, rfl⟩ := h
    refine ⟨d, rfl, rfl, ?_⟩
    obtain ⟨hv0, rest, hr, hrest⟩ := hi.some d0 hs
    rw [hr] at hd
    obtain ⟨hv, Δ, hΔ, hE⟩ := updates_error hsvd he hv0 (fun g hg => by
      rw [List.cons_append, List.drop_succ_cons, List.drop_zero] at hg
      rcases List.mem_append.1 hg with hg | hg
      · exact hrest g hg
      · rw [List.mem_singleton.1 hg]; exact hf) hd
    refine ⟨hv, Δ, ?_, ?_⟩
    · simp only [Option.isSome_some, if_true]
      rw [hr]
      exact hΔ
    · simp only [Option.isSome_some, if_true]
      rw [hr, show kept ((d0.factor w₀ :: rest ++ [f]).take 1) = matrixOf (d0.factor w₀) from add_zero _, scale_factor hi.ok]
      exact hE

theorem Runs.inv {svd : Solver} (hsvd : svd.Correct) {eps : ℝ} (he : 0 ≤ eps) {size : ℕ} {w₀ : Weights ι κ} {s : Store ι κ} (h : Runs svd eps size w₀ s) : Inv w₀ s := by
  induction h with
  | init w hw => exact ⟨hw, fun _ f hf => absurd hf List.not_mem_nil, fun d hd => absurd hd (by simp [Store.init])⟩
  | stored hr hf hc h ih =>
    obtain rfl := window_stored hc h
    refine ⟨ih.ok, fun hn g hg => ?_, fun d hd => ?_⟩
    · rcases List.mem_append.1 hg with hg | hg
      · exact ih.none hn g hg
      · rw [List.mem_singleton.1 hg]; exact hf
    · obtain ⟨hv, rest, hr', hrest⟩ := ih.some d hd
      refine ⟨hv, rest ++ [_], by show _ ++ _ = _; rw [hr']; rfl, fun g hg => ?_⟩
      rcases List.mem_append.1 hg with hg | hg
      · exact hrest g hg
      · rw [List.mem_singleton.1 hg]; exact hf
  | restarted hr hf hw hc h ih =>
    obtain ⟨d, hd, hch, hv, -⟩ := window_restarted hsvd he ih hf hc h
    refine ⟨hw, fun hn => ?_, fun d' hd' => ?_⟩
    · rw [hd] at hn; cases hn
    · obtain rfl := Option.some.inj (hd.symm.trans hd')
      exact ⟨hv, [], hch, fun g hg => absurd hg List.not_mem_nil⟩

/-- C102: a window that does not trigger a restart adds its factor to the Jacobian. -/
theorem C102_stored {svd : Solver} {eps : ℝ} {size : ℕ} {s s' : Store ι κ} {w : Weights ι κ} {f : Factor ι κ} (hc : s.chunk.length < size) (h : s.window svd eps size w f = some s') :
    kept s'.chunk = kept s.chunk + matrixOf f := by
  obtain rfl := window_stored hc h
  show kept (s.chunk ++ [f]) = _
  unfold kept
  rw [List.map_append, List.sum_append]
  simp

/-- C102: there are never more stored factors than the configured chunk size. -/
theorem C102_bounded {svd : Solver} (hsvd : svd.Correct) {eps : ℝ} (he : 0 ≤ eps) {size : ℕ} (h1 : 1 ≤ size) {w₀ : Weights ι κ} {s : Store ι κ} (h : Runs svd eps size w₀ s) :
    s.chunk.length ≤ size := by
  cases h with
  | init w hw => exact Nat.zero_le _
  | stored hr hf hc h =>
    obtain rfl := window_stored hc h
    simp only
    rw [List.length_append, List.length_singleton]
    omega
  | restarted hr hf hw hc h =>
    obtain ⟨d, -, hch, -⟩ := window_restarted hsvd he (hr.inv hsvd he) hf hc h
    rw [hch]
    exact h1

/-- C102: what a restart keeps. In variables scaled with the weights `w` of the restart the new Jacobian is the sum of the Jacobian at the last restart, *scaled with the weights `w₀` of that restart*,
and of the factors stored since then; the relative error is at most `(1 + eps)ⁿ - 1` for `n` factors. -/
theorem C102_restart {svd : Solver} (hsvd : svd.Correct) {eps : ℝ} (he : 0 ≤ eps) {size : ℕ} {w₀ w : Weights ι κ} {s s' : Store ι κ} {f : Factor ι κ} (hr : Runs svd eps size w₀ s) (hf : Fits f)
    (hw : w.Ok) (hc : size ≤ s.chunk.length) (h : s.window svd eps size w f = some s') :
    ∃ Δ, List.Forall₂ (Close w) ((s.chunk ++ [f]).drop s.done) Δ ∧
      ‖scale w (kept s'.chunk) - (scale w₀ (kept ((s.chunk ++ [f]).take s.done)) + Δ.sum)‖ ≤
        ((1 + eps) ^ ((s.chunk ++ [f]).drop s.done).length - 1) * (‖scale w₀ (kept ((s.chunk ++ [f]).take s.done))‖ + (Δ.map fun D => ‖D‖).sum) := by
  obtain ⟨d, -, hch, hv, Δ, hΔ, hE⟩ := window_restarted hsvd he (hr.inv hsvd he) hf hc h
  refine ⟨Δ, hΔ, ?_⟩
  rw [hch, show kept [d.factor w] = matrixOf (d.factor w) from add_zero _, scale_factor hw]
  exact hE

/-- C102 for weights that do not change between the restarts (constant or frozen preconditioner): a restart keeps the Jacobian, that is the sum of what was kept and the new factor, up to the
truncation. -/
theorem C102_same_weights_partial {svd : Solver} (hsvd : svd.Correct) {eps : ℝ} (he : 0 ≤ eps) {size : ℕ} {w : Weights ι κ} {s s' : Store ι κ} {f : Factor ι κ} (hr : Runs svd eps size w s) (hf : Fits f)
    (hc : size ≤ s.chunk.length) (h : s.window svd eps size w f = some s') :
    ∃ (J₀ : Matrix κ ι ℝ) (fs : List (Factor ι κ)) (Δ : List (Matrix κ ι ℝ)), J₀ + kept fs = kept s.chunk + matrixOf f ∧ fs.length ≤ s.chunk.length + 1 ∧ List.Forall₂ (Close w) fs Δ ∧
      ‖scale w (kept s'.chunk) - (scale w J₀ + Δ.sum)‖ ≤ ((1 + eps) ^ fs.length - 1) * (‖scale w J₀‖ + (Δ.map fun D => ‖D‖).sum) := by
  obtain ⟨Δ, hΔ, hE⟩ := C102_restart hsvd he hr hf (hr.inv hsvd he).ok hc h
  refine ⟨kept ((s.chunk ++ [f]).take s.done), (s.chunk ++ [f]).drop s.done, Δ, ?_, ?_, hΔ, hE⟩
  · unfold kept
    rw [← List.sum_append, ← List.map_append, List.take_append_drop, List.map_append, List.sum_append]
    simp
  · rw [List.length_drop, List.length_append, List.length_singleton]
    omega

end Verif.Accel.Svd
