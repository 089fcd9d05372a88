import Verif.Mapping.Compact
import Verif.Mapping.BasisProps
import Mathlib.Analysis.Complex.ExponentialBounds

set_option autoImplicit false

/-!
C98: the basis functions that claim to be strictly positive definite (`isStrictlyPositiveDefinite`, which selects the
Cholesky decomposition).
-/

namespace Verif.Basis
open Verif.Definite Verif.Overlap

variable {n : ℕ}

/-- The quadratic form of the interpolation matrix of a radial function for vertices `x` in space. -/
noncomputable def quadratic (φ : ℝ → ℝ) (x : Fin n → Fin 3 → ℝ) (c : Fin n → ℝ) : ℝ :=
  ∑ i, ∑ j, c i * c j * φ (√(∑ d, (x i d - x j d) ^ 2))

theorem quadratic_eq (φ : ℝ → ℝ) (x : Fin n → Fin 3 → ℝ) (c : Fin n → ℝ) :
    quadratic φ x c = form (fun i j => φ (√(Definite.sq x i j))) c := rfl

theorem quadratic_congr {φ ψ : ℝ → ℝ} {x : Fin n → Fin 3 → ℝ} (h : ∀ i j, φ (√(Definite.sq x i j)) = ψ (√(Definite.sq x i j)))
    (c : Fin n → ℝ) : quadratic φ x c = quadratic ψ x c := by
  simp only [quadratic_eq, form, h]

/-- The points scaled by the support radius. -/
noncomputable def scaled (R : ℝ) (x : Fin n → Fin 3 → ℝ) (i : Fin n) : Space := WithLp.toLp 2 fun d => x i d * (1 / R)

theorem scaled_norm {R : ℝ} (hR : 0 < R) (x : Fin n → Fin 3 → ℝ) (i j : Fin n) :
    ‖scaled R x j - scaled R x i‖ = √(Definite.sq x i j) * (1 / R) := by
  have hp : 0 ≤ 1 / R := by positivity
  have h : ‖scaled R x j - scaled R x i‖ ^ 2 = (√(Definite.sq x i j) * (1 / R)) ^ 2 := by
    rw [mul_pow, Real.sq_sqrt (Definite.sq_nonneg x i j), EuclideanSpace.norm_sq_eq, Definite.sq, Finset.sum_mul]
    refine Finset.sum_congr rfl fun d _ => ?_
    simp only [scaled, PiLp.sub_apply, Real.norm_eq_abs, sq_abs]
    ring
  exact (pow_left_inj₀ (norm_nonneg _) (mul_nonneg (Real.sqrt_nonneg _) hp) two_ne_zero).mp h

theorem scaled_injective {R : ℝ} (hR : 0 < R) {x : Fin n → Fin 3 → ℝ} (hx : Function.Injective x) : Function.Injective (scaled R x) :=
  fun i j e => hx <| funext fun d => by
    have h : x i d * (1 / R) = x j d * (1 / R) := congrArg (fun y : Space => y d) e
    exact mul_right_cancel₀ (by positivity) h

theorem mixture_pos {k : Fin 5} {w : ℝ → ℝ} {m : ℝ} {φ ψ : ℝ → ℝ} (h : Mixture k w m φ) {R : ℝ} (hR : 0 < R)
    {x : Fin n → Fin 3 → ℝ} (hx : Function.Injective x)
    (hψ : ∀ i j, ψ (√(Definite.sq x i j)) = φ (√(Definite.sq x i j) * (1 / R))) {c : Fin n → ℝ} (hc : c ≠ 0) : 0 < quadratic ψ x c := by
  have := h.form_pos (scaled R x) (scaled_injective hR hx) hc
  simp only [scaled_norm hR] at this
  rw [quadratic_eq]
  simpa only [hψ] using this

/-- The functions that claim to be strictly positive definite and are. -/
def Definite (kind : Kind) : Prop := kind = .c0 ∨ kind = .c2 ∨ kind = .c4 ∨ kind = .c6 ∨ kind = .c8 ∨ kind = .inverseMultiquadrics

/-- **Positive definiteness**: for distinct vertices, the compactly supported polynomials and the inverse multiquadrics give a
positive definite interpolation matrix. -/
theorem C98_definite (kind : Kind) (hk : Definite kind) (R s : ℝ) (b : Fn) (h : constructRBF kind R s = some b) (x : Fin n → Fin 3 → ℝ)
    (hx : Function.Injective x) (c : Fin n → ℝ) (hc : c ≠ 0) : 0 < quadratic b.eval x c := by
  rcases hk with rfl | rfl | rfl | rfl | rfl | rfl
  · obtain ⟨hR, he, -⟩ := compact_spec h
    refine mixture_pos polynomial_0 hR hx (fun i j => ?_) hc
    rw [he, polynomialC0]
    simp only [C98_power, mul_one]
  · obtain ⟨hR, he, -⟩ := compact_spec h
    refine mixture_pos polynomial_1 hR hx (fun i j => ?_) hc
    rw [he, polynomialC2]
    simp only [C98_power]
  · obtain ⟨hR, he, -⟩ := compact_spec h
    refine mixture_pos polynomial_2 hR hx (fun i j => ?_) hc
    rw [he, polynomialC4]
    simp only [C98_power]
  · obtain ⟨hR, he, -⟩ := compact_spec h
    refine mixture_pos polynomial_3 hR hx (fun i j => ?_) hc
    rw [he, polynomialC6]
    simp only [C98_power]
  · obtain ⟨hR, he, -⟩ := compact_spec h
    refine mixture_pos polynomial_4 hR hx (fun i j => ?_) hc
    rw [he, polynomialC8]
    simp only [C98_power]
  · simp only [constructRBF] at h
    split at h
    · rename_i hs
      obtain rfl := Option.some.inj h
      have hs0 : 0 < s := by have := tiny_pos; linarith
      refine lt_of_lt_of_eq (inv_sqrt_pos hx (pow_pos hs0 2) hc) ?_
      rw [quadratic_eq]
      congr 1
      funext i j
      simp only [inverseMultiquadrics, C98_power, Real.sq_sqrt (Definite.sq_nonneg x i j)]
    · simp at h

/-- **Positive definiteness of the compact thin plate splines**, for vertices whose distances are at least 1e-14 of the support
radius: the code changes the function below. -/
theorem C98_definite_spline (R s : ℝ) (b : Fn) (h : constructRBF .thinPlateC2 R s = some b) (x : Fin n → Fin 3 → ℝ)
    (hx : ∀ i j, i ≠ j → R * tiny ≤ √(∑ d, (x i d - x j d) ^ 2)) (c : Fin n → ℝ) (hc : c ≠ 0) : 0 < quadratic b.eval x c := by
  obtain ⟨hR, he, -⟩ := compact_spec h
  have hinj : Function.Injective x := fun i j e => by
    by_contra hne
    have h1 := hx i j hne
    rw [e] at h1
    simp only [sub_self, ne_eq, OfNat.ofNat_ne_zero, not_false_eq_true, zero_pow, Finset.sum_const_zero, Real.sqrt_zero] at h1
    exact absurd h1 (not_le.mpr (mul_pos hR tiny_pos))
  refine mixture_pos spline_mixture hR hinj (fun i j => ?_) hc
  rw [he, thinPlateC2]
  simp only [C98_power]
  by_cases hij : i = j
  · rw [hij, sq_self]
    simp
  · have h1 : tiny ≤ √(Definite.sq x i j) * (1 / R) := by
      rw [mul_one_div, le_div_iff₀ hR, mul_comm]
      exact hx i j hij
    rw [max_eq_left h1]

/-- The Gaussian up to its support radius. -/
theorem gaussian_eq {s r : ℝ} (hr : r ≤ gaussianRadius s) : gaussian s r = Real.exp (-(s * r) ^ 2) := by
  rw [gaussian, if_neg (not_lt.mpr hr), C98_power, sub_zero]

/-- The Gaussian gives a positive definite matrix as long as all distances are within its support radius. -/
theorem C98_definite_gaussian_partial (R s : ℝ) (b : Fn) (h : constructRBF .gaussian R s = some b) (x : Fin n → Fin 3 → ℝ)
    (hx : Function.Injective x) (hr : ∀ i j, √(∑ d, (x i d - x j d) ^ 2) ≤ gaussianRadius s) (c : Fin n → ℝ) (hc : c ≠ 0) :
    0 < quadratic b.eval x c := by
  simp only [constructRBF] at h
  split at h
  · rename_i hs
    obtain rfl := Option.some.inj h
    have hs0 : 0 < s := by have := tiny_pos; linarith
    refine lt_of_lt_of_eq (gauss_pos hx (pow_pos hs0 2) hc) ?_
    rw [quadratic_eq]
    congr 1
    funext i j
    change _ = gaussian s (√(∑ d, (x i d - x j d) ^ 2))
    rw [gaussian_eq (hr i j), ← Definite.sq, mul_pow, Real.sq_sqrt (Definite.sq_nonneg x i j)]
  · simp at h

/-- Three vertices on a line: at the support radius from the first one, and just outside. -/
noncomputable def line (d : Fin 3) (s : ℝ) : Fin 3 → Fin 3 → ℝ
  | 0 => 0
  | 1 => Pi.single d (gaussianRadius s)
  | 2 => Pi.single d (gaussianRadius s + 1e-10 / s)

/-- **Disagreement: the Gaussian is not positive definite.** It is cut off at its support radius, and for every shape parameter
there are three distinct vertices whose interpolation matrix is not positive definite. -/
theorem C98_gaussian_indefinite (R s : ℝ) (b : Fn) (h : constructRBF .gaussian R s = some b) (d : Fin 3) :
    b.definite = true ∧ Function.Injective (line d s) ∧ ∃ c : Fin 3 → ℝ, c ≠ 0 ∧ quadratic b.eval (line d s) c < 0 := by
  simp only [constructRBF] at h
  split at h
  · rename_i hs
    obtain rfl := Option.some.inj h
    have hs0 : 0 < s := by have := tiny_pos; linarith
    set ρ := gaussianRadius s with hρ
    have hlog : 1 ≤ -Real.log cutoff := by
      have h1 : Real.log cutoff ≤ Real.log (Real.exp (-1)) := by
        refine Real.log_le_log (by unfold cutoff; norm_num) ?_
        have h3 : Real.exp 1 < 3 := lt_trans Real.exp_one_lt_d9 (by norm_num)
        rw [Real.exp_neg]
        have : (3 : ℝ)⁻¹ ≤ (Real.exp 1)⁻¹ := inv_anti₀ (Real.exp_pos 1) h3.le
        refine le_trans ?_ this
        unfold cutoff
        norm_num
      rw [Real.log_exp] at h1
      linarith
    have hρs : s * ρ = √(-Real.log cutoff) := by
      rw [hρ, gaussianRadius]
      field_simp
    have hρ1 : 1 ≤ s * ρ := by
      rw [hρs]
      exact Real.one_le_sqrt.mpr hlog
    have hρ0 : 0 < ρ := pos_of_mul_pos_right (lt_of_lt_of_le one_pos hρ1) hs0.le
    set ε : ℝ := 1e-10 / s with hε
    have hε0 : 0 < ε := div_pos (by norm_num) hs0
    have hεs : s * ε = 1e-10 := by rw [hε]; field_simp
    have hερ : ε ≤ ρ := by
      refine le_of_mul_le_mul_left ?_ hs0
      rw [hεs]
      refine le_trans ?_ hρ1
      norm_num
    -- the distances
    have hd : ∀ a b : ℝ, ∑ e, ((Pi.single d a : Fin 3 → ℝ) e - (Pi.single d b : Fin 3 → ℝ) e) ^ 2 = (a - b) ^ 2 := fun a b => by
      rw [Finset.sum_eq_single d]
      · simp
      · intro e _ he
        simp [Pi.single_eq_of_ne he]
      · simp
    have hline : ∀ i, line d s i = Pi.single d (![0, ρ, ρ + ε] i) := fun i => by
      fin_cases i
      · simp [line]
      · simp [line, hρ]
      · simp [line, hρ, hε]
    have hdist : ∀ i j, √(∑ e, (line d s i e - line d s j e) ^ 2) = |![0, ρ, ρ + ε] i - ![0, ρ, ρ + ε] j| := fun i j => by
      rw [hline, hline, hd, Real.sqrt_sq_eq_abs]
    have e00 : gaussian s 0 = 1 := by rw [gaussian_eq hρ0.le]; simp
    have e1 : gaussian s ρ = 1e-9 := by
      rw [gaussian_eq le_rfl, hρs, Real.sq_sqrt (by linarith), neg_neg, Real.exp_log (by unfold cutoff; norm_num)]
      rfl
    have e2 : gaussian s (ρ + ε) = 0 := by rw [gaussian, if_pos (by linarith)]
    have e3 : 1 - 1e-20 ≤ gaussian s ε := by
      rw [gaussian_eq hερ, hεs]
      have := Real.add_one_le_exp (-(1e-10 : ℝ) ^ 2)
      norm_num at this ⊢
      linarith
    refine ⟨rfl, fun i j e => ?_, ![-1e-9, 1, -1], ?_, ?_⟩
    · have h1 := hdist i j
      rw [e] at h1
      simp only [sub_self, ne_eq, OfNat.ofNat_ne_zero, not_false_eq_true, zero_pow, Finset.sum_const_zero, Real.sqrt_zero] at h1
      have h2 := sub_eq_zero.mp (abs_eq_zero.mp h1.symm)
      fin_cases i <;> fin_cases j <;> first | rfl | (exfalso; simp at h2; linarith)
    · intro h0
      have := congrFun h0 1
      simp at this
    · simp only [quadratic, hdist]
      rw [Fin.sum_univ_three, Fin.sum_univ_three, Fin.sum_univ_three, Fin.sum_univ_three]
      simp only [Matrix.cons_val_zero, Matrix.cons_val_one, Matrix.cons_val, sub_self, abs_zero, zero_sub, sub_zero, abs_neg, e00]
      rw [abs_of_pos hρ0, abs_of_pos (by linarith : 0 < ρ + ε), show ρ - (ρ + ε) = -ε by ring, show ρ + ε - ρ = ε by ring, abs_neg, abs_of_pos hε0, e1, e2]
      norm_num at e3 ⊢
      linarith
  · simp at h

end Verif.Basis
