import Mathlib.Analysis.SpecialFunctions.ImproperIntegrals
import Mathlib.Analysis.SpecialFunctions.ContinuousFunctionalCalculus.Rpow.IntegralRepresentation
import Mathlib.Analysis.SpecialFunctions.Exponential
import Mathlib.Algebra.BigOperators.Field
import Mathlib.Tactic.Linarith
import Mathlib.Tactic.Ring
import Mathlib.Tactic.FieldSimp
import Mathlib.Tactic.Positivity

set_option autoImplicit false

/-!
Facts about kernels of the squared distance between distinct points of a Euclidean space.  Nothing
here refers to the code: this is the analysis behind the solvability of the interpolation systems
of `Rbf.construct`.
-/

namespace Verif.Definite

open MeasureTheory Set

variable {n : ℕ} {ι : Type} [Fintype ι]

/-- The squared distance of two points. -/
def sq (z : Fin n → ι → ℝ) (i j : Fin n) : ℝ := ∑ k, (z i k - z j k) ^ 2

theorem sq_nonneg (z : Fin n → ι → ℝ) (i j : Fin n) : 0 ≤ sq z i j :=
  Finset.sum_nonneg fun _ _ => pow_two_nonneg _

theorem sq_self (z : Fin n → ι → ℝ) (i : Fin n) : sq z i i = 0 := by simp [sq]

theorem sq_comm (z : Fin n → ι → ℝ) (i j : Fin n) : sq z i j = sq z j i :=
  Finset.sum_congr rfl fun _ _ => by ring

theorem sq_pos {z : Fin n → ι → ℝ} {i j : Fin n} (h : z i ≠ z j) : 0 < sq z i j := by
  obtain ⟨k, hk⟩ := Function.ne_iff.mp h
  exact Finset.sum_pos' (fun _ _ => pow_two_nonneg _)
    ⟨k, Finset.mem_univ _, by have := sub_ne_zero.mpr hk; positivity⟩

/-- The quadratic form of a kernel. -/
def form (K : Fin n → Fin n → ℝ) (c : Fin n → ℝ) : ℝ := ∑ i, ∑ j, c i * c j * K i j

theorem form_add (K L : Fin n → Fin n → ℝ) (c : Fin n → ℝ) :
    form (fun i j => K i j + L i j) c = form K c + form L c := by
  simp only [form, ← Finset.sum_add_distrib, mul_add]

theorem form_smul (a : ℝ) (K : Fin n → Fin n → ℝ) (c : Fin n → ℝ) :
    form (fun i j => a * K i j) c = a * form K c := by
  simp only [form, Finset.mul_sum]
  exact Finset.sum_congr rfl fun _ _ => Finset.sum_congr rfl fun _ _ => by ring

theorem form_const (a : ℝ) (c : Fin n → ℝ) : form (fun _ _ => a) c = a * (∑ i, c i) ^ 2 := by
  rw [form, pow_two, Finset.sum_mul_sum, Finset.mul_sum]
  refine Finset.sum_congr rfl fun _ _ => ?_
  rw [Finset.mul_sum]
  exact Finset.sum_congr rfl fun _ _ => by ring

/-! ## Powers of the scalar product -/

/-- The scalar product of two points. -/
def dot (z : Fin n → ι → ℝ) (i j : Fin n) : ℝ := ∑ k, z i k * z j k

theorem form_dot_succ (z : Fin n → ι → ℝ) (m : ℕ) (c : Fin n → ℝ) :
    form (fun i j => dot z i j ^ (m + 1)) c
      = ∑ k, form (fun i j => dot z i j ^ m) (fun i => c i * z i k) := by
  simp only [form]
  rw [Finset.sum_comm]
  conv_rhs => rw [Finset.sum_comm]
  rw [Finset.sum_comm]
  refine Finset.sum_congr rfl fun i _ => ?_
  conv_rhs => rw [Finset.sum_comm]
  refine Finset.sum_congr rfl fun j _ => ?_
  rw [pow_succ]
  conv_lhs => rw [dot, Finset.mul_sum, Finset.mul_sum]
  refine Finset.sum_congr rfl fun k _ => ?_
  simp only [dot]
  ring

theorem form_dot_nonneg (z : Fin n → ι → ℝ) (m : ℕ) (c : Fin n → ℝ) :
    0 ≤ form (fun i j => dot z i j ^ m) c := by
  induction m generalizing c with
  | zero => simp only [pow_zero, form_const]; positivity
  | succ m ih => rw [form_dot_succ]; exact Finset.sum_nonneg fun k _ => ih _

/-- When the form of a power vanishes, so do all moments of that degree. -/
theorem moments_of_form (z : Fin n → ι → ℝ) (w : List ι) (c : Fin n → ℝ)
    (h : form (fun i j => dot z i j ^ w.length) c = 0) :
    ∑ i, c i * (w.map (z i)).prod = 0 := by
  induction w generalizing c with
  | nil => simpa [form_const] using h
  | cons k w ih =>
    rw [List.length_cons, form_dot_succ,
      Finset.sum_eq_zero_iff_of_nonneg (fun k _ => form_dot_nonneg z _ _)] at h
    have := ih _ (h k (Finset.mem_univ _))
    simpa [mul_assoc] using this

omit [Fintype ι] in
/-- When all moments vanish, so do the sums against products of shifted coordinates. -/
theorem shifted_of_moments (z : Fin n → ι → ℝ) (c : Fin n → ℝ)
    (h : ∀ w : List ι, ∑ i, c i * (w.map (z i)).prod = 0) (l : List (ι × ℝ)) (w : List ι) :
    ∑ i, c i * ((w.map (z i)).prod * (l.map fun q => z i q.1 - q.2).prod) = 0 := by
  induction l generalizing w with
  | nil => simpa using h w
  | cons q l ih =>
    have h1 := ih (q.1 :: w)
    have h2 := ih w
    calc ∑ i, c i * ((w.map (z i)).prod * ((q :: l).map fun q => z i q.1 - q.2).prod)
        = ∑ i, c i * (((q.1 :: w).map (z i)).prod * (l.map fun q => z i q.1 - q.2).prod)
          - q.2 * ∑ i, c i * ((w.map (z i)).prod * (l.map fun q => z i q.1 - q.2).prod) := by
          rw [Finset.mul_sum, ← Finset.sum_sub_distrib]
          refine Finset.sum_congr rfl fun i _ => ?_
          simp only [List.map_cons, List.prod_cons]
          ring
      _ = 0 := by rw [h1, h2]; ring

omit [Fintype ι] in
/-- Distinct points: weights all of whose moments vanish are zero. -/
theorem zero_of_moments {z : Fin n → ι → ℝ} (hz : Function.Injective z) (c : Fin n → ℝ)
    (h : ∀ w : List ι, ∑ i, c i * (w.map (z i)).prod = 0) : c = 0 := by
  classical
  funext i₀
  have hk : ∀ j : Fin n, j ≠ i₀ → ∃ k, z i₀ k ≠ z j k := fun j hj =>
    Function.ne_iff.mp fun e => hj (hz e).symm
  rcases isEmpty_or_nonempty ι with he | hne
  · have hall : ∀ j : Fin n, j = i₀ := fun j => by
      by_contra hj
      exact he.elim (hk j hj).choose
    have := h []
    rw [Finset.sum_eq_single i₀ (fun j _ hj => absurd (hall j) hj) (by simp)] at this
    simpa using this
  choose! k hk using hk
  have := shifted_of_moments z c h
    (((Finset.univ.erase i₀).toList).map fun j => (k j, z j (k j))) []
  rw [Finset.sum_eq_single i₀] at this
  · simp only [List.map_nil, List.prod_nil, one_mul, List.map_map, mul_eq_zero] at this
    rcases this with h | h
    · exact h
    · rw [List.prod_eq_zero_iff, List.mem_map] at h
      obtain ⟨j, hj, h⟩ := h
      rw [Finset.mem_toList, Finset.mem_erase] at hj
      exact absurd (sub_eq_zero.mp h) (hk j hj.1)
  · intro i _ hi
    have : (0 : ℝ) ∈ ((((Finset.univ.erase i₀).toList).map fun j => (k j, z j (k j))).map
        fun q => z i q.1 - q.2) := by
      rw [List.map_map, List.mem_map]
      exact ⟨i, by simp [hi], by simp⟩
    rw [List.prod_eq_zero this]
    simp
  · simp

/-! ## Gaussians -/

/-- Gaussian kernels of distinct points are strictly positive definite. -/
theorem gauss_pos {z : Fin n → ι → ℝ} (hz : Function.Injective z) {s : ℝ} (hs : 0 < s)
    {c : Fin n → ℝ} (hc : c ≠ 0) : 0 < form (fun i j => Real.exp (-(s * sq z i j))) c := by
  set a : Fin n → ℝ := fun i => c i * Real.exp (-(s * ∑ k, z i k ^ 2)) with ha
  have h1 : form (fun i j => Real.exp (-(s * sq z i j))) c
      = form (fun i j => Real.exp (2 * s * dot z i j)) a := by
    simp only [form]
    refine Finset.sum_congr rfl fun i _ => Finset.sum_congr rfl fun j _ => ?_
    have : -(s * sq z i j) = -(s * ∑ k, z i k ^ 2) + -(s * ∑ k, z j k ^ 2) + 2 * s * dot z i j := by
      simp only [sq, dot, Finset.mul_sum, ← Finset.sum_neg_distrib, ← Finset.sum_add_distrib]
      exact Finset.sum_congr rfl fun k _ => by ring
    rw [this, Real.exp_add, Real.exp_add, ha]
    ring
  have h2 : HasSum (fun m : ℕ => (2 * s) ^ m / (m.factorial : ℝ) * form (fun i j => dot z i j ^ m) a)
      (form (fun i j => Real.exp (2 * s * dot z i j)) a) := by
    simp only [form, Finset.mul_sum]
    refine hasSum_sum fun i _ => hasSum_sum fun j _ => ?_
    have := (NormedSpace.expSeries_div_hasSum_exp (2 * s * dot z i j)).mul_left (a i * a j)
    rw [← Real.exp_eq_exp_ℝ] at this
    refine this.congr_fun ?_ |> fun h => h
    intro m
    rw [mul_pow]
    ring
  have h0 : ∀ m : ℕ, 0 ≤ (2 * s) ^ m / (m.factorial : ℝ) * form (fun i j => dot z i j ^ m) a :=
    fun m => mul_nonneg (by positivity) (form_dot_nonneg z m a)
  rw [h1]
  refine lt_of_le_of_ne (h2.nonneg h0) fun e => hc ?_
  rw [← e, hasSum_zero_iff_of_nonneg h0] at h2
  have : a = 0 := zero_of_moments hz a fun w => by
    refine moments_of_form z w a ?_
    have := congrFun h2 w.length
    simp only [Pi.zero_apply, mul_eq_zero, div_eq_zero_iff, pow_eq_zero_iff', Nat.cast_eq_zero] at this
    rcases this with (⟨h, -⟩ | h) | h
    · exact absurd h (by simp [hs.ne'])
    · exact absurd h (Nat.factorial_ne_zero _)
    · exact h
  funext i
  have := congrFun this i
  simp only [ha, Pi.zero_apply, mul_eq_zero] at this ⊢
  exact this.resolve_right (Real.exp_ne_zero _)

/-! ## Mixtures -/

/-- An integral of a function that is positive everywhere is positive. -/
theorem integral_pos {f : ℝ → ℝ} (hf : IntegrableOn f (Ioi 0)) (h : ∀ t, 0 < t → 0 < f t) :
    0 < ∫ t in Ioi (0 : ℝ), f t := by
  rw [setIntegral_pos_iff_support_of_nonneg_ae]
  · have : Function.support f ∩ Ioi 0 = Ioi 0 := by
      refine Set.inter_eq_right.mpr fun t ht => (h t ht).ne'
    rw [this, Real.volume_Ioi]
    exact ENNReal.zero_lt_top
  · exact (ae_restrict_iff' measurableSet_Ioi).mpr (Filter.Eventually.of_forall fun t ht => (h t ht).le)
  · exact hf

theorem form_integral (K : ℝ → Fin n → Fin n → ℝ)
    (hK : ∀ i j, IntegrableOn (fun t => K t i j) (Ioi 0)) (c : Fin n → ℝ) :
    IntegrableOn (fun t => form (K t) c) (Ioi 0) ∧
      ∫ t in Ioi (0 : ℝ), form (K t) c = form (fun i j => ∫ t in Ioi (0 : ℝ), K t i j) c := by
  simp only [form]
  have h : ∀ i j, Integrable (fun t => c i * c j * K t i j) (volume.restrict (Ioi 0)) :=
    fun i j => (hK i j).const_mul _
  refine ⟨integrable_finsetSum _ fun i _ => integrable_finsetSum _ fun j _ => h i j, ?_⟩
  rw [integral_finsetSum _ fun i _ => integrable_finsetSum _ fun j _ => h i j]
  refine Finset.sum_congr rfl fun i _ => ?_
  rw [integral_finsetSum _ fun j _ => h i j]
  exact Finset.sum_congr rfl fun j _ => integral_const_mul _ _

/-- The kernels `1 / (t + d²)` are strictly positive definite. -/
theorem rational_pos {z : Fin n → ι → ℝ} (hz : Function.Injective z) {t : ℝ} (ht : 0 < t)
    {c : Fin n → ℝ} (hc : c ≠ 0) : 0 < form (fun i j => (t + sq z i j)⁻¹) c := by
  have hneg : ∀ i j, -(t + sq z i j) < 0 := fun i j => by have := sq_nonneg z i j; linarith
  obtain ⟨h1, h2⟩ := form_integral (fun s i j => Real.exp (-(t + sq z i j) * s))
    (fun i j => integrableOn_exp_mul_Ioi (hneg i j) 0) c
  have h3 : form (fun i j => (t + sq z i j)⁻¹) c
      = form (fun i j => ∫ s in Ioi (0 : ℝ), Real.exp (-(t + sq z i j) * s)) c := by
    simp only [form]
    refine Finset.sum_congr rfl fun i _ => Finset.sum_congr rfl fun j _ => ?_
    rw [integral_exp_mul_Ioi (hneg i j) 0]
    rw [mul_zero, Real.exp_zero, neg_div_neg_eq, one_div]
  rw [h3, ← h2]
  refine integral_pos h1 fun s hs => ?_
  have := mul_pos (Real.exp_pos (-(t * s))) (gauss_pos hz hs hc)
  rw [← form_smul] at this
  refine lt_of_lt_of_eq this ?_
  simp only [form]
  refine Finset.sum_congr rfl fun i _ => Finset.sum_congr rfl fun j _ => ?_
  rw [← Real.exp_add]
  congr 2
  ring

/-! ## Square roots -/

/-- The kernels `√(a + d²)`, also with `a = 0`, are strictly negative definite on weights with sum
zero. -/
theorem sqrt_neg {z : Fin n → ι → ℝ} (hz : Function.Injective z) {a : ℝ} (ha : 0 ≤ a)
    {c : Fin n → ℝ} (hc : c ≠ 0) (h0 : ∑ i, c i = 0) :
    form (fun i j => √(a + sq z i j)) c < 0 := by
  have hp : (1 / 2 : ℝ) ∈ Ioo (0 : ℝ) 1 := by constructor <;> norm_num
  have hx : ∀ i j, 0 ≤ a + sq z i j := fun i j => add_nonneg ha (sq_nonneg z i j)
  obtain ⟨h1, h2⟩ := form_integral (fun t i j => Real.rpowIntegrand₀₁ (1 / 2) t (a + sq z i j))
    (fun i j => Real.integrableOn_rpowIntegrand₀₁_Ioi hp (hx i j)) c
  have hC := Real.integral_rpowIntegrand₀₁_one_pos hp
  set C := ∫ t in Ioi (0 : ℝ), Real.rpowIntegrand₀₁ (1 / 2) t 1
  have h3 : form (fun i j => √(a + sq z i j)) c
      = C⁻¹ * form (fun i j => ∫ t in Ioi (0 : ℝ), Real.rpowIntegrand₀₁ (1 / 2) t (a + sq z i j)) c := by
    rw [← form_smul]
    simp only [form]
    refine Finset.sum_congr rfl fun i _ => Finset.sum_congr rfl fun j _ => ?_
    rw [Real.sqrt_eq_rpow, Real.rpow_eq_const_mul_integral hp (hx i j)]
  rw [h3, ← h2]
  refine mul_neg_of_pos_of_neg (inv_pos.mpr hC) ?_
  have h4 : 0 < ∫ t in Ioi (0 : ℝ),
      -form (fun i j => Real.rpowIntegrand₀₁ (1 / 2) t (a + sq z i j)) c := by
    refine integral_pos h1.neg fun t ht => ?_
    have h5 := mul_pos (Real.rpow_pos_of_pos ht (1 / 2))
      (rational_pos hz (add_pos_of_pos_of_nonneg ht ha) hc)
    have h6 : form (fun i j => Real.rpowIntegrand₀₁ (1 / 2) t (a + sq z i j)) c
        = t ^ (1 / 2 : ℝ) * (form (fun _ _ => t⁻¹) c + (-1) * form (fun i j => (t + a + sq z i j)⁻¹) c) := by
      rw [← form_smul, ← form_add, ← form_smul]
      simp only [form]
      refine Finset.sum_congr rfl fun i _ => Finset.sum_congr rfl fun j _ => ?_
      rw [Real.rpowIntegrand₀₁, ← add_assoc]
      ring
    rw [h6, form_const, h0]
    nlinarith
  rw [integral_neg] at h4
  linarith

/-- The kernels `1 / √(a + d²)` with `a > 0` are strictly positive definite. -/
theorem inv_sqrt_pos {z : Fin n → ι → ℝ} (hz : Function.Injective z) {a : ℝ} (ha : 0 < a)
    {c : Fin n → ℝ} (hc : c ≠ 0) : 0 < form (fun i j => 1 / √(a + sq z i j)) c := by
  have hp : (1 / 2 : ℝ) ∈ Ioo (0 : ℝ) 1 := by constructor <;> norm_num
  have hx : ∀ i j, 0 < a + sq z i j := fun i j => add_pos_of_pos_of_nonneg ha (sq_nonneg z i j)
  obtain ⟨h1, h2⟩ := form_integral
    (fun t i j => (a + sq z i j)⁻¹ * Real.rpowIntegrand₀₁ (1 / 2) t (a + sq z i j))
    (fun i j => (Real.integrableOn_rpowIntegrand₀₁_Ioi hp (hx i j).le).const_mul _) c
  have hC := Real.integral_rpowIntegrand₀₁_one_pos hp
  set C := ∫ t in Ioi (0 : ℝ), Real.rpowIntegrand₀₁ (1 / 2) t 1
  have h3 : form (fun i j => 1 / √(a + sq z i j)) c
      = C⁻¹ * form (fun i j => ∫ t in Ioi (0 : ℝ),
          (a + sq z i j)⁻¹ * Real.rpowIntegrand₀₁ (1 / 2) t (a + sq z i j)) c := by
    rw [← form_smul]
    simp only [form]
    refine Finset.sum_congr rfl fun i _ => Finset.sum_congr rfl fun j _ => ?_
    rw [integral_const_mul]
    have h4 := Real.rpow_eq_const_mul_integral hp (hx i j).le
    rw [← Real.sqrt_eq_rpow] at h4
    have h5 : 1 / √(a + sq z i j) = (a + sq z i j)⁻¹ * √(a + sq z i j) := by
      have := Real.sqrt_pos.mpr (hx i j)
      rw [inv_mul_eq_div, div_eq_div_iff this.ne' (hx i j).ne', one_mul,
        Real.mul_self_sqrt (hx i j).le]
    rw [h5]
    conv_lhs => rw [h4]
    ring
  rw [h3, ← h2]
  refine mul_pos (inv_pos.mpr hC) (integral_pos h1 fun t ht => ?_)
  have h5 := mul_pos (mul_pos (Real.rpow_pos_of_pos ht (1 / 2)) (inv_pos.mpr ht))
    (rational_pos hz (add_pos ht ha) hc)
  rw [← form_smul] at h5
  refine lt_of_lt_of_eq h5 ?_
  simp only [form]
  refine Finset.sum_congr rfl fun i _ => Finset.sum_congr rfl fun j _ => ?_
  rw [Real.rpowIntegrand₀₁]
  have e1 : t ≠ 0 := ne_of_gt ht
  have e2 : t + (a + sq z i j) ≠ 0 := (add_pos ht (hx i j)).ne'
  have e3 := (hx i j).ne'
  rw [add_assoc]
  field_simp
  ring

/-! ## Logarithms -/

/-- `x log x` as a mixture of `1 / (t + x)`, up to an affine function of `x`. -/
theorem log_integral {x : ℝ} (hx : 0 ≤ x) :
    IntegrableOn (fun t => x * (1 + t)⁻¹ - 1 + t * (t + x)⁻¹) (Ioi 0) ∧
      ∫ t in Ioi (0 : ℝ), (x * (1 + t)⁻¹ - 1 + t * (t + x)⁻¹) = x * Real.log x := by
  rcases hx.eq_or_lt with rfl | hx
  · have : EqOn (fun t : ℝ => 0 * (1 + t)⁻¹ - 1 + t * (t + 0)⁻¹) (fun _ => 0) (Ioi 0) := fun t ht => by
      have : t ≠ 0 := ne_of_gt ht
      simp [this]
    refine ⟨(integrableOn_congr_fun this measurableSet_Ioi).mpr (integrable_zero _ _ _), ?_⟩
    rw [setIntegral_congr_fun measurableSet_Ioi this]
    simp
  have hd : ∀ t ∈ Ioi (0 : ℝ), HasDerivAt (fun t => x * (Real.log (1 + t) - Real.log (t + x)))
      (x * (1 + t)⁻¹ - 1 + t * (t + x)⁻¹) t := fun t ht => by
    have ht : 0 < t := ht
    have e1 : 1 + t ≠ 0 := by positivity
    have e2 : t + x ≠ 0 := by positivity
    have := (((hasDerivAt_id t).const_add 1).log e1).sub (((hasDerivAt_id t).add_const x).log e2)
    refine (this.const_mul x).congr_deriv ?_
    simp only [id]
    field_simp
    ring
  have hc : ContinuousWithinAt (fun t => x * (Real.log (1 + t) - Real.log (t + x))) (Ici 0) 0 := by
    refine ContinuousAt.continuousWithinAt ?_
    have e2 : (0 : ℝ) + x ≠ 0 := by simpa using hx.ne'
    fun_prop (disch := simp_all)
  have hl : Filter.Tendsto (fun t => x * (Real.log (1 + t) - Real.log (t + x))) Filter.atTop
      (nhds 0) := by
    have h1 : Filter.Tendsto (fun t : ℝ => 1 + (1 - x) * (t + x)⁻¹) Filter.atTop (nhds 1) := by
      have := (tendsto_inv_atTop_zero.comp
        (Filter.tendsto_atTop_add_const_right _ x Filter.tendsto_id)).const_mul (1 - x)
      simpa using this.const_add 1
    have h2 := ((Real.continuousAt_log one_ne_zero).tendsto.comp h1).const_mul x
    rw [Real.log_one, mul_zero] at h2
    refine h2.congr' ?_
    filter_upwards [Filter.eventually_gt_atTop 0] with t ht
    have e1 : 1 + t ≠ 0 := by positivity
    have e2 : t + x ≠ 0 := by positivity
    rw [← Real.log_div e1 e2, Function.comp_apply]
    congr 2
    field_simp
    ring
  have hv : ∀ t ∈ Ioi (0 : ℝ), x * (1 + t)⁻¹ - 1 + t * (t + x)⁻¹
      = (x - 1) * (x * ((1 + t)⁻¹ * (t + x)⁻¹)) := fun t ht => by
    have ht : 0 < t := ht
    field_simp
    ring
  have hn : ∀ t ∈ Ioi (0 : ℝ), 0 ≤ x * ((1 + t)⁻¹ * (t + x)⁻¹) := fun t ht => by
    have ht : 0 < t := ht
    positivity
  have hint : IntegrableOn (fun t => x * (1 + t)⁻¹ - 1 + t * (t + x)⁻¹) (Ioi 0) := by
    rcases le_total 1 x with h | h
    · refine integrableOn_Ioi_deriv_of_nonneg hc hd (fun t ht => ?_) hl
      rw [hv t ht]
      exact mul_nonneg (by linarith) (hn t ht)
    · refine integrableOn_Ioi_deriv_of_nonpos hc hd (fun t ht => ?_) hl
      rw [hv t ht]
      exact mul_nonpos_of_nonpos_of_nonneg (by linarith) (hn t ht)
  refine ⟨hint, ?_⟩
  rw [integral_Ioi_of_hasDerivAt_of_tendsto hc hd hint hl]
  simp

/-- Weights that annihilate constants and coordinates annihilate the squared distance. -/
theorem form_sq (z : Fin n → ι → ℝ) {c : Fin n → ℝ} (h0 : ∑ i, c i = 0)
    (h1 : ∀ k, ∑ i, c i * z i k = 0) : form (sq z) c = 0 := by
  have h : ∀ i, ∑ j, c i * c j * sq z i j = c i * ∑ k, ∑ j, c j * z j k ^ 2 := fun i => by
    have : ∀ k, ∑ j, c j * (z i k - z j k) ^ 2 = ∑ j, c j * z j k ^ 2 := fun k => by
      have : ∀ j, c j * (z i k - z j k) ^ 2
          = z i k ^ 2 * c j - 2 * z i k * (c j * z j k) + c j * z j k ^ 2 := fun j => by ring
      simp only [this, Finset.sum_add_distrib, Finset.sum_sub_distrib, ← Finset.mul_sum, h0, h1]
      ring
    simp only [← this, Finset.mul_sum]
    rw [Finset.sum_comm]
    refine Finset.sum_congr rfl fun j _ => ?_
    rw [sq, Finset.mul_sum]
    exact Finset.sum_congr rfl fun k _ => by ring
  simp only [form, h, ← Finset.sum_mul, h0, zero_mul]

/-- The kernel `d² log d²` is strictly positive definite on weights that annihilate constants and
coordinates. -/
theorem log_pos {z : Fin n → ι → ℝ} (hz : Function.Injective z) {c : Fin n → ℝ} (hc : c ≠ 0)
    (h0 : ∑ i, c i = 0) (h1 : ∀ k, ∑ i, c i * z i k = 0) :
    0 < form (fun i j => sq z i j * Real.log (sq z i j)) c := by
  obtain ⟨h2, h3⟩ := form_integral
    (fun t i j => sq z i j * (1 + t)⁻¹ - 1 + t * (t + sq z i j)⁻¹)
    (fun i j => (log_integral (sq_nonneg z i j)).1) c
  have h4 : form (fun i j => sq z i j * Real.log (sq z i j)) c
      = form (fun i j => ∫ t in Ioi (0 : ℝ),
          (sq z i j * (1 + t)⁻¹ - 1 + t * (t + sq z i j)⁻¹)) c := by
    simp only [form]
    refine Finset.sum_congr rfl fun i _ => Finset.sum_congr rfl fun j _ => ?_
    rw [(log_integral (sq_nonneg z i j)).2]
  rw [h4, ← h3]
  refine integral_pos h2 fun t ht => ?_
  have h5 := mul_pos ht (rational_pos hz ht hc)
  have h6 : form (fun i j => sq z i j * (1 + t)⁻¹ - 1 + t * (t + sq z i j)⁻¹) c
      = (1 + t)⁻¹ * form (sq z) c + form (fun _ _ => -1) c
        + t * form (fun i j => (t + sq z i j)⁻¹) c := by
    rw [← form_smul, ← form_smul, ← form_add, ← form_add]
    simp only [form]
    refine Finset.sum_congr rfl fun i _ => Finset.sum_congr rfl fun j _ => ?_
    ring
  rw [h6, form_sq z h0 h1, form_const, h0]
  linarith

end Verif.Definite
