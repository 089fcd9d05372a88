import Mathlib.MeasureTheory.Measure.Haar.InnerProductSpace
import Mathlib.MeasureTheory.Measure.Lebesgue.VolumeOfBalls
import Mathlib.MeasureTheory.Constructions.HaarToSphere
import Mathlib.Analysis.InnerProductSpace.Projection.Reflection
import Mathlib.Tactic.Linarith
import Mathlib.Tactic.Ring
import Mathlib.Tactic.FieldSimp
import Mathlib.Tactic.Positivity

set_option autoImplicit false

/-!
The overlap of two bumps in space, as a function of their distance.  Nothing here refers to the code: this is
the analysis behind the positive definiteness of the basis functions with compact support.
-/

namespace Verif.Overlap

open MeasureTheory Set

abbrev Space := EuclideanSpace ℝ (Fin 3)

/-- The profile of a bump of radius `t`, as a function of the squared distance. -/
noncomputable def prof (k : ℕ) (t q : ℝ) : ℝ := if q < t ^ 2 then (t ^ 2 - q) ^ k else 0

variable (k : ℕ) (t : ℝ)

theorem prof_nonneg (q : ℝ) : 0 ≤ prof k t q := by
  unfold prof
  split
  · exact pow_nonneg (by linarith) _
  · exact le_rfl

theorem prof_le {q : ℝ} (hq : 0 ≤ q) : prof k t q ≤ (t ^ 2) ^ k := by
  unfold prof
  split
  · exact pow_le_pow_left₀ (by linarith) (by linarith) _
  · positivity

theorem prof_measurable : Measurable (prof k t) := by
  unfold prof
  exact Measurable.ite measurableSet_Iio (by fun_prop) measurable_const

/-- The overlap of the bumps at `x` and `x'`. -/
noncomputable def overlap (x x' : Space) : ℝ := ∫ y : Space, prof k t (‖y - x‖ ^ 2) * prof k t (‖y - x'‖ ^ 2)

theorem bumps_integrable (x x' : Space) : Integrable fun y : Space => prof k t (‖y - x‖ ^ 2) * prof k t (‖y - x'‖ ^ 2) := by
  have hm : Measurable fun y : Space => prof k t (‖y - x‖ ^ 2) * prof k t (‖y - x'‖ ^ 2) :=
    ((prof_measurable k t).comp (by fun_prop)).mul ((prof_measurable k t).comp (by fun_prop))
  have h1 : IntegrableOn (fun y : Space => prof k t (‖y - x‖ ^ 2) * prof k t (‖y - x'‖ ^ 2)) (Metric.closedBall x |t|) := by
    refine Measure.integrableOn_of_bounded (M := (t ^ 2) ^ k * (t ^ 2) ^ k) ?_ hm.aestronglyMeasurable ?_
    · exact measure_closedBall_lt_top.ne
    · refine Filter.Eventually.of_forall fun y => ?_
      rw [Real.norm_of_nonneg (mul_nonneg (prof_nonneg _ _ _) (prof_nonneg _ _ _))]
      exact mul_le_mul (prof_le k t (by positivity)) (prof_le k t (by positivity)) (prof_nonneg _ _ _) (by positivity)
  refine h1.integrable_of_forall_notMem_eq_zero fun y hy => ?_
  have : ¬ ‖y - x‖ ^ 2 < t ^ 2 := fun h => hy <| by
    rw [mem_closedBall_iff_norm]
    exact (abs_le_of_sq_le_sq' (by rw [sq_abs]; exact h.le) (abs_nonneg t)).2
  simp [prof, this]

/-- The overlap depends on the distance only. -/
theorem overlap_eq (x x' : Space) :
    overlap k t x x' = ∫ y : Space, prof k t (‖y‖ ^ 2) * prof k t (‖y - EuclideanSpace.single 0 ‖x' - x‖‖ ^ 2) := by
  set v := x' - x with hv
  set e : Space := EuclideanSpace.single 0 ‖v‖ with he
  have hne : ‖v‖ = ‖e‖ := by rw [he, PiLp.norm_single, norm_norm]
  set ρ := Submodule.reflection (ℝ ∙ (v - e))ᗮ with hρ
  have hρv : ρ v = e := Submodule.reflection_sub hne
  have h1 : overlap k t x x' = ∫ y : Space, prof k t (‖y‖ ^ 2) * prof k t (‖y - v‖ ^ 2) := by
    rw [overlap, ← integral_add_right_eq_self _ x]
    refine integral_congr_ae (Filter.Eventually.of_forall fun y => ?_)
    simp only [add_sub_cancel_right]
    rw [hv, show y + x - x' = y - (x' - x) by abel]
  have h2 := (ρ.measurePreserving).integral_comp ρ.toHomeomorph.measurableEmbedding
    (fun y : Space => prof k t (‖y‖ ^ 2) * prof k t (‖y - e‖ ^ 2))
  rw [h1, ← h2]
  refine integral_congr_ae (Filter.Eventually.of_forall fun y => ?_)
  simp only []
  rw [← hρv, ← map_sub, LinearIsometryEquiv.norm_map, LinearIsometryEquiv.norm_map]

/-- Integration over the planes orthogonal to an axis. -/
theorem integral_slices (F : ℝ → ℝ → ℝ)
    (hF : Integrable fun y : Space => F (y 0) (y 1 ^ 2 + y 2 ^ 2)) :
    Integrable (fun u : ℝ => ∫ w : EuclideanSpace ℝ (Fin 2), F u (‖w‖ ^ 2)) ∧
      ∫ y : Space, F (y 0) (y 1 ^ 2 + y 2 ^ 2) = ∫ u : ℝ, ∫ w : EuclideanSpace ℝ (Fin 2), F u (‖w‖ ^ 2) := by
  set Ψ : Space ≃ᵐ ℝ × EuclideanSpace ℝ (Fin 2) := (MeasurableEquiv.toLp 2 (Fin 3 → ℝ)).symm.trans
    ((MeasurableEquiv.piFinSuccAbove (fun _ : Fin 3 => ℝ) 0).trans
      ((MeasurableEquiv.refl ℝ).prodCongr (MeasurableEquiv.toLp 2 (Fin 2 → ℝ)))) with hΨ
  have hp : MeasurePreserving Ψ := by
    have e1 := PiLp.volume_preserving_ofLp (Fin 3)
    have e2 := volume_preserving_piFinSuccAbove (fun _ : Fin 3 => ℝ) 0
    have e3 := PiLp.volume_preserving_toLp (Fin 2)
    exact ((MeasurePreserving.id volume).prod e3).comp (e2.comp e1)
  set G : ℝ × EuclideanSpace ℝ (Fin 2) → ℝ := fun q => F q.1 (‖q.2‖ ^ 2) with hG
  have h1 : (fun y : Space => F (y 0) (y 1 ^ 2 + y 2 ^ 2)) = fun y => G (Ψ y) := by
    funext y
    have h2 : ‖(Ψ y).2‖ ^ 2 = y 1 ^ 2 + y 2 ^ 2 := by
      rw [EuclideanSpace.norm_sq_eq, Fin.sum_univ_two, Real.norm_eq_abs, Real.norm_eq_abs, sq_abs, sq_abs]
      rfl
    simp only [hG, h2]
    rfl
  rw [h1] at hF ⊢
  rw [hp.integral_comp' (g := G)]
  have h3 : Integrable G := (hp.integrable_comp_emb Ψ.measurableEmbedding).mp hF
  rw [Measure.volume_eq_prod] at h3 ⊢
  exact ⟨h3.integral_prod_left, integral_prod G h3⟩

/-- The integral over a plane of a function of the distance. -/
theorem integral_plane (f : ℝ → ℝ) :
    ∫ w : EuclideanSpace ℝ (Fin 2), f (‖w‖ ^ 2) = Real.pi * ∫ q in Ioi (0 : ℝ), 2 * q * f (q ^ 2) := by
  have h := integral_fun_norm_addHaar (volume : Measure (EuclideanSpace ℝ (Fin 2))) (fun r => f (r ^ 2))
  rw [h, finrank_euclideanSpace_fin, Measure.real, EuclideanSpace.volume_ball_fin_two]
  simp [integral_const_mul, mul_assoc, ENNReal.toReal_ofReal Real.pi_pos.le]
  ring

/-- The overlap in a plane: `∫ (a - q)ᵏ (a + d - q)ᵏ dq` for `0 ≤ q ≤ a`. -/
noncomputable def inner (k : ℕ) (a d : ℝ) : ℝ := ∑ j ∈ Finset.range (k + 1), (k.choose j : ℝ) * d ^ (k - j) * a ^ (k + j + 1) / (k + j + 1)

theorem inner_deriv (a d q : ℝ) :
    HasDerivAt (fun q => -inner k (a - q ^ 2) d) (2 * q * ((a - q ^ 2) ^ k * (a + d - q ^ 2) ^ k)) q := by
  have h : ∀ j ∈ Finset.range (k + 1), HasDerivAt
      (fun q => (k.choose j : ℝ) * d ^ (k - j) * (a - q ^ 2) ^ (k + j + 1) / (k + j + 1))
      (-(2 * q * (a - q ^ 2) ^ k * ((a - q ^ 2) ^ j * d ^ (k - j) * (k.choose j : ℝ)))) q := fun j _ => by
    have h1 : HasDerivAt (fun q : ℝ => a - q ^ 2) (-(2 * q)) q := by
      simpa using (hasDerivAt_pow 2 q).const_sub a
    have h2 := ((h1.pow (k + j + 1)).const_mul ((k.choose j : ℝ) * d ^ (k - j))).div_const ((k : ℝ) + j + 1)
    refine h2.congr_deriv ?_
    have : (k : ℝ) + j + 1 ≠ 0 := by positivity
    field_simp
    push_cast
    rw [pow_add]
    ring
  have h2 := (HasDerivAt.fun_sum h).neg
  refine h2.congr_deriv ?_
  rw [Finset.sum_neg_distrib, neg_neg, ← Finset.mul_sum, ← add_pow, show a - q ^ 2 + d = a + d - q ^ 2 by ring]
  ring

theorem inner_zero (d : ℝ) : inner k 0 d = 0 := by
  unfold inner
  exact Finset.sum_eq_zero fun j _ => by simp

/-- Two nested discs. -/
theorem integral_disc {a d : ℝ} (hd : 0 ≤ d) :
    ∫ q in Ioi (0 : ℝ), 2 * q * ((if q ^ 2 < a then (a - q ^ 2) ^ k else 0) * (if q ^ 2 < a + d then (a + d - q ^ 2) ^ k else 0))
      = if 0 < a then inner k a d else 0 := by
  split
  · rename_i ha
    have h1 : ∀ q ∈ Ioi (0 : ℝ), 2 * q * ((if q ^ 2 < a then (a - q ^ 2) ^ k else 0) * (if q ^ 2 < a + d then (a + d - q ^ 2) ^ k else 0))
        = (Iio (√a)).indicator (fun q => 2 * q * ((a - q ^ 2) ^ k * (a + d - q ^ 2) ^ k)) q := fun q hq => by
      by_cases h : q ^ 2 < a
      · have h2 : q ∈ Iio (√a) := (Real.lt_sqrt (le_of_lt hq)).mpr h
        rw [indicator_of_mem h2, if_pos h, if_pos (by linarith)]
      · have h2 : q ∉ Iio (√a) := fun h2 => h ((Real.lt_sqrt (le_of_lt hq)).mp h2)
        rw [indicator_of_notMem h2, if_neg h]
        ring
    rw [setIntegral_congr_fun measurableSet_Ioi h1, setIntegral_indicator measurableSet_Iio, Ioi_inter_Iio,
      ← integral_Ioc_eq_integral_Ioo, ← intervalIntegral.integral_of_le (Real.sqrt_nonneg a),
      intervalIntegral.integral_eq_sub_of_hasDerivAt (fun q _ => inner_deriv k a d q)]
    · simp [Real.sq_sqrt ha.le, inner_zero]
    · exact Continuous.intervalIntegrable (by fun_prop) _ _
  · rename_i ha
    rw [setIntegral_congr_fun (g := fun _ => 0) measurableSet_Ioi fun q _ => ?_]
    · simp
    · have : ¬ q ^ 2 < a := fun h => ha (lt_of_le_of_lt (sq_nonneg q) h)
      simp [this]

/-- The overlap in the plane at position `u` between two bumps at distance `r`. -/
noncomputable def slice (k : ℕ) (t r u : ℝ) : ℝ :=
  ∫ w : EuclideanSpace ℝ (Fin 2), prof k t (u ^ 2 + ‖w‖ ^ 2) * prof k t ((u - r) ^ 2 + ‖w‖ ^ 2)

theorem slice_comm (r u : ℝ) : slice k t r (r - u) = slice k t r u := by
  unfold slice
  congr 1
  funext w
  rw [mul_comm, show (r - u - r) ^ 2 = u ^ 2 by ring, show (r - u) ^ 2 = (u - r) ^ 2 by ring]

theorem slice_eq {r u : ℝ} (hr : 0 ≤ r) (hu : r / 2 ≤ u) :
    slice k t r u = if u ^ 2 < t ^ 2 then Real.pi * inner k (t ^ 2 - u ^ 2) (2 * u * r - r ^ 2) else 0 := by
  unfold slice
  rw [integral_plane (fun q => prof k t (u ^ 2 + q) * prof k t ((u - r) ^ 2 + q))]
  have hd : 0 ≤ 2 * u * r - r ^ 2 := by nlinarith
  have h := integral_disc k (a := t ^ 2 - u ^ 2) hd
  have e1 : ∀ q : ℝ, prof k t (u ^ 2 + q ^ 2) = if q ^ 2 < t ^ 2 - u ^ 2 then (t ^ 2 - u ^ 2 - q ^ 2) ^ k else 0 := fun q => by
    unfold prof
    simp only [lt_sub_iff_add_lt', sub_sub]
  have e2 : ∀ q : ℝ, prof k t ((u - r) ^ 2 + q ^ 2)
      = if q ^ 2 < t ^ 2 - u ^ 2 + (2 * u * r - r ^ 2) then (t ^ 2 - u ^ 2 + (2 * u * r - r ^ 2) - q ^ 2) ^ k else 0 := fun q => by
    have : t ^ 2 - u ^ 2 + (2 * u * r - r ^ 2) = t ^ 2 - (u - r) ^ 2 := by ring
    unfold prof
    simp only [this, lt_sub_iff_add_lt', sub_sub]
  simp only [e1, e2]
  rw [h]
  simp only [sub_pos]
  split
  · rfl
  · simp

/-- **The overlap of two bumps** as a function of the distance. -/
theorem overlap_formula (ht : 0 < t) (x x' : Space) :
    overlap k t x x' = if ‖x' - x‖ < 2 * t then
      2 * Real.pi * ∫ u in (‖x' - x‖ / 2)..t, inner k (t ^ 2 - u ^ 2) (2 * u * ‖x' - x‖ - ‖x' - x‖ ^ 2) else 0 := by
  rw [overlap_eq]
  set r := ‖x' - x‖ with hr
  have hr0 : 0 ≤ r := norm_nonneg _
  have h1 : ∀ y : Space, prof k t (‖y‖ ^ 2) * prof k t (‖y - EuclideanSpace.single 0 r‖ ^ 2)
      = (fun u q => prof k t (u ^ 2 + q) * prof k t ((u - r) ^ 2 + q)) (y 0) (y 1 ^ 2 + y 2 ^ 2) := fun y => by
    have e1 : ‖y‖ ^ 2 = y 0 ^ 2 + (y 1 ^ 2 + y 2 ^ 2) := by
      rw [EuclideanSpace.norm_sq_eq, Fin.sum_univ_three]
      simp only [Real.norm_eq_abs, sq_abs]
      ring
    have e2 : ‖y - EuclideanSpace.single 0 r‖ ^ 2 = (y 0 - r) ^ 2 + (y 1 ^ 2 + y 2 ^ 2) := by
      rw [EuclideanSpace.norm_sq_eq, Fin.sum_univ_three]
      simp only [Real.norm_eq_abs, sq_abs]
      simp
      ring
    simp only [e1, e2]
  have hint := bumps_integrable k t 0 (EuclideanSpace.single 0 r)
  simp only [sub_zero] at hint
  simp only [h1] at hint ⊢
  obtain ⟨h2, h3⟩ := integral_slices (fun u q => prof k t (u ^ 2 + q) * prof k t ((u - r) ^ 2 + q)) hint
  rw [h3]
  change Integrable (slice k t r) at h2
  change ∫ u, slice k t r u = _
  have h4 : ∫ u in Iic (r / 2), slice k t r u = ∫ u in Ici (r / 2), slice k t r u := by
    rw [← integral_indicator measurableSet_Iic, ← integral_indicator measurableSet_Ici, ← integral_sub_left_eq_self _ volume r]
    congr 1
    funext u
    by_cases hu : r / 2 ≤ u
    · rw [indicator_of_mem (show r - u ∈ Iic (r / 2) by simp only [mem_Iic]; linarith), indicator_of_mem (show u ∈ Ici (r / 2) from hu),
        slice_comm]
    · rw [indicator_of_notMem (show r - u ∉ Iic (r / 2) by simp only [mem_Iic]; linarith), indicator_of_notMem (show u ∉ Ici (r / 2) from hu)]
  have h5 : ∫ u, slice k t r u = 2 * ∫ u in Ioi (r / 2), slice k t r u := by
    rw [← integral_add_compl (measurableSet_Iic (a := r / 2)) h2, h4, compl_Iic, integral_Ici_eq_integral_Ioi]
    ring
  rw [h5]
  have h6 : ∀ u ∈ Ioi (r / 2), slice k t r u
      = (Iio t).indicator (fun u => Real.pi * inner k (t ^ 2 - u ^ 2) (2 * u * r - r ^ 2)) u := fun u hu => by
    have hu : r / 2 < u := hu
    have hu0 : 0 ≤ u := by linarith
    rw [slice_eq k t hr0 hu.le]
    by_cases h : u < t
    · rw [if_pos (pow_lt_pow_left₀ h hu0 two_ne_zero), indicator_of_mem (show u ∈ Iio t from h)]
    · rw [if_neg (not_lt.mpr (pow_le_pow_left₀ ht.le (not_lt.mp h) 2)), indicator_of_notMem (show u ∉ Iio t from h)]
  rw [setIntegral_congr_fun measurableSet_Ioi h6, setIntegral_indicator measurableSet_Iio, Ioi_inter_Iio]
  split
  · rw [← integral_Ioc_eq_integral_Ioo, ← intervalIntegral.integral_of_le (by linarith), intervalIntegral.integral_const_mul]
    ring
  · rw [Ioo_eq_empty (by linarith)]
    simp

end Verif.Overlap
