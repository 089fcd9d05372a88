import Verif.Mapping.Definite
import Verif.Mapping.Wendland

set_option autoImplicit false

/-!
Mixtures of overlaps of bumps are strictly positive definite.
-/

namespace Verif.Overlap

open MeasureTheory Set Verif.Definite

variable {n : ℕ}

/-- The overlap of two bumps of diameter `t`, relative to its value for distance zero. -/
noncomputable def trunc (k : Fin 5) (t r : ℝ) : ℝ := if r < t then hat k (r / t) else 0

theorem total_pos (k : Fin 5) : 0 < total k := by
  fin_cases k <;> norm_num [total]

theorem hat_zero (k : Fin 5) : hat k 0 = 1 := by
  fin_cases k <;> norm_num [hat]

theorem hat_continuous (k : Fin 5) : Continuous (hat k) := by
  fin_cases k <;> (unfold hat; fun_prop)

theorem integral_inner (k : Fin 5) (r t : ℝ) (ht : t ≠ 0) :
    2 * ∫ u in r..t, inner k (t ^ 2 - u ^ 2) (2 * u * (2 * r) - (2 * r) ^ 2) = total k * t ^ (4 * (k : ℕ) + 3) * hat k (r / t) := by
  fin_cases k
  · exact integral_inner_0 r t ht
  · exact integral_inner_1 r t ht
  · exact integral_inner_2 r t ht
  · exact integral_inner_3 r t ht
  · exact integral_inner_4 r t ht

theorem overlap_trunc (k : Fin 5) {t : ℝ} (ht : 0 < t) (x x' : Space) :
    overlap k t ((2 : ℝ) • x) ((2 : ℝ) • x') = Real.pi * (total k * t ^ (4 * (k : ℕ) + 3)) * trunc k t ‖x' - x‖ := by
  rw [overlap_formula k t ht, ← smul_sub, norm_smul, Real.norm_of_nonneg two_pos.le, trunc]
  by_cases h : ‖x' - x‖ < t
  · rw [if_pos (by linarith), if_pos h, mul_div_cancel_left₀ _ two_ne_zero]
    have := integral_inner k ‖x' - x‖ t ht.ne'
    linear_combination Real.pi * this
  · rw [if_neg (by linarith), if_neg h, mul_zero]

/-- Overlaps are positive semidefinite. -/
theorem form_overlap_nonneg (k : ℕ) (t : ℝ) (x : Fin n → Space) (c : Fin n → ℝ) : 0 ≤ form (fun i j => overlap k t (x i) (x j)) c := by
  have h : form (fun i j => overlap k t (x i) (x j)) c = ∫ y : Space, (∑ i, c i * prof k t (‖y - x i‖ ^ 2)) ^ 2 := by
    have e : ∀ y : Space, (∑ i, c i * prof k t (‖y - x i‖ ^ 2)) ^ 2
        = ∑ i, ∑ j, c i * c j * (prof k t (‖y - x i‖ ^ 2) * prof k t (‖y - x j‖ ^ 2)) := fun y => by
      rw [pow_two, Finset.sum_mul_sum]
      exact Finset.sum_congr rfl fun i _ => Finset.sum_congr rfl fun j _ => by ring
    have hi : ∀ i j, Integrable fun y : Space => c i * c j * (prof k t (‖y - x i‖ ^ 2) * prof k t (‖y - x j‖ ^ 2)) :=
      fun i j => (bumps_integrable k t (x i) (x j)).const_mul _
    simp only [e]
    rw [integral_finsetSum _ fun i _ => integrable_finsetSum _ fun j _ => hi i j]
    simp only [form]
    refine Finset.sum_congr rfl fun i _ => ?_
    rw [integral_finsetSum _ fun j _ => hi i j]
    exact Finset.sum_congr rfl fun j _ => (integral_const_mul _ _).symm
  rw [h]
  exact integral_nonneg fun y => sq_nonneg _

theorem form_trunc_nonneg (k : Fin 5) {t : ℝ} (ht : 0 < t) (x : Fin n → Space) (c : Fin n → ℝ) :
    0 ≤ form (fun i j => trunc k t ‖x j - x i‖) c := by
  have h := form_overlap_nonneg k t (fun i => (2 : ℝ) • x i) c
  simp only [overlap_trunc k ht] at h
  rw [form_smul] at h
  exact nonneg_of_mul_nonneg_right h (mul_pos Real.pi_pos (mul_pos (total_pos k) (pow_pos ht _)))

/-- Bumps that do not overlap. -/
theorem form_trunc_separate (k : Fin 5) {t : ℝ} (ht : 0 < t) (x : Fin n → Space) (hx : ∀ i j, i ≠ j → t ≤ ‖x j - x i‖) (c : Fin n → ℝ) :
    form (fun i j => trunc k t ‖x j - x i‖) c = ∑ i, c i ^ 2 := by
  simp only [form]
  refine Finset.sum_congr rfl fun i _ => ?_
  rw [Finset.sum_eq_single i]
  · simp [trunc, ht, hat_zero, pow_two]
  · intro j _ hj
    rw [trunc, if_neg (not_lt.mpr (hx i j (Ne.symm hj))), mul_zero]
  · simp

theorem exists_separation (x : Fin n → Space) (hx : Function.Injective x) : ∃ δ, 0 < δ ∧ δ ≤ 1 ∧ ∀ i j, i ≠ j → δ ≤ ‖x j - x i‖ := by
  classical
  set S : Finset ℝ := insert 1 ((Finset.univ.filter fun p : Fin n × Fin n => p.1 ≠ p.2).image fun p => ‖x p.2 - x p.1‖) with hS
  have hne : S.Nonempty := Finset.insert_nonempty _ _
  refine ⟨S.min' hne, ?_, ?_, fun i j hij => ?_⟩
  · rw [Finset.lt_min'_iff]
    intro r hr
    rw [hS, Finset.mem_insert, Finset.mem_image] at hr
    rcases hr with rfl | ⟨p, hp, rfl⟩
    · exact one_pos
    · exact norm_pos_iff.mpr (sub_ne_zero.mpr fun e => (Finset.mem_filter.mp hp).2 (hx e).symm)
  · exact Finset.min'_le _ _ (Finset.mem_insert_self _ _)
  · refine Finset.min'_le _ _ (Finset.mem_insert_of_mem (Finset.mem_image.mpr ⟨(i, j), ?_, rfl⟩))
    simpa using hij

/-- A function of the distance is a mixture of overlaps: density `w` on `(0, 1)` and mass `m` at one. -/
structure Mixture (k : Fin 5) (w : ℝ → ℝ) (m : ℝ) (φ : ℝ → ℝ) : Prop where
  cont : Continuous w
  pos : ∀ t, 0 < t → t < 1 → 0 < w t
  mass : 0 ≤ m
  zero : φ 0 = (∫ t in (0 : ℝ)..1, w t) + m
  mid : ∀ r, 0 < r → r < 1 → φ r = (∫ t in r..1, w t * hat k (r / t)) + m * hat k r
  out : ∀ r, 1 ≤ r → φ r = 0

theorem Mixture.integrable {k : Fin 5} {w : ℝ → ℝ} {m : ℝ} {φ : ℝ → ℝ} (h : Mixture k w m φ) {r : ℝ} (hr : 0 ≤ r) :
    IntegrableOn (fun t => w t * trunc k t r) (Ioo 0 1) ∧ φ r = (∫ t in Ioo (0 : ℝ) 1, w t * trunc k t r) + m * trunc k 1 r := by
  rcases hr.eq_or_lt with rfl | hr
  · have e : EqOn (fun t => w t * trunc k t 0) w (Ioo 0 1) := fun t ht => by simp [trunc, ht.1, hat_zero]
    refine ⟨(integrableOn_congr_fun e measurableSet_Ioo).mpr (h.cont.integrableOn_Icc.mono_set Ioo_subset_Icc_self), ?_⟩
    rw [setIntegral_congr_fun measurableSet_Ioo e, h.zero, intervalIntegral.integral_of_le zero_le_one, integral_Ioc_eq_integral_Ioo]
    simp [trunc, hat_zero]
  · rcases lt_or_ge r 1 with h1 | h1
    · have e : EqOn (fun t => w t * trunc k t r) ((Ioi r).indicator fun t => w t * hat k (r / t)) (Ioo 0 1) := fun t ht => by
        by_cases hrt : r < t
        · simp [trunc, hrt]
        · simp [trunc, hrt]
      have hc : ContinuousOn (fun t => w t * hat k (r / t)) (Icc r 1) :=
        h.cont.continuousOn.mul ((hat_continuous k).comp_continuousOn (continuousOn_const.div continuousOn_id fun t ht =>
          (lt_of_lt_of_le hr ht.1).ne'))
      have hs : Ioo (0 : ℝ) 1 ∩ Ioi r = Ioo r 1 := by
        ext t
        simp only [mem_inter_iff, mem_Ioo, mem_Ioi]
        constructor
        · rintro ⟨⟨_, h2⟩, h3⟩; exact ⟨h3, h2⟩
        · rintro ⟨h3, h2⟩; exact ⟨⟨hr.trans h3, h2⟩, h3⟩
      constructor
      · rw [integrableOn_congr_fun e measurableSet_Ioo, IntegrableOn, integrable_indicator_iff measurableSet_Ioi, IntegrableOn,
          Measure.restrict_restrict measurableSet_Ioi, inter_comm, hs]
        exact (hc.integrableOn_Icc).mono_set Ioo_subset_Icc_self
      · rw [setIntegral_congr_fun measurableSet_Ioo e, setIntegral_indicator measurableSet_Ioi, hs, h.mid r hr h1,
          intervalIntegral.integral_of_le h1.le, integral_Ioc_eq_integral_Ioo]
        simp [trunc, h1]
    · have e : EqOn (fun t => w t * trunc k t r) (fun _ => 0) (Ioo 0 1) := fun t ht => by
        simp [trunc, not_lt.mpr (ht.2.le.trans h1)]
      refine ⟨(integrableOn_congr_fun e measurableSet_Ioo).mpr (integrable_zero _ _ _), ?_⟩
      rw [setIntegral_congr_fun measurableSet_Ioo e, h.out r h1]
      simp [trunc, not_lt.mpr h1]

/-- **Mixtures of overlaps are strictly positive definite.** -/
theorem Mixture.form_pos {k : Fin 5} {w : ℝ → ℝ} {m : ℝ} {φ : ℝ → ℝ} (h : Mixture k w m φ) (x : Fin n → Space) (hx : Function.Injective x)
    {c : Fin n → ℝ} (hc : c ≠ 0) : 0 < form (fun i j => φ ‖x j - x i‖) c := by
  have hi := fun i j => h.integrable (norm_nonneg (x j - x i))
  have h1 : form (fun i j => φ ‖x j - x i‖) c
      = (∫ t in Ioo (0 : ℝ) 1, form (fun i j => w t * trunc k t ‖x j - x i‖) c) + m * form (fun i j => trunc k 1 ‖x j - x i‖) c := by
    have e : (fun i j => φ ‖x j - x i‖)
        = fun i j => (∫ t in Ioo (0 : ℝ) 1, w t * trunc k t ‖x j - x i‖) + m * trunc k 1 ‖x j - x i‖ :=
      funext fun i => funext fun j => (hi i j).2
    rw [e, form_add, form_smul]
    congr 1
    simp only [form]
    have hii : ∀ i j, Integrable (fun t => c i * c j * (w t * trunc k t ‖x j - x i‖)) (volume.restrict (Ioo 0 1)) :=
      fun i j => (hi i j).1.const_mul _
    rw [integral_finsetSum _ fun i _ => integrable_finsetSum _ fun j _ => hii i j]
    refine Finset.sum_congr rfl fun i _ => ?_
    rw [integral_finsetSum _ fun j _ => hii i j]
    exact Finset.sum_congr rfl fun j _ => (integral_const_mul _ _).symm
  have hint : IntegrableOn (fun t => form (fun i j => w t * trunc k t ‖x j - x i‖) c) (Ioo 0 1) := by
    simp only [form]
    exact integrable_finsetSum _ fun i _ => integrable_finsetSum _ fun j _ => (hi i j).1.const_mul _
  obtain ⟨δ, hδ, hδ1, hsep⟩ := exists_separation x hx
  rw [h1]
  refine add_pos_of_pos_of_nonneg ?_ (mul_nonneg h.mass (form_trunc_nonneg k one_pos x c))
  rw [setIntegral_pos_iff_support_of_nonneg_ae]
  · refine lt_of_lt_of_le ?_ (measure_mono (?_ : Ioo 0 δ ⊆ _))
    · rw [Real.volume_Ioo, sub_zero]
      exact ENNReal.ofReal_pos.mpr hδ
    · intro t ht
      have ht1 : t < 1 := ht.2.trans_le hδ1
      refine ⟨?_, ht.1, ht1⟩
      rw [Function.mem_support, form_smul, form_trunc_separate k ht.1 x fun i j hij => ht.2.le.trans (hsep i j hij)]
      refine (mul_pos (h.pos t ht.1 ht1) ?_).ne'
      obtain ⟨i, hi⟩ := Function.ne_iff.mp hc
      exact Finset.sum_pos' (fun _ _ => sq_nonneg _) ⟨i, Finset.mem_univ _, by have : c i ≠ 0 := hi; positivity⟩
  · refine (ae_restrict_iff' measurableSet_Ioo).mpr (Filter.Eventually.of_forall fun t ht => ?_)
    beta_reduce
    rw [Pi.zero_apply, form_smul]
    exact mul_nonneg (h.pos t ht.1 ht.2).le (form_trunc_nonneg k ht.1 x c)
  · exact hint

theorem polynomial_0 : Mixture 0 (fun t => 2/3 * t) (2/3) (fun r => if 1 ≤ r then 0 else (1 - r) ^ 2 * 1) where
  cont := by fun_prop
  pos := fun t h0 h1 => by
    positivity
  mass := by norm_num
  zero := by
    rw [intervalIntegral.integral_congr (g := fun t => (([((2/3), 1)] : List (ℝ × ℕ)).map fun p => p.1 * t ^ p.2).sum), integral_list]
    · norm_num
    · intro t _
      simp only [List.map_cons, List.map_nil, List.sum_cons, List.sum_nil]
      ring
  mid := fun r h0 h1 => by
    rw [if_neg (not_le.mpr h1), mixture_0 h0 h1]
  out := fun r h => if_pos h

theorem polynomial_1 : Mixture 1 (fun t => 12/7 * t ^ 3) (4/7) (fun r => if 1 ≤ r then 0 else (1 - r) ^ 4 * (4 * r + 1)) where
  cont := by fun_prop
  pos := fun t h0 h1 => by
    positivity
  mass := by norm_num
  zero := by
    rw [intervalIntegral.integral_congr (g := fun t => (([((12/7), 3)] : List (ℝ × ℕ)).map fun p => p.1 * t ^ p.2).sum), integral_list]
    · norm_num
    · intro t _
      simp only [List.map_cons, List.map_nil, List.sum_cons, List.sum_nil]
      ring
  mid := fun r h0 h1 => by
    rw [if_neg (not_le.mpr h1), mixture_1 h0 h1]
  out := fun r h => if_pos h

theorem polynomial_2 : Mixture 2 (fun t => 120/11 * t ^ 5 - 24/11 * t ^ 7) (16/11) (fun r => if 1 ≤ r then 0 else (1 - r) ^ 6 * (35 * r ^ 2 + (18 * r + 3))) where
  cont := by fun_prop
  pos := fun t h0 h1 => by
    have h2 : t ^ 2 < 1 := pow_lt_one₀ h0.le h1 two_ne_zero
    have : 120 / 11 * t ^ 5 - 24 / 11 * t ^ 7 = 24 / 11 * t ^ 5 * (5 - t ^ 2) := by ring
    rw [this]
    exact mul_pos (by positivity) (by linarith)
  mass := by norm_num
  zero := by
    rw [intervalIntegral.integral_congr (g := fun t => (([((120/11), 5), ((-24/11), 7)] : List (ℝ × ℕ)).map fun p => p.1 * t ^ p.2).sum), integral_list]
    · norm_num
    · intro t _
      simp only [List.map_cons, List.map_nil, List.sum_cons, List.sum_nil]
      ring
  mid := fun r h0 h1 => by
    rw [if_neg (not_le.mpr h1), mixture_2 h0 h1]
  out := fun r h => if_pos h

theorem polynomial_3 : Mixture 3 (fun t => 280/39 * t ^ 7 - 40/13 * t ^ 9) (16/39) (fun r => if 1 ≤ r then 0 else (1 - r) ^ 8 * (32 * r ^ 3 + 25 * r ^ 2 + (8 * r + 1))) where
  cont := by fun_prop
  pos := fun t h0 h1 => by
    have h2 : t ^ 2 < 1 := pow_lt_one₀ h0.le h1 two_ne_zero
    have : 280 / 39 * t ^ 7 - 40 / 13 * t ^ 9 = 40 / 39 * t ^ 7 * (7 - 3 * t ^ 2) := by ring
    rw [this]
    exact mul_pos (by positivity) (by linarith)
  mass := by norm_num
  zero := by
    rw [intervalIntegral.integral_congr (g := fun t => (([((280/39), 7), ((-40/13), 9)] : List (ℝ × ℕ)).map fun p => p.1 * t ^ p.2).sum), integral_list]
    · norm_num
    · intro t _
      simp only [List.map_cons, List.map_nil, List.sum_cons, List.sum_nil]
      ring
  mid := fun r h0 h1 => by
    rw [if_neg (not_le.mpr h1), mixture_3 h0 h1]
  out := fun r h => if_pos h

theorem polynomial_4 : Mixture 4 (fun t => 66150/323 * t ^ 9 - 44100/323 * t ^ 11 + 3150/323 * t ^ 13) (1680/323) (fun r => if 1 ≤ r then 0 else (1 - r) ^ 10 * (1287 * r ^ 4 + 1350 * r ^ 3 + 630 * r ^ 2 + 150 * r + 15)) where
  cont := by fun_prop
  pos := fun t h0 h1 => by
    have h2 : t ^ 2 < 1 := pow_lt_one₀ h0.le h1 two_ne_zero
    have : 66150 / 323 * t ^ 9 - 44100 / 323 * t ^ 11 + 3150 / 323 * t ^ 13 = 3150 / 323 * t ^ 9 * (21 - 14 * t ^ 2 + t ^ 4) := by ring
    rw [this]
    exact mul_pos (by positivity) (by have : 0 < t ^ 4 := by positivity
                                      linarith)
  mass := by norm_num
  zero := by
    rw [intervalIntegral.integral_congr (g := fun t => (([((66150/323), 9), ((-44100/323), 11), ((3150/323), 13)] : List (ℝ × ℕ)).map fun p => p.1 * t ^ p.2).sum), integral_list]
    · norm_num
    · intro t _
      simp only [List.map_cons, List.map_nil, List.sum_cons, List.sum_nil]
      ring
  mid := fun r h0 h1 => by
    rw [if_neg (not_le.mpr h1), mixture_4 h0 h1]
  out := fun r h => if_pos h

theorem spline_mixture : Mixture 1 (fun t => 48 / 7 * t ^ 2 - 36 / 7 * t ^ 3) 0
    (fun r => if 1 ≤ r then 0 else 1 - 30 * r ^ 2 - 10 * r ^ 3 + 45 * r ^ 4 - 6 * r ^ 5 - r ^ 3 * 60 * Real.log r) where
  cont := by fun_prop
  pos := fun t h0 h1 => by
    have : 48 / 7 * t ^ 2 - 36 / 7 * t ^ 3 = 12 / 7 * t ^ 2 * (4 - 3 * t) := by ring
    rw [this]
    exact mul_pos (by positivity) (by linarith)
  mass := le_rfl
  zero := by
    rw [intervalIntegral.integral_congr (g := fun t => (([(48 / 7, 2), (-(36 / 7), 3)] : List (ℝ × ℕ)).map fun p => p.1 * t ^ p.2).sum), integral_list]
    · norm_num
    · intro t _
      simp only [List.map_cons, List.map_nil, List.sum_cons, List.sum_nil]
      ring
  mid := fun r h0 h1 => by
    rw [if_neg (not_le.mpr h1), mixture_spline h0 h1]
    ring
  out := fun r h => if_pos h

end Verif.Overlap
