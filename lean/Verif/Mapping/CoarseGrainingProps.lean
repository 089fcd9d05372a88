import Verif.Mapping.CoarseGraining
import Verif.Mapping.BasisProps
import Verif.Mapping.PumExamples
import Mathlib.MeasureTheory.Constructions.HaarToSphere
import Mathlib.MeasureTheory.Measure.Lebesgue.VolumeOfBalls
import Mathlib.MeasureTheory.Integral.IntervalIntegral.FundThmCalculus
import Mathlib.Analysis.Real.Pi.Bounds

/-!
Properties of the coarse graining mapping (C100).
-/

set_option autoImplicit false

namespace Verif.Coarse
open Rbf Pum Verif.Basis MeasureTheory Set

variable {n : ℕ}

/-! ## The kernel -/

theorem piConst_pos : 0 < piConst := by
  unfold piConst
  norm_num

/-- Specification: Lucy's density of a unit load in three dimensions, written without cases -/
noncomputable def lucy (c r : ℝ) : ℝ := 105 / (16 * piConst * c ^ 3) * ((1 + 3 * (r / c)) * max (1 - r / c) 0 ^ 3)

theorem kernel_eq {c : ℝ} (hc : 0 < c) (r : ℝ) : kernel c r = 105 / (16 * piConst * c ^ 3) * ((1 + 3 * (r / c)) * max (1 - r / c) 0 ^ 3) := by
  unfold kernel evaluate grainDim
  split
  · rename_i h
    have : 1 - r / c ≤ 0 := by
      rw [sub_nonpos, le_div_iff₀ hc, one_mul]
      exact h.le
    rw [max_eq_right this]
    simp
  · rename_i h
    have : 0 ≤ 1 - r / c := by
      rw [sub_nonneg, div_le_one hc]
      exact not_lt.1 h
    simp only [Option.getD_some, C98_power]
    rw [max_eq_left this]
    ring

/-- **Non-negative and local**: the kernel is nowhere negative, positive inside of the radius and zero from the radius
on. -/
theorem C100_kernel (c : ℝ) (hc : 0 < c) (r : ℝ) (hr : 0 ≤ r) : 0 ≤ kernel c r ∧ (r < c → 0 < kernel c r) ∧ (c ≤ r → kernel c r = 0) := by
  have hp := piConst_pos
  rw [kernel_eq hc]
  have h1 : 0 < 1 + 3 * (r / c) := by positivity
  have h2 : 0 < 105 / (16 * piConst * c ^ 3) := by positivity
  refine ⟨by positivity, fun h => ?_, fun h => ?_⟩
  · have : 0 < 1 - r / c := by
      rw [sub_pos, div_lt_one hc]
      exact h
    rw [max_eq_left this.le]
    positivity
  · have : 1 - r / c ≤ 0 := by
      rw [sub_nonpos, le_div_iff₀ hc, one_mul]
      exact h
    rw [max_eq_right this]
    simp

/-- **Smooth**: the kernel and its first derivative are continuous. -/
theorem C100_smooth (c : ℝ) (hc : 0 < c) : ContDiff ℝ 1 fun x => kernel c |x| := by
  have h : (fun x => kernel c |x|) = fun x => 105 / (16 * piConst * c ^ 3) * ((fun r => if 1 ≤ r * (1 / c) then 0 else (1 - r * (1 / c)) ^ 3 * (1 + 3 * (r * (1 / c)))) |x|) := by
    funext x
    rw [kernel_eq hc]
    simp only [mul_one_div]
    congr 1
    split
    · rename_i h
      rw [max_eq_right (by linarith)]
      simp
    · rename_i h
      rw [max_eq_left (by linarith)]
      ring
  rw [h]
  refine contDiff_const.mul ?_
  have := smooth_cut (k := 2) (m := 3) (by norm_num) (by decide) (q := fun p => 1 + 3 * p) (P := fun y => 1 - 6 * y - 3 * y ^ 2) (Q := fun _ => 8) (by fun_prop) (by fun_prop) (by fun_prop) (fun p => by ring) (one_div_pos.2 hc)
    (f := fun r => if 1 ≤ r * (1 / c) then 0 else (1 - r * (1 / c)) ^ 3 * (1 + 3 * (r * (1 / c)))) fun r => rfl
  exact this.of_le (by norm_num)

/-- The mass of the kernel in spherical shells -/
theorem shell_integral {c : ℝ} (hc : 0 < c) : ∫ r in (0)..c, r ^ 2 * kernel c r = 1 / (4 * piConst) := by
  have hp := piConst_pos
  set F : ℝ → ℝ := fun r => 105 / (16 * piConst * c ^ 3) * (r ^ 3 / 3 - 6 * r ^ 5 / (5 * c ^ 2) + 8 * r ^ 6 / (6 * c ^ 3) - 3 * r ^ 7 / (7 * c ^ 4)) with hF
  have hd : ∀ r ∈ uIcc 0 c, HasDerivAt F (105 / (16 * piConst * c ^ 3) * (r ^ 2 * ((1 + 3 * (r / c)) * (1 - r / c) ^ 3))) r := by
    intro r _
    have hpow : ∀ k : ℕ, HasDerivAt (fun r : ℝ => r ^ (k + 1)) ((k + 1) * r ^ k) r := fun k => by
      have := hasDerivAt_pow (k + 1) r
      rw [Nat.add_sub_cancel] at this
      push_cast at this
      exact this
    have h := (((((hpow 2).div_const 3).sub (((hpow 4).const_mul 6).div_const (5 * c ^ 2))).add (((hpow 5).const_mul 8).div_const (6 * c ^ 3))).sub (((hpow 6).const_mul 3).div_const (7 * c ^ 4))).const_mul (105 / (16 * piConst * c ^ 3))
    have e : 105 / (16 * piConst * c ^ 3) * (r ^ 2 * ((1 + 3 * (r / c)) * (1 - r / c) ^ 3))
        = 105 / (16 * piConst * c ^ 3) * ((((2 : ℕ) : ℝ) + 1) * r ^ 2 / 3 - 6 * ((((4 : ℕ) : ℝ) + 1) * r ^ 4) / (5 * c ^ 2) + 8 * ((((5 : ℕ) : ℝ) + 1) * r ^ 5) / (6 * c ^ 3) - 3 * ((((6 : ℕ) : ℝ) + 1) * r ^ 6) / (7 * c ^ 4)) := by
      congr 1
      push_cast
      field_simp
      ring
    rw [e]
    exact h
  have hcong : ∫ r in (0)..c, r ^ 2 * kernel c r = ∫ r in (0)..c, 105 / (16 * piConst * c ^ 3) * (r ^ 2 * ((1 + 3 * (r / c)) * (1 - r / c) ^ 3)) := by
    refine intervalIntegral.integral_congr fun r hr => ?_
    rw [uIcc_of_le hc.le] at hr
    have : 0 ≤ 1 - r / c := by
      rw [sub_nonneg, div_le_one hc]
      exact hr.2
    rw [kernel_eq hc, max_eq_left this]
    ring
  rw [hcong, intervalIntegral.integral_eq_sub_of_hasDerivAt hd ((by fun_prop : Continuous fun r : ℝ => 105 / (16 * piConst * c ^ 3) * (r ^ 2 * ((1 + 3 * (r / c)) * (1 - r / c) ^ 3))).intervalIntegrable _ _)]
  rw [hF]
  beta_reduce
  field_simp
  ring

/-- **Normalised.** The density of a unit load integrates to one in three dimensions, up to the accuracy of the constant
for π. -/
theorem C100_normalised (c : ℝ) (hc : 0 < c) (p : EuclideanSpace ℝ (Fin 3)) :
    ∫ x : EuclideanSpace ℝ (Fin 3), kernel c ‖x - p‖ = Real.pi / piConst ∧ |Real.pi / piConst - 1| < 1e-15 := by
  constructor
  · rw [integral_sub_right_eq_self (fun x : EuclideanSpace ℝ (Fin 3) => kernel c ‖x‖) p, integral_fun_norm_addHaar volume (kernel c)]
    have hball : (volume : Measure (EuclideanSpace ℝ (Fin 3))).real (Metric.ball 0 1) = Real.pi * 4 / 3 := by
      rw [Measure.real, EuclideanSpace.volume_ball_fin_three]
      simp [ENNReal.toReal_ofReal (by positivity : (0 : ℝ) ≤ Real.pi * 4 / 3)]
    have hint : ∫ y in Ioi (0 : ℝ), y ^ 2 * kernel c y = 1 / (4 * piConst) := by
      rw [← shell_integral hc, intervalIntegral.integral_of_le hc.le]
      refine setIntegral_eq_of_subset_of_forall_sdiff_eq_zero measurableSet_Ioi Ioc_subset_Ioi_self fun x hx => ?_
      have h0 : (0 : ℝ) < x := hx.1
      have h1 : c < x := by
        by_contra h
        exact hx.2 ⟨h0, not_lt.1 h⟩
      rw [(C100_kernel c hc x h0.le).2.2 h1.le, mul_zero]
    rw [hball]
    simp only [finrank_euclideanSpace, Fintype.card_fin, Nat.add_one_sub_one, smul_eq_mul]
    rw [hint]
    have := piConst_pos
    simp only [nsmul_eq_mul]
    push_cast
    field_simp
  · have h1 := Real.pi_gt_d20
    have h2 := Real.pi_lt_d20
    have hp := piConst_pos
    have e : Real.pi / piConst - 1 = (Real.pi - piConst) / piConst := by
      field_simp
    rw [e, abs_lt]
    unfold piConst at *
    constructor
    · rw [lt_div_iff₀ hp]
      norm_num
      norm_num at h1
      linarith
    · rw [div_lt_iff₀ hp]
      norm_num
      norm_num at h2
      linarith

/-! ## Writing -/

theorem fold_update {l : List (Fin n)} (hl : l.Nodup) (g : Fin n → ℝ) (t : Fin n → ℝ) (i : Fin n) :
    l.foldl (fun t d => Function.update t d (t d + g d)) t i = t i + if i ∈ l then g i else 0 := by
  induction l generalizing t with
  | nil => simp
  | cons d l ih =>
    rw [List.foldl_cons, ih (List.nodup_cons.1 hl).2]
    have hd := (List.nodup_cons.1 hl).1
    by_cases h : i = d
    · subst h
      simp [hd]
    · simp [h]

theorem writeOne_eq (X : Fin n → Point) {c : ℝ} (hc : 0 < c) (t : Fin n → ℝ) (w : Point × ℝ) (i : Fin n) : writeOne X c t w i = t i + kernel c (distance (X i) w.1) * w.2 := by
  unfold writeOne
  have hn : (within X w.1 c).Nodup := (List.nodup_finRange n).filter _
  rw [fold_update hn]
  change t i + (if i ∈ within X w.1 c then kernel c (distance (X i) w.1) * w.2 else 0) = _
  congr 1
  split
  · rfl
  · rename_i h
    have hd : c ≤ distance (X i) w.1 := by
      by_contra hlt
      refine h ?_
      unfold within
      rw [List.mem_filter]
      refine ⟨List.mem_finRange i, decide_eq_true ?_⟩
      rw [distance_comm]
      exact not_le.1 hlt
    rw [(C100_kernel c hc _ (distance_nonneg _ _)).2.2 hd, zero_mul]

theorem value (X : Fin n → Point) (c : ℝ) (hc : 0 < c) (target : Fin n → ℝ) (calls : List (List (Point × ℝ))) (i : Fin n) :
    calls.foldl (write X c) target i = target i + (calls.flatten.map fun w => kernel c (distance (X i) w.1) * w.2).sum := by
  have hone : ∀ (ws : List (Point × ℝ)) (t : Fin n → ℝ), write X c t ws i = t i + (ws.map fun w => kernel c (distance (X i) w.1) * w.2).sum := by
    intro ws
    induction ws with
    | nil => exact fun t => by simp [write]
    | cons w ws ih =>
      intro t
      have : write X c t (w :: ws) = write X c (writeOne X c t w) ws := rfl
      rw [this, ih, writeOne_eq X hc, List.map_cons, List.sum_cons]
      ring
  induction calls generalizing target with
  | nil => simp
  | cons ws calls ih =>
    rw [List.foldl_cons, ih, hone, List.flatten_cons, List.map_append, List.sum_append]
    ring

/-- **Values.** However the particles are distributed over calls, the value at a vertex is the sum of the loads of all
particles, weighted by Lucy's density at their distances: no search and no cut-off in the formula. -/
theorem C100_value (X : Fin n → Point) (c : ℝ) (hc : 0 < c) (target : Fin n → ℝ) (calls : List (List (Point × ℝ))) (i : Fin n) :
    calls.foldl (write X c) target i = target i + (calls.flatten.map fun w => lucy c (distance (X i) w.1) * w.2).sum := by
  rw [value X c hc]
  congr 3
  funext w
  rw [kernel_eq hc, lucy]

/-- **Order.** The order of the particles and their distribution over calls do not matter. -/
theorem C100_order (X : Fin n → Point) (c : ℝ) (hc : 0 < c) (target : Fin n → ℝ) (calls calls' : List (List (Point × ℝ))) (h : calls.flatten.Perm calls'.flatten) :
    calls.foldl (write X c) target = calls'.foldl (write X c) target := by
  funext i
  rw [value X c hc, value X c hc, (h.map _).sum_eq]

/-- **Locality.** Vertices farther than the radius from all particles keep their value. -/
theorem C100_local (X : Fin n → Point) (c : ℝ) (hc : 0 < c) (target : Fin n → ℝ) (ws : List (Point × ℝ)) (i : Fin n) (h : ∀ w ∈ ws, c ≤ distance (X i) w.1) : write X c target ws i = target i := by
  have := value X c hc target [ws] i
  simp only [List.foldl_cons, List.foldl_nil, List.flatten_singleton] at this
  rw [this, List.sum_eq_zero, add_zero]
  intro x hx
  obtain ⟨w, hw, rfl⟩ := List.mem_map.1 hx
  rw [(C100_kernel c hc _ (distance_nonneg _ _)).2.2 (h w hw), zero_mul]

/-- **Disagreement with the constraint `conservative`**: a load without vertices in reach is lost without a message, and
a load at a vertex does not arrive as itself. -/
theorem C100_not_conservative : (∀ load : ℝ, write (fun _ : Fin 1 => ![0, 0, 0]) 1 (fun _ => 0) [(![2, 0, 0], load)] = fun _ => 0) ∧
    ∑ i, write (fun _ : Fin 1 => ![0, 0, 0]) 1 (fun _ => 0) [(![0, 0, 0], 1)] i ≠ 1 := by
  constructor
  · intro load
    funext i
    refine C100_local _ 1 one_pos _ _ i fun w hw => ?_
    rw [List.mem_singleton.1 hw]
    refine le_distance ?_
    norm_num [third]
  · have h := value (fun _ : Fin 1 => ![0, 0, 0]) 1 one_pos (fun _ => 0) [[(![0, 0, 0], 1)]] 0
    simp only [List.foldl_cons, List.foldl_nil, List.flatten_singleton, List.map_cons, List.map_nil, List.sum_singleton, mul_one, zero_add] at h
    rw [Fin.sum_univ_one, h, kernel_eq one_pos]
    have : distance ![0, 0, 0] ![0, 0, 0] = 0 := by
      unfold distance
      simp [squaredDifference]
    rw [this]
    unfold piConst
    norm_num

/-- Two particles near two vertices: the values are positive. -/
example : 0 < write ![![0, 0, 0], ![1, 0, 0]] 2 (fun _ => 0) [(![0, 1, 0], 3), (![1, 1, 0], 4)] 0 := by
  have h := value ![![0, 0, 0], ![1, 0, 0]] 2 two_pos (fun _ => 0) [[(![0, 1, 0], 3), (![1, 1, 0], 4)]] 0
  simp only [List.foldl_cons, List.foldl_nil] at h
  rw [h]
  have h1 := (C100_kernel 2 two_pos (distance ![0, 0, 0] ![0, 1, 0]) (distance_nonneg _ _)).2.1 (distance_lt two_pos (by norm_num [third]))
  have h2 := (C100_kernel 2 two_pos (distance ![0, 0, 0] ![1, 1, 0]) (distance_nonneg _ _)).2.1 (distance_lt two_pos (by norm_num [third]))
  simp
  linarith

end Verif.Coarse
