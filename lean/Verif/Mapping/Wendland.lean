import Verif.Mapping.Overlap
import Mathlib.Analysis.SpecialFunctions.Integrals.Basic

set_option autoImplicit false

/-!
Explicit formulas for the overlap of two balls or bumps, and the compactly supported polynomials and splines as mixtures of
such overlaps with positive weights.
-/

namespace Verif.Overlap

open MeasureTheory Set

theorem integral_list (l : List (ℝ × ℕ)) (a b : ℝ) :
    ∫ u in a..b, (l.map fun p => p.1 * u ^ p.2).sum = (l.map fun p => p.1 * ((b ^ (p.2 + 1) - a ^ (p.2 + 1)) / (p.2 + 1))).sum := by
  induction l with
  | nil => simp
  | cons p l ih =>
    simp only [List.map_cons, List.sum_cons]
    rw [intervalIntegral.integral_add, ih, intervalIntegral.integral_const_mul, integral_pow]
    · exact Continuous.intervalIntegrable (by fun_prop) _ _
    · exact Continuous.intervalIntegrable (continuous_list_sum l fun p _ => by fun_prop) _ _

theorem integral_laurent {a b : ℝ} (ha : 0 < a) (hab : a < b) (l : List (ℝ × ℤ)) (hl : ∀ p ∈ l, p.2 ≠ -1) :
    ∫ u in a..b, (l.map fun p => p.1 * u ^ p.2).sum = (l.map fun p => p.1 * ((b ^ (p.2 + 1) - a ^ (p.2 + 1)) / (p.2 + 1))).sum := by
  have h0 : (0 : ℝ) ∉ uIcc a b := by
    rw [uIcc_of_le hab.le]
    exact fun h => absurd h.1 (not_le.mpr ha)
  have hc : ∀ p : ℝ × ℤ, ContinuousOn (fun u : ℝ => p.1 * u ^ p.2) (uIcc a b) := fun p =>
    continuousOn_const.mul (continuousOn_id.zpow₀ p.2 fun u hu => Or.inl fun e => h0 (e ▸ hu))
  induction l with
  | nil => simp
  | cons p l ih =>
    simp only [List.map_cons, List.sum_cons]
    rw [intervalIntegral.integral_add, ih fun q hq => hl q (List.mem_cons_of_mem _ hq), intervalIntegral.integral_const_mul,
      integral_zpow (Or.inr ⟨hl p List.mem_cons_self, h0⟩)]
    · exact (hc p).intervalIntegrable
    · exact (continuousOn_list_sum l fun p _ => hc p).intervalIntegrable

/-- The overlap of two balls or bumps, relative to its value for distance zero, as a function of the distance relative to the
diameter. -/
noncomputable def hat : Fin 5 → ℝ → ℝ
  | 0, x => 1 - 3/2 * x + 1/2 * x ^ 3
  | 1, x => 1 - 7 * x ^ 2 + 35/4 * x ^ 3 - 7/2 * x ^ 5 + 3/4 * x ^ 7
  | 2, x => 1 - 22/3 * x ^ 2 + 33 * x ^ 4 - 77/2 * x ^ 5 + 33/2 * x ^ 7 - 11/2 * x ^ 9 + 5/6 * x ^ 11
  | 3, x => 1 - 9 * x ^ 2 + 39 * x ^ 4 - 143 * x ^ 6 + 1287/8 * x ^ 7 - 143/2 * x ^ 9 + 117/4 * x ^ 11 - 15/2 * x ^ 13 + 7/8 * x ^ 15
  | 4, x => 1 - 76/7 * x ^ 2 + 1938/35 * x ^ 4 - 1292/7 * x ^ 6 + 4199/7 * x ^ 8 - 46189/70 * x ^ 9 + 4199/14 * x ^ 11 - 969/7 * x ^ 13 + 323/7 * x ^ 15 - 19/2 * x ^ 17 + 9/10 * x ^ 19

/-- The overlap for distance zero and radius one. -/
noncomputable def total : Fin 5 → ℝ
  | 0 => 4/3
  | 1 => 32/105
  | 2 => 512/3465
  | 3 => 4096/45045
  | 4 => 131072/2078505

theorem integral_inner_0 (r t : ℝ) (ht : t ≠ 0) :
    2 * ∫ u in r..t, inner 0 (t ^ 2 - u ^ 2) (2 * u * (2 * r) - (2 * r) ^ 2) = total 0 * t ^ 3 * hat 0 (r / t) := by
  rw [intervalIntegral.integral_congr (g := fun u => (([(1 * t ^ 2, 0), ((-(1)), 2)] : List (ℝ × ℕ)).map fun p => p.1 * u ^ p.2).sum), integral_list]
  · simp only [List.map_cons, List.map_nil, List.sum_cons, List.sum_nil, total, hat]
    push_cast
    field_simp
    ring
  · intro u _
    simp only [inner, Finset.sum_range_succ, Finset.sum_range_zero, List.map_cons, List.map_nil, List.sum_cons, List.sum_nil]
    norm_num [Nat.choose]
    ring

theorem integral_inner_1 (r t : ℝ) (ht : t ≠ 0) :
    2 * ∫ u in r..t, inner 1 (t ^ 2 - u ^ 2) (2 * u * (2 * r) - (2 * r) ^ 2) = total 1 * t ^ 7 * hat 1 (r / t) := by
  rw [intervalIntegral.integral_congr (g := fun u => (([(1/3 * t ^ 6 + (-(2)) * r ^ 2 * t ^ 4, 0), (2 * r ^ 1 * t ^ 4, 1), ((-(1)) * t ^ 4 + 4 * r ^ 2 * t ^ 2, 2), ((-(4)) * r ^ 1 * t ^ 2, 3), (1 * t ^ 2 + (-(2)) * r ^ 2, 4), (2 * r ^ 1, 5), ((-(1/3)), 6)] : List (ℝ × ℕ)).map fun p => p.1 * u ^ p.2).sum), integral_list]
  · simp only [List.map_cons, List.map_nil, List.sum_cons, List.sum_nil, total, hat]
    push_cast
    field_simp
    ring
  · intro u _
    simp only [inner, Finset.sum_range_succ, Finset.sum_range_zero, List.map_cons, List.map_nil, List.sum_cons, List.sum_nil]
    norm_num [Nat.choose]
    ring

theorem integral_inner_2 (r t : ℝ) (ht : t ≠ 0) :
    2 * ∫ u in r..t, inner 2 (t ^ 2 - u ^ 2) (2 * u * (2 * r) - (2 * r) ^ 2) = total 2 * t ^ 11 * hat 2 (r / t) := by
  rw [intervalIntegral.integral_congr (g := fun u => (([(1/5 * t ^ 10 + (-(2)) * r ^ 2 * t ^ 8 + 16/3 * r ^ 4 * t ^ 6, 0), (2 * r ^ 1 * t ^ 8 + (-(32/3)) * r ^ 3 * t ^ 6, 1), ((-(1)) * t ^ 8 + 40/3 * r ^ 2 * t ^ 6 + (-(16)) * r ^ 4 * t ^ 4, 2), ((-(8)) * r ^ 1 * t ^ 6 + 32 * r ^ 3 * t ^ 4, 3), (2 * t ^ 6 + (-(28)) * r ^ 2 * t ^ 4 + 16 * r ^ 4 * t ^ 2, 4), (12 * r ^ 1 * t ^ 4 + (-(32)) * r ^ 3 * t ^ 2, 5), ((-(2)) * t ^ 4 + 24 * r ^ 2 * t ^ 2 + (-(16/3)) * r ^ 4, 6), ((-(8)) * r ^ 1 * t ^ 2 + 32/3 * r ^ 3, 7), (1 * t ^ 2 + (-(22/3)) * r ^ 2, 8), (2 * r ^ 1, 9), ((-(1/5)), 10)] : List (ℝ × ℕ)).map fun p => p.1 * u ^ p.2).sum), integral_list]
  · simp only [List.map_cons, List.map_nil, List.sum_cons, List.sum_nil, total, hat]
    push_cast
    field_simp
    ring
  · intro u _
    simp only [inner, Finset.sum_range_succ, Finset.sum_range_zero, List.map_cons, List.map_nil, List.sum_cons, List.sum_nil]
    norm_num [Nat.choose]
    ring

theorem integral_inner_3 (r t : ℝ) (ht : t ≠ 0) :
    2 * ∫ u in r..t, inner 3 (t ^ 2 - u ^ 2) (2 * u * (2 * r) - (2 * r) ^ 2) = total 3 * t ^ 15 * hat 3 (r / t) := by
  rw [intervalIntegral.integral_congr (g := fun u => (([(1/7 * t ^ 14 + (-(2)) * r ^ 2 * t ^ 12 + 48/5 * r ^ 4 * t ^ 10 + (-(16)) * r ^ 6 * t ^ 8, 0), (2 * r ^ 1 * t ^ 12 + (-(96/5)) * r ^ 3 * t ^ 10 + 48 * r ^ 5 * t ^ 8, 1), ((-(1)) * t ^ 12 + 108/5 * r ^ 2 * t ^ 10 + (-(96)) * r ^ 4 * t ^ 8 + 64 * r ^ 6 * t ^ 6, 2), ((-(12)) * r ^ 1 * t ^ 10 + 112 * r ^ 3 * t ^ 8 + (-(192)) * r ^ 5 * t ^ 6, 3), (3 * t ^ 10 + (-(78)) * r ^ 2 * t ^ 8 + 288 * r ^ 4 * t ^ 6 + (-(96)) * r ^ 6 * t ^ 4, 4), (30 * r ^ 1 * t ^ 8 + (-(256)) * r ^ 3 * t ^ 6 + 288 * r ^ 5 * t ^ 4, 5), ((-(5)) * t ^ 8 + 136 * r ^ 2 * t ^ 6 + (-(384)) * r ^ 4 * t ^ 4 + 64 * r ^ 6 * t ^ 2, 6), ((-(40)) * r ^ 1 * t ^ 6 + 288 * r ^ 3 * t ^ 4 + (-(192)) * r ^ 5 * t ^ 2, 7), (5 * t ^ 6 + (-(126)) * r ^ 2 * t ^ 4 + 240 * r ^ 4 * t ^ 2 + (-(16)) * r ^ 6, 8), (30 * r ^ 1 * t ^ 4 + (-(160)) * r ^ 3 * t ^ 2 + 48 * r ^ 5, 9), ((-(3)) * t ^ 4 + 60 * r ^ 2 * t ^ 2 + (-(288/5)) * r ^ 4, 10), ((-(12)) * r ^ 1 * t ^ 2 + 176/5 * r ^ 3, 11), (1 * t ^ 2 + (-(58/5)) * r ^ 2, 12), (2 * r ^ 1, 13), ((-(1/7)), 14)] : List (ℝ × ℕ)).map fun p => p.1 * u ^ p.2).sum), integral_list]
  · simp only [List.map_cons, List.map_nil, List.sum_cons, List.sum_nil, total, hat]
    push_cast
    field_simp
    ring
  · intro u _
    simp only [inner, Finset.sum_range_succ, Finset.sum_range_zero, List.map_cons, List.map_nil, List.sum_cons, List.sum_nil]
    norm_num [Nat.choose]
    ring

theorem integral_inner_4 (r t : ℝ) (ht : t ≠ 0) :
    2 * ∫ u in r..t, inner 4 (t ^ 2 - u ^ 2) (2 * u * (2 * r) - (2 * r) ^ 2) = total 4 * t ^ 19 * hat 4 (r / t) := by
  rw [intervalIntegral.integral_congr (g := fun u => (([(1/9 * t ^ 18 + (-(2)) * r ^ 2 * t ^ 16 + 96/7 * r ^ 4 * t ^ 14 + (-(128/3)) * r ^ 6 * t ^ 12 + 256/5 * r ^ 8 * t ^ 10, 0), (2 * r ^ 1 * t ^ 16 + (-(192/7)) * r ^ 3 * t ^ 14 + 128 * r ^ 5 * t ^ 12 + (-(1024/5)) * r ^ 7 * t ^ 10, 1), ((-(1)) * t ^ 16 + 208/7 * r ^ 2 * t ^ 14 + (-(224)) * r ^ 4 * t ^ 12 + 2816/5 * r ^ 6 * t ^ 10 + (-(256)) * r ^ 8 * t ^ 8, 2), ((-(16)) * r ^ 1 * t ^ 14 + 704/3 * r ^ 3 * t ^ 12 + (-(4864/5)) * r ^ 5 * t ^ 10 + 1024 * r ^ 7 * t ^ 8, 3), (4 * t ^ 14 + (-(152)) * r ^ 2 * t ^ 12 + 5536/5 * r ^ 4 * t ^ 10 + (-(2176)) * r ^ 6 * t ^ 8 + 512 * r ^ 8 * t ^ 6, 4), (56 * r ^ 1 * t ^ 12 + (-(832)) * r ^ 3 * t ^ 10 + 2944 * r ^ 5 * t ^ 8 + (-(2048)) * r ^ 7 * t ^ 6, 5), ((-(28/3)) * t ^ 12 + 400 * r ^ 2 * t ^ 10 + (-(2656)) * r ^ 4 * t ^ 8 + 11776/3 * r ^ 6 * t ^ 6 + (-(512)) * r ^ 8 * t ^ 4, 6), ((-(112)) * r ^ 1 * t ^ 10 + 1600 * r ^ 3 * t ^ 8 + (-(4608)) * r ^ 5 * t ^ 6 + 2048 * r ^ 7 * t ^ 4, 7), (14 * t ^ 10 + (-(620)) * r ^ 2 * t ^ 8 + 3552 * r ^ 4 * t ^ 6 + (-(3712)) * r ^ 6 * t ^ 4 + 256 * r ^ 8 * t ^ 2, 8), (140 * r ^ 1 * t ^ 8 + (-(5440/3)) * r ^ 3 * t ^ 6 + 3968 * r ^ 5 * t ^ 4 + (-(1024)) * r ^ 7 * t ^ 2, 9), ((-(14)) * t ^ 8 + 592 * r ^ 2 * t ^ 6 + (-(2720)) * r ^ 4 * t ^ 4 + 1792 * r ^ 6 * t ^ 2 + (-(256/5)) * r ^ 8, 10), ((-(112)) * r ^ 1 * t ^ 6 + 1216 * r ^ 3 * t ^ 4 + (-(1792)) * r ^ 5 * t ^ 2 + 1024/5 * r ^ 7, 11), (28/3 * t ^ 6 + (-(344)) * r ^ 2 * t ^ 4 + 1120 * r ^ 4 * t ^ 2 + (-(5248/15)) * r ^ 6, 12), (56 * r ^ 1 * t ^ 4 + (-(448)) * r ^ 3 * t ^ 2 + 1664/5 * r ^ 5, 13), ((-(4)) * t ^ 4 + 112 * r ^ 2 * t ^ 2 + (-(6752/35)) * r ^ 4, 14), ((-(16)) * r ^ 1 * t ^ 2 + 1472/21 * r ^ 3, 15), (1 * t ^ 2 + (-(110/7)) * r ^ 2, 16), (2 * r ^ 1, 17), ((-(1/9)), 18)] : List (ℝ × ℕ)).map fun p => p.1 * u ^ p.2).sum), integral_list]
  · simp only [List.map_cons, List.map_nil, List.sum_cons, List.sum_nil, total, hat]
    push_cast
    field_simp
    ring
  · intro u _
    simp only [inner, Finset.sum_range_succ, Finset.sum_range_zero, List.map_cons, List.map_nil, List.sum_cons, List.sum_nil]
    norm_num [Nat.choose]
    ring

theorem mixture_0 {r : ℝ} (h0 : 0 < r) (h1 : r < 1) :
    (∫ t in r..1, (2/3 * t) * hat 0 (r / t)) + 2/3 * hat 0 r = (1 - r) ^ 2 * 1 := by
  rw [intervalIntegral.integral_congr (g := fun t => (([(1/3 * r ^ 3, -2), ((-(1)) * r ^ 1, 0), (2/3, 1)] : List (ℝ × ℤ)).map fun p => p.1 * t ^ p.2).sum), integral_laurent h0 h1]
  · simp only [List.map_cons, List.map_nil, List.sum_cons, List.sum_nil, hat]
    norm_num [zpow_neg]
    field_simp
    ring
  · simp only [List.mem_cons, List.not_mem_nil, or_false]
    rintro p (h)
    rcases h with rfl | rfl | rfl <;> norm_num
  · intro t ht
    have ht0 : t ≠ 0 := by
      rw [Set.uIcc_of_le h1.le] at ht
      exact (lt_of_lt_of_le h0 ht.1).ne'
    simp only [List.map_cons, List.map_nil, List.sum_cons, List.sum_nil, hat]
    norm_num [zpow_neg]
    field_simp
    ring

theorem mixture_1 {r : ℝ} (h0 : 0 < r) (h1 : r < 1) :
    (∫ t in r..1, (12/7 * t ^ 3) * hat 1 (r / t)) + 4/7 * hat 1 r = (1 - r) ^ 4 * (4 * r + 1) := by
  rw [intervalIntegral.integral_congr (g := fun t => (([(9/7 * r ^ 7, -4), ((-(6)) * r ^ 5, -2), (15 * r ^ 3, 0), ((-(12)) * r ^ 2, 1), (12/7, 3)] : List (ℝ × ℤ)).map fun p => p.1 * t ^ p.2).sum), integral_laurent h0 h1]
  · simp only [List.map_cons, List.map_nil, List.sum_cons, List.sum_nil, hat]
    norm_num [zpow_neg]
    field_simp
    ring
  · simp only [List.mem_cons, List.not_mem_nil, or_false]
    rintro p (h)
    rcases h with rfl | rfl | rfl | rfl | rfl <;> norm_num
  · intro t ht
    have ht0 : t ≠ 0 := by
      rw [Set.uIcc_of_le h1.le] at ht
      exact (lt_of_lt_of_le h0 ht.1).ne'
    simp only [List.map_cons, List.map_nil, List.sum_cons, List.sum_nil, hat]
    norm_num [zpow_neg]
    field_simp
    ring

theorem mixture_2 {r : ℝ} (h0 : 0 < r) (h1 : r < 1) :
    (∫ t in r..1, (120/11 * t ^ 5 - 24/11 * t ^ 7) * hat 2 (r / t)) + 16/11 * hat 2 r = (1 - r) ^ 6 * (35 * r ^ 2 + (18 * r + 3)) := by
  rw [intervalIntegral.integral_congr (g := fun t => (([(100/11 * r ^ 11, -6), ((-(60)) * r ^ 9 + (-(20/11)) * r ^ 11, -4), (180 * r ^ 7 + 12 * r ^ 9, -2), ((-(420)) * r ^ 5 + (-(36)) * r ^ 7, 0), (360 * r ^ 4, 1), (84 * r ^ 5, 2), ((-(80)) * r ^ 2 + (-(72)) * r ^ 4, 3), (120/11 + 16 * r ^ 2, 5), ((-(24/11)), 7)] : List (ℝ × ℤ)).map fun p => p.1 * t ^ p.2).sum), integral_laurent h0 h1]
  · simp only [List.map_cons, List.map_nil, List.sum_cons, List.sum_nil, hat]
    norm_num [zpow_neg]
    field_simp
    ring
  · simp only [List.mem_cons, List.not_mem_nil, or_false]
    rintro p (h)
    rcases h with rfl | rfl | rfl | rfl | rfl | rfl | rfl | rfl | rfl <;> norm_num
  · intro t ht
    have ht0 : t ≠ 0 := by
      rw [Set.uIcc_of_le h1.le] at ht
      exact (lt_of_lt_of_le h0 ht.1).ne'
    simp only [List.map_cons, List.map_nil, List.sum_cons, List.sum_nil, hat]
    norm_num [zpow_neg]
    field_simp
    ring

theorem mixture_3 {r : ℝ} (h0 : 0 < r) (h1 : r < 1) :
    (∫ t in r..1, (280/39 * t ^ 7 - 40/13 * t ^ 9) * hat 3 (r / t)) + 16/39 * hat 3 r = (1 - r) ^ 8 * (32 * r ^ 3 + 25 * r ^ 2 + (8 * r + 1)) := by
  rw [intervalIntegral.integral_congr (g := fun t => (([(245/39 * r ^ 15, -8), ((-(700/13)) * r ^ 13 + (-(35/13)) * r ^ 15, -6), (210 * r ^ 11 + 300/13 * r ^ 13, -4), ((-(1540/3)) * r ^ 9 + (-(90)) * r ^ 11, -2), (1155 * r ^ 7 + 220 * r ^ 9, 0), ((-(3080/3)) * r ^ 6, 1), ((-(495)) * r ^ 7, 2), (280 * r ^ 4 + 440 * r ^ 6, 3), ((-(840/13)) * r ^ 2 + (-(120)) * r ^ 4, 5), (280/39 + 360/13 * r ^ 2, 7), ((-(40/13)), 9)] : List (ℝ × ℤ)).map fun p => p.1 * t ^ p.2).sum), integral_laurent h0 h1]
  · simp only [List.map_cons, List.map_nil, List.sum_cons, List.sum_nil, hat]
    norm_num [zpow_neg]
    field_simp
    ring
  · simp only [List.mem_cons, List.not_mem_nil, or_false]
    rintro p (h)
    rcases h with rfl | rfl | rfl | rfl | rfl | rfl | rfl | rfl | rfl | rfl | rfl <;> norm_num
  · intro t ht
    have ht0 : t ≠ 0 := by
      rw [Set.uIcc_of_le h1.le] at ht
      exact (lt_of_lt_of_le h0 ht.1).ne'
    simp only [List.map_cons, List.map_nil, List.sum_cons, List.sum_nil, hat]
    norm_num [zpow_neg]
    field_simp
    ring

theorem mixture_4 {r : ℝ} (h0 : 0 < r) (h1 : r < 1) :
    (∫ t in r..1, (66150/323 * t ^ 9 - 44100/323 * t ^ 11 + 3150/323 * t ^ 13) * hat 4 (r / t)) + 1680/323 * hat 4 r = (1 - r) ^ 10 * (1287 * r ^ 4 + 1350 * r ^ 3 + 630 * r ^ 2 + 150 * r + 15) := by
  rw [intervalIntegral.integral_congr (g := fun t => (([(59535/323 * r ^ 19, -10), ((-(33075/17)) * r ^ 17 + (-(39690/323)) * r ^ 19, -8), (9450 * r ^ 15 + 22050/17 * r ^ 17 + 2835/323 * r ^ 19, -6), ((-(28350)) * r ^ 13 + (-(6300)) * r ^ 15 + (-(1575/17)) * r ^ 17, -4), (61425 * r ^ 11 + 18900 * r ^ 13 + 450 * r ^ 15, -2), ((-(135135)) * r ^ 9 + (-(40950)) * r ^ 11 + (-(1350)) * r ^ 13, 0), (122850 * r ^ 8, 1), (90090 * r ^ 9 + 2925 * r ^ 11, 2), ((-(37800)) * r ^ 6 + (-(81900)) * r ^ 8, 3), ((-(6435)) * r ^ 9, 4), (11340 * r ^ 4 + 25200 * r ^ 6 + 5850 * r ^ 8, 5), ((-(37800/17)) * r ^ 2 + (-(7560)) * r ^ 4 + (-(1800)) * r ^ 6, 7), (66150/323 + 25200/17 * r ^ 2 + 540 * r ^ 4, 9), ((-(44100/323)) + (-(1800/17)) * r ^ 2, 11), (3150/323, 13)] : List (ℝ × ℤ)).map fun p => p.1 * t ^ p.2).sum), integral_laurent h0 h1]
  · simp only [List.map_cons, List.map_nil, List.sum_cons, List.sum_nil, hat]
    norm_num [zpow_neg]
    field_simp
    ring
  · simp only [List.mem_cons, List.not_mem_nil, or_false]
    rintro p (h)
    rcases h with rfl | rfl | rfl | rfl | rfl | rfl | rfl | rfl | rfl | rfl | rfl | rfl | rfl | rfl | rfl <;> norm_num
  · intro t ht
    have ht0 : t ≠ 0 := by
      rw [Set.uIcc_of_le h1.le] at ht
      exact (lt_of_lt_of_le h0 ht.1).ne'
    simp only [List.map_cons, List.map_nil, List.sum_cons, List.sum_nil, hat]
    norm_num [zpow_neg]
    field_simp
    ring

theorem mixture_spline {r : ℝ} (h0 : 0 < r) (h1 : r < 1) :
    ∫ t in r..1, (48 / 7 * t ^ 2 - 36 / 7 * t ^ 3) * hat 1 (r / t)
      = 1 - 30 * r ^ 2 - 10 * r ^ 3 + 45 * r ^ 4 - 6 * r ^ 5 - r ^ 3 * 60 * Real.log r := by
  have hn : (0 : ℝ) ∉ uIcc r 1 := by
    rw [uIcc_of_le h1.le]
    exact fun h => absurd h.1 (not_le.mpr h0)
  have hc : ContinuousOn (fun t : ℝ => t⁻¹) (uIcc r 1) := continuousOn_id.inv₀ fun t ht e => hn (e ▸ ht)
  rw [intervalIntegral.integral_congr (g := fun t => (([((36/7) * r ^ 7, -5), ((-27/7) * r ^ 7, -4), ((-24) * r ^ 5, -3), ((18) * r ^ 5, -2), ((-45) * r ^ 3 + (-48) * r ^ 2, 0), ((36) * r ^ 2, 1), ((48/7) * r ^ 0, 2), ((-36/7) * r ^ 0, 3)] : List (ℝ × ℤ)).map fun p => p.1 * t ^ p.2).sum + 60 * r ^ 3 * t⁻¹), intervalIntegral.integral_add, integral_laurent h0 h1,
    intervalIntegral.integral_const_mul, integral_inv hn, one_div, Real.log_inv]
  · simp only [List.map_cons, List.map_nil, List.sum_cons, List.sum_nil]
    norm_num [zpow_neg]
    field_simp
    ring
  · simp only [List.mem_cons, List.not_mem_nil, or_false]
    rintro p (h)
    rcases h with rfl | rfl | rfl | rfl | rfl | rfl | rfl | rfl <;> norm_num
  · refine (continuousOn_list_sum _ fun p _ => ?_).intervalIntegrable
    exact continuousOn_const.mul (continuousOn_id.zpow₀ p.2 fun u hu => Or.inl fun e => hn (e ▸ hu))
  · exact (continuousOn_const.mul hc).intervalIntegrable
  · intro t ht
    have ht0 : t ≠ 0 := fun e => hn (e ▸ ht)
    simp only [List.map_cons, List.map_nil, List.sum_cons, List.sum_nil, hat]
    norm_num [zpow_neg]
    field_simp
    ring

end Verif.Overlap
