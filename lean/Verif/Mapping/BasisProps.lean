import Verif.Mapping.Basis
import Mathlib.Analysis.Calculus.ContDiff.Basic
import Mathlib.Analysis.Calculus.ContDiff.Operations
import Mathlib.Analysis.Calculus.ContDiff.Deriv
import Mathlib.Analysis.Calculus.Deriv.Pow
import Mathlib.Analysis.Calculus.Deriv.Abs
import Mathlib.Analysis.Calculus.Deriv.MeanValue
import Mathlib.Analysis.SpecialFunctions.Log.Deriv
import Mathlib.Tactic.Ring
import Mathlib.Tactic.Positivity

/-!
Properties of the radial basis functions (C98).
-/

set_option autoImplicit false

namespace Verif.Basis
open Filter Set

/-! ## Powers -/

theorem powLoop_eq : ∀ (fuel exp : ℕ) (x y : ℝ), 0 < exp → exp ≤ fuel → powLoop fuel exp x y = x ^ exp * y
  | 0, exp, x, y, h, h' => by omega
  | fuel + 1, exp, x, y, h, h' => by
    rw [powLoop]
    split
    · rw [powLoop_eq fuel _ _ _ (by omega) (by omega)]
      have hx : x * x = x ^ 2 := by ring
      rw [hx, ← pow_mul]
      split
      · have : exp = 2 * (exp / 2) + 1 := by omega
        conv_rhs => rw [this, pow_succ]
        ring
      · have : exp = 2 * (exp / 2) := by omega
        conv_rhs => rw [this]
    · have : exp = 1 := by omega
      rw [this, pow_one]

/-- **Powers.** The power function of the mathematics module is the power. -/
theorem C98_power (n : ℕ) (x : ℝ) : powInt n x = x ^ n := by
  unfold powInt
  split
  · rename_i h
    rw [h, pow_zero]
  · rw [powLoop_eq n n x 1 (by omega) le_rfl, mul_one]

/-! ## Smoothness of truncated powers -/

theorem hasDerivAt_posPow (n : ℕ) (x : ℝ) : HasDerivAt (fun x : ℝ => max x 0 ^ (n + 2)) ((n + 2) * max x 0 ^ (n + 1)) x := by
  rcases lt_trichotomy x 0 with h | rfl | h
  · have he : (fun x : ℝ => max x 0 ^ (n + 2)) =ᶠ[nhds x] fun _ => 0 := by
      filter_upwards [eventually_lt_nhds h] with y hy
      rw [max_eq_right hy.le, zero_pow (by omega)]
    rw [max_eq_right h.le, zero_pow (by omega), mul_zero]
    exact (hasDerivAt_const x (0 : ℝ)).congr_of_eventuallyEq he
  · rw [max_self, zero_pow (by omega), mul_zero]
    rw [hasDerivAt_iff_isLittleO]
    simp only [max_self, zero_pow (show n + 2 ≠ 0 by omega), sub_zero, smul_zero]
    have h1 : (fun x : ℝ => max x 0 ^ (n + 2)) =O[nhds 0] fun x : ℝ => x ^ (n + 2) := by
      refine Asymptotics.IsBigO.of_bound 1 (Filter.Eventually.of_forall fun y => ?_)
      rw [one_mul, norm_pow, norm_pow]
      refine pow_le_pow_left₀ (norm_nonneg _) ?_ _
      rw [Real.norm_eq_abs, Real.norm_eq_abs, abs_of_nonneg (le_max_right _ _)]
      exact max_le (le_abs_self _) (abs_nonneg _)
    have h2 : (fun x : ℝ => x ^ (n + 2)) =o[nhds 0] fun x : ℝ => x ^ 1 := Asymptotics.isLittleO_pow_pow (by omega)
    simpa using h1.trans_isLittleO h2
  · have he : (fun x : ℝ => max x 0 ^ (n + 2)) =ᶠ[nhds x] fun x => x ^ (n + 2) := by
      filter_upwards [eventually_gt_nhds h] with y hy
      rw [max_eq_left hy.le]
    rw [max_eq_left h.le]
    have := (hasDerivAt_pow (n + 2) x).congr_of_eventuallyEq he
    push_cast at this
    exact this

theorem contDiff_posPow (n : ℕ) : ContDiff ℝ n (fun x : ℝ => max x 0 ^ (n + 1)) := by
  induction n with
  | zero =>
    simp only [Nat.cast_zero, zero_add, pow_one, contDiff_zero]
    exact continuous_id.max continuous_const
  | succ n ih =>
    rw [Nat.cast_add, Nat.cast_one, contDiff_succ_iff_deriv]
    refine ⟨fun x => (hasDerivAt_posPow n x).differentiableAt, by simp, ?_⟩
    have : deriv (fun x : ℝ => max x 0 ^ (n + 1 + 1)) = fun x : ℝ => ((n : ℝ) + 2) * max x 0 ^ (n + 1) := funext fun x => (hasDerivAt_posPow n x).deriv
    rw [this]
    exact contDiff_const.mul ih

/-- `t ^ k * |t|` has `k` continuous derivatives. -/
theorem contDiff_pow_abs (k : ℕ) : ContDiff ℝ k (fun t : ℝ => t ^ k * |t|) := by
  have : (fun t : ℝ => t ^ k * |t|) = fun t => 2 * max t 0 ^ (k + 1) - t ^ (k + 1) := by
    funext t
    rcases le_total 0 t with h | h
    · rw [abs_of_nonneg h, max_eq_left h]
      ring
    · rw [abs_of_nonpos h, max_eq_right h, zero_pow (by omega)]
      ring
  rw [this]
  exact (contDiff_const.mul (contDiff_posPow k)).sub (contDiff_id.pow _)

/-- A truncated polynomial is smooth as function of the position if it is `P (p²) + p ^ (k + 1) * Q (p²)` around the
origin and has a zero of sufficient order at one. -/
theorem smooth_cut {k m : ℕ} (hm : k + 1 ≤ m) (hk : Even k) {q P Q : ℝ → ℝ} (hq : ContDiff ℝ k q) (hP : ContDiff ℝ k P) (hQ : ContDiff ℝ k Q)
    (hE : ∀ p, (1 - p) ^ m * q p = P (p ^ 2) + p ^ k * p * Q (p ^ 2)) {f : ℝ → ℝ} {inv : ℝ} (hinv : 0 < inv)
    (hf : ∀ r, f r = if 1 ≤ r * inv then 0 else (1 - r * inv) ^ m * q (r * inv)) : ContDiff ℝ k fun r => f |r| := by
  have hg : ContDiff ℝ k fun t : ℝ => max (1 - |t|) 0 ^ m * q |t| := by
    rw [contDiff_iff_contDiffAt]
    intro x
    by_cases hx : x = 0
    · subst hx
      have he : (fun t : ℝ => max (1 - |t|) 0 ^ m * q |t|) =ᶠ[nhds 0] fun t => P (t ^ 2) + t ^ k * |t| * Q (t ^ 2) := by
        have h1 : ∀ᶠ t : ℝ in nhds 0, |t| < 1 := by
          have : Tendsto (fun t : ℝ => |t|) (nhds 0) (nhds |0|) := continuous_abs.tendsto 0
          rw [abs_zero] at this
          exact this.eventually_lt_const one_pos
        filter_upwards [h1] with t ht
        rw [max_eq_left (by linarith), hE, sq_abs]
        congr 2
        rw [hk.pow_abs]
      refine ContDiffAt.congr_of_eventuallyEq ?_ he
      refine ContDiff.contDiffAt ?_
      exact (hP.comp (contDiff_id.pow 2)).add ((contDiff_pow_abs k).mul (hQ.comp (contDiff_id.pow 2)))
    · have habs : ContDiffAt ℝ k (fun t : ℝ => |t|) x := contDiffAt_abs hx
      obtain ⟨m', rfl⟩ : ∃ m', m = m' + 1 := ⟨m - 1, by omega⟩
      have hpow : ContDiff ℝ k fun x : ℝ => max x 0 ^ (m' + 1) := (contDiff_posPow m').of_le (by exact_mod_cast (by omega : k ≤ m'))
      have h1 : ContDiffAt ℝ k (fun t : ℝ => max (1 - |t|) 0 ^ (m' + 1)) x := hpow.contDiffAt.comp (f := fun t : ℝ => 1 - |t|) x (contDiffAt_const.sub habs)
      have h2 : ContDiffAt ℝ k (fun t : ℝ => q |t|) x := hq.contDiffAt.comp (f := fun t : ℝ => |t|) x habs
      exact h1.mul h2
  have he : (fun r => f |r|) = (fun t : ℝ => max (1 - |t|) 0 ^ m * q |t|) ∘ fun r => r * inv := by
    funext r
    rw [hf, Function.comp_apply]
    rw [abs_mul, abs_of_pos hinv]
    split
    · rename_i h
      rw [max_eq_right (by linarith), zero_pow (by omega), zero_mul]
    · rename_i h
      rw [max_eq_left (by linarith)]
  rw [he]
  exact hg.comp (contDiff_id.mul contDiff_const)

/-! ## The constructors -/

theorem tiny_pos : 0 < tiny := by
  unfold tiny
  norm_num

theorem compact_spec {f : ℝ → ℝ → ℝ} {R : ℝ} {b : Fn} (h : compact f R = some b) : 0 < R ∧ b.eval = f (1 / R) ∧ b.support = some R := by
  unfold compact at h
  split at h
  · rename_i h'
    have hR : 0 < R := by
      have := tiny_pos
      linarith
    obtain rfl := Option.some.inj h
    refine ⟨hR, rfl, ?_⟩
    simp
  · exact absurd h (by simp)

/-- The number of continuous derivatives which the name of a basis function promises -/
def order : Kind → Option ℕ
  | .c0 => some 0
  | .c2 => some 2
  | .c4 => some 4
  | .c6 => some 6
  | .c8 => some 8
  | _ => none

/-- The functions which are configured with a support radius -/
def Compact (k : Kind) : Prop := k = .c0 ∨ k = .c2 ∨ k = .c4 ∨ k = .c6 ∨ k = .c8 ∨ k = .thinPlateC2

/-- **Smoothness.** The compactly supported polynomial with name `Ck` has `k` continuous derivatives along every line
through its center, also at the center and at the support radius. -/
theorem C98_smooth (kind : Kind) (k : ℕ) (hk : order kind = some k) (R s : ℝ) (b : Fn) (h : constructRBF kind R s = some b) : ContDiff ℝ k fun x => b.eval |x| := by
  cases kind <;> simp only [order, Option.some.injEq, reduceCtorEq] at hk <;> subst hk <;> simp only [constructRBF] at h <;> obtain ⟨hR, he, -⟩ := compact_spec h <;> rw [he] <;>
    have hi : 0 < 1 / R := one_div_pos.2 hR
  · refine smooth_cut (m := 2) (k := 0) (by norm_num) (by decide) (q := fun _ => 1) (P := fun y => 1 + y) (Q := fun _ => -2) (by fun_prop) (by fun_prop) (by fun_prop) (fun p => by ring) hi fun r => ?_
    unfold polynomialC0
    simp only [C98_power, mul_one]
  · refine smooth_cut (m := 4) (k := 2) (by norm_num) (by decide) (q := fun p => 4 * p + 1) (P := fun y => 1 - 10 * y - 15 * y ^ 2) (Q := fun y => 20 + 4 * y) (by fun_prop) (by fun_prop) (by fun_prop) (fun p => by ring) hi fun r => ?_
    unfold polynomialC2
    simp only [C98_power]
  · refine smooth_cut (m := 6) (k := 4) (by norm_num) (by decide) (q := fun p => 35 * p ^ 2 + (18 * p + 3)) (P := fun y => 3 - 28 * y + 210 * y ^ 2 + 420 * y ^ 3 + 35 * y ^ 4) (Q := fun y => -448 - 192 * y) (by fun_prop) (by fun_prop)
      (by fun_prop) (fun p => by ring) hi fun r => ?_
    unfold polynomialC4
    simp only [C98_power]
  · refine smooth_cut (m := 8) (k := 6) (by norm_num) (by decide) (q := fun p => 32 * p ^ 3 + 25 * p ^ 2 + (8 * p + 1)) (P := fun y => 1 - 11 * y + 66 * y ^ 2 - 462 * y ^ 3 - 1155 * y ^ 4 - 231 * y ^ 5)
      (Q := fun y => 1056 + 704 * y + 32 * y ^ 2) (by fun_prop) (by fun_prop) (by fun_prop) (fun p => by ring) hi fun r => ?_
    unfold polynomialC6
    simp only [C98_power]
  · refine smooth_cut (m := 10) (k := 8) (by norm_num) (by decide) (q := fun p => 1287 * p ^ 4 + 1350 * p ^ 3 + 630 * p ^ 2 + 150 * p + 15)
      (P := fun y => 15 - 195 * y + 1287 * y ^ 2 - 6435 * y ^ 3 + 45045 * y ^ 4 + 135135 * y ^ 5 + 45045 * y ^ 6 + 1287 * y ^ 7)
      (Q := fun y => -109824 - 99840 * y - 11520 * y ^ 2) (by fun_prop) (by fun_prop) (by fun_prop) (fun p => by ring) hi fun r => ?_
    unfold polynomialC8
    simp only [C98_power]

/-! ## Monotonicity -/

/-- A function which decreases strictly to zero on `[0, 1]`, cut off and scaled -/
theorem cut_strictAnti {h f : ℝ → ℝ} {R : ℝ} (hR : 0 < R) (ha : StrictAntiOn h (Icc 0 1)) (h1 : h 1 = 0) (hf : ∀ r, f r = if 1 ≤ r * (1 / R) then 0 else h (r * (1 / R))) : StrictAntiOn f (Icc 0 R) := by
  have he : ∀ r ∈ Icc 0 R, f r = h (r * (1 / R)) ∧ r * (1 / R) ∈ Icc (0 : ℝ) 1 := by
    intro r hr
    have hle : r * (1 / R) ≤ 1 := by
      rw [mul_one_div, div_le_one hR]
      exact hr.2
    refine ⟨?_, mul_nonneg hr.1 (one_div_pos.2 hR).le, hle⟩
    rw [hf]
    split
    · rename_i h'
      rw [le_antisymm hle h', h1]
    · rfl
  intro a ha' b hb hab
  rw [(he a ha').1, (he b hb).1]
  exact ha (he a ha').2 (he b hb).2 (mul_lt_mul_of_pos_right hab (one_div_pos.2 hR))

theorem strictAnti_of {h h' : ℝ → ℝ} {a b : ℝ} (hc : ContinuousOn h (Icc a b)) (hd : ∀ p ∈ Ioo a b, HasDerivAt h (h' p) p) (hneg : ∀ p ∈ Ioo a b, h' p < 0) : StrictAntiOn h (Icc a b) := by
  refine strictAntiOn_of_deriv_neg (convex_Icc a b) hc fun p hp => ?_
  rw [interior_Icc] at hp
  rw [(hd p hp).deriv]
  exact hneg p hp

theorem hasDerivAt_wendland (m : ℕ) {q q' : ℝ → ℝ} {p : ℝ} (hq : HasDerivAt q (q' p) p) : HasDerivAt (fun p => (1 - p) ^ (m + 1) * q p) ((1 - p) ^ m * (-(m + 1) * q p + (1 - p) * q' p)) p := by
  have h1 : HasDerivAt (fun p : ℝ => 1 - p) (-1) p := by simpa using (hasDerivAt_id p).const_sub 1
  have h2 := (h1.pow (m + 1)).mul hq
  have e : (1 - p) ^ m * (-(m + 1) * q p + (1 - p) * q' p) = (↑(m + 1) * (1 - p) ^ (m + 1 - 1) * -1) * q p + (1 - p) ^ (m + 1) * q' p := by
    push_cast
    ring
  rw [e]
  exact h2

/-- The polynomials decrease. -/
theorem wendland_strictAnti (m : ℕ) {q q' : ℝ → ℝ} (hq : ∀ p, HasDerivAt q (q' p) p) (hneg : ∀ p ∈ Ioo (0 : ℝ) 1, -(m + 1) * q p + (1 - p) * q' p < 0) :
    StrictAntiOn (fun p => (1 - p) ^ (m + 1) * q p) (Icc 0 1) := by
  refine strictAnti_of (fun p _ => (hasDerivAt_wendland m (hq p)).continuousAt.continuousWithinAt) (fun p _ => hasDerivAt_wendland m (hq p)) fun p hp => ?_
  exact mul_neg_of_pos_of_neg (pow_pos (by linarith [hp.2]) _) (hneg p hp)

/-! ### The compact thin plate spline -/

/-- The compact thin plate spline without the safeguard for the logarithm -/
noncomputable def spline (L : ℝ → ℝ) (p : ℝ) : ℝ := 1 - 30 * p ^ 2 - 10 * p ^ 3 + 45 * p ^ 4 - 6 * p ^ 5 - p ^ 3 * 60 * L p

theorem spline_hasDerivAt {L : ℝ → ℝ} {l p : ℝ} (hL : HasDerivAt L l p) : HasDerivAt (spline L) (-60 * p - 30 * p ^ 2 + 180 * p ^ 3 - 30 * p ^ 4 - (180 * p ^ 2 * L p + p ^ 3 * 60 * l)) p := by
  have hp : ∀ n : ℕ, HasDerivAt (fun p : ℝ => p ^ (n + 1)) ((n + 1) * p ^ n) p := fun n => by
    have := hasDerivAt_pow (n + 1) p
    rw [Nat.add_sub_cancel] at this
    push_cast at this
    exact this
  have h := ((((((hasDerivAt_const p (1 : ℝ)).sub ((hp 1).const_mul 30)).sub ((hp 2).const_mul 10)).add ((hp 3).const_mul 45)).sub ((hp 4).const_mul 6))).sub (((hp 2).mul_const 60).mul hL)
  have e : -60 * p - 30 * p ^ 2 + 180 * p ^ 3 - 30 * p ^ 4 - (180 * p ^ 2 * L p + p ^ 3 * 60 * l)
      = 0 - 30 * (((1 : ℕ) + 1) * p ^ 1) - 10 * (((2 : ℕ) + 1) * p ^ 2) + 45 * (((3 : ℕ) + 1) * p ^ 3) - 6 * (((4 : ℕ) + 1) * p ^ 4) - ((((2 : ℕ) + 1) * p ^ 2 * 60) * L p + p ^ (2 + 1) * 60 * l) := by
    push_cast
    ring
  rw [e]
  exact h

theorem slope_neg {p : ℝ} (h0 : 0 < p) (h1 : p < 1) : 9 - 12 * p + 3 * p ^ 2 + 6 * Real.log p < 0 := by
  have hm : StrictAntiOn (fun p : ℝ => -(9 - 12 * p + 3 * p ^ 2 + 6 * Real.log p)) (Icc p 1) := by
    refine strictAnti_of (h' := fun p => -(-12 + 6 * p + 6 * p⁻¹)) ?_ ?_ ?_
    · refine ContinuousOn.neg (ContinuousOn.add (by fun_prop) (ContinuousOn.mul continuousOn_const (Real.continuousOn_log.mono fun x hx => ?_)))
      have := hx.1
      simp only [mem_compl_iff, mem_singleton_iff]
      linarith
    · intro x hx
      have hx0 : x ≠ 0 := by
        have := hx.1
        linarith
      have h := ((((hasDerivAt_const x (9 : ℝ)).sub ((hasDerivAt_id x).const_mul 12)).add ((hasDerivAt_pow 2 x).const_mul 3)).add ((Real.hasDerivAt_log hx0).const_mul 6)).neg
      have e : -(-12 + 6 * x + 6 * x⁻¹) = -(0 - 12 * 1 + 3 * (((2 : ℕ) : ℝ) * x ^ (2 - 1)) + 6 * x⁻¹) := by
        push_cast
        ring
      rw [e]
      exact h
    · intro x hx
      have hx0 : 0 < x := lt_trans h0 hx.1
      have h3 : -12 + 6 * x + 6 * x⁻¹ = 6 * (1 - x) ^ 2 / x := by
        field_simp
        ring
      have h4 : 0 < 6 * (1 - x) ^ 2 / x := by
        have : 0 < 1 - x := by linarith [hx.2]
        positivity
      linarith
  have := hm (left_mem_Icc.2 h1.le) (right_mem_Icc.2 h1.le) h1
  norm_num at this
  linarith

theorem bracket_pos {p : ℝ} (h0 : 0 < p) (h1 : p < 1) : 0 < 2 + 3 * p - 6 * p ^ 2 + p ^ 3 + 6 * p * Real.log p := by
  have hm : StrictAntiOn (fun p : ℝ => 2 + 3 * p - 6 * p ^ 2 + p ^ 3 + 6 * p * Real.log p) (Icc p 1) := by
    refine strictAnti_of (h' := fun p => 9 - 12 * p + 3 * p ^ 2 + 6 * Real.log p) ?_ ?_ ?_
    · refine ContinuousOn.add (by fun_prop) (ContinuousOn.mul (by fun_prop) (Real.continuousOn_log.mono fun x hx => ?_))
      have := hx.1
      simp only [mem_compl_iff, mem_singleton_iff]
      linarith
    · intro x hx
      have hx0 : x ≠ 0 := by
        have := hx.1
        linarith
      have h := ((((hasDerivAt_const x (2 : ℝ)).add ((hasDerivAt_id x).const_mul 3)).sub ((hasDerivAt_pow 2 x).const_mul 6)).add (hasDerivAt_pow 3 x)).add (((hasDerivAt_id x).const_mul 6).mul (Real.hasDerivAt_log hx0))
      have e : 9 - 12 * x + 3 * x ^ 2 + 6 * Real.log x = 0 + 3 * 1 - 6 * (((2 : ℕ) : ℝ) * x ^ (2 - 1)) + ((3 : ℕ) : ℝ) * x ^ (3 - 1) + (6 * 1 * Real.log x + 6 * id x * x⁻¹) := by
        push_cast
        simp only [id]
        field_simp
        ring
      rw [e]
      exact h
    · exact fun x hx => slope_neg (lt_trans h0 hx.1) hx.2
  have := hm (left_mem_Icc.2 h1.le) (right_mem_Icc.2 h1.le) h1
  norm_num at this
  linarith

theorem tiny_lt_one : tiny < 1 := by
  unfold tiny
  norm_num

theorem log_tiny : -(2e7) ≤ Real.log tiny := by
  have h : tiny = (1e-7 : ℝ) ^ 2 := by
    unfold tiny
    norm_num
  rw [h, Real.log_pow]
  have := Real.one_sub_inv_le_log_of_pos (show (0 : ℝ) < 1e-7 by norm_num)
  norm_num at this ⊢
  linarith

theorem thinPlateC2_strictAnti : StrictAntiOn (spline fun p => Real.log (max p tiny)) (Icc 0 1) := by
  have hc : Continuous (spline fun p => Real.log (max p tiny)) := by
    have : Continuous fun p : ℝ => Real.log (max p tiny) := (continuous_id.max continuous_const).log fun p => (lt_of_lt_of_le tiny_pos (le_max_right _ _)).ne'
    unfold spline
    fun_prop
  have hlow : StrictAntiOn (spline fun p => Real.log (max p tiny)) (Icc 0 tiny) := by
    refine strictAnti_of hc.continuousOn (h' := fun p => -60 * p - 30 * p ^ 2 + 180 * p ^ 3 - 30 * p ^ 4 - (180 * p ^ 2 * Real.log tiny + p ^ 3 * 60 * 0)) ?_ ?_
    · intro p hp
      have he : (fun p => Real.log (max p tiny)) =ᶠ[nhds p] fun _ => Real.log tiny := by
        filter_upwards [eventually_lt_nhds hp.2] with y hy
        rw [max_eq_right hy.le]
      have h := spline_hasDerivAt ((hasDerivAt_const p (Real.log tiny)).congr_of_eventuallyEq he)
      simp only [max_eq_right hp.2.le] at h
      exact h
    · intro p hp
      have hp0 := hp.1
      have hp1 : p < 1e-14 := hp.2
      have hl := log_tiny
      have h1 : p ^ 2 * (-(2e7)) ≤ p ^ 2 * Real.log tiny := mul_le_mul_of_nonneg_left hl (by positivity)
      have h2 : p ^ 2 ≤ p * 1e-14 := by nlinarith
      have h3 : p ^ 3 ≤ p * 1e-14 := by
        have : p ^ 3 = p ^ 2 * p := by ring
        nlinarith [sq_nonneg p]
      have h4 : 0 ≤ p ^ 4 := by positivity
      norm_num at h2 h3 h1
      nlinarith [sq_nonneg p]
  have hhigh : StrictAntiOn (spline fun p => Real.log (max p tiny)) (Icc tiny 1) := by
    refine strictAnti_of hc.continuousOn (h' := fun p => -60 * p - 30 * p ^ 2 + 180 * p ^ 3 - 30 * p ^ 4 - (180 * p ^ 2 * Real.log p + p ^ 3 * 60 * p⁻¹)) ?_ ?_
    · intro p hp
      have hp0 : p ≠ 0 := (lt_trans tiny_pos hp.1).ne'
      have he : (fun p => Real.log (max p tiny)) =ᶠ[nhds p] Real.log := by
        filter_upwards [eventually_gt_nhds hp.1] with y hy
        rw [max_eq_left hy.le]
      have h := spline_hasDerivAt ((Real.hasDerivAt_log hp0).congr_of_eventuallyEq he)
      simp only [max_eq_left hp.1.le] at h
      exact h
    · intro p hp
      have hp0 : 0 < p := lt_trans tiny_pos hp.1
      have hb := bracket_pos hp0 hp.2
      have e : -60 * p - 30 * p ^ 2 + 180 * p ^ 3 - 30 * p ^ 4 - (180 * p ^ 2 * Real.log p + p ^ 3 * 60 * p⁻¹) = -30 * p * (2 + 3 * p - 6 * p ^ 2 + p ^ 3 + 6 * p * Real.log p) := by
        field_simp
        ring
      rw [e]
      have : 0 < 30 * p * (2 + 3 * p - 6 * p ^ 2 + p ^ 3 + 6 * p * Real.log p) := by positivity
      linarith
  intro a ha b hb hab
  rcases le_total b tiny with h | h
  · exact hlow ⟨ha.1, hab.le.trans h⟩ ⟨hb.1, h⟩ hab
  · rcases le_total a tiny with h' | h'
    · rcases eq_or_lt_of_le h with e | h
      · subst e
        exact hlow ⟨ha.1, h'⟩ ⟨hb.1, le_rfl⟩ hab
      · have h1 := hhigh ⟨le_rfl, tiny_lt_one.le⟩ ⟨h.le, hb.2⟩ h
        rcases eq_or_lt_of_le h' with e | h'
        · rw [e]
          exact h1
        · exact h1.trans (hlow ⟨ha.1, h'.le⟩ ⟨tiny_pos.le, le_rfl⟩ h')
    · exact hhigh ⟨h', ha.2⟩ ⟨h, hb.2⟩ hab

/-! ## The functions of the configuration -/

/-- **Support.** Functions with a support radius are zero from the configured radius on. -/
theorem C98_support (kind : Kind) (hk : Compact kind) (R s : ℝ) (b : Fn) (h : constructRBF kind R s = some b) : b.support = some R ∧ 0 < R ∧ ∀ r, R ≤ r → b.eval r = 0 := by
  have key : ∀ f : ℝ → ℝ → ℝ, compact f R = some b → (∀ inv r, 1 ≤ r * inv → f inv r = 0) → b.support = some R ∧ 0 < R ∧ ∀ r, R ≤ r → b.eval r = 0 := by
    intro f hf h0
    obtain ⟨hR, he, hs⟩ := compact_spec hf
    refine ⟨hs, hR, fun r hr => ?_⟩
    rw [he]
    refine h0 _ _ ?_
    rw [mul_one_div, le_div_iff₀ hR, one_mul]
    exact hr
  rcases hk with rfl | rfl | rfl | rfl | rfl | rfl <;> exact key _ h fun inv r hr => if_pos hr

/-- **Decreasing.** Functions with a support radius decrease strictly up to it. -/
theorem C98_decreasing (kind : Kind) (hk : Compact kind) (R s : ℝ) (b : Fn) (h : constructRBF kind R s = some b) : StrictAntiOn b.eval (Icc 0 R) := by
  have key : ∀ (f : ℝ → ℝ → ℝ) (g : ℝ → ℝ), compact f R = some b → StrictAntiOn g (Icc 0 1) → g 1 = 0 → (∀ inv r, f inv r = if 1 ≤ r * inv then 0 else g (r * inv)) → StrictAntiOn b.eval (Icc 0 R) := by
    intro f g hf hg h1 hfg
    obtain ⟨hR, he, -⟩ := compact_spec hf
    rw [he]
    exact cut_strictAnti hR hg h1 (hfg _)
  have hd : ∀ (c : ℝ) (n : ℕ) (p : ℝ), HasDerivAt (fun p : ℝ => c * p ^ (n + 1)) (c * ((n + 1) * p ^ n)) p := fun c n p => by
    have := (hasDerivAt_pow (n + 1) p).const_mul c
    rw [Nat.add_sub_cancel] at this
    push_cast at this
    exact this
  rcases hk with rfl | rfl | rfl | rfl | rfl | rfl
  · refine key _ (fun p => (1 - p) ^ (1 + 1) * 1) h (wendland_strictAnti 1 (q := fun _ => 1) (q' := fun _ => 0) (fun p => hasDerivAt_const p 1) ?_) (by norm_num) fun inv r => ?_
    · intro p hp
      norm_num
    · unfold polynomialC0
      simp only [C98_power, mul_one]
  · refine key _ (fun p => (1 - p) ^ (3 + 1) * (4 * p ^ (0 + 1) + 1)) h
      (wendland_strictAnti 3 (q := fun p => 4 * p ^ (0 + 1) + 1) (q' := fun p => 4 * (((0 : ℕ) + 1) * p ^ 0)) (fun p => (hd 4 0 p).add_const 1) ?_) (by norm_num) fun inv r => ?_
    · intro p hp
      have := hp.1
      norm_num
      nlinarith
    · unfold polynomialC2
      simp only [C98_power, zero_add, pow_one]
  · refine key _ (fun p => (1 - p) ^ (5 + 1) * (35 * p ^ (1 + 1) + (18 * p ^ (0 + 1) + 3))) h
      (wendland_strictAnti 5 (q := fun p => 35 * p ^ (1 + 1) + (18 * p ^ (0 + 1) + 3)) (q' := fun p => 35 * (((1 : ℕ) + 1) * p ^ 1) + 18 * (((0 : ℕ) + 1) * p ^ 0))
        (fun p => (hd 35 1 p).add ((hd 18 0 p).add_const 3)) ?_) (by norm_num) fun inv r => ?_
    · intro p hp
      have := hp.1
      norm_num
      nlinarith
    · unfold polynomialC4
      simp only [C98_power, zero_add, pow_one, Nat.reduceAdd]
  · refine key _ (fun p => (1 - p) ^ (7 + 1) * (32 * p ^ (2 + 1) + 25 * p ^ (1 + 1) + (8 * p ^ (0 + 1) + 1))) h
      (wendland_strictAnti 7 (q := fun p => 32 * p ^ (2 + 1) + 25 * p ^ (1 + 1) + (8 * p ^ (0 + 1) + 1))
        (q' := fun p => 32 * (((2 : ℕ) + 1) * p ^ 2) + 25 * (((1 : ℕ) + 1) * p ^ 1) + 8 * (((0 : ℕ) + 1) * p ^ 0)) (fun p => ((hd 32 2 p).add (hd 25 1 p)).add ((hd 8 0 p).add_const 1)) ?_) (by norm_num) fun inv r => ?_
    · intro p hp
      have := hp.1
      have e : -((7 : ℕ) + 1 : ℝ) * (32 * p ^ (2 + 1) + 25 * p ^ (1 + 1) + (8 * p ^ (0 + 1) + 1)) + (1 - p) * (32 * (((2 : ℕ) + 1) * p ^ 2) + 25 * (((1 : ℕ) + 1) * p ^ 1) + 8 * (((0 : ℕ) + 1) * p ^ 0))
          = -(p * (22 + 154 * p + 352 * p ^ 2)) := by
        push_cast
        ring
      rw [e]
      have : 0 < p * (22 + 154 * p + 352 * p ^ 2) := by positivity
      linarith
    · unfold polynomialC6
      simp only [C98_power, zero_add, pow_one, Nat.reduceAdd]
  · refine key _ (fun p => (1 - p) ^ (9 + 1) * (1287 * p ^ (3 + 1) + 1350 * p ^ (2 + 1) + 630 * p ^ (1 + 1) + 150 * p ^ (0 + 1) + 15)) h
      (wendland_strictAnti 9 (q := fun p => 1287 * p ^ (3 + 1) + 1350 * p ^ (2 + 1) + 630 * p ^ (1 + 1) + 150 * p ^ (0 + 1) + 15)
        (q' := fun p => 1287 * (((3 : ℕ) + 1) * p ^ 3) + 1350 * (((2 : ℕ) + 1) * p ^ 2) + 630 * (((1 : ℕ) + 1) * p ^ 1) + 150 * (((0 : ℕ) + 1) * p ^ 0))
        (fun p => ((((hd 1287 3 p).add (hd 1350 2 p)).add (hd 630 1 p)).add (hd 150 0 p)).add_const 15) ?_) (by norm_num) fun inv r => ?_
    · intro p hp
      have := hp.1
      have e : -((9 : ℕ) + 1 : ℝ) * (1287 * p ^ (3 + 1) + 1350 * p ^ (2 + 1) + 630 * p ^ (1 + 1) + 150 * p ^ (0 + 1) + 15)
            + (1 - p) * (1287 * (((3 : ℕ) + 1) * p ^ 3) + 1350 * (((2 : ℕ) + 1) * p ^ 2) + 630 * (((1 : ℕ) + 1) * p ^ 1) + 150 * (((0 : ℕ) + 1) * p ^ 0))
          = -(p * (390 + 3510 * p + 12402 * p ^ 2 + 18018 * p ^ 3)) := by
        push_cast
        ring
      rw [e]
      have : 0 < p * (390 + 3510 * p + 12402 * p ^ 2 + 18018 * p ^ 3) := by positivity
      linarith
    · unfold polynomialC8
      simp only [C98_power, zero_add, pow_one, Nat.reduceAdd]
  · refine key _ _ h thinPlateC2_strictAnti ?_ fun inv r => ?_
    · unfold spline
      beta_reduce
      rw [max_eq_left tiny_lt_one.le, Real.log_one]
      norm_num
    · unfold thinPlateC2 spline
      simp only [C98_power]

/-- Functions with a support radius are positive inside of it and nowhere negative. -/
theorem C98_positive (kind : Kind) (hk : Compact kind) (R s : ℝ) (b : Fn) (h : constructRBF kind R s = some b) (r : ℝ) (h0 : 0 ≤ r) : (r < R → 0 < b.eval r) ∧ 0 ≤ b.eval r := by
  obtain ⟨-, hR, hz⟩ := C98_support kind hk R s b h
  have hlt : r < R → 0 < b.eval r := by
    intro hr
    have := C98_decreasing kind hk R s b h ⟨h0, hr.le⟩ ⟨hR.le, le_rfl⟩ hr
    rwa [hz R le_rfl] at this
  refine ⟨hlt, ?_⟩
  rcases lt_or_ge r R with hr | hr
  · exact (hlt hr).le
  · rw [hz r hr]

/-- **Continuity.** All functions but the Gaussian are continuous. -/
theorem C98_continuous (kind : Kind) (hk : kind ≠ .gaussian) (R s : ℝ) (b : Fn) (h : constructRBF kind R s = some b) : Continuous fun x => b.eval |x| := by
  have hlog : Continuous fun p : ℝ => Real.log (max p tiny) := (continuous_id.max continuous_const).log fun p => (lt_of_lt_of_le tiny_pos (le_max_right _ _)).ne'
  cases kind with
  | c0 => exact (C98_smooth .c0 0 rfl R s b h).continuous
  | c2 => exact (C98_smooth .c2 2 rfl R s b h).continuous
  | c4 => exact (C98_smooth .c4 4 rfl R s b h).continuous
  | c6 => exact (C98_smooth .c6 6 rfl R s b h).continuous
  | c8 => exact (C98_smooth .c8 8 rfl R s b h).continuous
  | thinPlateC2 =>
    obtain ⟨-, he, -⟩ := compact_spec h
    rw [he]
    unfold thinPlateC2
    simp only [C98_power]
    refine Continuous.if_le continuous_const ?_ continuous_const (by fun_prop) ?_
    · have h1 : Continuous fun x : ℝ => Real.log (max (|x| * (1 / R)) tiny) := hlog.comp (continuous_abs.mul continuous_const)
      fun_prop
    · intro x hx
      rw [← hx, max_eq_left tiny_lt_one.le, Real.log_one]
      norm_num
  | thinPlate =>
    obtain rfl := Option.some.inj h
    unfold thinPlate
    simp only [C98_power]
    exact (hlog.comp continuous_abs).mul (continuous_abs.pow 2)
  | volume =>
    obtain rfl := Option.some.inj h
    unfold volume
    fun_prop
  | multiquadrics =>
    obtain rfl := Option.some.inj h
    unfold multiquadrics
    simp only [C98_power]
    fun_prop
  | inverseMultiquadrics =>
    unfold constructRBF at h
    simp only at h
    split at h
    · rename_i hs
      obtain rfl := Option.some.inj h
      have hs0 : 0 < s := by
        have := tiny_pos
        linarith
      unfold inverseMultiquadrics
      simp only [C98_power]
      refine continuous_const.div (by fun_prop) fun x => ?_
      have : 0 < √(s ^ 2 + |x| ^ 2) := Real.sqrt_pos.2 (by positivity)
      exact this.ne'
    · exact absurd h (by simp)
  | gaussian => exact absurd rfl hk

/-! ## The Gaussian -/

theorem cutoff_log : 0 < -Real.log cutoff := by
  have : Real.log cutoff < 0 := Real.log_neg (by unfold cutoff; norm_num) (by unfold cutoff; norm_num)
  linarith

/-- **Gaussian from a support radius.** The function is the Gaussian up to the given radius, where it has decayed to
`1e-9`, and zero beyond. -/
theorem C98_gaussian (R : ℝ) (b : Fn) (h : configure .gaussian ⟨some R, none⟩ = .ready b) :
    0 < R ∧ b.support = some R ∧ ∃ s, 0 < s ∧ (∀ r, r ≤ R → b.eval r = Real.exp (-(s * r) ^ 2)) ∧ b.eval R = 1e-9 ∧ ∀ r, R < r → b.eval r = 0 := by
  unfold configure constructRBF at h
  simp only [if_true] at h
  split at h
  · exact absurd h (by simp)
  · rename_i hR0
    split at h
    · rename_i hs
      have hs0 : 0 < √(-Real.log cutoff) / R := by
        have := tiny_pos
        linarith
      have hq : 0 < √(-Real.log cutoff) := Real.sqrt_pos.2 cutoff_log
      have hR : 0 < R := by
        by_contra hn
        have := div_nonpos_of_nonneg_of_nonpos hq.le (not_lt.1 hn)
        linarith
      have hrad : gaussianRadius (√(-Real.log cutoff) / R) = R := by
        unfold gaussianRadius
        field_simp
      simp only [Option.elim_some, Outcome.ready.injEq] at h
      subst h
      have hev : ∀ r, r ≤ R → gaussian (√(-Real.log cutoff) / R) r = Real.exp (-(√(-Real.log cutoff) / R * r) ^ 2) := by
        intro r hr
        unfold gaussian
        rw [hrad, if_neg (not_lt.2 hr), C98_power, sub_zero]
      refine ⟨hR, by rw [hrad], _, hs0, hev, ?_, fun r hr => ?_⟩
      · simp only
        rw [hev R le_rfl, div_mul_cancel₀ _ hR.ne', Real.sq_sqrt cutoff_log.le, neg_neg, Real.exp_log (by unfold cutoff; norm_num)]
        rfl
      · simp only
        unfold gaussian
        rw [hrad, if_pos hr]
    · exact absurd h (by simp)

/-- **Disagreement: the Gaussian jumps.** It is not continuous at its support radius. -/
theorem C98_gaussian_jump (R : ℝ) (b : Fn) (h : configure .gaussian ⟨some R, none⟩ = .ready b) : ¬ Continuous fun x => b.eval |x| := by
  obtain ⟨hR, -, s, -, -, h1, h2⟩ := C98_gaussian R b h
  intro hc
  have ht : Tendsto (fun x => b.eval |x|) (nhdsWithin R (Ioi R)) (nhds (b.eval |R|)) := (hc.tendsto R).mono_left nhdsWithin_le_nhds
  have he : (fun x => b.eval |x|) =ᶠ[nhdsWithin R (Ioi R)] fun _ => 0 := by
    filter_upwards [self_mem_nhdsWithin] with x hx
    rw [abs_of_pos (hR.trans hx), h2 x hx]
  have h0 : Tendsto (fun x => b.eval |x|) (nhdsWithin R (Ioi R)) (nhds 0) := tendsto_const_nhds.congr' he.symm
  have := tendsto_nhds_unique ht h0
  rw [abs_of_pos hR, h1] at this
  norm_num at this

/-- The Gaussian decreases strictly up to its support radius. -/
theorem C98_gaussian_decreasing (R : ℝ) (b : Fn) (h : configure .gaussian ⟨some R, none⟩ = .ready b) : StrictAntiOn b.eval (Icc 0 R) := by
  obtain ⟨hR, -, s, hs, he, -, -⟩ := C98_gaussian R b h
  intro x hx y hy hxy
  rw [he x hx.2, he y hy.2, Real.exp_lt_exp, neg_lt_neg_iff]
  have h1 : s * x < s * y := mul_lt_mul_of_pos_left hxy hs
  have h2 : 0 ≤ s * x := mul_nonneg hs.le hx.1
  exact pow_lt_pow_left₀ h1 h2 two_ne_zero

/-! ## Parameters -/

/-- **Invalid parameters are rejected**: negative, zero or tiny support radii and shape parameters -/
theorem C98_rejected (kind : Kind) (R s : ℝ) : (Compact kind → R ≤ 1e-14 → constructRBF kind R s = none) ∧ (kind = .inverseMultiquadrics ∨ kind = .gaussian → s ≤ 1e-14 → constructRBF kind R s = none) := by
  constructor
  · intro hk hR
    have : ∀ f, compact f R = none := fun f => if_neg (by unfold tiny; rw [sub_zero]; exact not_lt.2 hR)
    rcases hk with rfl | rfl | rfl | rfl | rfl | rfl <;> exact this _
  · intro hk hs
    have h : ¬ tiny < s - 0 := by
      unfold tiny
      rw [sub_zero]
      exact not_lt.2 hs
    rcases hk with rfl | rfl <;> exact if_neg h

/-- **Disagreement**: a Gaussian with support radius zero is accepted and evaluates to NaN, while a negative radius is
rejected. -/
theorem C98_zero_radius : configure .gaussian ⟨some 0, none⟩ = .undefined ∧ ∀ R < 0, configure .gaussian ⟨some R, none⟩ = .rejected := by
  constructor
  · unfold configure
    simp
  · intro R hR
    unfold configure
    simp only [if_true]
    rw [if_neg hR.ne, (C98_rejected .gaussian R _).2 (Or.inr rfl)]
    · rfl
    · have := div_nonpos_of_nonneg_of_nonpos (Real.sqrt_nonneg (-Real.log cutoff)) hR.le
      linarith

/-! ## The hypotheses can be met -/

example : ∃ b, constructRBF .c6 2 0 = some b ∧ b.eval 1 = (1 - 1 / 2) ^ 8 * (32 * (1 / 2) ^ 3 + 25 * (1 / 2) ^ 2 + 8 * (1 / 2) + 1) := by
  refine ⟨⟨polynomialC6 (1 / 2), some (1 / (1 / 2)), true⟩, ?_, ?_⟩
  · unfold constructRBF compact
    simp only
    rw [if_pos (by unfold tiny; norm_num)]
  · simp only [polynomialC6, C98_power]
    norm_num

example : ∃ b, configure .gaussian ⟨some 1, none⟩ = .ready b := by
  have h : tiny < √(-Real.log cutoff) / 1 - 0 := by
    rw [div_one, sub_zero, Real.lt_sqrt tiny_pos.le]
    have h1 : Real.log cutoff ≤ cutoff - 1 := Real.log_le_sub_one_of_pos (by unfold cutoff; norm_num)
    unfold tiny cutoff at *
    norm_num at h1 ⊢
    linarith
  unfold configure constructRBF
  simp only [if_true]
  rw [if_neg one_ne_zero, if_pos h]
  exact ⟨_, rfl⟩

end Verif.Basis
