import Mathlib.Analysis.Calculus.MeanValue
import Mathlib.Analysis.Calculus.Deriv.Polynomial
import Mathlib.Algebra.Polynomial.Roots
import Mathlib.Analysis.Calculus.LocalExtr.Rolle

/-!
# Zeros of splines

A self-contained proof, not tied to the program, that a spline of degree `p` with `k` simple knots is
determined by its values at `p + k + 1` points that interlace with the knots (Schoenberg-Whitney).
Splines are represented by a polynomial plus truncated powers.
-/

set_option autoImplicit false

namespace Verif.Zeros

open Finset Polynomial

/-- `f` is a spline of degree `p` with the knots `τ 0, …, τ (k - 1)`. -/
def Spline (p k : ℕ) (τ : ℕ → ℝ) (f : ℝ → ℝ) : Prop :=
  ∃ P : ℝ[X], P.natDegree ≤ p ∧ ∃ a : ℕ → ℝ, ∀ x, f x = P.eval x + ∑ j ∈ range k, a j * (max (x - τ j) 0) ^ p

variable {p k : ℕ} {τ : ℕ → ℝ} {f : ℝ → ℝ}

theorem poly_zero_of_interval {P : ℝ[X]} {a b : ℝ} (hab : a < b) (h : ∀ x, a ≤ x → x ≤ b → P.eval x = 0) : P = 0 :=
  P.eq_zero_of_infinite_isRoot <| (Set.Icc_infinite hab).mono fun x hx => h x hx.1 hx.2

/-- left of the first knot a spline is a polynomial -/
theorem Spline.head (hp : 1 ≤ p) (h : Spline p k τ f) : ∃ P : ℝ[X], P.natDegree ≤ p ∧
    ∀ x, (∀ j, j < k → x ≤ τ j) → f x = P.eval x := by
  obtain ⟨P, hP, a, hf⟩ := h
  refine ⟨P, hP, fun x hx => ?_⟩
  rw [hf, sum_eq_zero, add_zero]
  intro j hj
  rw [max_eq_right (by linarith [hx j (mem_range.mp hj)]), zero_pow (by omega), mul_zero]

theorem Spline.left (hp : 1 ≤ p) (h : Spline p k τ f) {m : ℕ} (hm : m ≤ k) : ∃ g, Spline p m τ g ∧
    ∀ x, (∀ j, m ≤ j → j < k → x ≤ τ j) → g x = f x := by
  obtain ⟨P, hP, a, hf⟩ := h
  refine ⟨_, ⟨P, hP, a, fun x => rfl⟩, fun x hx => ?_⟩
  rw [hf]
  congr 1
  refine sum_subset (range_subset_range.mpr hm) fun j hj hjm => ?_
  rw [mem_range] at hj
  rw [max_eq_right, zero_pow (by omega), mul_zero]
  linarith [hx j (by simpa using hjm) hj]

theorem Spline.right (h : Spline p k τ f) {m : ℕ} (hm : m ≤ k) :
    ∃ g, Spline p (k - m) (fun j => τ (j + m)) g ∧ ∀ x, (∀ j, j < m → τ j ≤ x) → g x = f x := by
  obtain ⟨P, hP, a, hf⟩ := h
  refine ⟨_, ⟨P + ∑ j ∈ range m, C (a j) * (X - C (τ j)) ^ p, ?_, fun j => a (j + m), fun x => rfl⟩, fun x hx => ?_⟩
  · refine natDegree_add_le_of_degree_le hP (natDegree_sum_le_of_forall_le _ _ fun j _ => ?_)
    refine (natDegree_C_mul_le _ _).trans ?_
    refine natDegree_pow_le.trans ?_
    rw [natDegree_X_sub_C, mul_one]
  · rw [hf, eval_add, add_assoc, eval_finsetSum]
    congr 1
    rw [← Nat.sub_add_cancel hm, Nat.add_sub_cancel, add_comm (k - m) m, sum_range_add]
    congr 1
    · refine sum_congr rfl fun j hj => ?_
      rw [max_eq_left (by linarith [hx j (mem_range.mp hj)])]
      simp
    · exact sum_congr rfl fun j _ => by simp only [add_comm j m]

theorem Spline.drop_right (hp : 1 ≤ p) (hτ : ∀ i j, i < j → j < k → τ i < τ j) (h : Spline p k τ f) {m : ℕ} (hm : m < k)
    (hz : ∀ x, τ m ≤ x → f x = 0) : Spline p (m + 1) τ f := by
  by_cases hmk : m + 1 = k
  · rwa [hmk]
  obtain ⟨g, hg, e⟩ := h.left hp (m := m + 1) hm
  obtain ⟨q, hq, e'⟩ := hg.right (m := m + 1) le_rfl
  rw [Nat.sub_self] at hq
  obtain ⟨P, -, a, hP⟩ := hq
  have hlt := hτ m (m + 1) (by omega) (by omega)
  have hP0 : P = 0 := by
    refine poly_zero_of_interval hlt fun x h1 h2 => ?_
    have h3 := hP x
    rw [sum_range_zero, add_zero] at h3
    rw [← h3, e' x, e x, hz x h1]
    · intro j h4 h5
      rcases h4.eq_or_lt with rfl | h4
      · exact h2
      · exact h2.trans (hτ _ _ h4 h5).le
    · intro j hj
      rcases (Nat.lt_succ_iff.mp hj).eq_or_lt with rfl | hj
      · exact h1
      · exact (hτ _ _ hj hm).le.trans h1
  have hgz : ∀ x, τ m ≤ x → g x = 0 := by
    intro x hx
    rw [← e' x, hP x, hP0]
    · simp
    · intro j hj
      rcases (Nat.lt_succ_iff.mp hj).eq_or_lt with rfl | hj
      · exact hx
      · exact (hτ _ _ hj hm).le.trans hx
  have : f = g := by
    funext x
    rcases le_total x (τ m) with hx | hx
    · refine (e x fun j h4 h5 => ?_).symm
      exact hx.trans (hτ m j (by omega) h5).le
    · rw [hz x hx, hgz x hx]
  rwa [this]

theorem Spline.drop_left (hp : 1 ≤ p) (hτ : ∀ i j, i < j → j < k → τ i < τ j) (h : Spline p k τ f) {m : ℕ} (hm : m < k)
    (hz : ∀ x, x ≤ τ m → f x = 0) : Spline p (k - m) (fun j => τ (j + m)) f := by
  by_cases hm0 : m = 0
  · subst hm0; exact h
  obtain ⟨g, hg, e⟩ := h.right hm.le
  obtain ⟨P, -, hP⟩ := hg.head hp
  have hlt := hτ (m - 1) m (by omega) hm
  have hle : ∀ x, x ≤ τ m → ∀ j, j < k - m → x ≤ τ (j + m) := by
    intro x hx j hj
    rcases Nat.eq_zero_or_pos j with rfl | h0
    · simpa using hx
    · exact hx.trans (hτ m (j + m) (by omega) (by omega)).le
  have hge : ∀ x, τ (m - 1) ≤ x → ∀ j, j < m → τ j ≤ x := by
    intro x hx j hj
    rcases Nat.lt_or_ge j (m - 1) with h0 | h0
    · exact (hτ j (m - 1) h0 (by omega)).le.trans hx
    · rwa [show j = m - 1 by omega]
  have hP0 : P = 0 := by
    refine poly_zero_of_interval hlt fun x h1 h2 => ?_
    rw [← hP x (hle x h2), e x (hge x h1), hz x h2]
  have : f = g := by
    funext x
    rcases le_total x (τ m) with hx | hx
    · rw [hz x hx, hP x (hle x hx), hP0, eval_zero]
    · exact (e x (hge x (hlt.le.trans hx))).symm
  rwa [this]

theorem hasDerivAt_trunc (c x : ℝ) {p : ℕ} (hp : 1 ≤ p) :
    HasDerivAt (fun x => (max (x - c) 0) ^ (p + 1)) ((p + 1) * (max (x - c) 0) ^ p) x := by
  have hd : ∀ y, HasDerivAt (fun x => (x - c) ^ (p + 1)) ((p + 1) * (y - c) ^ p) y := by
    intro y
    have := ((hasDerivAt_id y).sub_const c).fun_pow (p + 1)
    simpa using this
  rcases lt_trichotomy x c with h | h | h
  · rw [max_eq_right (by linarith), zero_pow (by omega), mul_zero]
    refine (hasDerivAt_const x (0 : ℝ)).congr_of_eventuallyEq ?_
    filter_upwards [gt_mem_nhds h] with y hy
    rw [max_eq_right (by linarith), zero_pow (by omega)]
  · subst h
    rw [sub_self, max_self, zero_pow (by omega), mul_zero]
    rw [hasDerivAt_iff_isLittleO]
    have h0 := (hasDerivAt_iff_isLittleO.mp (hd x))
    simp only [sub_self, zero_pow (show p ≠ 0 by omega), mul_zero, smul_zero, sub_zero, zero_pow (Nat.succ_ne_zero p), max_self] at h0 ⊢
    refine Asymptotics.IsLittleO.of_norm_left (Asymptotics.IsBigO.trans_isLittleO ?_ h0.norm_left)
    refine Asymptotics.IsBigO.of_bound 1 (Filter.Eventually.of_forall fun y => ?_)
    rw [one_mul, norm_norm, norm_norm, norm_pow, norm_pow]
    refine pow_le_pow_left₀ (norm_nonneg _) ?_ _
    rw [Real.norm_eq_abs, Real.norm_eq_abs, abs_of_nonneg (le_max_right _ _)]
    exact max_le (le_abs_self _) (abs_nonneg _)
  · rw [max_eq_left (by linarith)]
    refine (hd x).congr_of_eventuallyEq ?_
    filter_upwards [lt_mem_nhds h] with y hy
    rw [max_eq_left (by linarith)]

theorem Spline.deriv (hp : 1 ≤ p) (h : Spline (p + 1) k τ f) :
    ∃ f', Spline p k τ f' ∧ ∀ x, HasDerivAt f (f' x) x := by
  obtain ⟨P, hP, a, hf⟩ := h
  refine ⟨_, ⟨derivative P, (natDegree_derivative_le P).trans (by omega), fun j => a j * (p + 1), fun x => rfl⟩, fun x => ?_⟩
  have : f = fun x => P.eval x + ∑ j ∈ range k, a j * (max (x - τ j) 0) ^ (p + 1) := funext hf
  rw [this]
  refine (P.hasDerivAt x).add ?_
  refine HasDerivAt.fun_sum fun j _ => ?_
  rw [mul_assoc]
  exact (hasDerivAt_trunc (τ j) x hp).const_mul (a j)

theorem Spline.continuous (h : Spline p k τ f) : Continuous f := by
  obtain ⟨P, hP, a, hf⟩ := h
  rw [show f = fun x => P.eval x + ∑ j ∈ range k, a j * (max (x - τ j) 0) ^ p from funext hf]
  exact (continuous_iff_continuousAt.mpr fun x => (P.hasDerivAt x).continuousAt).add (continuous_finsetSum _ fun j _ => by fun_prop)

/-- no knots -/
theorem Spline.zero_of_no_knots (h : Spline p 0 τ f) {x : ℕ → ℝ} (hx : ∀ i j, i < j → j ≤ p → x i < x j)
    (hz : ∀ i, i ≤ p → f (x i) = 0) (y : ℝ) : f y = 0 := by
  obtain ⟨P, hP, a, hf⟩ := h
  have hP0 : P = 0 := by
    refine eq_zero_of_natDegree_lt_card_of_eval_eq_zero' P ((range (p + 1)).image x) ?_ ?_
    · intro z hzm
      obtain ⟨i, hi, rfl⟩ := mem_image.mp hzm
      have := hf (x i)
      rw [hz i (by rw [mem_range] at hi; omega)] at this
      simpa using this.symm
    · rw [card_image_of_injOn]
      · rw [card_range]; omega
      · intro i hi j hj hij
        simp only [coe_range, Set.mem_Iio] at hi hj
        rcases lt_trichotomy i j with h | h | h
        · have := hx i j h (by omega); linarith
        · exact h
        · have := hx j i h (by omega); linarith
  rw [hf, hP0]; simp

/-- the points interlace with the knots -/
structure Interlaced (p k : ℕ) (τ x : ℕ → ℝ) : Prop where
  knots : ∀ i j, i < j → j < k → τ i < τ j
  points : ∀ i j, i < j → j ≤ p + k → x i < x j
  lt : ∀ j, j < k → x j < τ j
  gt : ∀ j, j < k → τ j < x (j + p + 1)

theorem Interlaced.knots_le {x : ℕ → ℝ} (h : Interlaced p k τ x) {i j : ℕ} (hij : i ≤ j) (hj : j < k) : τ i ≤ τ j := by
  rcases hij.eq_or_lt with rfl | hlt
  · exact le_rfl
  · exact (h.knots i j hlt hj).le

theorem Interlaced.points_le {x : ℕ → ℝ} (h : Interlaced p k τ x) {i j : ℕ} (hij : i ≤ j) (hj : j ≤ p + k) : x i ≤ x j := by
  rcases hij.eq_or_lt with rfl | hlt
  · exact le_rfl
  · exact (h.points i j hlt hj).le

/-- piecewise linear functions -/
theorem zero_linear : ∀ (k : ℕ) (τ : ℕ → ℝ) (f : ℝ → ℝ) (x : ℕ → ℝ), Spline 1 k τ f → Interlaced 1 k τ x →
    (∀ i, i ≤ 1 + k → f (x i) = 0) → ∀ y, f y = 0 := by
  intro k
  induction k using Nat.strong_induction_on with
  | _ k ih =>
  intro τ f x hf hi hz y
  classical
  have hex : ∃ m, m = k ∨ x (m + 1) ≤ τ m := ⟨k, Or.inl rfl⟩
  obtain ⟨m, hm, hmin⟩ : ∃ m, (m = k ∨ x (m + 1) ≤ τ m) ∧ ∀ l, l < m → ¬ (l = k ∨ x (l + 1) ≤ τ l) :=
    ⟨Nat.find hex, Nat.find_spec hex, fun l hl => Nat.find_min hex hl⟩
  have hmk : m ≤ k := by
    by_contra hx
    exact hmin k (by omega) (Or.inl rfl)
  -- the piece with two zeros
  have hpiece : ∀ z, (∀ j, j < m → τ j ≤ z) → (∀ j, m ≤ j → j < k → z ≤ τ j) → f z = 0 := by
    obtain ⟨g, hg, e⟩ := hf.right hmk
    obtain ⟨q, hq, e'⟩ := hg.left le_rfl (m := 0) (Nat.zero_le _)
    have hqf : ∀ z, (∀ j, j < m → τ j ≤ z) → (∀ j, m ≤ j → j < k → z ≤ τ j) → q z = f z := by
      intro z h1 h2
      rw [e' z fun j _ hj => h2 _ (by omega) (by omega), e z h1]
    have hl : ∀ z, x m ≤ z → ∀ j, j < m → τ j ≤ z := by
      intro z hz' j hj
      have h1 := hmin (m - 1) (by omega)
      push Not at h1
      rw [Nat.sub_add_cancel (by omega)] at h1
      exact ((hi.knots_le (show j ≤ m - 1 by omega) (by omega)).trans h1.2.le).trans hz'
    have hr : ∀ z, z ≤ x (m + 1) → ∀ j, m ≤ j → j < k → z ≤ τ j := by
      intro z hz' j hj hjk
      rcases hm with hm | hm
      · omega
      · exact (hz'.trans hm).trans (hi.knots_le hj hjk)
    have hlt := hi.points m (m + 1) (by omega) (by omega)
    have hq0 := hq.zero_of_no_knots (x := fun i => x (m + i)) (fun i j hij hj => hi.points _ _ (by omega) (by omega))
      (by
        intro i hi1
        have : i = 0 ∨ i = 1 := by omega
        rcases this with rfl | rfl
        · rw [Nat.add_zero, hqf _ (hl _ le_rfl) (hr _ hlt.le)]; exact hz _ (by omega)
        · rw [hqf _ (hl _ hlt.le) (hr _ le_rfl)]; exact hz _ (by omega))
    intro z h1 h2
    rw [← hqf z h1 h2, hq0]
  -- left of it
  have hleft : ∀ z, (∃ j, j < m ∧ z < τ j) → f z = 0 := by
    rintro z ⟨j, hj, hzj⟩
    obtain ⟨g, hg, e⟩ := hf.left le_rfl (m := m - 1) (by omega)
    have he : ∀ w, w ≤ τ (m - 1) → g w = f w := fun w hw =>
      e w fun l h1 h2 => hw.trans (hi.knots_le h1 h2)
    have hg0 := ih (m - 1) (by omega) τ g (fun i => if i < m then x i else τ (m - 1)) hg
      { knots := fun a b h1 h2 => hi.knots a b h1 (by omega)
        points := by
          intro a b h1 h2
          rw [if_pos (show a < m by omega)]
          split
          · exact hi.points a b h1 (by omega)
          · exact (hi.points_le (show a ≤ m - 1 by omega) (by omega)).trans_lt (hi.lt _ (by omega))
        lt := by
          intro a ha
          rw [if_pos (show a < m by omega)]
          exact hi.lt a (by omega)
        gt := by
          intro a ha
          split
          · exact hi.gt a (by omega)
          · exact hi.knots _ _ (by omega) (by omega) }
      (by
        intro i h1
        split
        · next h2 =>
          rw [he, hz i (by omega)]
          exact (hi.points_le (show i ≤ m - 1 by omega) (by omega)).trans (hi.lt _ (by omega)).le
        · rw [he _ le_rfl]
          exact hpiece _ (fun l hl => hi.knots_le (by omega) (by omega)) fun l h3 h4 => hi.knots_le (by omega) h4)
    rw [← he z (hzj.le.trans (hi.knots_le (by omega) (by omega))), hg0]
  -- right of it
  have hright : ∀ z, (∃ j, m ≤ j ∧ j < k ∧ τ j < z) → f z = 0 := by
    rintro z ⟨j, hj, hjk, hzj⟩
    obtain ⟨g, hg, e⟩ := hf.right (m := m + 1) (by omega)
    have he : ∀ w, τ m ≤ w → g w = f w := fun w hw =>
      e w fun l h1 => (hi.knots_le (show l ≤ m by omega) (by omega)).trans hw
    have hg0 := ih (k - (m + 1)) (by omega) _ g (fun i => if i = 0 then τ m else x (i + (m + 1))) hg
      { knots := fun a b h1 h2 => hi.knots _ _ (by omega) (by omega)
        points := by
          intro a b h1 h2
          rw [if_neg (show b ≠ 0 by omega)]
          split
          · exact (hi.gt m (by omega)).trans_le (hi.points_le (by omega) (by omega))
          · exact hi.points _ _ (by omega) (by omega)
        lt := by
          intro a ha
          split
          · exact hi.knots _ _ (by omega) (by omega)
          · exact hi.lt _ (by omega)
        gt := by
          intro a ha
          rw [if_neg (by omega)]
          have := hi.gt (a + (m + 1)) (by omega)
          rwa [show a + (m + 1) + 1 + 1 = a + 1 + 1 + (m + 1) by omega] at this }
      (by
        intro i h1
        split
        · rw [he _ le_rfl]
          exact hpiece _ (fun l hl => hi.knots_le (by omega) (by omega)) fun l h3 h4 => hi.knots_le (by omega) h4
        · rw [he, hz _ (by omega)]
          exact ((hi.gt m (by omega)).trans_le (hi.points_le (by omega) (by omega))).le)
    rw [← he z ((hi.knots_le hj hjk).trans hzj.le), hg0]
  by_cases h1 : ∃ j, j < m ∧ y < τ j
  · exact hleft y h1
  · by_cases h2 : ∃ j, m ≤ j ∧ j < k ∧ τ j < y
    · exact hright y h2
    · push Not at h1 h2
      exact hpiece y h1 h2

/-- Rolle, with the first and the last knot kept on the right side -/
theorem exists_zeros (hf : Spline (p + 1) k τ f) {f' : ℝ → ℝ} (hd : ∀ x, HasDerivAt f (f' x) x) (hk : 1 ≤ k) {x : ℕ → ℝ}
    (hi : Interlaced (p + 1) k τ x) (hz : ∀ i, i ≤ p + 1 + k → f (x i) = 0) (i : ℕ) (hik : i ≤ p + k) :
    ∃ y, x i < y ∧ y < x (i + 1) ∧ f' y = 0 ∧ (i = k - 1 → y < τ (k - 1)) ∧ (i = p + 1 → τ 0 < y) := by
  have hlo : ∃ l, f l = 0 ∧ x i ≤ l ∧ (i = p + 1 → τ 0 ≤ l) ∧ (l = x i ∨ l = τ 0 ∧ i = p + 1) := by
    by_cases h : i = p + 1 ∧ x i < τ 0
    · refine ⟨τ 0, ?_, h.2.le, fun _ => le_rfl, Or.inr ⟨rfl, h.1⟩⟩
      obtain ⟨g, hg, e⟩ := hf.left (by omega) (m := 0) (by omega)
      have he : ∀ w, w ≤ τ 0 → g w = f w := fun w hw => e w fun l _ h2 => hw.trans (hi.knots_le (by omega) h2)
      have := hg.zero_of_no_knots (x := x) (fun a b h1 h2 => hi.points a b h1 (by omega)) (by
        intro a ha
        rw [he, hz a (by omega)]
        exact (hi.points_le (show a ≤ i by omega) (by omega)).trans h.2.le) (τ 0)
      rw [← he _ le_rfl, this]
    · exact ⟨x i, hz i (by omega), le_rfl, fun h1 => not_lt.mp fun h2 => h ⟨h1, h2⟩, Or.inl rfl⟩
  have hhi : ∃ l, f l = 0 ∧ l ≤ x (i + 1) ∧ (i = k - 1 → l ≤ τ (k - 1)) ∧ (l = x (i + 1) ∨ l = τ (k - 1) ∧ i = k - 1) := by
    by_cases h : i = k - 1 ∧ τ (k - 1) < x (i + 1)
    · refine ⟨τ (k - 1), ?_, h.2.le, fun _ => le_rfl, Or.inr ⟨rfl, h.1⟩⟩
      obtain ⟨g, hg, e⟩ := hf.right (m := k) le_rfl
      rw [Nat.sub_self] at hg
      have he : ∀ w, τ (k - 1) ≤ w → g w = f w := fun w hw => e w fun l h2 => (hi.knots_le (by omega) (by omega)).trans hw
      have := hg.zero_of_no_knots (x := fun a => x (i + 1 + a)) (fun a b h1 h2 => hi.points _ _ (by omega) (by omega)) (by
        intro a ha
        rw [he, hz _ (by omega)]
        exact h.2.le.trans (hi.points_le (by omega) (by omega))) (τ (k - 1))
      rw [← he _ le_rfl, this]
    · exact ⟨x (i + 1), hz _ (by omega), le_rfl, fun h1 => not_lt.mp fun h2 => h ⟨h1, h2⟩, Or.inl rfl⟩
  obtain ⟨a, ha, ha1, ha2, ha3⟩ := hlo
  obtain ⟨b, hb, hb1, hb2, hb3⟩ := hhi
  have hab : a < b := by
    rcases ha3 with rfl | ⟨rfl, h1⟩
    · rcases hb3 with rfl | ⟨rfl, h2⟩
      · exact hi.points _ _ (by omega) (by omega)
      · rw [h2]; exact hi.lt _ (by omega)
    · rcases hb3 with rfl | ⟨rfl, h2⟩
      · rw [h1]
        have := hi.gt 0 (by omega)
        rwa [show 0 + (p + 1) + 1 = p + 1 + 1 by omega] at this
      · exact hi.knots _ _ (by omega) (by omega)
  obtain ⟨y, hy, hy'⟩ := exists_hasDerivAt_eq_zero hab hf.continuous.continuousOn (ha.trans hb.symm) fun z _ => hd z
  exact ⟨y, ha1.trans_lt hy.1, hy.2.trans_le hb1, hy', fun h => hy.2.trans_le (hb2 h), fun h => (ha2 h).trans_lt hy.1⟩

/-- A spline that vanishes at interlacing points is zero. -/
theorem zero_of_zeros (hp : 1 ≤ p) : ∀ (k : ℕ) (τ : ℕ → ℝ) (f : ℝ → ℝ) (x : ℕ → ℝ), Spline p k τ f →
    Interlaced p k τ x → (∀ i, i ≤ p + k → f (x i) = 0) → ∀ y, f y = 0 := by
  induction p, hp using Nat.le_induction with
  | base => exact zero_linear
  | succ p hp ihp =>
  intro k
  induction k using Nat.strong_induction_on with
  | _ k ih =>
  intro τ f x hf hi hz
  rcases Nat.eq_zero_or_pos k with rfl | hk
  · exact fun y => hf.zero_of_no_knots (x := x) (fun i j h1 h2 => hi.points i j h1 (by omega)) (fun i h => hz i (by omega)) y
  obtain ⟨f', hf', hd⟩ := hf.deriv hp
  choose! y hy1 hy2 hy3 hy4 hy5 using exists_zeros hf hd hk hi hz
  by_cases hcase : Interlaced p k τ y
  · -- the derivative vanishes
    have h0 := ihp k τ f' y hf' hcase fun i hik => hy3 i hik
    have hc : ∀ a b, f a = f b := is_const_of_deriv_eq_zero (fun z => (hd z).differentiableAt) fun z => by
      rw [(hd z).deriv, h0]
    intro z
    rw [hc z (x 0), hz 0 (by omega)]
  · have hys : ∀ i j, i < j → j ≤ p + k → y i < y j := by
      intro i j hij hj
      calc y i < x (i + 1) := hy2 i (by omega)
        _ ≤ x j := hi.points_le hij (by omega)
        _ < y j := hy1 j hj
    have hbad : (∃ j, j < k ∧ τ j ≤ y j) ∨ ∃ j, j < k ∧ y (j + p + 1) ≤ τ j := by
      by_contra hno
      push Not at hno
      exact hcase ⟨hi.knots, hys, hno.1, hno.2⟩
    rcases hbad with ⟨j, hjk, hj⟩ | ⟨j, hjk, hj⟩
    · have hjk1 : j ≠ k - 1 := fun h => by
        have := hy4 j (by omega) h
        rw [← h] at this; linarith
      have hx : ∀ i, j + 1 ≤ i → i ≤ p + 1 + k → τ j ≤ x i := fun i h1 h2 =>
        (hj.trans (hy2 j (by omega)).le).trans (hi.points_le h1 h2)
      obtain ⟨g, hg, e⟩ := hf.right (m := j + 1) (by omega)
      have he : ∀ w, τ j ≤ w → g w = f w := fun w hw => e w fun l h2 => (hi.knots_le (by omega) (by omega)).trans hw
      have hg0 := ih (k - (j + 1)) (by omega) _ g (fun i => x (i + (j + 1))) hg
        { knots := fun a b h1 h2 => hi.knots _ _ (by omega) (by omega)
          points := fun a b h1 h2 => hi.points _ _ (by omega) (by omega)
          lt := fun a ha => hi.lt _ (by omega)
          gt := fun a ha => by
            have := hi.gt (a + (j + 1)) (by omega)
            rwa [show a + (j + 1) + (p + 1) + 1 = a + (p + 1) + 1 + (j + 1) by omega] at this }
        (fun i h1 => by rw [he _ (hx _ (by omega) (by omega)), hz _ (by omega)])
      have hfj := hf.drop_right (by omega) hi.knots hjk fun z h => by rw [← he z h, hg0]
      exact ih (j + 1) (by omega) τ f x hfj
        { knots := fun a b h1 h2 => hi.knots _ _ h1 (by omega)
          points := fun a b h1 h2 => hi.points _ _ h1 (by omega)
          lt := fun a ha => hi.lt _ (by omega)
          gt := fun a ha => hi.gt _ (by omega) } fun i h => hz i (by omega)
    · have hj0 : j ≠ 0 := fun h => by
        have := hy5 (j + p + 1) (by omega) (by omega)
        rw [h] at hj this; linarith
      have hx : ∀ i, i ≤ j + p + 1 → x i ≤ τ j := fun i h1 =>
        ((hi.points_le h1 (by omega)).trans (hy1 (j + p + 1) (by omega)).le).trans hj
      obtain ⟨g, hg, e⟩ := hf.left (by omega) (m := j) hjk.le
      have he : ∀ w, w ≤ τ j → g w = f w := fun w hw => e w fun l h1 h2 => hw.trans (hi.knots_le h1 h2)
      have hg0 := ih j hjk τ g x hg
        { knots := fun a b h1 h2 => hi.knots _ _ h1 (by omega)
          points := fun a b h1 h2 => hi.points _ _ h1 (by omega)
          lt := fun a ha => hi.lt _ (by omega)
          gt := fun a ha => hi.gt _ (by omega) }
        (fun i h1 => by rw [he _ (hx _ (by omega)), hz _ (by omega)])
      have hfj := hf.drop_left (by omega) hi.knots hjk fun z h => by rw [← he z h, hg0]
      exact ih (k - j) (by omega) _ f (fun i => x (i + j)) hfj
        { knots := fun a b h1 h2 => hi.knots _ _ (by omega) (by omega)
          points := fun a b h1 h2 => hi.points _ _ (by omega) (by omega)
          lt := fun a ha => hi.lt _ (by omega)
          gt := fun a ha => by
            have := hi.gt (a + j) (by omega)
            rwa [show a + j + (p + 1) + 1 = a + (p + 1) + 1 + j by omega] at this }
        fun i h => hz _ (by omega)

end Verif.Zeros
