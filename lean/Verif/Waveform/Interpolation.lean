import Verif.Waveform.Bspline
import Verif.Waveform.Zeros
import Mathlib.LinearAlgebra.Vandermonde
import Mathlib.LinearAlgebra.Matrix.ToLin
import Mathlib.LinearAlgebra.Matrix.NonsingularInverse

/-!
# The interpolation problem has exactly one solution

The evaluation of the modelled B-splines is related to polynomials plus truncated powers (Marsden's
identity), and the statement about zeros of splines is applied to the averaged knots.
-/

set_option autoImplicit false

namespace Verif.Bspline

open Finset

/-- control points of the powers `(y - u) ^ d` -/
def psi (kn : ℕ → ℚ) (d k : ℕ) (y : ℚ) : ℚ := ∏ m ∈ range d, (y - kn (k + m + 1))

/-- Marsden's identity on one span. -/
theorem marsden {kn : ℕ → ℚ} {i : ℕ} {u y : ℚ} (d : ℕ) (hdi : d ≤ i)
    (h : ∀ j r, 1 ≤ j → j ≤ d → r < j → kn (i + (r + 1)) - kn (i + 1 - (j - r)) ≠ 0) :
    ∑ r ∈ range (d + 1), basis kn i u d r * psi kn d (i - d + r) y = (y - u) ^ d := by
  induction d with
  | zero => simp [basis, psi]
  | succ d ih =>
    have ih' := ih (by omega) fun j r h1 h2 h3 => h j r h1 (by omega) h3
    rw [pow_succ, ← ih', sum_mul]
    simp only [basis, basisStep, add_mul]
    rw [sum_add_distrib]
    have e1 : ∀ f g : ℕ → ℚ, ∑ r ∈ range (d + 1 + 1), (if r = 0 then 0 else f (r - 1)) * g r =
        ∑ r ∈ range (d + 1), f r * g (r + 1) := by
      intro f g; rw [sum_range_succ']; simp
    have e2 : ∀ f g : ℕ → ℚ, ∑ r ∈ range (d + 1 + 1), (if r < d + 1 then f r else 0) * g r =
        ∑ r ∈ range (d + 1), f r * g r := by
      intro f g; rw [sum_range_succ]; simp only [lt_irrefl, if_false, zero_mul, add_zero]
      exact sum_congr rfl fun r hr => by rw [if_pos (mem_range.mp hr)]
    rw [e1 (fun r => (u - kn (i + 1 - (d + 1 - r))) * (basis kn i u d r /
      (kn (i + (r + 1)) - u + (u - kn (i + 1 - (d + 1 - r)))))) (fun r => psi kn (d + 1) (i - (d + 1) + r) y),
      e2 (fun r => (kn (i + (r + 1)) - u) * (basis kn i u d r /
      (kn (i + (r + 1)) - u + (u - kn (i + 1 - (d + 1 - r)))))) (fun r => psi kn (d + 1) (i - (d + 1) + r) y),
      ← sum_add_distrib]
    refine sum_congr rfl fun r hr => ?_
    rw [mem_range] at hr
    have hne := h (d + 1) r (by omega) le_rfl hr
    have e3 : psi kn (d + 1) (i - (d + 1) + r) y = psi kn d (i - d + r) y * (y - kn (i + 1 - (d + 1 - r))) := by
      unfold psi
      rw [prod_range_succ', show i - (d + 1) + r + 0 + 1 = i + 1 - (d + 1 - r) by omega]
      congr 1
      exact prod_congr rfl fun m _ => by rw [show i - (d + 1) + r + (m + 1) + 1 = i - d + r + m + 1 by omega]
    have e4 : psi kn (d + 1) (i - (d + 1) + (r + 1)) y = psi kn d (i - d + r) y * (y - kn (i + (r + 1))) := by
      unfold psi
      rw [prod_range_succ, show i - (d + 1) + (r + 1) + d + 1 = i + (r + 1) by omega]
      congr 1
      exact prod_congr rfl fun m _ => by rw [show i - (d + 1) + (r + 1) + m + 1 = i - d + r + m + 1 by omega]
    rw [e3, e4]
    generalize kn (i + (r + 1)) = b at *
    generalize kn (i + 1 - (d + 1 - r)) = a at *
    have hne' : b - u + (u - a) ≠ 0 := by intro hx; apply hne; linarith
    field_simp
    ring

/-- points of the truncated powers: distinct negative numbers, then the interior knots -/
def pole (ts : ℕ → ℚ) (n d j : ℕ) : ℚ := if j ≤ d then -((j : ℚ) + 1) else knot ts n d j

/-- sum of truncated powers -/
def trunc (ts : ℕ → ℚ) (n d : ℕ) (a : ℕ → ℚ) (u : ℚ) : ℚ := ∑ j ∈ range n, a j * (max (u - pole ts n d j) 0) ^ d

/-- control point `k` of the truncated power `j` -/
def weight (ts : ℕ → ℚ) (n d j k : ℕ) : ℚ :=
  if j ≤ k ∨ j ≤ d then (-1) ^ d * psi (knot ts n d) d k (pole ts n d j) else 0

variable {ts : ℕ → ℚ} {n d : ℕ}

theorem eval_weight (h : Sites ts n) (hd : 1 ≤ d) (hdn : d < n) {u : ℚ} (h0 : 0 ≤ u) (h1 : u ≤ 1) {j : ℕ} :
    eval (knot ts n d) n d (weight ts n d j) u = (max (u - pole ts n d j) 0) ^ d := by
  obtain ⟨a1, a2, a3, a4, a5⟩ := span_spec h hd hdn h0 h1
  have hm := fun y => marsden (kn := knot ts n d) (i := span (knot ts n d) n d u) (u := u) (y := y) d a1 (by
    intro j r hj hjd hr
    have m1 : knot ts n d (span (knot ts n d) n d u + 1) ≤
        knot ts n d (span (knot ts n d) n d u + (r + 1)) := knot_mono h hd hdn (by omega)
    have m2 : knot ts n d (span (knot ts n d) n d u + 1 - (j - r)) ≤
        knot ts n d (span (knot ts n d) n d u) := knot_mono h hd hdn (by omega)
    intro hx; linarith)
  unfold eval
  dsimp only
  generalize span (knot ts n d) n d u = i at *
  have hpow : ∀ s : ℚ, (-1) ^ d * (s - u) ^ d = (u - s) ^ d := fun s => by rw [← mul_pow]; congr 1; ring
  by_cases hjd : j ≤ d
  · have hs : pole ts n d j = -((j : ℚ) + 1) := if_pos hjd
    have hpos : 0 ≤ u - pole ts n d j := by rw [hs]; have : (0 : ℚ) ≤ j := Nat.cast_nonneg j; linarith
    rw [max_eq_left hpos, ← hpow, ← hm, mul_sum]
    refine sum_congr rfl fun r _ => ?_
    unfold weight
    rw [if_pos (Or.inr hjd)]
    ring
  · have hs : pole ts n d j = knot ts n d j := if_neg hjd
    by_cases hji : j ≤ i
    · have hpos : 0 ≤ u - pole ts n d j := by rw [hs]; linarith [knot_mono h hd hdn hji]
      rw [max_eq_left hpos, ← hpow, ← hm, mul_sum]
      refine sum_congr rfl fun r _ => ?_
      unfold weight
      by_cases hjr : j ≤ i - d + r
      · rw [if_pos (Or.inl hjr)]; ring
      · rw [if_neg (by omega), mul_zero]
        have : psi (knot ts n d) d (i - d + r) (pole ts n d j) = 0 := by
          unfold psi
          refine prod_eq_zero (i := j - 1 - (i - d + r)) (mem_range.mpr (by omega)) ?_
          rw [show i - d + r + (j - 1 - (i - d + r)) + 1 = j by omega, hs, sub_self]
        rw [this]; ring
    · have hneg : u - pole ts n d j ≤ 0 := by
        rw [hs]; linarith [knot_mono h hd hdn (show i + 1 ≤ j by omega)]
      rw [max_eq_right hneg, zero_pow (by omega)]
      refine sum_eq_zero fun r hr => ?_
      rw [mem_range] at hr
      unfold weight
      rw [if_neg (by omega), mul_zero]

theorem eval_congr (h : Sites ts n) (hd : 1 ≤ d) (hdn : d < n) {u : ℚ} (h0 : 0 ≤ u) (h1 : u ≤ 1) {c c' : ℕ → ℚ}
    (hc : ∀ k, k < n → c k = c' k) : eval (knot ts n d) n d c u = eval (knot ts n d) n d c' u := by
  obtain ⟨a1, a2, -⟩ := span_spec h hd hdn h0 h1
  unfold eval
  dsimp only
  refine sum_congr rfl fun r hr => ?_
  rw [mem_range] at hr
  rw [hc _ (by omega)]

theorem eval_sum {kn : ℕ → ℚ} {ι : Type} (s : Finset ι) (a : ι → ℚ) (c : ι → ℕ → ℚ) (u : ℚ) :
    eval kn n d (fun k => ∑ j ∈ s, a j * c j k) u = ∑ j ∈ s, a j * eval kn n d (c j) u := by
  unfold eval
  dsimp only
  simp only [mul_sum]
  rw [sum_comm]
  exact sum_congr rfl fun j _ => sum_congr rfl fun r _ => by ring

theorem eval_sub {kn : ℕ → ℚ} (c c' : ℕ → ℚ) (u : ℚ) :
    eval kn n d (fun k => c k - c' k) u = eval kn n d c u - eval kn n d c' u := by
  unfold eval
  dsimp only
  rw [← sum_sub_distrib]
  exact sum_congr rfl fun r _ => by ring

theorem eval_trunc (h : Sites ts n) (hd : 1 ≤ d) (hdn : d < n) (a : ℕ → ℚ) {u : ℚ} (h0 : 0 ≤ u) (h1 : u ≤ 1) :
    eval (knot ts n d) n d (fun k => ∑ j ∈ range n, a j * weight ts n d j k) u = trunc ts n d a u := by
  rw [eval_sum]
  exact sum_congr rfl fun j _ => by rw [eval_weight h hd hdn h0 h1]

theorem pow_combination_zero {s : ℕ → ℚ} (hs : ∀ i j, i ≤ d → j ≤ d → s i = s j → i = j) {a : ℕ → ℚ} {l r : ℚ}
    (hlr : l < r) (h : ∀ u, l ≤ u → u ≤ r → ∑ j ∈ range (d + 1), a j * (u - s j) ^ d = 0) :
    ∀ j, j ≤ d → a j = 0 := by
  classical
  -- as a polynomial
  have hP : ∑ j ∈ range (d + 1), Polynomial.C (a j) * (Polynomial.X - Polynomial.C (s j)) ^ d = 0 := by
    refine Polynomial.eq_zero_of_infinite_isRoot _ ((Set.Icc_infinite hlr).mono fun u hu => ?_)
    change Polynomial.eval u _ = 0
    rw [Polynomial.eval_finsetSum]
    simpa using h u hu.1 hu.2
  -- the moments vanish
  have hmom : ∀ e, e ≤ d → ∑ j ∈ range (d + 1), a j * s j ^ e = 0 := by
    intro e he
    have hc := congrArg (fun Q => Polynomial.coeff Q (d - e)) hP
    simp only [Polynomial.finsetSum_coeff, Polynomial.coeff_zero, Polynomial.coeff_C_mul] at hc
    have hx : ∀ j, ((Polynomial.X - Polynomial.C (s j)) ^ d).coeff (d - e) = (-1) ^ e * (d.choose e : ℚ) * s j ^ e := by
      intro j
      rw [sub_eq_add_neg, ← Polynomial.C_neg, Polynomial.coeff_X_add_C_pow, Nat.choose_symm he, Nat.sub_sub_self he,
        neg_pow]
      ring
    simp only [hx] at hc
    have hf : ∑ j ∈ range (d + 1), a j * ((-1) ^ e * (d.choose e : ℚ) * s j ^ e) =
        ((-1) ^ e * (d.choose e : ℚ)) * ∑ j ∈ range (d + 1), a j * s j ^ e := by
      rw [mul_sum]; exact sum_congr rfl fun j _ => by ring
    rw [hf] at hc
    rcases mul_eq_zero.mp hc with h1 | h1
    · rcases mul_eq_zero.mp h1 with h2 | h2
      · exact absurd h2 (pow_ne_zero _ (by norm_num))
      · exact absurd h2 (by exact_mod_cast (Nat.choose_pos he).ne')
    · exact h1
  intro j hj
  have hz := Matrix.eq_zero_of_forall_pow_sum_mul_pow_eq_zero (R := ℚ) (n := d + 1) (f := fun i : Fin (d + 1) => s i)
    (v := fun i : Fin (d + 1) => a i) (fun i k hik => Fin.ext (hs i k (by omega) (by omega) hik)) (by
      intro e
      have := hmom e (by omega)
      rw [← Fin.sum_univ_eq_sum_range (fun j => a j * s j ^ (e : ℕ))] at this
      exact this)
  exact congrFun hz ⟨j, by omega⟩

theorem sum_split (hdn : d < n) {R : Type} [AddCommMonoid R] (g : ℕ → R) :
    ∑ j ∈ range n, g j = ∑ j ∈ range (d + 1), g j + ∑ j ∈ range (n - (d + 1)), g (d + 1 + j) := by
  rw [← sum_range_add, show d + 1 + (n - (d + 1)) = n by omega]

/-- truncated powers are independent on the parameter interval -/
theorem trunc_zero (h : Sites ts n) (hd : 1 ≤ d) (hdn : d < n) {a : ℕ → ℚ}
    (hz : ∀ u, 0 ≤ u → u ≤ 1 → trunc ts n d a u = 0) : ∀ j, j < n → a j = 0 := by
  have k1 : knot ts n d n = 1 := by unfold knot; rw [if_neg (by omega), if_pos le_rfl]
  have hstrict : ∀ k, d ≤ k → k < n → knot ts n d k < knot ts n d (k + 1) := by
    intro k hk hkn
    by_cases hk0 : k = d
    · rw [hk0, show knot ts n d d = 0 from if_pos le_rfl]
      by_cases hx : d + 1 < n
      · exact (knot_interior_pos h hd (by omega) hx).1
      · rw [show d + 1 = n by omega, k1]; norm_num
    · by_cases hx : k + 1 < n
      · unfold knot
        rw [if_neg (by omega), if_neg (by omega), if_neg (by omega), if_neg (by omega)]
        apply div_lt_div_of_pos_right _ (by exact_mod_cast hd)
        apply sum_lt_sum_of_nonempty ⟨0, mem_range.mpr hd⟩
        intro j hj
        rw [mem_range] at hj
        exact h.lt _ _ (by omega) (by omega)
      · rw [show k + 1 = n by omega, k1]; exact (knot_interior_pos h hd (by omega) hkn).2
  have hr : ∀ k, d ≤ k → k ≤ n → 0 ≤ knot ts n d k ∧ knot ts n d k ≤ 1 := by
    intro k hk hkn
    constructor
    · rw [← show knot ts n d 0 = 0 from if_pos (by omega)]; exact knot_mono h hd hdn (by omega)
    · rw [← k1]; exact knot_mono h hd hdn hkn
  have hlow : ∀ j, j ≤ d → a j = 0 := by
    refine pow_combination_zero (s := pole ts n d) (l := knot ts n d d) (r := knot ts n d (d + 1)) ?_ (hstrict d le_rfl hdn) ?_
    · intro i j hi hj hij
      unfold pole at hij
      rw [if_pos hi, if_pos hj] at hij
      have : (i : ℚ) = j := by linarith
      exact_mod_cast this
    · intro u h1 h2
      have h3 := hr d le_rfl hdn.le
      have h4 := hr (d + 1) (by omega) (by omega)
      rw [← hz u (h3.1.trans h1) (h2.trans h4.2)]
      unfold trunc
      rw [sum_split hdn, sum_eq_zero (s := range (n - (d + 1))), add_zero]
      · refine sum_congr rfl fun j hj => ?_
        rw [mem_range] at hj
        rw [max_eq_left]
        unfold pole
        rw [if_pos (by omega)]
        have : (0 : ℚ) ≤ j := Nat.cast_nonneg j
        linarith [h3.1]
      · intro j hj
        rw [mem_range] at hj
        rw [max_eq_right, zero_pow (by omega), mul_zero]
        unfold pole
        rw [if_neg (by omega)]
        linarith [knot_mono h hd hdn (k := d + 1) (l := d + 1 + j) (by omega)]
  intro j
  induction j using Nat.strong_induction_on with
  | _ j ih =>
  intro hj
  by_cases hjd : j ≤ d
  · exact hlow j hjd
  have hs := hstrict j (by omega) hj
  have h3 := hr j (by omega) hj.le
  have h4 := hr (j + 1) (by omega) hj
  have hu := hz (knot ts n d (j + 1)) h4.1 h4.2
  unfold trunc at hu
  rw [sum_eq_single j] at hu
  · rcases mul_eq_zero.mp hu with h5 | h5
    · exact h5
    · exfalso
      have := pow_eq_zero_iff (show d ≠ 0 by omega) |>.mp h5
      rw [max_eq_left] at this
      · unfold pole at this; rw [if_neg hjd] at this; linarith
      · unfold pole; rw [if_neg hjd]; linarith
  · intro l hl hlj
    rw [mem_range] at hl
    rcases Nat.lt_or_gt_of_ne hlj with h5 | h5
    · rw [ih l h5 hl, zero_mul]
    · rw [max_eq_right, zero_pow (by omega), mul_zero]
      unfold pole; rw [if_neg (by omega)]
      linarith [knot_mono h hd hdn (k := j + 1) (l := l) (by omega)]
  · intro hn; exact absurd (mem_range.mpr hj) hn

/-- every vector of control points belongs to a sum of truncated powers -/
theorem exists_trunc (h : Sites ts n) (hd : 1 ≤ d) (hdn : d < n) (c : ℕ → ℚ) :
    ∃ a : ℕ → ℚ, (∀ k, k < n → c k = ∑ j ∈ range n, a j * weight ts n d j k) := by
  classical
  let M : Matrix (Fin n) (Fin n) ℚ := fun k j => weight ts n d j k
  let ext : (Fin n → ℚ) → ℕ → ℚ := fun v j => if hj : j < n then v ⟨j, hj⟩ else 0
  have hM : ∀ v k, M.mulVec v k = ∑ j ∈ range n, ext v j * weight ts n d j k := by
    intro v k
    rw [← Fin.sum_univ_eq_sum_range (fun j => ext v j * weight ts n d j k)]
    unfold Matrix.mulVec dotProduct
    refine sum_congr rfl fun j _ => ?_
    simp only [M, ext, j.2, dif_pos, Fin.eta]
    ring
  have hinj : Function.Injective M.mulVec := by
    have : ∀ v, M.mulVec v = 0 → v = 0 := by
      intro v hv
      have hz := trunc_zero h hd hdn (a := ext v) (by
        intro u h0 h1
        rw [← eval_trunc h hd hdn (ext v) h0 h1,
          eval_congr h hd hdn h0 h1 (c' := fun _ => 0) (fun k hk => by
            rw [← hM v ⟨k, hk⟩, hv]; rfl)]
        unfold eval; simp)
      funext j
      have := hz j j.2
      simpa [ext] using this
    intro v v' hvv
    have := this (v - v') (by rw [Matrix.mulVec_sub]; exact sub_eq_zero.mpr hvv)
    exact sub_eq_zero.mp this
  have hsurj : Function.Surjective M.mulVec :=
    Matrix.mulVec_surjective_iff_isUnit.mpr (Matrix.mulVec_injective_iff_isUnit.mp hinj)
  obtain ⟨v, hv⟩ := hsurj fun k => c k
  refine ⟨ext v, fun k hk => ?_⟩
  rw [← hM v ⟨k, hk⟩, hv]

/-- the averaged knots interlace with the sites -/
theorem interlaced (h : Sites ts n) (hd : 1 ≤ d) (hdn : d < n) :
    Zeros.Interlaced d (n - (d + 1)) (fun j => ((knot ts n d (d + 1 + j) : ℚ) : ℝ)) (fun i => ((ts i : ℚ) : ℝ)) := by
  have hd0 : (0 : ℚ) < d := by exact_mod_cast hd
  have hk : ∀ j, j < n - (d + 1) → knot ts n d (d + 1 + j) = (∑ m ∈ range d, ts (1 + j + m)) / d := by
    intro j hj
    unfold knot
    rw [if_neg (by omega), if_neg (by omega)]
    congr 1
    exact sum_congr rfl fun m _ => by rw [show d + 1 + j - d + m = 1 + j + m by omega]
  refine ⟨?_, ?_, ?_, ?_⟩
  · intro i j hij hj
    rw [Rat.cast_lt, hk i (by omega), hk j hj]
    apply div_lt_div_of_pos_right _ hd0
    apply sum_lt_sum_of_nonempty ⟨0, mem_range.mpr hd⟩
    intro m hm
    rw [mem_range] at hm
    exact h.lt _ _ (by omega) (by omega)
  · intro i j hij hj
    rw [Rat.cast_lt]
    exact h.lt _ _ hij (by omega)
  · intro j hj
    rw [Rat.cast_lt, hk j hj, lt_div_iff₀ hd0]
    calc ts j * d = ∑ m ∈ range d, ts j := by simp [mul_comm]
      _ < _ := by
        apply sum_lt_sum_of_nonempty ⟨0, mem_range.mpr hd⟩
        intro m hm
        rw [mem_range] at hm
        exact h.lt _ _ (by omega) (by omega)
  · intro j hj
    rw [Rat.cast_lt, hk j hj, div_lt_iff₀ hd0]
    calc _ < ∑ m ∈ range d, ts (j + d + 1) := by
          apply sum_lt_sum_of_nonempty ⟨0, mem_range.mpr hd⟩
          intro m hm
          rw [mem_range] at hm
          exact h.lt _ _ (by omega) (by omega)
      _ = ts (j + d + 1) * d := by simp [mul_comm]

/-- A sum of truncated powers that agrees with a polynomial at all sites agrees with it everywhere. -/
theorem trunc_eq_poly (h : Sites ts n) (hd : 1 ≤ d) (hdn : d < n) {a : ℕ → ℚ} {P : Polynomial ℚ}
    (hP : P.natDegree ≤ d) (hz : ∀ i, i < n → trunc ts n d a (ts i) = P.eval (ts i)) {u : ℚ} (h0 : 0 ≤ u) :
    trunc ts n d a u = P.eval u := by
  let Q : Polynomial ℝ := ∑ j ∈ range (d + 1), Polynomial.C ((a j : ℚ) : ℝ) *
    (Polynomial.X - Polynomial.C ((pole ts n d j : ℚ) : ℝ)) ^ d - P.map (algebraMap ℚ ℝ)
  have hQ : Q.natDegree ≤ d := by
    refine (Polynomial.natDegree_sub_le _ _).trans (max_le ?_ ((Polynomial.natDegree_map_le).trans hP))
    refine Polynomial.natDegree_sum_le_of_forall_le _ _ fun j _ => ?_
    refine (Polynomial.natDegree_C_mul_le _ _).trans (Polynomial.natDegree_pow_le.trans ?_)
    rw [Polynomial.natDegree_X_sub_C, mul_one]
  let f : ℝ → ℝ := fun x => Q.eval x + ∑ j ∈ range (n - (d + 1)), ((a (d + 1 + j) : ℚ) : ℝ) *
    (max (x - ((knot ts n d (d + 1 + j) : ℚ) : ℝ)) 0) ^ d
  have hf : Zeros.Spline d (n - (d + 1)) (fun j => ((knot ts n d (d + 1 + j) : ℚ) : ℝ)) f :=
    ⟨Q, hQ, fun j => ((a (d + 1 + j) : ℚ) : ℝ), fun x => rfl⟩
  have hcast : ∀ v : ℚ, 0 ≤ v → f (v : ℝ) = ((trunc ts n d a v - P.eval v : ℚ) : ℝ) := by
    intro v hv
    unfold trunc
    rw [sum_split hdn]
    push_cast
    simp only [f, Q, Polynomial.eval_sub, Polynomial.eval_finsetSum]
    have e1 : (Polynomial.eval (v : ℝ) (P.map (algebraMap ℚ ℝ))) = ((P.eval v : ℚ) : ℝ) := by
      have := Polynomial.eval_map_apply (p := P) (algebraMap ℚ ℝ) v
      simpa using this
    rw [e1]
    have e2 : ∀ j ∈ range (d + 1), Polynomial.eval (v : ℝ) (Polynomial.C ((a j : ℚ) : ℝ) *
        (Polynomial.X - Polynomial.C ((pole ts n d j : ℚ) : ℝ)) ^ d) =
        (a j : ℝ) * (max ((v : ℝ) - (pole ts n d j : ℝ)) 0) ^ d := by
      intro j hj
      rw [mem_range] at hj
      rw [max_eq_left]
      · simp
      · rw [sub_nonneg, Rat.cast_le]
        unfold pole
        rw [if_pos (by omega)]
        have : (0 : ℚ) ≤ j := Nat.cast_nonneg j
        linarith
    rw [sum_congr rfl e2]
    have e3 : ∀ j, pole ts n d (d + 1 + j) = knot ts n d (d + 1 + j) := fun j => if_neg (by omega)
    simp only [e3]
    ring
  have key := Zeros.zero_of_zeros hd _ _ f _ hf (interlaced h hd hdn) (by
    intro i hi
    have hin : i < n := by omega
    have hpos : 0 ≤ ts i := by rw [← h.zero]; exact h.le (by omega) hin
    rw [hcast _ hpos, hz i hin, sub_self, Rat.cast_zero])
  have := hcast u h0
  rw [key, eq_comm, Rat.cast_eq_zero] at this
  exact sub_eq_zero.mp this

/-- A spline that agrees with a polynomial at all sites agrees with it everywhere. -/
theorem eval_eq_poly (h : Sites ts n) (hd : 1 ≤ d) (hdn : d < n) {c : ℕ → ℚ} {P : Polynomial ℚ}
    (hP : P.natDegree ≤ d) (hz : ∀ i, i < n → eval (knot ts n d) n d c (ts i) = P.eval (ts i)) {u : ℚ} (h0 : 0 ≤ u)
    (h1 : u ≤ 1) : eval (knot ts n d) n d c u = P.eval u := by
  obtain ⟨a, ha⟩ := exists_trunc h hd hdn c
  have he : ∀ v, 0 ≤ v → v ≤ 1 → eval (knot ts n d) n d c v = trunc ts n d a v := fun v hv0 hv1 => by
    rw [eval_congr h hd hdn hv0 hv1 ha, eval_trunc h hd hdn a hv0 hv1]
  rw [he u h0 h1]
  refine trunc_eq_poly h hd hdn hP (fun i hi => ?_) h0
  rw [← hz i hi, he]
  · rw [← h.zero]; exact h.le (by omega) hi
  · rw [← h.one]; exact h.le (by omega) (by omega)

/-- The first control point is the value at the begin. -/
theorem eval_zero (h : Sites ts n) (hd : 1 ≤ d) (hdn : d < n) (c : ℕ → ℚ) : eval (knot ts n d) n d c 0 = c 0 := by
  have k0 : ∀ k, k ≤ d → knot ts n d k = 0 := fun k hk => if_pos hk
  have hs : span (knot ts n d) n d 0 = d := by unfold span; rw [if_pos (by rw [k0 0 (by omega)])]
  have hspec := span_spec h hd hdn (u := 0) le_rfl (by norm_num)
  rw [hs] at hspec
  have hb : ∀ j, j ≤ d → ∀ r, r ≤ j → basis (knot ts n d) d 0 j r = if r = 0 then 1 else 0 := by
    intro j
    induction j with
    | zero => intro _ r _; rfl
    | succ j ih =>
      intro hj r hr
      have e : ∀ k, 1 ≤ k → k ≤ d → knot ts n d (d + 1 - k) = 0 := fun k h1 h2 => k0 _ (by omega)
      simp only [basis, basisStep]
      by_cases hr0 : r = 0
      · subst hr0
        rw [if_pos rfl, if_pos (by omega), if_pos rfl, ih (by omega) 0 (by omega), if_pos rfl, e (j + 1 - 0) (by omega) (by omega)]
        have := hspec.2.2.2.2
        rw [k0 d le_rfl] at this
        simp only [zero_add, sub_zero, sub_self, add_zero]
        rw [mul_one_div, div_self this.ne']
      · rw [if_neg hr0, if_neg hr0, e _ (by omega) (by omega)]
        split
        · rw [ih (by omega) r (by omega), if_neg hr0]; simp
        · simp
  unfold eval
  simp only [hs]
  rw [sum_eq_single 0]
  · rw [hb d le_rfl 0 (by omega), if_pos rfl, one_mul, Nat.sub_self, Nat.zero_add]
  · intro r hr hr0
    rw [mem_range] at hr
    rw [hb d le_rfl r (by omega), if_neg hr0, zero_mul]
  · intro hn; exact absurd (mem_range.mpr (by omega)) hn

/-- The last control point is the value at the end. -/
theorem eval_one (h : Sites ts n) (hd : 1 ≤ d) (hdn : d < n) (c : ℕ → ℚ) : eval (knot ts n d) n d c 1 = c (n - 1) := by
  have k1 : ∀ k, n ≤ k → knot ts n d k = 1 := fun k hk => by
    unfold knot; rw [if_neg (by omega), if_pos hk]
  have hspec := span_spec h hd hdn (u := 1) (by norm_num) le_rfl
  have hs : span (knot ts n d) n d 1 = n - 1 := by
    by_contra hne
    have hlt := hspec.2.2.2.1
    have : span (knot ts n d) n d 1 + 1 < n := by omega
    by_cases hx : d < span (knot ts n d) n d 1 + 1
    · linarith [(knot_interior_pos h hd hx this).2]
    · omega
  rw [hs] at hspec
  have hlast : knot ts n d (n - 1) < 1 := by
    have := hspec.2.2.2.2
    rwa [k1 (n - 1 + 1) (by omega)] at this
  have hb : ∀ j, j ≤ d → ∀ r, r ≤ j → basis (knot ts n d) (n - 1) 1 j r = if r = j then 1 else 0 := by
    intro j
    induction j with
    | zero => intro _ r _; rfl
    | succ j ih =>
      intro hj r hr
      have e : ∀ k, 1 ≤ k → knot ts n d (n - 1 + k) = 1 := fun k h1 => k1 _ (by omega)
      simp only [basis, basisStep]
      rw [e (r + 1) (by omega), sub_self, zero_mul, ite_self, add_zero]
      by_cases hr0 : r = 0
      · rw [if_pos hr0, if_neg (by omega)]
      · rw [if_neg hr0, e (r - 1 + 1) (by omega), ih (by omega) (r - 1) (by omega), sub_self, zero_add]
        have hle : knot ts n d (n - 1 + 1 - (j + 1 - (r - 1))) ≤ knot ts n d (n - 1) := knot_mono h hd hdn (by omega)
        by_cases hrj : r = j + 1
        · rw [if_pos (by omega), if_pos hrj, mul_one_div, div_self]
          intro hx; linarith
        · rw [if_neg (by omega), if_neg hrj, zero_div, mul_zero]
  unfold eval
  simp only [hs]
  rw [sum_eq_single d]
  · rw [hb d le_rfl d le_rfl, if_pos rfl, one_mul]
    congr 1; omega
  · intro r hr hr0
    rw [mem_range] at hr
    rw [hb d le_rfl r (by omega), if_neg hr0, zero_mul]
  · intro hn; exact absurd (mem_range.mpr (by omega)) hn

theorem solves_iff (h : Sites ts n) (hd : 1 ≤ d) (hdn : d < n) {xs c : ℕ → ℚ} :
    Solves ts n d xs c ↔ ∀ i, i < n → eval (knot ts n d) n d c (ts i) = xs i := by
  have h2 := h.two
  constructor
  · rintro ⟨h0, h1, h3⟩ i hi
    by_cases hi0 : i = 0
    · rw [hi0, h.zero, eval_zero h hd hdn, h0]
    · by_cases hi1 : i = n - 1
      · rw [hi1, h.one, eval_one h hd hdn, h1]
      · exact h3 i (by omega) (by omega)
  · intro hc
    refine ⟨?_, ?_, fun i h1 h2 => hc i (by omega)⟩
    · rw [← hc 0 (by omega), h.zero, eval_zero h hd hdn]
    · rw [← hc (n - 1) (by omega), h.one, eval_one h hd hdn]

/-- The interpolation problem has at most one solution. -/
theorem solves_unique (h : Sites ts n) (hd : 1 ≤ d) (hdn : d < n) {xs c c' : ℕ → ℚ} (hc : Solves ts n d xs c)
    (hc' : Solves ts n d xs c') : ∀ k, k < n → c k = c' k := by
  rw [solves_iff h hd hdn] at hc hc'
  obtain ⟨a, ha⟩ := exists_trunc h hd hdn fun k => c k - c' k
  have hz : ∀ u, 0 ≤ u → u ≤ 1 → trunc ts n d a u = 0 := by
    intro u h0 h1
    rw [← eval_trunc h hd hdn a h0 h1, ← eval_congr h hd hdn h0 h1 ha,
      eval_eq_poly h hd hdn (P := 0) (by simp) (fun i hi => ?_) h0 h1, Polynomial.eval_zero]
    rw [eval_sub, hc i hi, hc' i hi, sub_self, Polynomial.eval_zero]
  have h0 := trunc_zero h hd hdn hz
  intro k hk
  have := ha k hk
  rw [sum_eq_zero fun j hj => by rw [h0 j (mem_range.mp hj), zero_mul]] at this
  exact sub_eq_zero.mp this

/-- The interpolation problem has a solution. -/
theorem solves_exists (h : Sites ts n) (hd : 1 ≤ d) (hdn : d < n) (xs : ℕ → ℚ) : ∃ c, Solves ts n d xs c := by
  classical
  let unit : ℕ → ℕ → ℚ := fun k l => if l = k then 1 else 0
  let M : Matrix (Fin n) (Fin n) ℚ := fun i k => eval (knot ts n d) n d (unit k) (ts i)
  let ext : (Fin n → ℚ) → ℕ → ℚ := fun v j => if hj : j < n then v ⟨j, hj⟩ else 0
  have hr : ∀ i, i < n → 0 ≤ ts i ∧ ts i ≤ 1 := by
    intro i hi
    constructor
    · rw [← h.zero]; exact h.le (by omega) hi
    · rw [← h.one]; exact h.le (by omega) (by omega)
  have hM : ∀ v (i : Fin n), M.mulVec v i = eval (knot ts n d) n d (ext v) (ts i) := by
    intro v i
    rw [eval_congr h hd hdn (hr i i.2).1 (hr i i.2).2 (c := ext v) (c' := fun k => ∑ j ∈ range n, ext v j * unit j k), eval_sum,
      ← Fin.sum_univ_eq_sum_range (fun j => ext v j * eval (knot ts n d) n d (unit j) (ts i))]
    · unfold Matrix.mulVec dotProduct
      refine sum_congr rfl fun j _ => ?_
      simp only [M, ext, j.2, dif_pos, Fin.eta]
      ring
    · intro k hk
      rw [sum_eq_single k]
      · simp [unit]
      · intro b _ hb; simp [unit, Ne.symm hb]
      · intro hn; exact absurd (mem_range.mpr hk) hn
  have hinj : Function.Injective M.mulVec := by
    intro v v' hvv
    have := solves_unique h hd hdn (xs := fun i => eval (knot ts n d) n d (ext v) (ts i)) (c := ext v) (c' := ext v')
      ((solves_iff h hd hdn).mpr fun i hi => rfl) ((solves_iff h hd hdn).mpr fun i hi => by
        rw [← hM v' ⟨i, hi⟩, ← hM v ⟨i, hi⟩, hvv])
    funext j
    simpa [ext] using this j j.2
  have hsurj : Function.Surjective M.mulVec :=
    Matrix.mulVec_surjective_iff_isUnit.mpr (Matrix.mulVec_injective_iff_isUnit.mp hinj)
  obtain ⟨v, hv⟩ := hsurj fun k => xs k
  refine ⟨ext v, (solves_iff h hd hdn).mpr fun i hi => ?_⟩
  rw [← hM v ⟨i, hi⟩, hv]

end Verif.Bspline
