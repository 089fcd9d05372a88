import Verif.Time.Differences
import Mathlib.Algebra.BigOperators.Fin
import Mathlib.Algebra.BigOperators.Field
import Mathlib.Algebra.BigOperators.Intervals
import Mathlib.Algebra.Order.BigOperators.Ring.Finset
import Mathlib.Tactic.FieldSimp
import Mathlib.Algebra.Order.Field.Basic
import Mathlib.Tactic.Ring

/-!
# Interpolating B-splines

Model of `/repo/src/math/Bspline.cpp` for one degree of freedom (all degrees of freedom are treated
alike and independently), including the used parts of Eigen's `unsupported/Eigen/Splines`:
`KnotAveraging`, `Spline::Span`, `Spline::BasisFunctions` (algorithms A2.1 and A2.2 of The NURBS Book)
and `Spline::operator()`. Eigen is not part of the repository; these definitions follow its published
source. The sparse QR solver is an arbitrary function (`Solver`); that it solves solvable systems is
a hypothesis where needed.
-/

set_option autoImplicit false

namespace Verif

open Finset

namespace Bspline

/-- `Eigen::KnotAveraging`: knot `k` for `n` parameters `ts` and degree `d`. -/
def knot (ts : ℕ → ℚ) (n d k : ℕ) : ℚ :=
  if k ≤ d then 0 else if n ≤ k then 1 else (∑ j ∈ range d, ts (k - d + j)) / d

/-- `Eigen::Spline::Span`: `std::upper_bound` over the knots with index in `[d-1, n)`, minus 1. -/
def span (kn : ℕ → ℚ) (n d : ℕ) (u : ℚ) : ℕ :=
  if u ≤ kn 0 then d
  else ((List.range' (d - 1) (n - (d - 1))).find? fun k => decide (u < kn k)).getD n - 1

/-- Loop body of A2.2 for `j`: from `j` to `j + 1` basis function values. -/
def basisStep (kn : ℕ → ℚ) (i : ℕ) (u : ℚ) (j : ℕ) (N : ℕ → ℚ) (r : ℕ) : ℚ :=
  let right := fun k => kn (i + k) - u
  let left := fun k => u - kn (i + 1 - k)
  let tmp := fun r => N r / (right (r + 1) + left (j - r))
  (if r = 0 then 0 else left (j - (r - 1)) * tmp (r - 1)) + (if r < j then right (r + 1) * tmp r else 0)

/-- `Eigen::Spline::BasisFunctions` on span `i`. -/
def basis (kn : ℕ → ℚ) (i : ℕ) (u : ℚ) : ℕ → ℕ → ℚ
  | 0 => fun r => if r = 0 then 1 else 0
  | j + 1 => basisStep kn i u (j + 1) (basis kn i u j)

/-- `Eigen::Spline::operator()` -/
def eval (kn : ℕ → ℚ) (n d : ℕ) (c : ℕ → ℚ) (u : ℚ) : ℚ :=
  let i := span kn n d u
  ∑ j ∈ range (d + 1), basis kn i u d j * c (i - d + j)

/-- The collocation system `A c = xs`, Bspline.cpp:44-53. -/
def Solves (ts : ℕ → ℚ) (n d : ℕ) (xs c : ℕ → ℚ) : Prop :=
  c 0 = xs 0 ∧ c (n - 1) = xs (n - 1) ∧
    ∀ i, 1 ≤ i → i < n - 1 → eval (knot ts n d) n d c (ts i) = xs i

/-- The linear solver: control points for parameters, number, degree and data. -/
abbrev Solver := (ℕ → ℚ) → ℕ → ℕ → (ℕ → ℚ) → ℕ → ℚ

/-- The solver solves every solvable system. -/
def Solver.Exact (q : Solver) : Prop :=
  ∀ ts n d xs, (∃ c, Solves ts n d xs c) → Solves ts n d xs (q ts n d xs)

end Bspline

/-- A constructed `math::Bspline`. -/
structure Bspline where
  tmin : ℚ
  tmax : ℚ
  n : ℕ
  d : ℕ
  knots : ℕ → ℚ
  ctrls : ℕ → ℚ

namespace Bspline

/-- relative times, Bspline.cpp:27-28 -/
def rel (l : List (ℚ × ℚ)) (k : ℕ) : ℚ :=
  ((l.getD k (0, 0)).1 - (l.getD 0 (0, 0)).1) / ((l.getD (l.length - 1) (0, 0)).1 - (l.getD 0 (0, 0)).1)

/-- the data -/
def vals (l : List (ℚ × ℚ)) (k : ℕ) : ℚ := (l.getD k (0, 0)).2

/-- Constructor, Bspline.cpp:15-63 -/
def build (q : Solver) (l : List (ℚ × ℚ)) (d : ℕ) : Bspline where
  tmin := (l.getD 0 (0, 0)).1
  tmax := (l.getD (l.length - 1) (0, 0)).1
  n := l.length
  d := d
  knots := knot (rel l) l.length d
  ctrls := q (rel l) l.length d (vals l)

/-- `interpolateAt`, Bspline.cpp:65-77 -/
def at' (b : Bspline) (t : ℚ) : ℚ :=
  eval b.knots b.n b.d b.ctrls (max 0 (min ((t - b.tmin) / (b.tmax - b.tmin)) 1))

/-! ### Helper lemmas -/

/-- Partition of unity of A2.2 when no denominator vanishes. -/
theorem basis_sum {kn : ℕ → ℚ} {i : ℕ} {u : ℚ} (d : ℕ)
    (h : ∀ j r, 1 ≤ j → j ≤ d → r < j → kn (i + (r + 1)) - kn (i + 1 - (j - r)) ≠ 0) :
    ∑ r ∈ range (d + 1), basis kn i u d r = 1 := by
  induction d with
  | zero => simp [basis]
  | succ d ih =>
    have ih' := ih fun j r h1 h2 h3 => h j r h1 (by omega) h3
    rw [← ih']
    simp only [basis, basisStep]
    rw [sum_add_distrib]
    have e1 : ∀ f : ℕ → ℚ, ∑ r ∈ range (d + 1 + 1), (if r = 0 then 0 else f (r - 1)) = ∑ r ∈ range (d + 1), f r := by
      intro f; rw [sum_range_succ']; simp
    have e2 : ∀ f : ℕ → ℚ, ∑ r ∈ range (d + 1 + 1), (if r < d + 1 then f r else 0) = ∑ r ∈ range (d + 1), f r := by
      intro f; rw [sum_range_succ]; simp only [lt_irrefl, if_false, add_zero]
      exact sum_congr rfl fun r hr => if_pos (mem_range.mp hr)
    rw [e1 (fun r => (u - kn (i + 1 - (d + 1 - r))) * (basis kn i u d r /
      (kn (i + (r + 1)) - u + (u - kn (i + 1 - (d + 1 - r)))))),
      e2 (fun r => (kn (i + (r + 1)) - u) * (basis kn i u d r /
      (kn (i + (r + 1)) - u + (u - kn (i + 1 - (d + 1 - r)))))), ← sum_add_distrib]
    refine sum_congr rfl fun r hr => ?_
    have hne := h (d + 1) r (by omega) le_rfl (mem_range.mp hr)
    have hne' : kn (i + (r + 1)) - u + (u - kn (i + 1 - (d + 1 - r))) ≠ 0 := by
      intro hx; apply hne; linarith
    rw [← add_mul, mul_div_assoc']
    field_simp
    ring

/-- sites are increasing from 0 to 1 -/
structure Sites (ts : ℕ → ℚ) (n : ℕ) : Prop where
  two : 2 ≤ n
  zero : ts 0 = 0
  one : ts (n - 1) = 1
  lt : ∀ i j, i < j → j < n → ts i < ts j

theorem Sites.le {ts : ℕ → ℚ} {n : ℕ} (h : Sites ts n) {i j : ℕ} (hij : i ≤ j) (hj : j < n) :
    ts i ≤ ts j := by
  rcases hij.eq_or_lt with rfl | hlt
  · exact le_rfl
  · exact (h.lt i j hlt hj).le

theorem knot_interior_pos {ts : ℕ → ℚ} {n d k : ℕ} (h : Sites ts n) (hd : 1 ≤ d) (h1 : d < k) (h2 : k < n) :
    0 < knot ts n d k ∧ knot ts n d k < 1 := by
  unfold knot
  rw [if_neg (by omega), if_neg (by omega)]
  have hd0 : (0 : ℚ) < d := by exact_mod_cast hd
  constructor
  · apply div_pos _ hd0
    apply sum_pos _ ⟨0, mem_range.mpr hd⟩
    intro j hj
    rw [mem_range] at hj
    have := h.lt 0 (k - d + j) (by omega) (by omega)
    rwa [h.zero] at this
  · rw [div_lt_one hd0]
    calc ∑ j ∈ range d, ts (k - d + j) < ∑ j ∈ range d, (1 : ℚ) := by
          apply sum_lt_sum_of_nonempty ⟨0, mem_range.mpr hd⟩
          intro j hj
          rw [mem_range] at hj
          have := h.lt (k - d + j) (n - 1) (by omega) (by omega)
          rwa [h.one] at this
      _ = d := by simp

theorem knot_mono {ts : ℕ → ℚ} {n d : ℕ} (h : Sites ts n) (hd : 1 ≤ d) (hdn : d < n) {k l : ℕ} (hkl : k ≤ l) :
    knot ts n d k ≤ knot ts n d l := by
  have hd0 : (0 : ℚ) < d := by exact_mod_cast hd
  by_cases hk : k ≤ d
  · have : knot ts n d k = 0 := if_pos hk
    rw [this]
    by_cases hl : l ≤ d
    · rw [show knot ts n d l = 0 from if_pos hl]
    · by_cases hl2 : n ≤ l
      · rw [show knot ts n d l = 1 from by unfold knot; rw [if_neg hl, if_pos hl2]]; norm_num
      · exact (knot_interior_pos h hd (by omega) (by omega)).1.le
  · by_cases hl2 : n ≤ l
    · rw [show knot ts n d l = 1 from by unfold knot; rw [if_neg (by omega), if_pos hl2]]
      by_cases hk2 : n ≤ k
      · rw [show knot ts n d k = 1 from by unfold knot; rw [if_neg hk, if_pos hk2]]
      · exact (knot_interior_pos h hd (by omega) (by omega)).2.le
    · unfold knot
      rw [if_neg hk, if_neg (by omega), if_neg (by omega), if_neg hl2]
      apply div_le_div_of_nonneg_right _ hd0.le
      apply sum_le_sum
      intro j hj
      rw [mem_range] at hj
      exact h.le (by omega) (by omega)

/-- The span is a non-empty knot interval that contains the parameter. -/
theorem span_spec {ts : ℕ → ℚ} {n d : ℕ} (h : Sites ts n) (hd : 1 ≤ d) (hdn : d < n) {u : ℚ}
    (h0 : 0 ≤ u) (h1 : u ≤ 1) :
    d ≤ span (knot ts n d) n d u ∧ span (knot ts n d) n d u < n ∧
    knot ts n d (span (knot ts n d) n d u) ≤ u ∧ u ≤ knot ts n d (span (knot ts n d) n d u + 1) ∧
    knot ts n d (span (knot ts n d) n d u) < knot ts n d (span (knot ts n d) n d u + 1) := by
  have k0 : ∀ k, k ≤ d → knot ts n d k = 0 := fun k hk => if_pos hk
  have k1 : ∀ k, n ≤ k → knot ts n d k = 1 := fun k hk => by
    unfold knot; rw [if_neg (by omega), if_pos hk]
  have kd : 0 < knot ts n d (d + 1) := by
    by_cases hx : d + 1 < n
    · exact (knot_interior_pos h hd (by omega) hx).1
    · rw [k1 _ (by omega)]; norm_num
  unfold span
  by_cases hu : u ≤ knot ts n d 0
  · rw [if_pos hu]
    rw [k0 0 (by omega)] at hu
    have hu0 : u = 0 := le_antisymm hu h0
    subst hu0
    exact ⟨le_rfl, hdn, by rw [k0 d le_rfl], kd.le, by rw [k0 d le_rfl]; exact kd⟩
  · rw [if_neg hu]
    rw [k0 0 (by omega)] at hu
    push Not at hu
    cases hf : (List.range' (d - 1) (n - (d - 1))).find? fun k => decide (u < knot ts n d k) with
    | none =>
      simp only [Option.getD_none]
      rw [List.find?_eq_none] at hf
      have hlast : knot ts n d (n - 1) ≤ u := by
        have := hf (n - 1) (by rw [List.mem_range'_1]; omega)
        simpa using this
      refine ⟨by omega, by omega, hlast, ?_, ?_⟩
      · rw [k1 _ (by omega)]; exact h1
      · rw [k1 (n - 1 + 1) (by omega)]
        by_cases hx : d < n - 1
        · exact (knot_interior_pos h hd hx (by omega)).2
        · rw [k0 _ (by omega)]; norm_num
    | some k =>
      simp only [Option.getD_some]
      rw [List.find?_eq_some_iff_append] at hf
      obtain ⟨hk, as, bs, hab, has⟩ := hf
      have hk' : u < knot ts n d k := by simpa using hk
      have hkmem : k ∈ List.range' (d - 1) (n - (d - 1)) := by rw [hab]; simp
      rw [List.mem_range'_1] at hkmem
      have hkd : d < k := by
        by_contra hx
        rw [k0 k (by omega)] at hk'; linarith
      have hprev : knot ts n d (k - 1) ≤ u := by
        have hmem : k - 1 ∈ as := by
          have hin : k - 1 ∈ List.range' (d - 1) (n - (d - 1)) := by rw [List.mem_range'_1]; omega
          have hsorted : (List.range' (d - 1) (n - (d - 1))).Pairwise (· < ·) := List.pairwise_lt_range'
          rw [hab] at hin hsorted
          rw [List.mem_append, List.mem_cons] at hin
          rcases hin with hin | hin | hin
          · exact hin
          · omega
          · exfalso
            rw [List.pairwise_append, List.pairwise_cons] at hsorted
            have := hsorted.2.1.1 _ hin
            omega
        have := has _ hmem
        simpa using this
      refine ⟨by omega, by omega, hprev, ?_, ?_⟩
      · rw [Nat.sub_add_cancel (by omega)]; exact hk'.le
      · rw [Nat.sub_add_cancel (by omega)]; linarith

/-- Partition of unity for the span that `eval` uses. -/
theorem span_basis_sum {ts : ℕ → ℚ} {n d : ℕ} (h : Sites ts n) (hd : 1 ≤ d) (hdn : d < n) {u : ℚ}
    (h0 : 0 ≤ u) (h1 : u ≤ 1) :
    ∑ r ∈ range (d + 1), basis (knot ts n d) (span (knot ts n d) n d u) u d r = 1 := by
  obtain ⟨a1, a2, a3, a4, a5⟩ := span_spec h hd hdn h0 h1
  apply basis_sum
  intro j r hj hjd hr
  have m1 : knot ts n d (span (knot ts n d) n d u + 1) ≤
      knot ts n d (span (knot ts n d) n d u + (r + 1)) := knot_mono h hd hdn (by omega)
  have m2 : knot ts n d (span (knot ts n d) n d u + 1 - (j - r)) ≤
      knot ts n d (span (knot ts n d) n d u) := knot_mono h hd hdn (by omega)
  intro hx; linarith

/-- constant control points give a constant spline -/
theorem eval_const {ts : ℕ → ℚ} {n d : ℕ} (h : Sites ts n) (hd : 1 ≤ d) (hdn : d < n) {u : ℚ}
    (h0 : 0 ≤ u) (h1 : u ≤ 1) {c : ℕ → ℚ} {x : ℚ} (hc : ∀ k, k < n → c k = x) :
    eval (knot ts n d) n d c u = x := by
  obtain ⟨a1, a2, _⟩ := span_spec h hd hdn h0 h1
  unfold eval
  dsimp only
  rw [sum_congr rfl (g := fun j => basis (knot ts n d) (span (knot ts n d) n d u) u d j * x)]
  · rw [← sum_mul, span_basis_sum h hd hdn h0 h1, one_mul]
  · intro j hj
    rw [mem_range] at hj
    rw [hc _ (by omega)]

theorem knot_one {ts : ℕ → ℚ} {n k : ℕ} (h : Sites ts n) (h1 : 1 ≤ k) (h2 : k ≤ n) :
    knot ts n 1 k = ts (k - 1) := by
  unfold knot
  by_cases hk : k ≤ 1
  · rw [if_pos hk]; have : k = 1 := by omega
    subst this; exact h.zero.symm
  · rw [if_neg hk]
    by_cases hn : n ≤ k
    · rw [if_pos hn]; have : k = n := by omega
      subst this; exact h.one.symm
    · rw [if_neg hn]; simp

/-- Degree 1: the spline is the linear interpolation of neighbouring control points. -/
theorem eval_linear {ts : ℕ → ℚ} {n : ℕ} (h : Sites ts n) {c : ℕ → ℚ} {k : ℕ} (hk : k + 1 < n)
    {u : ℚ} (h0 : ts k ≤ u) (h1 : u ≤ ts (k + 1)) :
    eval (knot ts n 1) n 1 c u =
      (c k * (ts (k + 1) - u) + c (k + 1) * (u - ts k)) / (ts (k + 1) - ts k) := by
  have hu0 : 0 ≤ u := by rw [← h.zero]; exact (h.le (by omega) (by omega)).trans h0
  have hu1 : u ≤ 1 := by rw [← h.one]; exact h1.trans (h.le (by omega) (by omega))
  obtain ⟨a1, a2, a3, a4, a5⟩ := span_spec h le_rfl (by omega) hu0 hu1
  have hlt := h.lt k (k + 1) (by omega) hk
  have ev : ∀ i, span (knot ts n 1) n 1 u = i → 1 ≤ i → i < n → eval (knot ts n 1) n 1 c u =
      (c (i - 1) * (ts i - u) + c i * (u - ts (i - 1))) / (ts i - ts (i - 1)) := by
    intro i hi hi1 hin
    have hlt' := h.lt (i - 1) i (by omega) hin
    unfold eval
    rw [hi]
    simp only [sum_range_succ, sum_range_zero, basis, basisStep]
    rw [knot_one h (k := i + (0 + 1)) (by omega) (by omega),
      knot_one h (k := i + 1 - (1 - 0)) (by omega) (by omega)]
    have e1 : i + (0 + 1) - 1 = i := by omega
    have e2 : i + 1 - (1 - 0) - 1 = i - 1 := by omega
    have e3 : i - 1 + 1 = i := by omega
    have hne : ts i - u + (u - ts (i - 1)) ≠ 0 := by intro hx; linarith
    have hne2 : ts i - ts (i - 1) ≠ 0 := by intro hx; linarith
    simp only [e1, e3, one_ne_zero, if_false, if_true, Nat.sub_self, zero_add,
      lt_irrefl, add_zero, Nat.lt_one_iff, Nat.sub_zero]
    field_simp
    ring
  rw [ev _ rfl a1 a2]
  generalize span (knot ts n 1) n 1 u = i at *
  rw [knot_one h (by omega) (by omega)] at a3
  rw [knot_one h (by omega) (by omega), Nat.add_sub_cancel] at a4
  rw [knot_one h (by omega) (by omega), knot_one h (by omega) (by omega), Nat.add_sub_cancel] at a5
  -- the span is `k + 1`, or `u` is a common end point
  rcases lt_trichotomy i (k + 1) with hi | hi | hi
  · have hi' : u = ts k := le_antisymm (a4.trans (h.le (by omega) (by omega))) h0
    have hik : i = k := by
      by_contra hne
      have := h.lt i k (by omega) (by omega)
      linarith
    subst hik
    rw [hi']
    have hne2 : ts i - ts (i - 1) ≠ 0 := by intro hx; linarith
    have hne3 : ts (i + 1) - ts i ≠ 0 := by intro hx; linarith
    field_simp
    ring
  · subst hi; simp
  · have hi' : u = ts (k + 1) := le_antisymm h1 ((h.le (by omega) (by omega)).trans a3)
    have hik : i = k + 2 := by
      by_contra hne
      have := h.lt (k + 1) (i - 1) (by omega) (by omega)
      linarith
    subst hik
    rw [hi']
    have e : k + 2 - 1 = k + 1 := by omega
    rw [e] at a5 ⊢
    have hne2 : ts (k + 2) - ts (k + 1) ≠ 0 := by intro hx; linarith
    have hne3 : ts (k + 1) - ts k ≠ 0 := by intro hx; linarith
    field_simp
    ring

/-- For degree 1 the control points are the data. -/
theorem solves_one {ts : ℕ → ℚ} {n : ℕ} (h : Sites ts n) {xs c : ℕ → ℚ} :
    Solves ts n 1 xs c ↔ ∀ k, k < n → c k = xs k := by
  have h2 := h.two
  have key : ∀ i, 1 ≤ i → i < n - 1 → eval (knot ts n 1) n 1 c (ts i) = c i := by
    intro i hi hin
    rw [eval_linear h (k := i) (by omega) le_rfl (h.le (by omega) (by omega))]
    have := h.lt i (i + 1) (by omega) (by omega)
    have hne : ts (i + 1) - ts i ≠ 0 := by intro hx; linarith
    field_simp; ring
  constructor
  · rintro ⟨h0, h1, h3⟩ k hk
    by_cases hk0 : k = 0
    · rw [hk0, h0]
    · by_cases hk1 : k = n - 1
      · rw [hk1, h1]
      · rw [← key k (by omega) (by omega)]; exact h3 k (by omega) (by omega)
  · intro hc
    exact ⟨hc 0 (by omega), hc _ (by omega), fun i hi hin => (key i hi hin).trans (hc i (by omega))⟩

end Bspline
end Verif
