import Mathlib.Analysis.Real.Sqrt
import Mathlib.Algebra.BigOperators.Ring.Finset
import Mathlib.Algebra.Order.BigOperators.Ring.Finset
import Mathlib.Algebra.Order.BigOperators.Group.Finset
import Mathlib.Algebra.BigOperators.Field
import Mathlib.Data.List.InsertIdx
import Mathlib.Tactic.LinearCombination
import Mathlib.Tactic.FieldSimp
import Mathlib.Tactic.Linarith

/-!
# Updating a QR factorisation (C79)

Model of `/repo/src/acceleration/impl/QRFactorization.cpp`: `insertColumn`, `deleteColumn`, `orthogonalize`, `computeReflector` and `applyReflector`. Numbers are real numbers. The rows of
the columns of `Q` are distributed over the ranks; the model has all rows (the index type `ι`), because every rank performs the same rotations on its rows and all norms and products are
global. `R` and the coefficients are the same on all ranks. Matrices are functions on indices of which the first `cols` count.
-/

set_option autoImplicit false
set_option linter.unusedSectionVars false

namespace Verif.Accel

open Finset

variable {ι : Type} [Fintype ι]

/-- `utils::IntraComm::dot` -/
def ip (x y : ι → ℝ) : ℝ := ∑ i, x i * y i

/-- `utils::IntraComm::l2norm` -/
noncomputable def l2 (x : ι → ℝ) : ℝ := √(ip x x)

/-- The members `_Q`, `_R`, `_cols` of `QRFactorization`; `Q j` is column `j`, `R i j` row `i` and column `j`. -/
structure QR (ι : Type) where
  Q : ℕ → ι → ℝ
  R : ℕ → ℕ → ℝ
  cols : ℕ

/-- `std::numeric_limits<double>::min()` -/
noncomputable def dblMin : ℝ := 1 / 2 ^ 1022

/-- The numbers `gamma` and `sigma` of `givensRot`, and the new values of `x` and `y`. -/
structure Givens where
  γ : ℝ
  σ : ℝ
  x : ℝ
  y : ℝ

/-- `computeReflector`, QRFactorization.cpp:653-672 -/
noncomputable def reflector (u v : ℝ) : Givens :=
  open Classical in
  if v = 0 then ⟨1, 0, u, v⟩
  else
    let mu := max |u| |v|
    let t := mu * √((u / mu) ^ 2 + (v / mu) ^ 2) * (if u < 0 then -1 else 1)
    ⟨u / t, v / t, t, 0⟩

/-- First entry of `applyReflector`, QRFactorization.cpp:678-693 -/
def reflectFst (g : Givens) (u v : ℝ) : ℝ := u * g.γ + v * g.σ

/-- Second entry of `applyReflector`. -/
noncomputable def reflectSnd (g : Givens) (u v : ℝ) : ℝ := (u * g.γ + v * g.σ + u) * (g.σ / (1 + g.γ)) - v

/-- `applyReflector` to rows `l` and `l + 1` of `R` from column `from` on. -/
noncomputable def reflectRows (g : Givens) (l lo : ℕ) (R : ℕ → ℕ → ℝ) : ℕ → ℕ → ℝ := fun i j =>
  if lo ≤ j then (if i = l then reflectFst g (R l j) (R (l + 1) j) else if i = l + 1 then reflectSnd g (R l j) (R (l + 1) j) else R i j) else R i j

/-- `applyReflector` to columns `l` and `l + 1` of `Q`. -/
noncomputable def reflectCols (g : Givens) (l : ℕ) (Q : ℕ → ι → ℝ) : ℕ → ι → ℝ := fun i =>
  if i = l then fun x => reflectFst g (Q l x) (Q (l + 1) x) else if i = l + 1 then fun x => reflectSnd g (Q l x) (Q (l + 1) x) else Q i

/-- `R(i, j) = x` -/
def setEntry (R : ℕ → ℕ → ℝ) (a b : ℕ) (x : ℝ) : ℕ → ℕ → ℝ := fun i j => if i = a ∧ j = b then x else R i j

/-- The body of the loop of `deleteColumn`, QRFactorization.cpp:211-225 -/
noncomputable def deleteStep (l : ℕ) (q : QR ι) : QR ι :=
  let g := reflector (q.R l (l + 1)) (q.R (l + 1) (l + 1))
  { q with
    R := reflectRows g l (l + 2) (setEntry (setEntry q.R l (l + 1) g.x) (l + 1) (l + 1) g.y)
    Q := reflectCols g l q.Q }

/-- The loop over `n` columns from `l` on. -/
noncomputable def deleteLoop : ℕ → ℕ → QR ι → QR ι
  | 0, _, q => q
  | n + 1, l, q => deleteLoop n (l + 1) (deleteStep l q)

/-- `deleteColumn`, QRFactorization.cpp:200-239; the caller guarantees `k < cols`. -/
noncomputable def QR.deleteColumn (q : QR ι) (k : ℕ) : QR ι :=
  let q := deleteLoop (q.cols - 1 - k) k q
  { q with
    R := fun i j => if k ≤ j ∧ i ≤ j then q.R i (j + 1) else q.R i j
    cols := q.cols - 1 }

/-- One pass of Gram-Schmidt: the coefficients and what is left, QRFactorization.cpp:373-397 -/
def QR.project (q : QR ι) (m : ℕ) (v : ι → ℝ) : ι → ℝ := fun x => v x - ∑ j ∈ range m, ip (q.Q j) v * q.Q j x

/-- The loop of `orthogonalize`, QRFactorization.cpp:371-446, with the default parameters `omega = 0` and `theta = 1 / 0.7`: `k` passes are done, `ρ₀` is the norm of the last pass. Gives
the normalised rest, the coefficients and `rho`, or nothing after four passes (`return -1`). -/
noncomputable def QR.orthogonalizeFrom (q : QR ι) (m : ℕ) : ℕ → (ι → ℝ) → (ℕ → ℝ) → ℝ → Option ((ι → ℝ) × (ℕ → ℝ) × ℝ)
  | 0, _, _, _ => none
  | fuel + 1, v, r, ρ₀ =>
    open Classical in
    let s := fun j => ip (q.Q j) v
    let r := fun j => if j < m then r j + s j else r j
    let v := q.project m v
    let ρ₁ := l2 v
    if Fintype.card ι = m then some (fun _ => 0, r, 0)
    else if ρ₁ ≤ dblMin then some (v, fun j => if j = m then 0 else r j, 0)
    else if ρ₁ * (1 / (7 / 10)) ≤ ρ₀ then q.orthogonalizeFrom m fuel v r ρ₁
    else some (fun x => v x / ρ₁, fun j => if j = m then ρ₁ else r j, ρ₁)

/-- `orthogonalize`, QRFactorization.cpp:350-452. In the case of a zero rest (`null`) the pass ends the loop in any case (a fourth pass cannot be needed, see `orthogonalize_spec`). -/
noncomputable def QR.orthogonalize (q : QR ι) (m : ℕ) (v : ι → ℝ) : Option ((ι → ℝ) × (ℕ → ℝ) × ℝ) := q.orthogonalizeFrom m 4 v (fun _ => 0) (l2 v)

/-- The state of the loop of `insertColumn`: factors and coefficients `u`. -/
structure InsertState (ι : Type) where
  Q : ℕ → ι → ℝ
  R : ℕ → ℕ → ℝ
  u : ℕ → ℝ

/-- The body of the loop of `insertColumn`, QRFactorization.cpp:316-331 -/
noncomputable def insertStep (l : ℕ) (s : InsertState ι) : InsertState ι :=
  let g := reflector (s.u l) (s.u (l + 1))
  { u := fun i => if i = l then g.x else if i = l + 1 then g.y else s.u i
    R := reflectRows g l (l + 1) s.R
    Q := reflectCols g l s.Q }

/-- The loop from `k + n - 1` down to `k`. -/
noncomputable def insertLoop (k : ℕ) : ℕ → InsertState ι → InsertState ι
  | 0, s => s
  | n + 1, s => insertLoop k n (insertStep (k + n) s)

/-- `R` with a zero row and column added, QRFactorization.cpp:291-294 -/
def addRowCol (m : ℕ) (R : ℕ → ℕ → ℝ) : ℕ → ℕ → ℝ := fun i j => if i = m ∨ j = m then 0 else R i j

/-- Shift the columns from `k` on to the right and set the diagonal to zero, QRFactorization.cpp:296-304 -/
def shiftCols (m k : ℕ) (R : ℕ → ℕ → ℝ) : ℕ → ℕ → ℝ := fun i j =>
  if k < j ∧ j ≤ m then (if i < j then R i (j - 1) else if i = j then 0 else R i j) else R i j

/-- `insertColumn`, QRFactorization.cpp:242-337; `none` stands for `return false`, which leaves the factors unchanged. The caller guarantees `k ≤ cols`. -/
noncomputable def QR.insertColumn (q : QR ι) (k : ℕ) (v : ι → ℝ) (singularityLimit : ℝ) : Option (QR ι) :=
  open Classical in
  match q.orthogonalize q.cols v with
  | none => none
  | some (w, u, ρ) =>
    if ρ ≤ dblMin then none
    else if singularityLimit > 0 ∧ l2 v * singularityLimit > ρ then none
    else
      let s := insertLoop k (q.cols - k)
        { Q := fun j => if j = q.cols then w else q.Q j
          R := shiftCols q.cols k (addRowCol q.cols q.R)
          u := u }
      some { Q := s.Q, R := fun i j => if j = k ∧ i ≤ k then s.u i else s.R i j, cols := q.cols + 1 }

/-! ## Specification -/

/-- The factors describe the matrix with columns `A`: their product is `A`, the columns of `Q` are orthonormal, and `R` is upper triangular. -/
structure Factorizes (q : QR ι) (A : List (ι → ℝ)) : Prop where
  length : A.length = q.cols
  product : ∀ j (h : j < A.length), ∀ x, ∑ i ∈ range q.cols, q.R i j * q.Q i x = A[j] x
  orthonormal : ∀ i < q.cols, ∀ j < q.cols, ip (q.Q i) (q.Q j) = if i = j then 1 else 0
  upper : ∀ i < q.cols, ∀ j < i, q.R i j = 0

/-! ## Reflections -/

/-- The pair of numbers is on the right half of the unit circle, and the vector is turned to the first axis. -/
structure IsReflector (g : Givens) (u v : ℝ) : Prop where
  circle : g.γ ^ 2 + g.σ ^ 2 = 1
  nonneg : 0 ≤ g.γ
  fst : reflectFst g u v = g.x
  snd : u * g.σ - v * g.γ = 0
  y : g.y = 0

theorem reflector_spec (u v : ℝ) : IsReflector (reflector u v) u v := by
  unfold reflector
  split
  · next h => subst h; exact ⟨by norm_num, by norm_num, by simp [reflectFst], by simp, rfl⟩
  · next h =>
    have hmu : 0 < max |u| |v| := lt_of_lt_of_le (abs_pos.2 h) (le_max_right _ _)
    set mu := max |u| |v| with hmudef
    have hs : 0 < u ^ 2 + v ^ 2 := by positivity
    have ht : mu * √((u / mu) ^ 2 + (v / mu) ^ 2) = √(u ^ 2 + v ^ 2) := by
      have : (u / mu) ^ 2 + (v / mu) ^ 2 = (u ^ 2 + v ^ 2) / mu ^ 2 := by field_simp
      rw [this, Real.sqrt_div hs.le, Real.sqrt_sq hmu.le]
      field_simp
    simp only [ht]
    have hr : 0 < √(u ^ 2 + v ^ 2) := Real.sqrt_pos.2 hs
    have hr2 : √(u ^ 2 + v ^ 2) ^ 2 = u ^ 2 + v ^ 2 := Real.sq_sqrt hs.le
    set r := √(u ^ 2 + v ^ 2)
    set sg : ℝ := if u < 0 then -1 else 1 with hsg
    have hsg2 : sg ^ 2 = 1 := by rw [hsg]; split <;> norm_num
    have hsg0 : sg ≠ 0 := by intro h0; rw [h0] at hsg2; norm_num at hsg2
    have hrs : (r * sg) ^ 2 = u ^ 2 + v ^ 2 := by rw [mul_pow, hsg2, mul_one, hr2]
    have hrs0 : r * sg ≠ 0 := mul_ne_zero hr.ne' hsg0
    refine ⟨?_, ?_, ?_, ?_, rfl⟩
    · simp only
      rw [div_pow, div_pow, ← add_div, hrs, div_self hs.ne']
    · simp only
      by_cases hu : u < 0
      · rw [hsg, if_pos hu, mul_neg_one, div_neg, ← neg_div]
        exact div_nonneg (by linarith) hr.le
      · rw [hsg, if_neg hu, mul_one]
        exact div_nonneg (by linarith) hr.le
    · simp only [reflectFst]
      rw [mul_div_assoc', mul_div_assoc', ← add_div, div_eq_iff hrs0, ← pow_two, ← pow_two, ← pow_two, hrs]
    · simp only
      ring

theorem reflectSnd_eq {g : Givens} (h1 : g.γ ^ 2 + g.σ ^ 2 = 1) (h2 : 0 ≤ g.γ) (u v : ℝ) : reflectSnd g u v = u * g.σ - v * g.γ := by
  unfold reflectSnd
  have : (1 + g.γ) ≠ 0 := by positivity
  field_simp
  linear_combination v * h1

/-- A reflection of both factors does not change their product. -/
theorem reflect_product {g : Givens} (h1 : g.γ ^ 2 + g.σ ^ 2 = 1) (h2 : 0 ≤ g.γ) (a b c d : ℝ) :
    reflectFst g a b * reflectFst g c d + reflectSnd g a b * reflectSnd g c d = a * c + b * d := by
  rw [reflectSnd_eq h1 h2, reflectSnd_eq h1 h2]
  unfold reflectFst
  linear_combination (a * c + b * d) * h1

/-- Two sums that differ only in the terms `l` and `l + 1`. -/
theorem sum_pair {M : Type} [AddCommGroup M] {m l : ℕ} (hl : l + 1 < m) {f g : ℕ → M} (h : ∀ i, i ≠ l → i ≠ l + 1 → f i = g i) (h' : f l + f (l + 1) = g l + g (l + 1)) :
    ∑ i ∈ range m, f i = ∑ i ∈ range m, g i := by
  have hs : ∀ F : ℕ → M, ∑ i ∈ range m, F i = (F l + F (l + 1)) + ∑ i ∈ (range m \ {l, l + 1}), F i := by
    intro F
    have hsub : ({l, l + 1} : Finset ℕ) ⊆ range m := by
      intro x hx
      simp only [mem_insert, mem_singleton] at hx
      rw [mem_range]
      omega
    rw [← Finset.sum_sdiff hsub, add_comm, Finset.sum_pair (by omega)]
  rw [hs f, hs g, h']
  congr 1
  refine Finset.sum_congr rfl fun i hi => ?_
  simp only [mem_sdiff, mem_insert, mem_singleton, not_or] at hi
  exact h i hi.2.1 hi.2.2

/-- Reflecting the columns keeps them orthonormal. -/
theorem reflectCols_orthonormal {g : Givens} (h1 : g.γ ^ 2 + g.σ ^ 2 = 1) (h2 : 0 ≤ g.γ) {Q : ℕ → ι → ℝ} {m l : ℕ} (hl : l + 1 < m)
    (h : ∀ i < m, ∀ j < m, ip (Q i) (Q j) = if i = j then 1 else 0) :
    ∀ i < m, ∀ j < m, ip (reflectCols g l Q i) (reflectCols g l Q j) = if i = j then 1 else 0 := by
  have hll := h l (by omega) l (by omega)
  have hlk := h l (by omega) (l + 1) (by omega)
  have hkl := h (l + 1) (by omega) l (by omega)
  have hkk := h (l + 1) (by omega) (l + 1) (by omega)
  rw [if_pos rfl] at hll hkk
  rw [if_neg (by omega)] at hlk hkl
  have e1 : reflectCols g l Q l = fun x => Q l x * g.γ + Q (l + 1) x * g.σ := by
    unfold reflectCols; rw [if_pos rfl]; rfl
  have e2 : reflectCols g l Q (l + 1) = fun x => Q l x * g.σ - Q (l + 1) x * g.γ := by
    unfold reflectCols
    rw [if_neg (by omega), if_pos rfl]
    funext x
    exact reflectSnd_eq h1 h2 _ _
  have e3 : ∀ i, i ≠ l → i ≠ l + 1 → reflectCols g l Q i = Q i := by
    intro i hi hi'
    unfold reflectCols
    rw [if_neg hi, if_neg hi']
  have lin : ∀ (a b : ℝ) (x y z : ι → ℝ), ip (fun i => x i * a + y i * b) z = ip x z * a + ip y z * b := by
    intro a b x y z
    unfold ip
    rw [Finset.sum_mul, Finset.sum_mul, ← Finset.sum_add_distrib]
    refine Finset.sum_congr rfl fun i _ => ?_
    ring
  have comm : ∀ x y : ι → ℝ, ip x y = ip y x := fun x y => Finset.sum_congr rfl fun i _ => mul_comm _ _
  have e2' : reflectCols g l Q (l + 1) = fun x => Q l x * g.σ + Q (l + 1) x * (-g.γ) := by
    rw [e2]; funext x; ring
  have key : ∀ z, ip (reflectCols g l Q l) z = ip (Q l) z * g.γ + ip (Q (l + 1)) z * g.σ := fun z => by rw [e1, lin]
  have key2 : ∀ z, ip (reflectCols g l Q (l + 1)) z = ip (Q l) z * g.σ + ip (Q (l + 1)) z * (-g.γ) := fun z => by rw [e2', lin]
  intro i hi j hj
  by_cases hil : i = l
  · subst hil
    rw [key]
    by_cases hjl : j = i
    · subst hjl
      rw [comm (Q j) _, comm (Q (j + 1)) _, key, key, hll, hkl, hlk, hkk, if_pos rfl]
      linear_combination h1
    · by_cases hjk : j = i + 1
      · subst hjk
        rw [comm (Q i) _, comm (Q (i + 1)) _, key2, key2, hll, hkl, hlk, hkk, if_neg (by omega)]
        ring
      · rw [e3 j hjl hjk, h i hi j hj, h (i + 1) hl j hj, if_neg (by omega), if_neg (by omega)]
        ring
  · by_cases hik : i = l + 1
    · subst hik
      rw [key2]
      by_cases hjl : j = l
      · subst hjl
        rw [comm (Q j) _, comm (Q (j + 1)) _, key, key, hll, hkl, hlk, hkk, if_neg (by omega)]
        ring
      · by_cases hjk : j = l + 1
        · subst hjk
          rw [comm (Q l) _, comm (Q (l + 1)) _, key2, key2, hll, hkl, hlk, hkk, if_pos rfl]
          linear_combination h1
        · rw [e3 j hjl hjk, h l (by omega) j hj, h (l + 1) hi j hj, if_neg (by omega), if_neg (by omega)]
          ring
    · rw [e3 i hil hik]
      by_cases hjl : j = l
      · subst hjl
        rw [comm, key, comm, h i hi j hj, comm, h i hi (j + 1) hl, if_neg hil, if_neg hik]
        ring
      · by_cases hjk : j = l + 1
        · subst hjk
          rw [comm, key2, comm, h i hi l (by omega), comm, h i hi (l + 1) hl, if_neg hil, if_neg hik]
          ring
        · rw [e3 j hjl hjk]
          exact h i hi j hj

theorem reflectRows_lt {g : Givens} {l lo j : ℕ} (h : j < lo) (R : ℕ → ℕ → ℝ) (i : ℕ) : reflectRows g l lo R i j = R i j := by
  unfold reflectRows
  rw [if_neg (by omega)]

theorem reflectRows_fst {g : Givens} {l lo j : ℕ} (h : lo ≤ j) (R : ℕ → ℕ → ℝ) : reflectRows g l lo R l j = reflectFst g (R l j) (R (l + 1) j) := by
  unfold reflectRows
  rw [if_pos h, if_pos rfl]

theorem reflectRows_snd {g : Givens} {l lo j : ℕ} (h : lo ≤ j) (R : ℕ → ℕ → ℝ) : reflectRows g l lo R (l + 1) j = reflectSnd g (R l j) (R (l + 1) j) := by
  unfold reflectRows
  rw [if_pos h, if_neg (by omega), if_pos rfl]

theorem reflectRows_other {g : Givens} {l lo i : ℕ} (h1 : i ≠ l) (h2 : i ≠ l + 1) (R : ℕ → ℕ → ℝ) (j : ℕ) : reflectRows g l lo R i j = R i j := by
  unfold reflectRows
  rw [if_neg h1, if_neg h2, ite_self]

theorem reflectCols_fst (g : Givens) (l : ℕ) (Q : ℕ → ι → ℝ) : reflectCols g l Q l = fun x => reflectFst g (Q l x) (Q (l + 1) x) := by
  unfold reflectCols
  rw [if_pos rfl]

theorem reflectCols_snd (g : Givens) (l : ℕ) (Q : ℕ → ι → ℝ) : reflectCols g l Q (l + 1) = fun x => reflectSnd g (Q l x) (Q (l + 1) x) := by
  unfold reflectCols
  rw [if_neg (by omega), if_pos rfl]

theorem reflectCols_other {g : Givens} {l i : ℕ} (h1 : i ≠ l) (h2 : i ≠ l + 1) (Q : ℕ → ι → ℝ) : reflectCols g l Q i = Q i := by
  unfold reflectCols
  rw [if_neg h1, if_neg h2]

theorem setEntry_same (R : ℕ → ℕ → ℝ) (a b : ℕ) (x : ℝ) : setEntry R a b x a b = x := by
  unfold setEntry
  rw [if_pos ⟨rfl, rfl⟩]

theorem setEntry_ne {R : ℕ → ℕ → ℝ} {a b i j : ℕ} {x : ℝ} (h : ¬ (i = a ∧ j = b)) : setEntry R a b x i j = R i j := by
  unfold setEntry
  rw [if_neg h]

/-! ## Deleting a column -/

/-- The invariant of the loop of `deleteColumn` before step `l`: all columns except `k` are still products, and columns `k < j ≤ l` have no diagonal entry. -/
structure DeleteInv (q₀ q : QR ι) (k l : ℕ) : Prop where
  cols : q.cols = q₀.cols
  product : ∀ j < q.cols, j ≠ k → ∀ x, ∑ i ∈ range q.cols, q.R i j * q.Q i x = ∑ i ∈ range q.cols, q₀.R i j * q₀.Q i x
  orthonormal : ∀ i < q.cols, ∀ j < q.cols, ip (q.Q i) (q.Q j) = if i = j then 1 else 0
  upper : ∀ i < q.cols, ∀ j < i, q.R i j = 0
  diagonal : ∀ j, k < j → j ≤ l → q.R j j = 0

theorem deleteStep_inv {q₀ q : QR ι} {k l : ℕ} (hkl : k ≤ l) (hl : l + 1 < q.cols) (h : DeleteInv q₀ q k l) : DeleteInv q₀ (deleteStep l q) k (l + 1) := by
  have hg := reflector_spec (q.R l (l + 1)) (q.R (l + 1) (l + 1))
  set g := reflector (q.R l (l + 1)) (q.R (l + 1) (l + 1)) with hgdef
  have hsnd := reflectSnd_eq hg.circle hg.nonneg
  have hdef : ∀ i j, (deleteStep l q).R i j = reflectRows g l (l + 2) (setEntry (setEntry q.R l (l + 1) g.x) (l + 1) (l + 1) g.y) i j := fun _ _ => rfl
  -- on all columns but `k` the new rows are the reflected ones
  have hR : ∀ j, j ≠ k → (deleteStep l q).R l j = reflectFst g (q.R l j) (q.R (l + 1) j) ∧ (deleteStep l q).R (l + 1) j = reflectSnd g (q.R l j) (q.R (l + 1) j) := by
    intro j hjk
    rw [hdef, hdef]
    rcases Nat.lt_trichotomy j (l + 1) with hj | hj | hj
    · have z1 : q.R (l + 1) j = 0 := h.upper (l + 1) hl j (by omega)
      have z2 : q.R l j = 0 := by
        rcases Nat.lt_or_ge j l with hj' | hj'
        · exact h.upper l (by omega) j hj'
        · have : j = l := by omega
          subst this
          exact h.diagonal j (by omega) le_rfl
      rw [reflectRows_lt (by omega), reflectRows_lt (by omega), setEntry_ne (by omega), setEntry_ne (by omega), setEntry_ne (by omega), setEntry_ne (by omega), z1, z2, hsnd]
      simp [reflectFst]
    · subst hj
      rw [reflectRows_lt (by omega), reflectRows_lt (by omega), setEntry_ne (by omega), setEntry_same, setEntry_same]
      exact ⟨hg.fst.symm, by rw [hsnd, hg.snd, hg.y]⟩
    · rw [reflectRows_fst (by omega), reflectRows_snd (by omega), setEntry_ne (by omega), setEntry_ne (by omega), setEntry_ne (by omega), setEntry_ne (by omega)]
      exact ⟨rfl, rfl⟩
  have hR' : ∀ i j, i ≠ l → i ≠ l + 1 → (deleteStep l q).R i j = q.R i j := by
    intro i j h1 h2
    rw [hdef, reflectRows_other h1 h2, setEntry_ne (by omega), setEntry_ne (by omega)]
  have hQ1 : (deleteStep l q).Q l = fun x => reflectFst g (q.Q l x) (q.Q (l + 1) x) := reflectCols_fst g l q.Q
  have hQ2 : (deleteStep l q).Q (l + 1) = fun x => reflectSnd g (q.Q l x) (q.Q (l + 1) x) := reflectCols_snd g l q.Q
  have hQ' : ∀ i, i ≠ l → i ≠ l + 1 → (deleteStep l q).Q i = q.Q i := fun i h1 h2 => reflectCols_other h1 h2 q.Q
  have hcols : (deleteStep l q).cols = q.cols := rfl
  refine ⟨h.cols, fun j hj hjk x => ?_, ?_, fun i hi j hji => ?_, fun j hj1 hj2 => ?_⟩
  · rw [hcols] at hj ⊢
    rw [← h.product j hj hjk x]
    refine sum_pair hl (fun i h1 h2 => by rw [hR' i j h1 h2, hQ' i h1 h2]) ?_
    rw [(hR j hjk).1, (hR j hjk).2, hQ1, hQ2]
    exact reflect_product hg.circle hg.nonneg _ _ _ _
  · exact reflectCols_orthonormal hg.circle hg.nonneg hl h.orthonormal
  · rw [hcols] at hi
    by_cases h1 : i = l
    · subst h1
      rw [hdef, reflectRows_lt (by omega), setEntry_ne (by omega), setEntry_ne (by omega)]
      exact h.upper i hi j hji
    · by_cases h2 : i = l + 1
      · subst h2
        rw [hdef, reflectRows_lt (by omega), setEntry_ne (by omega), setEntry_ne (by omega)]
        exact h.upper (l + 1) hi j hji
      · rw [hR' i j h1 h2]
        exact h.upper i hi j hji
  · by_cases h2 : j = l + 1
    · subst h2
      rw [(hR (l + 1) (by omega)).2, hsnd, hg.snd]
    · by_cases h1 : j = l
      · subst h1
        rw [(hR j (by omega)).1, h.diagonal j hj1 le_rfl, h.upper (j + 1) hl j (by omega)]
        simp [reflectFst]
      · rw [hR' j j h1 h2]
        exact h.diagonal j hj1 (by omega)

theorem deleteLoop_inv {q₀ : QR ι} {k : ℕ} : ∀ (n l : ℕ) (q : QR ι), k ≤ l → l + n + 1 ≤ q.cols → DeleteInv q₀ q k l → DeleteInv q₀ (deleteLoop n l q) k (l + n)
  | 0, l, q, _, _, h => h
  | n + 1, l, q, h1, h2, h => by
    have := deleteLoop_inv n (l + 1) (deleteStep l q) (by omega) (show l + 1 + n + 1 ≤ q.cols by omega) (deleteStep_inv h1 (by omega) h)
    rw [show l + (n + 1) = l + 1 + n by omega]
    exact this

/-- C79: deleting column `k` gives a factorisation of the matrix without that column. -/
theorem C79_delete {q : QR ι} {A : List (ι → ℝ)} (h : Factorizes q A) {k : ℕ} (hk : k < q.cols) : Factorizes (q.deleteColumn k) (A.eraseIdx k) := by
  have inv : DeleteInv q (deleteLoop (q.cols - 1 - k) k q) k (k + (q.cols - 1 - k)) :=
    deleteLoop_inv _ _ _ le_rfl (by omega) ⟨rfl, fun _ _ _ _ => rfl, h.orthonormal, h.upper, fun j h1 h2 => by omega⟩
  rw [show k + (q.cols - 1 - k) = q.cols - 1 by omega] at inv
  set q' := deleteLoop (q.cols - 1 - k) k q with hq'
  have hc : (q.deleteColumn k).cols = q.cols - 1 := by
    change q'.cols - 1 = _
    rw [inv.cols]
  have hR : ∀ i j, (q.deleteColumn k).R i j = if k ≤ j ∧ i ≤ j then q'.R i (j + 1) else q'.R i j := fun i j => rfl
  have hQ : (q.deleteColumn k).Q = q'.Q := rfl
  have hcols := inv.cols
  have hlen : (A.eraseIdx k).length = q.cols - 1 := by
    rw [List.length_eraseIdx, h.length, if_pos hk]
  refine ⟨by rw [hlen, hc], fun j hj x => ?_, fun i hi j hj => ?_, fun i hi j hji => ?_⟩
  · rw [hlen] at hj
    rw [List.getElem_eraseIdx, hc, hQ]
    -- the last row of the remaining columns vanishes
    have hlast : ∀ j', j' < q.cols → j' ≠ k → q'.R (q.cols - 1) j' = 0 := by
      intro j' hj' hk'
      by_cases hl : j' = q.cols - 1
      · rw [hl]
        exact inv.diagonal _ (by omega) le_rfl
      · exact inv.upper _ (by omega) _ (by omega)
    have hsum : ∀ j', (hj' : j' < q.cols) → j' ≠ k → ∑ i ∈ range (q.cols - 1), q'.R i j' * q'.Q i x = (A[j']'(by rw [h.length]; exact hj')) x := by
      intro j' hj' hk'
      have hp := inv.product j' (by omega) hk' x
      rw [inv.cols] at hp
      rw [h.product j' (by rw [h.length]; exact hj') x] at hp
      rw [← hp]
      have hs : range q.cols = range ((q.cols - 1) + 1) := by congr 1; omega
      rw [hs, Finset.sum_range_succ, hlast j' hj' hk', zero_mul, add_zero]
    split
    · next hlt =>
      rw [← hsum j (by omega) (by omega)]
      refine Finset.sum_congr rfl fun i _ => ?_
      rw [hR, if_neg (by omega)]
    · next hge =>
      rw [← hsum (j + 1) (by omega) (by omega)]
      refine Finset.sum_congr rfl fun i hi => ?_
      rw [mem_range] at hi
      rw [hR]
      split
      · rfl
      · next hni =>
        have hij : j < i := by omega
        rw [inv.upper i (by omega) j hij]
        by_cases hij' : i = j + 1
        · subst hij'
          rw [inv.diagonal (j + 1) (by omega) (by omega)]
        · rw [inv.upper i (by omega) (j + 1) (by omega)]
  · rw [hc] at hi hj
    rw [hQ]
    exact inv.orthonormal i (by omega) j (by omega)
  · rw [hc] at hi
    rw [hR, if_neg (by omega)]
    exact inv.upper i (by omega) j hji

/-! ## Gram-Schmidt -/

theorem ip_comm (x y : ι → ℝ) : ip x y = ip y x := Finset.sum_congr rfl fun _ _ => mul_comm _ _

theorem ip_project {q : QR ι} {m : ℕ} (h : ∀ i < m, ∀ j < m, ip (q.Q i) (q.Q j) = if i = j then 1 else 0) (v : ι → ℝ) {i : ℕ} (hi : i < m) : ip (q.Q i) (q.project m v) = 0 := by
  unfold QR.project
  have : ip (q.Q i) (fun x => v x - ∑ j ∈ range m, ip (q.Q j) v * q.Q j x) = ip (q.Q i) v - ∑ j ∈ range m, ip (q.Q j) v * ip (q.Q i) (q.Q j) := by
    conv_lhs => unfold ip
    simp only [mul_sub, Finset.sum_sub_distrib, Finset.mul_sum]
    congr 1
    rw [Finset.sum_comm]
    refine Finset.sum_congr rfl fun j _ => ?_
    rw [show ip (q.Q i) (q.Q j) = ∑ x, q.Q i x * q.Q j x from rfl, Finset.mul_sum]
    refine Finset.sum_congr rfl fun x _ => ?_
    change q.Q i x * (ip (q.Q j) v * q.Q j x) = _
    ring
  rw [this, Finset.sum_eq_single i]
  · rw [h i hi i hi, if_pos rfl, mul_one, sub_self]
  · intro j hj hji
    rw [h i hi j (mem_range.1 hj), if_neg (Ne.symm hji), mul_zero]
  · intro hn
    exact absurd (mem_range.2 hi) hn

theorem project_project {q : QR ι} {m : ℕ} (h : ∀ i < m, ∀ j < m, ip (q.Q i) (q.Q j) = if i = j then 1 else 0) (v : ι → ℝ) : q.project m (q.project m v) = q.project m v := by
  funext x
  conv_lhs => unfold QR.project
  have : ∑ j ∈ range m, ip (q.Q j) (q.project m v) * q.Q j x = 0 := by
    refine Finset.sum_eq_zero fun j hj => ?_
    rw [ip_project h v (mem_range.1 hj), zero_mul]
  rw [show (∑ j ∈ range m, ip (q.Q j) (fun x => v x - ∑ j ∈ range m, ip (q.Q j) v * q.Q j x) * q.Q j x) = 0 from this, sub_zero]
  rfl

theorem dblMin_pos : 0 < dblMin := by unfold dblMin; positivity

/-- With orthonormal columns at most two passes are needed. -/
theorem orthogonalize_spec {q : QR ι} {m : ℕ} (h : ∀ i < m, ∀ j < m, ip (q.Q i) (q.Q j) = if i = j then 1 else 0) (v : ι → ℝ) :
    (Fintype.card ι = m ∨ l2 (q.project m v) ≤ dblMin → ∃ w r, q.orthogonalize m v = some (w, r, 0)) ∧
    (Fintype.card ι ≠ m → dblMin < l2 (q.project m v) →
      ∃ r, q.orthogonalize m v = some (fun x => q.project m v x / l2 (q.project m v), r, l2 (q.project m v)) ∧ (∀ j < m, r j = ip (q.Q j) v) ∧ r m = l2 (q.project m v)) := by
  unfold QR.orthogonalize
  constructor
  · intro hc
    rw [QR.orthogonalizeFrom]
    simp only
    split
    · exact ⟨_, _, rfl⟩
    · next hn =>
      rw [if_pos (hc.resolve_left hn)]
      exact ⟨_, _, rfl⟩
  · intro hc hl
    rw [QR.orthogonalizeFrom]
    simp only
    rw [if_neg hc, if_neg (not_le.2 hl)]
    split
    · rw [QR.orthogonalizeFrom]
      simp only
      rw [project_project h, if_neg hc, if_neg (not_le.2 hl), if_neg]
      · refine ⟨_, rfl, fun j hj => ?_, by rw [if_pos rfl]⟩
        rw [if_neg (by omega), if_pos hj, if_pos hj, ip_project h v hj, zero_add, add_zero]
      · have := dblMin_pos.trans hl
        rw [not_le]
        have : (1 : ℝ) < 1 / (7 / 10) := by norm_num
        nlinarith
    · refine ⟨_, rfl, fun j hj => ?_, by rw [if_pos rfl]⟩
      rw [if_neg (by omega), if_pos hj, zero_add]

/-! ## Inserting a column -/

/-- The invariant of the loop of `insertColumn` before the step `k + n - 1`. -/
structure InsertInv (s : InsertState ι) (B : ℕ → ι → ℝ) (v : ι → ℝ) (m k n : ℕ) : Prop where
  product : ∀ j ≤ m, j ≠ k → ∀ x, ∑ i ∈ range (m + 1), s.R i j * s.Q i x = B j x
  column : ∀ x, ∑ i ∈ range (m + 1), s.u i * s.Q i x = v x
  orthonormal : ∀ i < m + 1, ∀ j < m + 1, ip (s.Q i) (s.Q j) = if i = j then 1 else 0
  upper : ∀ i < m + 1, ∀ j < i, s.R i j = 0
  diagonal : ∀ j, k < j → j ≤ k + n → s.R j j = 0
  zero : ∀ i, k + n < i → i ≤ m → s.u i = 0

theorem insertStep_inv {s : InsertState ι} {B : ℕ → ι → ℝ} {v : ι → ℝ} {m k n : ℕ} (hn : k + n + 1 ≤ m) (h : InsertInv s B v m k (n + 1)) : InsertInv (insertStep (k + n) s) B v m k n := by
  have hg := reflector_spec (s.u (k + n)) (s.u (k + n + 1))
  set l := k + n with hl
  set g := reflector (s.u l) (s.u (l + 1)) with hgdef
  have hsnd := reflectSnd_eq hg.circle hg.nonneg
  have hdef : ∀ i j, (insertStep l s).R i j = reflectRows g l (l + 1) s.R i j := fun _ _ => rfl
  have hR : ∀ j, j ≠ k → (insertStep l s).R l j = reflectFst g (s.R l j) (s.R (l + 1) j) ∧ (insertStep l s).R (l + 1) j = reflectSnd g (s.R l j) (s.R (l + 1) j) := by
    intro j hjk
    rw [hdef, hdef]
    rcases Nat.lt_or_ge j (l + 1) with hj | hj
    · have z1 : s.R (l + 1) j = 0 := h.upper (l + 1) (by omega) j (by omega)
      have z2 : s.R l j = 0 := by
        rcases Nat.lt_or_ge j l with hj' | hj'
        · exact h.upper l (by omega) j hj'
        · have : j = l := by omega
          rw [this]
          exact h.diagonal l (by omega) (by omega)
      rw [reflectRows_lt (by omega), reflectRows_lt (by omega), z1, z2, hsnd]
      simp [reflectFst]
    · rw [reflectRows_fst hj, reflectRows_snd hj]
      exact ⟨rfl, rfl⟩
  have hQ1 : (insertStep l s).Q l = fun x => reflectFst g (s.Q l x) (s.Q (l + 1) x) := reflectCols_fst g l s.Q
  have hQ2 : (insertStep l s).Q (l + 1) = fun x => reflectSnd g (s.Q l x) (s.Q (l + 1) x) := reflectCols_snd g l s.Q
  have hQ' : ∀ i, i ≠ l → i ≠ l + 1 → (insertStep l s).Q i = s.Q i := fun i h1 h2 => reflectCols_other h1 h2 s.Q
  have hu : ∀ i, (insertStep l s).u i = if i = l then g.x else if i = l + 1 then g.y else s.u i := fun _ => rfl
  refine ⟨fun j hj hjk x => ?_, fun x => ?_, ?_, fun i hi j hji => ?_, fun j hj1 hj2 => ?_, fun i hi1 hi2 => ?_⟩
  · rw [← h.product j hj hjk x]
    refine sum_pair (l := l) (by omega) (fun i h1 h2 => by rw [hdef, reflectRows_other h1 h2, hQ' i h1 h2]) ?_
    rw [(hR j hjk).1, (hR j hjk).2, hQ1, hQ2]
    exact reflect_product hg.circle hg.nonneg _ _ _ _
  · rw [← h.column x]
    refine sum_pair (l := l) (by omega) (fun i h1 h2 => by rw [hu, if_neg h1, if_neg h2, hQ' i h1 h2]) ?_
    rw [hu, hu, if_pos rfl, if_neg (by omega), if_pos rfl, hQ1, hQ2, ← hg.fst, show g.y = reflectSnd g (s.u l) (s.u (l + 1)) by rw [hsnd, hg.snd, hg.y]]
    exact reflect_product hg.circle hg.nonneg _ _ _ _
  · exact reflectCols_orthonormal hg.circle hg.nonneg (by omega) h.orthonormal
  · rw [hdef]
    by_cases h1 : i = l
    · rw [h1] at hji ⊢
      rw [reflectRows_lt (by omega)]
      exact h.upper l (by omega) j hji
    · by_cases h2 : i = l + 1
      · rw [h2] at hji ⊢
        rw [reflectRows_lt (by omega)]
        exact h.upper (l + 1) (by omega) j hji
      · rw [reflectRows_other h1 h2]
        exact h.upper i hi j hji
  · rw [hdef, reflectRows_lt (by omega)]
    exact h.diagonal j hj1 (by omega)
  · rw [hu, if_neg (by omega)]
    split
    · exact hg.y
    · exact h.zero i (by omega) hi2

theorem insertLoop_inv {B : ℕ → ι → ℝ} {v : ι → ℝ} {m k : ℕ} : ∀ (n : ℕ) (s : InsertState ι), k + n ≤ m → InsertInv s B v m k n → InsertInv (insertLoop k n s) B v m k 0
  | 0, _, _, h => h
  | n + 1, _, hn, h => insertLoop_inv n _ (by omega) (insertStep_inv (by omega) h)

/-- C79: inserting a column at position `k` gives a factorisation of the matrix with that column inserted. -/
theorem C79_insert {q q' : QR ι} {A : List (ι → ℝ)} (h : Factorizes q A) {k : ℕ} (hk : k ≤ q.cols) {v : ι → ℝ} {eps : ℝ} (hi : q.insertColumn k v eps = some q') :
    Factorizes q' (A.insertIdx k v) := by
  obtain ⟨hfail, hok⟩ := orthogonalize_spec h.orthonormal v
  unfold QR.insertColumn at hi
  have hc : Fintype.card ι ≠ q.cols ∧ dblMin < l2 (q.project q.cols v) := by
    by_contra hn
    obtain ⟨w, r, e⟩ := hfail (by rw [not_and_or, not_not, not_lt] at hn; exact hn)
    rw [e] at hi
    simp only at hi
    rw [if_pos dblMin_pos.le] at hi
    exact absurd hi (by simp)
  obtain ⟨r, e, hr, hrm⟩ := hok hc.1 hc.2
  rw [e] at hi
  simp only at hi
  rw [if_neg (not_le.2 hc.2)] at hi
  split at hi
  · exact absurd hi (by simp)
  set m := q.cols with hm
  set p := q.project m v with hp
  have hρ : 0 < l2 p := dblMin_pos.trans hc.2
  set s₀ : InsertState ι := { Q := fun j => if j = m then fun x => p x / l2 p else q.Q j, R := shiftCols m k (addRowCol m q.R), u := r } with hs₀
  have hlen := h.length
  have hRval : ∀ i j, j ≤ m → j ≠ k → i ≤ m → s₀.R i j = if i = m then 0 else if j < k then q.R i j else if i < j then q.R i (j - 1) else 0 := by
    intro i j hj hjk hi
    change shiftCols m k (addRowCol m q.R) i j = _
    unfold shiftCols addRowCol
    by_cases h1 : k < j ∧ j ≤ m
    · rw [if_pos h1]
      by_cases h2 : i < j
      · rw [if_pos h2, if_neg (by omega), if_neg (by omega), if_neg (by omega), if_pos h2]
      · rw [if_neg h2]
        by_cases h3 : i = j
        · rw [if_pos h3]
          by_cases h4 : i = m
          · rw [if_pos h4]
          · rw [if_neg h4, if_neg (by omega), if_neg (by omega)]
        · rw [if_neg h3]
          by_cases h4 : i = m
          · rw [if_pos (by omega), if_pos h4]
          · rw [if_neg (by omega), if_neg h4, if_neg (by omega), if_neg (by omega)]
            exact h.upper i (by omega) j (by omega)
    · rw [if_neg h1]
      by_cases h4 : i = m
      · rw [if_pos (Or.inl h4), if_pos h4]
      · rw [if_neg (by omega), if_neg h4, if_pos (by omega)]
  have hQlt : ∀ i, i < m → s₀.Q i = q.Q i := fun i hi => if_neg (by omega)
  have hQm : s₀.Q m = fun x => p x / l2 p := if_pos rfl
  have inv : InsertInv s₀ (fun j x => if hj : j < m + 1 then ((A.insertIdx k v)[j]'(by rw [List.length_insertIdx, if_pos (by omega)]; omega)) x else 0) v m k (m - k) := by
    refine ⟨fun j hj hjk x => ?_, fun x => ?_, fun i hi j hj => ?_, fun i hi j hji => ?_, fun j hj1 hj2 => ?_, fun i h1 h2 => by omega⟩
    · rw [Finset.sum_range_succ, hRval m j hj hjk le_rfl, if_pos rfl, zero_mul, add_zero, dif_pos (by omega), List.getElem_insertIdx]
      by_cases hjlt : j < k
      · rw [dif_pos hjlt, ← h.product j (by omega) x]
        refine Finset.sum_congr rfl fun i hi => ?_
        rw [mem_range] at hi
        rw [hRval i j hj hjk (by omega), if_neg (by omega), if_pos hjlt, hQlt i hi]
      · rw [dif_neg hjlt, dif_neg (by omega), ← h.product (j - 1) (by omega) x]
        refine Finset.sum_congr rfl fun i hi => ?_
        rw [mem_range] at hi
        rw [hRval i j hj hjk (by omega), if_neg (by omega), if_neg hjlt, hQlt i hi]
        split
        · rfl
        · rw [h.upper i (by omega) (j - 1) (by omega)]
    · rw [Finset.sum_range_succ, hQm]
      change _ + r m * _ = _
      rw [hrm, mul_div_cancel₀ _ hρ.ne']
      have : ∑ i ∈ range m, s₀.u i * s₀.Q i x = ∑ i ∈ range m, ip (q.Q i) v * q.Q i x := by
        refine Finset.sum_congr rfl fun i hi => ?_
        rw [mem_range] at hi
        rw [hQlt i hi]
        change r i * _ = _
        rw [hr i hi]
      rw [this, hp]
      unfold QR.project
      ring
    · have hpm : ∀ i < m, ip (q.Q i) (fun x => p x / l2 p) = 0 := by
        intro i hi
        have := ip_project h.orthonormal v (i := i) hi
        unfold ip at this ⊢
        rw [← hm, ← hp] at this
        have e : ∑ x, q.Q i x * (p x / l2 p) = (∑ x, q.Q i x * p x) / l2 p := by
          rw [Finset.sum_div]
          exact Finset.sum_congr rfl fun x _ => by ring
        rw [e, this, zero_div]
      by_cases h1 : i = m
      · by_cases h2 : j = m
        · rw [h1, h2, if_pos rfl, hQm]
          have e : ip (fun x => p x / l2 p) (fun x => p x / l2 p) = ip p p / (l2 p * l2 p) := by
            unfold ip
            rw [Finset.sum_div]
            exact Finset.sum_congr rfl fun x _ => by rw [div_mul_div_comm]
          have hpp : 0 ≤ ip p p := Finset.sum_nonneg fun x _ => mul_self_nonneg _
          have e2 : l2 p * l2 p = ip p p := Real.mul_self_sqrt hpp
          rw [e, e2, div_self]
          rw [← e2]
          positivity
        · rw [h1, hQm, hQlt j (by omega), ip_comm, hpm j (by omega), if_neg (by omega)]
      · by_cases h2 : j = m
        · rw [h2, hQm, hQlt i (by omega), hpm i (by omega), if_neg (by omega)]
        · rw [hQlt i (by omega), hQlt j (by omega)]
          exact h.orthonormal i (by omega) j (by omega)
    · by_cases hjk : j = k
      · change shiftCols m k (addRowCol m q.R) i j = 0
        unfold shiftCols addRowCol
        rw [if_neg (by omega)]
        split
        · rfl
        · exact h.upper i (by omega) j hji
      · rw [hRval i j (by omega) hjk (by omega)]
        split
        · rfl
        · split
          · exact h.upper i (by omega) j hji
          · rw [if_neg (by omega)]
    · rw [hRval j j (by omega) (by omega) (by omega), if_neg (show ¬ j < k by omega), if_neg (lt_irrefl j), ite_self]
  have fin := insertLoop_inv (m - k) s₀ (by omega) inv
  simp only [Option.some.injEq] at hi
  subst hi
  set s := insertLoop k (m - k) s₀ with hs
  have hlen' : (A.insertIdx k v).length = m + 1 := by rw [List.length_insertIdx, if_pos (by omega)]; omega
  refine ⟨hlen', fun j hj x => ?_, fin.orthonormal, fun i hi j hji => ?_⟩
  · rw [hlen'] at hj
    simp only
    by_cases hjk : j = k
    · subst hjk
      rw [List.getElem_insertIdx, dif_neg (lt_irrefl j), dif_pos rfl, ← fin.column x]
      refine Finset.sum_congr rfl fun i hi => ?_
      rw [mem_range] at hi
      by_cases hij : i ≤ j
      · rw [if_pos ⟨rfl, hij⟩]
      · rw [if_neg (by omega), fin.upper i hi j (by omega), fin.zero i (by omega) (by omega)]
    · have := fin.product j (by omega) hjk x
      rw [dif_pos hj] at this
      rw [← this]
      refine Finset.sum_congr rfl fun i hi => ?_
      rw [if_neg (by omega)]
  · simp only at hi ⊢
    rw [if_neg (by omega)]
    exact fin.upper i hi j hji

/-- C79: a column is rejected exactly if the matrix has as many columns as rows, if (nearly) nothing is left after subtracting its projection, or if the filter of the caller says so. -/
theorem C79_insert_fails_iff {q : QR ι} {A : List (ι → ℝ)} (h : Factorizes q A) {k : ℕ} {v : ι → ℝ} {eps : ℝ} :
    q.insertColumn k v eps = none ↔
      Fintype.card ι = q.cols ∨ l2 (q.project q.cols v) ≤ dblMin ∨ (eps > 0 ∧ l2 v * eps > l2 (q.project q.cols v)) := by
  obtain ⟨hfail, hok⟩ := orthogonalize_spec h.orthonormal v
  unfold QR.insertColumn
  by_cases hc : Fintype.card ι = q.cols ∨ l2 (q.project q.cols v) ≤ dblMin
  · obtain ⟨w, r, e⟩ := hfail hc
    rw [e]
    simp only
    rw [if_pos dblMin_pos.le]
    exact ⟨fun _ => hc.imp_right Or.inl, fun _ => rfl⟩
  · rw [not_or, not_le] at hc
    obtain ⟨r, e, -, -⟩ := hok hc.1 hc.2
    rw [e]
    simp only
    rw [if_neg (not_le.2 hc.2)]
    by_cases hf : eps > 0 ∧ l2 v * eps > l2 (q.project q.cols v)
    · rw [if_pos hf]
      exact ⟨fun _ => Or.inr (Or.inr hf), fun _ => rfl⟩
    · rw [if_neg hf]
      refine ⟨fun hn => absurd hn (by simp), fun hn => ?_⟩
      rcases hn with hn | hn | hn
      · exact absurd hn hc.1
      · exact absurd hn (not_le.2 hc.2)
      · exact absurd hn hf

/-- What is subtracted is in the span of the columns of `Q` and the rest is orthogonal to them. -/
theorem C79_rest {q : QR ι} {A : List (ι → ℝ)} (h : Factorizes q A) (v : ι → ℝ) :
    (∃ c : ℕ → ℝ, ∀ x, v x = q.project q.cols v x + ∑ j ∈ range q.cols, c j * q.Q j x) ∧ ∀ j < q.cols, ip (q.Q j) (q.project q.cols v) = 0 :=
  ⟨⟨fun j => ip (q.Q j) v, fun x => by unfold QR.project; ring⟩, fun j hj => ip_project h.orthonormal v hj⟩

/-- The empty factorisation, with which every history starts. -/
def QR.empty : QR ι := ⟨fun _ _ => 0, fun _ _ => 0, 0⟩

theorem factorizes_empty : Factorizes (QR.empty : QR ι) [] := ⟨rfl, by simp, fun i hi => absurd hi (Nat.not_lt_zero i), fun i hi => absurd hi (Nat.not_lt_zero i)⟩

/-- A history of insertions and deletions, and what it does to the factors and to the matrix; changes with an invalid position are excluded by the assertions of the code. -/
inductive QRReaches : QR ι → List (ι → ℝ) → Prop
  | empty : QRReaches QR.empty []
  | inserted {q q' A k v eps} : QRReaches q A → k ≤ q.cols → q.insertColumn k v eps = some q' → QRReaches q' (A.insertIdx k v)
  | deleted {q A k} : QRReaches q A → k < q.cols → QRReaches (q.deleteColumn k) (A.eraseIdx k)

/-- C79: after any history of insertions and deletions the factors describe the matrix that results from the same history. -/
theorem C79_history {q : QR ι} {A : List (ι → ℝ)} (h : QRReaches q A) : Factorizes q A := by
  induction h with
  | empty => exact factorizes_empty
  | inserted _ hk hi ih => exact C79_insert ih hk hi
  | deleted _ hk ih => exact C79_delete ih hk

/-- A column can be inserted: the first unit vector into the empty factorisation. -/
example : ∃ q', (QR.empty : QR (Fin 2)).insertColumn 0 (fun i => if i = 0 then 1 else 0) 0 = some q' := by
  rw [← Option.ne_none_iff_exists']
  rw [Ne, C79_insert_fails_iff factorizes_empty]
  have : (QR.empty : QR (Fin 2)).project 0 (fun i => if i = 0 then 1 else 0) = fun i => if i = 0 then 1 else 0 := by
    funext x; simp [QR.project]
  have hl : l2 (fun i : Fin 2 => if i = 0 then (1 : ℝ) else 0) = 1 := by
    simp [l2, ip]
  change ¬ (Fintype.card (Fin 2) = 0 ∨ l2 ((QR.empty : QR (Fin 2)).project 0 _) ≤ dblMin ∨ _)
  rw [this, hl]
  have : ¬ (1 : ℝ) ≤ dblMin := by
    unfold dblMin
    rw [not_le, div_lt_one (by positivity)]
    exact one_lt_pow₀ (by norm_num) (by norm_num)
  simp [this]

end Verif.Accel
