import Mathlib.Algebra.BigOperators.Fin
import Mathlib.Algebra.BigOperators.Group.Finset.Basic
import Mathlib.Algebra.Order.BigOperators.Group.Finset
import Mathlib.Data.List.Basic
import Mathlib.Tactic.Ring

/-!
# Blocks in flat arrays

Models of `add_to_indirect_blocks` and `copy_from_indirect_blocks` (`/repo/src/m2n/GatherScatterCommunication.cpp:66-98`) and of the loops of point-to-point
communication (`/repo/src/m2n/PointToPointCommunication.cpp:617-622, 646-652`). An array is its size and its content.
-/

set_option autoImplicit false

namespace Verif.Dist

/-- An array of values. Only positions below `size` matter. -/
structure Arr (V : Type) where
  size : ℕ
  get : ℕ → V

variable {V : Type}

/-- `utils::add_n(&src[s], b, &dst[t])` -/
def addBlock [Add V] (b s t : ℕ) (src dst : ℕ → V) : ℕ → V :=
  fun p => if t ≤ p ∧ p < t + b then dst p + src (s + (p - t)) else dst p

/-- `std::copy_n(&src[s], b, &dst[t])` -/
def copyBlock (b s t : ℕ) (src dst : ℕ → V) : ℕ → V :=
  fun p => if t ≤ p ∧ p < t + b then src (s + (p - t)) else dst p

/-- `add_to_indirect_blocks`: block `j` of the source is added to block `indices[j]`. -/
def addToBlocks [Add V] (b : ℕ) (src : ℕ → V) : List ℕ → ℕ → (ℕ → V) → (ℕ → V)
  | [], _, dst => dst
  | g :: l, j, dst => addToBlocks b src l (j + 1) (addBlock b (b * j) (b * g) src dst)

/-- `copy_from_indirect_blocks`: block `indices[j]` of the source is copied to block `j`. -/
def copyFromBlocks (b : ℕ) (src : ℕ → V) : List ℕ → ℕ → (ℕ → V) → (ℕ → V)
  | [], _, dst => dst
  | g :: l, j, dst => copyFromBlocks b src l (j + 1) (copyBlock b (b * g) (b * j) src dst)

theorem block_iff {b g k g' : ℕ} (hk : k < b) : b * g' ≤ b * g + k ∧ b * g + k < b * g' + b ↔ g' = g := by
  constructor
  · rintro ⟨h1, h2⟩
    by_contra hne
    rcases Nat.lt_or_gt_of_ne hne with h | h
    · have : b * (g' + 1) ≤ b * g := Nat.mul_le_mul_left b h
      rw [Nat.mul_add, Nat.mul_one] at this
      omega
    · have : b * (g + 1) ≤ b * g' := Nat.mul_le_mul_left b h
      rw [Nat.mul_add, Nat.mul_one] at this
      omega
  · rintro rfl
    omega

theorem addBlock_at [Add V] (b j g' : ℕ) (src dst : ℕ → V) {g k : ℕ} (hk : k < b) :
    addBlock b (b * j) (b * g') src dst (b * g + k) = if g' = g then dst (b * g + k) + src (b * j + k) else dst (b * g + k) := by
  unfold addBlock
  by_cases h : g' = g
  · subst h
    rw [if_pos (by omega), if_pos rfl, Nat.add_sub_cancel_left]
  · rw [if_neg h, if_neg fun e => h ((block_iff hk).1 e)]

theorem copyBlock_at (b j g' : ℕ) (src dst : ℕ → V) {i k : ℕ} (hk : k < b) :
    copyBlock b (b * g') (b * j) src dst (b * i + k) = if j = i then src (b * g' + k) else dst (b * i + k) := by
  unfold copyBlock
  by_cases h : j = i
  · subst h
    rw [if_pos (by omega), if_pos rfl, Nat.add_sub_cancel_left]
  · rw [if_neg h, if_neg fun e => h ((block_iff hk).1 e)]

/-- Every block receives the sum of the blocks that refer to it. -/
theorem addToBlocks_at [AddCommMonoid V] (b : ℕ) (src : ℕ → V) (l : List ℕ) {g k : ℕ} (hk : k < b) : ∀ (j : ℕ) (dst : ℕ → V),
    addToBlocks b src l j dst (b * g + k) = dst (b * g + k) + ∑ i ∈ Finset.range l.length, if l[i]? = some g then src (b * (j + i) + k) else 0 := by
  induction l with
  | nil => intro j dst; simp [addToBlocks]
  | cons x l ih =>
    intro j dst
    rw [addToBlocks, ih, addBlock_at b j x src dst hk, List.length_cons, Finset.sum_range_succ']
    have : ∀ i, (x :: l)[i + 1]? = l[i]? := fun i => rfl
    simp only [List.getElem?_cons_succ, List.getElem?_cons_zero, Option.some.injEq, Nat.add_zero]
    have e : ∀ i, b * (j + 1 + i) + k = b * (j + (i + 1)) + k := fun i => by ring
    simp only [e]
    by_cases h : x = g
    · simp only [h, if_true]
      rw [add_assoc, add_comm (src _)]
    · simp only [h, if_false, add_zero]

theorem copyFromBlocks_at (b : ℕ) (src : ℕ → V) (l : List ℕ) {i k : ℕ} (hk : k < b) : ∀ (j : ℕ) (dst : ℕ → V),
    copyFromBlocks b src l j dst (b * i + k) =
      match l[i - j]? with
      | some g => if j ≤ i then src (b * g + k) else dst (b * i + k)
      | none => dst (b * i + k) := by
  induction l with
  | nil => intro j dst; simp [copyFromBlocks]
  | cons x l ih =>
    intro j dst
    rw [copyFromBlocks, ih, copyBlock_at b j x src dst hk]
    by_cases h : j = i
    · subst h
      rw [Nat.sub_self, List.getElem?_cons_zero]
      simp only [if_true, le_refl]
      cases l[j - (j + 1)]? with
      | none => rfl
      | some g => simp
    · simp only [h, if_false]
      by_cases h2 : j < i
      · rw [show i - j = (i - (j + 1)) + 1 by omega, List.getElem?_cons_succ]
        cases l[i - (j + 1)]? with
        | none => rfl
        | some g =>
          simp only []
          rw [if_pos (by omega), if_pos (by omega)]
      · have h3 : ¬ j + 1 ≤ i := by omega
        have h4 : ¬ j ≤ i := by omega
        simp only [h3, h4, if_false]
        cases l[i - (j + 1)]? <;> cases (x :: l)[i - j]? <;> rfl

/-- The values of a distributed vector: `values r` are the values of rank `r`, whose vertices have the global ids `dist r`; component `k` of the
global vertex `g` is the sum over all ranks and vertices with that id. -/
def globalValue {n : ℕ} [AddCommMonoid V] (b : ℕ) (dist : Fin n → List ℕ) (values : Fin n → ℕ → V) (g k : ℕ) : V :=
  ∑ r, ∑ j ∈ Finset.range (dist r).length, if (dist r)[j]? = some g then values r (b * j + k) else 0

/-- If the sending side is a partition, this is just the value of the vertex. -/
theorem globalValue_partition {n : ℕ} [AddCommMonoid V] (b : ℕ) (dist : Fin n → List ℕ) (values : Fin n → ℕ → V) (k : ℕ)
    {r : Fin n} {j g : ℕ} (hj : (dist r)[j]? = some g) (hu : ∀ s i, (dist s)[i]? = some g → s = r ∧ i = j) :
    globalValue b dist values g k = values r (b * j + k) := by
  unfold globalValue
  rw [Finset.sum_eq_single r, Finset.sum_eq_single j, if_pos hj]
  · intro i _ hij
    exact if_neg fun h => hij (hu r i h).2
  · intro h
    exact absurd (Finset.mem_range.2 (List.getElem?_eq_some_iff.1 hj).1) h
  · intro s _ hsr
    refine Finset.sum_eq_zero fun i _ => if_neg fun h => hsr (hu s i h).1
  · simp

end Verif.Dist
