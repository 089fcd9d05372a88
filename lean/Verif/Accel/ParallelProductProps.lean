import Verif.Accel.ParallelProductRun
import Mathlib.Data.Matrix.Basic
import Mathlib.Tactic.FinCases

/-!
# Matrix products of a parallel participant (C94)

A global matrix has its rows or its columns distributed over the ranks: they are indexed by the rank and the position on the rank. A rank may have
no rows and no columns. The ranks compute the product of the global matrices, as the product of Mathlib defines it.
-/

set_option autoImplicit false
set_option linter.unusedSectionVars false

namespace Verif.MatOps

variable {K : Type} [CommRing K] {n p q m : ℕ} {rows cols : Fin (n + 1) → ℕ}

/-- The rows of a rank. -/
def rowsOn (W : Matrix (Σ s, Fin (rows s)) (Fin q) K) (s : Fin (n + 1)) : Rows K q := List.ofFn fun i => W ⟨s, i⟩

/-- The rows of a rank, as a matrix. -/
def partOn (V : Matrix (Σ r, Fin (cols r)) (Fin m) K) (r : Fin (n + 1)) : Matrix (Fin (cols r)) (Fin m) K := fun k j => V ⟨r, k⟩ j

/-- The columns of a rank. -/
def columnsOn (Z : Matrix (Fin q) (Σ r, Fin (cols r)) K) (r : Fin (n + 1)) : Matrix (Fin q) (Fin (cols r)) K := fun k j => Z k ⟨r, j⟩

/-- All rows, in the order of the ranks, restricted to the columns of a rank. -/
def slab (J : Matrix (Σ s, Fin (rows s)) (Σ r, Fin (cols r)) K) (r : Fin (n + 1)) : Rows K (cols r) :=
  stack fun s => List.ofFn fun i j => J ⟨s, i⟩ ⟨r, j⟩

theorem length_rowsOn (W : Matrix (Σ s, Fin (rows s)) (Fin q) K) (s : Fin (n + 1)) : (rowsOn W s).length = rows s := List.length_ofFn

theorem length_slab (J : Matrix (Σ s, Fin (rows s)) (Σ r, Fin (cols r)) K) (r : Fin (n + 1)) {offsets : ℕ → ℕ} (h : Cuts offsets rows) :
    (slab J r).length = offsets (n + 1) := stack_length h _ fun _ => List.length_ofFn

theorem mul_rowsOn (W : Matrix (Σ s, Fin (rows s)) (Fin q) K) (Z : Matrix (Fin q) (Σ r, Fin (cols r)) K) (r : Fin (n + 1)) :
    (stack fun s => mul (rowsOn W s) (columnsOn Z r)) = slab (W * Z) r := by
  unfold slab mul rowsOn
  refine stack_update_all _ _ fun s => ?_
  rw [List.map_ofFn]
  rfl

/-- The product of a matrix which is distributed by rows with one which is distributed by columns, e.g. the new Jacobian matrix: every rank gets all rows of its columns of
the product, in every execution, however the rows and the columns are distributed, whatever the result contained before. Sends do not block. -/
theorem C94_cyclic {offsets : ℕ → ℕ} (h : Cuts offsets rows) (W : Matrix (Σ s, Fin (rows s)) (Fin q) K) (Z : Matrix (Fin q) (Σ r, Fin (cols r)) K)
    (result : (r : Fin (n + 1)) → Rows K (cols r)) (hres : ∀ r, (result r).length = offsets (n + 1)) :
    Net.AlwaysCompletes (⟨fun r => (multiplyCyclic offsets r (rowsOn W r) (columnsOn Z r) (result r)).bind fun x => .ret ⟨r, x⟩, fun _ => []⟩ :
      Net (Fin (n + 1)) (Rows K q) (Σ r, Rows K (cols r))) fun r => ⟨r, slab (W * Z) r⟩ := by
  by_cases hn : n = 0
  · subst hn
    refine Net.alwaysCompletes_of_steps (.refl _) ⟨fun r => ?_, fun _ => rfl⟩
    simp only [multiplyCyclic, if_true, Prog.bind]
    rw [← mul_rowsOn]
    have : r = 0 := Fin.ext (by omega)
    subst this
    simp [stack, List.finRange_succ]
  · have h' : Cuts offsets fun s => (rowsOn W s).length := by simpa only [length_rowsOn] using h
    have := cyclic_complete (Nat.pos_of_ne_zero hn) h' (columnsOn Z) result hres (α := Σ r, Rows K (cols r)) fun r x => ⟨r, x⟩
    simpa only [multiplyCyclic, if_neg hn, mul_rowsOn] using this

/-- The product of a matrix which is distributed by columns with one which is distributed by rows, e.g. the Jacobian matrix times the residuals: every rank gets its rows of the
product, also with blocking sends. -/
theorem C94_block {offsets : ℕ → ℕ} (h : Cuts offsets rows) (J : Matrix (Σ s, Fin (rows s)) (Σ r, Fin (cols r)) K) (V : Matrix (Σ r, Fin (cols r)) (Fin m) K)
    (result : Fin (n + 1) → Rows K m) (hres : ∀ r, (result r).length = rows r) :
    RNet.AlwaysCompletes (fun r => multiplyBlock offsets r (slab J r) (partOn V r) (result r)) (rowsOn (J * V)) := by
  have hmul : ∀ r, mul (slab J r) (partOn V r) = stack fun s => List.ofFn fun i j => ∑ k, J ⟨s, i⟩ ⟨r, k⟩ * V ⟨r, k⟩ j := by
    intro r
    unfold slab
    rw [mul_stack]
    refine stack_update_all _ _ fun s => ?_
    rw [mul, List.map_ofFn]
    rfl
  by_cases hn : n = 0
  · subst hn
    refine RNet.alwaysCompletes_of_steps (.refl _) fun r => ?_
    have : r = 0 := Fin.ext (by omega)
    subst this
    simp only [multiplyBlock, if_true, hmul]
    congr 1
    simp only [stack, List.finRange_succ, List.finRange_zero, List.map_nil, List.flatMap_cons, List.flatMap_nil, List.append_nil, rowsOn]
    congr 1
    funext i j
    rw [Matrix.mul_apply, Fintype.sum_sigma]
    simp
  · simp only [multiplyBlock, if_neg hn]
    refine blockwise_complete h (slab J) (fun r => length_slab J r h) (partOn V) result hres (rowsOn (J * V)) (length_rowsOn _) fun i k => ?_
    simp only [hmul]
    by_cases hi : i < offsets (n + 1)
    · obtain ⟨s, h1, h2⟩ := h.mono i (n + 1) le_rfl hi
      obtain ⟨i, rfl⟩ := Nat.exists_eq_add_of_le h1
      have hi' : i < rows s := by omega
      rw [stack_getD h _ (length_rowsOn _) s i hi']
      simp only [stack_getD h _ (fun _ => List.length_ofFn) s i hi']
      rw [rowsOn, List.getD_eq_getElem _ _ (by rwa [List.length_ofFn]), List.getElem_ofFn, Matrix.mul_apply, Fintype.sum_sigma]
      refine Finset.sum_congr rfl fun r _ => ?_
      rw [List.getD_eq_getElem _ _ (by rwa [List.length_ofFn]), List.getElem_ofFn]
    · rw [List.getD_eq_default _ _ (by rw [stack_length h _ (length_rowsOn _)]; omega)]
      refine (Finset.sum_eq_zero fun r _ => ?_).symm
      rw [List.getD_eq_default _ _ (by rw [stack_length h _ fun _ => List.length_ofFn]; omega)]
      rfl

/-- The same, if the result is small: every rank gets all of it. -/
theorem C94_everywhere (Z : Matrix (Fin p) (Σ r, Fin (cols r)) K) (V : Matrix (Σ r, Fin (cols r)) (Fin m) K) :
    RNet.AlwaysCompletes (fun r => everywhere r (columnsOn Z r) (partOn V r)) fun _ => Z * V := by
  have hsum : Z * V = ∑ r, columnsOn Z r * partOn V r := by
    ext i j
    rw [Matrix.mul_apply, Fintype.sum_sigma]
    simp only [Matrix.sum_apply]
    rfl
  by_cases hn : n = 0
  · subst hn
    refine RNet.alwaysCompletes_of_steps (.refl _) fun r => ?_
    have : r = 0 := Fin.ext (by omega)
    subst this
    simp only [everywhere, if_true, hsum]
    simp
  · simp only [everywhere, if_neg hn]
    rw [hsum]
    exact Dist.C63_allreduce fun r => columnsOn Z r * partOn V r

/-- The offsets of the acceleration cut the unknowns: rank `r` has `dims` unknowns for each of its vertices, for every data field. -/
theorem C94_offsets (fields : List ((Fin (n + 1) → ℕ) × ℕ)) :
    Cuts (dimOffsets (fields.map fun f => (fun i => ∑ s : Fin (n + 1), if s.val ≤ i then f.1 s else 0, f.2))) fun r => (fields.map fun f => f.1 r * f.2).sum := by
  refine ⟨rfl, fun r => ?_⟩
  rcases r with ⟨_ | k, hk⟩
  · simp only [dimOffsets, List.map_map, zero_add]
    congr 2
    funext f
    show (∑ s : Fin (n + 1), if s.val ≤ 0 then f.1 s else 0) * f.2 = f.1 ⟨0, hk⟩ * f.2
    congr 1
    rw [Finset.sum_eq_single (⟨0, hk⟩ : Fin (n + 1)) (fun s _ hs => if_neg fun h => hs (Fin.ext (by simpa using h))) (by simp)]
    simp
  · simp only [dimOffsets, List.map_map]
    rw [← List.sum_map_add]
    congr 2
    funext f
    show (∑ s : Fin (n + 1), if s.val ≤ k + 1 then f.1 s else 0) * f.2 = (∑ s : Fin (n + 1), if s.val ≤ k then f.1 s else 0) * f.2 + f.1 ⟨k + 1, hk⟩ * f.2
    rw [← add_mul]
    congr 1
    have : f.1 ⟨k + 1, hk⟩ = ∑ s : Fin (n + 1), if s.val = k + 1 then f.1 s else 0 := by
      rw [Finset.sum_eq_single (⟨k + 1, hk⟩ : Fin (n + 1)) (fun s _ hs => if_neg fun h => hs (Fin.ext h)) (by simp)]
      simp
    rw [this, ← Finset.sum_add_distrib]
    refine Finset.sum_congr rfl fun s _ => ?_
    by_cases h1 : s.val ≤ k
    · rw [if_pos (by omega), if_pos h1, if_neg (by omega), add_zero]
    · by_cases h2 : s.val = k + 1
      · rw [if_pos (by omega), if_neg h1, if_pos h2, zero_add]
      · rw [if_neg (by omega), if_neg h1, if_neg h2]

/-- The result does not depend on the distribution: a rank computes its rows of what one rank computes for the whole matrices. -/
theorem C94_serial {offsets : ℕ → ℕ} (h : Cuts offsets rows) (J : Matrix (Σ s, Fin (rows s)) (Σ r, Fin (cols r)) K) (V : Matrix (Σ r, Fin (cols r)) (Fin m) K)
    (result : Fin (n + 1) → Rows K m) (hres : ∀ r, (result r).length = rows r) {N M : ℕ} (e : Fin N ≃ Σ s, Fin (rows s)) (d : Fin M ≃ Σ r, Fin (cols r)) :
    ∃ x : Rows K m, multiplyBlock (n := 0) offsets 0 (List.ofFn fun i => J.submatrix e d i) (V.submatrix d id) [] = .ret x ∧
      RNet.AlwaysCompletes (fun r => multiplyBlock offsets r (slab J r) (partOn V r) (result r)) fun r => List.ofFn fun i => x.getD (e.symm ⟨r, i⟩) 0 := by
  refine ⟨_, rfl, ?_⟩
  have : (fun r : Fin (n + 1) => List.ofFn fun i => (mul (List.ofFn fun i => J.submatrix e d i) (V.submatrix d id)).getD (e.symm ⟨r, i⟩) 0) = rowsOn (J * V) := by
    funext r
    unfold rowsOn
    congr 1
    funext i
    have h1 : mul (List.ofFn fun i => J.submatrix e d i) (V.submatrix d id) = List.ofFn fun i => Matrix.vecMul (J.submatrix e d i) (V.submatrix d id) := by
      unfold mul; rw [List.map_ofFn]; rfl
    rw [h1, List.getD_eq_getElem _ _ (by rw [List.length_ofFn]; exact (e.symm ⟨r, i⟩).2), List.getElem_ofFn]
    funext j
    have h2 := congrFun (congrFun (Matrix.submatrix_mul_equiv J V e d (id : Fin m → Fin m)) (e.symm ⟨r, i⟩)) j
    rw [Matrix.submatrix_apply, Equiv.apply_symm_apply] at h2
    exact h2
  rw [this]
  exact C94_block h J V result hres

/-! ## Examples -/

/-- Three ranks: two rows and one column, none and one, one and none. -/
def exampleOffsets : ℕ → ℕ
  | 0 => 0
  | 1 => 2
  | 2 => 2
  | _ => 3

theorem exampleCuts : Cuts (n := 2) exampleOffsets ![2, 0, 1] :=
  ⟨rfl, fun r => by fin_cases r <;> rfl⟩

/-- The column (1, 2, 4). -/
def exampleW : Matrix (Σ s : Fin 3, Fin (![2, 0, 1] s)) (Fin 1) ℤ := fun i _ => if i.1 = 0 then (i.2.val : ℤ) + 1 else 4

/-- The row (3, 5), of which the first two ranks have one entry each. -/
def exampleZ : Matrix (Fin 1) (Σ r : Fin 3, Fin (![1, 1, 0] r)) ℤ := fun _ j => if j.1 = 0 then 3 else 5

example : Net.AlwaysCompletes (⟨fun r => (multiplyCyclic exampleOffsets r (rowsOn exampleW r) (columnsOn exampleZ r) (List.replicate 3 0)).bind fun x => .ret ⟨r, x⟩, fun _ => []⟩ :
      Net (Fin 3) (Rows ℤ 1) (Σ r, Rows ℤ (![1, 1, 0] r))) fun r => ⟨r, slab (exampleW * exampleZ) r⟩ :=
  C94_cyclic exampleCuts _ _ _ fun _ => rfl

/-- What the second rank gets. -/
example : (slab (exampleW * exampleZ) 1).map (fun v => v ⟨0, by decide⟩) = [5, 10, 20] := by decide +kernel

/-- The column (7, 11). -/
def exampleV : Matrix (Σ r : Fin 3, Fin (![1, 1, 0] r)) (Fin 1) ℤ := fun j _ => if j.1 = 0 then 7 else 11

/-- The product with the column (7, 11), without entry on the last rank. -/
example : RNet.AlwaysCompletes (fun r => multiplyBlock exampleOffsets r (slab (exampleW * exampleZ) r) (partOn exampleV r)
    (List.replicate (![2, 0, 1] r) 0)) (rowsOn (exampleW * exampleZ * exampleV)) :=
  C94_block exampleCuts _ _ _ fun _ => List.length_replicate

example : (rowsOn (exampleW * exampleZ * exampleV) 0).map (fun v => v 0) = [76, 152] := by decide +kernel

example : dimOffsets [(fun i => [1, 1, 3].getD i 0, 2), (fun i => [0, 2, 2].getD i 0, 3)] 3 = 12 := by decide

end Verif.MatOps
