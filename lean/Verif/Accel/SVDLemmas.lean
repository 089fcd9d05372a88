import Verif.Accel.SVD
import Mathlib.Analysis.CStarAlgebra.Matrix

/-!
# Lemmas for the restart with a singular value decomposition (C102)
-/

set_option autoImplicit false
set_option linter.unusedSectionVars false

namespace Verif.Accel.Svd

open Finset Matrix

variable {ι κ : Type} [Fintype ι] [Fintype κ]

/-! ## The orthogonal basis -/

/-- The first columns are orthonormal. -/
def Orth (q : QR ι) : Prop := ∀ i < q.cols, ∀ j < q.cols, ip (q.Q i) (q.Q j) = if i = j then 1 else 0

theorem passes_spec {q : QR ι} (h : Orth q) (v : ι → ℝ) :
    (∀ j < q.cols, (passes q 4 v (fun _ => 0) (l2 v)).1 j = ip (q.Q j) v) ∧
    (passes q 4 v (fun _ => 0) (l2 v)).2 = open Classical in if l2 (q.project q.cols v) ≤ dblMin then none else some (q.project q.cols v, l2 (q.project q.cols v)) := by
  rw [passes]
  by_cases hl : l2 (q.project q.cols v) ≤ dblMin
  · rw [if_pos hl, if_pos hl]
    exact ⟨fun j _ => zero_add _, rfl⟩
  · rw [if_neg hl, if_neg hl]
    split
    · rw [passes]
      rw [project_project h, if_neg hl, if_neg]
      · refine ⟨fun j hj => ?_, rfl⟩
        show 0 + _ + _ = _
        rw [ip_project h v hj, zero_add, add_zero]
      · have h0 := dblMin_pos.trans (not_le.1 hl)
        have h1 : (1 : ℝ) < √2 := by
          rw [show (1 : ℝ) = √1 by simp]
          exact Real.sqrt_lt_sqrt zero_le_one one_lt_two
        rw [not_le]
        nlinarith
    · exact ⟨fun j _ => zero_add _, rfl⟩

/-- What the basis has to do with the columns that have been added. -/
structure Parts (q : QR ι) (l : List (ι → ℝ)) : Prop where
  orth : Orth q
  near : ∀ c (h : c < l.length), l2 (fun x => l[c] x - ∑ i ∈ range q.cols, q.R i c * q.Q i x) ≤ dblMin
  span : ∀ u : ι → ℝ, (∀ v ∈ l, ip u v = 0) → ∀ j < q.cols, ip u (q.Q j) = 0
  zero : ∀ i c, q.cols ≤ i → c < l.length → q.R i c = 0
  count : q.cols ≤ l.length

theorem parts_empty : Parts (QR.empty : QR ι) [] :=
  ⟨fun i hi => absurd hi (Nat.not_lt_zero i), fun c h => absurd h (Nat.not_lt_zero c), fun _ _ j hj => absurd hj (Nat.not_lt_zero j), fun _ c _ h => absurd h (Nat.not_lt_zero c), le_refl _⟩

theorem ip_div (u v : ι → ℝ) (a : ℝ) : ip u (fun x => v x / a) = ip u v / a := by
  unfold ip
  rw [Finset.sum_div]
  exact Finset.sum_congr rfl fun x _ => (mul_div_assoc _ _ _).symm

theorem l2_sq (x : ι → ℝ) : l2 x * l2 x = ip x x := Real.mul_self_sqrt (Finset.sum_nonneg fun _ _ => mul_self_nonneg _)

theorem l2_zero : l2 (fun _ : ι => (0 : ℝ)) = 0 := by simp [l2, ip]

theorem ip_project_left {q : QR ι} {l : List (ι → ℝ)} (h : Parts q l) {u v : ι → ℝ} (hu : ∀ w ∈ l, ip u w = 0) (hv : ip u v = 0) : ip u (q.project q.cols v) = 0 := by
  have : ip u (q.project q.cols v) = ip u v - ∑ j ∈ range q.cols, ip (q.Q j) v * ip u (q.Q j) := by
    unfold QR.project
    conv_lhs => unfold ip
    simp only [mul_sub, Finset.sum_sub_distrib, Finset.mul_sum]
    congr 1
    rw [Finset.sum_comm]
    refine Finset.sum_congr rfl fun j _ => ?_
    rw [show ip u (q.Q j) = ∑ x, u x * q.Q j x from rfl, Finset.mul_sum]
    refine Finset.sum_congr rfl fun x _ => ?_
    change u x * (ip (q.Q j) v * q.Q j x) = _
    ring
  rw [this, hv, Finset.sum_eq_zero, sub_zero]
  intro j hj
  rw [h.span u hu j (mem_range.1 hj), mul_zero]

theorem addColumn_parts {q : QR ι} {l : List (ι → ℝ)} (h : Parts q l) (v : ι → ℝ) : Parts (addColumn q l.length v) (l ++ [v]) := by
  classical
  obtain ⟨h1, h2⟩ := passes_spec h.orth v
  unfold addColumn
  simp only
  by_cases hl : l2 (q.project q.cols v) ≤ dblMin
  · rw [if_pos hl] at h2
    rw [h2]
    simp only
    refine ⟨h.orth, fun c hc => ?_, fun u hu j hj => h.span u (fun w hw => hu w (List.mem_append_left _ hw)) j hj, fun i c hi hc => ?_, ?_⟩
    · show l2 (fun x => (l ++ [v])[c] x - ∑ i ∈ range q.cols, (if c = l.length then (if i < q.cols then _ else 0) else q.R i c) * q.Q i x) ≤ _
      by_cases hcl : c = l.length
      · subst hcl
        rw [List.getElem_concat_length rfl]
        refine le_of_eq_of_le ?_ hl
        congr 1
        funext x
        unfold QR.project
        congr 1
        refine Finset.sum_congr rfl fun i hi => ?_
        rw [if_pos rfl, if_pos (mem_range.1 hi), h1 i (mem_range.1 hi)]
      · have hc' : c < l.length := by
          rw [List.length_append, List.length_singleton] at hc; omega
        rw [List.getElem_append_left hc']
        refine le_of_eq_of_le ?_ (h.near c hc')
        congr 1
        funext x
        simp only [if_neg hcl]
    · show (if c = l.length then (if i < q.cols then _ else 0) else q.R i c) = 0
      by_cases hcl : c = l.length
      · rw [if_pos hcl, if_neg (not_lt.2 hi)]
      · rw [if_neg hcl]
        exact h.zero i c hi (by rw [List.length_append, List.length_singleton] at hc; omega)
    · exact h.count.trans (by simp)
  · rw [if_neg hl] at h2
    rw [h2]
    simp only
    have h0 : 0 < l2 (q.project q.cols v) := dblMin_pos.trans (not_le.1 hl)
    refine ⟨?_, fun c hc => ?_, fun u hu j hj => ?_, fun i c hi hc => ?_, ?_⟩
    · intro i hi j hj
      show ip (if i = q.cols then _ else q.Q i) (if j = q.cols then _ else q.Q j) = _
      have hi : i < q.cols + 1 := hi
      have hj : j < q.cols + 1 := hj
      by_cases hiq : i = q.cols
      · by_cases hjq : j = q.cols
        · rw [if_pos hiq, if_pos hjq, if_pos (hiq.trans hjq.symm), ip_div, ip_comm, ip_div, ← l2_sq]
          field_simp
        · rw [if_pos hiq, if_neg hjq, if_neg (fun e => hjq (e.symm.trans hiq)), ip_comm, ip_div, ip_project h.orth v (by omega), zero_div]
      · by_cases hjq : j = q.cols
        · rw [if_neg hiq, if_pos hjq, if_neg (fun e => hiq (e.trans hjq)), ip_div, ip_project h.orth v (by omega), zero_div]
        · rw [if_neg hiq, if_neg hjq, h.orth i (by omega) j (by omega)]
    · show l2 (fun x => (l ++ [v])[c] x - ∑ i ∈ range (q.cols + 1), (if c = l.length then (if i < q.cols then _ else if i = q.cols then _ else 0) else q.R i c) *
        (if i = q.cols then _ else q.Q i : ι → ℝ) x) ≤ _
      have e : ∀ (g : ℕ → ℝ) (w : ι → ℝ) (x : ι), ∑ i ∈ range (q.cols + 1), g i * (if i = q.cols then w else q.Q i : ι → ℝ) x = ∑ i ∈ range q.cols, g i * q.Q i x + g q.cols * w x := by
        intro g w x
        rw [Finset.sum_range_succ, if_pos rfl]
        congr 1
        refine Finset.sum_congr rfl fun i hi => ?_
        rw [if_neg (by rw [mem_range] at hi; omega)]
      simp only [e]
      by_cases hcl : c = l.length
      · subst hcl
        rw [List.getElem_concat_length rfl]
        refine le_of_eq_of_le ?_ dblMin_pos.le
        refine Eq.trans ?_ (l2_zero (ι := ι))
        congr 1
        funext x
        have : ∑ i ∈ range q.cols, (if l.length = l.length then (if i < q.cols then (passes q 4 v (fun _ => 0) (l2 v)).1 i else if i = q.cols then l2 (q.project q.cols v) else 0) else q.R i l.length) *
            q.Q i x = ∑ j ∈ range q.cols, ip (q.Q j) v * q.Q j x := by
          refine Finset.sum_congr rfl fun i hi => ?_
          rw [if_pos rfl, if_pos (mem_range.1 hi), h1 i (mem_range.1 hi)]
        rw [this, if_pos trivial, if_pos rfl, if_neg (lt_irrefl _), mul_div_cancel₀ _ h0.ne']
        show v x - (_ + (v x - _)) = 0
        ring
      · have hc' : c < l.length := by
          rw [List.length_append, List.length_singleton] at hc; omega
        rw [List.getElem_append_left hc']
        refine le_of_eq_of_le ?_ (h.near c hc')
        congr 1
        funext x
        simp only [if_neg hcl]
        rw [h.zero _ c (le_refl _) hc', zero_mul, add_zero]
    · show ip u (if j = q.cols then _ else q.Q j) = 0
      have hj : j < q.cols + 1 := hj
      have hu' : ∀ w ∈ l, ip u w = 0 := fun w hw => hu w (List.mem_append_left _ hw)
      by_cases hjq : j = q.cols
      · rw [if_pos hjq, ip_div, ip_project_left h hu' (hu v (by simp)), zero_div]
      · rw [if_neg hjq]
        exact h.span u hu' j (by omega)
    · show (if c = l.length then (if i < q.cols then _ else if i = q.cols then _ else 0) else q.R i c) = 0
      have hi : q.cols + 1 ≤ i := hi
      by_cases hcl : c = l.length
      · rw [if_pos hcl, if_neg (by omega), if_neg (by omega)]
      · rw [if_neg hcl]
        exact h.zero i c (by omega) (by rw [List.length_append, List.length_singleton] at hc; omega)
    · rw [List.length_append, List.length_singleton]
      exact Nat.succ_le_succ h.count

theorem columns_parts (m : ℕ) : ∀ (rest l : List (ι → ℝ)) (q : QR ι), Parts q l → l.length + rest.length ≤ Fintype.card ι → Parts (columns m rest l.length q) (l ++ rest)
  | [], l, q, h, _ => by rw [List.append_nil]; exact h
  | v :: rest, l, q, h, hc => by
    rw [List.length_cons] at hc
    rw [columns, if_neg (by omega)]
    have := columns_parts m rest (l ++ [v]) _ (addColumn_parts h v) (by rw [List.length_append, List.length_singleton]; omega)
    rw [List.length_append, List.length_singleton, List.append_assoc, List.singleton_append] at this
    exact this

theorem decompose_parts {m : ℕ} (A : Matrix ι (Fin m) ℝ) (hm : m ≤ Fintype.card ι) : Parts (decompose A) (cols A) :=
  columns_parts m (cols A) [] QR.empty parts_empty (by simpa [cols] using hm)

/-! ## As matrices -/

theorem left_orth {q : QR ι} (h : Orth q) : (left q)ᵀ * left q = 1 := by
  ext i j
  rw [Matrix.mul_apply, Matrix.one_apply]
  exact (h i i.2 j j.2).trans (if_congr (by rw [Fin.ext_iff]) rfl rfl)

theorem left_ortho_of {c m : ℕ} {U : Matrix ι (Fin c) ℝ} {A : Matrix ι (Fin m) ℝ} (hm : m ≤ Fintype.card ι) (h : Uᵀ * A = 0) : Uᵀ * left (decompose A) = 0 := by
  ext i j
  rw [Matrix.mul_apply]
  refine (decompose_parts A hm).span (fun x => U x i) (fun v hv => ?_) j j.2
  unfold cols at hv
  rw [List.mem_ofFn] at hv
  obtain ⟨k, rfl⟩ := hv
  have := congrFun (congrFun h i) k
  rw [Matrix.mul_apply] at this
  exact this

/-- Two matrices whose columns differ by at most the smallest positive number. -/
def Near {m : ℕ} (A A' : Matrix ι (Fin m) ℝ) : Prop := ∀ j, l2 (fun x => A x j - A' x j) ≤ dblMin

theorem near_decompose {m : ℕ} (A : Matrix ι (Fin m) ℝ) (hm : m ≤ Fintype.card ι) : Near A (left (decompose A) * right (decompose A) m) := by
  intro j
  have := (decompose_parts A hm).near j (by simp [cols])
  refine le_of_eq_of_le ?_ this
  congr 1
  funext x
  rw [Matrix.mul_apply]
  congr 1
  · unfold cols
    rw [List.getElem_ofFn]
  · rw [Finset.sum_range]
    exact Finset.sum_congr rfl fun i _ => mul_comm _ _

/-- Specification: the matrix that is represented. -/
def SVD.matrix (s : SVD κ ι) : Matrix κ ι ℝ := s.psi * diagonal s.sigma * s.phiᵀ

/-- Specification of a singular value decomposition. -/
structure SVD.Valid (s : SVD κ ι) : Prop where
  left : s.psiᵀ * s.psi = 1
  right : s.phiᵀ * s.phi = 1
  nonneg : ∀ i, 0 ≤ s.sigma i
  sorted : ∀ i j, i ≤ j → s.sigma j ≤ s.sigma i

theorem valid_empty : (SVD.empty : SVD κ ι).Valid :=
  ⟨by ext i; exact i.elim0, by ext i; exact i.elim0, fun i => i.elim0, fun i => i.elim0⟩

theorem matrix_empty : (SVD.empty : SVD κ ι).matrix = 0 := by
  ext k i
  have : IsEmpty (Fin (SVD.empty : SVD κ ι).cols) := inferInstanceAs (IsEmpty (Fin 0))
  rw [SVD.matrix, Matrix.mul_apply]
  exact Finset.sum_of_isEmpty _

theorem fromCols_orth {c m : ℕ} {U : Matrix ι (Fin c) ℝ} {P : Matrix ι (Fin m) ℝ} (h1 : Uᵀ * U = 1) (h2 : Uᵀ * P = 0) (h3 : Pᵀ * P = 1) : (fromCols U P)ᵀ * fromCols U P = 1 := by
  rw [transpose_fromCols, fromRows_mul_fromCols, h1, h2, h3, show Pᵀ * U = (Uᵀ * P)ᵀ by rw [transpose_mul, transpose_transpose], h2, transpose_zero, fromBlocks_one]

theorem mul_orth {α β : Type} [Fintype α] [DecidableEq α] [Fintype β] [DecidableEq β] {V : Matrix ι α ℝ} {U : Matrix α β ℝ} (h1 : Vᵀ * V = 1) (h2 : Uᵀ * U = 1) : (V * U)ᵀ * (V * U) = 1 := by
  rw [transpose_mul, Matrix.mul_assoc, ← Matrix.mul_assoc Vᵀ, h1, Matrix.one_mul, h2]

theorem rest_ortho {c m : ℕ} {U : Matrix ι (Fin c) ℝ} (h : Uᵀ * U = 1) (A : Matrix ι (Fin m) ℝ) : Uᵀ * (A - U * (Uᵀ * A)) = 0 := by
  rw [Matrix.mul_sub, ← Matrix.mul_assoc, h, Matrix.one_mul, sub_self]

/-- The matrix which the basis represents instead of `A`. -/
noncomputable def approx {c m : ℕ} (U : Matrix ι (Fin c) ℝ) (A : Matrix ι (Fin m) ℝ) : Matrix ι (Fin m) ℝ :=
  let q := decompose (A - U * (Uᵀ * A))
  U * (Uᵀ * A) + left q * right q m

theorem near_approx {c m : ℕ} (U : Matrix ι (Fin c) ℝ) (A : Matrix ι (Fin m) ℝ) (hm : m ≤ Fintype.card ι) : Near A (approx U A) := by
  intro j
  refine le_of_eq_of_le ?_ (near_decompose (A - U * (Uᵀ * A)) hm j)
  congr 1
  funext x
  simp only [approx, Matrix.add_apply, Matrix.sub_apply]
  ring

/-- Without truncation the new decomposition represents the sum. -/
theorem grow_matrix {svd : Solver} {s : SVD κ ι} {m : ℕ} {A : Matrix κ (Fin m) ℝ} {B : Matrix ι (Fin m) ℝ}
    (hsvd : ∀ (c a b : ℕ) (K : Matrix (Fin c ⊕ Fin a) (Fin c ⊕ Fin b) ℝ), (svd c a b K).IsSvd K) :
    (s.grow svd A B).matrix = s.matrix + approx s.psi A * (approx s.phi B)ᵀ := by
  let p := decompose (A - s.psi * (s.psiᵀ * A))
  let q := decompose (B - s.phi * (s.phiᵀ * B))
  have hd := (hsvd _ _ _ (small s A B p q)).product
  have e : (s.grow svd A B).matrix = fromCols s.psi (left p) * small s A B p q * (fromCols s.phi (left q))ᵀ := by
    have g : ∀ d : Thin (Fin s.cols ⊕ Fin p.cols) (Fin s.cols ⊕ Fin q.cols), (fromCols s.psi (left p) * d.U) * diagonal d.S * (fromCols s.phi (left q) * d.V)ᵀ =
        fromCols s.psi (left p) * (d.U * diagonal d.S * d.Vᵀ) * (fromCols s.phi (left q))ᵀ := fun d => by
      rw [transpose_mul]
      simp only [Matrix.mul_assoc]
    exact (g _).trans (by rw [← hd])
  rw [e]
  unfold small
  rw [Matrix.mul_add, Matrix.add_mul]
  congr 1
  · rw [fromCols_mul_fromBlocks, transpose_fromCols, fromCols_mul_fromRows]
    simp [SVD.matrix]
  · rw [← Matrix.mul_assoc, fromCols_mul_fromRows, Matrix.mul_assoc, ← transpose_mul, fromCols_mul_fromRows]
    rfl

theorem grow_valid {svd : Solver} {s : SVD κ ι} (h : s.Valid) {m : ℕ} {A : Matrix κ (Fin m) ℝ} {B : Matrix ι (Fin m) ℝ} (h1 : m ≤ Fintype.card κ) (h2 : m ≤ Fintype.card ι)
    (hsvd : ∀ (c a b : ℕ) (K : Matrix (Fin c ⊕ Fin a) (Fin c ⊕ Fin b) ℝ), (svd c a b K).IsSvd K) : (s.grow svd A B).Valid := by
  have hd := hsvd _ _ _ (small s A B (decompose (A - s.psi * (s.psiᵀ * A))) (decompose (B - s.phi * (s.phiᵀ * B))))
  refine ⟨?_, ?_, hd.nonneg, hd.sorted⟩
  · exact mul_orth (fromCols_orth h.left (left_ortho_of h1 (rest_ortho h.left A)) (left_orth (decompose_parts _ h1).orth)) hd.left
  · exact mul_orth (fromCols_orth h.right (left_ortho_of h2 (rest_ortho h.right B)) (left_orth (decompose_parts _ h2).orth)) hd.right

end Verif.Accel.Svd
