import Verif.Accel.QRFilter
import Mathlib.LinearAlgebra.LinearIndependent.Lemmas
import Mathlib.LinearAlgebra.Matrix.ToLinearEquiv
import Mathlib.LinearAlgebra.Matrix.Block
import Mathlib.LinearAlgebra.Dimension.Constructions
import Mathlib.LinearAlgebra.FiniteDimensional.Lemmas

/-!
# The factorised matrix has full rank, and the least-squares problem is solved (C75, C92)

A column is only inserted into a factorisation if it is not (numerically) a combination of the others. So the columns are always linearly independent, no diagonal entry of `R` is zero and
the back substitution is well defined.
-/

set_option autoImplicit false
set_option linter.unusedSectionVars false

namespace Verif.Accel

open Finset

variable {ι : Type} [Fintype ι]

/-- Specification: the columns are linearly independent. -/
def FullRank (A : List (ι → ℝ)) : Prop := A.Nodup ∧ LinearIndepOn ℝ id {a | a ∈ A}

theorem fullRank_nil : FullRank ([] : List (ι → ℝ)) := ⟨List.nodup_nil, by simp⟩

theorem FullRank.sublist {A B : List (ι → ℝ)} (h : FullRank A) (hs : B.Sublist A) : FullRank B :=
  ⟨h.1.sublist hs, h.2.mono fun _ hb => hs.subset hb⟩

theorem mem_span_project {q : QR ι} {A : List (ι → ℝ)} (h : Factorizes q A) {v : ι → ℝ} (hv : v ∈ Submodule.span ℝ {a | a ∈ A}) : q.project q.cols v = fun _ => 0 := by
  have key : ∃ c : ℕ → ℝ, ∀ x, v x = ∑ i ∈ range q.cols, c i * q.Q i x := by
    induction hv using Submodule.span_induction with
    | mem a ha =>
      obtain ⟨j, hj, rfl⟩ := List.getElem_of_mem ha
      exact ⟨fun i => q.R i j, fun x => (h.product j hj x).symm⟩
    | zero => exact ⟨fun _ => 0, fun x => by simp⟩
    | add a b _ _ ha hb =>
      obtain ⟨c, hc⟩ := ha
      obtain ⟨d, hd⟩ := hb
      refine ⟨fun i => c i + d i, fun x => ?_⟩
      rw [Pi.add_apply, hc, hd, ← Finset.sum_add_distrib]
      exact Finset.sum_congr rfl fun i _ => by ring
    | smul t a _ ha =>
      obtain ⟨c, hc⟩ := ha
      refine ⟨fun i => t * c i, fun x => ?_⟩
      rw [Pi.smul_apply, hc, smul_eq_mul, Finset.mul_sum]
      exact Finset.sum_congr rfl fun i _ => by ring
  obtain ⟨c, hc⟩ := key
  have hip : ∀ j < q.cols, ip (q.Q j) v = c j := by
    intro j hj
    have : ip (q.Q j) v = ∑ i ∈ range q.cols, c i * ip (q.Q j) (q.Q i) := by
      unfold ip
      simp only [hc, Finset.mul_sum]
      rw [Finset.sum_comm]
      exact Finset.sum_congr rfl fun i _ => Finset.sum_congr rfl fun x _ => by ring
    rw [this, Finset.sum_eq_single j]
    · rw [h.orthonormal j hj j hj, if_pos rfl, mul_one]
    · intro i hi hne
      rw [h.orthonormal j hj i (Finset.mem_range.1 hi), if_neg (Ne.symm hne), mul_zero]
    · intro hn
      exact absurd (Finset.mem_range.2 hj) hn
  funext x
  unfold QR.project
  rw [hc x, sub_eq_zero]
  exact Finset.sum_congr rfl fun i hi => by rw [hip i (Finset.mem_range.1 hi)]

/-- An inserted column is independent of the others. -/
theorem FullRank.insert {q q' : QR ι} {A : List (ι → ℝ)} (hr : FullRank A) (h : Factorizes q A) {k : ℕ} (hk : k ≤ q.cols) {v : ι → ℝ} {eps : ℝ} (hi : q.insertColumn k v eps = some q') :
    FullRank (A.insertIdx k v) := by
  have hns : v ∉ Submodule.span ℝ {a | a ∈ A} := by
    intro hv
    have h0 := mem_span_project h hv
    have : q.insertColumn k v eps = none := (C79_insert_fails_iff h).2 (Or.inr (Or.inl (by
      rw [h0]
      have : l2 (fun _ : ι => (0 : ℝ)) = 0 := by simp [l2, ip]
      rw [this]
      exact dblMin_pos.le)))
    rw [this] at hi
    exact absurd hi (by simp)
  have hp : (A.insertIdx k v).Perm (v :: A) := List.perm_insertIdx v A (by rw [h.length]; exact hk)
  refine ⟨hp.nodup_iff.2 (List.nodup_cons.2 ⟨fun hm => hns (Submodule.subset_span hm), hr.1⟩), ?_⟩
  have : {a | a ∈ A.insertIdx k v} = Insert.insert v {a | a ∈ A} := by
    ext a
    simp only [Set.mem_ofPred_eq, Set.mem_insert_iff, hp.mem_iff, List.mem_cons]
  rw [this]
  exact hr.2.id_insert hns

theorem FullRank.combination {A : List (ι → ℝ)} (hr : FullRank A) (c : Fin A.length → ℝ) (h : ∀ x, ∑ j, c j * A[j] x = 0) : c = 0 := by
  have hinj : Function.Injective fun j : Fin A.length => (⟨A[j], List.getElem_mem j.2⟩ : {a | a ∈ A}) := by
    intro i j hij
    have := congrArg Subtype.val hij
    exact Fin.ext ((hr.1.getElem_inj_iff).1 this)
  have hli : LinearIndependent ℝ fun j : Fin A.length => A[j] := LinearIndependent.comp hr.2 _ hinj
  rw [Fintype.linearIndependent_iff] at hli
  funext j
  refine hli c ?_ j
  funext x
  rw [Finset.sum_apply]
  simpa using h x

/-- C75: no diagonal entry of the factor `R` is zero if the columns are independent. -/
theorem C75_diagonal {q : QR ι} {A : List (ι → ℝ)} (h : Factorizes q A) (hr : FullRank A) : ∀ i < q.cols, q.R i i ≠ 0 := by
  have hlen := h.length
  set M : Matrix (Fin A.length) (Fin A.length) ℝ := fun i j => q.R i j with hM
  have hdet : M.det ≠ 0 := by
    intro h0
    obtain ⟨c, hc, hz⟩ := Matrix.exists_mulVec_eq_zero_iff.2 h0
    refine hc (hr.combination c fun x => ?_)
    have e1 : ∀ j : Fin A.length, A[j] x = ∑ i : Fin A.length, q.R i j * q.Q i x := fun j => by
      have := h.product j j.2 x
      rw [← hlen, Finset.sum_range] at this
      exact this.symm
    simp only [e1, Finset.mul_sum]
    rw [Finset.sum_comm]
    refine Finset.sum_eq_zero fun i _ => ?_
    have := congrFun hz i
    unfold Matrix.mulVec dotProduct at this
    rw [Pi.zero_apply] at this
    have e2 : ∑ j, c j * (q.R i j * q.Q i x) = (∑ j, M i j * c j) * q.Q i x := by
      rw [Finset.sum_mul]
      exact Finset.sum_congr rfl fun j _ => by rw [hM]; ring
    rw [e2, this, zero_mul]
  rw [Matrix.det_of_isUpperTriangular (by
    intro i j hij
    exact h.upper i (by rw [← hlen]; exact i.2) j hij)] at hdet
  intro i hi
  exact (Finset.prod_ne_zero_iff.1 hdet) ⟨i, by rw [hlen]; exact hi⟩ (Finset.mem_univ _)

/-! ## Histories -/

/-- C75: the columns of every factorisation that comes from insertions and deletions are independent. -/
theorem C75_history {q : QR ι} {A : List (ι → ℝ)} (h : QRReaches q A) : FullRank A := by
  induction h with
  | empty => exact fullRank_nil
  | inserted h hk hi ih => exact ih.insert (C79_history h) hk hi
  | deleted _ _ ih => exact ih.sublist (List.eraseIdx_sublist _ _)

theorem rebuild_fullRank {limit : ℝ} : ∀ (l : List (ι → ℝ)) (n : ℕ) (q : QR ι) (A : List (ι → ℝ)), Factorizes q A → FullRank A →
    FullRank (A ++ ((l.zipIdx n).filter fun p => p.2 ∉ (QR.rebuild limit l n q).2).map Prod.fst)
  | [], n, q, A, _, hr => by simpa using hr
  | v :: l, n, q, A, h, hr => by
    rw [QR.rebuild]
    cases hi : q.insertColumn q.cols v limit with
    | some q' =>
      simp only
      have hf := C79_insert h le_rfl hi
      have hr' := hr.insert h le_rfl hi
      rw [← h.length, List.insertIdx_length_self] at hf hr'
      have h1 := rebuild_fullRank (limit := limit) l (n + 1) q' _ hf hr'
      have h2 := (rebuild_spec (limit := limit) l (n + 1) q' _ hf).2.1
      rw [List.zipIdx_cons, List.filter_cons_of_pos]
      · rw [List.map_cons]
        simpa using h1
      · simp only [decide_not, Bool.not_eq_true', decide_eq_false_iff_not]
        intro hn
        have := h2 n hn
        omega
    | none =>
      simp only
      have h1 := rebuild_fullRank (limit := limit) l (n + 1) q A h hr
      rw [List.zipIdx_cons, List.filter_cons_of_neg (by simp)]
      have : ((l.zipIdx (n + 1)).filter fun p => p.2 ∉ n :: (QR.rebuild limit l (n + 1) q).2) = (l.zipIdx (n + 1)).filter fun p => p.2 ∉ (QR.rebuild limit l (n + 1) q).2 := by
        refine List.filter_congr fun p hp => ?_
        have := zipIdx_mem_range hp
        simp only [List.mem_cons, not_or, decide_eq_decide]
        exact ⟨fun h => h.2, fun h => ⟨by omega, h⟩⟩
      rw [this]
      exact h1

/-- C75: so are those of a rebuilt one. -/
theorem C75_rebuilt (limit : ℝ) (V : List (ι → ℝ)) : FullRank (without (QR.resetFilter limit V).2 V) := rebuild_fullRank V 0 QR.empty [] factorizes_empty fullRank_nil

theorem without_sublist {α : Type} (dels : List ℕ) (l : List α) : (without dels l).Sublist l := by
  unfold without
  have := (List.filter_sublist (l := l.zipIdx) (p := fun p => decide (p.2 ∉ dels))).map Prod.fst
  rwa [List.zipIdx_map_fst] at this

/-! ## The least-squares problem -/

/-- The loop of the back substitution, from row `k - 1` to the first one. -/
noncomputable def backLoop (R : ℕ → ℕ → ℝ) (b : ℕ → ℝ) (n : ℕ) : ℕ → (ℕ → ℝ) → ℕ → ℝ
  | 0, c => c
  | k + 1, c => backLoop R b n k fun i => if i = k then (b k - ∑ j ∈ range n, if k < j then R k j * c j else 0) / R k k else c i

/-- `R.triangularView<Eigen::Upper>().solve<Eigen::OnTheLeft>(b)`, IQNILSAcceleration.cpp:85, 107. A division by zero is possible in the definition, `C75_diagonal` shows that it does not happen. -/
noncomputable def backSubstitution (R : ℕ → ℕ → ℝ) (n : ℕ) (b : ℕ → ℝ) : ℕ → ℝ := backLoop R b n n fun _ => 0

theorem backLoop_spec {R : ℕ → ℕ → ℝ} {b : ℕ → ℝ} {n : ℕ} (hd : ∀ i < n, R i i ≠ 0) : ∀ (k : ℕ) (c : ℕ → ℝ), k ≤ n →
    (∀ i, k ≤ i → i < n → R i i * c i + (∑ j ∈ range n, if i < j then R i j * c j else 0) = b i) →
    (∀ i, k ≤ i → backLoop R b n k c i = c i) ∧
    ∀ i < n, R i i * backLoop R b n k c i + (∑ j ∈ range n, if i < j then R i j * backLoop R b n k c j else 0) = b i
  | 0, c, _, h => ⟨fun _ _ => rfl, fun i hi => h i (Nat.zero_le i) hi⟩
  | k + 1, c, hk, h => by
    rw [backLoop]
    set c' : ℕ → ℝ := fun i => if i = k then (b k - ∑ j ∈ range n, if k < j then R k j * c j else 0) / R k k else c i with hc'
    have hne : ∀ i, k < i → c' i = c i := fun i hi => by rw [hc']; simp only; rw [if_neg (by omega)]
    have hsum : ∀ i, k ≤ i → (∑ j ∈ range n, if i < j then R i j * c' j else 0) = ∑ j ∈ range n, if i < j then R i j * c j else 0 := fun i hi =>
      Finset.sum_congr rfl fun j _ => by
        split_ifs with hij
        · rw [hne j (by omega)]
        · rfl
    obtain ⟨h1, h2⟩ := backLoop_spec (b := b) hd k c' (by omega) fun i hi hin => by
      rw [hsum i hi]
      rcases Nat.eq_or_lt_of_le hi with rfl | hlt
      · have : c' k = (b k - ∑ j ∈ range n, if k < j then R k j * c j else 0) / R k k := by rw [hc']; simp
        rw [this, mul_div_cancel₀ _ (hd k hin)]
        ring
      · rw [hne i hlt]
        exact h i hlt hin
    exact ⟨fun i hi => (h1 i (by omega)).trans (hne i (by omega)), h2⟩

theorem backSubstitution_spec {R : ℕ → ℕ → ℝ} {b : ℕ → ℝ} {n : ℕ} (hd : ∀ i < n, R i i ≠ 0) (hu : ∀ i < n, ∀ j < i, R i j = 0) {i : ℕ} (hi : i < n) :
    ∑ j ∈ range n, R i j * backSubstitution R n b j = b i := by
  have h := (backLoop_spec (b := b) hd n (fun _ => 0) le_rfl (fun j h1 h2 => by omega)).2 i hi
  rw [← h]
  unfold backSubstitution
  generalize backLoop R b n n (fun _ => 0) = c
  have : ∀ j ∈ range n, R i j * c j = (if i = j then R i i * c i else 0) + if i < j then R i j * c j else 0 := by
    intro j hj
    rcases lt_trichotomy i j with hij | rfl | hij
    · rw [if_neg hij.ne, if_pos hij, zero_add]
    · rw [if_pos rfl, if_neg (lt_irrefl _), add_zero]
    · rw [if_neg hij.ne', if_neg (by omega), hu i hi j hij]
      ring
  rw [Finset.sum_congr rfl this, Finset.sum_add_distrib, Finset.sum_ite_eq, if_pos (Finset.mem_range.2 hi)]

/-- The coefficients of the update, IQNILSAcceleration.cpp:66-112: `R c = - Qᵀ r` for the scaled residual `r`. In parallel, the products with the local rows are summed over the ranks and the
primary rank solves; the sum is the one over all rows. -/
noncomputable def QR.coefficients (q : QR ι) (r : ι → ℝ) : ℕ → ℝ := backSubstitution q.R q.cols fun i => -ip (q.Q i) r

/-- A combination of columns. -/
def combine {α : Type} (A : List (α → ℝ)) (c : ℕ → ℝ) : α → ℝ := fun x => ∑ j : Fin A.length, c j * A[j] x

theorem combine_factors {q : QR ι} {A : List (ι → ℝ)} (h : Factorizes q A) (c : ℕ → ℝ) (x : ι) : combine A c x = ∑ i ∈ range q.cols, (∑ j ∈ range q.cols, q.R i j * c j) * q.Q i x := by
  unfold combine
  have e1 : ∀ j : Fin A.length, A[j] x = ∑ i ∈ range q.cols, q.R i j * q.Q i x := fun j => (h.product j j.2 x).symm
  simp only [e1, Finset.mul_sum, Finset.sum_mul]
  rw [Finset.sum_comm]
  refine Finset.sum_congr rfl fun i _ => ?_
  rw [← h.length, Finset.sum_range]
  exact Finset.sum_congr rfl fun j _ => by ring

/-- With these coefficients the combination of the columns cancels the part of the residual that is in their span. -/
theorem combine_coefficients {q : QR ι} {A : List (ι → ℝ)} (h : Factorizes q A) (hr : FullRank A) (r : ι → ℝ) (x : ι) : r x + combine A (q.coefficients r) x = q.project q.cols r x := by
  rw [combine_factors h]
  unfold QR.project
  have : ∀ i ∈ range q.cols, (∑ j ∈ range q.cols, q.R i j * q.coefficients r j) * q.Q i x = -(ip (q.Q i) r * q.Q i x) := by
    intro i hi
    unfold QR.coefficients
    rw [backSubstitution_spec (C75_diagonal h hr) h.upper (Finset.mem_range.1 hi)]
    ring
  rw [Finset.sum_congr rfl this, Finset.sum_neg_distrib]
  ring

theorem ip_self_nonneg (u : ι → ℝ) : 0 ≤ ip u u := Finset.sum_nonneg fun _ _ => mul_self_nonneg _

/-- C92: the coefficients of the update solve the least-squares problem: no other combination of the columns comes closer to the negative residual. -/
theorem C92_least_squares {q : QR ι} {A : List (ι → ℝ)} (h : Factorizes q A) (hr : FullRank A) (r : ι → ℝ) (c : ℕ → ℝ) :
    l2 (fun x => r x + combine A (q.coefficients r) x) ≤ l2 (fun x => r x + combine A c x) := by
  unfold l2
  refine Real.sqrt_le_sqrt ?_
  set e : ι → ℝ := fun x => r x + combine A (q.coefficients r) x with he
  have hep : e = q.project q.cols r := funext fun x => combine_coefficients h hr r x
  set d : ι → ℝ := fun x => combine A (fun j => c j - q.coefficients r j) x with hdd
  have e1 : (fun x => r x + combine A c x) = fun x => e x + d x := by
    funext x
    rw [he, hdd]
    simp only [combine, sub_mul, Finset.sum_sub_distrib]
    ring
  have horth : ip e d = 0 := by
    have : ip e d = ∑ i ∈ range q.cols, (∑ j ∈ range q.cols, q.R i j * (c j - q.coefficients r j)) * ip e (q.Q i) := by
      unfold ip
      rw [hdd]
      simp only [combine_factors h, Finset.mul_sum]
      rw [Finset.sum_comm]
      exact Finset.sum_congr rfl fun i _ => Finset.sum_congr rfl fun x _ => by ring
    rw [this]
    refine Finset.sum_eq_zero fun i hi => ?_
    rw [ip_comm, hep, ip_project h.orthonormal r (Finset.mem_range.1 hi), mul_zero]
  have e2 : ip (fun x => e x + d x) (fun x => e x + d x) = ip e e + 2 * ip e d + ip d d := by
    unfold ip
    rw [Finset.mul_sum, ← Finset.sum_add_distrib, ← Finset.sum_add_distrib]
    exact Finset.sum_congr rfl fun x _ => by ring
  rw [e1, e2, horth]
  have := ip_self_nonneg d
  linarith

/-- C92: if the negative residual is a combination of the columns, the update finds it. -/
theorem C92_residual_in_span {q : QR ι} {A : List (ι → ℝ)} (h : Factorizes q A) (hr : FullRank A) {r : ι → ℝ} (hs : ∃ c, ∀ x, r x + combine A c x = 0) (x : ι) :
    r x + combine A (q.coefficients r) x = 0 := by
  obtain ⟨c, hc⟩ := hs
  have hle := C92_least_squares h hr r c
  have h0 : (fun x => r x + combine A c x) = fun _ => 0 := funext hc
  rw [h0] at hle
  have hz : l2 (fun _ : ι => (0 : ℝ)) = 0 := by simp [l2, ip]
  rw [hz] at hle
  unfold l2 at hle
  have hs0 : ip (fun x => r x + combine A (q.coefficients r) x) (fun x => r x + combine A (q.coefficients r) x) = 0 := le_antisymm (Real.sqrt_eq_zero'.1 (le_antisymm hle (Real.sqrt_nonneg _))) (ip_self_nonneg _)
  unfold ip at hs0
  exact mul_self_eq_zero.1 ((Finset.sum_eq_zero_iff_of_nonneg fun _ _ => mul_self_nonneg _).1 hs0 x (Finset.mem_univ x))

/-- C92: with as many (independent) columns as there are unknowns, every residual is a combination of them. -/
theorem C92_complete {A : List (ι → ℝ)} (hr : FullRank A) (hn : A.length = Fintype.card ι) (r : ι → ℝ) : ∃ c, ∀ x, r x + combine A c x = 0 := by
  have hinj : Function.Injective fun j : Fin A.length => (⟨A[j], List.getElem_mem j.2⟩ : {a | a ∈ A}) := by
    intro i j hij
    have := congrArg Subtype.val hij
    exact Fin.ext ((hr.1.getElem_inj_iff).1 this)
  have hli : LinearIndependent ℝ fun j : Fin A.length => A[j] := LinearIndependent.comp hr.2 _ hinj
  have htop : Submodule.span ℝ (Set.range fun j : Fin A.length => A[j]) = ⊤ := hli.span_eq_top_of_card_eq_finrank' (by
    rw [Fintype.card_fin, Module.finrank_fintype_fun_eq_card, hn])
  have hmem : (fun x => -r x) ∈ Submodule.span ℝ (Set.range fun j : Fin A.length => A[j]) := by rw [htop]; trivial
  obtain ⟨c, hc⟩ := (Submodule.mem_span_range_iff_exists_fun ℝ).1 hmem
  refine ⟨fun j => if hj : j < A.length then c ⟨j, hj⟩ else 0, fun x => ?_⟩
  have := congrFun hc x
  rw [Finset.sum_apply] at this
  unfold combine
  have e : ∀ j : Fin A.length, (if hj : (j : ℕ) < A.length then c ⟨j, hj⟩ else 0) = c j := fun j => by rw [dif_pos j.2]
  simp only [e]
  simp only [Pi.smul_apply, smul_eq_mul] at this
  rw [this]
  ring

end Verif.Accel
