import Verif.Accel.QR
import Mathlib.Algebra.BigOperators.Fin
import Mathlib.Data.List.Pairwise

/-!
# Rebuilding and filtering a QR factorisation (C75)

Model of `reset`, `resetFilter` and `applyFilter` of `/repo/src/acceleration/impl/QRFactorization.cpp`. Every one of them gives the indices of columns that are not part of the
factorisation any more; the specification `without` says what that means for the matrix.
-/

set_option autoImplicit false
set_option linter.unusedSectionVars false

namespace Verif.Accel

open Finset

variable {ι : Type} [Fintype ι]

/-- The entries whose positions are not listed. -/
def without {α : Type} (dels : List ℕ) (l : List α) : List α := (l.zipIdx.filter fun p => p.2 ∉ dels).map Prod.fst

/-! ## Model -/

/-- The loop of `resetFilter`, QRFactorization.cpp:180-192, from column `n` on; gives the indices of the columns that could not be inserted. -/
noncomputable def QR.rebuild (limit : ℝ) : List (ι → ℝ) → ℕ → QR ι → QR ι × List ℕ
  | [], _, q => (q, [])
  | v :: l, n, q =>
    match q.insertColumn q.cols v limit with
    | some q' => QR.rebuild limit l (n + 1) q'
    | none => ((QR.rebuild limit l (n + 1) q).1, n :: (QR.rebuild limit l (n + 1) q).2)

/-- `resetFilter`, QRFactorization.cpp:177-194 -/
noncomputable def QR.resetFilter (limit : ℝ) (V : List (ι → ℝ)) : QR ι × List ℕ := QR.rebuild limit V 0 QR.empty

/-- The loop of `reset`, QRFactorization.cpp:780-789: `k` is the position of the next insertion. -/
noncomputable def QR.resetLoop : List (ι → ℝ) → ℕ → ℕ → QR ι → QR ι × List ℕ × ℕ
  | [], _, k, q => (q, [], k)
  | v :: l, col, k, q =>
    match q.insertColumn k v 0 with
    | some q' => QR.resetLoop l (col + 1) (k + 1) q'
    | none => ((QR.resetLoop l (col + 1) k q).1, col :: (QR.resetLoop l (col + 1) k q).2.1, (QR.resetLoop l (col + 1) k q).2.2)

/-- `reset`, QRFactorization.cpp:757-796 -/
noncomputable def QR.reset (V : List (ι → ℝ)) : QR ι × List ℕ := ((QR.resetLoop V 0 0 QR.empty).1, (QR.resetLoop V 0 0 QR.empty).2.1)

/-- `_R.norm()`, the Frobenius norm. -/
noncomputable def QR.normR (q : QR ι) : ℝ := √(∑ i ∈ range q.cols, ∑ j ∈ range q.cols, q.R i j ^ 2)

/-- The threshold of the filter QR1, absolute or relative to the norm of `R`, QRFactorization.cpp:129-130 -/
noncomputable def QR.threshold (absolute : Bool) (limit : ℝ) (q : QR ι) : ℝ := limit * (if absolute then 1 else q.normR)

/-- One pass of the filter QR1 over the flags, QRFactorization.cpp:121-142: the remaining original positions, the actual index, the factors, the deleted positions so far. -/
noncomputable def QR.filterPass (absolute : Bool) (limit : ℝ) : List ℕ → ℕ → QR ι → List ℕ → QR ι × List ℕ
  | [], _, q, dels => (q, dels)
  | i :: is, index, q, dels =>
    open Classical in
    if i ∈ dels then QR.filterPass absolute limit is index q dels
    else if index ≥ q.cols then (q, dels)
    else if |q.R index index| < q.threshold absolute limit then QR.filterPass absolute limit is index (q.deleteColumn index) (dels ++ [i])
    else QR.filterPass absolute limit is (index + 1) q dels

/-- The loop of the filter QR1, QRFactorization.cpp:117-144; a pass is only made if there is more than one column, the loop ends with a pass without deletion. `n` is the number of flags.
`C75_qr1_done` shows that the given number of passes is enough. -/
noncomputable def QR.filterLoop (absolute : Bool) (limit : ℝ) (n : ℕ) : ℕ → QR ι → List ℕ → QR ι × List ℕ
  | 0, q, dels => (q, dels)
  | fuel + 1, q, dels =>
    if q.cols > 1 then
      let r := QR.filterPass absolute limit (List.range n) 0 q dels
      if r.2 = dels then r else QR.filterLoop absolute limit n fuel r.1 r.2
    else (q, dels)

/-- The filters QR1 and QR1-absolute; `std::sort` of the indices at the end. -/
noncomputable def QR.filter1 (absolute : Bool) (limit : ℝ) (q : QR ι) : QR ι × List ℕ :=
  let r := QR.filterLoop absolute limit q.cols (q.cols + 1) q []
  (r.1, (List.range q.cols).filter fun i => i ∈ r.2)

/-- The check of the filter QR3, QRFactorization.cpp:148-156; undefined if there are no columns, because the index starts at `cols - 1` converted to an unsigned number. -/
noncomputable def QR.needsQR2 (limit : ℝ) (q : QR ι) (V : List (ι → ℝ)) : Option Bool :=
  open Classical in if q.cols = 0 then none else some (decide (∃ i, 0 < i ∧ i < q.cols ∧ |q.R i i| < l2 (V.getD i (fun _ => 0)) * limit))

/-! ## Lists without some positions -/

theorem zipIdx_mem_range {α : Type} {l : List α} {n : ℕ} {p : α × ℕ} (h : p ∈ l.zipIdx n) : n ≤ p.2 ∧ p.2 < n + l.length := by
  obtain ⟨a, i⟩ := p
  exact ⟨List.le_snd_of_mem_zipIdx h, List.snd_lt_add_of_mem_zipIdx h⟩

theorem rebuild_spec {limit : ℝ} : ∀ (l : List (ι → ℝ)) (n : ℕ) (q : QR ι) (A : List (ι → ℝ)), Factorizes q A →
    Factorizes (QR.rebuild limit l n q).1 (A ++ ((l.zipIdx n).filter fun p => p.2 ∉ (QR.rebuild limit l n q).2).map Prod.fst) ∧
    (∀ i ∈ (QR.rebuild limit l n q).2, n ≤ i ∧ i < n + l.length) ∧ (QR.rebuild limit l n q).2.Pairwise (· < ·)
  | [], n, q, A, h => ⟨by simpa [QR.rebuild] using h, by simp [QR.rebuild], by simp [QR.rebuild]⟩
  | v :: l, n, q, A, h => by
    rw [QR.rebuild]
    cases hi : q.insertColumn q.cols v limit with
    | some q' =>
      simp only
      have hf := C79_insert h le_rfl hi
      rw [← h.length, List.insertIdx_length_self] at hf
      obtain ⟨h1, h2, h3⟩ := rebuild_spec l (n + 1) q' _ hf
      refine ⟨?_, fun i hi => ?_, h3⟩
      · rw [List.zipIdx_cons, List.filter_cons_of_pos]
        · rw [List.map_cons]
          simpa using h1
        · simp only [decide_not, Bool.not_eq_true', decide_eq_false_iff_not]
          intro hn
          have := h2 n hn
          omega
      · have := h2 i hi
        rw [List.length_cons]
        omega
    | none =>
      simp only
      obtain ⟨h1, h2, h3⟩ := rebuild_spec l (n + 1) q A h
      refine ⟨?_, fun i hi => ?_, ?_⟩
      · rw [List.zipIdx_cons, List.filter_cons_of_neg (by simp)]
        have : ((l.zipIdx (n + 1)).filter fun p => p.2 ∉ n :: (QR.rebuild limit l (n + 1) q).2) = (l.zipIdx (n + 1)).filter fun p => p.2 ∉ (QR.rebuild limit l (n + 1) q).2 := by
          refine List.filter_congr fun p hp => ?_
          have := zipIdx_mem_range hp
          simp only [List.mem_cons, not_or, decide_eq_decide]
          exact ⟨fun h => h.2, fun h => ⟨by omega, h⟩⟩
        rw [this]
        exact h1
      · rcases List.mem_cons.1 hi with rfl | hi
        · rw [List.length_cons]; omega
        · have := h2 i hi
          rw [List.length_cons]
          omega
      · rw [List.pairwise_cons]
        exact ⟨fun i hi => by have := h2 i hi; omega, h3⟩

/-- C75: rebuilding with the filter QR2: the new factors describe the matrix without the reported columns; those are reported once, in ascending order. -/
theorem C75_resetFilter (limit : ℝ) (V : List (ι → ℝ)) :
    Factorizes (QR.resetFilter limit V).1 (without (QR.resetFilter limit V).2 V) ∧ (∀ i ∈ (QR.resetFilter limit V).2, i < V.length) ∧ (QR.resetFilter limit V).2.Pairwise (· < ·) := by
  obtain ⟨h1, h2, h3⟩ := rebuild_spec (limit := limit) V 0 QR.empty [] factorizes_empty
  exact ⟨h1, fun i hi => by have := h2 i hi; omega, h3⟩

theorem resetLoop_eq : ∀ (l : List (ι → ℝ)) (n : ℕ) (q : QR ι) {A : List (ι → ℝ)}, Factorizes q A →
    (QR.resetLoop l n q.cols q).1 = (QR.rebuild 0 l n q).1 ∧ (QR.resetLoop l n q.cols q).2.1 = (QR.rebuild 0 l n q).2 ∧ (QR.resetLoop l n q.cols q).2.2 = (QR.rebuild 0 l n q).1.cols
  | [], _, _, _, _ => ⟨rfl, rfl, rfl⟩
  | v :: l, n, q, A, h => by
    rw [QR.resetLoop, QR.rebuild]
    cases hi : q.insertColumn q.cols v 0 with
    | some q' =>
      simp only
      have hf := C79_insert h le_rfl hi
      have hc : q'.cols = q.cols + 1 := by
        rw [← hf.length, ← h.length, List.insertIdx_length_self, List.length_append]
        rfl
      rw [← hc]
      exact resetLoop_eq l (n + 1) q' hf
    | none =>
      simp only
      obtain ⟨h1, h2, h3⟩ := resetLoop_eq l (n + 1) q h
      exact ⟨h1, by rw [h2], h3⟩

/-- C75: rebuilding without filter: the new factors describe the matrix without the reported columns. -/
theorem C75_reset (V : List (ι → ℝ)) :
    Factorizes (QR.reset V).1 (without (QR.reset V).2 V) ∧ (∀ i ∈ (QR.reset V).2, i < V.length) ∧ (QR.reset V).2.Pairwise (· < ·) := by
  obtain ⟨h1, h2, -⟩ := resetLoop_eq V 0 QR.empty factorizes_empty
  have := C75_resetFilter 0 V
  unfold QR.reset
  rw [show (QR.empty : QR ι).cols = 0 from rfl] at h1 h2
  rw [h1, h2]
  exact this

theorem project_empty (v : ι → ℝ) : (QR.empty : QR ι).project 0 v = v := by
  funext x
  simp [QR.project]

/-- C75: the latest column is never filtered out by the filter QR2, unless it is zero (the limit of the filter being at most one). -/
theorem C75_latest_kept {limit : ℝ} (hl : limit ≤ 1) {v : ι → ℝ} (hv : dblMin < l2 v) (V : List (ι → ℝ)) : 0 ∉ (QR.resetFilter limit (v :: V)).2 := by
  have hne : (QR.empty : QR ι).insertColumn 0 v limit ≠ none := by
    intro hn
    rcases (C79_insert_fails_iff factorizes_empty).1 hn with h | h | h
    · rw [show (QR.empty : QR ι).cols = 0 from rfl, Fintype.card_eq_zero_iff] at h
      have : l2 v = 0 := by simp [l2, ip]
      rw [this] at hv
      exact absurd hv (not_lt.2 dblMin_pos.le)
    · rw [show (QR.empty : QR ι).cols = 0 from rfl, project_empty] at h
      exact absurd hv (not_lt.2 h)
    · rw [show (QR.empty : QR ι).cols = 0 from rfl, project_empty] at h
      have : l2 v * limit ≤ l2 v := mul_le_of_le_one_right (dblMin_pos.trans hv).le hl
      linarith [h.2]
  obtain ⟨q', hq'⟩ := Option.ne_none_iff_exists'.1 hne
  intro hmem
  unfold QR.resetFilter QR.rebuild at hmem
  rw [show (QR.empty : QR ι).cols = 0 from rfl, hq'] at hmem
  simp only at hmem
  have hf := C79_insert factorizes_empty (le_refl 0) hq'
  have := (rebuild_spec V 1 q' _ hf).2.1 0 hmem
  omega

/-! ## The filter QR1 -/

theorem without_nil {α : Type} (l : List α) : without [] l = l := by
  unfold without
  rw [List.filter_eq_self.2 (fun p _ => by simp), List.zipIdx_map_fst]

theorem without_congr {α : Type} {d d' : List ℕ} (l : List α) (h : ∀ i < l.length, i ∈ d ↔ i ∈ d') : without d l = without d' l := by
  unfold without
  congr 1
  refine List.filter_congr fun p hp => ?_
  have := zipIdx_mem_range hp
  rw [decide_eq_decide, h p.2 (by omega)]

/-- Kept positions below `i`. -/
def keptBelow (dels : List ℕ) (i : ℕ) : ℕ := ((List.range i).filter fun j => j ∉ dels).length

theorem filter_zipIdx_length {α : Type} (P : ℕ → Bool) : ∀ (l : List α) (n : ℕ), ((l.zipIdx n).filter fun p => P p.2).length = ((List.range' n l.length).filter P).length
  | [], n => rfl
  | a :: l, n => by
    rw [List.zipIdx_cons, List.length_cons, List.range'_succ, List.filter_cons, List.filter_cons]
    have := filter_zipIdx_length P l (n + 1)
    split <;> simp [this]

theorem without_length {α : Type} (dels : List ℕ) (l : List α) : (without dels l).length = keptBelow dels l.length := by
  unfold without keptBelow
  rw [List.length_map, List.range_eq_range']
  exact filter_zipIdx_length (fun j => decide (j ∉ dels)) l 0

/-- Deleting one more position is erasing the entry at its actual index. -/
theorem without_erase {α : Type} {dels : List ℕ} {i : ℕ} {l : List α} (hi : i < l.length) (hn : i ∉ dels) : (without dels l).eraseIdx (keptBelow dels i) = without (dels ++ [i]) l := by
  have hsplit : l = l.take i ++ l[i] :: l.drop (i + 1) := by rw [List.getElem_cons_drop, List.take_append_drop]
  have hlen : (l.take i).length = i := by rw [List.length_take]; omega
  have hz : l.zipIdx = (l.take i).zipIdx ++ (l[i], i) :: (l.drop (i + 1)).zipIdx (i + 1) := by
    conv_lhs => rw [hsplit]
    rw [List.zipIdx_append, List.zipIdx_cons, hlen, zero_add]
  unfold without
  rw [hz, List.filter_append, List.filter_append, List.filter_cons_of_pos (by simpa using hn), List.filter_cons_of_neg (by simp), List.map_append, List.map_append, List.map_cons]
  have hk : (((l.take i).zipIdx.filter fun p => p.2 ∉ dels).map Prod.fst).length = keptBelow dels i := by
    have := without_length dels (l.take i)
    rw [hlen] at this
    exact this
  rw [← hk, List.eraseIdx_append_of_length_le le_rfl, Nat.sub_self, List.eraseIdx_cons_zero]
  congr 2
  · refine List.filter_congr fun p hp => ?_
    have := zipIdx_mem_range hp
    rw [hlen] at this
    rw [decide_eq_decide, List.mem_append, List.mem_singleton]
    exact ⟨fun h1 h2 => h2.elim h1 (by omega), fun h1 h2 => h1 (Or.inl h2)⟩
  · refine List.filter_congr fun p hp => ?_
    have := zipIdx_mem_range hp
    rw [decide_eq_decide, List.mem_append, List.mem_singleton]
    exact ⟨fun h1 h2 => h2.elim h1 (by omega), fun h1 h2 => h1 (Or.inl h2)⟩

theorem keptBelow_succ (dels : List ℕ) (i : ℕ) : keptBelow dels (i + 1) = keptBelow dels i + if i ∈ dels then 0 else 1 := by
  unfold keptBelow
  rw [List.range_succ, List.filter_append, List.length_append]
  congr 1
  by_cases h : i ∈ dels <;> simp [h]

theorem keptBelow_append {dels : List ℕ} {i : ℕ} (e : ℕ) (he : i ≤ e) : keptBelow (dels ++ [e]) i = keptBelow dels i := by
  unfold keptBelow
  congr 1
  refine List.filter_congr fun j hj => ?_
  rw [List.mem_range] at hj
  rw [decide_eq_decide, List.mem_append, List.mem_singleton]
  exact ⟨fun h1 h2 => h1 (Or.inl h2), fun h1 h2 => h2.elim h1 (by omega)⟩

theorem keptBelow_mono (dels : List ℕ) {i j : ℕ} (h : i ≤ j) : keptBelow dels i ≤ keptBelow dels j := by
  induction h with
  | refl => exact le_rfl
  | step _ ih => rw [keptBelow_succ]; omega

/-- One pass: the factors describe the matrix without the deleted positions, and a pass without deletion has found all diagonal entries large. -/
theorem filterPass_spec {absolute : Bool} {limit : ℝ} {A : List (ι → ℝ)} : ∀ (len i : ℕ) (q : QR ι) (dels : List ℕ), i + len = A.length → Factorizes q (without dels A) → (∀ d ∈ dels, d < A.length) →
    let r := QR.filterPass absolute limit (List.range' i len) (keptBelow dels i) q dels
    Factorizes r.1 (without r.2 A) ∧ (∀ d ∈ r.2, d < A.length) ∧ (∃ e, r.2 = dels ++ e ∧ r.1.cols + e.length = q.cols) ∧
    (r.2 = dels → r.1 = q ∧ ∀ j, keptBelow dels i ≤ j → j < q.cols → q.threshold absolute limit ≤ |q.R j j|)
  | 0, i, q, dels, hi, hf, hd => by
    intro r
    have hr : r = (q, dels) := rfl
    rw [hr]
    refine ⟨hf, hd, ⟨[], by simp, by simp⟩, fun _ => ⟨rfl, fun j h1 h2 => ?_⟩⟩
    have := without_length dels A
    rw [hf.length, ← hi, add_zero] at this
    omega
  | len + 1, i, q, dels, hi, hf, hd => by
    intro r
    have hr0 : r = QR.filterPass absolute limit (i :: List.range' (i + 1) len) (keptBelow dels i) q dels := by rw [← List.range'_succ]
    have hcols : q.cols = keptBelow dels A.length := by rw [← hf.length, without_length]
    by_cases hmem : i ∈ dels
    · have hr : r = QR.filterPass absolute limit (List.range' (i + 1) len) (keptBelow dels (i + 1)) q dels := by
        rw [hr0, QR.filterPass, if_pos hmem, keptBelow_succ, if_pos hmem, add_zero]
      have ih := filterPass_spec (absolute := absolute) (limit := limit) len (i + 1) q dels (by omega) hf hd
      rw [← hr] at ih
      obtain ⟨h1, h2, ⟨e, he, he'⟩, h4⟩ := ih
      refine ⟨h1, h2, ⟨e, he, he'⟩, fun h => ⟨(h4 h).1, fun j hj => ?_⟩⟩
      refine (h4 h).2 j ?_
      rw [keptBelow_succ, if_pos hmem]
      omega
    · have hlt : keptBelow dels i < q.cols := by
        have := keptBelow_mono dels (show i + 1 ≤ A.length by omega)
        rw [keptBelow_succ, if_neg hmem] at this
        omega
      by_cases hsmall : |q.R (keptBelow dels i) (keptBelow dels i)| < q.threshold absolute limit
      · have hr : r = QR.filterPass absolute limit (List.range' (i + 1) len) (keptBelow (dels ++ [i]) (i + 1)) (q.deleteColumn (keptBelow dels i)) (dels ++ [i]) := by
          rw [hr0, QR.filterPass, if_neg hmem, if_neg (by omega), if_pos hsmall, keptBelow_succ, if_pos (by simp), add_zero, keptBelow_append i le_rfl]
        have hf' : Factorizes (q.deleteColumn (keptBelow dels i)) (without (dels ++ [i]) A) := by
          rw [← without_erase (by omega) hmem]
          exact C79_delete hf hlt
        have hd' : ∀ d ∈ dels ++ [i], d < A.length := by
          intro d hd1
          rcases List.mem_append.1 hd1 with h | h
          · exact hd d h
          · rw [List.mem_singleton] at h; omega
        have ih := filterPass_spec (absolute := absolute) (limit := limit) len (i + 1) _ (dels ++ [i]) (by omega) hf' hd'
        rw [← hr] at ih
        obtain ⟨h1, h2, ⟨e, he, he'⟩, h4⟩ := ih
        refine ⟨h1, h2, ⟨i :: e, by rw [he]; simp, ?_⟩, fun h => ?_⟩
        · have hc : (q.deleteColumn (keptBelow dels i)).cols = q.cols - 1 := by
            have h1 := (C79_delete hf hlt).length
            rw [List.length_eraseIdx, hf.length, if_pos hlt] at h1
            exact h1.symm
          rw [hc] at he'
          rw [List.length_cons]
          omega
        · exfalso
          rw [he] at h
          have := congrArg List.length h
          simp at this
      · have hr : r = QR.filterPass absolute limit (List.range' (i + 1) len) (keptBelow dels (i + 1)) q dels := by
          rw [hr0, QR.filterPass, if_neg hmem, if_neg (by omega), if_neg hsmall, keptBelow_succ, if_neg hmem]
        have ih := filterPass_spec (absolute := absolute) (limit := limit) len (i + 1) q dels (by omega) hf hd
        rw [← hr] at ih
        obtain ⟨h1, h2, ⟨e, he, he'⟩, h4⟩ := ih
        refine ⟨h1, h2, ⟨e, he, he'⟩, fun h => ⟨(h4 h).1, fun j hj hjc => ?_⟩⟩
        rcases Nat.eq_or_lt_of_le hj with rfl | hj'
        · exact not_lt.1 hsmall
        · refine (h4 h).2 j ?_ hjc
          rw [keptBelow_succ, if_neg hmem]
          omega

theorem filterLoop_spec {absolute : Bool} {limit : ℝ} {A : List (ι → ℝ)} : ∀ (fuel : ℕ) (q : QR ι) (dels : List ℕ), Factorizes q (without dels A) → (∀ d ∈ dels, d < A.length) →
    let r := QR.filterLoop absolute limit A.length fuel q dels
    Factorizes r.1 (without r.2 A) ∧ (∀ d ∈ r.2, d < A.length) ∧
    (q.cols < fuel → r.1.cols ≤ 1 ∨ ∀ j < r.1.cols, r.1.threshold absolute limit ≤ |r.1.R j j|)
  | 0, q, dels, hf, hd => ⟨hf, hd, fun h => absurd h (Nat.not_lt_zero _)⟩
  | fuel + 1, q, dels, hf, hd => by
    intro r
    by_cases hc : q.cols > 1
    · have hpass := filterPass_spec (absolute := absolute) (limit := limit) A.length 0 q dels (by omega) hf hd
      rw [← List.range_eq_range', show keptBelow dels 0 = 0 from rfl] at hpass
      set p := QR.filterPass absolute limit (List.range A.length) 0 q dels with hp
      simp only at hpass
      obtain ⟨h1, h2, ⟨e, he, he'⟩, h4⟩ := hpass
      have hr : r = if p.2 = dels then p else QR.filterLoop absolute limit A.length fuel p.1 p.2 := by
        change QR.filterLoop absolute limit A.length (fuel + 1) q dels = _
        rw [QR.filterLoop, if_pos hc]
      by_cases hend : p.2 = dels
      · rw [if_pos hend] at hr
        rw [hr]
        refine ⟨h1, h2, fun _ => Or.inr ?_⟩
        rw [(h4 hend).1]
        exact fun j hj => (h4 hend).2 j (Nat.zero_le j) hj
      · rw [if_neg hend] at hr
        have ih := filterLoop_spec (absolute := absolute) (limit := limit) fuel p.1 p.2 h1 h2
        rw [← hr] at ih
        refine ⟨ih.1, ih.2.1, fun hfuel => ih.2.2 ?_⟩
        -- a column was deleted
        have hlt : p.1.cols < q.cols := by
          have hne : e ≠ [] := by
            rintro rfl
            exact hend (by rw [he, List.append_nil])
          have := List.length_pos_iff.2 hne
          omega
        omega
    · have hr : r = (q, dels) := by
        change QR.filterLoop absolute limit A.length (fuel + 1) q dels = _
        rw [QR.filterLoop, if_neg hc]
      rw [hr]
      exact ⟨hf, hd, fun _ => Or.inl (not_lt.1 hc)⟩

theorem filter1_mem {absolute : Bool} {limit : ℝ} {q : QR ι} {A : List (ι → ℝ)} (h : Factorizes q A) (i : ℕ) :
    i ∈ (q.filter1 absolute limit).2 ↔ i ∈ (QR.filterLoop absolute limit q.cols (q.cols + 1) q []).2 := by
  have hs := filterLoop_spec (absolute := absolute) (limit := limit) (A := A) (q.cols + 1) q [] (by rw [without_nil]; exact h) (by simp)
  rw [h.length] at hs
  unfold QR.filter1
  simp only [List.mem_filter, List.mem_range, decide_eq_true_eq]
  exact ⟨fun hi => hi.2, fun hi => ⟨hs.2.1 i hi, hi⟩⟩

/-- C75: the filters QR1: the new factors describe the matrix without the reported columns; those are reported once, in ascending order. -/
theorem C75_qr1 (absolute : Bool) (limit : ℝ) {q : QR ι} {A : List (ι → ℝ)} (h : Factorizes q A) :
    Factorizes (q.filter1 absolute limit).1 (without (q.filter1 absolute limit).2 A) ∧ (∀ i ∈ (q.filter1 absolute limit).2, i < A.length) ∧
    (q.filter1 absolute limit).2.Pairwise (· < ·) := by
  have hs := filterLoop_spec (absolute := absolute) (limit := limit) (A := A) (q.cols + 1) q [] (by rw [without_nil]; exact h) (by simp)
  rw [h.length] at hs
  refine ⟨?_, fun i hi => ?_, ?_⟩
  · rw [without_congr A fun i _ => filter1_mem h i]
    exact hs.1
  · rw [h.length]
    exact hs.2.1 i ((filter1_mem h i).1 hi)
  · exact List.Pairwise.filter _ (List.pairwise_lt_range)

/-- C75: the filter QR1 runs until it is done: one column is left or all diagonal entries are at least the threshold. -/
theorem C75_qr1_done (absolute : Bool) (limit : ℝ) {q : QR ι} {A : List (ι → ℝ)} (h : Factorizes q A) :
    let r := (q.filter1 absolute limit).1
    r.cols ≤ 1 ∨ ∀ j < r.cols, r.threshold absolute limit ≤ |r.R j j| := by
  have hs := filterLoop_spec (absolute := absolute) (limit := limit) (A := A) (q.cols + 1) q [] (by rw [without_nil]; exact h) (by simp)
  rw [h.length] at hs
  exact hs.2.2 (Nat.lt_succ_self _)

/-! ## Norms of the factors -/

theorem ip_columns {q : QR ι} {A : List (ι → ℝ)} (h : Factorizes q A) {j : ℕ} (hj : j < A.length) : ip A[j] A[j] = ∑ i ∈ range q.cols, q.R i j ^ 2 := by
  have e : ∀ x, A[j] x = ∑ i ∈ range q.cols, q.R i j * q.Q i x := fun x => (h.product j hj x).symm
  unfold ip
  simp only [e, Finset.sum_mul_sum]
  rw [Finset.sum_comm]
  refine Finset.sum_congr rfl fun i hi => ?_
  rw [Finset.sum_comm]
  have : ∀ k ∈ range q.cols, ∑ x, q.R i j * q.Q i x * (q.R k j * q.Q k x) = if i = k then q.R i j ^ 2 else 0 := by
    intro k hk
    have ho := h.orthonormal i (mem_range.1 hi) k (mem_range.1 hk)
    unfold ip at ho
    have : ∑ x, q.R i j * q.Q i x * (q.R k j * q.Q k x) = q.R i j * q.R k j * ∑ x, q.Q i x * q.Q k x := by
      rw [Finset.mul_sum]
      exact Finset.sum_congr rfl fun x _ => by ring
    rw [this, ho]
    split
    · next hik => subst hik; ring
    · ring
  rw [Finset.sum_congr rfl this, Finset.sum_ite_eq, if_pos hi]

/-- The first diagonal entry is the norm of the first column. -/
theorem abs_R_zero {q : QR ι} {A : List (ι → ℝ)} (h : Factorizes q A) (hA : 0 < A.length) : |q.R 0 0| = l2 A[0] := by
  unfold l2
  rw [ip_columns h hA, Finset.sum_eq_single 0, Real.sqrt_sq_eq_abs]
  · intro i hi hi0
    rw [h.upper i (mem_range.1 hi) 0 (Nat.pos_of_ne_zero hi0)]
    ring
  · intro hn
    rw [mem_range, not_lt, ← h.length] at hn
    omega

/-- A diagonal entry is at most the norm of its column. -/
theorem abs_R_le {q : QR ι} {A : List (ι → ℝ)} (h : Factorizes q A) {j : ℕ} (hj : j < A.length) : |q.R j j| ≤ l2 A[j] := by
  unfold l2
  rw [ip_columns h hj]
  refine Real.abs_le_sqrt ?_
  exact Finset.single_le_sum (f := fun i => q.R i j ^ 2) (fun i _ => sq_nonneg _) (mem_range.2 (h.length ▸ hj))

/-- The norm of `R` is the norm of the matrix. -/
theorem normR_sq {q : QR ι} {A : List (ι → ℝ)} (h : Factorizes q A) : q.normR = √((A.map fun a => ip a a).sum) := by
  unfold QR.normR
  congr 1
  rw [Finset.sum_comm]
  have : (A.map fun a => ip a a).sum = ∑ j ∈ range A.length, if hj : j < A.length then ip A[j] A[j] else 0 := by
    rw [Finset.sum_range, ← List.sum_ofFn]
    congr 1
    refine List.ext_getElem (by simp) fun n h1 h2 => ?_
    simp only [List.length_map] at h1
    simp
  rw [this]
  refine Finset.sum_congr (by rw [h.length]) fun j hj => ?_
  rw [mem_range] at hj
  rw [dif_pos hj, ip_columns h hj]

/-! ## Columns that are all deleted -/

theorem without_all_small {dels : List ℕ} {A : List (ι → ℝ)} {limit : ℝ} (h : ∀ a ∈ A, l2 a < limit) : ∀ a ∈ without dels A, l2 a < limit := by
  intro a ha
  unfold without at ha
  obtain ⟨p, hp, rfl⟩ := List.mem_map.1 ha
  exact h _ (List.fst_mem_of_mem_zipIdx (List.mem_filter.1 hp).1)

theorem filterPass_deletes_all {limit : ℝ} {A : List (ι → ℝ)} (hA : ∀ a ∈ A, l2 a < limit) : ∀ (len i : ℕ) (q : QR ι) (dels : List ℕ), i + len = A.length → Factorizes q (without dels A) →
    keptBelow dels i = 0 → (QR.filterPass true limit (List.range' i len) 0 q dels).1.cols = 0
  | 0, i, q, dels, hi, hf, hk => by
    change q.cols = 0
    rw [← hf.length, without_length, ← hi, add_zero, hk]
  | len + 1, i, q, dels, hi, hf, hk => by
    rw [List.range'_succ, QR.filterPass]
    by_cases hmem : i ∈ dels
    · rw [if_pos hmem]
      refine filterPass_deletes_all hA len (i + 1) q dels (by omega) hf ?_
      rw [keptBelow_succ, if_pos hmem, hk]
    · have hlt : 0 < q.cols := by
        have := keptBelow_mono dels (show i + 1 ≤ A.length by omega)
        rw [keptBelow_succ, if_neg hmem, hk] at this
        rw [← hf.length, without_length]
        omega
      have hsmall : |q.R 0 0| < q.threshold true limit := by
        have hl : 0 < (without dels A).length := by rw [hf.length]; exact hlt
        rw [abs_R_zero hf hl]
        unfold QR.threshold
        rw [if_pos rfl, mul_one]
        exact without_all_small hA _ (List.getElem_mem hl)
      rw [if_neg hmem, if_neg (by omega), if_pos hsmall]
      refine filterPass_deletes_all hA len (i + 1) _ (dels ++ [i]) (by omega) ?_ ?_
      · have := C79_delete hf hlt
        rw [← hk, without_erase (by omega) hmem, hk] at this
        exact this
      · rw [keptBelow_succ, if_pos (by simp), keptBelow_append i le_rfl, hk]

/-- The absolute filter deletes all columns if all of them are small, although a system with one column is not filtered. -/
theorem C75_absolute_deletes_all {limit : ℝ} {q : QR ι} {A : List (ι → ℝ)} (h : Factorizes q A) (h2 : 2 ≤ A.length) (hA : ∀ a ∈ A, l2 a < limit) : (q.filter1 true limit).1.cols = 0 := by
  have hp := filterPass_deletes_all hA A.length 0 q [] (by omega) (by rw [without_nil]; exact h) rfl
  rw [← List.range_eq_range', h.length] at hp
  have hc : q.cols > 1 := by rw [← h.length]; omega
  change (QR.filterLoop true limit q.cols (q.cols + 1) q []).1.cols = 0
  rw [QR.filterLoop, if_pos hc]
  simp only
  split
  · exact hp
  · obtain ⟨n, hn⟩ : ∃ n, q.cols = n + 1 := ⟨q.cols - 1, by omega⟩
    generalize QR.filterPass true limit (List.range q.cols) 0 q [] = p at hp
    rw [hn, QR.filterLoop, if_neg (by omega)]
    exact hp

end Verif.Accel
