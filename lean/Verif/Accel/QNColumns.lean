import Verif.Accel.QNCount
import Verif.Accel.FullRank

/-!
# The stored differences and the factorisation describe the same columns (C75)
-/

set_option autoImplicit false
set_option linter.unusedSectionVars false

namespace Verif.Accel

open Finset

variable {ι κ : Type} [Fintype ι]

/-- Specification: the factors are those of a matrix with independent columns. -/
def Regular (q : QR ι) (A : List (ι → ℝ)) : Prop := Factorizes q A ∧ FullRank A

theorem regular_empty : Regular (QR.empty : QR ι) [] := ⟨factorizes_empty, fullRank_nil⟩

/-- Specification: the factorisation is one of the scaled matrix `V`, and its columns are independent. -/
def QN.Exact (s : QN ι κ) : Prop := Regular s.qr (scaled s.weights s.sys.V)

theorem scaled_without (w : ι → ℝ) (dels : List ℕ) (V : List (QNCol ι)) : scaled w (without dels V) = without dels (scaled w V) := by
  unfold scaled without
  rw [List.zipIdx_map, List.filter_map, List.map_map, List.map_map]
  rfl

theorem keptBelow_above {dels : List ℕ} {i : ℕ} (h : ∀ d ∈ dels, i ≤ d) : keptBelow dels i = i := by
  unfold keptBelow
  rw [List.filter_eq_self.2, List.length_range]
  intro j hj
  rw [List.mem_range] at hj
  simp only [decide_eq_true_eq]
  intro hm
  have := h j hm
  omega

/-- Removing columns from the back keeps the positions of the others: all the given columns are removed, and no others. -/
theorem QNSystem.removeColumns_reverse {m m' : QNSystem ι κ} : ∀ {dels : List ℕ}, dels.Pairwise (· < ·) → m.W.length = m.V.length → m.removeColumns dels.reverse = some m' →
    m'.V = without dels m.V ∧ m'.W = without dels m.W ∧ m'.W.length = m'.V.length
  | [], _, hl, h => by
    obtain rfl : m = m' := by simpa [QNSystem.removeColumns] using h
    exact ⟨(without_nil _).symm, (without_nil _).symm, hl⟩
  | d :: ds, hp, hl, h => by
    rw [QNSystem.removeColumns, List.reverse_cons, List.foldlM_append, Option.bind_eq_bind, Option.bind_eq_some_iff] at h
    obtain ⟨m1, h1, h2⟩ := h
    rw [List.pairwise_cons] at hp
    obtain ⟨e1, e2, e3⟩ := QNSystem.removeColumns_reverse hp.2 hl h1
    rw [List.foldlM_cons, Option.bind_eq_bind, Option.bind_eq_some_iff] at h2
    obtain ⟨m2, h2, h3⟩ := h2
    obtain rfl : m2 = m' := by simpa using h3
    unfold QNSystem.removeColumn at h2
    split_ifs at h2 with hr
    obtain rfl := Option.some.inj h2
    have hk : keptBelow ds d = d := keptBelow_above fun x hx => (hp.1 x hx).le
    have hn : d ∉ ds := fun hm => absurd (hp.1 d hm) (lt_irrefl d)
    have hle : ∀ {α : Type} (l : List α), (without ds l).length ≤ l.length := fun l => by
      unfold without
      rw [List.length_map]
      exact (List.length_filter_le _ _).trans (by simp)
    have hd : d < m.V.length := lt_of_lt_of_le (by rw [e1] at hr; exact hr.2) (hle _)
    have key : ∀ {α : Type} (l : List α), d < l.length → (without ds l).eraseIdx d = without (d :: ds) l := fun l hl' => by
      have := without_erase hl' hn
      rw [hk] at this
      rw [this]
      exact without_congr l fun i _ => by simp [or_comm]
    refine ⟨?_, ?_, ?_⟩
    · change m1.V.eraseIdx d = _
      rw [e1, key _ hd]
    · change m1.W.eraseIdx d = _
      rw [e2, key _ (by omega)]
    · change (m1.W.eraseIdx d).length = (m1.V.eraseIdx d).length
      rw [List.length_eraseIdx, List.length_eraseIdx, e3]

/-- What is known between the calls: the factorisation fits, unless a new one is requested or a column could not be inserted. -/
def QN.Fits (s : QN ι κ) : Prop := s.newQR = true ∨ s.needQR2 = true ∨ s.Exact

theorem Regular.push {q q' : QR ι} {A : List (ι → ℝ)} {v : ι → ℝ} {eps : ℝ} (h : Regular q A) (hi : q.insertColumn 0 v eps = some q') : Regular q' (v :: A) := by
  simpa [Regular] using And.intro (C79_insert h.1 (Nat.zero_le _) hi) (h.2.insert h.1 (Nat.zero_le _) hi)

theorem Regular.pop {q : QR ι} {A : List (ι → ℝ)} (h : Regular q A) (hq : q.cols ≠ 0) : Regular (q.deleteColumn (q.cols - 1)) A.dropLast := by
  have := C79_delete h.1 (k := q.cols - 1) (by omega)
  refine ⟨?_, h.2.sublist (List.dropLast_sublist _)⟩
  rw [← h.1.length] at this ⊢
  rwa [← List.eraseIdx_length_sub_one]

theorem regular_resetFilter (limit : ℝ) (V : List (ι → ℝ)) : Regular (QR.resetFilter limit V).1 (without (QR.resetFilter limit V).2 V) := ⟨(C75_resetFilter limit V).1, C75_rebuilt limit V⟩

theorem QR.reset_eq (V : List (ι → ℝ)) : QR.reset V = QR.resetFilter 0 V := by
  obtain ⟨h1, h2, -⟩ := resetLoop_eq V 0 QR.empty factorizes_empty
  unfold QR.reset QR.resetFilter
  rw [show (QR.empty : QR ι).cols = 0 from rfl] at h1 h2
  rw [h1, h2]

theorem regular_reset (V : List (ι → ℝ)) : Regular (QR.reset V).1 (without (QR.reset V).2 V) := by
  rw [QR.reset_eq]
  exact regular_resetFilter 0 V

theorem scaled_cons (w : ι → ℝ) (c : QNCol ι) (V : List (QNCol ι)) : scaled w (c :: V) = scaledCol w c.val :: scaled w V := rfl

theorem scaled_dropLast (w : ι → ℝ) (V : List (QNCol ι)) : scaled w V.dropLast = (scaled w V).dropLast := List.map_dropLast

theorem QN.addColumn_fits {c : QNConfig} {s s' : QN ι κ} {r : ι → ℝ} {x : κ → ℝ} (h : s.addColumn c r x = some s') (hc : s.Fits) : s'.Fits ∧ s'.weights = s.weights ∧ s'.newQR = s.newQR := by
  unfold QN.addColumn at h
  simp only [Option.bind_eq_bind] at h
  split_ifs at h with h1 h2
  · rw [Option.bind_eq_some_iff] at h
    obtain ⟨b, hb, h⟩ := h
    obtain rfl := Option.some.inj h
    unfold QN.pushQR
    simp only
    cases hi : s.qr.insertColumn 0 (scaledCol s.weights (s.newV r).val) 0 with
    | none => exact ⟨Or.inr (Or.inl rfl), rfl, rfl⟩
    | some q =>
      refine ⟨?_, rfl, rfl⟩
      rcases hc with h | h | h
      · exact Or.inl h
      · exact Or.inr (Or.inl h)
      · exact Or.inr (Or.inr (h.push hi))
  · rw [Option.bind_eq_some_iff] at h
    obtain ⟨s1, hs1, h⟩ := h
    rw [Option.bind_eq_some_iff] at h
    obtain ⟨b, hb, h⟩ := h
    rw [Option.bind_eq_some_iff] at h
    obtain ⟨b', hb', h⟩ := h
    obtain rfl := Option.some.inj h
    unfold QN.popQR at hs1
    split_ifs at hs1 with h3
    obtain rfl := Option.some.inj hs1
    unfold QN.pushQR at h3 ⊢
    cases hi : s.qr.insertColumn 0 (scaledCol s.weights (s.newV r).val) 0 with
    | none => exact ⟨Or.inr (Or.inl rfl), rfl, rfl⟩
    | some q =>
      rw [hi] at h3
      refine ⟨?_, rfl, rfl⟩
      rcases hc with h | h | h
      · exact Or.inl h
      · exact Or.inr (Or.inl h)
      · refine Or.inr (Or.inr ?_)
        have := (h.push hi).pop h3
        unfold QN.Exact
        simp only
        rw [scaled_cons, scaled_dropLast]
        cases hV : scaled s.weights s.sys.V with
        | nil =>
          unfold scaled at hV
          exact absurd (List.map_eq_nil_iff.1 hV) h2
        | cons a as =>
          rw [hV] at this
          exact this

theorem QN.updateDifferences_fits {c : QNConfig} {s s' : QN ι κ} {r : ι → ℝ} {x : κ → ℝ} (h : s.updateDifferences c r x = some s') (hc : s.Fits) :
    s'.Fits ∧ s'.weights = s.weights ∧ s'.newQR = s.newQR := by
  unfold QN.updateDifferences at h
  split_ifs at h with h1 h2
  · obtain rfl := Option.some.inj h
    exact ⟨hc, rfl, rfl⟩
  · obtain rfl := Option.some.inj h
    exact ⟨hc, rfl, rfl⟩
  · rw [Option.map_eq_some_iff] at h
    obtain ⟨s1, hs1, rfl⟩ := h
    have := QN.addColumn_fits hs1 hc
    exact this

/-- A reset in which every column is inserted, or all but one: the factorisation fits. -/
theorem QN.reset_exact {s s' : QN ι κ} (h : s.reset = some s') (hl : s.sys.W.length = s.sys.V.length) (h1 : (QR.reset (scaled s.weights s.sys.V)).2.length ≤ 1) : s'.Exact := by
  unfold QN.reset at h
  simp only [Option.bind_eq_bind, Option.bind_eq_some_iff] at h
  obtain ⟨m, hm, h⟩ := h
  split_ifs at h
  obtain rfl := Option.some.inj h
  obtain ⟨-, f2, f3⟩ := C75_reset (scaled s.weights s.sys.V)
  have f1 := regular_reset (scaled s.weights s.sys.V)
  set dels := (QR.reset (scaled s.weights s.sys.V)).2
  have hrev : dels.reverse = dels := by
    match dels, h1 with
    | [], _ => rfl
    | [d], _ => rfl
  rw [← hrev] at hm
  obtain ⟨e1, -, -⟩ := QNSystem.removeColumns_reverse f3 hl hm
  unfold QN.Exact
  simp only
  rw [e1, scaled_without]
  exact f1

theorem QN.reset_fits {s s' : QN ι κ} (h : s.reset = some s') : (s'.needQR2 = true ∨ s'.Exact) ∧ s'.weights = s.weights := by
  unfold QN.reset at h
  simp only [Option.bind_eq_bind, Option.bind_eq_some_iff] at h
  obtain ⟨m, hm, h⟩ := h
  split_ifs at h
  obtain rfl := Option.some.inj h
  obtain ⟨-, f2, f3⟩ := C75_reset (scaled s.weights s.sys.V)
  have f1 := regular_reset (scaled s.weights s.sys.V)
  refine ⟨?_, rfl⟩
  by_cases he : (QR.reset (scaled s.weights s.sys.V)).2 = []
  · right
    rw [he] at hm f1
    obtain rfl : s.sys = m := by simpa [QNSystem.removeColumns] using hm
    rw [without_nil] at f1
    exact f1
  · left
    simp [he]

theorem QN.precondition_fits {c : QNConfig} {s s' : QN ι κ} {w : ι → ℝ} {n : Bool} (h : s.precondition c w n = some s') (hw : w ≠ s.weights → n = true) (hc : s.Fits) :
    s'.weights = w ∧ s'.newQR = false ∧ (c.filter = .qr2 ∨ s'.needQR2 = true ∨ s'.Exact) := by
  unfold QN.precondition at h
  simp only at h
  split_ifs at h with h1
  · rw [Option.map_eq_some_iff] at h
    obtain ⟨s1, hs1, rfl⟩ := h
    unfold QN.newFactors at hs1
    split_ifs at hs1 with h2
    · obtain rfl := Option.some.inj hs1
      refine ⟨rfl, rfl, h2.imp_right fun h3 => Or.inl ?_⟩
      simp [h3]
    · obtain ⟨e1, e2⟩ := QN.reset_fits hs1
      refine ⟨e2, rfl, Or.inr ?_⟩
      rcases e1 with e | e
      · left; simp [e]
      · exact Or.inr e
  · obtain rfl := Option.some.inj h
    rw [Bool.not_eq_true, Bool.or_eq_false_iff] at h1
    have hww : w = s.weights := by
      by_contra hne
      rw [hw hne] at h1
      exact absurd h1.2 (by simp)
    subst hww
    refine ⟨rfl, by simp [h1], Or.inr ?_⟩
    rcases hc with h | h | h
    · rw [h1.1] at h; exact absurd h (by simp)
    · exact Or.inl h
    · exact Or.inr h

theorem QN.filterRebuild_exact {c : QNConfig} {s s' : QN ι κ} (h : s.filterRebuild c = some s') (hl : s.sys.W.length = s.sys.V.length) :
    s'.Exact ∧ s'.weights = s.weights ∧ s'.newQR = s.newQR := by
  unfold QN.filterRebuild at h
  simp only [Option.bind_eq_bind, Option.bind_eq_some_iff] at h
  obtain ⟨m, hm, h⟩ := h
  split_ifs at h
  obtain rfl := Option.some.inj h
  obtain ⟨-, f2, f3⟩ := C75_resetFilter c.limit (scaled s.weights s.sys.V)
  have f1 := regular_resetFilter c.limit (scaled s.weights s.sys.V)
  obtain ⟨e1, -, -⟩ := QNSystem.removeColumns_reverse f3 hl hm
  refine ⟨?_, rfl, rfl⟩
  unfold QN.Exact
  simp only
  rw [e1, scaled_without]
  exact f1

theorem QN.applyFilter_fits {c : QNConfig} {s s' : QN ι κ} (h : s.applyFilter c = some s') (hl : s.sys.W.length = s.sys.V.length) (hc : c.filter = .qr2 ∨ s.needQR2 = true ∨ s.Exact) :
    s'.weights = s.weights ∧ s'.newQR = s.newQR ∧ (s'.Exact ∨ s'.needQR2 = true ∧ c.filter ≠ .qr2 ∧ c.filter ≠ .qr3) := by
  unfold QN.applyFilter at h
  cases hf : c.filter with
  | none =>
    rw [hf] at h hc
    obtain rfl := Option.some.inj h
    refine ⟨rfl, rfl, ?_⟩
    rcases hc with h | h | h
    · exact absurd h (by simp)
    · exact Or.inr ⟨h, by simp, by simp⟩
    · exact Or.inl h
  | qr1 a =>
    rw [hf] at h hc
    simp only [Option.bind_eq_bind, Option.bind_eq_some_iff] at h
    obtain ⟨m, hm, h⟩ := h
    split_ifs at h
    obtain rfl := Option.some.inj h
    refine ⟨rfl, rfl, ?_⟩
    rcases hc with h | h | h
    · exact absurd h (by simp)
    · exact Or.inr ⟨h, by simp, by simp⟩
    · left
      obtain ⟨f1, f2, f3⟩ := C75_qr1 a c.limit h.1
      obtain ⟨e1, -, -⟩ := QNSystem.removeColumns_reverse f3 hl hm
      unfold QN.Exact
      simp only
      rw [e1, scaled_without]
      exact ⟨f1, h.2.sublist (without_sublist _ _)⟩
  | qr2 =>
    rw [hf] at h
    obtain ⟨e1, e2, e3⟩ := QN.filterRebuild_exact h hl
    exact ⟨e2, e3, Or.inl e1⟩
  | qr3 =>
    rw [hf] at h hc
    simp only [Option.bind_eq_bind, Option.bind_eq_some_iff] at h
    obtain ⟨need, -, s1, h1, h⟩ := h
    obtain rfl := Option.some.inj h
    unfold QN.filterChecked at h1
    split_ifs at h1 with h2 h3
    · obtain ⟨e1, e2, e3⟩ := QN.filterRebuild_exact h1 hl
      exact ⟨e2, e3, Or.inl e1⟩
    · obtain rfl := Option.some.inj h1
      refine ⟨rfl, rfl, Or.inl ?_⟩
      rcases hc with h | h | h
      · exact absurd h (by simp)
      · rw [h] at h2; simp at h2
      · exact h

theorem QN.prepare_fits {c : QNConfig} {s s' : QN ι κ} {r : ι → ℝ} {x : κ → ℝ} {w : ι → ℝ} {n : Bool} (h : s.prepare c r x w n = some s') (hc : s.Counts c)
    (hq : s.firstIteration = true → s.firstWindow = false) (hw : w ≠ s.weights → n = true) (hf : s.Fits) :
    s'.weights = w ∧ (s'.Exact ∨ s'.needQR2 = true ∧ c.filter ≠ .qr2 ∧ c.filter ≠ .qr3) := by
  obtain ⟨s1, s2, h1, h2, h3, -⟩ := QN.prepare_eq h hc hq
  obtain ⟨f1, f2, f3⟩ := QN.updateDifferences_fits h1 hf
  rw [← f2] at hw
  obtain ⟨g1, g2, g3⟩ := QN.precondition_fits h2 hw f1
  have c1 := (QN.updateDifferences_counts h1 hc).1
  obtain ⟨is1, e1⟩ := QN.precondition_sys h2
  have c2 := QNSystem.removeColumns_spec _ e1 c1.sys
  obtain ⟨k1, k2, k3⟩ := QN.applyFilter_fits h3 c2.length g3
  exact ⟨k1.trans g1, k3⟩

theorem QN.pending_fits {c : QNConfig} {s : QN ι κ} (h : s.needQR2 = true ∨ s.Exact) : (s.pending c).needQR2 = true ∨ (s.pending c).Exact := by
  unfold QN.pending
  simp only
  split_ifs
  all_goals first | exact h | exact Or.inr regular_empty

theorem QN.dropColumns_fits : ∀ (n : ℕ) {s s' : QN ι κ}, s.dropColumns n = some s' → s.Fits → s'.Fits
  | 0, s, s', h, hf => by
    obtain rfl := Option.some.inj h
    exact hf
  | n + 1, s, s', h, hf => by
    rw [QN.dropColumns, Option.bind_eq_bind, Option.bind_eq_some_iff] at h
    obtain ⟨s1, h1, h2⟩ := h
    refine QN.dropColumns_fits n h2 ?_
    unfold QN.popQR at h1
    split_ifs at h1 with h3
    obtain rfl := Option.some.inj h1
    rcases hf with h | h | h
    · exact Or.inl h
    · exact Or.inr (Or.inl h)
    · refine Or.inr (Or.inr ?_)
      unfold QN.Exact
      simp only
      rw [scaled_dropLast]
      exact h.pop h3

theorem QN.dropWindow_fits {c : QNConfig} {s s' : QN ι κ} (h : s.dropWindow c = some s') (hf : s.Fits) : s'.Fits := by
  unfold QN.dropWindow at h
  split_ifs at h with h1 h2 h3
  · obtain rfl := Option.some.inj h
    exact Or.inr (Or.inr regular_empty)
  · obtain rfl := Option.some.inj h
    exact hf
  · cases hl : s.sys.blocks.getLast? with
    | none => rw [hl] at h; exact absurd h (by simp)
    | some n =>
      rw [hl] at h
      simp only [Option.bind_eq_bind] at h
      split_ifs at h with h4
      rw [Option.bind_eq_some_iff] at h
      obtain ⟨s1, e1, h⟩ := h
      obtain rfl := Option.some.inj h
      have := QN.dropColumns_fits n e1 hf
      exact this
  · obtain rfl := Option.some.inj h
    exact hf

theorem QN.step_fits {c : QNConfig} {s s' : QN ι κ} {a : QNCall ι κ} (h : s.step c a = some s') (hw : a.weights ≠ s.weights → a.newQR = true) (hc : s.Counts c) (hf : s.Fits) : s'.Fits := by
  unfold QN.step at h
  split_ifs at h
  · unfold QN.converged at h
    simp only [Option.bind_eq_bind, Option.bind_eq_some_iff] at h
    obtain ⟨s1, h1, s2, h2, h⟩ := h
    obtain rfl := Option.some.inj h
    obtain ⟨f1, f2, f3⟩ := QN.updateDifferences_fits h1 hf
    have key := QN.dropWindow_fits h2 ?_
    · exact key
    by_cases hww : a.weights = s1.weights
    · rcases f1 with h | h | h
      · left; simp [h]
      · exact Or.inr (Or.inl h)
      · refine Or.inr (Or.inr ?_)
        unfold QN.Exact at h ⊢
        simp only [hww]
        exact h
    · left
      rw [f2] at hww
      simp [hw hww]
  · unfold QN.accelerate at h
    split_ifs at h with h1
    · obtain rfl := Option.some.inj h
      exact hf
    · simp only [Option.bind_eq_bind, Option.bind_eq_some_iff] at h
      obtain ⟨s1, h2, h⟩ := h
      obtain rfl := Option.some.inj h
      obtain ⟨-, k⟩ := QN.prepare_fits h2 hc (fun hf => by
        rw [not_and, not_or] at h1
        simpa using (h1 hf).1) hw hf
      have := QN.pending_fits (c := c) (s := s1) (by rcases k with k | k; exacts [Or.inr k, Or.inl k.1])
      exact Or.inr this

theorem QN.reachable_fits {c : QNConfig} {s : QN ι κ} (h : QN.Reachable c s) : s.Fits := by
  induction h with
  | init w => exact Or.inr (Or.inr regular_empty)
  | step hr hw h ih => exact QN.step_fits h hw (C73_counts hr) ih

/-- C75: with the filters QR2 and QR3 the factorisation with which an update is computed is one of the matrix of the stored differences, scaled with the current weights,
and its columns are independent. -/
theorem C75_exact {c : QNConfig} {s s' : QN ι κ} {r : ι → ℝ} {x : κ → ℝ} {w : ι → ℝ} {n : Bool} (hr : QN.Reachable c s) (hq : s.firstIteration = true → s.firstWindow = false)
    (hw : w ≠ s.weights → n = true) (hfil : c.filter = .qr2 ∨ c.filter = .qr3) (h : s.prepare c r x w n = some s') : Factorizes s'.qr (scaled w s'.sys.V) ∧ FullRank (scaled w s'.sys.V) := by
  obtain ⟨e, k⟩ := QN.prepare_fits h (C73_counts hr) hq hw (QN.reachable_fits hr)
  rw [← e]
  rcases k with k | k
  · exact k
  · rcases hfil with hfil | hfil
    · exact absurd hfil k.2.1
    · exact absurd hfil k.2.2

/-- C75: without filter and with the filter QR1 the same holds as long as no column has been refused by the factorisation (the flag is never reset with these filters).
Missing: see `C75_reset_mismatch`, the code removes wrong columns if two are refused in a new factorisation, and does not remove a refused new column at all. -/
theorem C75_exact_partial {c : QNConfig} {s s' : QN ι κ} {r : ι → ℝ} {x : κ → ℝ} {w : ι → ℝ} {n : Bool} (hr : QN.Reachable c s) (hq : s.firstIteration = true → s.firstWindow = false)
    (hw : w ≠ s.weights → n = true) (hfl : s'.needQR2 = false) (h : s.prepare c r x w n = some s') : Factorizes s'.qr (scaled w s'.sys.V) ∧ FullRank (scaled w s'.sys.V) := by
  obtain ⟨e, k⟩ := QN.prepare_fits h (C73_counts hr) hq hw (QN.reachable_fits hr)
  rw [← e]
  rcases k with k | k
  · exact k
  · rw [hfl] at k
    exact absurd k.1 (by simp)

end Verif.Accel
