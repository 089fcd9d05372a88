import Verif.Accel.QN

/-!
# The counters of the least-squares system (C73)
-/

set_option autoImplicit false
set_option linter.unusedSectionVars false

namespace Verif.Accel

open Finset

variable {ι κ : Type} [Fintype ι]

/-- Specification: the matrices have the same columns (same window, same iteration), the counters add up to their number, which is at most the configured one. Only the counter of the current
window, the first one, can be zero. -/
structure QNSystem.Consistent (maxUsed : ℕ) (m : QNSystem ι κ) : Prop where
  tags : m.V.map QNCol.tag = m.W.map QNCol.tag
  sum : m.blocks.sum = m.V.length
  le : m.V.length ≤ maxUsed
  pos : ∀ b ∈ m.blocks.tail, 0 < b

theorem QNSystem.Consistent.length {n : ℕ} {m : QNSystem ι κ} (h : m.Consistent n) : m.W.length = m.V.length := by
  have := congrArg List.length h.tags
  simpa using this.symm

theorem incFront_eq {l l' : List ℕ} (h : incFront l = some l') : ∃ b bs, l = b :: bs ∧ l' = (b + 1) :: bs := by
  cases l with
  | nil => exact absurd h (by simp [incFront])
  | cons b bs => exact ⟨b, bs, rfl, (Option.some.inj h).symm⟩

theorem decBack_spec : ∀ {l l' : List ℕ}, decBack l = some l' → l'.sum + 1 = l.sum ∧ ((∀ b ∈ l.tail, 0 < b) → ∀ b ∈ l'.tail, 0 < b) ∧
    ∀ a as b bs, l = a :: as → l' = b :: bs → as ≠ [] → b = a
  | [], l', h => absurd h (by simp [decBack])
  | [b], l', h => by
    rw [decBack] at h
    split_ifs at h with h0 h1
    · obtain rfl := Option.some.inj h
      subst h1
      simp
    · obtain rfl := Option.some.inj h
      refine ⟨by simp; omega, by simp, ?_⟩
      intro a as b' bs e1 e2 hn
      simp only [List.cons.injEq] at e1
      exact absurd e1.2.symm hn
  | b :: b' :: bs, l', h => by
    rw [decBack, Option.map_eq_some_iff] at h
    obtain ⟨l, hl, rfl⟩ := h
    obtain ⟨h1, h2, h3⟩ := decBack_spec hl
    refine ⟨by simp only [List.sum_cons] at h1 ⊢; omega, ?_, ?_⟩
    · intro hp x hx
      rw [List.tail_cons] at hx hp
      cases l with
      | nil => exact absurd hx (by simp)
      | cons a as =>
        rcases List.mem_cons.1 hx with rfl | hx
        · by_cases hb : bs = []
          · subst hb
            rw [decBack] at hl
            split_ifs at hl
            · exact absurd (Option.some.inj hl) (by simp)
            · obtain ⟨rfl, rfl⟩ := List.cons.inj (Option.some.inj hl)
              omega
          · rw [h3 _ _ _ _ rfl rfl hb]
            exact hp _ (by simp)
        · exact h2 (fun y hy => hp y (by simp at hy ⊢; exact Or.inr hy)) x hx
    · intro a as c cs e1 e2 _
      obtain ⟨rfl, -⟩ := List.cons.inj e1
      obtain ⟨rfl, -⟩ := List.cons.inj e2
      rfl

theorem decBack_ne_nil {b : ℕ} {bs l' : List ℕ} (h : decBack ((b + 1) :: bs) = some l') (hp : ∀ x ∈ bs, 0 < x) (hb : b ≠ 0 ∨ bs ≠ []) : l' ≠ [] := by
  cases bs with
  | nil =>
    rw [decBack, if_neg (by omega)] at h
    split_ifs at h with h1
    · exact absurd (by omega) (hb.resolve_right (by simp))
    · rw [← Option.some.inj h]; simp
  | cons b' bs =>
    rw [decBack, Option.map_eq_some_iff] at h
    obtain ⟨l, _, rfl⟩ := h
    simp

theorem decBlock_spec : ∀ (i : ℕ) {l : List ℕ}, i < l.sum → (decBlock i l).sum + 1 = l.sum ∧ ((∀ b ∈ l.tail, 0 < b) → ∀ b ∈ (decBlock i l).tail, 0 < b)
  | i, [], h => absurd h (by simp)
  | i, b :: bs, h => by
    rw [decBlock]
    split_ifs with h1 h2
    · subst h2
      refine ⟨by simp; omega, fun hp x hx => hp x ?_⟩
      exact List.mem_of_mem_tail hx
    · exact ⟨by simp; omega, fun hp => hp⟩
    · have h' : i - b < bs.sum := by rw [List.sum_cons] at h; omega
      obtain ⟨e1, e2⟩ := decBlock_spec (i - b) h'
      refine ⟨by simp only [List.sum_cons] at h ⊢; omega, fun hp x hx => ?_⟩
      rw [List.tail_cons] at hp hx
      have e2' := e2 fun y hy => hp y (List.mem_of_mem_tail hy)
      cases bs with
      | nil => exact absurd h' (by simp)
      | cons c cs =>
        rw [decBlock] at hx
        have hc := hp c (by simp)
        split_ifs at hx with h3 h4
        · exact hp x (List.mem_cons_of_mem _ hx)
        · rcases List.mem_cons.1 hx with rfl | hx
          · omega
          · exact hp x (List.mem_cons_of_mem _ hx)
        · rcases List.mem_cons.1 hx with rfl | hx
          · exact hc
          · refine e2' x ?_
            rw [decBlock, if_neg h3]
            exact hx

theorem QNSystem.removeColumn_spec {m m' : QNSystem ι κ} {i n : ℕ} (h : m.removeColumn i = some m') (hc : m.Consistent n) : m'.Consistent n := by
  unfold QNSystem.removeColumn at h
  split_ifs at h with h1
  obtain rfl := Option.some.inj h
  have hs := decBlock_spec i (l := m.blocks) (by rw [hc.sum]; exact h1.2)
  have hl : (m.V.eraseIdx i).length = m.V.length - 1 := by rw [List.length_eraseIdx, if_pos h1.2]
  refine ⟨?_, ?_, ?_, hs.2 hc.pos⟩
  · simp only [← List.eraseIdx_map, hc.tags]
  · have := hc.sum
    simp only [hl]
    omega
  · have := hc.le
    simp only [hl]
    omega

theorem QNSystem.removeColumns_spec {n : ℕ} : ∀ (is : List ℕ) {m m' : QNSystem ι κ}, m.removeColumns is = some m' → m.Consistent n → m'.Consistent n
  | [], m, m', h, hc => by
    obtain rfl : m = m' := by simpa [QNSystem.removeColumns] using h
    exact hc
  | i :: is, m, m', h, hc => by
    rw [QNSystem.removeColumns, List.foldlM_cons, Option.bind_eq_bind, Option.bind_eq_some_iff] at h
    obtain ⟨m1, h1, h2⟩ := h
    exact QNSystem.removeColumns_spec is h2 (QNSystem.removeColumn_spec h1 hc)

/-- The removal never empties the matrices, so that there is always a counter left. -/
theorem QNSystem.removeColumns_ne_nil {n : ℕ} : ∀ (is : List ℕ) {m m' : QNSystem ι κ}, m.removeColumns is = some m' → m.Consistent n → m.blocks ≠ [] → m'.blocks ≠ []
  | [], m, m', h, _, hn => by
    obtain rfl : m = m' := by simpa [QNSystem.removeColumns] using h
    exact hn
  | i :: is, m, m', h, hc, hn => by
    rw [QNSystem.removeColumns, List.foldlM_cons, Option.bind_eq_bind, Option.bind_eq_some_iff] at h
    obtain ⟨m1, h1, h2⟩ := h
    have hc1 := QNSystem.removeColumn_spec h1 hc
    refine QNSystem.removeColumns_ne_nil is h2 hc1 ?_
    intro hz
    have hs := hc1.sum
    rw [hz] at hs
    unfold QNSystem.removeColumn at h1
    split_ifs at h1 with h3
    obtain rfl := Option.some.inj h1
    rw [List.length_eraseIdx, if_pos h3.2] at hs
    simp at hs
    omega

/-- Invariant: the matrices are consistent, there is a counter for the current window, and there are columns for the first iteration of a window if no windows are reused and there is no
relaxation in the first iteration. -/
structure QN.Counts (c : QNConfig) (s : QN ι κ) : Prop where
  sys : s.sys.Consistent c.maxUsed
  ne : s.sys.blocks ≠ []
  live : c.reused = 0 → c.force = false → s.firstWindow = false → s.firstIteration = true → 1 ≤ s.sys.blocks.sum

theorem QN.pushQR_sys (s : QN ι κ) (v : ι → ℝ) : (s.pushQR v).sys = s.sys ∧ (s.pushQR v).firstWindow = s.firstWindow ∧ (s.pushQR v).firstIteration = s.firstIteration := by
  unfold QN.pushQR
  cases s.qr.insertColumn 0 v 0 <;> exact ⟨rfl, rfl, rfl⟩

theorem QN.popQR_sys {s s' : QN ι κ} (h : s.popQR = some s') : s'.sys = s.sys ∧ s'.firstWindow = s.firstWindow ∧ s'.firstIteration = s.firstIteration := by
  unfold QN.popQR at h
  split_ifs at h
  obtain rfl := Option.some.inj h
  exact ⟨rfl, rfl, rfl⟩

theorem QN.addColumn_counts {c : QNConfig} {s s' : QN ι κ} {r : ι → ℝ} {x : κ → ℝ} (h : s.addColumn c r x = some s') (hc : s.sys.Consistent c.maxUsed) :
    s'.sys.Consistent c.maxUsed ∧ s'.sys.blocks ≠ [] ∧ 1 ≤ s'.sys.blocks.sum ∧ s'.firstWindow = s.firstWindow ∧ s'.firstIteration = s.firstIteration := by
  unfold QN.addColumn at h
  simp only [Option.bind_eq_bind] at h
  split_ifs at h with h1 h2
  · rw [Option.bind_eq_some_iff] at h
    obtain ⟨b, hb, h⟩ := h
    obtain rfl := Option.some.inj h
    obtain ⟨b0, bs, e1, rfl⟩ := incFront_eq hb
    have hs := hc.sum
    have hp := hc.pos
    rw [e1] at hs hp
    have hle := hc.le
    have h11 := h1.1
    rw [hc.sum] at h11
    rw [(QN.pushQR_sys _ _).1]
    refine ⟨⟨by simp [hc.tags, QN.newV, QN.newW], by simp at hs ⊢; omega, ?_, by simpa using hp⟩, by simp, by simp; omega, (QN.pushQR_sys _ _).2⟩
    simp only [List.length_cons]
    omega
  · rw [Option.bind_eq_some_iff] at h
    obtain ⟨s1, hs1, h⟩ := h
    rw [Option.bind_eq_some_iff] at h
    obtain ⟨b, hb, h⟩ := h
    rw [Option.bind_eq_some_iff] at h
    obtain ⟨b', hb', h⟩ := h
    obtain rfl := Option.some.inj h
    obtain ⟨b0, bs, e1, rfl⟩ := incFront_eq hb
    obtain ⟨d1, d2, -⟩ := decBack_spec hb'
    have hs := hc.sum
    have hp := hc.pos
    rw [e1] at hs hp
    have hV : 0 < s.sys.V.length := List.length_pos_of_ne_nil h2
    have hle := hc.le
    simp only [List.sum_cons] at hs d1
    refine ⟨⟨?_, ?_, ?_, ?_⟩, ?_, ?_, ?_, ?_⟩
    · simp only [List.map_cons, QN.newV, QN.newW, List.map_dropLast, hc.tags]
    · simp only [List.length_cons, List.length_dropLast]
      omega
    · simp only [List.length_cons, List.length_dropLast]
      omega
    · exact d2 (by simpa using hp)
    · refine decBack_ne_nil hb' (by simpa using hp) ?_
      by_contra hn
      push Not at hn
      rw [hn.1, hn.2] at hs
      simp at hs
      omega
    · simp only
      omega
    · exact (QN.popQR_sys hs1).2.1.trans (QN.pushQR_sys _ _).2.1
    · exact (QN.popQR_sys hs1).2.2.trans (QN.pushQR_sys _ _).2.2

/-- Updating the difference matrices; afterwards there are columns in the situation in which the backup would be restored otherwise. -/
theorem QN.updateDifferences_counts {c : QNConfig} {s s' : QN ι κ} {r : ι → ℝ} {x : κ → ℝ} (h : s.updateDifferences c r x = some s') (hc : s.Counts c) :
    s'.Counts c ∧ s'.firstWindow = s.firstWindow ∧ s'.firstIteration = s.firstIteration ∧
    (c.reused = 0 → c.force = false → (s.firstIteration = true → s.firstWindow = false) → 1 ≤ s'.sys.blocks.sum) := by
  unfold QN.updateDifferences at h
  split_ifs at h with h1 h2
  · obtain rfl := Option.some.inj h
    refine ⟨hc, rfl, rfl, fun h1' h2' h3' => ?_⟩
    have hf := h3' h1.1
    rcases h1.2 with h | h
    · rw [hf] at h; exact absurd h (by simp)
    · rw [h2'] at h; exact absurd h (by simp)
  · obtain rfl := Option.some.inj h
    exact ⟨⟨hc.sys, hc.ne, hc.live⟩, rfl, rfl, fun h1' h2' h3' => hc.live h1' h2' (h3' h2) h2⟩
  · rw [Option.map_eq_some_iff] at h
    obtain ⟨s1, hs1, rfl⟩ := h
    obtain ⟨e1, e2, e3, e4, e5⟩ := QN.addColumn_counts hs1 hc.sys
    exact ⟨⟨e1, e2, fun _ _ _ _ => e3⟩, e4, e5, fun _ _ _ => e3⟩

/-- C73: the backup of the matrices is never restored: in the situation in which the code looks for it, there are always columns. -/
theorem C73_backup_unused {c : QNConfig} {s s' : QN ι κ} {r : ι → ℝ} {x : κ → ℝ} (h : s.updateDifferences c r x = some s') (hc : s.Counts c)
    (hq : s.firstIteration = true → s.firstWindow = false) : s'.restore c = some s' := by
  obtain ⟨-, -, -, e⟩ := QN.updateDifferences_counts h hc
  unfold QN.restore
  rw [if_neg]
  rintro ⟨-, h2, h3, h4⟩
  have := e h3 (by simpa using h4) hq
  omega

theorem QN.reset_sys {s s' : QN ι κ} (h : s.reset = some s') : s.sys.removeColumns (QR.reset (scaled s.weights s.sys.V)).2 = some s'.sys := by
  unfold QN.reset at h
  simp only [Option.bind_eq_bind, Option.bind_eq_some_iff] at h
  obtain ⟨m, hm, h⟩ := h
  split_ifs at h
  obtain rfl := Option.some.inj h
  exact hm

theorem QN.filterRebuild_sys {c : QNConfig} {s s' : QN ι κ} (h : s.filterRebuild c = some s') : s.sys.removeColumns (QR.resetFilter c.limit (scaled s.weights s.sys.V)).2.reverse = some s'.sys := by
  unfold QN.filterRebuild at h
  simp only [Option.bind_eq_bind, Option.bind_eq_some_iff] at h
  obtain ⟨m, hm, h⟩ := h
  split_ifs at h
  obtain rfl := Option.some.inj h
  exact hm

theorem QN.precondition_sys {c : QNConfig} {s s' : QN ι κ} {w : ι → ℝ} {n : Bool} (h : s.precondition c w n = some s') : ∃ is, s.sys.removeColumns is = some s'.sys := by
  unfold QN.precondition at h
  simp only at h
  split_ifs at h with h1
  · rw [Option.map_eq_some_iff] at h
    obtain ⟨s1, hs1, rfl⟩ := h
    unfold QN.newFactors at hs1
    split_ifs at hs1
    · obtain rfl := Option.some.inj hs1
      exact ⟨[], rfl⟩
    · have := QN.reset_sys hs1
      exact ⟨_, this⟩
  · obtain rfl := Option.some.inj h
    exact ⟨[], rfl⟩

/-- Filtering removes some columns from the matrices. -/
theorem QN.applyFilter_sys {c : QNConfig} {s s' : QN ι κ} (h : s.applyFilter c = some s') : ∃ is, s.sys.removeColumns is = some s'.sys := by
  unfold QN.applyFilter at h
  cases hf : c.filter with
  | none =>
    rw [hf] at h
    obtain rfl := Option.some.inj h
    exact ⟨[], rfl⟩
  | qr1 a =>
    rw [hf] at h
    simp only [Option.bind_eq_bind, Option.bind_eq_some_iff] at h
    obtain ⟨m, hm, h⟩ := h
    split_ifs at h
    obtain rfl := Option.some.inj h
    exact ⟨_, hm⟩
  | qr2 =>
    rw [hf] at h
    exact ⟨_, QN.filterRebuild_sys h⟩
  | qr3 =>
    rw [hf] at h
    simp only [Option.bind_eq_bind, Option.bind_eq_some_iff] at h
    obtain ⟨need, -, s1, h1, h⟩ := h
    obtain rfl := Option.some.inj h
    unfold QN.filterChecked at h1
    split_ifs at h1
    · have := QN.filterRebuild_sys h1
      exact ⟨_, this⟩
    · obtain rfl := Option.some.inj h1
      exact ⟨[], rfl⟩

/-- What `prepare` does, step by step, if the backup is not needed. -/
theorem QN.prepare_eq {c : QNConfig} {s s' : QN ι κ} {r : ι → ℝ} {x : κ → ℝ} {w : ι → ℝ} {n : Bool} (h : s.prepare c r x w n = some s') (hc : s.Counts c)
    (hq : s.firstIteration = true → s.firstWindow = false) :
    ∃ s1 s2, s.updateDifferences c r x = some s1 ∧ s1.precondition c w n = some s2 ∧ s2.applyFilter c = some s' ∧ s'.qr.cols = s'.sys.blocks.sum := by
  unfold QN.prepare at h
  simp only [Option.bind_eq_bind, Option.bind_eq_some_iff] at h
  obtain ⟨s1, h1, s1', h2, s2, h3, s3, h4, h⟩ := h
  split_ifs at h with h5
  obtain rfl := Option.some.inj h
  rw [C73_backup_unused h1 hc hq] at h2
  obtain rfl := Option.some.inj h2
  exact ⟨s1, s2, h1, h3, h4, h5⟩

theorem QN.prepare_counts {c : QNConfig} {s s' : QN ι κ} {r : ι → ℝ} {x : κ → ℝ} {w : ι → ℝ} {n : Bool} (h : s.prepare c r x w n = some s') (hc : s.Counts c)
    (hq : s.firstIteration = true → s.firstWindow = false) : s'.sys.Consistent c.maxUsed ∧ s'.sys.blocks ≠ [] := by
  obtain ⟨s1, s2, h1, h2, h3, -⟩ := QN.prepare_eq h hc hq
  have c1 := (QN.updateDifferences_counts h1 hc).1
  obtain ⟨is1, e1⟩ := QN.precondition_sys h2
  obtain ⟨is2, e2⟩ := QN.applyFilter_sys h3
  have c2 := QNSystem.removeColumns_spec _ e1 c1.sys
  exact ⟨QNSystem.removeColumns_spec _ e2 c2, QNSystem.removeColumns_ne_nil _ e2 c2 (QNSystem.removeColumns_ne_nil _ e1 c1.sys c1.ne)⟩

theorem QN.pending_counts {c : QNConfig} {s : QN ι κ} (hc : s.sys.Consistent c.maxUsed ∧ s.sys.blocks ≠ []) : (s.pending c).sys.Consistent c.maxUsed ∧ (s.pending c).sys.blocks ≠ [] := by
  unfold QN.pending
  simp only
  split_ifs
  all_goals first | exact hc | exact ⟨⟨rfl, rfl, Nat.zero_le _, by simp⟩, by simp⟩

theorem QN.accelerate_counts {c : QNConfig} {s s' : QN ι κ} {r : ι → ℝ} {x : κ → ℝ} {w : ι → ℝ} {n : Bool} (h : s.accelerate c r x w n = some s') (hc : s.Counts c) : s'.Counts c := by
  unfold QN.accelerate at h
  split_ifs at h with h1
  · obtain rfl := Option.some.inj h
    exact ⟨hc.sys, hc.ne, fun _ _ _ h => absurd h (by simp)⟩
  · simp only [Option.bind_eq_bind, Option.bind_eq_some_iff] at h
    obtain ⟨s1, h2, h⟩ := h
    obtain rfl := Option.some.inj h
    have := QN.pending_counts (QN.prepare_counts h2 hc fun hf => by
      rw [not_and, not_or] at h1
      simpa using (h1 hf).1)
    exact ⟨this.1, this.2, fun _ _ _ h => absurd h (by simp)⟩

theorem popZero_spec {l : List ℕ} (hp : ∀ b ∈ l.tail, 0 < b) : (popZero l).sum = l.sum ∧ ∀ b ∈ popZero l, 0 < b := by
  cases l with
  | nil => exact ⟨rfl, by simp [popZero]⟩
  | cons b bs =>
    cases b with
    | zero => exact ⟨by simp [popZero], by simpa [popZero] using hp⟩
    | succ n =>
      refine ⟨rfl, fun b hb => ?_⟩
      rcases List.mem_cons.1 hb with rfl | hb
      · exact Nat.succ_pos n
      · exact hp b hb

theorem popZero_pos {l : List ℕ} (hp : ∀ b ∈ l, 0 < b) : popZero l = l := by
  cases l with
  | nil => rfl
  | cons b bs =>
    cases b with
    | zero => exact absurd (hp 0 (by simp)) (by simp)
    | succ n => rfl

theorem QN.dropColumns_sys : ∀ (n : ℕ) {s s' : QN ι κ}, s.dropColumns n = some s' → s'.sys = ⟨s.sys.V.take (s.sys.V.length - n), s.sys.W.take (s.sys.W.length - n), s.sys.blocks⟩ ∧
    s'.firstWindow = s.firstWindow ∧ s'.firstIteration = s.firstIteration
  | 0, s, s', h => by
    obtain rfl := Option.some.inj h
    refine ⟨?_, rfl, rfl⟩
    rw [Nat.sub_zero, Nat.sub_zero, List.take_length, List.take_length]
  | n + 1, s, s', h => by
    rw [QN.dropColumns, Option.bind_eq_bind, Option.bind_eq_some_iff] at h
    obtain ⟨s1, h1, h2⟩ := h
    obtain ⟨e1, e2, e3⟩ := QN.popQR_sys h1
    obtain ⟨d1, d2, d3⟩ := QN.dropColumns_sys n h2
    refine ⟨?_, d2.trans e2, d3.trans e3⟩
    rw [d1]
    simp only [e1, List.dropLast_eq_take, List.take_take, List.length_take]
    congr 2 <;> omega

theorem QN.dropWindow_counts {c : QNConfig} {s s' : QN ι κ} (h : s.dropWindow c = some s') (hc : s.sys.Consistent c.maxUsed) (hp : ∀ b ∈ s.sys.blocks, 0 < b) :
    s'.sys.Consistent c.maxUsed ∧ (∀ b ∈ s'.sys.blocks, 0 < b) ∧ s'.firstWindow = s.firstWindow ∧ s'.firstIteration = s.firstIteration ∧
    (c.reused = 0 → c.force = false → s'.sys = s.sys) := by
  unfold QN.dropWindow at h
  split_ifs at h with h1 h2 h3
  · obtain rfl := Option.some.inj h
    exact ⟨⟨rfl, rfl, Nat.zero_le _, by simp⟩, by simp, rfl, rfl, fun _ h => by rw [h2] at h; exact absurd h (by simp)⟩
  · obtain rfl := Option.some.inj h
    exact ⟨hc, hp, rfl, rfl, fun _ _ => rfl⟩
  · cases hl : s.sys.blocks.getLast? with
    | none => rw [hl] at h; exact absurd h (by simp)
    | some n =>
      rw [hl] at h
      simp only [Option.bind_eq_bind] at h
      split_ifs at h with h4
      rw [Option.bind_eq_some_iff] at h
      obtain ⟨s1, e1, h⟩ := h
      obtain rfl := Option.some.inj h
      obtain ⟨d1, d2, d3⟩ := QN.dropColumns_sys n e1
      rw [d1]
      have hs : s.sys.blocks.dropLast.sum + n = s.sys.blocks.sum := by
        obtain ⟨ys, hy⟩ := List.getLast?_eq_some_iff.1 hl
        rw [hy]
        simp
      have hW := hc.length
      have hsum := hc.sum
      have hle := hc.le
      refine ⟨⟨?_, ?_, ?_, ?_⟩, ?_, d2, d3, fun h0 => absurd h0 h1⟩
      · simp only [List.map_take, hc.tags, hW]
      · simp only [List.length_take]
        omega
      · simp only [List.length_take]
        omega
      · intro b hb
        exact hp b (List.dropLast_subset _ (List.mem_of_mem_tail hb))
      · intro b hb
        exact hp b (List.dropLast_subset _ hb)
  · obtain rfl := Option.some.inj h
    exact ⟨hc, hp, rfl, rfl, fun _ _ => rfl⟩

theorem QN.converged_counts {c : QNConfig} {s s' : QN ι κ} {r : ι → ℝ} {x : κ → ℝ} {w : ι → ℝ} {n : Bool} (h : s.converged c r x w n = some s') (hc : s.Counts c) : s'.Counts c := by
  unfold QN.converged at h
  simp only [Option.bind_eq_bind, Option.bind_eq_some_iff] at h
  obtain ⟨s1, h1, s2, h2, h⟩ := h
  obtain rfl := Option.some.inj h
  obtain ⟨c1, f1, f2, live⟩ := QN.updateDifferences_counts h1 hc
  obtain ⟨p1, p2⟩ := popZero_spec c1.sys.pos
  rw [popZero_pos p2] at h2
  obtain ⟨d1, d2, d3, d4, d5⟩ := QN.dropWindow_counts h2 ⟨c1.sys.tags, p1.trans c1.sys.sum, c1.sys.le, fun b hb => p2 b (List.mem_of_mem_tail hb)⟩ p2
  refine ⟨⟨d1.tags, by simpa using d1.sum, d1.le, by simpa using d2⟩, by simp, fun g1 g2 g3 _ => ?_⟩
  simp only [List.sum_cons, Nat.zero_add]
  rw [d5 g1 g2]
  simp only
  rw [p1]
  refine live g1 g2 fun hf => ?_
  simp only at g3
  rw [d3] at g3
  simp only [f1, f2, hf, Bool.and_true] at g3
  exact g3

/-- C73: in every reachable state the matrices have the same columns, the counters add up to their number, and this is at most the configured number of iterations. -/
theorem C73_counts {c : QNConfig} {s : QN ι κ} (h : QN.Reachable c s) : s.Counts c := by
  induction h with
  | init w => exact ⟨⟨rfl, rfl, Nat.zero_le _, by simp [QN.init]⟩, by simp [QN.init], fun _ _ h => absurd h (by simp [QN.init])⟩
  | step _ _ h ih =>
    unfold QN.step at h
    split_ifs at h
    · exact QN.converged_counts h ih
    · exact QN.accelerate_counts h ih

/-- C73: the same holds for the system with which an update is computed, and the factorisation has the same number of columns. -/
theorem C73_update {c : QNConfig} {s s' : QN ι κ} {r : ι → ℝ} {x : κ → ℝ} {w : ι → ℝ} {n : Bool} (hr : QN.Reachable c s) (hq : s.firstIteration = true → s.firstWindow = false)
    (h : s.prepare c r x w n = some s') : s'.sys.Consistent c.maxUsed ∧ s'.qr.cols = s'.sys.V.length := by
  have hc := C73_counts hr
  have h1 := (QN.prepare_counts h hc hq).1
  obtain ⟨_, _, _, _, _, e⟩ := QN.prepare_eq h hc hq
  exact ⟨h1, e.trans h1.sum⟩

end Verif.Accel
