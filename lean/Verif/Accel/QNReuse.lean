import Verif.Accel.QNColumns

/-!
# Which windows the columns come from (C74)
-/

set_option autoImplicit false
set_option linter.unusedSectionVars false

namespace Verif.Accel

open Finset

variable {ι κ : Type} [Fintype ι]

/-- The windows of the columns, if the counters belong to the given windows. -/
def flat : List ℕ → List ℕ → List ℕ
  | b :: bs, w :: ws => List.replicate b w ++ flat bs ws
  | _, _ => []

/-- The windows that are left after a column was removed. -/
def dropLabel : ℕ → List ℕ → List ℕ → List ℕ
  | i, b :: bs, w :: ws => if i < b then (if b = 1 then ws else w :: ws) else w :: dropLabel (i - b) bs ws
  | _, _, _ => []

/-- The columns belong to the windows given by the counters, the latest one first. -/
structure Labeled (blocks ws t : List ℕ) : Prop where
  length : ws.length = blocks.length
  eq : t = flat blocks ws
  desc : ws.Pairwise (· > ·)

theorem dropLabel_spec : ∀ (i : ℕ) {bs ws : List ℕ}, ws.length = bs.length → i < bs.sum → (dropLabel i bs ws).length = (decBlock i bs).length ∧
    flat (decBlock i bs) (dropLabel i bs ws) = (flat bs ws).eraseIdx i ∧ (dropLabel i bs ws).Sublist ws
  | i, [], _, _, h => absurd h (by simp)
  | i, b :: bs, [], hl, _ => absurd hl (by simp)
  | i, b :: bs, w :: ws, hl, h => by
    rw [dropLabel, decBlock]
    split_ifs with h1 h2
    · subst h2
      obtain rfl : i = 0 := by omega
      refine ⟨by simpa using hl, by simp [flat], List.sublist_cons_self _ _⟩
    · refine ⟨by simpa using hl, ?_, List.Sublist.refl _⟩
      rw [flat, flat, List.eraseIdx_append_of_lt_length (by simpa using h1)]
      congr 1
      rw [List.eraseIdx_replicate, if_pos h1]
    · have h' : i - b < bs.sum := by rw [List.sum_cons] at h; omega
      obtain ⟨e1, e2, e3⟩ := dropLabel_spec (i - b) (bs := bs) (ws := ws) (by simpa using hl) h'
      refine ⟨by simp [e1], ?_, e3.cons_cons w⟩
      rw [flat, flat, e2, List.eraseIdx_append_of_length_le (by simp; omega), List.length_replicate]

theorem Labeled.erase {bs ws t : List ℕ} (h : Labeled bs ws t) {i : ℕ} (hi : i < bs.sum) : Labeled (decBlock i bs) (dropLabel i bs ws) (t.eraseIdx i) := by
  obtain ⟨e1, e2, e3⟩ := dropLabel_spec i h.length hi
  exact ⟨e1, by rw [h.eq, e2], List.Pairwise.sublist e3 h.desc⟩

theorem mem_flat : ∀ {bs ws : List ℕ} {x : ℕ}, x ∈ flat bs ws → x ∈ ws
  | b :: bs, w :: ws, x, h => by
    rw [flat, List.mem_append] at h
    rcases h with h | h
    · rw [List.eq_of_mem_replicate h]; simp
    · exact List.mem_cons_of_mem _ (mem_flat h)
  | [], ws, x, h => absurd h (by simp [flat])
  | b :: bs, [], x, h => absurd h (by simp [flat])

theorem flat_sorted : ∀ {bs ws : List ℕ}, ws.Pairwise (· > ·) → (flat bs ws).Pairwise (· ≥ ·)
  | b :: bs, w :: ws, h => by
    rw [List.pairwise_cons] at h
    rw [flat, List.pairwise_append]
    refine ⟨List.pairwise_replicate.2 (Or.inr le_rfl), flat_sorted h.2, fun x hx y hy => ?_⟩
    rw [List.eq_of_mem_replicate hx]
    exact (h.1 y (mem_flat hy)).le
  | [], ws, h => by simp [flat]
  | b :: bs, [], h => by simp [flat]

/-- The current window keeps its counter as long as it has columns, or if it has none yet. -/
theorem Labeled.erase_head {b w : ℕ} {bs ws t : List ℕ} (h : Labeled (b :: bs) (w :: ws) t) {i : ℕ} (hk : b = 0 ∨ w ∈ t.eraseIdx i) :
    ∃ bs' ws', decBlock i (b :: bs) = (if i < b then b - 1 else b) :: bs' ∧ dropLabel i (b :: bs) (w :: ws) = w :: ws' ∧ bs'.length ≤ bs.length := by
  rw [decBlock, dropLabel]
  split_ifs with h1 h2
  · exfalso
    rcases hk with hk | hk
    · omega
    · subst h2
      obtain rfl : i = 0 := by omega
      rw [h.eq, flat] at hk
      have hk' : w ∈ flat bs ws := by simpa using hk
      have := (List.pairwise_cons.1 h.desc).1 w (mem_flat hk')
      omega
  · exact ⟨bs, ws, rfl, rfl, le_rfl⟩
  · refine ⟨_, _, rfl, rfl, ?_⟩
    have : ∀ (i : ℕ) (l : List ℕ), (decBlock i l).length ≤ l.length := by
      intro i l
      induction l generalizing i with
      | nil => simp [decBlock]
      | cons a l ih =>
        rw [decBlock]
        split_ifs
        · simp
        · simp
        · simpa using ih _
    exact this _ _

theorem decBlock_length_le (i : ℕ) (l : List ℕ) : (decBlock i l).length ≤ l.length := by
  induction l generalizing i with
  | nil => simp [decBlock]
  | cons a l ih =>
    rw [decBlock]
    split_ifs
    · simp
    · simp
    · simpa using ih _

/-- The columns come from the given windows, the first of which is the current one. -/
def QNSystem.From (m : QNSystem ι κ) (w : ℕ) (ws : List ℕ) : Prop := Labeled m.blocks (w :: ws) (m.V.map fun v => v.tag.1)

theorem QNSystem.removeColumns_subset : ∀ (is : List ℕ) {m m' : QNSystem ι κ}, m.removeColumns is = some m' → m'.V.Sublist m.V ∧ m'.blocks.length ≤ m.blocks.length
  | [], m, m', h => by
    obtain rfl : m = m' := by simpa [QNSystem.removeColumns] using h
    exact ⟨List.Sublist.refl _, le_rfl⟩
  | i :: is, m, m', h => by
    rw [QNSystem.removeColumns, List.foldlM_cons, Option.bind_eq_bind, Option.bind_eq_some_iff] at h
    obtain ⟨m1, h1, h2⟩ := h
    obtain ⟨e1, e2⟩ := QNSystem.removeColumns_subset is h2
    unfold QNSystem.removeColumn at h1
    split_ifs at h1
    obtain rfl := Option.some.inj h1
    exact ⟨e1.trans (List.eraseIdx_sublist _ _), e2.trans (decBlock_length_le _ _)⟩

/-- The counter of the current window is zero. -/
def QNSystem.fresh (m : QNSystem ι κ) : Prop := m.blocks.head? = some 0

theorem QNSystem.removeColumns_from {w : ℕ} {n : ℕ} : ∀ (is : List ℕ) {m m' : QNSystem ι κ} {ws : List ℕ}, m.removeColumns is = some m' → m.Consistent n → m.From w ws →
    (m.fresh ∨ w ∈ m'.V.map fun v => v.tag.1) → ∃ ws', m'.From w ws' ∧ ws'.Sublist ws ∧ (m.fresh → m'.fresh)
  | [], m, m', ws, h, _, hf, _ => by
    obtain rfl : m = m' := by simpa [QNSystem.removeColumns] using h
    exact ⟨ws, hf, List.Sublist.refl _, id⟩
  | i :: is, m, m', ws, h, hc, hf, hk => by
    rw [QNSystem.removeColumns, List.foldlM_cons, Option.bind_eq_bind, Option.bind_eq_some_iff] at h
    obtain ⟨m1, h1, h2⟩ := h
    have hc1 := QNSystem.removeColumn_spec h1 hc
    have hsub := (QNSystem.removeColumns_subset is h2).1
    unfold QNSystem.removeColumn at h1
    split_ifs at h1 with h3
    obtain rfl := Option.some.inj h1
    have hi : i < m.blocks.sum := by rw [hc.sum]; exact h3.2
    have he := hf.erase hi
    have hne : m.blocks ≠ [] := fun hz => by rw [hz] at hi; simp at hi
    obtain ⟨b, bs, hb⟩ := List.exists_cons_of_ne_nil hne
    unfold QNSystem.From at hf
    rw [hb] at hf he
    have hk' : b = 0 ∨ w ∈ (m.V.map fun v => v.tag.1).eraseIdx i := by
      rcases hk with hk | hk
      · left
        unfold QNSystem.fresh at hk
        rw [hb] at hk
        simpa using hk
      · right
        rw [List.eraseIdx_map]
        exact (hsub.map _).subset hk
    obtain ⟨bs', ws', e1, e2, e3⟩ := hf.erase_head hk'
    have hsub2 : (dropLabel i (b :: bs) (w :: ws)).Sublist (w :: ws) := (dropLabel_spec i hf.length (by rw [← hb]; exact hi)).2.2
    rw [e2] at he hsub2
    have hfresh : m.fresh → QNSystem.fresh (⟨m.V.eraseIdx i, m.W.eraseIdx i, decBlock i m.blocks⟩ : QNSystem ι κ) := by
      intro hfr
      unfold QNSystem.fresh at hfr ⊢
      simp only
      rw [hb] at hfr
      have hb0 : b = 0 := by simpa using hfr
      rw [hb, e1, hb0]
      simp
    have hf1 : QNSystem.From (⟨m.V.eraseIdx i, m.W.eraseIdx i, decBlock i m.blocks⟩ : QNSystem ι κ) w ws' := by
      unfold QNSystem.From
      simp only
      rw [← List.eraseIdx_map, hb]
      exact he
    obtain ⟨ws2, g1, g2, g3⟩ := QNSystem.removeColumns_from is h2 hc1 hf1 (hk.imp_left hfresh)
    exact ⟨ws2, g1, g2.trans (List.cons_sublist_cons.1 hsub2), fun h => g3 (hfresh h)⟩

/-! ## Adding a column -/

theorem flat_append : ∀ {bs ws : List ℕ} (b w : ℕ), ws.length = bs.length → flat (bs ++ [b]) (ws ++ [w]) = flat bs ws ++ List.replicate b w
  | [], [], b, w, _ => by simp [flat]
  | b' :: bs, w' :: ws, b, w, h => by
    rw [List.cons_append, List.cons_append, flat, flat_append b w (by simpa using h), flat, List.append_assoc]
  | [], _ :: _, _, _, h => absurd h (by simp)
  | _ :: _, [], _, _, h => absurd h (by simp)

theorem decBack_eq : ∀ {l l' : List ℕ}, decBack l = some l' → ∃ bs b, l = bs ++ [b] ∧ b ≠ 0 ∧ l' = if b = 1 then bs else bs ++ [b - 1]
  | [], l', h => absurd h (by simp [decBack])
  | [b], l', h => by
    rw [decBack] at h
    split_ifs at h with h0 h1
    · exact ⟨[], b, rfl, h0, by rw [if_pos h1]; exact (Option.some.inj h).symm⟩
    · exact ⟨[], b, rfl, h0, by rw [if_neg h1]; exact (Option.some.inj h).symm⟩
  | b :: b' :: bs, l', h => by
    rw [decBack, Option.map_eq_some_iff] at h
    obtain ⟨l, hl, rfl⟩ := h
    obtain ⟨bs', x, e1, e2, e3⟩ := decBack_eq hl
    refine ⟨b :: bs', x, by rw [e1]; rfl, e2, ?_⟩
    rw [e3]
    split_ifs <;> rfl

theorem Labeled.dropLast {bs ws t l' : List ℕ} (h : Labeled bs ws t) (hd : decBack bs = some l') : ∃ ws', ws'.Sublist ws ∧ Labeled l' ws' t.dropLast ∧ l'.length ≤ bs.length ∧ ws' <+: ws := by
  obtain ⟨bs', b, e1, e2, e3⟩ := decBack_eq hd
  subst e1
  have hl := h.length
  obtain ⟨ws', w, rfl⟩ : ∃ ws' w, ws = ws' ++ [w] := by
    have : ws ≠ [] := fun hz => by rw [hz] at hl; simp at hl
    exact ⟨ws.dropLast, ws.getLast this, (List.dropLast_append_getLast this).symm⟩
  have hl' : ws'.length = bs'.length := by simpa using hl
  have ht := h.eq
  rw [flat_append b w hl'] at ht
  have hdrop : t.dropLast = flat bs' ws' ++ List.replicate (b - 1) w := by
    rw [ht, List.dropLast_append_of_ne_nil (by simpa using e2), List.dropLast_eq_take, List.take_replicate, List.length_replicate]
    congr 2
    omega
  rw [e3]
  split_ifs with h1
  · subst h1
    refine ⟨ws', List.sublist_append_left _ _, ⟨hl', by rw [hdrop]; simp, List.Pairwise.sublist (List.sublist_append_left _ _) h.desc⟩, by simp, List.prefix_append _ _⟩
  · refine ⟨ws' ++ [w], List.Sublist.refl _, ⟨by simpa using hl', by rw [flat_append _ _ hl', hdrop], h.desc⟩, by simp, List.prefix_refl _⟩

theorem QN.pushQR_other (s : QN ι κ) (v : ι → ℝ) : (s.pushQR v).window = s.window ∧ (s.pushQR v).iteration = s.iteration := by
  unfold QN.pushQR
  cases s.qr.insertColumn 0 v 0 <;> exact ⟨rfl, rfl⟩

theorem QN.popQR_other {s s' : QN ι κ} (h : s.popQR = some s') : s'.window = s.window ∧ s'.iteration = s.iteration := by
  unfold QN.popQR at h
  split_ifs at h
  obtain rfl := Option.some.inj h
  exact ⟨rfl, rfl⟩

/-- The new column is the first one. -/
theorem QN.addColumn_head {c : QNConfig} {s s' : QN ι κ} {r : ι → ℝ} {x : κ → ℝ} (h : s.addColumn c r x = some s') :
    (∃ V, s'.sys.V = s.newV r :: V) ∧ s'.window = s.window ∧ s'.iteration = s.iteration := by
  unfold QN.addColumn at h
  simp only [Option.bind_eq_bind] at h
  split_ifs at h with h1 h2
  · rw [Option.bind_eq_some_iff] at h
    obtain ⟨b, hb, h⟩ := h
    obtain rfl := Option.some.inj h
    rw [(QN.pushQR_sys _ _).1]
    exact ⟨⟨_, rfl⟩, QN.pushQR_other _ _⟩
  · rw [Option.bind_eq_some_iff] at h
    obtain ⟨s1, hs1, h⟩ := h
    rw [Option.bind_eq_some_iff] at h
    obtain ⟨b, hb, h⟩ := h
    rw [Option.bind_eq_some_iff] at h
    obtain ⟨b', hb', h⟩ := h
    obtain rfl := Option.some.inj h
    obtain ⟨e1, e2⟩ := QN.popQR_other hs1
    exact ⟨⟨_, rfl⟩, e1.trans (QN.pushQR_other _ _).1, e2.trans (QN.pushQR_other _ _).2⟩

theorem QN.addColumn_from {c : QNConfig} {s s' : QN ι κ} {r : ι → ℝ} {x : κ → ℝ} {ws : List ℕ} (h : s.addColumn c r x = some s') (hc : s.sys.Consistent c.maxUsed) (hf : s.sys.From s.window ws) :
    ∃ ws', s'.sys.From s.window ws' ∧ ws'.Sublist ws := by
  unfold QN.addColumn at h
  simp only [Option.bind_eq_bind] at h
  unfold QNSystem.From at hf ⊢
  split_ifs at h with h1 h2
  · rw [Option.bind_eq_some_iff] at h
    obtain ⟨b, hb, h⟩ := h
    obtain rfl := Option.some.inj h
    obtain ⟨b0, bs, e1, rfl⟩ := incFront_eq hb
    rw [(QN.pushQR_sys _ _).1]
    rw [e1] at hf
    refine ⟨ws, ⟨by simpa using hf.length, ?_, hf.desc⟩, List.Sublist.refl _⟩
    have := hf.eq
    simp only [List.map_cons, QN.newV]
    rw [this, flat, flat, List.replicate_succ]
    rfl
  · rw [Option.bind_eq_some_iff] at h
    obtain ⟨s1, hs1, h⟩ := h
    rw [Option.bind_eq_some_iff] at h
    obtain ⟨b, hb, h⟩ := h
    rw [Option.bind_eq_some_iff] at h
    obtain ⟨b', hb', h⟩ := h
    obtain rfl := Option.some.inj h
    obtain ⟨b0, bs, e1, rfl⟩ := incFront_eq hb
    rw [e1] at hf
    have hf1 : Labeled ((b0 + 1) :: bs) (s.window :: ws) (s.window :: s.sys.V.map fun v => v.tag.1) := by
      refine ⟨by simpa using hf.length, ?_, hf.desc⟩
      rw [hf.eq, flat, flat, List.replicate_succ]
      rfl
    obtain ⟨ws', g1, g2, g3, g4⟩ := hf1.dropLast hb'
    have hp := hc.pos
    rw [e1] at hp
    have hs := hc.sum
    rw [e1] at hs
    have hne : b' ≠ [] := by
      refine decBack_ne_nil hb' (by simpa using hp) ?_
      by_contra hn
      push Not at hn
      rw [hn.1, hn.2] at hs
      exact h2 (List.length_eq_zero_iff.1 (by simpa using hs.symm))
    have hne' : ws' ≠ [] := fun hz => hne (List.length_eq_zero_iff.1 (by rw [← g2.length, hz]; rfl))
    obtain ⟨w0, ws2, rfl⟩ := List.exists_cons_of_ne_nil hne'
    obtain ⟨rfl, -⟩ := List.cons_prefix_cons.1 g4
    refine ⟨ws2, ?_, List.cons_sublist_cons.1 g1⟩
    simp only [List.map_cons, QN.newV, List.map_dropLast]
    have hVne : (s.sys.V.map fun v => v.tag.1) ≠ [] := fun hz => h2 (List.map_eq_nil_iff.1 hz)
    rw [List.dropLast_cons_of_ne_nil hVne] at g2
    exact g2

/-! ## All calls -/

/-- The number of earlier windows that may be used. Without reuse the columns of the last window serve for the first iteration, unless that one is a relaxation. -/
def QNConfig.earlier (c : QNConfig) : ℕ := if c.reused = 0 then (if c.force then 0 else 1) else c.reused

/-- Where the columns come from, between the calls. -/
def QN.Origin (c : QNConfig) (s : QN ι κ) : Prop :=
  ∃ ws, s.sys.From s.window ws ∧ ws.length ≤ c.earlier ∧ (s.firstIteration = true → s.sys.fresh) ∧ (c.reused = 0 → s.firstIteration = false → ws = []) ∧ (s.firstWindow = true → ws = [])

/-- After the filtering in an iteration there is still a column of the current window, if one was added. -/
def QN.Keeps (c : QNConfig) (s : QN ι κ) (a : QNCall ι κ) : Prop :=
  ∀ s', s.prepare c a.residual a.values a.weights a.newQR = some s' → a.conv = false → s.firstIteration = false → ∃ v ∈ s'.sys.V, v.tag.1 = s.window

theorem QN.updateDifferences_from {c : QNConfig} {s s' : QN ι κ} {r : ι → ℝ} {x : κ → ℝ} {ws : List ℕ} (h : s.updateDifferences c r x = some s') (hc : s.sys.Consistent c.maxUsed) (hf : s.sys.From s.window ws) :
    (∃ ws', s'.sys.From s.window ws' ∧ ws'.Sublist ws) ∧ s'.window = s.window ∧ (s.firstIteration = true → s'.sys = s.sys) := by
  unfold QN.updateDifferences at h
  split_ifs at h with h1 h2
  · obtain rfl := Option.some.inj h
    exact ⟨⟨ws, hf, List.Sublist.refl _⟩, rfl, fun _ => rfl⟩
  · obtain rfl := Option.some.inj h
    exact ⟨⟨ws, hf, List.Sublist.refl _⟩, rfl, fun _ => rfl⟩
  · rw [Option.map_eq_some_iff] at h
    obtain ⟨s1, hs1, rfl⟩ := h
    have h3 := QN.addColumn_from hs1 hc hf
    have h4 := (QN.addColumn_head hs1).2.1
    exact ⟨h3, h4, fun h => absurd h h2⟩

theorem QN.reset_other {s s' : QN ι κ} (h : s.reset = some s') : s'.window = s.window ∧ s'.firstIteration = s.firstIteration ∧ s'.firstWindow = s.firstWindow ∧ s'.iteration = s.iteration := by
  unfold QN.reset at h
  simp only [Option.bind_eq_bind, Option.bind_eq_some_iff] at h
  obtain ⟨m, hm, h⟩ := h
  split_ifs at h
  obtain rfl := Option.some.inj h
  exact ⟨rfl, rfl, rfl, rfl⟩

theorem QN.filterRebuild_other {c : QNConfig} {s s' : QN ι κ} (h : s.filterRebuild c = some s') : s'.window = s.window ∧ s'.firstIteration = s.firstIteration ∧ s'.firstWindow = s.firstWindow ∧ s'.iteration = s.iteration := by
  unfold QN.filterRebuild at h
  simp only [Option.bind_eq_bind, Option.bind_eq_some_iff] at h
  obtain ⟨m, hm, h⟩ := h
  split_ifs at h
  obtain rfl := Option.some.inj h
  exact ⟨rfl, rfl, rfl, rfl⟩

theorem QN.precondition_other {c : QNConfig} {s s' : QN ι κ} {w : ι → ℝ} {n : Bool} (h : s.precondition c w n = some s') :
    s'.window = s.window ∧ s'.firstIteration = s.firstIteration ∧ s'.firstWindow = s.firstWindow ∧ s'.iteration = s.iteration := by
  unfold QN.precondition at h
  simp only at h
  split_ifs at h with h1
  · rw [Option.map_eq_some_iff] at h
    obtain ⟨s1, hs1, rfl⟩ := h
    unfold QN.newFactors at hs1
    split_ifs at hs1
    · obtain rfl := Option.some.inj hs1
      exact ⟨rfl, rfl, rfl, rfl⟩
    · have := QN.reset_other hs1
      exact this
  · obtain rfl := Option.some.inj h
    exact ⟨rfl, rfl, rfl, rfl⟩

theorem QN.applyFilter_other {c : QNConfig} {s s' : QN ι κ} (h : s.applyFilter c = some s') : s'.window = s.window ∧ s'.firstIteration = s.firstIteration ∧ s'.firstWindow = s.firstWindow ∧ s'.iteration = s.iteration := by
  unfold QN.applyFilter at h
  cases hf : c.filter with
  | none =>
    rw [hf] at h
    obtain rfl := Option.some.inj h
    exact ⟨rfl, rfl, rfl, rfl⟩
  | qr1 a =>
    rw [hf] at h
    simp only [Option.bind_eq_bind, Option.bind_eq_some_iff] at h
    obtain ⟨m, hm, h⟩ := h
    split_ifs at h
    obtain rfl := Option.some.inj h
    exact ⟨rfl, rfl, rfl, rfl⟩
  | qr2 =>
    rw [hf] at h
    exact QN.filterRebuild_other h
  | qr3 =>
    rw [hf] at h
    simp only [Option.bind_eq_bind, Option.bind_eq_some_iff] at h
    obtain ⟨need, -, s1, h1, h⟩ := h
    obtain rfl := Option.some.inj h
    unfold QN.filterChecked at h1
    split_ifs at h1
    · have := QN.filterRebuild_other h1
      exact this
    · obtain rfl := Option.some.inj h1
      exact ⟨rfl, rfl, rfl, rfl⟩

theorem QN.accelerate_origin {c : QNConfig} {s s' : QN ι κ} {a : QNCall ι κ} (h : s.accelerate c a.residual a.values a.weights a.newQR = some s') (hc : s.Counts c) (hk : s.Keeps c a)
    (ha : a.conv = false) (ho : s.Origin c) : s'.Origin c := by
  obtain ⟨ws, o1, o2, o3, o4, o5⟩ := ho
  unfold QN.accelerate at h
  split_ifs at h with h1
  · obtain rfl := Option.some.inj h
    refine ⟨ws, o1, o2, fun h => absurd h (by simp), fun h0 _ => ?_, o5⟩
    rcases h1.2 with h | h
    · exact o5 h
    · unfold QNConfig.earlier at o2
      rw [if_pos h0, if_pos h] at o2
      exact List.length_eq_zero_iff.1 (by omega)
  · simp only [Option.bind_eq_bind, Option.bind_eq_some_iff] at h
    obtain ⟨s1, h2, h⟩ := h
    obtain rfl := Option.some.inj h
    have hq : s.firstIteration = true → s.firstWindow = false := fun hf => by
      rw [not_and, not_or] at h1
      simpa using (h1 hf).1
    obtain ⟨u1, u2, k1, k2, k3, -⟩ := QN.prepare_eq h2 hc hq
    obtain ⟨c1, v1, v2, -⟩ := QN.updateDifferences_counts k1 hc
    obtain ⟨⟨ws1, f1, f2⟩, f3, f4⟩ := QN.updateDifferences_from k1 hc.sys o1
    obtain ⟨is1, e1⟩ := QN.precondition_sys k2
    obtain ⟨is2, e2⟩ := QN.applyFilter_sys k3
    have keep : u1.sys.fresh ∨ s.window ∈ s1.sys.V.map fun v => v.tag.1 := by
      cases hfi : s.firstIteration with
      | true => left; rw [f4 hfi]; exact o3 hfi
      | false =>
        right
        obtain ⟨v, hv, hv'⟩ := hk s1 h2 ha hfi
        exact List.mem_map.2 ⟨v, hv, hv'⟩
    obtain ⟨ws2, g1, g2, g3⟩ := QNSystem.removeColumns_from is1 e1 c1.sys f1 (keep.imp_right fun h => ((QNSystem.removeColumns_subset _ e2).1.map _).subset h)
    obtain ⟨ws3, j1, j2, j3⟩ := QNSystem.removeColumns_from is2 e2 (QNSystem.removeColumns_spec _ e1 c1.sys) g1 (keep.imp_left g3)
    have hsub : ws3.Sublist ws := j2.trans (g2.trans f2)
    obtain ⟨w1, w2, w3, -⟩ := QN.precondition_other k2
    obtain ⟨x1, x2, x3, -⟩ := QN.applyFilter_other k3
    have hwin : s1.window = s.window := x1.trans (w1.trans f3)
    have hfi : s1.firstIteration = s.firstIteration := x2.trans (w2.trans v2)
    have hfw : s1.firstWindow = s.firstWindow := x3.trans (w3.trans v1)
    unfold QN.pending
    by_cases hp : s1.firstIteration = true ∧ c.reused = 0 ∧ ¬ c.force = true
    · rw [if_pos hp]
      have hfw' : ¬ s1.firstWindow = true := by
        rw [hfw, hq (hfi ▸ hp.1)]; simp
      have : (if s1.sys.blocks.sum > 0 then { s1 with backup := s1.sys } else s1).firstWindow = s1.firstWindow := by split_ifs <;> rfl
      simp only [this]
      rw [if_pos hfw']
      refine ⟨[], ⟨rfl, rfl, by simp⟩, Nat.zero_le _, fun h => absurd h (by simp), fun _ _ => rfl, fun _ => rfl⟩
    · rw [if_neg hp]
      refine ⟨ws3, by rw [← hwin] at j1; exact j1, hsub.length_le.trans o2, fun h => absurd h (by simp), fun h0 _ => ?_, fun hw => ?_⟩
      · cases hfi' : s.firstIteration with
        | false => exact List.sublist_nil.1 (o4 h0 hfi' ▸ hsub)
        | true =>
          exfalso
          rw [hfi, hfi'] at hp
          rw [not_and, not_and, not_not] at hp
          rw [not_and, not_or] at h1
          exact (h1 hfi').2 (hp rfl h0)
      · have hw' : s.firstWindow = true := hfw.symm.trans hw
        exact List.sublist_nil.1 (o5 hw' ▸ hsub)

theorem popZero_labeled {w : ℕ} {bs ws t : List ℕ} (h : Labeled bs (w :: ws) t) (hp : ∀ b ∈ bs.tail, 0 < b) :
    (bs.head? = some 0 ∧ Labeled (popZero bs) ws t) ∨ (popZero bs = bs ∧ Labeled bs (w :: ws) t) := by
  cases bs with
  | nil => exact absurd h.length (by simp)
  | cons b bs =>
    cases b with
    | zero =>
      left
      refine ⟨rfl, by simpa [popZero] using h.length, ?_, (List.pairwise_cons.1 h.desc).2⟩
      rw [h.eq, flat]
      simp [popZero]
    | succ n => exact Or.inr ⟨rfl, h⟩

theorem Labeled.dropWindow {bs ws t : List ℕ} {n : ℕ} (h : Labeled bs ws t) (hl : bs.getLast? = some n) : Labeled bs.dropLast ws.dropLast (t.take (t.length - n)) ∧
    ∃ w, (∀ x ∈ t, w ≤ x) ∧ t.take (t.length - n) = t.filter (fun x => decide (x ≠ w)) := by
  obtain ⟨bs', rfl⟩ := List.getLast?_eq_some_iff.1 hl
  have hlen := h.length
  obtain ⟨ws', w, rfl⟩ : ∃ ws' w, ws = ws' ++ [w] := by
    have : ws ≠ [] := fun hz => by rw [hz] at hlen; simp at hlen
    exact ⟨ws.dropLast, ws.getLast this, (List.dropLast_append_getLast this).symm⟩
  have hl' : ws'.length = bs'.length := by simpa using hlen
  have ht := h.eq
  rw [flat_append n w hl'] at ht
  have htake : t.take (t.length - n) = flat bs' ws' := by
    rw [ht, List.length_append, List.length_replicate, Nat.add_sub_cancel, List.take_left]
  have hd := List.pairwise_append.1 h.desc
  have hlt : ∀ x ∈ flat bs' ws', w < x := fun x hx => hd.2.2 x (mem_flat hx) w (by simp)
  refine ⟨⟨by simpa using hl', by rw [htake]; simp, by simpa using hd.1⟩, w, fun x hx => ?_, ?_⟩
  · rw [ht, List.mem_append] at hx
    rcases hx with hx | hx
    · exact (hlt x hx).le
    · exact (List.eq_of_mem_replicate hx).ge
  · rw [htake, ht, List.filter_append, List.filter_eq_self.2 (fun x hx => by simpa using (hlt x hx).ne'), List.filter_eq_nil_iff.2 (fun x hx => by simpa using List.eq_of_mem_replicate hx),
      List.append_nil]

theorem QN.dropColumns_other : ∀ (n : ℕ) {s s' : QN ι κ}, s.dropColumns n = some s' → s'.window = s.window
  | 0, s, s', h => by obtain rfl := Option.some.inj h; rfl
  | n + 1, s, s', h => by
    rw [QN.dropColumns, Option.bind_eq_bind, Option.bind_eq_some_iff] at h
    obtain ⟨s1, h1, h2⟩ := h
    exact (QN.dropColumns_other n h2).trans (QN.popQR_other h1).1

/-- Dropping a window: the columns of the oldest one, and only those. -/
theorem QN.dropWindow_from {c : QNConfig} {s s' : QN ι κ} {ws : List ℕ} (h : s.dropWindow c = some s') (hf : Labeled s.sys.blocks ws (s.sys.V.map fun v => v.tag.1)) :
    s'.window = s.window ∧ (∃ ws', Labeled s'.sys.blocks ws' (s'.sys.V.map fun v => v.tag.1) ∧ ws'.Sublist ws ∧ (c.reused ≠ 0 → ws.length ≤ c.reused + 1 → ws'.length ≤ c.reused) ∧
      (c.reused = 0 → c.force = true → ws' = [])) ∧
    (c.reused ≠ 0 → s'.sys.V = s.sys.V ∨ ∃ w, (∀ v ∈ s.sys.V, w ≤ v.tag.1) ∧ s'.sys.V = s.sys.V.filter fun v => decide (v.tag.1 ≠ w)) := by
  unfold QN.dropWindow at h
  split_ifs at h with h1 h2 h3
  · obtain rfl := Option.some.inj h
    exact ⟨rfl, ⟨[], ⟨rfl, rfl, by simp⟩, List.nil_sublist _, fun h => absurd h1 h, fun _ _ => rfl⟩, fun h => absurd h1 h⟩
  · obtain rfl := Option.some.inj h
    exact ⟨rfl, ⟨ws, hf, List.Sublist.refl _, fun h => absurd h1 h, fun _ h => absurd h h2⟩, fun h => absurd h1 h⟩
  · cases hl : s.sys.blocks.getLast? with
    | none => rw [hl] at h; exact absurd h (by simp)
    | some n =>
      rw [hl] at h
      simp only [Option.bind_eq_bind] at h
      split_ifs at h with h4
      rw [Option.bind_eq_some_iff] at h
      obtain ⟨s1, e1, h⟩ := h
      obtain rfl := Option.some.inj h
      obtain ⟨d1, -, -⟩ := QN.dropColumns_sys n e1
      have d2 := QN.dropColumns_other n e1
      obtain ⟨g1, w, g2, g3⟩ := hf.dropWindow hl
      simp only [d1]
      refine ⟨d2, ⟨ws.dropLast, ?_, List.dropLast_sublist _, fun _ hle => ?_, fun h => absurd h h1⟩, fun _ => Or.inr ⟨w, fun v hv => g2 _ (List.mem_map.2 ⟨v, hv, rfl⟩), ?_⟩⟩
      · simpa using g1
      · rw [List.length_dropLast]
        omega
      · have hlen : (s.sys.V.map fun v => v.tag.1).length = s.sys.V.length := List.length_map ..
        rw [hlen] at g3
        obtain ⟨k, hk, hk'⟩ : ∃ k, k = s.sys.V.length - n ∧ k ≤ s.sys.V.length := ⟨_, rfl, by omega⟩
        rw [← hk] at g3 ⊢
        -- the part that is kept has none of window `w`, the rest only that
        have hsplit := List.take_append_drop k s.sys.V
        have ht : ∀ v ∈ s.sys.V.take k, v.tag.1 ≠ w := by
          intro v hv
          have : v.tag.1 ∈ (s.sys.V.map fun v => v.tag.1).take k := by
            rw [← List.map_take]
            exact List.mem_map.2 ⟨v, hv, rfl⟩
          rw [g3, List.mem_filter] at this
          simpa using this.2
        have hcount : ((s.sys.V.filter fun v => decide (v.tag.1 ≠ w))).length = k := by
          have := congrArg List.length g3
          rw [List.length_take, hlen, Nat.min_eq_left hk', List.filter_map, List.length_map] at this
          exact this.symm
        have hdrop : (s.sys.V.drop k).filter (fun v => decide (v.tag.1 ≠ w)) = [] := by
          apply List.length_eq_zero_iff.1
          conv at hcount => lhs; rw [← hsplit]
          rw [List.filter_append, List.length_append, List.filter_eq_self.2 (fun v hv => by simpa using ht v hv), List.length_take, Nat.min_eq_left hk'] at hcount
          omega
        conv => rhs; rw [← hsplit]
        rw [List.filter_append, hdrop, List.append_nil, List.filter_eq_self.2 (fun v hv => by simpa using ht v hv)]
  · obtain rfl := Option.some.inj h
    refine ⟨rfl, ⟨ws, hf, List.Sublist.refl _, fun _ _ => ?_, fun h => absurd h h1⟩, fun _ => Or.inl rfl⟩
    rw [hf.length]
    omega

theorem QN.converged_origin {c : QNConfig} {s s' : QN ι κ} {r : ι → ℝ} {x : κ → ℝ} {w : ι → ℝ} {n : Bool} (h : s.converged c r x w n = some s') (hc : s.Counts c) (ho : s.Origin c) :
    s'.Origin c := by
  obtain ⟨ws, o1, o2, o3, o4, o5⟩ := ho
  unfold QN.converged at h
  simp only [Option.bind_eq_bind, Option.bind_eq_some_iff] at h
  obtain ⟨s1, h1, s2, h2, h⟩ := h
  obtain rfl := Option.some.inj h
  obtain ⟨c1, v1, v2, -⟩ := QN.updateDifferences_counts h1 hc
  obtain ⟨⟨ws1, f1, f2⟩, f3, f4⟩ := QN.updateDifferences_from h1 hc.sys o1
  rw [popZero_pos (popZero_spec c1.sys.pos).2] at h2
  have hlab := popZero_labeled f1 c1.sys.pos
  obtain ⟨ws2, g1, g2, g3, g4⟩ : ∃ ws2, Labeled (popZero s1.sys.blocks) ws2 (s1.sys.V.map fun v => v.tag.1) ∧ ws2.length ≤ ws1.length + 1 ∧ (∀ y ∈ ws2, y ≤ s.window) ∧
      (s.firstIteration = true → ws2 = ws1) := by
    have hlt : ∀ y ∈ s.window :: ws1, y ≤ s.window := fun y hy => by
      rcases List.mem_cons.1 hy with rfl | hy
      · exact le_rfl
      · exact ((List.pairwise_cons.1 f1.desc).1 y hy).le
    rcases hlab with ⟨-, e⟩ | ⟨e1, e2⟩
    · exact ⟨ws1, e, by omega, fun y hy => hlt y (List.mem_cons_of_mem _ hy), fun _ => rfl⟩
    · refine ⟨s.window :: ws1, by rw [e1]; exact e2, by simp, hlt, fun hfi => ?_⟩
      exfalso
      have := o3 hfi
      rw [← f4 hfi] at this
      unfold QNSystem.fresh at this
      cases hb : s1.sys.blocks with
      | nil => rw [hb] at this; exact absurd this (by simp)
      | cons b bs =>
        rw [hb] at this e1
        obtain rfl : b = 0 := by simpa using this
        have := congrArg List.length e1
        simp [popZero] at this
  obtain ⟨d1, ⟨ws3, d2, d3, d4, d5⟩, -⟩ := QN.dropWindow_from h2 g1
  obtain ⟨-, -, p1, p2, -⟩ := QN.dropWindow_counts h2 ⟨c1.sys.tags, (popZero_spec c1.sys.pos).1.trans c1.sys.sum, c1.sys.le, fun b hb => (popZero_spec c1.sys.pos).2 b (List.mem_of_mem_tail hb)⟩
    (popZero_spec c1.sys.pos).2
  simp only at d1
  have hle1 := f2.length_le
  refine ⟨ws3, ?_, ?_, fun _ => rfl, fun _ h => absurd h (by simp), fun hw => ?_⟩
  · unfold QNSystem.From
    simp only
    refine ⟨by simpa using d2.length, by rw [d2.eq]; simp [flat], ?_⟩
    rw [List.pairwise_cons]
    refine ⟨fun y hy => ?_, d2.desc⟩
    have := g3 y (d3.subset hy)
    rw [d1, f3]
    omega
  · unfold QNConfig.earlier at o2 ⊢
    have hle3 := d3.length_le
    split_ifs at o2 ⊢ with h0 hfo
    · rw [d5 h0 hfo]; simp
    · cases hfi : s.firstIteration with
      | true =>
        have := congrArg List.length (g4 hfi)
        omega
      | false =>
        have := congrArg List.length (o4 h0 hfi)
        rw [List.length_nil] at this
        omega
    · exact d4 h0 (by omega)
  · simp only at hw
    rw [p1] at hw
    simp only [Bool.and_eq_true] at hw
    rw [v1, v2] at hw
    have := o5 hw.1
    subst this
    have e1 := List.sublist_nil.1 f2
    have e2 := g4 hw.2
    rw [e2, e1] at d3
    exact List.sublist_nil.1 d3

/-- Reachable states, if the filter never removes all columns of the current window. -/
inductive QN.ReachableKeeping (c : QNConfig) : QN ι κ → Prop
  | init (w : ι → ℝ) : QN.ReachableKeeping c (QN.init w)
  | step {s s' : QN ι κ} {a : QNCall ι κ} : QN.ReachableKeeping c s → (a.weights ≠ s.weights → a.newQR = true) → s.Keeps c a → s.step c a = some s' → QN.ReachableKeeping c s'

theorem QN.ReachableKeeping.reachable {c : QNConfig} {s : QN ι κ} (h : QN.ReachableKeeping c s) : QN.Reachable c s := by
  induction h with
  | init w => exact .init w
  | step _ hw _ h ih => exact .step ih hw h

theorem QN.ReachableKeeping.origin {c : QNConfig} {s : QN ι κ} (h : QN.ReachableKeeping c s) : s.Origin c := by
  induction h with
  | init w => exact ⟨[], ⟨rfl, rfl, by simp⟩, Nat.zero_le _, fun _ => rfl, fun _ _ => rfl, fun _ => rfl⟩
  | @step s s' a hr hw hk h ih =>
    have hc := C73_counts hr.reachable
    unfold QN.step at h
    split_ifs at h with ha
    · exact QN.converged_origin h hc ih
    · exact QN.accelerate_origin h hc hk (by simpa using ha) ih

/-- C74: apart from the current window, the columns come from at most `time-windows-reused` earlier windows (windows that converge in their first iteration have no columns);
without reuse, from at most one for the first iteration of a window, and from none afterwards. The columns of later windows come first.
Missing: the filter QR1 can remove all columns of the current window, and then the counters belong to the wrong windows, see `C74_wrong_window`. -/
theorem C74_windows_partial {c : QNConfig} {s : QN ι κ} (h : QN.ReachableKeeping c s) :
    (∃ ws : List ℕ, ws.length ≤ (if c.reused = 0 then (if c.force then 0 else 1) else c.reused) ∧ (c.reused = 0 → s.firstIteration = false → ws = []) ∧
      ∀ v ∈ s.sys.V, v.tag.1 = s.window ∨ v.tag.1 ∈ ws) ∧
    s.sys.V.Pairwise fun v v' => v.tag.1 ≥ v'.tag.1 := by
  obtain ⟨ws, o1, o2, -, o4, -⟩ := h.origin
  refine ⟨⟨ws, o2, o4, fun v hv => ?_⟩, ?_⟩
  · have : v.tag.1 ∈ s.sys.V.map fun v => v.tag.1 := List.mem_map.2 ⟨v, hv, rfl⟩
    rw [o1.eq] at this
    simpa using mem_flat this
  · have := flat_sorted (bs := s.sys.blocks) o1.desc
    rw [← o1.eq, List.pairwise_map] at this
    exact this

/-- C74: at the end of a window the columns of the oldest window are dropped, all of them and no others, or none at all. -/
theorem C74_oldest_partial {c : QNConfig} {s s' s1 : QN ι κ} {r : ι → ℝ} {x : κ → ℝ} {w : ι → ℝ} {n : Bool} (hr : QN.ReachableKeeping c s) (h : s.converged c r x w n = some s')
    (h1 : s.updateDifferences c r x = some s1) (h0 : c.reused ≠ 0) :
    s'.sys.V = s1.sys.V ∨ ∃ w, (∀ v ∈ s1.sys.V, w ≤ v.tag.1) ∧ s'.sys.V = s1.sys.V.filter fun v => decide (v.tag.1 ≠ w) := by
  obtain ⟨ws, o1, -⟩ := hr.origin
  have hc := C73_counts hr.reachable
  unfold QN.converged at h
  rw [h1] at h
  simp only [Option.bind_eq_bind, Option.bind_some, Option.bind_eq_some_iff] at h
  obtain ⟨s2, h2, h⟩ := h
  obtain rfl := Option.some.inj h
  obtain ⟨c1, -, -, -⟩ := QN.updateDifferences_counts h1 hc
  obtain ⟨⟨ws1, f1, -⟩, -, -⟩ := QN.updateDifferences_from h1 hc.sys o1
  rw [popZero_pos (popZero_spec c1.sys.pos).2] at h2
  rcases popZero_labeled f1 c1.sys.pos with ⟨-, e⟩ | ⟨e1, e2⟩
  · exact (QN.dropWindow_from h2 e).2.2 h0
  · rw [e1] at h2
    exact (QN.dropWindow_from h2 e2).2.2 h0

/-! ## The latest column stays -/

theorem QNSystem.removeColumns_head : ∀ (is : List ℕ) {m m' : QNSystem ι κ}, m.removeColumns is = some m' → 0 ∉ is → m'.V.head? = m.V.head?
  | [], m, m', h, _ => by
    obtain rfl : m = m' := by simpa [QNSystem.removeColumns] using h
    rfl
  | i :: is, m, m', h, hn => by
    rw [QNSystem.removeColumns, List.foldlM_cons, Option.bind_eq_bind, Option.bind_eq_some_iff] at h
    obtain ⟨m1, h1, h2⟩ := h
    rw [List.mem_cons, not_or] at hn
    rw [QNSystem.removeColumns_head is h2 hn.2]
    unfold QNSystem.removeColumn at h1
    split_ifs at h1
    obtain rfl := Option.some.inj h1
    cases hV : m.V with
    | nil => simp
    | cons v V =>
      obtain ⟨k, hk⟩ : ∃ k, i = k + 1 := ⟨i - 1, by have := hn.1; omega⟩
      rw [hk]
      rfl

theorem QN.precondition_head {c : QNConfig} {s s' : QN ι κ} {w : ι → ℝ} {n : Bool} {v : QNCol ι} {V : List (QNCol ι)} (h : s.precondition c w n = some s') (hV : s.sys.V = v :: V)
    (hv : dblMin < l2 (scaledCol w v.val)) : s'.sys.V.head? = some v ∧ s'.weights = w := by
  unfold QN.precondition at h
  simp only at h
  split_ifs at h with h1
  · rw [Option.map_eq_some_iff] at h
    obtain ⟨s1, hs1, rfl⟩ := h
    unfold QN.newFactors at hs1
    split_ifs at hs1
    · obtain rfl := Option.some.inj hs1
      exact ⟨by simp [hV], rfl⟩
    · have e := QN.reset_sys hs1
      simp only [hV] at e
      have := QNSystem.removeColumns_head _ e (by rw [QR.reset_eq]; exact C75_latest_kept (by norm_num) hv _)
      refine ⟨?_, (QN.reset_fits hs1).2⟩
      simp only
      rw [this]
      simp [hV]
  · obtain rfl := Option.some.inj h
    exact ⟨by simp [hV], rfl⟩

theorem QN.filterRebuild_head {c : QNConfig} {s s' : QN ι κ} {v : QNCol ι} (h : s.filterRebuild c = some s') (hV : s.sys.V.head? = some v)
    (hl : c.limit ≤ 1) (hv : dblMin < l2 (scaledCol s.weights v.val)) : s'.sys.V.head? = some v := by
  have e := QN.filterRebuild_sys h
  rw [QNSystem.removeColumns_head _ e, hV]
  rw [List.mem_reverse]
  cases hs : s.sys.V with
  | nil => rw [hs] at hV; exact absurd hV (by simp)
  | cons v' V =>
    rw [hs] at hV
    obtain rfl : v' = v := by simpa using hV
    exact C75_latest_kept hl hv _

/-- C74: without filter and with the filters QR2 and QR3 (their limit being at most one), the latest column is never removed, unless it is zero. -/
theorem C74_latest_kept {c : QNConfig} {s : QN ι κ} (hr : QN.Reachable c s) (a : QNCall ι κ) (hfil : c.filter = .none ∨ (c.filter = .qr2 ∨ c.filter = .qr3) ∧ c.limit ≤ 1)
    (hv : dblMin < l2 (fun i => (a.residual i - s.oldResidual i) * a.weights i)) : s.Keeps c a := by
  intro s' h ha hfi
  have hc := C73_counts hr
  obtain ⟨s1, s2, h1, h2, h3, -⟩ := QN.prepare_eq h hc fun h => by rw [hfi] at h; exact absurd h (by simp)
  have hV : ∃ V, s1.sys.V = s.newV a.residual :: V := by
    unfold QN.updateDifferences at h1
    rw [if_neg (by simp [hfi]), if_neg (by simp [hfi]), Option.map_eq_some_iff] at h1
    obtain ⟨u, hu, rfl⟩ := h1
    exact (QN.addColumn_head hu).1
  obtain ⟨V, hV⟩ := hV
  obtain ⟨e1, e2⟩ := QN.precondition_head h2 hV hv
  have e3 : s'.sys.V.head? = some (s.newV a.residual) := by
    unfold QN.applyFilter at h3
    rcases hfil with hf | ⟨hf | hf, hl⟩
    · rw [hf] at h3
      obtain rfl := Option.some.inj h3
      exact e1
    · rw [hf] at h3
      exact QN.filterRebuild_head h3 e1 hl (by rw [e2]; exact hv)
    · rw [hf] at h3
      simp only [Option.bind_eq_bind, Option.bind_eq_some_iff] at h3
      obtain ⟨need, -, u, h1, h⟩ := h3
      obtain rfl := Option.some.inj h
      unfold QN.filterChecked at h1
      split_ifs at h1
      · have := QN.filterRebuild_head h1 e1 hl (by rw [e2]; exact hv)
        exact this
      · obtain rfl := Option.some.inj h1
        exact e1
  exact ⟨s.newV a.residual, List.mem_of_mem_head? (by rw [e3]; rfl), rfl⟩

end Verif.Accel
