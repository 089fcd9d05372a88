import Verif.Accel.IMVJ
import Verif.Accel.IMVJSpec

/-!
# Lemmas about the model of IQN-IMVJ (C93)
-/

set_option autoImplicit false
set_option linter.unusedSectionVars false

namespace Verif.Accel

open Finset

variable {ι κ : Type} [Fintype ι] [Fintype κ]

/-- `_Wtil` belongs to the current matrices and the previous Jacobian. -/
def IMVJ.TilOK (c : IMVJConfig) (s : IMVJ ι κ) : Prop := s.til = List.zipWith (s.tilColumn c) s.base.sys.V s.base.sys.W

theorem zipWith_eraseIdx {α β γ : Type} (f : α → β → γ) : ∀ (i : ℕ) (l : List α) (l' : List β), (List.zipWith f l l').eraseIdx i = List.zipWith f (l.eraseIdx i) (l'.eraseIdx i)
  | _, [], _ => by simp
  | _, _ :: _, [] => by simp
  | 0, _ :: _, _ :: _ => rfl
  | i + 1, a :: l, b :: l' => by
    simp only [List.zipWith_cons_cons, List.eraseIdx_cons_succ]
    rw [zipWith_eraseIdx f i l l']

theorem removeTil_zipWith {f : QNCol ι → QNCol κ → κ → ℝ} : ∀ (is : List ℕ) {m m' : QNSystem ι κ}, m.W.length = m.V.length → m.removeColumns is = some m' →
    is.foldlM removeTil (List.zipWith f m.V m.W) = some (List.zipWith f m'.V m'.W)
  | [], m, m', _, h => by
    obtain rfl : m = m' := by simpa [QNSystem.removeColumns] using h
    rfl
  | i :: is, m, m', hl, h => by
    rw [QNSystem.removeColumns, List.foldlM_cons, Option.bind_eq_bind, Option.bind_eq_some_iff] at h
    obtain ⟨m1, h1, h2⟩ := h
    unfold QNSystem.removeColumn at h1
    split_ifs at h1 with h3
    obtain rfl := Option.some.inj h1
    rw [List.foldlM_cons, Option.bind_eq_bind]
    have : removeTil (List.zipWith f m.V m.W) i = some (List.zipWith f (m.V.eraseIdx i) (m.W.eraseIdx i)) := by
      unfold removeTil
      rw [if_pos (by rw [List.length_zipWith, hl, min_self]; exact h3.2), zipWith_eraseIdx]
    rw [this, Option.bind_some]
    exact removeTil_zipWith is (m := ⟨m.V.eraseIdx i, m.W.eraseIdx i, decBlock i m.blocks⟩) (by
      simp only [List.length_eraseIdx, hl]) h2

/-! ## Functions of the base class -/

theorem IMVJ.lift_base {c : IMVJConfig} {s s' : IMVJ ι κ} {f : QN ι κ → Option (QN ι κ)} {dels : List ℕ} (h : s.lift c f dels = some s') :
    f s.base = some s'.base ∧ s'.jac = s.jac ∧ s'.oldJac = s.oldJac ∧ s'.chunk = s.chunk ∧ s'.resetLS = s.resetLS := by
  unfold IMVJ.lift at h
  simp only [Option.bind_eq_some_iff, Option.map_eq_some_iff] at h
  obtain ⟨b, hb, t, -, rfl⟩ := h
  exact ⟨hb, rfl, rfl, rfl, rfl⟩

theorem IMVJ.lift_til {c : IMVJConfig} {s s' : IMVJ ι κ} {f : QN ι κ → Option (QN ι κ)} {dels : List ℕ} (h : s.lift c f dels = some s') (hm : c.mode ≠ .always)
    (hl : s.base.sys.W.length = s.base.sys.V.length) (hd : s.base.sys.removeColumns dels = some s'.base.sys) (ht : s.resetLS = true ∨ s.TilOK c) : s'.resetLS = true ∨ s'.TilOK c := by
  unfold IMVJ.lift at h
  simp only [Option.bind_eq_some_iff, Option.map_eq_some_iff] at h
  obtain ⟨b, hb, t, h1, rfl⟩ := h
  by_cases hr : s.resetLS = true
  · exact Or.inl hr
  · right
    rw [if_pos ⟨by simpa using hr, hm⟩, ht.resolve_left hr, removeTil_zipWith dels hl hd] at h1
    exact (Option.some.inj h1).symm

theorem QN.reset_dels {s s' : QN ι κ} (h : s.reset = some s') : s.sys.removeColumns s.resetDels = some s'.sys := QN.reset_sys h

theorem QN.applyFilter_dels {c : QNConfig} {s s' : QN ι κ} (h : s.applyFilter c = some s') : s.sys.removeColumns (s.filterDels c) = some s'.sys := by
  unfold QN.applyFilter at h
  unfold QN.filterDels
  cases hf : c.filter with
  | none =>
    rw [hf] at h
    obtain rfl := Option.some.inj h
    rfl
  | qr1 a =>
    rw [hf] at h
    simp only [Option.bind_eq_bind, Option.bind_eq_some_iff] at h
    obtain ⟨m, hm, h⟩ := h
    split_ifs at h
    obtain rfl := Option.some.inj h
    exact hm
  | qr2 =>
    rw [hf] at h
    exact QN.filterRebuild_sys h
  | qr3 =>
    rw [hf] at h
    simp only [Option.bind_eq_bind, Option.bind_eq_some_iff] at h
    obtain ⟨need, hn, s1, h1, h⟩ := h
    obtain rfl := Option.some.inj h
    simp only [hn]
    unfold QN.filterChecked at h1
    by_cases h2 : (need || s.needQR2) = true
    · rw [if_pos h2] at h1
      rw [if_pos (by simpa using h2)]
      exact QN.filterRebuild_sys h1
    · rw [if_neg h2] at h1
      rw [if_neg (by simpa using h2)]
      split_ifs at h1
      obtain rfl := Option.some.inj h1
      rfl

theorem QN.precondition_dels {c : QNConfig} {s s' : QN ι κ} {w : ι → ℝ} {n : Bool} (h : s.precondition c w n = some s') :
    s.sys.removeColumns (s.preconditionDels c w n) = some s'.sys := by
  unfold QN.precondition at h
  unfold QN.preconditionDels
  simp only at h
  by_cases h1 : (s.newQR || n) = true
  · rw [if_pos h1, Option.map_eq_some_iff] at h
    obtain ⟨s1, hs1, rfl⟩ := h
    unfold QN.newFactors at hs1
    by_cases h2 : c.filter = .qr2 ∨ c.filter = .qr3
    · rw [if_pos h2] at hs1
      obtain rfl := Option.some.inj hs1
      rw [if_neg (by tauto)]
      rfl
    · rw [if_neg h2] at hs1
      rw [if_pos (by tauto)]
      exact QN.reset_dels hs1
  · rw [if_neg h1] at h
    obtain rfl := Option.some.inj h
    rw [if_neg (by tauto)]
    rfl

theorem QN.renew_dels {c : QNConfig} {s s' : QN ι κ} (h : s.renew c = some s') : s.sys.removeColumns (s.renewDels c) = some s'.sys := by
  unfold QN.renew at h
  unfold QN.renewDels
  by_cases h1 : s.newQR = true
  · rw [if_pos h1, Option.map_eq_some_iff] at h
    obtain ⟨s1, hs1, rfl⟩ := h
    by_cases h2 : c.filter = .qr2
    · rw [if_pos h2] at hs1
      obtain rfl := Option.some.inj hs1
      rw [if_neg (by tauto)]
      rfl
    · rw [if_neg h2] at hs1
      rw [if_pos ⟨h1, h2⟩]
      have := QN.reset_dels hs1
      exact this
  · rw [if_neg h1] at h
    obtain rfl := Option.some.inj h
    rw [if_neg (by tauto)]
    rfl

/-- Two states of the base class agree in everything the factorisation and the filter leave alone. -/
structure QN.SameRest (s s' : QN ι κ) : Prop where
  fi : s'.firstIteration = s.firstIteration
  fw : s'.firstWindow = s.firstWindow
  r : s'.oldResidual = s.oldResidual
  x : s'.oldXTilde = s.oldXTilde

theorem QN.reset_rest {s s' : QN ι κ} (h : s.reset = some s') : s.SameRest s' := by
  unfold QN.reset at h
  simp only [Option.bind_eq_bind, Option.bind_eq_some_iff] at h
  obtain ⟨m, hm, h⟩ := h
  split_ifs at h
  obtain rfl := Option.some.inj h
  exact ⟨rfl, rfl, rfl, rfl⟩

theorem QN.filterRebuild_rest {c : QNConfig} {s s' : QN ι κ} (h : s.filterRebuild c = some s') : s.SameRest s' := by
  unfold QN.filterRebuild at h
  simp only [Option.bind_eq_bind, Option.bind_eq_some_iff] at h
  obtain ⟨m, hm, h⟩ := h
  split_ifs at h
  obtain rfl := Option.some.inj h
  exact ⟨rfl, rfl, rfl, rfl⟩

theorem QN.applyFilter_rest {c : QNConfig} {s s' : QN ι κ} (h : s.applyFilter c = some s') : s.SameRest s' := by
  unfold QN.applyFilter at h
  cases hf : c.filter with
  | none =>
    rw [hf] at h
    obtain rfl := Option.some.inj h
    exact ⟨rfl, rfl, rfl, rfl⟩
  | qr1 a =>
    rw [hf] at h
    simp only [Option.bind_eq_bind, Option.bind_eq_some_iff] at h
    obtain ⟨m, hm, h⟩ := h
    split_ifs at h
    obtain rfl := Option.some.inj h
    exact ⟨rfl, rfl, rfl, rfl⟩
  | qr2 =>
    rw [hf] at h
    exact QN.filterRebuild_rest h
  | qr3 =>
    rw [hf] at h
    simp only [Option.bind_eq_bind, Option.bind_eq_some_iff] at h
    obtain ⟨need, hn, s1, h1, h⟩ := h
    obtain rfl := Option.some.inj h
    unfold QN.filterChecked at h1
    split_ifs at h1
    · have := QN.filterRebuild_rest h1
      exact ⟨this.fi, this.fw, this.r, this.x⟩
    · obtain rfl := Option.some.inj h1
      exact ⟨rfl, rfl, rfl, rfl⟩

theorem QN.precondition_rest {c : QNConfig} {s s' : QN ι κ} {w : ι → ℝ} {n : Bool} (h : s.precondition c w n = some s') : s.SameRest s' := by
  unfold QN.precondition at h
  simp only at h
  split_ifs at h with h1
  · rw [Option.map_eq_some_iff] at h
    obtain ⟨s1, hs1, rfl⟩ := h
    unfold QN.newFactors at hs1
    split_ifs at hs1
    · obtain rfl := Option.some.inj hs1
      exact ⟨rfl, rfl, rfl, rfl⟩
    · have := QN.reset_rest hs1
      exact ⟨this.fi, this.fw, this.r, this.x⟩
  · obtain rfl := Option.some.inj h
    exact ⟨rfl, rfl, rfl, rfl⟩

theorem QN.renew_rest {c : QNConfig} {s s' : QN ι κ} (h : s.renew c = some s') : s.SameRest s' ∧ s'.weights = s.weights ∧ s'.newQR = false := by
  unfold QN.renew at h
  split_ifs at h with h1 h2
  · obtain rfl := Option.some.inj h
    exact ⟨⟨rfl, rfl, rfl, rfl⟩, rfl, rfl⟩
  · rw [Option.map_eq_some_iff] at h
    obtain ⟨s1, hs1, rfl⟩ := h
    have := QN.reset_rest hs1
    exact ⟨⟨this.fi, this.fw, this.r, this.x⟩, (QN.reset_fits hs1).2, rfl⟩
  · obtain rfl := Option.some.inj h
    exact ⟨⟨rfl, rfl, rfl, rfl⟩, rfl, by simpa using h1⟩

theorem QN.renew_fits {c : QNConfig} {s s' : QN ι κ} (h : s.renew c = some s') (hf : s.Fits) : c.filter = .qr2 ∨ s'.needQR2 = true ∨ s'.Exact := by
  unfold QN.renew at h
  split_ifs at h with h1 h2
  · exact Or.inl h2
  · rw [Option.map_eq_some_iff] at h
    obtain ⟨s1, hs1, rfl⟩ := h
    exact Or.inr (QN.reset_fits hs1).1
  · obtain rfl := Option.some.inj h
    exact Or.inr (hf.resolve_left h1)

theorem QNSystem.removeColumns_pos : ∀ (is : List ℕ) {m m' : QNSystem ι κ}, m.removeColumns is = some m' → 1 ≤ m.V.length → 1 ≤ m'.V.length
  | [], m, m', h, hp => by
    obtain rfl : m = m' := by simpa [QNSystem.removeColumns] using h
    exact hp
  | i :: is, m, m', h, hp => by
    rw [QNSystem.removeColumns, List.foldlM_cons, Option.bind_eq_bind, Option.bind_eq_some_iff] at h
    obtain ⟨m1, h1, h2⟩ := h
    refine QNSystem.removeColumns_pos is h2 ?_
    unfold QNSystem.removeColumn at h1
    split_ifs at h1 with h3
    obtain rfl := Option.some.inj h1
    simp only [List.length_eraseIdx, if_pos h3.2]
    omega

theorem FullRank.length_le {A : List (ι → ℝ)} (h : FullRank A) : A.length ≤ Fintype.card ι := by
  have h1 : LinearIndependent ℝ fun j : Fin A.length => A[j] := by
    rw [Fintype.linearIndependent_iff]
    intro g hg i
    exact congrFun (h.combination g fun x => by
      have := congrFun hg x
      simpa using this) i
  have := h1.fintype_card_le_finrank
  simpa using this

theorem QN.Exact.length_le {s : QN ι κ} (h : s.Exact) : s.sys.V.length ≤ Fintype.card ι := by
  have := h.2.length_le
  unfold scaled at this
  rwa [List.length_map] at this

/-! ## The new column -/

theorem QN.addColumn_shape {c : QNConfig} {s s' : QN ι κ} {r : ι → ℝ} {x : κ → ℝ} (h : s.addColumn c r x = some s') :
    (s.sys.blocks.sum ≠ c.maxUsed ∧ s.sys.blocks.sum ≤ Fintype.card ι ∧ s'.sys.V = s.newV r :: s.sys.V ∧ s'.sys.W = s.newW x :: s.sys.W) ∨
    (¬ (s.sys.blocks.sum ≠ c.maxUsed ∧ s.sys.blocks.sum ≤ Fintype.card ι) ∧ s.sys.V ≠ [] ∧ s'.sys.V = s.newV r :: s.sys.V.dropLast ∧ s'.sys.W = s.newW x :: s.sys.W.dropLast) := by
  unfold QN.addColumn at h
  simp only [Option.bind_eq_bind] at h
  split_ifs at h with h1 h2
  · rw [Option.bind_eq_some_iff] at h
    obtain ⟨b, hb, h⟩ := h
    obtain rfl := Option.some.inj h
    rw [(QN.pushQR_sys _ _).1]
    exact Or.inl ⟨h1.1, h1.2, rfl, rfl⟩
  · rw [Option.bind_eq_some_iff] at h
    obtain ⟨s1, hs1, h⟩ := h
    rw [Option.bind_eq_some_iff] at h
    obtain ⟨b, hb, h⟩ := h
    rw [Option.bind_eq_some_iff] at h
    obtain ⟨b', hb', h⟩ := h
    obtain rfl := Option.some.inj h
    exact Or.inr ⟨h1, h2, rfl, rfl⟩

theorem zipWith_dropLast {α β γ : Type} (f : α → β → γ) {l : List α} {l' : List β} (h : l'.length = l.length) : List.zipWith f l.dropLast l'.dropLast = (List.zipWith f l l').dropLast := by
  rw [List.dropLast_eq_take, List.dropLast_eq_take, List.dropLast_eq_take, List.length_zipWith, h, min_self, ← List.take_zipWith]

theorem IMVJ.pushTil_spec {c : IMVJConfig} {s s' : IMVJ ι κ} {t : κ → ℝ} (h : s.pushTil c t = some s') :
    s'.base = s.base ∧ s'.jac = s.jac ∧ s'.oldJac = s.oldJac ∧ s'.chunk = s.chunk ∧ s'.resetLS = s.resetLS ∧
    (s'.til = t :: s.til ∧ s.til.length ≠ c.qn.maxUsed ∧ s.til.length ≤ Fintype.card κ ∨
      s'.til = t :: s.til.dropLast ∧ ¬ (s.til.length ≠ c.qn.maxUsed ∧ s.til.length ≤ Fintype.card κ)) := by
  unfold IMVJ.pushTil at h
  split_ifs at h with h1 h2
  · obtain rfl := Option.some.inj h
    exact ⟨rfl, rfl, rfl, rfl, rfl, Or.inl ⟨rfl, h1.1, h1.2⟩⟩
  · obtain rfl := Option.some.inj h
    exact ⟨rfl, rfl, rfl, rfl, rfl, Or.inr ⟨rfl, h1⟩⟩

theorem IMVJ.addTil_spec {c : IMVJConfig} {s s' : IMVJ ι κ} (h : s.addTil c = some s') : ∃ v V w W, s.base.sys.V = v :: V ∧ s.base.sys.W = w :: W ∧ s.pushTil c (s.tilColumn c v w) = some s' := by
  unfold IMVJ.addTil at h
  cases hV : s.base.sys.V with
  | nil => rw [hV] at h; exact absurd h (by simp)
  | cons v V =>
    cases hW : s.base.sys.W with
    | nil => rw [hV, hW] at h; exact absurd h (by simp)
    | cons w W =>
      rw [hV, hW] at h
      exact ⟨v, V, w, W, rfl, rfl, h⟩

/-- Updating the difference matrices: the base class does its part, and the Jacobian stays. -/
theorem IMVJ.updateDifferences_base {c : IMVJConfig} {s s' : IMVJ ι κ} {r : ι → ℝ} {x : κ → ℝ} (h : s.updateDifferences c r x = some s') :
    s.base.updateDifferences c.qn r x = some s'.base ∧ s'.jac = s.jac ∧ s'.oldJac = s.oldJac ∧ s'.chunk = s.chunk ∧ s'.resetLS = s.resetLS := by
  unfold IMVJ.updateDifferences at h
  simp only [Option.bind_eq_bind, Option.bind_eq_some_iff] at h
  obtain ⟨b, hb, h⟩ := h
  split_ifs at h with h1
  · obtain ⟨v, V, w, W, -, -, hp⟩ := IMVJ.addTil_spec h
    obtain ⟨e1, e2, e3, e4, e5, -⟩ := IMVJ.pushTil_spec hp
    exact ⟨by rw [e1]; exact hb, e2, e3, e4, e5⟩
  · obtain rfl := Option.some.inj h
    exact ⟨hb, rfl, rfl, rfl, rfl⟩

/-- Updating the difference matrices keeps `_Wtil` up to date. -/
theorem IMVJ.updateDifferences_til {c : IMVJConfig} {s s' : IMVJ ι κ} {r : ι → ℝ} {x : κ → ℝ} (h : s.updateDifferences c r x = some s') (hm : c.mode ≠ .always)
    (hcard : Fintype.card ι ≤ Fintype.card κ) (hc : s.base.Counts c.qn) (hlen : s.base.sys.V.length ≤ Fintype.card ι) (ht : s.resetLS = true ∨ s.TilOK c) :
    s'.resetLS = true ∨ s'.TilOK c := by
  have hr := (IMVJ.updateDifferences_base h).2.2.2.2
  by_cases hls : s.resetLS = true
  · exact Or.inl (hr.trans hls)
  have ht := ht.resolve_left hls
  right
  unfold IMVJ.updateDifferences at h
  simp only [Option.bind_eq_bind, Option.bind_eq_some_iff] at h
  obtain ⟨b, hb, h⟩ := h
  by_cases hfi : s.base.firstIteration = true
  · rw [if_neg (by simp [hfi])] at h
    obtain rfl := Option.some.inj h
    unfold QN.updateDifferences at hb
    split_ifs at hb with h1
    · obtain rfl := Option.some.inj hb
      exact ht
    · obtain rfl := Option.some.inj hb
      exact ht
  · rw [if_pos ⟨hm, by simpa using hfi⟩] at h
    obtain ⟨v, V, w, W, eV, eW, hp⟩ := IMVJ.addTil_spec h
    obtain ⟨e1, e2, e3, e4, e5, e6⟩ := IMVJ.pushTil_spec hp
    have htl : s.til.length = s.base.sys.V.length := by
      rw [ht, List.length_zipWith, hc.sys.length, min_self]
    simp only at e1 e2 e3 e4 e5 e6 eV eW
    have hcol : s'.tilColumn c = s.tilColumn c := by
      funext v w k
      unfold IMVJ.tilColumn IMVJ.prev
      rw [e3, e4]
    have goal : s'.til = s.tilColumn c v w :: List.zipWith (s.tilColumn c) V W → s'.TilOK c := by
      intro hg
      unfold IMVJ.TilOK
      rw [hcol, e1, hg]
      simp only [eV, eW, List.zipWith_cons_cons]
    unfold QN.updateDifferences at hb
    rw [if_neg (by simp [hfi]), if_neg hfi, Option.map_eq_some_iff] at hb
    obtain ⟨b1, hb1, rfl⟩ := hb
    simp only at eV eW
    rcases QN.addColumn_shape hb1 with ⟨a1, a2, a3, a4⟩ | ⟨a1, a2, a3, a4⟩
    · rw [a3, List.cons.injEq] at eV
      rw [a4, List.cons.injEq] at eW
      rw [hc.sys.sum] at a1 a2
      rcases e6 with ⟨e6, -, -⟩ | ⟨-, e6⟩
      · refine goal ?_
        rw [← eV.2, ← eW.2, e6]
        exact congrArg _ ht
      · exact absurd ⟨by rw [htl]; exact a1, by rw [htl]; exact hlen.trans hcard⟩ e6
    · rw [a3, List.cons.injEq] at eV
      rw [a4, List.cons.injEq] at eW
      rw [hc.sys.sum] at a1
      rcases e6 with ⟨-, e6, -⟩ | ⟨e6, -⟩
      · rw [htl] at e6
        exact absurd ⟨e6, hlen⟩ a1
      · refine goal ?_
        rw [← eV.2, ← eW.2, zipWith_dropLast _ hc.sys.length, e6]
        exact congrArg (fun l => _ :: List.dropLast l) ht

/-! ## An iteration -/

theorem IMVJ.restore_base {c : IMVJConfig} {s s' : IMVJ ι κ} (h : s.restore c = some s') : s.base.restore c.qn = some s'.base := by
  unfold IMVJ.restore at h
  split_ifs at h with h1
  · rw [Option.map_eq_some_iff] at h
    obtain ⟨s1, hs1, rfl⟩ := h
    exact (IMVJ.lift_base hs1).1
  · obtain rfl := Option.some.inj h
    unfold QN.restore
    rw [if_neg h1]

/-- The columns and factors of the base class evolve as without the additions of IMVJ. -/
theorem IMVJ.prepare_base {c : IMVJConfig} {s s' : IMVJ ι κ} {r : ι → ℝ} {x : κ → ℝ} {w : ι → ℝ} {n : Bool} (h : s.prepare c r x w n = some s') : s.base.prepare c.qn r x w n = some s'.base := by
  unfold IMVJ.prepare at h
  simp only [Option.bind_eq_bind, Option.bind_eq_some_iff] at h
  obtain ⟨s1, h1, s2, h2, s3, h3, s4, h4, h⟩ := h
  split_ifs at h with h5
  obtain rfl := Option.some.inj h
  unfold QN.prepare
  rw [(IMVJ.updateDifferences_base h1).1]
  simp only [Option.bind_eq_bind, Option.bind_some]
  rw [IMVJ.restore_base h2, Option.bind_some, (IMVJ.lift_base h3).1, Option.bind_some, (IMVJ.lift_base h4).1, Option.bind_some, if_pos h5]

/-- All steps up to the update in one place: nothing is restored from the backup. -/
theorem IMVJ.prepare_eq {c : IMVJConfig} {s s' : IMVJ ι κ} {r : ι → ℝ} {x : κ → ℝ} {w : ι → ℝ} {n : Bool} (h : s.prepare c r x w n = some s') (hc : s.base.Counts c.qn)
    (hq : s.base.firstIteration = true → s.base.firstWindow = false) :
    ∃ s1 s2, s.updateDifferences c r x = some s1 ∧ s1.precondition c w n = some s2 ∧ s2.applyFilter c = some s' := by
  unfold IMVJ.prepare at h
  simp only [Option.bind_eq_bind, Option.bind_eq_some_iff] at h
  obtain ⟨s1, h1, s2, h2, s3, h3, s4, h4, h⟩ := h
  split_ifs at h with h5
  obtain rfl := Option.some.inj h
  obtain ⟨-, -, -, live⟩ := QN.updateDifferences_counts (IMVJ.updateDifferences_base h1).1 hc
  have : s1 = s2 := by
    unfold IMVJ.restore at h2
    rw [if_neg] at h2
    · exact Option.some.inj h2
    · rintro ⟨a1, a2, a3, a4⟩
      have := live a3 (by simpa using a4) hq
      omega
  subst this
  exact ⟨s1, s3, h1, h3, h4⟩

/-- What stays the same up to the update. -/
theorem IMVJ.prepare_jac {c : IMVJConfig} {s s' : IMVJ ι κ} {r : ι → ℝ} {x : κ → ℝ} {w : ι → ℝ} {n : Bool} (h : s.prepare c r x w n = some s') (hc : s.base.Counts c.qn)
    (hq : s.base.firstIteration = true → s.base.firstWindow = false) :
    s'.jac = s.jac ∧ s'.oldJac = s.oldJac ∧ s'.chunk = s.chunk ∧ s'.resetLS = s.resetLS ∧ s'.base.firstIteration = s.base.firstIteration ∧ s'.base.firstWindow = s.base.firstWindow := by
  obtain ⟨s1, s2, h1, h2, h3⟩ := IMVJ.prepare_eq h hc hq
  obtain ⟨b1, j1, o1, k1, l1⟩ := IMVJ.updateDifferences_base h1
  obtain ⟨b2, j2, o2, k2, l2⟩ := IMVJ.lift_base h2
  obtain ⟨b3, j3, o3, k3, l3⟩ := IMVJ.lift_base h3
  have q1 := QN.updateDifferences_counts b1 hc
  have q2 := QN.precondition_rest b2
  have q3 := QN.applyFilter_rest b3
  exact ⟨j3.trans (j2.trans j1), o3.trans (o2.trans o1), k3.trans (k2.trans k1), l3.trans (l2.trans l1), q3.fi.trans (q2.fi.trans q1.2.2.1), q3.fw.trans (q2.fw.trans q1.2.1)⟩

/-- Up to the update `_Wtil` follows the changes of the matrices. -/
theorem IMVJ.prepare_til {c : IMVJConfig} {s s' : IMVJ ι κ} {r : ι → ℝ} {x : κ → ℝ} {w : ι → ℝ} {n : Bool} (h : s.prepare c r x w n = some s') (hm : c.mode ≠ .always)
    (hcard : Fintype.card ι ≤ Fintype.card κ) (hc : s.base.Counts c.qn) (hlen : s.base.sys.V.length ≤ Fintype.card ι) (hq : s.base.firstIteration = true → s.base.firstWindow = false)
    (ht : s.resetLS = true ∨ s.TilOK c) : s'.resetLS = true ∨ s'.TilOK c := by
  obtain ⟨s1, s2, h1, h2, h3⟩ := IMVJ.prepare_eq h hc hq
  have t1 := IMVJ.updateDifferences_til h1 hm hcard hc hlen ht
  have b1 := (IMVJ.updateDifferences_base h1).1
  have c1 := (QN.updateDifferences_counts b1 hc).1.sys
  have b2 := (IMVJ.lift_base h2).1
  have t2 := IMVJ.lift_til h2 hm c1.length (QN.precondition_dels b2) t1
  have c2 := QNSystem.removeColumns_spec _ (QN.precondition_dels b2) c1
  have b3 := (IMVJ.lift_base h3).1
  exact IMVJ.lift_til h3 hm c2.length (QN.applyFilter_dels b3) t2

theorem IMVJ.refresh_spec {c : IMVJConfig} {s : IMVJ ι κ} (h : s.resetLS = true ∨ s.TilOK c) : (s.refresh c).resetLS = false ∧ (s.refresh c).TilOK c ∧ (s.refresh c).base = s.base ∧
    (s.refresh c).oldJac = s.oldJac ∧ (s.refresh c).chunk = s.chunk := by
  unfold IMVJ.refresh
  split_ifs with h1
  · exact ⟨rfl, rfl, rfl, rfl, rfl⟩
  · exact ⟨by simpa using h1, h.resolve_left h1, rfl, rfl, rfl⟩

end Verif.Accel
