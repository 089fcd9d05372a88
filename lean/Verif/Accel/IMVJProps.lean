import Verif.Accel.IMVJLemmas
import Verif.Accel.QNAffine

/-!
# The multi-vector quasi-Newton update (C93)

For every state that the coupling scheme can reach: the update is the product of an updated inverse Jacobian with the residual, and the update of the Jacobian is the one specified in
`Verif.Accel.IMVJSpec`. `Examples` and counterexamples are in `Verif.Accel.IMVJExamples`.
-/

set_option autoImplicit false
set_option linter.unusedSectionVars false

namespace Verif.Accel

open Finset

variable {ι κ : Type} [Fintype ι] [Fintype κ]

/-- Specification: the Jacobian that the acceleration has kept from earlier windows, as a matrix. -/
noncomputable def IMVJ.kept (c : IMVJConfig) (s : IMVJ ι κ) : κ → ι → ℝ :=
  if c.restarts then fun k i => (s.chunk.map fun f => product f.W f.Z k i).sum else s.oldJac

/-- The first iteration of a window that uses the columns of the previous window without a relaxation: the options of BaseQNAcceleration.cpp:524. -/
def IMVJ.Leftover (c : IMVJConfig) (s : IMVJ ι κ) : Prop := s.base.firstIteration = true ∧ s.base.firstWindow = false ∧ c.qn.reused = 0 ∧ c.qn.force = false

/-- Invariant of the calls. -/
structure IMVJ.Inv (c : IMVJConfig) (s : IMVJ ι κ) : Prop where
  counts : s.base.Counts c.qn
  fits : s.base.Fits
  len : c.mode ≠ .always → s.base.sys.V.length ≤ Fintype.card ι
  til : c.mode ≠ .always → ¬ s.Leftover c → s.resetLS = true ∨ s.TilOK c
  fresh : s.base.firstWindow = true → s.base.firstIteration = true → s.base.sys.V = []

theorem IMVJ.init_inv (c : IMVJConfig) (w : ι → ℝ) : (IMVJ.init w : IMVJ ι κ).Inv c where
  counts := ⟨⟨rfl, rfl, Nat.zero_le _, by simp [IMVJ.init, QN.init]⟩, by simp [IMVJ.init, QN.init], fun _ _ h => absurd h (by simp [IMVJ.init, QN.init])⟩
  fits := Or.inr (Or.inr regular_empty)
  len := fun _ => Nat.zero_le _
  til := fun _ _ => Or.inr rfl
  fresh := fun _ _ => rfl

/-- The preconditions of the theorems: one of the filters QR2 and QR3, and the primary data are part of the data. -/
structure IMVJConfig.Sound (ι κ : Type) [Fintype ι] [Fintype κ] (c : IMVJConfig) : Prop where
  filter : c.qn.filter = .qr2 ∨ c.qn.filter = .qr3
  card : Fintype.card ι ≤ Fintype.card κ

theorem QN.exact_of_filter {c : QNConfig} {s : QN ι κ} (hf : c.filter = .qr2 ∨ c.filter = .qr3) (h : s.Exact ∨ s.needQR2 = true ∧ c.filter ≠ .qr2 ∧ c.filter ≠ .qr3) : s.Exact := by
  rcases h with h | ⟨-, h1, h2⟩
  · exact h
  · exact absurd hf (by tauto)

theorem IMVJ.compute_base (c : IMVJConfig) (s : IMVJ ι κ) : (s.compute c).base = s.base ∧ (s.compute c).oldJac = s.oldJac ∧ (s.compute c).chunk = s.chunk := by
  unfold IMVJ.compute IMVJ.newton IMVJ.refresh IMVJ.buildTil
  split_ifs <;> exact ⟨rfl, rfl, rfl⟩

theorem IMVJ.pendingTil_base (c : IMVJConfig) (s : IMVJ ι κ) : (s.pendingTil c).base = s.base ∧ (s.pendingTil c).oldJac = s.oldJac ∧ (s.pendingTil c).chunk = s.chunk := by
  unfold IMVJ.pendingTil
  split_ifs <;> exact ⟨rfl, rfl, rfl⟩

theorem QN.pending_length (c : QNConfig) (s : QN ι κ) : (s.pending c).sys.V.length ≤ s.sys.V.length := by
  unfold QN.pending
  simp only
  split_ifs
  all_goals first | exact le_refl _ | exact Nat.zero_le _

/-- A call that is not a relaxation. -/
theorem IMVJ.noRelax {c : IMVJConfig} {s : IMVJ ι κ} (h : ¬ (s.base.firstIteration = true ∧ (s.base.firstWindow = true ∨ c.qn.force = true))) :
    s.base.firstIteration = true → s.base.firstWindow = false := fun hf => by
  rw [not_and, not_or] at h
  simpa using (h hf).1

theorem IMVJ.accelerate_inv {c : IMVJConfig} (hs : c.Sound ι κ) {s s' : IMVJ ι κ} {r : ι → ℝ} {x : κ → ℝ} {w : ι → ℝ} {n : Bool} (h : s.accelerate c r x w n = some s')
    (hw : w ≠ s.base.weights → n = true) (hi : s.Inv c) : s'.Inv c := by
  unfold IMVJ.accelerate at h
  split_ifs at h with h1
  · obtain rfl := Option.some.inj h
    refine ⟨⟨hi.counts.sys, hi.counts.ne, fun _ _ _ h => absurd h (by simp)⟩, hi.fits, hi.len, fun hm _ => ?_, fun _ h => absurd h (by simp)⟩
    refine hi.til hm fun hl => ?_
    rcases h1.2 with h2 | h2
    · rw [hl.2.1] at h2
      exact absurd h2 (by simp)
    · rw [hl.2.2.2] at h2
      exact absurd h2 (by simp)
  · simp only [Option.bind_eq_bind, Option.bind_eq_some_iff] at h
    obtain ⟨s1, h2, h⟩ := h
    obtain rfl := Option.some.inj h
    have hq := IMVJ.noRelax h1
    have hb := IMVJ.prepare_base h2
    have hcnt := QN.prepare_counts hb hi.counts hq
    obtain ⟨k1, k2⟩ := QN.prepare_fits hb hi.counts hq hw hi.fits
    have hex := QN.exact_of_filter hs.filter k2
    obtain ⟨j1, j2, j3, j4, j5, j6⟩ := IMVJ.prepare_jac h2 hi.counts hq
    have b1 : ((s1.compute c).pendingTil c).base = s1.base := (IMVJ.pendingTil_base c _).1.trans (IMVJ.compute_base c _).1
    have b2 : (((s1.compute c).pendingTil c).pending c).base = s1.base.pending c.qn := by
      unfold IMVJ.pending
      rw [b1]
    have hp := QN.pending_counts hcnt
    refine ⟨⟨?_, ?_, fun _ _ _ h => absurd h (by simp)⟩, ?_, fun _ => ?_, fun hm _ => ?_, fun _ h => absurd h (by simp)⟩
    · simpa only [b2] using hp.1
    · simpa only [b2] using hp.2
    · have := QN.pending_fits (c := c.qn) (s := s1.base) (Or.inr hex)
      refine Or.inr ?_
      simp only [b2]
      exact this
    · simp only [b2]
      exact (QN.pending_length c.qn s1.base).trans hex.length_le
    · by_cases hl : s.Leftover c
      · left
        unfold IMVJ.pending
        simp only [b1, j5, j6]
        obtain ⟨l1, l2, l3, l4⟩ := hl
        simp [l1, l2, l3, l4]
      · have ht := IMVJ.prepare_til h2 hm hs.card hi.counts (hi.len hm) hq (hi.til hm hl)
        have e1 : (s1.compute c).pendingTil c = s1.refresh c := by
          unfold IMVJ.compute IMVJ.pendingTil
          rw [if_neg hm]
          refine if_neg ?_
          rintro ⟨-, g2, g3, g4⟩
          have hbb : (s1.refresh c).base = s1.base := (IMVJ.refresh_spec ht).2.2.1
          rw [hbb, j5] at g2
          exact hl ⟨g2, hq g2, g3, g4⟩
        have e2 : (s1.refresh c).pending c = s1.refresh c := by
          have hbb : (s1.refresh c).base = s1.base := (IMVJ.refresh_spec ht).2.2.1
          unfold IMVJ.pending
          have hno : ¬ (s1.base.firstIteration = true ∧ c.qn.reused = 0 ∧ ¬ c.qn.force = true) := by
            rintro ⟨g2, g3, g4⟩
            rw [j5] at g2
            exact hl ⟨g2, hq g2, g3, by simpa using g4⟩
          have : s1.base.pending c.qn = s1.base := by
            unfold QN.pending
            rw [if_neg hno]
          rw [hbb, this]
          have hd : decide (s1.base.firstIteration = true ∧ c.qn.reused = 0 ∧ c.qn.force = false ∧ s1.base.firstWindow = false) = false := by
            rw [decide_eq_false_iff_not]
            rintro ⟨g2, g3, g4, -⟩
            exact hno ⟨g2, g3, by simp [g4]⟩
          rw [hd, Bool.or_false, ← hbb]
        right
        rw [e1, e2]
        obtain ⟨f1, f2, f3, f4, f5⟩ := IMVJ.refresh_spec ht
        exact f2

/-! ## The end of a window -/

theorem QN.finishWindow_inv {c : QNConfig} {s s' : QN ι κ} {w : ι → ℝ} {n : Bool} (h : s.finishWindow c w n = some s') (hc : s.sys.Consistent c.maxUsed) (hp : ∀ b ∈ s.sys.blocks, 0 < b)
    (hlive : c.reused = 0 → c.force = false → (s.firstWindow && s.firstIteration) = false → 1 ≤ s.sys.V.length) (hw : w ≠ s.weights → n = true) (hf : s.Fits) :
    s'.Counts c ∧ s'.Fits ∧ s'.sys.V.length ≤ s.sys.V.length ∧ s'.firstIteration = true ∧ s'.firstWindow = (s.firstWindow && s.firstIteration) := by
  unfold QN.finishWindow at h
  simp only [Option.bind_eq_bind, Option.bind_eq_some_iff] at h
  obtain ⟨s2, h2, h⟩ := h
  obtain rfl := Option.some.inj h
  obtain ⟨d1, d2, d3, d4, d5⟩ := QN.dropWindow_counts h2 hc hp
  refine ⟨⟨⟨d1.tags, by simpa using d1.sum, d1.le, by simpa using d2⟩, by simp, fun g1 g2 g3 _ => ?_⟩, ?_, ?_, rfl, d3⟩
  · simp only [List.sum_cons, Nat.zero_add]
    rw [d5 g1 g2, hc.sum]
    simp only at g3
    rw [d3] at g3
    exact hlive g1 g2 g3
  · have key := QN.dropWindow_fits h2 ?_
    · exact key
    by_cases hww : w = s.weights
    · rcases hf with h | h | h
      · left; simp [h]
      · exact Or.inr (Or.inl h)
      · refine Or.inr (Or.inr ?_)
        unfold QN.Exact at h ⊢
        simp only [hww]
        exact h
    · left
      simp [hw hww]
  · simp only
    unfold QN.dropWindow at h2
    split_ifs at h2 with g1 g2 g3
    · obtain rfl := Option.some.inj h2
      exact Nat.zero_le _
    · obtain rfl := Option.some.inj h2
      exact le_refl _
    · cases hl : s.sys.blocks.getLast? with
      | none => rw [hl] at h2; exact absurd h2 (by simp)
      | some m =>
        simp only [hl, Option.bind_eq_bind] at h2
        split_ifs at h2 with h4
        rw [Option.bind_eq_some_iff] at h2
        obtain ⟨s3, e1, h2⟩ := h2
        obtain rfl := Option.some.inj h2
        rw [(QN.dropColumns_sys m e1).1]
        simp only [List.length_take]
        omega
    · obtain rfl := Option.some.inj h2
      exact le_refl _

theorem QNSystem.removeColumns_blocks {n : ℕ} : ∀ (is : List ℕ) {m m' : QNSystem ι κ}, m.removeColumns is = some m' → m.Consistent n → (∀ b ∈ m.blocks, 0 < b) → ∀ b ∈ m'.blocks, 0 < b
  | [], m, m', h, _, hp => by
    obtain rfl : m = m' := by simpa [QNSystem.removeColumns] using h
    exact hp
  | i :: is, m, m', h, hc, hp => by
    rw [QNSystem.removeColumns, List.foldlM_cons, Option.bind_eq_bind, Option.bind_eq_some_iff] at h
    obtain ⟨m1, h1, h2⟩ := h
    refine QNSystem.removeColumns_blocks is h2 (QNSystem.removeColumn_spec h1 hc) ?_
    unfold QNSystem.removeColumn at h1
    split_ifs at h1 with h3
    obtain rfl := Option.some.inj h1
    have hpos : ∀ (i : ℕ) (l : List ℕ), (∀ b ∈ l, 0 < b) → ∀ b ∈ decBlock i l, 0 < b := by
      intro i l
      induction l generalizing i with
      | nil => intro hp; simp [decBlock]
      | cons a l ih =>
        intro hp b hb
        unfold decBlock at hb
        split_ifs at hb with g1 g2
        · exact hp b (by simp [hb])
        · rcases List.mem_cons.1 hb with rfl | hb
          · have := hp a (by simp)
            omega
          · exact hp b (by simp [hb])
        · rcases List.mem_cons.1 hb with rfl | hb
          · exact hp b (by simp)
          · exact ih _ (fun b hb => hp b (by simp [hb])) b hb
    exact hpos i _ hp

/-- The end of a window up to the point where the Jacobian is stored. -/
theorem IMVJ.specialized_eq {c : IMVJConfig} {s s' : IMVJ ι κ} {other : List (Factor ι κ)} (hm : c.mode ≠ .always) (h : s.specialized c other = some s') :
    ∃ s1 s2 s3, s.lift c (QN.renew c.qn) (s.base.renewDels c.qn) = some s1 ∧ s1.applyFilter c = some s2 ∧ s2.store c other = some s3 ∧
      s' = { s3 with resetLS := s3.resetLS || decide (c.qn.reused > 0 ∨ c.qn.force = true) } := by
  unfold IMVJ.specialized at h
  rw [if_neg hm] at h
  simp only [Option.bind_eq_bind, Option.bind_eq_some_iff] at h
  obtain ⟨s1, h1, s2, h2, s3, h3, h⟩ := h
  exact ⟨s1, s2, s3, h1, h2, h3, (Option.some.inj h).symm⟩

theorem IMVJ.store_base {c : IMVJConfig} {s s' : IMVJ ι κ} {other : List (Factor ι κ)} (h : s.store c other = some s') : s'.base = s.base := by
  unfold IMVJ.store at h
  cases hm : c.mode with
  | restart n k =>
    rw [hm] at h
    simp only [Option.map_eq_some_iff] at h
    obtain ⟨l, -, rfl⟩ := h
    rfl
  | always =>
    rw [hm] at h
    obtain rfl := Option.some.inj h
    unfold IMVJ.refresh IMVJ.buildTil
    split_ifs <;> rfl
  | efficient =>
    rw [hm] at h
    obtain rfl := Option.some.inj h
    unfold IMVJ.refresh IMVJ.buildTil
    split_ifs <;> rfl

theorem IMVJ.store_empty {c : IMVJConfig} {s s' : IMVJ ι κ} {other : List (Factor ι κ)} (h : s.store c other = some s') (hV : s.base.sys.V = []) (ht : s.resetLS = true ∨ s.til = []) :
    s'.resetLS = true ∨ s'.til = [] := by
  have key : (s.refresh c).til = [] := by
    unfold IMVJ.refresh IMVJ.buildTil
    split_ifs with h1
    · simp only [hV, List.zipWith_nil_left]
    · exact ht.resolve_left h1
  unfold IMVJ.store at h
  cases hm : c.mode with
  | restart n k =>
    rw [hm] at h
    simp only [Option.map_eq_some_iff] at h
    obtain ⟨l, -, rfl⟩ := h
    exact ht
  | always =>
    rw [hm] at h
    obtain rfl := Option.some.inj h
    exact Or.inr key
  | efficient =>
    rw [hm] at h
    obtain rfl := Option.some.inj h
    exact Or.inr key

/-- What is known when the columns of the window are complete. -/
theorem IMVJ.lastDifferences_spec {c : IMVJConfig} (hs : c.Sound ι κ) {s s' : IMVJ ι κ} {r : ι → ℝ} {x : κ → ℝ} (h : s.lastDifferences c r x = some s') (hi : s.Inv c) :
    s'.base.sys.Consistent c.qn.maxUsed ∧ (∀ b ∈ s'.base.sys.blocks, 0 < b) ∧ s'.base.Fits ∧ s'.base.weights = s.base.weights ∧ s'.base.firstIteration = s.base.firstIteration ∧
    s'.base.firstWindow = s.base.firstWindow ∧ (c.qn.reused = 0 → c.qn.force = false → (s.base.firstWindow && s.base.firstIteration) = false → 1 ≤ s'.base.sys.V.length) ∧
    s'.resetLS = s.resetLS ∧ s'.oldJac = s.oldJac ∧ s'.chunk = s.chunk ∧ s'.jac = s.jac ∧ (c.mode ≠ .always → ¬ s.Leftover c → s'.resetLS = true ∨ s'.TilOK c) ∧
    (s.base.firstWindow = true → s.base.firstIteration = true → s'.base.sys.V = []) := by
  unfold IMVJ.lastDifferences at h
  rw [Option.map_eq_some_iff] at h
  obtain ⟨s1, h1, rfl⟩ := h
  obtain ⟨b1, j1, j2, j3, j4⟩ := IMVJ.updateDifferences_base h1
  obtain ⟨c1, f1, f2, live⟩ := QN.updateDifferences_counts b1 hi.counts
  obtain ⟨p1, p2⟩ := popZero_spec c1.sys.pos
  obtain ⟨g1, g2, g3⟩ := QN.updateDifferences_fits b1 hi.fits
  refine ⟨⟨c1.sys.tags, p1.trans c1.sys.sum, c1.sys.le, fun b hb => p2 b (List.mem_of_mem_tail hb)⟩, p2, g1, g2, f2, f1, fun a1 a2 a3 => ?_, j4, j2, j3, j1, fun hm hl => ?_, fun a1 a2 => ?_⟩
  · have := live a1 a2 fun hf => by simpa [hf] using a3
    rw [c1.sys.sum] at this
    exact this
  · have := IMVJ.updateDifferences_til h1 hm hs.card hi.counts (hi.len hm) (hi.til hm hl)
    exact this
  · unfold QN.updateDifferences at b1
    rw [if_pos ⟨a2, Or.inl a1⟩] at b1
    change s1.base.sys.V = []
    rw [← Option.some.inj b1]
    exact hi.fresh a1 a2

/-- What is known when the Jacobian is stored at the end of a window. -/
theorem IMVJ.stored_spec {c : IMVJConfig} (hs : c.Sound ι κ) {s s1 s2 : IMVJ ι κ} (hm : c.mode ≠ .always) (h1 : s.lift c (QN.renew c.qn) (s.base.renewDels c.qn) = some s1)
    (h2 : s1.applyFilter c = some s2) (hc : s.base.sys.Consistent c.qn.maxUsed) (hp : ∀ b ∈ s.base.sys.blocks, 0 < b) (hf : s.base.Fits) :
    s2.base.sys.Consistent c.qn.maxUsed ∧ (∀ b ∈ s2.base.sys.blocks, 0 < b) ∧ s2.base.Exact ∧ s2.base.weights = s.base.weights ∧ s2.base.firstIteration = s.base.firstIteration ∧
    s2.base.firstWindow = s.base.firstWindow ∧ (1 ≤ s.base.sys.V.length → 1 ≤ s2.base.sys.V.length) ∧ s2.resetLS = s.resetLS ∧ s2.oldJac = s.oldJac ∧ s2.chunk = s.chunk ∧
    (s.resetLS = true ∨ s.TilOK c → s2.resetLS = true ∨ s2.TilOK c) ∧ s2.base.sys.V.Sublist s.base.sys.V ∧
    (∀ P : QNCol ι → QNCol κ → Prop, List.Forall₂ P s.base.sys.V s.base.sys.W → List.Forall₂ P s2.base.sys.V s2.base.sys.W) := by
  obtain ⟨b1, j1, j2, j3, j4⟩ := IMVJ.lift_base h1
  obtain ⟨b2, i1, i2, i3, i4⟩ := IMVJ.lift_base h2
  have d1 := QN.renew_dels b1
  have d2 := QN.applyFilter_dels b2
  have c1 := QNSystem.removeColumns_spec _ d1 hc
  have p1 := QNSystem.removeColumns_blocks _ d1 hc hp
  have c2 := QNSystem.removeColumns_spec _ d2 c1
  have p2 := QNSystem.removeColumns_blocks _ d2 c1 p1
  obtain ⟨r1, r2, r3⟩ := QN.renew_rest b1
  obtain ⟨k1, k2, k3⟩ := QN.applyFilter_fits b2 c1.length (QN.renew_fits b1 hf)
  have r4 := QN.applyFilter_rest b2
  refine ⟨c2, p2, QN.exact_of_filter hs.filter k3, k1.trans r2, r4.fi.trans r1.fi, r4.fw.trans r1.fw, fun hl => ?_, i4.trans j4, i2.trans j2, i3.trans j3, fun ht => ?_, ?_, fun P hP => ?_⟩
  · exact QNSystem.removeColumns_pos _ d2 (QNSystem.removeColumns_pos _ d1 hl)
  · exact IMVJ.lift_til h2 hm c1.length d2 (IMVJ.lift_til h1 hm hc.length d1 ht)
  · exact (QNSystem.removeColumns_subset _ d2).1.trans (QNSystem.removeColumns_subset _ d1).1
  · exact QNSystem.removeColumns_pairs _ d2 (QNSystem.removeColumns_pairs _ d1 hP)

theorem IMVJ.converged_inv {c : IMVJConfig} (hs : c.Sound ι κ) {s s' : IMVJ ι κ} {r : ι → ℝ} {x : κ → ℝ} {w : ι → ℝ} {n : Bool} {other : List (Factor ι κ)}
    (h : s.converged c r x w n other = some s') (hw : w ≠ s.base.weights → n = true) (hi : s.Inv c) : s'.Inv c := by
  unfold IMVJ.converged at h
  simp only [Option.bind_eq_bind, Option.bind_eq_some_iff] at h
  obtain ⟨s1, h1, s2, h2, b, hb, h⟩ := h
  obtain rfl := Option.some.inj h
  obtain ⟨a1, a2, a3, a4, a5, a6, a7, a8, a9, a10, a11, a12, a13⟩ := IMVJ.lastDifferences_spec hs h1 hi
  by_cases hm : c.mode = .always
  · unfold IMVJ.specialized at h2
    rw [if_pos hm] at h2
    obtain rfl := Option.some.inj h2
    obtain ⟨e1, e2, e3, e4, e5⟩ := QN.finishWindow_inv hb a1 a2 (fun g1 g2 g3 => a7 g1 g2 (by simpa only [a5, a6] using g3)) (by simpa only [a4] using hw) a3
    refine ⟨e1, e2, fun h => absurd hm h, fun h => absurd hm h, fun f1 _ => ?_⟩
    simp only [e5, a5, a6, Bool.and_eq_true] at f1
    simp only [a13 f1.1 f1.2, List.length_nil, Nat.le_zero, List.length_eq_zero_iff] at e3
    exact e3
  · obtain ⟨t1, t2, t3, g1, g2, g3, rfl⟩ := IMVJ.specialized_eq hm h2
    obtain ⟨q1, q2, q3, q4, q5, q6, q7, q8, q9, q10, q11, q12, q13⟩ := IMVJ.stored_spec hs hm g1 g2 a1 a2 a3
    have hsb := IMVJ.store_base g3
    simp only at hb
    rw [hsb] at hb
    obtain ⟨e1, e2, e3, e4, e5⟩ := QN.finishWindow_inv hb q1 q2 (fun g1 g2 g3 => q7 (a7 g1 g2 (by simpa only [a5, a6, q5, q6] using g3)))
      (by simpa only [a4, q4] using hw) (Or.inr (Or.inr q3))
    have hV : (s.base.firstWindow && s.base.firstIteration) = true → t2.base.sys.V = [] ∧ b.sys.V = [] := fun hfw => by
      rw [Bool.and_eq_true] at hfw
      rw [a13 hfw.1 hfw.2] at q12
      have e := List.sublist_nil.1 q12
      rw [e, List.length_nil, Nat.le_zero, List.length_eq_zero_iff] at e3
      exact ⟨e, e3⟩
    refine ⟨e1, e2, fun _ => e3.trans q3.length_le, fun _ hl => ?_, fun f1 _ => ?_⟩
    · by_cases hopt : c.qn.reused > 0 ∨ c.qn.force = true
      · left
        simp [hopt]
      · -- only the very first window, if it converges at once
        rw [not_or] at hopt
        have hfw : (s.base.firstWindow && s.base.firstIteration) = true := by
          by_contra hne
          refine hl ⟨e4, ?_, by omega, by simpa using hopt.2⟩
          simp only
          rw [e5, q5, q6, a5, a6]
          simpa using hne
        obtain ⟨v1, v2⟩ := hV hfw
        have ht : t2.resetLS = true ∨ t2.til = [] := (q11 (a12 hm fun hl => by
          rw [Bool.and_eq_true] at hfw
          exact absurd hfw.1 (by simp [hl.2.1]))).imp_right fun ht => by rw [ht, v1, List.zipWith_nil_left]
        rcases IMVJ.store_empty g3 v1 ht with h | h
        · left
          simp [h]
        · right
          unfold IMVJ.TilOK
          simp only [v2, List.zipWith_nil_left]
          exact h
    · refine (hV ?_).2
      simp only [e5, a5, a6, q5, q6] at f1
      exact f1

theorem IMVJ.Reachable.inv {c : IMVJConfig} (hs : c.Sound ι κ) {s : IMVJ ι κ} (h : IMVJ.Reachable c s) : s.Inv c := by
  induction h with
  | init w => exact IMVJ.init_inv c w
  | step _ hw h ih =>
    unfold IMVJ.step at h
    split_ifs at h
    · exact IMVJ.converged_inv hs h hw ih
    · exact IMVJ.accelerate_inv hs h hw ih

/-! ## The update of the Jacobian -/

theorem ip_sum_rows {α : Type} (l : List α) (f : α → ι → ℝ) (v : ι → ℝ) : ip (fun i => (l.map fun a => f a i).sum) v = (l.map fun a => ip (f a) v).sum := by
  induction l with
  | nil => simp [ip]
  | cons a l ih =>
    simp only [List.map_cons, List.sum_cons]
    rw [← ih]
    unfold ip
    rw [← Finset.sum_add_distrib]
    exact Finset.sum_congr rfl fun _ _ => add_mul _ _ _

theorem ip_product (T : List (κ → ℝ)) (Z : ℕ → ι → ℝ) (k : κ) (v : ι → ℝ) : ip (product T Z k) v = combine T (fun j => ip (Z j) v) k := by
  unfold product combine ip
  simp only [Finset.sum_mul]
  rw [Finset.sum_comm]
  exact Finset.sum_congr rfl fun j _ => Finset.sum_congr rfl fun i _ => by ring

theorem IMVJ.prev_kept (c : IMVJConfig) (s : IMVJ ι κ) (v : ι → ℝ) (k : κ) : s.prev c v k = ip (s.kept c k) v := by
  unfold IMVJ.prev IMVJ.kept
  split_ifs
  · rw [ip_sum_rows]
    refine congrArg List.sum (List.map_congr_left fun f _ => ?_)
    rw [ip_product]
    rfl
  · rfl

theorem IMVJ.til_kept {c : IMVJConfig} {s : IMVJ ι κ} : List.zipWith (s.tilColumn c) s.base.sys.V s.base.sys.W =
    List.zipWith (fun v y => fun k => y k - ip (s.kept c k) v) (s.base.sys.V.map QNCol.val) (s.base.sys.W.map QNCol.val) := by
  rw [List.zipWith_map]
  congr 1
  funext v w k
  unfold IMVJ.tilColumn
  rw [IMVJ.prev_kept]

/-- The matrix that the acceleration uses, when `_Wtil` is up to date. -/
theorem IMVJ.formula {c : IMVJConfig} {s : IMVJ ι κ} (he : s.base.Exact) (hl : s.base.sys.W.length = s.base.sys.V.length) (ht : s.TilOK c) :
    SecantUpdate s.base.weights (s.base.sys.V.map QNCol.val) (s.base.sys.W.map QNCol.val) (s.kept c) fun k i => product s.til s.base.pseudoInverse k i + s.kept c k i := by
  have e : (s.base.sys.V.map QNCol.val).map (scaledCol s.base.weights) = scaled s.base.weights s.base.sys.V := by
    rw [List.map_map]
    rfl
  have := secantUpdate_formula (q := s.base.qr) (w := s.base.weights) (V := s.base.sys.V.map QNCol.val) (W := s.base.sys.W.map QNCol.val) (by simpa using hl) (by rw [e]; exact he.1)
    (by rw [e]; exact he.2) (s.kept c)
  rw [ht, IMVJ.til_kept]
  exact this

theorem IMVJ.kept_congr {c : IMVJConfig} {s s' : IMVJ ι κ} (h1 : s'.oldJac = s.oldJac) (h2 : s'.chunk = s.chunk) : s'.kept c = s.kept c := by
  unfold IMVJ.kept
  rw [h1, h2]

theorem ip_add_left (a b x : ι → ℝ) : ip (fun i => a i + b i) x = ip a x + ip b x := by
  unfold ip
  rw [← Finset.sum_add_distrib]
  exact Finset.sum_congr rfl fun _ _ => add_mul _ _ _

/-- C93: in every reachable state in which a quasi-Newton update is computed, the change of the values is `J (-r)`, and `J` is the Jacobian kept from earlier windows, changed as little as possible
such that it maps the stored residual differences to the stored value differences. With the options `always-build-jacobian` this holds for every update; otherwise there is one exception: the first
iteration of a window when no windows are reused and no initial relaxation is enforced, see `C93_leftover`. -/
theorem C93_update_partial {c : IMVJConfig} (hs : c.Sound ι κ) {s s' : IMVJ ι κ} {r : ι → ℝ} {x : κ → ℝ} {w : ι → ℝ} {n : Bool} (hr : IMVJ.Reachable c s)
    (hq : ¬ (s.base.firstIteration = true ∧ (s.base.firstWindow = true ∨ c.qn.force = true))) (hw : w ≠ s.base.weights → n = true) (h : s.prepare c r x w n = some s')
    (hl : c.mode = .always ∨ ¬ s.Leftover c) :
    ∃ J, SecantUpdate w (s'.base.sys.V.map QNCol.val) (s'.base.sys.W.map QNCol.val) (s.kept c) J ∧ s'.update c r = fun k => ip (J k) fun i => -r i := by
  have hi := hr.inv hs
  have hq' := IMVJ.noRelax hq
  have hb := IMVJ.prepare_base h
  have hcnt := QN.prepare_counts hb hi.counts hq'
  obtain ⟨k1, k2⟩ := QN.prepare_fits hb hi.counts hq' hw hi.fits
  have hex := QN.exact_of_filter hs.filter k2
  obtain ⟨j1, j2, j3, j4, j5, j6⟩ := IMVJ.prepare_jac h hi.counts hq'
  by_cases hm : c.mode = .always
  · have key := IMVJ.formula (c := c) (s := s'.buildTil c) hex hcnt.1.length rfl
    rw [IMVJ.kept_congr (s := s) (s' := s'.buildTil c) j2 j3] at key
    refine ⟨_, k1 ▸ key, ?_⟩
    unfold IMVJ.update IMVJ.compute IMVJ.newton
    simp only [if_pos hm]
    have e : s.kept c = (s'.buildTil c).oldJac := by
      unfold IMVJ.kept IMVJConfig.restarts
      rw [hm]
      exact j2.symm
    rw [e]
  · have ht := IMVJ.prepare_til h hm hs.card hi.counts (hi.len hm) hq' (hi.til hm (hl.resolve_left hm))
    obtain ⟨f1, f2, f3, f4, f5⟩ := IMVJ.refresh_spec ht
    have key := IMVJ.formula (c := c) (s := s'.refresh c) (by rw [f3]; exact hex) (by rw [f3]; exact hcnt.1.length) f2
    rw [IMVJ.kept_congr (s := s) (s' := s'.refresh c) (f4.trans j2) (f5.trans j3), f3] at key
    refine ⟨_, k1 ▸ key, ?_⟩
    unfold IMVJ.update IMVJ.compute
    simp only [if_neg hm]
    funext k
    rw [ip_add_left, ip_product, IMVJ.prev_kept, IMVJ.kept_congr (s := s) (s' := s'.refresh c) (f4.trans j2) (f5.trans j3), f3]
    ring

/-- C93: without restart and without `always-build-jacobian`, the Jacobian that is kept at the end of a window is the previous one, changed as little as possible such that it maps the differences
of this window (and of the reused windows), as far as they pass the filter. -/
theorem C93_stored_partial {c : IMVJConfig} (hs : c.Sound ι κ) (hm : c.mode = .efficient) {s s' : IMVJ ι κ} {r : ι → ℝ} {x : κ → ℝ} {w : ι → ℝ} {n : Bool} {other : List (Factor ι κ)}
    (hr : IMVJ.Reachable c s) (h : s.converged c r x w n other = some s') (hl : ¬ s.Leftover c) :
    ∃ s1 : IMVJ ι κ, ∃ m : QNSystem ι κ, s.lastDifferences c r x = some s1 ∧ m.V.Sublist s1.base.sys.V ∧ m.V.map QNCol.tag = m.W.map QNCol.tag ∧
      (∀ P : QNCol ι → QNCol κ → Prop, List.Forall₂ P s1.base.sys.V s1.base.sys.W → List.Forall₂ P m.V m.W) ∧ (1 ≤ s1.base.sys.V.length → 1 ≤ m.V.length) ∧ SecantUpdate s.base.weights (m.V.map QNCol.val) (m.W.map QNCol.val) (s.kept c) (s'.kept c) := by
  have hi := hr.inv hs
  have hne : c.mode ≠ .always := by rw [hm]; simp
  unfold IMVJ.converged at h
  simp only [Option.bind_eq_bind, Option.bind_eq_some_iff] at h
  obtain ⟨s1, h1, s2, h2, b, hb, h⟩ := h
  obtain rfl := Option.some.inj h
  obtain ⟨a1, a2, a3, a4, a5, a6, a7, a8, a9, a10, a11, a12, a13⟩ := IMVJ.lastDifferences_spec hs h1 hi
  obtain ⟨t1, t2, t3, g1, g2, g3, rfl⟩ := IMVJ.specialized_eq hne h2
  obtain ⟨q1, q2, q3, q4, q5, q6, q7, q8, q9, q10, q11, q12, q13⟩ := IMVJ.stored_spec hs hne g1 g2 a1 a2 a3
  obtain ⟨f1, f2, f3, f4, f5⟩ := IMVJ.refresh_spec (q11 (a12 hne hl))
  have key := IMVJ.formula (c := c) (s := t2.refresh c) (by rw [f3]; exact q3) (by rw [f3]; exact q1.length) f2
  rw [IMVJ.kept_congr (s := s) (s' := t2.refresh c) (f4.trans (q9.trans a9)) (f5.trans (q10.trans a10)), f3, q4, a4] at key
  refine ⟨s1, t2.base.sys, h1, q12, q1.tags, q13, q7, ?_⟩
  have e0 : ∀ t : IMVJ ι κ, t.kept c = t.oldJac := fun t => by
    unfold IMVJ.kept IMVJConfig.restarts
    rw [hm]
    rfl
  unfold IMVJ.store at g3
  rw [hm] at g3
  have g3 := Option.some.inj g3
  have e1 : ({ ({ t3 with resetLS := t3.resetLS || decide (c.qn.reused > 0 ∨ c.qn.force = true) } : IMVJ ι κ) with base := b }).kept c =
      fun k i => product (t2.refresh c).til (t2.base).pseudoInverse k i + s.kept c k i := by
    rw [e0, e0, ← g3]
    funext k i
    change product (t2.refresh c).til (t2.refresh c).base.pseudoInverse k i + (t2.refresh c).oldJac k i = _
    rw [f3, f4, q9, a9]
  rw [e1]
  exact key

/-- C93: in restart mode, as long as no restart takes place, the same holds for every window with a quasi-Newton update (`resetLS` is false after it). -/
theorem C93_stored_restart_partial {c : IMVJConfig} (hs : c.Sound ι κ) {size : ℕ} {kind : Restart} (hm : c.mode = .restart size kind) {s s' : IMVJ ι κ} {r : ι → ℝ} {x : κ → ℝ} {w : ι → ℝ} {n : Bool}
    {other : List (Factor ι κ)} (hr : IMVJ.Reachable c s) (h : s.converged c r x w n other = some s') (hl : ¬ s.Leftover c) (hls : s.resetLS = false) (hsize : s.chunk.length < size) :
    ∃ s1 : IMVJ ι κ, ∃ m : QNSystem ι κ, s.lastDifferences c r x = some s1 ∧ m.V.Sublist s1.base.sys.V ∧ m.V.map QNCol.tag = m.W.map QNCol.tag ∧
      (∀ P : QNCol ι → QNCol κ → Prop, List.Forall₂ P s1.base.sys.V s1.base.sys.W → List.Forall₂ P m.V m.W) ∧ (1 ≤ s1.base.sys.V.length → 1 ≤ m.V.length) ∧ SecantUpdate s.base.weights (m.V.map QNCol.val) (m.W.map QNCol.val) (s.kept c) (s'.kept c) := by
  have hi := hr.inv hs
  have hne : c.mode ≠ .always := by rw [hm]; simp
  unfold IMVJ.converged at h
  simp only [Option.bind_eq_bind, Option.bind_eq_some_iff] at h
  obtain ⟨s1, h1, s2, h2, b, hb, h⟩ := h
  obtain rfl := Option.some.inj h
  obtain ⟨a1, a2, a3, a4, a5, a6, a7, a8, a9, a10, a11, a12, a13⟩ := IMVJ.lastDifferences_spec hs h1 hi
  obtain ⟨t1, t2, t3, g1, g2, g3, rfl⟩ := IMVJ.specialized_eq hne h2
  obtain ⟨q1, q2, q3, q4, q5, q6, q7, q8, q9, q10, q11, q12, q13⟩ := IMVJ.stored_spec hs hne g1 g2 a1 a2 a3
  have ht := (q11 (a12 hne hl)).resolve_left (by rw [q8, a8, hls]; simp)
  have key := IMVJ.formula (c := c) (s := t2) q3 q1.length ht
  rw [IMVJ.kept_congr (s := s) (s' := t2) (q9.trans a9) (q10.trans a10), q4, a4] at key
  refine ⟨s1, t2.base.sys, h1, q12, q1.tags, q13, q7, ?_⟩
  have e0 : ∀ t : IMVJ ι κ, t.kept c = fun k i => (t.chunk.map fun f => product f.W f.Z k i).sum := fun t => by
    unfold IMVJ.kept IMVJConfig.restarts
    rw [hm]
    rfl
  unfold IMVJ.store at g3
  simp only [hm] at g3
  rw [if_neg (by rw [List.length_append, q10, a10, List.length_singleton]; omega), Option.map_some] at g3
  have g3 := Option.some.inj g3
  have e1 : ({ ({ t3 with resetLS := t3.resetLS || decide (c.qn.reused > 0 ∨ c.qn.force = true) } : IMVJ ι κ) with base := b }).kept c =
      fun k i => product t2.til (t2.base).pseudoInverse k i + s.kept c k i := by
    rw [e0, e0, ← g3]
    funext k i
    simp only [List.map_append, List.sum_append, List.map_cons, List.map_nil, List.sum_cons, List.sum_nil]
    rw [q10, a10]
    ring
  rw [e1]
  exact key

/-- C93: with `always-build-jacobian` the Jacobian of the last update is kept. -/
theorem C93_stored_always {c : IMVJConfig} (hm : c.mode = .always) {s s' : IMVJ ι κ} {r : ι → ℝ} {x : κ → ℝ} {w : ι → ℝ} {n : Bool} {other : List (Factor ι κ)}
    (h : s.converged c r x w n other = some s') : s'.kept c = s.jac := by
  unfold IMVJ.converged at h
  simp only [Option.bind_eq_bind, Option.bind_eq_some_iff] at h
  obtain ⟨s1, h1, s2, h2, b, hb, h⟩ := h
  obtain rfl := Option.some.inj h
  unfold IMVJ.specialized at h2
  rw [if_pos hm] at h2
  obtain rfl := Option.some.inj h2
  unfold IMVJ.lastDifferences at h1
  rw [Option.map_eq_some_iff] at h1
  obtain ⟨s0, h0, rfl⟩ := h1
  unfold IMVJ.kept IMVJConfig.restarts
  rw [hm]
  exact (IMVJ.updateDifferences_base h0).2.1

/-- C93: the residual is a combination of the stored differences: then the update is the one of IQN-ILS, whatever Jacobian was kept before. -/
theorem C93_span {w : ι → ℝ} {V : List (ι → ℝ)} {W : List (κ → ℝ)} {P J : κ → ι → ℝ} (h : SecantUpdate w V W P J) {r : ι → ℝ} (d : ℕ → ℝ) (hd : ∀ i, -r i = combine V d i) (k : κ) :
    ip (J k) (fun i => -r i) = combine W d k := by
  have e : (fun i => -r i) = combine V d := funext hd
  rw [e]
  have hlen := h.secant.length_eq
  unfold combine ip
  simp only [Finset.mul_sum]
  rw [Finset.sum_comm]
  have key : ∀ j : Fin V.length, ∑ i, J k i * (d j * V[j] i) = d j * (W[(j : ℕ)]'(hlen ▸ j.2)) k := fun j => by
    have := h.secant.get (i := j) j.2 (hlen ▸ j.2) k
    simp only [List.get_eq_getElem] at this
    rw [← this]
    unfold ip
    rw [Finset.mul_sum]
    exact Finset.sum_congr rfl fun i _ => by
      change J k i * (d j * V[(j : ℕ)] i) = _
      ring
  rw [Finset.sum_congr rfl fun j _ => key j]
  exact Fintype.sum_equiv (finCongr hlen) _ _ fun j => rfl

end Verif.Accel
