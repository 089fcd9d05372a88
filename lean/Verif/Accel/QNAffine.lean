import Verif.Accel.QNReuse

/-!
# The quasi-Newton update for an affine fixed-point problem (C92)

The solvers together compute `H x = b + M x` from the primary values `x ∘ e`, where `e` gives the position of a primary value among all values.
-/

set_option autoImplicit false
set_option linter.unusedSectionVars false

namespace Verif.Accel

open Finset

variable {ι κ : Type} [Fintype ι]

/-- An affine fixed-point problem. -/
structure AffineProblem (ι κ : Type) where
  M : κ → ι → ℝ
  b : κ → ℝ
  /-- position of the primary values -/
  e : ι → κ

/-- What the solvers return for the given primary values. -/
def AffineProblem.apply (H : AffineProblem ι κ) (x : ι → ℝ) : κ → ℝ := fun k => H.b k + ∑ j, H.M k j * x j

/-- The residual of the primary values. -/
def AffineProblem.residual (H : AffineProblem ι κ) (x : ι → ℝ) : ι → ℝ := fun i => H.apply x (H.e i) - x i

/-- The columns belong to the same difference of primary values. -/
def AffineProblem.Pair (H : AffineProblem ι κ) (v : QNCol ι) (w : QNCol κ) : Prop :=
  ∃ d : ι → ℝ, (∀ i, v.val i = (∑ j, H.M (H.e i) j * d j) - d i) ∧ ∀ k, w.val k = ∑ j, H.M k j * d j

/-- States reached with calls that come from the affine problem; in particular the values of the preconditioner are arbitrary. -/
inductive QN.AffineReachable (H : AffineProblem ι κ) (c : QNConfig) : QN ι κ → Prop
  | init (w : ι → ℝ) : QN.AffineReachable H c (QN.init w)
  | step {s s' : QN ι κ} {a : QNCall ι κ} (x : ι → ℝ) : QN.AffineReachable H c s → a.values = H.apply x → a.residual = H.residual x → (a.weights ≠ s.weights → a.newQR = true) →
      s.step c a = some s' → QN.AffineReachable H c s'

theorem QN.AffineReachable.reachable {H : AffineProblem ι κ} {c : QNConfig} {s : QN ι κ} (h : QN.AffineReachable H c s) : QN.Reachable c s := by
  induction h with
  | init w => exact .init w
  | step x _ _ _ hw h ih => exact .step ih hw h

/-- Invariant: the columns fit together, and the old values come from the problem once there are any. -/
structure QN.FromAffine (H : AffineProblem ι κ) (s : QN ι κ) : Prop where
  pairs : List.Forall₂ H.Pair s.sys.V s.sys.W
  old : s.firstIteration = false → ∃ x, s.oldXTilde = H.apply x ∧ s.oldResidual = H.residual x

theorem forall₂_eraseIdx {α β : Type} {P : α → β → Prop} {l : List α} {l' : List β} (h : List.Forall₂ P l l') (i : ℕ) : List.Forall₂ P (l.eraseIdx i) (l'.eraseIdx i) := by
  induction h generalizing i with
  | nil => simp
  | cons h1 h2 ih =>
    cases i with
    | zero => exact h2
    | succ i => exact .cons h1 (ih i)

theorem forall₂_dropLast {α β : Type} {P : α → β → Prop} {l : List α} {l' : List β} (h : List.Forall₂ P l l') : List.Forall₂ P l.dropLast l'.dropLast := by
  rw [List.dropLast_eq_take, List.dropLast_eq_take, h.length_eq]
  exact List.forall₂_take _ h

theorem QNSystem.removeColumns_pairs {P : QNCol ι → QNCol κ → Prop} : ∀ (is : List ℕ) {m m' : QNSystem ι κ}, m.removeColumns is = some m' → List.Forall₂ P m.V m.W → List.Forall₂ P m'.V m'.W
  | [], m, m', h, hp => by
    obtain rfl : m = m' := by simpa [QNSystem.removeColumns] using h
    exact hp
  | i :: is, m, m', h, hp => by
    rw [QNSystem.removeColumns, List.foldlM_cons, Option.bind_eq_bind, Option.bind_eq_some_iff] at h
    obtain ⟨m1, h1, h2⟩ := h
    refine QNSystem.removeColumns_pairs is h2 ?_
    unfold QNSystem.removeColumn at h1
    split_ifs at h1
    obtain rfl := Option.some.inj h1
    exact forall₂_eraseIdx hp i

theorem QN.addColumn_affine {H : AffineProblem ι κ} {c : QNConfig} {s s' : QN ι κ} {x y : ι → ℝ} (h : s.addColumn c (H.residual x) (H.apply x) = some s')
    (hp : List.Forall₂ H.Pair s.sys.V s.sys.W) (h1 : s.oldXTilde = H.apply y) (h2 : s.oldResidual = H.residual y) : List.Forall₂ H.Pair s'.sys.V s'.sys.W := by
  have hnew : H.Pair (s.newV (H.residual x)) (s.newW (H.apply x)) := by
    have key : ∀ k, H.apply x k - H.apply y k = ∑ j, H.M k j * (x j - y j) := fun k => by
      unfold AffineProblem.apply
      simp only [mul_sub, Finset.sum_sub_distrib]
      ring
    refine ⟨fun j => x j - y j, fun i => ?_, fun k => ?_⟩
    · change H.residual x i - s.oldResidual i = _
      rw [h2, ← key]
      unfold AffineProblem.residual
      ring
    · change H.apply x k - s.oldXTilde k = _
      rw [h1, key]
  unfold QN.addColumn at h
  simp only [Option.bind_eq_bind] at h
  split_ifs at h with h1 h2
  · rw [Option.bind_eq_some_iff] at h
    obtain ⟨b, hb, h⟩ := h
    obtain rfl := Option.some.inj h
    rw [(QN.pushQR_sys _ _).1]
    exact .cons hnew hp
  · rw [Option.bind_eq_some_iff] at h
    obtain ⟨s1, hs1, h⟩ := h
    rw [Option.bind_eq_some_iff] at h
    obtain ⟨b, hb, h⟩ := h
    rw [Option.bind_eq_some_iff] at h
    obtain ⟨b', hb', h⟩ := h
    obtain rfl := Option.some.inj h
    exact .cons hnew (forall₂_dropLast hp)

theorem QN.updateDifferences_affine {H : AffineProblem ι κ} {c : QNConfig} {s s' : QN ι κ} {x : ι → ℝ} (h : s.updateDifferences c (H.residual x) (H.apply x) = some s') (hf : s.FromAffine H) :
    List.Forall₂ H.Pair s'.sys.V s'.sys.W ∧ (¬ (s.firstIteration = true ∧ (s.firstWindow = true ∨ c.force = true)) → s'.oldXTilde = H.apply x ∧ s'.oldResidual = H.residual x) := by
  unfold QN.updateDifferences at h
  split_ifs at h with h1 h2
  · obtain rfl := Option.some.inj h
    exact ⟨hf.pairs, fun hn => absurd h1 hn⟩
  · obtain rfl := Option.some.inj h
    exact ⟨hf.pairs, fun _ => ⟨rfl, rfl⟩⟩
  · rw [Option.map_eq_some_iff] at h
    obtain ⟨s1, hs1, rfl⟩ := h
    obtain ⟨y, hy1, hy2⟩ := hf.old (by simpa using h2)
    have := QN.addColumn_affine hs1 hf.pairs hy1 hy2
    exact ⟨this, fun _ => ⟨rfl, rfl⟩⟩

theorem QN.reset_old {s s' : QN ι κ} (h : s.reset = some s') : s'.oldXTilde = s.oldXTilde ∧ s'.oldResidual = s.oldResidual := by
  unfold QN.reset at h
  simp only [Option.bind_eq_bind, Option.bind_eq_some_iff] at h
  obtain ⟨m, hm, h⟩ := h
  split_ifs at h
  obtain rfl := Option.some.inj h
  exact ⟨rfl, rfl⟩

theorem QN.filterRebuild_old {c : QNConfig} {s s' : QN ι κ} (h : s.filterRebuild c = some s') : s'.oldXTilde = s.oldXTilde ∧ s'.oldResidual = s.oldResidual := by
  unfold QN.filterRebuild at h
  simp only [Option.bind_eq_bind, Option.bind_eq_some_iff] at h
  obtain ⟨m, hm, h⟩ := h
  split_ifs at h
  obtain rfl := Option.some.inj h
  exact ⟨rfl, rfl⟩

theorem QN.precondition_old {c : QNConfig} {s s' : QN ι κ} {w : ι → ℝ} {n : Bool} (h : s.precondition c w n = some s') : s'.oldXTilde = s.oldXTilde ∧ s'.oldResidual = s.oldResidual := by
  unfold QN.precondition at h
  simp only at h
  split_ifs at h with h1
  · rw [Option.map_eq_some_iff] at h
    obtain ⟨s1, hs1, rfl⟩ := h
    unfold QN.newFactors at hs1
    split_ifs at hs1
    · obtain rfl := Option.some.inj hs1
      exact ⟨rfl, rfl⟩
    · have := QN.reset_old hs1
      exact this
  · obtain rfl := Option.some.inj h
    exact ⟨rfl, rfl⟩

theorem QN.applyFilter_old {c : QNConfig} {s s' : QN ι κ} (h : s.applyFilter c = some s') : s'.oldXTilde = s.oldXTilde ∧ s'.oldResidual = s.oldResidual := by
  unfold QN.applyFilter at h
  cases hf : c.filter with
  | none =>
    rw [hf] at h
    obtain rfl := Option.some.inj h
    exact ⟨rfl, rfl⟩
  | qr1 a =>
    rw [hf] at h
    simp only [Option.bind_eq_bind, Option.bind_eq_some_iff] at h
    obtain ⟨m, hm, h⟩ := h
    split_ifs at h
    obtain rfl := Option.some.inj h
    exact ⟨rfl, rfl⟩
  | qr2 =>
    rw [hf] at h
    exact QN.filterRebuild_old h
  | qr3 =>
    rw [hf] at h
    simp only [Option.bind_eq_bind, Option.bind_eq_some_iff] at h
    obtain ⟨need, -, s1, h1, h⟩ := h
    obtain rfl := Option.some.inj h
    unfold QN.filterChecked at h1
    split_ifs at h1
    · have := QN.filterRebuild_old h1
      exact this
    · obtain rfl := Option.some.inj h1
      exact ⟨rfl, rfl⟩

theorem QN.prepare_affine {H : AffineProblem ι κ} {c : QNConfig} {s s' : QN ι κ} {x : ι → ℝ} {w : ι → ℝ} {n : Bool} (h : s.prepare c (H.residual x) (H.apply x) w n = some s') (hc : s.Counts c)
    (hq : ¬ (s.firstIteration = true ∧ (s.firstWindow = true ∨ c.force = true))) (hf : s.FromAffine H) :
    List.Forall₂ H.Pair s'.sys.V s'.sys.W ∧ s'.oldXTilde = H.apply x ∧ s'.oldResidual = H.residual x := by
  obtain ⟨s1, s2, h1, h2, h3, -⟩ := QN.prepare_eq h hc fun hfi => by
    rw [not_and, not_or] at hq
    simpa using (hq hfi).1
  obtain ⟨p1, p2⟩ := QN.updateDifferences_affine h1 hf
  obtain ⟨q1, q2⟩ := p2 hq
  obtain ⟨is1, e1⟩ := QN.precondition_sys h2
  obtain ⟨is2, e2⟩ := QN.applyFilter_sys h3
  obtain ⟨o1, o2⟩ := QN.precondition_old h2
  obtain ⟨o3, o4⟩ := QN.applyFilter_old h3
  exact ⟨QNSystem.removeColumns_pairs _ e2 (QNSystem.removeColumns_pairs _ e1 p1), o3.trans (o1.trans q1), o4.trans (o2.trans q2)⟩

theorem QN.dropWindow_pairs {P : QNCol ι → QNCol κ → Prop} {c : QNConfig} {s s' : QN ι κ} (h : s.dropWindow c = some s') (hp : List.Forall₂ P s.sys.V s.sys.W) : List.Forall₂ P s'.sys.V s'.sys.W := by
  unfold QN.dropWindow at h
  split_ifs at h with h1 h2 h3
  · obtain rfl := Option.some.inj h
    exact .nil
  · obtain rfl := Option.some.inj h
    exact hp
  · cases hl : s.sys.blocks.getLast? with
    | none => rw [hl] at h; exact absurd h (by simp)
    | some n =>
      rw [hl] at h
      simp only [Option.bind_eq_bind] at h
      split_ifs at h with h4
      rw [Option.bind_eq_some_iff] at h
      obtain ⟨s1, e1, h⟩ := h
      obtain rfl := Option.some.inj h
      obtain ⟨d1, -, -⟩ := QN.dropColumns_sys n e1
      simp only [d1]
      rw [hp.length_eq]
      exact List.forall₂_take _ hp
  · obtain rfl := Option.some.inj h
    exact hp

theorem QN.AffineReachable.fromAffine {H : AffineProblem ι κ} {c : QNConfig} {s : QN ι κ} (h : QN.AffineReachable H c s) : s.FromAffine H := by
  induction h with
  | init w => exact ⟨.nil, fun h => absurd h (by simp [QN.init])⟩
  | @step s s' a x hr hv hres hw h ih =>
    have hc := C73_counts hr.reachable
    unfold QN.step at h
    rw [hv, hres] at h
    split_ifs at h
    · unfold QN.converged at h
      simp only [Option.bind_eq_bind, Option.bind_eq_some_iff] at h
      obtain ⟨s1, h1, s2, h2, h⟩ := h
      obtain rfl := Option.some.inj h
      have p1 := (QN.updateDifferences_affine h1 ih).1
      have p2 := QN.dropWindow_pairs h2 p1
      exact ⟨p2, fun h => absurd h (by simp)⟩
    · unfold QN.accelerate at h
      split_ifs at h with h1
      · obtain rfl := Option.some.inj h
        exact ⟨ih.pairs, fun _ => ⟨x, rfl, rfl⟩⟩
      · simp only [Option.bind_eq_bind, Option.bind_eq_some_iff] at h
        obtain ⟨s1, h2, h⟩ := h
        obtain rfl := Option.some.inj h
        obtain ⟨p1, p2, p3⟩ := QN.prepare_affine h2 hc h1 ih
        have hpend : List.Forall₂ H.Pair (s1.pending c).sys.V (s1.pending c).sys.W ∧ (s1.pending c).oldXTilde = s1.oldXTilde ∧ (s1.pending c).oldResidual = s1.oldResidual := by
          unfold QN.pending
          simp only
          split_ifs
          all_goals first | exact ⟨p1, rfl, rfl⟩ | exact ⟨.nil, rfl, rfl⟩
        exact ⟨hpend.1, fun _ => ⟨x, hpend.2.1.trans p2, hpend.2.2.trans p3⟩⟩

/-- The values after the update, BaseQNAcceleration.cpp:485-488: `_values += W c`. -/
noncomputable def QN.updated (s : QN ι κ) (r : ι → ℝ) (x : κ → ℝ) : κ → ℝ := fun k => x k + combine (s.sys.W.map QNCol.val) (s.qr.coefficients (scaledCol s.weights r)) k

theorem combine_nil {α : Type} (c : ℕ → ℝ) (x : α) : combine [] c x = 0 := by
  unfold combine
  exact Fin.sum_univ_zero _

theorem combine_cons {α : Type} (a : α → ℝ) (A : List (α → ℝ)) (c : ℕ → ℝ) (x : α) : combine (a :: A) c x = c 0 * a x + combine A (fun j => c (j + 1)) x := by
  unfold combine
  exact Fin.sum_univ_succ (fun j : Fin (A.length + 1) => c j * (a :: A)[(j : ℕ)] x)

/-- The combinations of the columns belong to one difference of primary values. -/
theorem AffineProblem.combine_pair {H : AffineProblem ι κ} {V : List (QNCol ι)} {W : List (QNCol κ)} (h : List.Forall₂ H.Pair V W) (c : ℕ → ℝ) :
    ∃ d : ι → ℝ, (∀ i, combine (V.map QNCol.val) c i = (∑ j, H.M (H.e i) j * d j) - d i) ∧ ∀ k, combine (W.map QNCol.val) c k = ∑ j, H.M k j * d j := by
  induction h generalizing c with
  | nil => exact ⟨fun _ => 0, fun i => by rw [List.map_nil, combine_nil]; simp, fun k => by rw [List.map_nil, combine_nil]; simp⟩
  | @cons v w V W hp _ ih =>
    obtain ⟨d0, h1, h2⟩ := hp
    obtain ⟨d1, h3, h4⟩ := ih fun j => c (j + 1)
    refine ⟨fun j => c 0 * d0 j + d1 j, fun i => ?_, fun k => ?_⟩
    · rw [List.map_cons, combine_cons, h1, h3]
      simp only [mul_add, Finset.sum_add_distrib, mul_sub, Finset.mul_sum]
      have : ∀ j, H.M (H.e i) j * (c 0 * d0 j) = c 0 * (H.M (H.e i) j * d0 j) := fun j => by ring
      simp only [this]
      ring
    · rw [List.map_cons, combine_cons, h2, h4]
      simp only [mul_add, Finset.sum_add_distrib, Finset.mul_sum]
      have : ∀ j, H.M k j * (c 0 * d0 j) = c 0 * (H.M k j * d0 j) := fun j => by ring
      simp only [this]

theorem combine_scaled (w : ι → ℝ) (V : List (QNCol ι)) (c : ℕ → ℝ) (i : ι) : combine (scaled w V) c i = combine (V.map QNCol.val) c i * w i := by
  induction V generalizing c with
  | nil => rw [scaled, List.map_nil, List.map_nil, combine_nil, zero_mul]
  | cons v V ih =>
    rw [scaled_cons, combine_cons, ih, List.map_cons, combine_cons]
    unfold scaledCol
    ring

/-- C92: for an affine problem the update gives a solution of the fixed-point problem as soon as the residual is a combination of the stored differences. -/
theorem C92_fixed_point {H : AffineProblem ι κ} {c : QNConfig} {s s' : QN ι κ} {x : ι → ℝ} {w : ι → ℝ} {n : Bool} (hr : QN.AffineReachable H c s)
    (hq : ¬ (s.firstIteration = true ∧ (s.firstWindow = true ∨ c.force = true))) (hw : w ≠ s.weights → n = true) (hfil : c.filter = .qr2 ∨ c.filter = .qr3) (hpos : ∀ i, w i ≠ 0)
    (h : s.prepare c (H.residual x) (H.apply x) w n = some s') (hs : ∃ d, ∀ i, H.residual x i + combine (s'.sys.V.map QNCol.val) d i = 0) :
    let y := s'.updated (H.residual x) (H.apply x)
    H.apply (fun i => y (H.e i)) = y := by
  intro y
  have hq' : s.firstIteration = true → s.firstWindow = false := fun hfi => by
    rw [not_and, not_or] at hq
    simpa using (hq hfi).1
  obtain ⟨hfac, hrank⟩ := C75_exact hr.reachable hq' hw hfil h
  have hwt : s'.weights = w := (QN.prepare_fits h (C73_counts hr.reachable) hq' hw (QN.reachable_fits hr.reachable)).1
  obtain ⟨hp, -, -⟩ := QN.prepare_affine h (C73_counts hr.reachable) hq hr.fromAffine
  obtain ⟨d, hd⟩ := hs
  have hz := C92_residual_in_span hfac hrank (r := scaledCol w (H.residual x)) ⟨d, fun i => by
    rw [combine_scaled, scaledCol, ← add_mul, hd i, zero_mul]⟩
  set cf := s'.qr.coefficients (scaledCol w (H.residual x)) with hcf
  have hzero : ∀ i, H.residual x i + combine (s'.sys.V.map QNCol.val) cf i = 0 := fun i => by
    have := hz i
    rw [combine_scaled, scaledCol, ← add_mul] at this
    exact (mul_eq_zero.1 this).resolve_right (hpos i)
  obtain ⟨δ, h1, h2⟩ := AffineProblem.combine_pair hp cf
  have hy : ∀ k, y k = H.apply x k + ∑ j, H.M k j * δ j := fun k => by
    change H.apply x k + combine (s'.sys.W.map QNCol.val) (s'.qr.coefficients (scaledCol s'.weights (H.residual x))) k = _
    rw [hwt, ← hcf, h2]
  have hyp : ∀ i, y (H.e i) = x i + δ i := fun i => by
    have := hzero i
    rw [h1] at this
    rw [hy]
    unfold AffineProblem.residual at this
    linarith
  funext k
  rw [hy k]
  unfold AffineProblem.apply
  simp only [hyp, mul_add, Finset.sum_add_distrib]
  ring

/-- C92: this is the case, for any residual, when there are as many columns as primary unknowns. -/
theorem C92_enough_columns {H : AffineProblem ι κ} {c : QNConfig} {s s' : QN ι κ} {x : ι → ℝ} {w : ι → ℝ} {n : Bool} (hr : QN.AffineReachable H c s)
    (hq : ¬ (s.firstIteration = true ∧ (s.firstWindow = true ∨ c.force = true))) (hw : w ≠ s.weights → n = true) (hfil : c.filter = .qr2 ∨ c.filter = .qr3) (hpos : ∀ i, w i ≠ 0)
    (h : s.prepare c (H.residual x) (H.apply x) w n = some s') (hn : s'.sys.V.length = Fintype.card ι) :
    let y := s'.updated (H.residual x) (H.apply x)
    H.apply (fun i => y (H.e i)) = y := by
  have hq' : s.firstIteration = true → s.firstWindow = false := fun hfi => by
    rw [not_and, not_or] at hq
    simpa using (hq hfi).1
  obtain ⟨-, hrank⟩ := C75_exact hr.reachable hq' hw hfil h
  refine C92_fixed_point hr hq hw hfil hpos h ?_
  obtain ⟨d, hd⟩ := C92_complete hrank (by unfold scaled; rw [List.length_map, hn]) (scaledCol w (H.residual x))
  refine ⟨d, fun i => ?_⟩
  have := hd i
  rw [combine_scaled, scaledCol, ← add_mul] at this
  exact (mul_eq_zero.1 this).resolve_right (hpos i)

end Verif.Accel
