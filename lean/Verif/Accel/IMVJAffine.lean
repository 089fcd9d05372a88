import Verif.Accel.IMVJProps

/-!
# The multi-vector quasi-Newton update for an affine fixed-point problem (C93)
-/

set_option autoImplicit false
set_option linter.unusedSectionVars false

namespace Verif.Accel

open Finset

variable {ι κ : Type} [Fintype ι] [Fintype κ]

/-- States reached with calls that come from the affine problem. -/
inductive IMVJ.AffineReachable (H : AffineProblem ι κ) (c : IMVJConfig) : IMVJ ι κ → Prop
  | init (w : ι → ℝ) : IMVJ.AffineReachable H c (IMVJ.init w)
  | step {s s' : IMVJ ι κ} {a : QNCall ι κ} {other : List (Factor ι κ)} (x : ι → ℝ) : IMVJ.AffineReachable H c s → a.values = H.apply x → a.residual = H.residual x →
      (a.weights ≠ s.base.weights → a.newQR = true) → s.step c a other = some s' → IMVJ.AffineReachable H c s'

theorem IMVJ.AffineReachable.reachable {H : AffineProblem ι κ} {c : IMVJConfig} {s : IMVJ ι κ} (h : IMVJ.AffineReachable H c s) : IMVJ.Reachable c s := by
  induction h with
  | init w => exact .init w
  | step x _ _ _ hw h ih => exact .step ih hw h

theorem IMVJ.lastDifferences_affine {H : AffineProblem ι κ} {c : IMVJConfig} {s s' : IMVJ ι κ} {x : ι → ℝ} (h : s.lastDifferences c (H.residual x) (H.apply x) = some s')
    (hf : s.base.FromAffine H) : List.Forall₂ H.Pair s'.base.sys.V s'.base.sys.W := by
  unfold IMVJ.lastDifferences at h
  rw [Option.map_eq_some_iff] at h
  obtain ⟨s1, h1, rfl⟩ := h
  have := (QN.updateDifferences_affine (IMVJ.updateDifferences_base h1).1 hf).1
  exact this

theorem IMVJ.AffineReachable.fromAffine {H : AffineProblem ι κ} {c : IMVJConfig} (hs : c.Sound ι κ) {s : IMVJ ι κ} (h : IMVJ.AffineReachable H c s) : s.base.FromAffine H := by
  induction h with
  | init w => exact ⟨.nil, fun h => absurd h (by simp [IMVJ.init, QN.init])⟩
  | @step s s' a other x hr hv hres hw h ih =>
    have hi := hr.reachable.inv hs
    unfold IMVJ.step at h
    rw [hv, hres] at h
    split_ifs at h
    · unfold IMVJ.converged at h
      simp only [Option.bind_eq_bind, Option.bind_eq_some_iff] at h
      obtain ⟨s1, h1, s2, h2, b, hb, h⟩ := h
      obtain rfl := Option.some.inj h
      have p1 := IMVJ.lastDifferences_affine h1 ih
      obtain ⟨a1, a2, a3, -⟩ := IMVJ.lastDifferences_spec hs h1 hi
      have p2 : List.Forall₂ H.Pair s2.base.sys.V s2.base.sys.W := by
        by_cases hm : c.mode = .always
        · unfold IMVJ.specialized at h2
          rw [if_pos hm] at h2
          obtain rfl := Option.some.inj h2
          exact p1
        · obtain ⟨t1, t2, t3, g1, g2, g3, rfl⟩ := IMVJ.specialized_eq hm h2
          have := (IMVJ.stored_spec hs hm g1 g2 a1 a2 a3).2.2.2.2.2.2.2.2.2.2.2.2 _ p1
          simp only
          rw [IMVJ.store_base g3]
          exact this
      unfold QN.finishWindow at hb
      simp only [Option.bind_eq_bind, Option.bind_eq_some_iff] at hb
      obtain ⟨b2, hb2, hb⟩ := hb
      obtain rfl := Option.some.inj hb
      have p3 := QN.dropWindow_pairs hb2 p2
      exact ⟨p3, fun h => absurd h (by simp)⟩
    · unfold IMVJ.accelerate at h
      split_ifs at h with h1
      · obtain rfl := Option.some.inj h
        exact ⟨ih.pairs, fun _ => ⟨x, rfl, rfl⟩⟩
      · simp only [Option.bind_eq_bind, Option.bind_eq_some_iff] at h
        obtain ⟨s1, h2, h⟩ := h
        obtain rfl := Option.some.inj h
        obtain ⟨p1, p2, p3⟩ := QN.prepare_affine (IMVJ.prepare_base h2) hi.counts h1 ih
        have b2 : (((s1.compute c).pendingTil c).pending c).base = s1.base.pending c.qn := by
          unfold IMVJ.pending
          rw [(IMVJ.pendingTil_base c _).1.trans (IMVJ.compute_base c _).1]
        have hpend : List.Forall₂ H.Pair (s1.base.pending c.qn).sys.V (s1.base.pending c.qn).sys.W ∧ (s1.base.pending c.qn).oldXTilde = s1.base.oldXTilde ∧
            (s1.base.pending c.qn).oldResidual = s1.base.oldResidual := by
          unfold QN.pending
          simp only
          split_ifs
          all_goals first | exact ⟨p1, rfl, rfl⟩ | exact ⟨.nil, rfl, rfl⟩
        refine ⟨?_, fun _ => ⟨x, ?_, ?_⟩⟩
        · simp only [b2]
          exact hpend.1
        · simp only [b2]
          exact hpend.2.1.trans p2
        · simp only [b2]
          exact hpend.2.2.trans p3

/-- Specification: the matrix that the acceleration approximates maps the residual difference of any two vectors of primary values to the difference of the values that the solvers return. -/
def AffineProblem.Inverse (H : AffineProblem ι κ) (T : κ → ι → ℝ) : Prop := ∀ d : ι → ℝ, ∀ k, ip (T k) (fun i => (∑ j, H.M (H.e i) j * d j) - d i) = ∑ j, H.M k j * d j

theorem AffineProblem.Inverse.secant {H : AffineProblem ι κ} {T : κ → ι → ℝ} (hT : H.Inverse T) {V : List (QNCol ι)} {W : List (QNCol κ)} (h : List.Forall₂ H.Pair V W) :
    List.Forall₂ (fun v y => ∀ k, ip (T k) v = y k) (V.map QNCol.val) (W.map QNCol.val) := by
  rw [List.forall₂_map_left_iff, List.forall₂_map_right_iff]
  refine h.imp fun v w hp k => ?_
  obtain ⟨d, h1, h2⟩ := hp
  rw [h2, ← hT d k]
  exact congrArg _ (funext h1)

/-- C93: for an affine problem the kept Jacobian never gets worse, in any row, whatever the differences of the window are. -/
theorem C93_improves_partial {H : AffineProblem ι κ} {T : κ → ι → ℝ} (hT : H.Inverse T) {c : IMVJConfig} (hs : c.Sound ι κ) (hm : c.mode = .efficient) {s s' : IMVJ ι κ} {x : ι → ℝ} {w : ι → ℝ} {n : Bool}
    {other : List (Factor ι κ)} (hr : IMVJ.AffineReachable H c s) (h : s.converged c (H.residual x) (H.apply x) w n other = some s') (hl : ¬ s.Leftover c) (hw : ∀ i, s.base.weights i ≠ 0) (k : κ) :
    ∑ i, ((T k i - s'.kept c k i) / s.base.weights i) ^ 2 ≤ ∑ i, ((T k i - s.kept c k i) / s.base.weights i) ^ 2 := by
  obtain ⟨s1, m, h1, -, -, h2, -, h3⟩ := C93_stored_partial hs hm hr.reachable h hl
  exact C93_never_worse h3 hw (hT.secant (h2 _ (IMVJ.lastDifferences_affine h1 (hr.fromAffine hs)))) k

/-- C93: within a window the kept Jacobian does not change. -/
theorem C93_kept {c : IMVJConfig} (hs : c.Sound ι κ) {s s' : IMVJ ι κ} {r : ι → ℝ} {x : κ → ℝ} {w : ι → ℝ} {n : Bool} (hr : IMVJ.Reachable c s) (h : s.accelerate c r x w n = some s') :
    s'.kept c = s.kept c := by
  unfold IMVJ.accelerate at h
  split_ifs at h with h1
  · obtain rfl := Option.some.inj h
    rfl
  · simp only [Option.bind_eq_bind, Option.bind_eq_some_iff] at h
    obtain ⟨s1, h2, h⟩ := h
    obtain rfl := Option.some.inj h
    obtain ⟨-, j2, j3, -⟩ := IMVJ.prepare_jac h2 (hr.inv hs).counts (IMVJ.noRelax h1)
    refine IMVJ.kept_congr ?_ ?_
    · exact ((IMVJ.pendingTil_base c _).2.1.trans (IMVJ.compute_base c _).2.1).trans j2
    · exact ((IMVJ.pendingTil_base c _).2.2.trans (IMVJ.compute_base c _).2.2).trans j3

/-- C93: for an affine problem the update gives a solution of the fixed-point problem as soon as the residual is a combination of the stored differences, whatever Jacobian was kept. -/
theorem C93_fixed_point_partial {H : AffineProblem ι κ} {c : IMVJConfig} (hs : c.Sound ι κ) {s s' : IMVJ ι κ} {x : ι → ℝ} {w : ι → ℝ} {n : Bool} (hr : IMVJ.AffineReachable H c s)
    (hq : ¬ (s.base.firstIteration = true ∧ (s.base.firstWindow = true ∨ c.qn.force = true))) (hw : w ≠ s.base.weights → n = true)
    (h : s.prepare c (H.residual x) (H.apply x) w n = some s') (hl : c.mode = .always ∨ ¬ s.Leftover c)
    (hd : ∃ d, ∀ i, H.residual x i + combine (s'.base.sys.V.map QNCol.val) d i = 0) :
    let y := fun k => H.apply x k + s'.update c (H.residual x) k
    H.apply (fun i => y (H.e i)) = y := by
  intro y
  obtain ⟨J, hJ, hu⟩ := C93_update_partial hs hr.reachable hq hw h hl
  obtain ⟨d, hd⟩ := hd
  obtain ⟨hp, -, -⟩ := QN.prepare_affine (IMVJ.prepare_base h) (hr.reachable.inv hs).counts hq (hr.fromAffine hs)
  obtain ⟨δ, h1, h2⟩ := AffineProblem.combine_pair hp d
  have hy : ∀ k, y k = H.apply x k + ∑ j, H.M k j * δ j := fun k => by
    change H.apply x k + s'.update c (H.residual x) k = _
    rw [hu]
    simp only
    rw [C93_span hJ d (fun i => by linarith [hd i]), h2]
  have hyp : ∀ i, y (H.e i) = x i + δ i := fun i => by
    have := hd i
    rw [h1] at this
    rw [hy]
    unfold AffineProblem.residual at this
    linarith
  funext k
  rw [hy k]
  unfold AffineProblem.apply
  simp only [hyp, mul_add, Finset.sum_add_distrib]
  ring

/-- C93: also when the kept Jacobian is already the right one. -/
theorem C93_exact_jacobian_partial {H : AffineProblem ι κ} {T : κ → ι → ℝ} (hT : H.Inverse T) {c : IMVJConfig} (hs : c.Sound ι κ) {s s' : IMVJ ι κ} {x : ι → ℝ} {w : ι → ℝ} {n : Bool}
    (hr : IMVJ.AffineReachable H c s) (hq : ¬ (s.base.firstIteration = true ∧ (s.base.firstWindow = true ∨ c.qn.force = true))) (hw : w ≠ s.base.weights → n = true)
    (h : s.prepare c (H.residual x) (H.apply x) w n = some s') (hl : c.mode = .always ∨ ¬ s.Leftover c) (hpos : ∀ i, w i ≠ 0) (hk : s.kept c = T)
    (hd : ∃ d : ι → ℝ, ∀ i, H.residual x i + ((∑ j, H.M (H.e i) j * d j) - d i) = 0) :
    let y := fun k => H.apply x k + s'.update c (H.residual x) k
    H.apply (fun i => y (H.e i)) = y := by
  intro y
  obtain ⟨J, hJ, hu⟩ := C93_update_partial hs hr.reachable hq hw h hl
  obtain ⟨d, hd⟩ := hd
  obtain ⟨hp, -, -⟩ := QN.prepare_affine (IMVJ.prepare_base h) (hr.reachable.inv hs).counts hq (hr.fromAffine hs)
  have hJT : J = T := by
    have := C93_idle hJ hpos (by rw [hk]; exact hT.secant hp)
    rw [this, hk]
  have hy : ∀ k, y k = H.apply x k + ∑ j, H.M k j * d j := fun k => by
    change H.apply x k + s'.update c (H.residual x) k = _
    rw [hu, hJT]
    simp only
    rw [← hT d k]
    exact congrArg _ (congrArg _ (funext fun i => by linarith [hd i]))
  have hyp : ∀ i, y (H.e i) = x i + d i := fun i => by
    have := hd i
    rw [hy]
    unfold AffineProblem.residual at this
    linarith
  funext k
  rw [hy k]
  unfold AffineProblem.apply
  simp only [hyp, mul_add, Finset.sum_add_distrib]
  ring

end Verif.Accel
