import Verif.Accel.Relaxation
import Verif.Time.TimeHandler
import Mathlib.Algebra.BigOperators.Group.List.Basic
import Mathlib.Algebra.Order.BigOperators.Group.List
import Mathlib.Tactic.FieldSimp
import Mathlib.Tactic.LinearCombination

/-!
# Aitken relaxation (C72)

Model of `/repo/src/acceleration/AitkenAcceleration.cpp`. The lists contain the degrees of freedom of all ranks, as `IntraComm::dot` sums over all of them (C64). All numbers are exact.
-/

set_option autoImplicit false

namespace Verif.Accel

/-- The state of `AitkenAcceleration`: `_aitkenFactor`, `_oldResiduals`, `_iterationCounter`. -/
structure Aitken where
  factor : ℚ
  oldResiduals : List ℚ
  counter : ℕ

/-- `math::sign`, /repo/src/math/math.hpp:10-18 -/
def sign (x : ℚ) : ℚ := if greater x 0 then 1 else if greater 0 x then -1 else 0

/-- `dot` -/
def dot (x y : List ℚ) : ℚ := (List.zipWith (· * ·) x y).sum

/-- `_preconditioner->apply`, only used with more than one primary data (AitkenAcceleration.cpp:87-90). -/
def precondition (weights : Option (List ℚ)) (x : List ℚ) : List ℚ :=
  match weights with
  | none => x
  | some w => List.zipWith (· * ·) x w

/-- Constructor, AitkenAcceleration.cpp:23-36, and `initialize`, 38-59 -/
def Aitken.create (initial : ℚ) (entries : ℕ) : Option Aitken :=
  if 0 < initial ∧ initial ≤ 1 then some ⟨initial, List.replicate entries 0, 0⟩ else none

/-- The relaxation factor, AitkenAcceleration.cpp:76-98. `none`: division of zero by zero. -/
def Aitken.nextFactor (initial : ℚ) (weights : Option (List ℚ)) (s : Aitken) (residuals : List ℚ) : Option ℚ :=
  let deltas := List.zipWith (· - ·) residuals s.oldResiduals
  if s.counter = 0 then some (sign s.factor * min initial |s.factor|)
  else
    let d := precondition weights deltas
    let o := precondition weights s.oldResiduals
    if dot d d = 0 then none else some (- s.factor * (dot o d / dot d d))

/-- `concatenateCouplingData`, AitkenAcceleration.cpp:122-143: new minus previous values at the end of the window. -/
def windowEndResiduals (q : Bspline.Solver) (windowEnd : ℚ) (data : List Entry) : Option (List ℚ) :=
  data.mapM fun e => (e.current.read q windowEnd).bind fun v => (e.previous.read q windowEnd).map fun o => v - o

/-- `performAcceleration`, AitkenAcceleration.cpp:61-110. All data is primary data; secondary data is relaxed with the same factor. -/
def Aitken.perform (q : Bspline.Solver) (initial start windowEnd : ℚ) (weights : Option (List ℚ)) (s : Aitken) (data : List Entry) : Option (Aitken × List Entry) :=
  (windowEndResiduals q windowEnd data).bind fun r => (s.nextFactor initial weights r).bind fun ω =>
    (applyRelaxation q ω start data).map fun data' => (⟨ω, r, s.counter + 1⟩, data')

/-- `iterationsConverged`, AitkenAcceleration.cpp:112-120 -/
def Aitken.converged (s : Aitken) : Aitken := ⟨s.factor, s.oldResiduals.map fun _ => dblMax, 0⟩

/-! ## Lemmas -/

theorem sign_abs (x : ℚ) : |sign x| ≤ 1 := by
  unfold sign
  split
  · simp
  · split <;> simp

theorem dot_self_nonneg (x : List ℚ) : 0 ≤ dot x x := by
  unfold dot
  induction x with
  | nil => simp
  | cons a x ih => simp only [List.zipWith_cons_cons, List.sum_cons]; nlinarith [mul_self_nonneg a]

theorem dot_self_eq_zero {x : List ℚ} : dot x x = 0 ↔ ∀ a ∈ x, a = 0 := by
  induction x with
  | nil => simp [dot]
  | cons a x ih =>
    have h1 : dot (a :: x) (a :: x) = a * a + dot x x := by simp [dot]
    have h2 := dot_self_nonneg x
    have h3 := mul_self_nonneg a
    rw [h1]
    constructor
    · intro h
      have ha : a * a = 0 := by linarith
      have hx : dot x x = 0 := by linarith
      intro b hb
      rcases List.mem_cons.1 hb with rfl | hb
      · exact mul_self_eq_zero.1 ha
      · exact ih.1 hx b hb
    · intro h
      rw [h a (by simp), ih.2 fun b hb => h b (by simp [hb])]
      ring

theorem zipWith_sub_zero {x y : List ℚ} (h : x.length = y.length) : (∀ a ∈ List.zipWith (· - ·) x y, a = 0) ↔ x = y := by
  induction x generalizing y with
  | nil => cases y <;> simp_all
  | cons a x ih =>
    cases y with
    | nil => simp at h
    | cons b y =>
      simp only [List.zipWith_cons_cons, List.mem_cons, forall_eq_or_imp, List.cons.injEq]
      rw [ih (by simpa using h), sub_eq_zero]

theorem precondition_zero {w : Option (List ℚ)} {x : List ℚ} (h : ∀ l, w = some l → l.length = x.length ∧ ∀ a ∈ l, a ≠ 0) :
    (∀ a ∈ precondition w x, a = 0) ↔ ∀ a ∈ x, a = 0 := by
  cases w with
  | none => exact Iff.rfl
  | some w =>
    obtain ⟨h1, h2⟩ := h w rfl
    unfold precondition
    simp only
    clear h
    induction x generalizing w with
    | nil => simp
    | cons a x ih =>
      cases w with
      | nil => simp at h1
      | cons b w =>
        simp only [List.zipWith_cons_cons, List.mem_cons, forall_eq_or_imp] at h2 ⊢
        rw [ih w (by simpa using h1) h2.2]
        simp [h2.1]

theorem precondition_smul (w : Option (List ℚ)) (c : ℚ) (x : List ℚ) : precondition w (x.map (c * ·)) = (precondition w x).map (c * ·) := by
  cases w with
  | none => rfl
  | some w =>
    unfold precondition
    simp only
    induction x generalizing w with
    | nil => simp
    | cons a x ih =>
      cases w with
      | nil => simp
      | cons b w => simp [ih, mul_assoc]

theorem dot_smul_right (c : ℚ) (x y : List ℚ) : dot x (y.map (c * ·)) = c * dot x y := by
  unfold dot
  induction x generalizing y with
  | nil => simp
  | cons a x ih =>
    cases y with
    | nil => simp
    | cons b y =>
      simp only [List.map_cons, List.zipWith_cons_cons, List.sum_cons, ih]
      ring

theorem dot_smul_left (c : ℚ) (x y : List ℚ) : dot (x.map (c * ·)) y = c * dot x y := by
  unfold dot
  induction x generalizing y with
  | nil => simp
  | cons a x ih =>
    cases y with
    | nil => simp
    | cons b y =>
      simp only [List.map_cons, List.zipWith_cons_cons, List.sum_cons, ih]
      ring

/-! ## The first factor of a window -/

/-- C72: every window, also the first one, starts with a factor that is not larger than the initial relaxation. -/
theorem C72_start {initial : ℚ} (h : 0 < initial) {weights : Option (List ℚ)} {s : Aitken} (hs : s.counter = 0) (residuals : List ℚ) :
    ∃ ω, s.nextFactor initial weights residuals = some ω ∧ |ω| ≤ initial ∧ |ω| ≤ |s.factor| := by
  refine ⟨sign s.factor * min initial |s.factor|, ?_, ?_, ?_⟩
  · unfold Aitken.nextFactor
    simp only [hs, if_true]
  all_goals
    rw [abs_mul, abs_of_nonneg (le_min h.le (abs_nonneg _))]
    have h1 := sign_abs s.factor
    have h2 : 0 ≤ min initial |s.factor| := le_min h.le (abs_nonneg _)
    have h3 := mul_le_mul_of_nonneg_right h1 h2
    have h4 := min_le_left initial |s.factor|
    have h5 := min_le_right initial |s.factor|
    linarith

/-- C72: after a window has converged the next call starts a new window. -/
theorem C72_converged (s : Aitken) : s.converged.counter = 0 ∧ s.converged.factor = s.factor := ⟨rfl, rfl⟩

/-! ## Undefined factors -/

/-- C72: the factor is undefined exactly if it is not the first iteration of a window and the residuals equal those of the iteration before. -/
theorem C72_undefined_iff {initial : ℚ} {weights : Option (List ℚ)} {s : Aitken} {residuals : List ℚ} (hl : residuals.length = s.oldResiduals.length)
    (hw : ∀ l, weights = some l → l.length = residuals.length ∧ ∀ a ∈ l, a ≠ 0) :
    s.nextFactor initial weights residuals = none ↔ s.counter ≠ 0 ∧ residuals = s.oldResiduals := by
  have hz : dot (precondition weights (List.zipWith (· - ·) residuals s.oldResiduals)) (precondition weights (List.zipWith (· - ·) residuals s.oldResiduals)) = 0 ↔
      residuals = s.oldResiduals := by
    rw [dot_self_eq_zero, precondition_zero, zipWith_sub_zero hl]
    intro l h
    refine ⟨?_, (hw l h).2⟩
    rw [(hw l h).1, List.length_zipWith, ← hl, min_self]
  unfold Aitken.nextFactor
  simp only
  by_cases h0 : s.counter = 0
  · simp [h0]
  · rw [if_neg h0]
    by_cases hr : residuals = s.oldResiduals
    · rw [if_pos (hz.2 hr)]
      simp [h0, hr]
    · rw [if_neg fun h => hr (hz.1 h)]
      simp [hr]

/-! ## Affine problems -/

/-- In this iteration the solver was given `old` and has answered with `new` at the end of the window. -/
structure At (q q' : Bspline.Solver) (windowEnd : ℚ) (e : Entry) (old new : ℚ) : Prop where
  reachable : Waveform.Reachable q' e.current
  old : e.previous.read q windowEnd = some old
  new : (windowEnd, new) ∈ e.current.samples

theorem At.read {q q' : Bspline.Solver} {windowEnd : ℚ} {e : Entry} {old new : ℚ} (h : At q q' windowEnd e old new) : e.current.read q windowEnd = some new :=
  Waveform.C24_read_stored (q' := q) (s := (windowEnd, new)) h.reachable h.new

theorem residuals_eq {q q' : Bspline.Solver} {windowEnd : ℚ} {data : List Entry} {ps : List (ℚ × ℚ)} (h : List.Forall₂ (fun e p => At q q' windowEnd e p.1 p.2) data ps) :
    windowEndResiduals q windowEnd data = some (ps.map fun p => p.2 - p.1) := by
  unfold windowEndResiduals
  induction h with
  | nil => rfl
  | cons h _ ih =>
    rw [List.mapM_cons, ih, h.read, h.old]
    rfl

/-- The relaxed value at the end of the window. -/
theorem relaxed_read {q q' : Bspline.Solver} {ω start windowEnd : ℚ} (hend : start + tol < windowEnd) {data data' : List Entry} {ps : List (ℚ × ℚ)}
    (h : List.Forall₂ (fun e p => At q q' windowEnd e p.1 p.2) data ps) (hr : applyRelaxation q ω start data = some data') :
    List.Forall₂ (fun e p => e.current.read q windowEnd = some (p.1 + ω * (p.2 - p.1))) data' ps := by
  have hf := mapM_forall₂ hr
  clear hr
  induction hf generalizing ps with
  | nil => cases h; exact .nil
  | @cons e e' _ _ he _ ih =>
    cases h with
    | @cons _ p _ _ h1 h2 =>
      refine .cons ?_ (ih h2)
      have hrel := relaxEntry_spec he
      obtain ⟨old, a, b⟩ := hrel.samples
      have ho : old windowEnd = p.1 := by
        have := a _ h1.new hend
        rw [h1.old] at this
        exact (Option.some.inj this).symm
      have hspaced : Waveform.Spaced e'.current.samples := by
        refine h1.reachable.spaced.of_fst ?_
        rw [b, List.map_map]
        refine List.map_congr_left fun s _ => ?_
        simp only [Function.comp_apply]
        unfold relaxedSample
        split <;> rfl
      have hmem : (windowEnd, p.1 + ω * (p.2 - p.1)) ∈ e'.current.samples := by
        rw [b]
        refine List.mem_map.2 ⟨_, h1.new, ?_⟩
        unfold relaxedSample
        rw [if_pos hend]
        simp only [ho]
        exact congrArg (Prod.mk windowEnd) (by ring)
      -- a waveform with these samples is reachable by storing them
      have hreach : ∃ d ops, Waveform.applyAll q' (Waveform.empty d) ops = some { e'.current with cache := e.current.cache } := by
        obtain ⟨d, ops, hops⟩ := h1.reachable
        refine ⟨d, ops ++ [.modify fun t v => if start + tol < t then ω * v + (1 - ω) * old t else v], ?_⟩
        unfold Waveform.applyAll at hops ⊢
        rw [List.foldlM_append, hops]
        simp only [Option.bind_eq_bind, Option.bind_some, List.foldlM_cons, List.foldlM_nil, Waveform.apply, Waveform.modify]
        refine congrArg some ?_
        have hd := hrel.degree
        have hs := b
        cases hc : e.current
        cases hc' : e'.current
        rw [hc, hc'] at hd hs
        simp only [Waveform.mk.injEq, and_true] at hd hs ⊢
        refine ⟨?_, hd.symm⟩
        rw [hs]
        refine List.map_congr_left fun s _ => ?_
        unfold relaxedSample
        split <;> rfl
      have hcache : e'.current.cache = e.current.cache := by
        unfold relaxEntry at he
        split at he
        · cases he; rfl
        · rw [Option.map_eq_some_iff] at he
          obtain ⟨r, _, rfl⟩ := he
          rfl
      have : ({ e'.current with cache := e.current.cache } : Waveform) = e'.current := by rw [← hcache]
      rw [this] at hreach
      exact Waveform.C24_read_stored (q' := q) (s := (windowEnd, p.1 + ω * (p.2 - p.1))) hreach hmem

/-- The residual of an affine problem after a relaxation with factor `ω`. -/
theorem affine_residual (a ω : ℚ) (xs : List (ℚ × ℚ)) :
    List.zipWith (· - ·) (xs.map fun p => (a - 1) * (p.1 + ω * ((a - 1) * p.1 + p.2)) + p.2) (xs.map fun p => (a - 1) * p.1 + p.2) =
      (xs.map fun p => (a - 1) * p.1 + p.2).map (((a - 1) * ω) * ·) := by
  induction xs with
  | nil => rfl
  | cons p xs ih =>
    simp only [List.map_cons, List.zipWith_cons_cons, List.cons.injEq]
    exact ⟨by ring, ih⟩

/-- C72: for an affine fixed-point problem `x ↦ a * x + b` with slope different from one (with the same slope in all components) that is not yet solved, the second relaxation of a window
gives the exact solution `b / (1 - a)` in every component. -/
theorem C72_affine {q q' : Bspline.Solver} {initial start windowEnd a : ℚ} (hi : tol < initial) (hend : start + tol < windowEnd) (ha : a ≠ 1)
    {weights₀ weights₁ : Option (List ℚ)} {s₀ s₁ s₂ : Aitken} (h0 : s₀.counter = 0) (hs : tol < |s₀.factor|)
    {data₀ data₀' data₁ data₁' : List Entry} {xs : List (ℚ × ℚ)}
    -- first iteration: the components `x` of the iterate are answered with `a * x + b`
    (d0 : List.Forall₂ (fun e p => At q q' windowEnd e p.1 (a * p.1 + p.2)) data₀ xs) (hne : ∃ p ∈ xs, a * p.1 + p.2 ≠ p.1)
    (r0 : s₀.perform q initial start windowEnd weights₀ data₀ = some (s₁, data₀'))
    -- second iteration: the relaxed components `y` are answered with `a * y + b`
    {ys : List ℚ} (hy : List.Forall₂ (fun e y => e.current.read q windowEnd = some y) data₀' ys)
    (d1 : List.Forall₂ (fun e p => At q q' windowEnd e p.1 (a * p.1 + p.2)) data₁ (ys.zip (xs.map (·.2))))
    (hw : ∀ l, weights₁ = some l → l.length = xs.length ∧ ∀ c ∈ l, c ≠ 0)
    (r1 : s₁.perform q initial start windowEnd weights₁ data₁ = some (s₂, data₁')) :
    List.Forall₂ (fun e p => e.current.read q windowEnd = some (p.2 / (1 - a))) data₁' xs := by
  have htol := tol_pos
  -- first relaxation
  have hd0 : List.Forall₂ (fun e p => At q q' windowEnd e p.1 p.2) data₀ (xs.map fun p => (p.1, a * p.1 + p.2)) := List.forall₂_map_right_iff.2 d0
  unfold Aitken.perform at r0
  rw [residuals_eq hd0, Option.bind_some, Option.bind_eq_some_iff] at r0
  obtain ⟨ω, hω, r0⟩ := r0
  rw [Option.map_eq_some_iff] at r0
  obtain ⟨e0, hrel0, he0⟩ := r0
  rw [Prod.mk.injEq] at he0
  obtain ⟨rfl, rfl⟩ := he0
  have hω0 : ω ≠ 0 := by
    unfold Aitken.nextFactor at hω
    simp only [h0, if_true, Option.some.injEq] at hω
    rw [← hω]
    refine mul_ne_zero ?_ (ne_of_gt (lt_min (by linarith) (by linarith)))
    unfold sign
    rcases lt_abs.1 hs with h | h
    · rw [if_pos (show greater s₀.factor 0 by unfold greater; linarith)]; norm_num
    · rw [if_neg (show ¬ greater s₀.factor 0 by unfold greater; linarith), if_pos (show greater 0 s₀.factor by unfold greater; linarith)]; norm_num
  have hres : ((xs.map fun p => (p.1, a * p.1 + p.2)).map fun p => p.2 - p.1) = xs.map fun p => (a - 1) * p.1 + p.2 := by
    rw [List.map_map]
    refine List.map_congr_left fun p _ => ?_
    simp only [Function.comp_apply]
    ring
  have hread0 := relaxed_read hend hd0 hrel0
  have hys : ys = xs.map fun p => p.1 + ω * ((a - 1) * p.1 + p.2) := by
    have h1 : List.Forall₂ (fun e p => e.current.read q windowEnd = some (p.1 + ω * (a * p.1 + p.2 - p.1))) e0 xs := by
      have := hread0
      rwa [List.forall₂_map_right_iff] at this
    clear hread0 r1 hrel0 d1 hw hne hres hω hd0 d0
    induction h1 generalizing ys with
    | nil => cases hy; rfl
    | cons h _ ih =>
      cases hy with
      | cons hy hys =>
        rw [List.map_cons, ih hys]
        rw [h, Option.some.injEq] at hy
        rw [← hy]
        refine congrArg₂ _ ?_ rfl
        ring
  -- second relaxation
  have hzip : ys.zip (xs.map (·.2)) = xs.map fun p => (p.1 + ω * ((a - 1) * p.1 + p.2), p.2) := by
    rw [hys, List.zip_map', ]
  rw [hzip] at d1
  have hd1 : List.Forall₂ (fun e p => At q q' windowEnd e p.1 p.2) data₁
      (xs.map fun p => (p.1 + ω * ((a - 1) * p.1 + p.2), a * (p.1 + ω * ((a - 1) * p.1 + p.2)) + p.2)) := by
    rw [List.forall₂_map_right_iff] at d1 ⊢
    exact d1
  unfold Aitken.perform at r1
  rw [residuals_eq hd1, Option.bind_some, Option.bind_eq_some_iff] at r1
  obtain ⟨ω', hω', r1⟩ := r1
  rw [Option.map_eq_some_iff] at r1
  obtain ⟨e1, hrel1, he1⟩ := r1
  rw [Prod.mk.injEq] at he1
  obtain ⟨-, rfl⟩ := he1
  have hres1 : ((xs.map fun p => (p.1 + ω * ((a - 1) * p.1 + p.2), a * (p.1 + ω * ((a - 1) * p.1 + p.2)) + p.2)).map fun p => p.2 - p.1) =
      xs.map fun p => (a - 1) * (p.1 + ω * ((a - 1) * p.1 + p.2)) + p.2 := by
    rw [List.map_map]
    refine List.map_congr_left fun p _ => ?_
    simp only [Function.comp_apply]
    ring
  have ha1 : a - 1 ≠ 0 := sub_ne_zero.2 ha
  have hω1 : ω' = 1 / (1 - a) := by
    unfold Aitken.nextFactor at hω'
    simp only at hω'
    rw [if_neg (by omega), hres, hres1, affine_residual, precondition_smul, dot_smul_right, dot_smul_left, dot_smul_right] at hω'
    have hS : dot (precondition weights₁ (xs.map fun p => (a - 1) * p.1 + p.2)) (precondition weights₁ (xs.map fun p => (a - 1) * p.1 + p.2)) ≠ 0 := by
      rw [Ne, dot_self_eq_zero, precondition_zero (by
        intro l hl
        rw [List.length_map]
        exact hw l hl)]
      intro hx
      obtain ⟨p, hp, hpne⟩ := hne
      have := hx _ (List.mem_map.2 ⟨p, hp, rfl⟩)
      apply hpne
      linarith
    generalize dot (precondition weights₁ (xs.map fun p => (a - 1) * p.1 + p.2)) (precondition weights₁ (xs.map fun p => (a - 1) * p.1 + p.2)) = S at hS hω'
    rw [if_neg (mul_ne_zero (mul_ne_zero ha1 hω0) (mul_ne_zero (mul_ne_zero ha1 hω0) hS)), Option.some.injEq] at hω'
    rw [← hω']
    have h1a : (1 - a) ≠ 0 := fun h => ha1 (by linarith)
    field_simp
    ring
  have hread1 := relaxed_read hend hd1 hrel1
  rw [List.forall₂_map_right_iff] at hread1
  refine hread1.imp fun e p h => ?_
  rw [h, hω1]
  refine congrArg some ?_
  have h1a : (1 - a) ≠ 0 := fun h => ha1 (by linarith)
  field_simp
  ring

/-- C72: the factor of the second relaxation is defined for these problems. -/
theorem C72_affine_defined {initial a ω : ℚ} (ha : a ≠ 1) (hω : ω ≠ 0) {weights : Option (List ℚ)} {xs : List (ℚ × ℚ)} (hne : ∃ p ∈ xs, a * p.1 + p.2 ≠ p.1) {n : ℕ}
    (hw : ∀ l, weights = some l → l.length = xs.length ∧ ∀ c ∈ l, c ≠ 0) :
    (Aitken.nextFactor initial weights ⟨ω, xs.map fun p => (a - 1) * p.1 + p.2, n⟩
      (xs.map fun p => (a - 1) * (p.1 + ω * ((a - 1) * p.1 + p.2)) + p.2)).isSome := by
  rw [Option.isSome_iff_ne_none, Ne, C72_undefined_iff (by simp) (by
    intro l hl
    rw [List.length_map]
    exact hw l hl)]
  rintro ⟨-, h⟩
  obtain ⟨p, hp, hpne⟩ := hne
  have := List.map_inj_left.1 h p hp
  apply hpne
  have h2 : (a - 1) * ω * ((a - 1) * p.1 + p.2) = 0 := by linarith
  rcases mul_eq_zero.1 h2 with h2 | h2
  · exact absurd h2 (mul_ne_zero (sub_ne_zero.2 ha) hω)
  · linarith

/-! ## A factor of zero -/

/-- If the change of the residuals is orthogonal to the old residuals the factor becomes zero ... -/
theorem C72_zero_factor {initial : ℚ} {s : Aitken} {residuals : List ℚ} (h0 : s.counter ≠ 0)
    (ho : dot s.oldResiduals (List.zipWith (· - ·) residuals s.oldResiduals) = 0) (hne : s.nextFactor initial none residuals ≠ none) :
    s.nextFactor initial none residuals = some 0 := by
  unfold Aitken.nextFactor at hne ⊢
  simp only [precondition] at hne ⊢
  rw [if_neg h0] at hne ⊢
  by_cases h : dot (List.zipWith (· - ·) residuals s.oldResiduals) (List.zipWith (· - ·) residuals s.oldResiduals) = 0
  · exact absurd (if_pos h) hne
  · refine (if_neg h).trans ?_
    rw [ho]; simp

/-- ... and stays zero for ever, in this and in all later windows: the data is never changed again. -/
theorem C72_zero_factor_stays {initial : ℚ} {weights : Option (List ℚ)} {s : Aitken} (h : s.factor = 0) {residuals : List ℚ} {ω : ℚ}
    (hn : s.nextFactor initial weights residuals = some ω) : ω = 0 := by
  unfold Aitken.nextFactor at hn
  simp only [h] at hn
  split at hn
  · rw [Option.some.injEq] at hn
    rw [← hn]
    have htol := tol_pos
    unfold sign
    rw [if_neg (show ¬ greater 0 0 by unfold greater; linarith), if_neg (show ¬ greater 0 0 by unfold greater; linarith)]
    simp
  · split at hn
    · cases hn
    · rw [Option.some.injEq] at hn
      rw [← hn]; simp

/-- A factor of zero is reached by a linear problem with two components: residuals (1, 0) and then (1, 1). -/
example : Aitken.nextFactor (1/2) none ⟨1/2, [1, 0], 1⟩ [1, 1] = some 0 := by decide +kernel

/-- The problem `x ↦ -3 x + 8` from `x = 0` with initial relaxation 1/2: the residual is 8 and the iterate becomes 4. Then the residual is -8, the factor 1/4, and the iterate the solution 2. -/
example : (Aitken.create (1/2) 1).bind (fun s => s.nextFactor (1/2) none [8]) = some (1/2) ∧
    Aitken.nextFactor (1/2) none ⟨1/2, [8], 1⟩ [-8] = some (1/4) := by decide +kernel

/-- One sample at the window start and `v` at the window end. -/
def linearWave (v : ℚ) : Waveform := ⟨[(0, 0), (1, v)], 1, none⟩

theorem linearWave_reachable (v : ℚ) : Waveform.Reachable Waveform.trivialSolver (linearWave v) :=
  ⟨1, [.setSample 0 0, .setSample 1 v], by
    have h1 : smallerEquals (0 : ℚ) 1 := by decide +kernel
    have h2 : ¬ equals (0 : ℚ) 1 := by decide +kernel
    have h3 : smaller (0 : ℚ) 1 := by decide +kernel
    simp only [Waveform.applyAll, List.foldlM_cons, List.foldlM_nil, Waveform.apply, Waveform.setSample, Waveform.empty, Option.bind_eq_bind, Option.bind_some,
      Waveform.maxStoredTime, List.getLast?_singleton, if_pos h1, h3, if_true, List.any_cons, List.any_nil, h2, decide_false, Bool.or_self, Bool.false_eq_true, if_false]
    rfl⟩

/-- The hypotheses of `C72_affine` in this example, and its conclusion computed by the model: from 0 over 4 to the solution 2 of `x = -3 x + 8`. -/
example : At Waveform.trivialSolver Waveform.trivialSolver 1 ⟨linearWave 8, linearWave 0⟩ 0 (-3 * 0 + 8) ∧
    At Waveform.trivialSolver Waveform.trivialSolver 1 ⟨linearWave (-4), linearWave 4⟩ 4 (-3 * 4 + 8) ∧
    ((Aitken.perform Waveform.trivialSolver (1/2) 0 1 none ⟨1/2, [0], 0⟩ [⟨linearWave 8, linearWave 0⟩]).bind fun r =>
      (r.1.perform Waveform.trivialSolver (1/2) 0 1 none [⟨linearWave (-4), linearWave 4⟩]).map fun r' =>
        (r.2.map (·.current.samples), r'.2.map (·.current.samples))) = some ([[(0, 0), (1, 4)]], [[(0, 0), (1, 2)]]) := by
  refine ⟨⟨linearWave_reachable _, by decide +kernel, by decide +kernel⟩, ⟨linearWave_reachable _, by decide +kernel, by decide +kernel⟩, by decide +kernel⟩

end Verif.Accel
