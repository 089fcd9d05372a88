import Verif.Scheme.Measure
import Verif.Scheme.Base
import Mathlib.Tactic.NormNum
import Mathlib.Tactic.Positivity
import Mathlib.Algebra.BigOperators.Fin

/-!
# Properties C11 and C80: convergence decisions
-/

set_option autoImplicit false

namespace Verif.Measure

/-! ## C11 -/

/-- A strict measure that does not hold. -/
def strictFailure (ms : List Ctx) : Prop := ∃ m ∈ ms, m.strict = true ∧ m.holds = false

/-- The documented rule: all measures hold, or one that suffices holds and no strict one fails. -/
def verdict (ms : List Ctx) : Prop :=
  (∀ m ∈ ms, m.holds = true) ∨
  ((∃ m ∈ ms, m.suff = true ∧ m.holds = true) ∧ ¬ strictFailure ms)

theorem loop_spec (iters maxIter : ℤ) (ms : List Ctx) (a : Acc) :
    (loop iters maxIter ms a = none ↔ strictFailure ms ∧ ¬ iters < maxIter) ∧
    (∀ r, loop iters maxIter ms a = some r →
      (r.allConverged = true ↔ a.allConverged = true ∧ ∀ m ∈ ms, m.holds = true) ∧
      (r.oneSuffices = true ↔ a.oneSuffices = true ∨ ∃ m ∈ ms, m.suff = true ∧ m.holds = true) ∧
      (r.oneStrict = true ↔ a.oneStrict = true ∨ strictFailure ms)) := by
  induction ms generalizing a with
  | nil => simp [loop, strictFailure]
  | cons m ms ih =>
    obtain ⟨su, st, ho⟩ := m
    unfold loop strictFailure
    cases ho <;> cases su <;> cases st <;> by_cases hlt : iters < maxIter <;>
      simp [hlt, ih, strictFailure] <;> intro r hr <;>
      simpa [strictFailure, hlt] using (ih _).2 r hr

/-- **C11.** `measureConvergence` aborts iff a strict measure fails and the iteration is not below
max-iterations; otherwise it reports convergence iff there is a measure, min-iterations is reached
and the documented rule holds. -/
theorem C11_measureConvergence (iters minIter maxIter : ℤ) (ms : List Ctx) :
    (measureConvergence iters minIter maxIter ms = none ↔ strictFailure ms ∧ ¬ iters < maxIter) ∧
    (∀ b, measureConvergence iters minIter maxIter ms = some b →
      (b = true ↔ ms ≠ [] ∧ minIter ≤ iters ∧ verdict ms)) := by
  unfold measureConvergence
  by_cases hm : ms = []
  · subst hm; simp [strictFailure]
  · rw [if_neg hm]
    refine ⟨by rw [Option.map_eq_none_iff]; exact (loop_spec ..).1, fun b hb => ?_⟩
    rw [Option.map_eq_some_iff] at hb
    obtain ⟨r, hr, rfl⟩ := hb
    obtain ⟨h1, h2, h3⟩ := (loop_spec iters maxIter ms {}).2 r hr
    simp only [true_and, Bool.false_eq_true, false_or] at h1 h2 h3
    rw [Bool.and_eq_true, Bool.or_eq_true, Bool.and_eq_true, h1, h2, Bool.not_eq_true',
      ← Bool.not_eq_true, h3, decide_eq_true_eq]
    simp [hm, verdict]

/-- **C11.** The window is complete after an iteration below max-iterations iff the documented rule
holds (and there is a measure and min-iterations is reached). -/
theorem C11_before_max (iters minIter maxIter : ℤ) (ms : List Ctx) (h : iters < maxIter) :
    ∃ b, hasConverged iters minIter maxIter ms = some b ∧
      (b = true ↔ ms ≠ [] ∧ minIter ≤ iters ∧ verdict ms) := by
  obtain ⟨h1, h2⟩ := C11_measureConvergence iters minIter maxIter ms
  cases hx : measureConvergence iters minIter maxIter ms with
  | none => exact absurd h (h1.mp hx).2
  | some b => exact ⟨b, by simp [hasConverged, hx, h.ne], h2 b hx⟩

/-- **C11.** At max-iterations the window is complete, unless a strict measure still fails: then the
simulation is aborted. -/
theorem C11_at_max (iters minIter : ℤ) (ms : List Ctx) :
    (strictFailure ms → hasConverged iters minIter iters ms = none) ∧
    (¬ strictFailure ms → hasConverged iters minIter iters ms = some true) := by
  obtain ⟨h1, _⟩ := C11_measureConvergence iters minIter iters ms
  unfold hasConverged
  refine ⟨fun hs => by rw [h1.mpr ⟨hs, lt_irrefl _⟩]; rfl, fun hs => ?_⟩
  · cases hx : measureConvergence iters minIter iters ms with
    | none => exact absurd (h1.mp hx).1 hs
    | some b => simp

/-- **C11.** Without max-iterations (encoded as -2) and without strict measures the rule decides
alone. -/
theorem C11_infinite (iters minIter : ℤ) (hi : 0 < iters) (ms : List Ctx)
    (hs : ∀ m ∈ ms, m.strict = false) :
    ∃ b, hasConverged iters minIter (-2) ms = some b ∧
      (b = true ↔ ms ≠ [] ∧ minIter ≤ iters ∧ verdict ms) := by
  obtain ⟨h1, h2⟩ := C11_measureConvergence iters minIter (-2) ms
  cases hx : measureConvergence iters minIter (-2) ms with
  | none =>
    obtain ⟨⟨m, hm, hst, _⟩, _⟩ := h1.mp hx
    rw [hs m hm] at hst; cases hst
  | some b => exact ⟨b, by simp [hasConverged, hx, show iters ≠ -2 by omega], h2 b hx⟩

/-- **C11, disagreement.** With a strict measure and no max-iterations configured (which the
configuration accepts) the first non-converged iteration aborts the simulation, although no
maximum has been reached. -/
theorem C11_strict_infinite_aborts :
    hasConverged 1 1 (-2) [⟨false, true, false⟩] = none := by decide

/-- The raw integer used by the code for the optional maximum of the scheme model. -/
def rawMax (o : Option ℕ) : ℤ := match o with | none => -2 | some n => n

/-- The scheme model (`Verif.doImplicitStep`) takes the outcome of the measures as a Boolean; this is
the connection: with that Boolean set to the documented verdict it computes `hasConverged`. -/
theorem doImplicitStep_converged {D : Type} (c : Config) (all : Bool) (i : StepIn D) (s : State D)
    (ms : List Ctx) (hv : i.verdict = true ↔ ms ≠ [] ∧ verdict ms) (b : Bool)
    (hb : hasConverged s.iters c.minIter (rawMax c.maxIter) ms = some b) :
    (doImplicitStep c all i s).converged = b := by
  unfold hasConverged at hb
  rw [Option.map_eq_some_iff] at hb
  obtain ⟨b', h1, rfl⟩ := hb
  have h2 := (C11_measureConvergence s.iters c.minIter (rawMax c.maxIter) ms).2 b' h1
  unfold doImplicitStep
  have hmax : c.maxIter = some s.iters ↔ (s.iters : ℤ) = rawMax c.maxIter := by
    unfold rawMax
    cases c.maxIter with
    | none => simp
    | some n => simp [eq_comm]
  by_cases hx : c.maxIter = some s.iters
  · simp [hx, rawMax]
  · have hx' : ¬ (s.iters : ℤ) = rawMax c.maxIter := fun h => hx (hmax.mpr h)
    simp only [if_neg hx, if_neg hx']
    rw [Bool.eq_iff_iff, h2, Bool.and_eq_true, hv, decide_eq_true_eq]
    constructor
    · rintro ⟨⟨a, b⟩, c⟩; exact ⟨a, by exact_mod_cast c, b⟩
    · rintro ⟨a, b, c⟩; exact ⟨⟨a, c⟩, by exact_mod_cast b⟩

-- one sufficient measure holds, a non-strict one fails: converged; with a strict failure: not
example : hasConverged 2 1 5 [⟨true, false, true⟩, ⟨false, false, false⟩] = some true := by decide
example : hasConverged 2 1 5 [⟨true, false, true⟩, ⟨false, true, false⟩] = some false := by decide
example : hasConverged 2 3 5 [⟨true, false, true⟩] = some false := by decide
example : hasConverged 5 1 5 [⟨false, false, false⟩] = some true := by decide
example : hasConverged 5 1 5 [⟨false, true, false⟩] = none := by decide

/-! ## C80 -/

variable {n : ℕ}

theorem l2norm_nonneg (v : Fin n → ℝ) : 0 ≤ l2norm v := Real.sqrt_nonneg _

@[simp] theorem l2norm_zero : l2norm (0 : Fin n → ℝ) = 0 := by simp [l2norm]

theorem l2norm_smul (a : ℝ) (v : Fin n → ℝ) : l2norm (a • v) = |a| * l2norm v := by
  unfold l2norm
  rw [show (∑ i, (a • v) i ^ 2) = a ^ 2 * ∑ i, v i ^ 2 by
    rw [Finset.mul_sum]; exact Finset.sum_congr rfl fun i _ => by simp [mul_pow]]
  rw [Real.sqrt_mul (sq_nonneg a), Real.sqrt_sq_eq_abs]

theorem l2norm_eq_zero {v : Fin n → ℝ} : l2norm v = 0 ↔ v = 0 := by
  unfold l2norm
  rw [Real.sqrt_eq_zero (Finset.sum_nonneg fun i _ => sq_nonneg _),
    Finset.sum_eq_zero_iff_of_nonneg fun i _ => sq_nonneg _]
  constructor
  · intro h; funext i; simpa using h i (Finset.mem_univ i)
  · rintro rfl; simp

/-- **C80.** The absolute measure holds iff the sum of squared changes is at most the squared limit. -/
theorem C80_absolute (m : M) {lim : ℝ} (hk : m.kind = .absolute lim) (hl : 0 ≤ lim)
    (old new : Fin n → ℝ) :
    (measure m old new).conv = true ↔ ∑ i, (new i - old i) ^ 2 ≤ lim ^ 2 := by
  simp only [measure, hk, decide_eq_true_eq, l2norm, Pi.sub_apply]
  rw [Real.sqrt_le_left hl]

/-- **C80.** The relative measure holds iff the sum of squared changes is at most the squared relative
limit times the sum of squared new values. -/
theorem C80_relative (m : M) {rel : ℝ} (hk : m.kind = .relative rel) (hl : 0 ≤ rel)
    (old new : Fin n → ℝ) :
    (measure m old new).conv = true ↔
      ∑ i, (new i - old i) ^ 2 ≤ rel ^ 2 * ∑ i, new i ^ 2 := by
  have h0 : 0 ≤ l2norm new * rel := mul_nonneg (l2norm_nonneg _) hl
  simp only [measure, hk, decide_eq_true_eq]
  rw [show l2norm (new - old) = Real.sqrt (∑ i, (new i - old i) ^ 2) from rfl, Real.sqrt_le_left h0,
    mul_pow, l2norm, Real.sq_sqrt (Finset.sum_nonneg fun i _ => sq_nonneg _), mul_comm]

/-- **C80.** Absolute-or-relative is the disjunction of the two. -/
theorem C80_abs_or_rel (m : M) {lim rel : ℝ} (hk : m.kind = .absOrRel lim rel)
    (old new : Fin n → ℝ) :
    (measure m old new).conv = true ↔
      (measure { m with kind := .absolute lim } old new).conv = true ∨
      (measure { m with kind := .relative rel } old new).conv = true := by
  simp only [measure, hk, Bool.or_eq_true, or_comm]

/-- **C80.** Identical successive iterates satisfy the absolute, relative and combined measures. -/
theorem C80_identical (m : M) (v : Fin n → ℝ)
    (hk : ∀ rel, m.kind ≠ .residual rel)
    (hl : match m.kind with
      | .absolute l => 0 ≤ l | .absOrRel l _ => 0 ≤ l | .relative r => 0 ≤ r | .residual _ => True) :
    (measure m v v).conv = true := by
  unfold measure
  cases h : m.kind with
  | absolute l => simpa [h] using hl
  | absOrRel l r => rw [h] at hl; simp; right; exact hl
  | relative r => rw [h] at hl; simp; exact mul_nonneg (l2norm_nonneg _) hl
  | residual r => exact absurd h (hk r)

/-- **C80.** The relative verdict does not change if all data is scaled. -/
theorem C80_relative_scaling (m : M) {rel : ℝ} (hk : m.kind = .relative rel) {a : ℝ} (ha : a ≠ 0)
    (old new : Fin n → ℝ) : (measure m (a • old) (a • new)).conv = (measure m old new).conv := by
  have h : 0 < |a| := abs_pos.mpr ha
  simp only [measure, hk, ← smul_sub, l2norm_smul, mul_assoc, decide_eq_decide]
  exact mul_le_mul_iff_right₀ h

/-- The verdicts of a measurement series over the pairs of successive iterates. -/
noncomputable def series : M → List ((Fin n → ℝ) × (Fin n → ℝ)) → List Bool
  | _, [] => []
  | m, p :: ps => (measure m p.1 p.2).conv :: series (measure m p.1 p.2) ps

theorem series_residual {rel : ℝ} (m : M) (hk : m.kind = .residual rel) (f : ℝ)
    (hf : m.first = some f) (ps : List ((Fin n → ℝ) × (Fin n → ℝ))) :
    series m ps = ps.map fun p => open Classical in decide (l2norm (p.2 - p.1) < f * rel) := by
  induction ps generalizing m with
  | nil => rfl
  | cons p ps ih =>
    unfold series
    rw [ih _ (by simp [measure, hk]) (by simp [measure, hk, hf])]
    simp [measure, hk, hf]

open Classical in
/-- **C80.** In every measurement series the residual-relative measure compares each change with the
first change of that series, whatever happened in earlier series. -/
theorem C80_residual_series {rel : ℝ} (m : M) (hk : m.kind = .residual rel)
    (p : (Fin n → ℝ) × (Fin n → ℝ)) (ps : List ((Fin n → ℝ) × (Fin n → ℝ))) :
    series (newSeries m) (p :: ps) =
      (p :: ps).map fun q => decide (l2norm (q.2 - q.1) < l2norm (p.2 - p.1) * rel) := by
  have hk' : (newSeries m).kind = .residual rel := hk
  unfold series
  rw [series_residual (rel := rel) _ (by simp [measure, hk']) (l2norm (p.2 - p.1))
    (by simp [measure, newSeries, hk])]
  simp [measure, newSeries, hk]

/-- **C80.** Residual-relative verdicts of a series are invariant under scaling of all data. -/
theorem C80_residual_scaling {rel : ℝ} (m : M) (hk : m.kind = .residual rel) {a : ℝ} (ha : a ≠ 0)
    (ps : List ((Fin n → ℝ) × (Fin n → ℝ))) :
    series (newSeries m) (ps.map fun q => (a • q.1, a • q.2)) = series (newSeries m) ps := by
  cases ps with
  | nil => rfl
  | cons p ps =>
    have h : 0 < |a| := abs_pos.mpr ha
    rw [List.map_cons, C80_residual_series m hk, C80_residual_series m hk, ← List.map_cons
      (f := fun q : (Fin n → ℝ) × (Fin n → ℝ) => (a • q.1, a • q.2)), List.map_map]
    refine List.map_congr_left fun q _ => ?_
    simp only [Function.comp, ← smul_sub, l2norm_smul, mul_assoc, decide_eq_decide]
    exact mul_lt_mul_iff_right₀ h

/-- **C80.** The first iteration of a series never satisfies the residual-relative measure. -/
theorem C80_residual_first {rel : ℝ} (m : M) (hk : m.kind = .residual rel) (hr : rel ≤ 1)
    (old new : Fin n → ℝ) : (measure (newSeries m) old new).conv = false := by
  simp only [measure, newSeries, hk, Option.getD_none, decide_eq_false_iff_not, not_lt]
  exact mul_le_of_le_one_right (l2norm_nonneg _) hr

/-- **C80, disagreement.** If the first iterate of a window does not change the data at all, the
residual-relative measure can never hold in that window: a solution that is already converged
iterates until max-iterations. -/
theorem C80_residual_never_if_first_zero {rel : ℝ} (m : M) (hk : m.kind = .residual rel)
    (v : Fin n → ℝ) (ps : List ((Fin n → ℝ) × (Fin n → ℝ))) :
    ∀ b ∈ series (newSeries m) ((v, v) :: ps), b = false := by
  rw [C80_residual_series m hk]
  intro b hb
  rw [List.mem_map] at hb
  obtain ⟨q, _, rfl⟩ := hb
  simpa using l2norm_nonneg _

-- non-trivial cases of the hypotheses
example : (measure (n := 2) ⟨.relative (1/2), false, none⟩ ![0, 4] ![0, 5]).conv = true := by
  rw [C80_relative _ rfl (by norm_num)]; simp [Fin.sum_univ_two]; norm_num
example : (measure (n := 2) ⟨.absolute 1, false, none⟩ ![0, 4] ![1, 5]).conv = false := by
  rw [← Bool.not_eq_true, C80_absolute _ rfl (by norm_num)]; simp [Fin.sum_univ_two]; norm_num
example : (measure (newSeries ⟨.residual (1/2), true, some 3⟩) ![(0:ℝ), 4] ![1, 5]).conv = false :=
  C80_residual_first _ rfl (by norm_num) _ _

end Verif.Measure
