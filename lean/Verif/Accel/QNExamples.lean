import Verif.Accel.QNAffine
import Mathlib.Data.Fin.VecNotation
import Mathlib.Tactic.FinCases
import Mathlib.Tactic.NormNum

/-!
# Histories in which the least-squares system goes wrong (C73, C74, C75)
-/

set_option autoImplicit false
set_option linter.unusedSectionVars false

namespace Verif.Accel

open Finset

variable {ι κ : Type} [Fintype ι]

/-! ## Running the model -/

theorem QN.addColumn_pushed {c : QNConfig} {s : QN ι κ} {r : ι → ℝ} {x : κ → ℝ} {b : ℕ} {bs : List ℕ} {v : ι → ℝ} {q : QR ι} (hb : s.sys.blocks = b :: bs)
    (h : (b :: bs).sum ≠ c.maxUsed ∧ (b :: bs).sum ≤ Fintype.card ι) (hv : scaledCol s.weights (fun i => r i - s.oldResidual i) = v) (hq : s.qr.insertColumn 0 v 0 = some q) :
    s.addColumn c r x = some { s with sys := ⟨s.newV r :: s.sys.V, s.newW x :: s.sys.W, (b + 1) :: bs⟩, qr := q } := by
  unfold QN.addColumn
  simp only [hb]
  rw [if_pos h]
  simp only [incFront, Option.bind_eq_bind, Option.bind_some]
  unfold QN.pushQR
  have : s.qr.insertColumn 0 (scaledCol s.weights (s.newV r).val) 0 = some q := by
    rw [← hv] at hq; exact hq
  simp only [this]

theorem QN.addColumn_refused {c : QNConfig} {s : QN ι κ} {r : ι → ℝ} {x : κ → ℝ} {b : ℕ} {bs : List ℕ} {v : ι → ℝ} (hb : s.sys.blocks = b :: bs)
    (h : (b :: bs).sum ≠ c.maxUsed ∧ (b :: bs).sum ≤ Fintype.card ι) (hv : scaledCol s.weights (fun i => r i - s.oldResidual i) = v) (hq : s.qr.insertColumn 0 v 0 = none) :
    s.addColumn c r x = some { s with sys := ⟨s.newV r :: s.sys.V, s.newW x :: s.sys.W, (b + 1) :: bs⟩, needQR2 := true } := by
  unfold QN.addColumn
  simp only [hb]
  rw [if_pos h]
  simp only [incFront, Option.bind_eq_bind, Option.bind_some]
  unfold QN.pushQR
  have : s.qr.insertColumn 0 (scaledCol s.weights (s.newV r).val) 0 = none := by
    rw [← hv] at hq; exact hq
  simp only [this]

theorem QN.step_relax {c : QNConfig} {s : QN ι κ} {a : QNCall ι κ} (ha : a.conv = false) (h : s.firstIteration = true ∧ (s.firstWindow = true ∨ c.force = true)) :
    s.step c a = some { s with oldResidual := a.residual, oldXTilde := a.values, firstIteration := false, iteration := s.iteration + 1 } := by
  unfold QN.step QN.accelerate
  rw [if_neg (by simp [ha]), if_pos h]

theorem QN.updateDifferences_add {c : QNConfig} {s s1 : QN ι κ} {r : ι → ℝ} {x : κ → ℝ} (hfi : s.firstIteration = false) (hadd : s.addColumn c r x = some s1) :
    s.updateDifferences c r x = some { s1 with oldResidual := r, oldXTilde := x } := by
  unfold QN.updateDifferences
  rw [if_neg (by simp [hfi]), if_neg (by simp [hfi]), hadd]
  rfl

theorem QN.step_of_prepare {c : QNConfig} {s s1 : QN ι κ} {a : QNCall ι κ} (ha : a.conv = false) (hfi : s.firstIteration = false)
    (h : s.prepare c a.residual a.values a.weights a.newQR = some s1) (h1 : s1.firstIteration = false) : s.step c a = some { s1 with firstIteration := false, iteration := s1.iteration + 1 } := by
  unfold QN.step QN.accelerate
  rw [if_neg (by simp [ha]), if_neg (by simp [hfi]), h]
  simp only [Option.bind_eq_bind, Option.bind_some]
  unfold QN.pending
  rw [if_neg (by simp [h1])]

theorem QN.prepare_of {c : QNConfig} {s s1 : QN ι κ} {r : ι → ℝ} {x : κ → ℝ} {w : ι → ℝ} {n : Bool} (hfi : s.firstIteration = false) (hr : c.reused ≠ 0) (hadd : s.addColumn c r x = some s1) :
    s.prepare c r x w n = (QN.precondition c { s1 with oldResidual := r, oldXTilde := x } w n).bind fun s2 => (s2.applyFilter c).bind fun s3 =>
      if s3.qr.cols = s3.sys.blocks.sum then some s3 else none := by
  unfold QN.prepare
  rw [QN.updateDifferences_add hfi hadd]
  simp only [Option.bind_eq_bind, Option.bind_some]
  unfold QN.restore
  rw [if_neg (by simp [hr])]
  simp only [Option.bind_some]

theorem QN.precondition_unchanged {c : QNConfig} {s : QN ι κ} (h : s.newQR = false) : s.precondition c s.weights false = some s := by
  unfold QN.precondition
  simp [h]
  cases s
  simp_all

/-- `converged` without dropping a window. -/
theorem QN.step_converged {c : QNConfig} {s s1 : QN ι κ} {a : QNCall ι κ} {b : ℕ} {bs : List ℕ} (ha : a.conv = true) (hfi : s.firstIteration = false) (hr : c.reused ≠ 0)
    (hadd : s.addColumn c a.residual a.values = some s1) (h1 : s1.firstIteration = false) (hb : s1.sys.blocks = (b + 1) :: bs) (hl : (b :: bs).length ≤ c.reused) :
    s.step c a = some { s1 with sys := ⟨s1.sys.V, s1.sys.W, 0 :: (b + 1) :: bs⟩, oldResidual := a.residual, oldXTilde := a.values, firstWindow := false, weights := a.weights, newQR := s1.newQR || a.newQR, firstIteration := true, window := s1.window + 1, iteration := 0 } := by
  unfold QN.step QN.converged
  rw [if_pos (by simp [ha]), QN.updateDifferences_add hfi hadd]
  simp only [Option.bind_eq_bind, Option.bind_some, hb, popZero, h1, Bool.and_false]
  unfold QN.dropWindow
  rw [if_neg hr]
  simp only
  rw [if_neg (by simp at hl ⊢; omega)]
  rfl

/-! ## Vectors with three entries -/

/-- two directions -/
def dirD : Fin 3 → ℝ := ![1, 0, 0]

@[inherit_doc dirD]
def dirE : Fin 3 → ℝ := ![0, 1, 0]

theorem l2_smul_dirD (t : ℝ) (ht : 0 ≤ t) : l2 (fun i => t * dirD i) = t := by
  unfold l2 ip dirD
  rw [Fin.sum_univ_three]
  simp [ht]

theorem l2_smul_dirE (t : ℝ) (ht : 0 ≤ t) : l2 (fun i => t * dirE i) = t := by
  unfold l2 ip dirE
  rw [Fin.sum_univ_three]
  simp [ht]

theorem dblMin_lt {t : ℝ} (h : 1 / 1000 ≤ t) : dblMin < t := by
  unfold dblMin
  refine lt_of_lt_of_le ?_ h
  rw [div_lt_div_iff_of_pos_left one_pos (by positivity) (by norm_num)]
  calc (1000 : ℝ) < 2 ^ 10 := by norm_num
    _ ≤ 2 ^ 1022 := pow_le_pow_right₀ (by norm_num) (by norm_num)

/-- The first column is accepted if it is not tiny. -/
theorem insert_first {v : Fin 3 → ℝ} (hv : 1 / 1000 ≤ l2 v) : ∃ q, (QR.empty : QR (Fin 3)).insertColumn 0 v 0 = some q ∧ Factorizes q [v] := by
  have hne : (QR.empty : QR (Fin 3)).insertColumn 0 v 0 ≠ none := by
    rw [Ne, C79_insert_fails_iff factorizes_empty, show (QR.empty : QR (Fin 3)).cols = 0 from rfl, project_empty]
    rintro (h | h | h)
    · simp at h
    · exact absurd (dblMin_lt hv) (not_lt.2 h)
    · exact absurd h.1 (lt_irrefl _)
  obtain ⟨q, hq⟩ := Option.ne_none_iff_exists'.1 hne
  exact ⟨q, hq, by simpa using C79_insert factorizes_empty (Nat.zero_le _) hq⟩

/-- A second column is accepted if it is orthogonal to the first one and not tiny. -/
theorem insert_second {q : QR (Fin 3)} {u v : Fin 3 → ℝ} (h : Factorizes q [u]) (hu : l2 u ≠ 0) (huv : ip u v = 0) (hv : 1 / 1000 ≤ l2 v) {k : ℕ} (hk : k ≤ 1) :
    ∃ q', q.insertColumn k v 0 = some q' ∧ Factorizes q' ([u].insertIdx k v) := by
  have hc : q.cols = 1 := h.length.symm
  have hproj : q.project 1 v = v := by
    have h0 := abs_R_zero h (by simp)
    have hR : q.R 0 0 ≠ 0 := by
      intro hz
      rw [hz, abs_zero] at h0
      exact hu (by simpa using h0.symm)
    have hQ : ip (q.Q 0) v = 0 := by
      have hp : ∀ x, q.R 0 0 * q.Q 0 x = u x := fun x => by
        have := h.product 0 (by simp) x
        rw [hc] at this
        simpa using this
      have : q.R 0 0 * ip (q.Q 0) v = ip u v := by
        unfold ip
        rw [Finset.mul_sum]
        exact Finset.sum_congr rfl fun x _ => by rw [← hp x]; ring
      rw [huv] at this
      exact (mul_eq_zero.1 this).resolve_left hR
    funext x
    unfold QR.project
    simp [hQ]
  have hne : q.insertColumn k v 0 ≠ none := by
    rw [Ne, C79_insert_fails_iff h, hc, hproj]
    rintro (h | h | h)
    · simp at h
    · exact absurd (dblMin_lt hv) (not_lt.2 h)
    · exact absurd h.1 (lt_irrefl _)
  obtain ⟨q', hq⟩ := Option.ne_none_iff_exists'.1 hne
  exact ⟨q', hq, C79_insert h (by omega) hq⟩

theorem ip_smul_DE (s t : ℝ) : ip (fun i => s * dirD i) (fun i => t * dirE i) = 0 ∧ ip (fun i => s * dirE i) (fun i => t * dirD i) = 0 := by
  unfold ip dirD dirE
  rw [Fin.sum_univ_three, Fin.sum_univ_three]
  simp

theorem l2_dirD : l2 dirD = 1 := by simpa using l2_smul_dirD 1 (by norm_num)

theorem l2_dirE : l2 dirE = 1 := by simpa using l2_smul_dirE 1 (by norm_num)

theorem ip_DE : ip dirD dirE = 0 ∧ ip dirE dirD = 0 := by simpa using ip_smul_DE 1 1

/-! ## Identical data in two iterations with the filter QR3 -/

/-- A call with the given residual, constant values, and weights one. -/
def call (conv newQR : Bool) (r : ι → ℝ) : QNCall ι (Fin 1) := ⟨conv, r, fun _ => 0, fun _ => 1, newQR⟩

/-- C73 fails: with the filter QR3, identical residuals in the first two iterations lead to undefined behaviour: the new column is refused, and the check of the filter reads before the first
column of the empty factorisation. -/
theorem C73_qr3_undefined : ∃ (c : QNConfig) (s : QN (Fin 3) (Fin 1)) (a : QNCall (Fin 3) (Fin 1)), 0 < c.maxUsed ∧ c.filter = .qr3 ∧ QN.Reachable c s ∧ a.weights = s.weights ∧ s.step c a = none := by
  let c : QNConfig := ⟨.qr3, 1 / 100, 10, 1, true⟩
  let s0 : QN (Fin 3) (Fin 1) := QN.init fun _ => 1
  let a : QNCall (Fin 3) (Fin 1) := call false false fun _ => 1
  have h1 := QN.step_relax (c := c) (s := s0) (a := a) rfl ⟨rfl, Or.inl rfl⟩
  refine ⟨c, _, a, by norm_num, rfl, .step (.init _) (fun h => absurd rfl h) h1, rfl, ?_⟩
  set s1 : QN (Fin 3) (Fin 1) := { s0 with oldResidual := a.residual, oldXTilde := a.values, firstIteration := false, iteration := s0.iteration + 1 } with hs1
  have href : (QR.empty : QR (Fin 3)).insertColumn 0 (fun _ => 0) 0 = none := by
    rw [C79_insert_fails_iff factorizes_empty, show (QR.empty : QR (Fin 3)).cols = 0 from rfl, project_empty]
    refine Or.inr (Or.inl ?_)
    have : l2 (fun _ : Fin 3 => (0 : ℝ)) = 0 := by simp [l2, ip]
    rw [this]
    exact dblMin_pos.le
  have hadd := QN.addColumn_refused (c := c) (s := s1) (r := a.residual) (x := a.values) (b := 0) (bs := []) (v := fun _ => 0) rfl (by simp [c]) (by funext i; simp [scaledCol, hs1]) href
  unfold QN.step QN.accelerate
  rw [if_neg (by simp [a, call]), if_neg (by simp [hs1]), QN.prepare_of rfl (by simp [c]) hadd]
  have hpre := QN.precondition_unchanged (c := c) (s := { s1 with sys := ⟨s1.newV a.residual :: s1.sys.V, s1.newW a.values :: s1.sys.W, [0 + 1]⟩, needQR2 := true, oldResidual := a.residual, oldXTilde := a.values }) rfl
  have hpre' := hpre
  simp only [Option.bind_eq_bind]
  erw [hpre']
  simp only [Option.bind_some]
  unfold QN.applyFilter
  simp only [c, Option.bind_eq_bind]
  have : (QR.empty : QR (Fin 3)).needsQR2 (1 / 100) (scaled (fun _ => 1) (s1.newV a.residual :: s1.sys.V)) = none := by
    exact if_pos rfl
  erw [this]
  rfl

/-! ## Steps, observed by what matters for the histories below -/

/-- What is observed of a state. -/
structure QN.At (s : QN (Fin 3) (Fin 1)) (V : List (QNCol (Fin 3))) (bs : List ℕ) (q : QR (Fin 3)) (first : Bool) (r : Fin 3 → ℝ) (w it : ℕ) : Prop where
  V : s.sys.V = V
  blocks : s.sys.blocks = bs
  qr : s.qr = q
  weights : s.weights = fun _ => 1
  newQR : s.newQR = false
  first : s.firstIteration = first
  residual : s.oldResidual = r
  window : s.window = w
  iteration : s.iteration = it

theorem QN.at_init : QN.At (QN.init fun _ => 1) [] [0] QR.empty true (fun _ => 0) 0 0 := ⟨rfl, rfl, rfl, rfl, rfl, rfl, rfl, rfl, rfl⟩

theorem QN.At.relax {c : QNConfig} {s : QN (Fin 3) (Fin 1)} {V : List (QNCol (Fin 3))} {bs : List ℕ} {q : QR (Fin 3)} {r r' : Fin 3 → ℝ} {w it : ℕ} (h : s.At V bs q true r w it) (hf : c.force = true)
    (hr : QN.Reachable c s) : ∃ s', QN.Reachable c s' ∧ s'.At V bs q false r' w (it + 1) := by
  have hs := QN.step_relax (c := c) (s := s) (a := call false false r') rfl ⟨h.first, Or.inr hf⟩
  refine ⟨_, .step hr (fun hw => absurd h.weights.symm hw) hs, h.V, h.blocks, h.qr, h.weights, h.newQR, rfl, rfl, h.window, ?_⟩
  exact congrArg (· + 1) h.iteration

/-- The new column. -/
def newCol (r r' : Fin 3 → ℝ) (w it : ℕ) : QNCol (Fin 3) := ⟨(w, it), fun i => r' i - r i⟩

theorem QN.At.newV {s : QN (Fin 3) (Fin 1)} {V : List (QNCol (Fin 3))} {bs : List ℕ} {q : QR (Fin 3)} {r : Fin 3 → ℝ} {w it : ℕ} {f : Bool} (h : s.At V bs q f r w it) (r' : Fin 3 → ℝ) :
    s.newV r' = newCol r r' w it := by
  unfold QN.newV newCol
  rw [h.residual, h.window, h.iteration]

/-- The result of the insertion of a column into the factorisation. -/
def Pushed (q : QR (Fin 3)) (v : Fin 3 → ℝ) (q' : QR (Fin 3)) : Prop := q.insertColumn 0 v 0 = some q' ∨ q.insertColumn 0 v 0 = none ∧ q' = q

theorem QN.At.add {c : QNConfig} {s : QN (Fin 3) (Fin 1)} {V : List (QNCol (Fin 3))} {b : ℕ} {bs : List ℕ} {q q' : QR (Fin 3)} {r r' : Fin 3 → ℝ} {w it : ℕ} (h : s.At V (b :: bs) q false r w it)
    (hb : (b :: bs).sum ≠ c.maxUsed ∧ (b :: bs).sum ≤ 3) (hq : Pushed q (fun i => r' i - r i) q') (x : Fin 1 → ℝ) :
    ∃ s', s.addColumn c r' x = some s' ∧ s'.At (newCol r r' w it :: V) ((b + 1) :: bs) q' false r w it := by
  have hv : scaledCol s.weights (fun i => r' i - s.oldResidual i) = fun i => r' i - r i := by
    rw [h.weights, h.residual]
    funext i
    simp [scaledCol]
  rcases hq with hq | ⟨hq, rfl⟩
  · rw [← h.qr] at hq
    refine ⟨_, QN.addColumn_pushed h.blocks (by simpa using hb) hv hq, ?_, rfl, rfl, h.weights, h.newQR, h.first, h.residual, h.window, h.iteration⟩
    exact congrArg₂ List.cons (h.newV r') h.V
  · rw [← h.qr] at hq
    refine ⟨_, QN.addColumn_refused h.blocks (by simpa using hb) hv hq, ?_, rfl, h.qr, h.weights, h.newQR, h.first, h.residual, h.window, h.iteration⟩
    exact congrArg₂ List.cons (h.newV r') h.V

/-- An iteration that has not converged, up to the filter. -/
theorem QN.At.prepare {c : QNConfig} {s : QN (Fin 3) (Fin 1)} {V : List (QNCol (Fin 3))} {b : ℕ} {bs : List ℕ} {q q' : QR (Fin 3)} {r r' : Fin 3 → ℝ} {w it : ℕ} (h : s.At V (b :: bs) q false r w it)
    (hb : (b :: bs).sum ≠ c.maxUsed ∧ (b :: bs).sum ≤ 3) (hre : c.reused ≠ 0) (hq : Pushed q (fun i => r' i - r i) q') (x : Fin 1 → ℝ) :
    ∃ s' : QN (Fin 3) (Fin 1), s.prepare c r' x (fun _ => 1) false = ((s'.applyFilter c).bind fun s3 => if s3.qr.cols = s3.sys.blocks.sum then some s3 else none) ∧
      s'.At (newCol r r' w it :: V) ((b + 1) :: bs) q' false r' w it := by
  obtain ⟨s1, h1, a1⟩ := h.add hb hq x
  have hpre : QN.precondition c { s1 with oldResidual := r', oldXTilde := x } (fun _ => 1) false = some { s1 with oldResidual := r', oldXTilde := x } := by
    have := QN.precondition_unchanged (c := c) (s := { s1 with oldResidual := r', oldXTilde := x }) a1.newQR
    rw [← a1.weights]
    exact this
  refine ⟨{ s1 with oldResidual := r', oldXTilde := x }, ?_, a1.V, a1.blocks, a1.qr, a1.weights, a1.newQR, a1.first, rfl, a1.window, a1.iteration⟩
  rw [QN.prepare_of h.first hre h1, hpre]
  rfl

theorem QN.At.step {c : QNConfig} {s s1 : QN (Fin 3) (Fin 1)} {V V1 : List (QNCol (Fin 3))} {bs bs1 : List ℕ} {q q1 : QR (Fin 3)} {r r' : Fin 3 → ℝ} {w it : ℕ} (h : s.At V bs q false r w it)
    (hr : QN.Reachable c s) (hp : s.prepare c r' (fun _ => 0) (fun _ => 1) false = some s1) (h1 : s1.At V1 bs1 q1 false r' w it) :
    ∃ s', QN.Reachable c s' ∧ s'.At V1 bs1 q1 false r' w (it + 1) := by
  have hs := QN.step_of_prepare (c := c) (s := s) (a := call false false r') rfl h.first hp h1.first
  refine ⟨_, .step hr (fun hw => absurd h.weights.symm hw) hs, h1.V, h1.blocks, h1.qr, h1.weights, h1.newQR, rfl, h1.residual, h1.window, ?_⟩
  exact congrArg (· + 1) h1.iteration

/-- An iteration without filter. -/
theorem QN.At.push {c : QNConfig} {s : QN (Fin 3) (Fin 1)} {V : List (QNCol (Fin 3))} {b : ℕ} {bs : List ℕ} {q q' : QR (Fin 3)} {r r' : Fin 3 → ℝ} {w it : ℕ} (h : s.At V (b :: bs) q false r w it)
    (hr : QN.Reachable c s) (hb : (b :: bs).sum ≠ c.maxUsed ∧ (b :: bs).sum ≤ 3) (hre : c.reused ≠ 0) (hf : c.filter = .none) (hq : Pushed q (fun i => r' i - r i) q')
    (hc : q'.cols = ((b + 1) :: bs).sum) : ∃ s', QN.Reachable c s' ∧ s'.At (newCol r r' w it :: V) ((b + 1) :: bs) q' false r' w (it + 1) := by
  obtain ⟨s1, h1, a1⟩ := h.prepare hb hre hq fun _ => 0
  refine h.step hr ?_ a1
  rw [h1]
  unfold QN.applyFilter
  rw [hf]
  simp only [Option.bind_some]
  rw [if_pos (by rw [a1.qr, a1.blocks, hc])]

/-- The last iteration of a window. -/
theorem QN.At.converge {c : QNConfig} {s : QN (Fin 3) (Fin 1)} {V : List (QNCol (Fin 3))} {b : ℕ} {bs : List ℕ} {q q' : QR (Fin 3)} {r r' : Fin 3 → ℝ} {w it : ℕ} (h : s.At V (b :: bs) q false r w it)
    (hr : QN.Reachable c s) (hb : (b :: bs).sum ≠ c.maxUsed ∧ (b :: bs).sum ≤ 3) (hre : (b :: bs).length ≤ c.reused) (hq : Pushed q (fun i => r' i - r i) q') :
    ∃ s', QN.Reachable c s' ∧ s'.At (newCol r r' w it :: V) (0 :: (b + 1) :: bs) q' true r' (w + 1) 0 := by
  obtain ⟨s1, h1, a1⟩ := h.add hb hq fun _ => 0
  have hs := QN.step_converged (c := c) (s := s) (a := call true false r') rfl h.first (by simp at hre; omega) h1 a1.first a1.blocks hre
  refine ⟨_, .step hr (fun hw => absurd h.weights.symm hw) hs, a1.V, rfl, a1.qr, rfl, ?_, rfl, rfl, ?_, rfl⟩
  · show (s1.newQR || false) = false
    rw [a1.newQR]
    rfl
  · exact congrArg (· + 1) a1.window

/-! ## A dependent column without filter -/

theorem l2_zero : l2 (fun _ : ι => (0 : ℝ)) = 0 := by simp [l2, ip]

theorem refuse_dependent {q : QR ι} {A : List (ι → ℝ)} (h : Factorizes q A) {v : ι → ℝ} (hv : v ∈ A) (k : ℕ) : q.insertColumn k v 0 = none := by
  rw [C79_insert_fails_iff h]
  refine Or.inr (Or.inl ?_)
  rw [mem_span_project h (Submodule.subset_span hv), l2_zero]
  exact dblMin_pos.le

/-- C73 fails: without filter, an iteration whose difference is the same as that of the previous one violates an assertion: the column is stored although the factorisation does not take it. -/
theorem C73_dependent_column : ∃ (c : QNConfig) (s : QN (Fin 3) (Fin 1)) (a : QNCall (Fin 3) (Fin 1)), c.filter = .none ∧ QN.Reachable c s ∧ a.weights = s.weights ∧ s.step c a = none := by
  let c : QNConfig := ⟨.none, 0, 10, 1, true⟩
  obtain ⟨s1, r1, a1⟩ := QN.at_init.relax (c := c) (r' := fun _ => 0) rfl (.init _)
  obtain ⟨q1, i1, f1⟩ := insert_first (v := dirD) (by rw [l2_dirD]; norm_num)
  obtain ⟨s2, r2, a2⟩ := a1.push (r' := dirD) r1 (by simp [c]) (by simp [c]) rfl (q' := q1) (Or.inl (by simpa using i1)) (by rw [← f1.length]; simp)
  refine ⟨c, s2, call false false fun i => 2 * dirD i, rfl, r2, a2.weights.symm, ?_⟩
  have hq : Pushed q1 (fun i => 2 * dirD i - dirD i) q1 := by
    refine Or.inr ⟨refuse_dependent f1 ?_ 0, rfl⟩
    rw [List.mem_singleton]
    funext i
    ring
  obtain ⟨s3, h3, a3⟩ := a2.prepare (c := c) (by simp [c]) (by simp [c]) hq fun _ => 0
  unfold QN.step QN.accelerate
  rw [if_neg (by simp [call]), if_neg (by simp [a2.first])]
  show (s2.prepare c (fun i => 2 * dirD i) (fun _ => 0) (fun _ => 1) false).bind _ = none
  rw [h3]
  unfold QN.applyFilter
  simp only [c, Option.bind_some]
  rw [if_neg]
  · rfl
  · rw [a3.qr, a3.blocks, ← f1.length]
    simp

/-! ## A reset that refuses two columns -/

theorem reset_ddde : ∃ q : QR (Fin 3), QR.reset [dirD, dirD, dirD, dirE] = (q, [1, 2]) ∧ Factorizes q [dirD, dirE] := by
  obtain ⟨q1, i1, f1⟩ := insert_first (v := dirD) (by rw [l2_dirD]; norm_num)
  obtain ⟨q2, i2, f2⟩ := insert_second f1 (by rw [l2_dirD]; norm_num) ip_DE.1 (by rw [l2_dirE]; norm_num) (k := 1) (by omega)
  have hn : q1.insertColumn 1 dirD 0 = none := refuse_dependent f1 (by simp) 1
  refine ⟨q2, ?_, by simpa using f2⟩
  unfold QR.reset
  simp only [QR.resetLoop, i1, hn, i2, zero_add, Nat.reduceAdd]

/-- Vectors in the columns of the factors are determined by them. -/
theorem Factorizes.unique {q : QR ι} {A B : List (ι → ℝ)} (hA : Factorizes q A) (hB : Factorizes q B) : A = B := by
  refine List.ext_getElem (hA.length.trans hB.length.symm) fun j h1 h2 => funext fun x => ?_
  rw [← hA.product j h1 x, ← hB.product j h2 x]

/-- C75 fails without filter: a new factorisation (because the preconditioner has changed its weights) may refuse two columns. They are removed from the matrices in ascending order, so that the
second removal takes the wrong column. The update is then computed with a factorisation of other columns than those it is applied to; no assertion notices it. Here the matrix contains the difference
`dirD` twice, the factorisation is one of `dirD` and `dirE`. -/
theorem C75_reset_mismatch : ∃ (c : QNConfig) (s s' : QN (Fin 3) (Fin 1)) (r : Fin 3 → ℝ) (x : Fin 1 → ℝ), c.filter = .none ∧ QN.Reachable c s ∧ s.firstIteration = false ∧
    s.prepare c r x (fun _ => 1) true = some s' ∧ s'.sys.V.map QNCol.val = [dirD, dirD] ∧ Factorizes s'.qr [dirD, dirE] ∧ ¬ Factorizes s'.qr (scaled (fun _ => 1) s'.sys.V) := by
  let c : QNConfig := ⟨.none, 0, 10, 1, true⟩
  obtain ⟨s1, r1, a1⟩ := QN.at_init.relax (c := c) (r' := fun _ => 0) rfl (.init _)
  obtain ⟨q1, i1, f1⟩ := insert_first (v := dirE) (by rw [l2_dirE]; norm_num)
  obtain ⟨s2, r2, a2⟩ := a1.push (r' := dirE) r1 (by simp [c]) (by simp [c]) rfl (q' := q1) (Or.inl (by simpa using i1)) (by rw [← f1.length]; simp)
  obtain ⟨q2, i2, f2⟩ := insert_second f1 (by rw [l2_dirE]; norm_num) ip_DE.2 (by rw [l2_dirD]; norm_num) (k := 0) (by omega)
  obtain ⟨s3, r3, a3⟩ := a2.push (r' := fun i => dirE i + dirD i) r2 (by simp [c]) (by simp [c]) rfl (q' := q2) (Or.inl (by simpa using i2)) (by rw [← f2.length]; simp)
  have href : ∀ v, v = dirD → Pushed q2 v q2 := fun v hv => Or.inr ⟨refuse_dependent f2 (by simp [hv]) 0, rfl⟩
  obtain ⟨s4, r4, a4⟩ := a3.converge (r' := fun i => dirE i + 2 * dirD i) r3 (by simp [c]) (by simp [c]) (href _ (funext fun i => by ring))
  obtain ⟨s5, r5, a5⟩ := a4.relax (r' := fun _ => 0) rfl r4
  obtain ⟨s6, h6, a6⟩ := QN.At.add (c := c) (r' := dirD) a5 (by simp [c]) (href _ (funext fun i => by simp)) fun _ => 0
  obtain ⟨q, hq, fq⟩ := reset_ddde
  have hsc : scaled (fun _ => (1 : ℝ)) s6.sys.V = [dirD, dirD, dirD, dirE] := by
    rw [a6.V]
    simp only [scaled, List.map_cons, List.map_nil, newCol, List.cons.injEq, and_true]
    exact ⟨funext fun i => by simp [scaledCol], funext fun i => by simp only [scaledCol]; ring, funext fun i => by simp [scaledCol], funext fun i => by simp [scaledCol]⟩
  let s7 : QN (Fin 3) (Fin 1) := { s6 with oldResidual := dirD, oldXTilde := fun _ => 0, weights := fun _ => 1, newQR := true }
  let m : QNSystem (Fin 3) (Fin 1) := ⟨(s6.sys.V.eraseIdx 1).eraseIdx 2, (s6.sys.W.eraseIdx 1).eraseIdx 2, [1, 1]⟩
  have hrem : s7.sys.removeColumns [1, 2] = some m := by
    show [1, 2].foldlM QNSystem.removeColumn s6.sys = some m
    simp only [List.foldlM_cons, List.foldlM_nil, QNSystem.removeColumn, a6.V, a6.blocks, m]
    simp [decBlock]
  have hreset : s7.reset = some { s7 with qr := q, sys := m, needQR2 := true } := by
    unfold QN.reset
    have : QR.reset (scaled s7.weights s7.sys.V) = (q, [1, 2]) := by
      rw [← hq, ← hsc]
    rw [this]
    simp only [Option.bind_eq_bind, hrem, Option.bind_some]
    rw [if_pos]
    · simp
    · rw [← fq.length]
      simp [m, a6.V]
  have hpre : QN.precondition c { s6 with oldResidual := dirD, oldXTilde := fun _ => 0 } (fun _ => 1) true = some { s7 with qr := q, sys := m, needQR2 := true, newQR := false } := by
    have e : QN.precondition c { s6 with oldResidual := dirD, oldXTilde := fun _ => 0 } (fun _ => 1) true = (s7.newFactors c).map fun s => { s with needQR2 := s.needQR2 || decide (c.filter = .qr3), newQR := false } := by
      unfold QN.precondition
      simp only [Bool.or_true, if_true]
      rfl
    rw [e]
    unfold QN.newFactors
    rw [if_neg (by simp [c]), hreset]
    rfl
  have hV : m.V.map QNCol.val = [dirD, dirD] := by
    simp only [m, a6.V, newCol, List.eraseIdx_cons_succ, List.eraseIdx_cons_zero, List.map_cons, List.map_nil, List.cons.injEq, and_true]
    exact ⟨funext fun i => by simp, funext fun i => by ring⟩
  refine ⟨c, s5, { s7 with qr := q, sys := m, needQR2 := true, newQR := false }, dirD, fun _ => 0, rfl, r5, a5.first, ?_, hV, fq, ?_⟩
  · rw [QN.prepare_of a5.first (by simp [c]) h6, hpre]
    simp only [Option.bind_some, QN.applyFilter, c]
    rw [if_pos]
    rw [← fq.length]
    rfl
  · intro hf
    have hu := hf.unique fq
    have : scaled (fun _ => (1 : ℝ)) m.V = m.V.map QNCol.val := by
      unfold scaled
      refine List.map_congr_left fun v _ => funext fun i => ?_
      simp [scaledCol]
    rw [show scaled (fun _ => (1 : ℝ)) _ = _ from this, hV] at hu
    have := congrFun (List.cons.inj (List.cons.inj hu).2).1 0
    simp [dirD, dirE] at this

/-! ## A filter that removes the only column of a window -/

/-- A short vector. -/
noncomputable def shortE : Fin 3 → ℝ := fun i => 1 / 1000 * dirE i

theorem l2_shortE : l2 shortE = 1 / 1000 := l2_smul_dirE _ (by norm_num)

theorem ip_D_shortE : ip dirD shortE = 0 := by
  have := (ip_smul_DE 1 (1 / 1000)).1
  simp only [one_mul] at this
  exact this

theorem ip_self_of_l2 {v : ι → ℝ} {t : ℝ} (h : l2 v = t) : ip v v = t ^ 2 := by
  rw [← h, l2, Real.sq_sqrt (ip_self_nonneg v)]

/-- The filter QR1 deletes the first column if it is much shorter than the second one. -/
theorem filter_short {q : QR (Fin 3)} (h : Factorizes q [shortE, dirD]) : q.filter1 false (1 / 100) = (q.deleteColumn 0, [0]) ∧ Factorizes (q.deleteColumn 0) [dirD] := by
  have hc : q.cols = 2 := h.length.symm
  have hd : Factorizes (q.deleteColumn 0) [dirD] := by simpa using C79_delete h (k := 0) (by omega)
  have hdc : (q.deleteColumn 0).cols = 1 := hd.length.symm
  have ht : |q.R 0 0| < q.threshold false (1 / 100) := by
    rw [abs_R_zero h (by simp)]
    unfold QR.threshold
    rw [normR_sq h]
    simp only [List.getElem_cons_zero, List.map_cons, List.map_nil, List.sum_cons, List.sum_nil, l2_shortE, ip_self_of_l2 l2_shortE, ip_self_of_l2 l2_dirD]
    have : (1 : ℝ) ≤ √((1 / 1000) ^ 2 + (1 ^ 2 + 0)) := by
      rw [Real.one_le_sqrt]
      norm_num
    simp only [Bool.false_eq_true, if_false]
    linarith
  have ht' : ¬ |(q.deleteColumn 0).R 0 0| < (q.deleteColumn 0).threshold false (1 / 100) := by
    rw [abs_R_zero hd (by simp)]
    unfold QR.threshold
    rw [normR_sq hd]
    simp only [List.getElem_cons_zero, List.map_cons, List.map_nil, List.sum_cons, List.sum_nil, l2_dirD, ip_self_of_l2 l2_dirD]
    norm_num
  have hp : QR.filterPass false (1 / 100) [0, 1] 0 q [] = (q.deleteColumn 0, [0]) := by
    rw [QR.filterPass, if_neg (by simp), if_neg (by omega), if_pos ht, QR.filterPass, if_neg (by simp), if_neg (by omega), if_neg ht', QR.filterPass]
    rfl
  have hl : QR.filterLoop false (1 / 100) 2 3 q [] = (q.deleteColumn 0, [0]) := by
    rw [QR.filterLoop, if_pos (by omega)]
    simp only [show List.range 2 = [0, 1] from rfl, hp]
    rw [if_neg (by simp), QR.filterLoop, if_neg (by omega)]
  refine ⟨?_, hd⟩
  unfold QR.filter1
  rw [hc]
  simp only [Nat.reduceAdd, hl]
  rfl

/-- C74 fails with the filter QR1: if it removes the only column of the current time window, later columns of this window are counted to the previous window. Here, with `time-windows-reused` 1, the
columns of two earlier windows are kept at the beginning of the third one. -/
theorem C74_wrong_window : ∃ (c : QNConfig) (s : QN (Fin 3) (Fin 1)), c.filter = .qr1 false ∧ c.reused = 1 ∧ QN.Reachable c s ∧ s.window = 2 ∧ s.sys.V.map (fun v => v.tag.1) = [1, 0] := by
  let c : QNConfig := ⟨.qr1 false, 1 / 100, 10, 1, true⟩
  obtain ⟨s1, r1, a1⟩ := QN.at_init.relax (c := c) (r' := fun _ => 0) rfl (.init _)
  obtain ⟨q1, i1, f1⟩ := insert_first (v := dirD) (by rw [l2_dirD]; norm_num)
  obtain ⟨s2, r2, a2⟩ := a1.converge (r' := dirD) r1 (by simp [c]) (by simp [c]) (q' := q1) (Or.inl (by simpa using i1))
  obtain ⟨s3, r3, a3⟩ := a2.relax (r' := fun _ => 0) rfl r2
  obtain ⟨q2, i2, f2⟩ := insert_second f1 (by rw [l2_dirD]; norm_num) ip_D_shortE (by rw [l2_shortE]) (k := 0) (by omega)
  obtain ⟨hq2, f3⟩ := filter_short (by simpa using f2)
  obtain ⟨s4, h4, a4⟩ := a3.prepare (c := c) (r' := shortE) (q' := q2) (by simp [c]) (by simp [c]) (Or.inl (by simpa using i2)) fun _ => 0
  let s5 : QN (Fin 3) (Fin 1) := { s4 with qr := q2.deleteColumn 0, sys := ⟨s4.sys.V.eraseIdx 0, s4.sys.W.eraseIdx 0, [1]⟩ }
  have hfil : s4.applyFilter c = some s5 := by
    unfold QN.applyFilter
    simp only [c, a4.qr, hq2, List.reverse_singleton, Option.bind_eq_bind]
    have : s4.sys.removeColumns [0] = some s5.sys := by
      show [0].foldlM QNSystem.removeColumn s4.sys = some s5.sys
      simp only [List.foldlM_cons, List.foldlM_nil, QNSystem.removeColumn, a4.V, a4.blocks, s5]
      simp [decBlock]
    rw [this]
    simp only [Option.bind_some]
    rw [if_pos]
    rw [← f3.length]
    simp [s5, a4.V]
  have hp : s3.prepare c shortE (fun _ => 0) (fun _ => 1) false = some s5 := by
    rw [h4, hfil]
    simp only [Option.bind_some]
    rw [if_pos]
    rw [show s5.qr = q2.deleteColumn 0 from rfl, ← f3.length]
    rfl
  have a5 : s5.At [newCol (fun _ => 0) dirD 0 (0 + 1)] [0 + 1] (q2.deleteColumn 0) false shortE (0 + 1) (0 + 1) :=
    ⟨by simp [s5, a4.V], rfl, rfl, a4.weights, a4.newQR, a4.first, a4.residual, a4.window, a4.iteration⟩
  obtain ⟨s6, r6, a6⟩ := a3.step r3 hp a5
  obtain ⟨q3, i3, -⟩ := insert_second f3 (by rw [l2_dirD]; norm_num) ip_DE.1 (by rw [l2_dirE]; norm_num) (k := 0) (by omega)
  obtain ⟨s7, r7, a7⟩ := a6.converge (r' := fun i => shortE i + dirE i) r6 (by simp [c]) (by simp [c]) (q' := q3) (Or.inl (by simpa using i3))
  exact ⟨c, s7, rfl, rfl, r7, a7.window, by rw [a7.V]; rfl⟩

/-! ## The theorems apply to a run with one primary and one secondary value -/

/-- `x ↦ (x / 2 + 1, 3 x)`; the first component is the primary value. -/
noncomputable def halfProblem : AffineProblem (Fin 1) (Fin 2) := ⟨fun k _ => ![1 / 2, 3] k, ![1, 0], fun _ => 0⟩

theorem halfProblem_residual (t : ℝ) : halfProblem.residual (fun _ => t) = fun _ => 1 - t / 2 := by
  funext i
  simp [halfProblem, AffineProblem.residual, AffineProblem.apply]
  ring

theorem insert_one {v : Fin 1 → ℝ} {limit : ℝ} (hv : 1 / 1000 ≤ l2 v) (hl : limit ≤ 1) : ∃ q, (QR.empty : QR (Fin 1)).insertColumn 0 v limit = some q ∧ Factorizes q [v] := by
  have hne : (QR.empty : QR (Fin 1)).insertColumn 0 v limit ≠ none := by
    rw [Ne, C79_insert_fails_iff factorizes_empty, show (QR.empty : QR (Fin 1)).cols = 0 from rfl, project_empty]
    rintro (h | h | h)
    · simp at h
    · exact absurd (dblMin_lt hv) (not_lt.2 h)
    · nlinarith [h.2, Real.sqrt_nonneg (ip v v), show l2 v = √(ip v v) from rfl]
  obtain ⟨q, hq⟩ := Option.ne_none_iff_exists'.1 hne
  exact ⟨q, hq, by simpa using C79_insert factorizes_empty (Nat.zero_le _) hq⟩

/-- The hypotheses of `C73_update`, `C75_exact`, `C92_fixed_point` and `C92_enough_columns` hold in the second iteration: the run relaxes with `x = 0`, and gets `x = 1` next. -/
theorem half_run : ∃ (c : QNConfig) (s s' : QN (Fin 1) (Fin 2)), c.filter = .qr2 ∧ QN.AffineReachable halfProblem c s ∧ s.firstIteration = false ∧ s.weights = (fun _ => 1) ∧ 
    s.prepare c (halfProblem.residual fun _ => 1) (halfProblem.apply fun _ => 1) (fun _ => 1) false = some s' ∧ s'.sys.V.length = 1 := by
  let c : QNConfig := ⟨.qr2, 1 / 100, 10, 1, false⟩
  let s0 : QN (Fin 1) (Fin 2) := QN.init fun _ => 1
  let a : QNCall (Fin 1) (Fin 2) := ⟨false, halfProblem.residual fun _ => 0, halfProblem.apply fun _ => 0, fun _ => 1, false⟩
  have h1 := QN.step_relax (c := c) (s := s0) (a := a) rfl ⟨rfl, Or.inl rfl⟩
  set s1 : QN (Fin 1) (Fin 2) := { s0 with oldResidual := a.residual, oldXTilde := a.values, firstIteration := false, iteration := s0.iteration + 1 } with hs1
  have hv : scaledCol s1.weights (fun i => halfProblem.residual (fun _ => 1) i - s1.oldResidual i) = fun _ => -(1 / 2) := by
    have e : s1.oldResidual = halfProblem.residual fun _ => 0 := rfl
    have ew : s1.weights = fun _ => 1 := rfl
    rw [e, ew, halfProblem_residual, halfProblem_residual]
    funext i
    simp [scaledCol]
  have hl : (1 : ℝ) / 1000 ≤ l2 (fun _ : Fin 1 => (-(1 / 2) : ℝ)) := by
    have : l2 (fun _ : Fin 1 => (-(1 / 2) : ℝ)) = 1 / 2 := by
      unfold l2 ip
      rw [Fin.sum_univ_one, Real.sqrt_mul_self_eq_abs]
      norm_num
    rw [this]
    norm_num
  obtain ⟨q, hq, fq⟩ := insert_one hl (limit := 0) (by norm_num)
  obtain ⟨q', hq', fq'⟩ := insert_one hl (limit := 1 / 100) (by norm_num)
  have hadd := QN.addColumn_pushed (c := c) (s := s1) (r := halfProblem.residual fun _ => 1) (x := halfProblem.apply fun _ => 1) (b := 0) (bs := []) rfl (by simp [c]) hv hq
  set s2 : QN (Fin 1) (Fin 2) := { s1 with sys := ⟨s1.newV (halfProblem.residual fun _ => 1) :: s1.sys.V, s1.newW (halfProblem.apply fun _ => 1) :: s1.sys.W, [0 + 1]⟩, qr := q } with hs2
  let s3 : QN (Fin 1) (Fin 2) := { s2 with oldResidual := halfProblem.residual fun _ => 1, oldXTilde := halfProblem.apply fun _ => 1 }
  have hpre : s3.precondition c (fun _ => 1) false = some s3 := QN.precondition_unchanged (c := c) (s := s3) rfl
  have hf : s3.applyFilter c = some { s3 with qr := q' } := by
    unfold QN.applyFilter
    simp only [c]
    unfold QN.filterRebuild
    have : QR.resetFilter (1 / 100) (scaled s3.weights s3.sys.V) = (q', []) := by
      have e : scaled s3.weights s3.sys.V = [fun _ => -(1 / 2)] := congrArg (fun v => [v]) hv
      rw [e]
      unfold QR.resetFilter
      rw [QR.rebuild, show (QR.empty : QR (Fin 1)).cols = 0 from rfl, hq']
      rfl
    simp only [this, Option.bind_eq_bind, List.reverse_nil]
    show (some s3.sys).bind _ = _
    simp only [Option.bind_some]
    rw [if_pos]
    rw [← fq'.length]
    rfl
  refine ⟨c, s1, { s3 with qr := q' }, rfl, .step (fun _ => 0) (.init _) rfl rfl (fun h => absurd rfl h) h1, rfl, rfl, ?_, rfl⟩
  rw [QN.prepare_of rfl (by simp [c]) hadd, hpre]
  simp only [Option.bind_some, hf]
  rw [if_pos]
  rw [← fq'.length]
  rfl

/-- So the second iteration gives the solution `2` of the problem, with the secondary value `6`. -/
example : ∃ (c : QNConfig) (s s' : QN (Fin 1) (Fin 2)), QN.AffineReachable halfProblem c s ∧
    s.prepare c (halfProblem.residual fun _ => 1) (halfProblem.apply fun _ => 1) (fun _ => 1) false = some s' ∧
    s'.updated (halfProblem.residual fun _ => 1) (halfProblem.apply fun _ => 1) = ![2, 6] := by
  obtain ⟨c, s, s', hf, hr, hfi, hw, hp, hn⟩ := half_run
  refine ⟨c, s, s', hr, hp, ?_⟩
  have h := C92_enough_columns hr (by simp [hfi]) (fun h => absurd hw.symm h) (Or.inl hf) (fun i => by norm_num) hp (by simpa using hn)
  set y := s'.updated (halfProblem.residual fun _ => 1) (halfProblem.apply fun _ => 1) with hy
  have h0 := congrFun h 0
  have h1 := congrFun h 1
  simp [halfProblem, AffineProblem.apply] at h0 h1
  have e0 : y 0 = 2 := by linarith
  rw [e0] at h1
  funext i
  fin_cases i
  · exact e0
  · show y 1 = 6
    linarith

end Verif.Accel
