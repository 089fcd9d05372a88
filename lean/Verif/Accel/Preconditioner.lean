import Verif.Time.Differences
import Mathlib.Analysis.Real.Sqrt
import Mathlib.Data.List.Forall2

/-!
# Preconditioners (C77, C78)

Model of `/repo/src/acceleration/impl/Preconditioner.hpp`, `ConstantPreconditioner.cpp`, `ValuePreconditioner.cpp`, `ResidualPreconditioner.cpp` and `ResidualSumPreconditioner.cpp`. Numbers are
real numbers. The norms of sub-vectors are taken over all ranks: an update gets the contributions of the other ranks as an arbitrary non-negative number per sub-vector.
-/

set_option autoImplicit false

namespace Verif.Accel

/-- The four types; the constant one with its factors per sub-vector, `residual-sum` with `update-on-threshold`. -/
inductive PrecondType where
  | constant (factors : List ℝ)
  | value
  | residual
  | residualSum (onThreshold : Bool)

/-- The members of `Preconditioner`, Preconditioner.hpp:216-248, and of its subclasses. -/
structure Precond where
  weights : List ℝ
  invWeights : List ℝ
  /-- `_subVectorSizes` -/
  sizes : List ℕ
  /-- `_maxNonConstTimeWindows` -/
  maxWindows : ℤ
  /-- `_nbNonConstTimeWindows` -/
  nbWindows : ℕ
  requireNewQR : Bool
  frozen : Bool
  firstWindow : Bool
  residualSum : List ℝ
  previousResidualSum : List ℝ

/-- `_subVectorOffsets`, Preconditioner.hpp:47-49 -/
def offset (sizes : List ℕ) (k : ℕ) : ℕ := (sizes.take k).sum

/-- `for i < size: w[i + offset] = x` -/
def setBlock (w : List ℝ) (offset size : ℕ) (x : ℝ) : List ℝ := w.mapIdx fun i a => if offset ≤ i ∧ i < offset + size then x else a

/-- Set the weights of sub-vector `k` to `1 / x`. -/
noncomputable def Precond.setWeights (p : Precond) (k : ℕ) (x : ℝ) : Precond :=
  { p with
    weights := setBlock p.weights (offset p.sizes k) (p.sizes.getD k 0) (1 / x)
    invWeights := setBlock p.invWeights (offset p.sizes k) (p.sizes.getD k 0) x }

/-- `initialize`, Preconditioner.hpp:39-56 -/
noncomputable def Precond.create (maxWindows : ℤ) (sizes : List ℕ) : Precond where
  weights := List.replicate sizes.sum 1
  invWeights := List.replicate sizes.sum 1
  sizes := sizes
  maxWindows := maxWindows
  nbWindows := 0
  requireNewQR := false
  frozen := false
  firstWindow := true
  residualSum := List.replicate sizes.length 0
  previousResidualSum := List.replicate sizes.length 0

/-- `initialize` of the types: ConstantPreconditioner.cpp:17-37 sets the weights and freezes; ResidualSumPreconditioner.cpp:19-26. -/
noncomputable def PrecondType.initialize (type : PrecondType) (freezeAfter : ℤ) (sizes : List ℕ) : Precond :=
  match type with
  | .constant factors =>
    { (List.range sizes.length).foldl (fun p k => p.setWeights k (factors.getD k 0)) (Precond.create (-1) sizes) with frozen := true }
  | _ => Precond.create freezeAfter sizes

/-- The local part of sub-vector `k`. -/
def segment (sizes : List ℕ) (v : List ℝ) (k : ℕ) : List ℝ := (v.drop (offset sizes k)).take (sizes.getD k 0)

/-- `IntraComm::dot(part, part)`; `rest` is the sum of the other ranks. -/
noncomputable def squaredNorm (sizes : List ℕ) (v : List ℝ) (rest : ℕ → ℝ) (k : ℕ) : ℝ := ((segment sizes v k).map fun a => a * a).sum + rest k

/-- Weights from norms, ValuePreconditioner.cpp:31-49 and ResidualPreconditioner.cpp:28-45 -/
noncomputable def Precond.scaleByNorms (p : Precond) (norms : ℕ → ℝ) : Precond :=
  open Classical in (List.range p.sizes.length).foldl (fun p k => if norms k < (tol : ℝ) then p else p.setWeights k (norms k)) p

/-- `math::equals(x, 0.0)` -/
def nearZero (x : ℝ) : Prop := |x| ≤ (tol : ℝ)

/-- Reset the weights for non-zero residual sums, ResidualSumPreconditioner.cpp:100-112 -/
noncomputable def Precond.resetWeights (p : Precond) : Precond :=
  open Classical in (List.range p.sizes.length).foldl (fun p k =>
    let p := if nearZero (p.residualSum.getD k 0) then p else p.setWeights k (p.residualSum.getD k 0)
    { p with previousResidualSum := p.previousResidualSum.set k (p.residualSum.getD k 0) }) p

/-- Add the relative residuals to the sums, ResidualSumPreconditioner.cpp:43-67 -/
noncomputable def Precond.addResiduals (p : Precond) (res : List ℝ) (rest : ℕ → ℝ) : Precond :=
  open Classical in
  let total := √((List.range p.sizes.length).map (squaredNorm p.sizes res rest)).sum
  { p with residualSum := p.residualSum.mapIdx fun k a => if total > (tol : ℝ) then a + √(squaredNorm p.sizes res rest k) / total else a }

/-- `resetWeights`, ResidualSumPreconditioner.cpp:78-96: always in the first window or without `update-on-threshold`, otherwise if a sum changed by more than a factor of ten. -/
def Precond.NeedsReset (p : Precond) (onThreshold : Bool) : Prop :=
  p.firstWindow = true ∨ onThreshold = false ∨
    ∃ k < p.sizes.length, ¬ nearZero (p.residualSum.getD k 0) ∧
      (p.previousResidualSum.getD k 0 / p.residualSum.getD k 0 > 10 ∨ p.previousResidualSum.getD k 0 / p.residualSum.getD k 0 < 1 / 10)

/-- `_update_` of the types: ConstantPreconditioner.cpp:39-45, ValuePreconditioner.cpp:17-53, ResidualPreconditioner.cpp:16-49, ResidualSumPreconditioner.cpp:28-114 -/
noncomputable def PrecondType.updateWeights (type : PrecondType) (complete : Bool) (oldValues res : List ℝ) (rest : ℕ → ℝ) (p : Precond) : Precond :=
  open Classical in match type with
  | .constant _ => p
  | .value =>
    if ¬ complete ∧ ¬ p.firstWindow then p
    else { p.scaleByNorms (fun k => √(squaredNorm p.sizes oldValues rest k)) with requireNewQR := true, firstWindow := false }
  | .residual =>
    if complete then p else { p.scaleByNorms (fun k => √(squaredNorm p.sizes res rest k)) with requireNewQR := true }
  | .residualSum onThreshold =>
    if complete then { p with firstWindow := false, residualSum := p.residualSum.map fun _ => 0 }
    else
      if (p.addResiduals res rest).NeedsReset onThreshold then { (p.addResiduals res rest).resetWeights with requireNewQR := true } else p.addResiduals res rest

/-- `update`, Preconditioner.hpp:176-193 -/
noncomputable def PrecondType.update (type : PrecondType) (complete : Bool) (oldValues res : List ℝ) (rest : ℕ → ℝ) (p : Precond) : Precond :=
  if p.frozen then p
  else
    let n := if complete then p.nbWindows + 1 else p.nbWindows
    let f := complete && decide ((n : ℤ) ≥ p.maxWindows ∧ p.maxWindows > 0)
    type.updateWeights complete oldValues res rest { p with nbWindows := n, frozen := f }

/-- Multiply the first entries by the weights; entries without a weight stay. `apply`/`revert` of vectors, Preconditioner.hpp:130-140, 158-168 -/
def scaleVector : List ℝ → List ℝ → List ℝ
  | a :: w, b :: v => (b * a) :: scaleVector w v
  | _, v => v

/-- `apply`/`revert` of a matrix given by its columns, Preconditioner.hpp:72-79, 116-127 -/
def scaleRows (w : List ℝ) (m : List (List ℝ)) : List (List ℝ) := m.map (scaleVector w)

/-- `apply`/`revert` from the right, Preconditioner.hpp:62-70, 88-97 -/
def scaleCols : List ℝ → List (List ℝ) → List (List ℝ)
  | a :: w, c :: m => c.map (· * a) :: scaleCols w m
  | _, m => m

/-- A call of `update`. -/
structure PrecondUpdate where
  complete : Bool
  oldValues : List ℝ
  res : List ℝ
  rest : ℕ → ℝ

/-- A history of updates. -/
noncomputable def PrecondType.run (type : PrecondType) (p : Precond) (us : List PrecondUpdate) : Precond :=
  us.foldl (fun p u => type.update u.complete u.oldValues u.res u.rest p) p

/-! ## Weights and inverse weights -/

/-- The two lists of weights are inverse to each other. -/
def Precond.Inverse (p : Precond) : Prop := List.Forall₂ (fun a b => a * b = 1) p.weights p.invWeights

theorem setBlock_inverse {w v : List ℝ} (h : List.Forall₂ (fun a b => a * b = 1) w v) (o n : ℕ) {x : ℝ} (hx : x ≠ 0) :
    List.Forall₂ (fun a b => a * b = 1) (setBlock w o n (1 / x)) (setBlock v o n x) := by
  unfold setBlock
  rw [List.forall₂_iff_get] at h ⊢
  refine ⟨by simp [h.1], fun i h1 h2 => ?_⟩
  simp only [List.get_eq_getElem, List.getElem_mapIdx]
  split
  · exact one_div_mul_cancel hx
  · exact h.2 i _ _

theorem setWeights_inverse {p : Precond} (h : p.Inverse) (k : ℕ) {x : ℝ} (hx : x ≠ 0) : (p.setWeights k x).Inverse := setBlock_inverse h _ _ hx

theorem foldl_inv {α β : Type} {P : β → Prop} {f : β → α → β} {l : List α} (hf : ∀ b, ∀ a ∈ l, P b → P (f b a)) : ∀ {b : β}, P b → P (l.foldl f b) := by
  induction l with
  | nil => exact fun h => h
  | cons a l ih =>
    intro b hb
    exact ih (fun b a' ha' => hf b a' (by simp [ha'])) (hf b a (by simp) hb)

theorem scaleByNorms_inverse {p : Precond} (h : p.Inverse) {norms : ℕ → ℝ} : (p.scaleByNorms norms).Inverse := by
  unfold Precond.scaleByNorms
  refine foldl_inv (P := Precond.Inverse) (fun b k _ hb => ?_) h
  split
  · exact hb
  · next hn =>
    refine setWeights_inverse hb k fun h0 => hn ?_
    rw [h0]
    exact_mod_cast tol_pos

theorem resetWeights_inverse {p : Precond} (h : p.Inverse) : p.resetWeights.Inverse := by
  unfold Precond.resetWeights
  refine foldl_inv (P := Precond.Inverse) (fun b k _ hb => ?_) h
  simp only
  split
  · exact hb
  · next hn =>
    refine (setWeights_inverse hb k fun h0 => hn ?_ : (b.setWeights k (b.residualSum.getD k 0)).Inverse)
    rw [h0]
    unfold nearZero
    rw [abs_zero]
    exact_mod_cast tol_pos.le

theorem create_inverse (n : ℤ) (sizes : List ℕ) : (Precond.create n sizes).Inverse := by
  unfold Precond.Inverse Precond.create
  simp only
  rw [List.forall₂_iff_get]
  simp

theorem initialize_inverse {type : PrecondType} (ht : ∀ f, type = .constant f → ∀ k, f.getD k 0 ≠ 0 ∨ f.length ≤ k) {n : ℤ} {sizes : List ℕ}
    (hl : ∀ f, type = .constant f → f.length = sizes.length) : (type.initialize n sizes).Inverse := by
  unfold PrecondType.initialize
  split
  · next factors =>
    refine (foldl_inv (P := Precond.Inverse) (fun b k hk hb => setWeights_inverse hb k ?_) (create_inverse _ _) :)
    rw [List.mem_range] at hk
    have := hl factors rfl
    rcases ht factors rfl k with h | h
    · exact h
    · omega
  · exact create_inverse _ _

theorem update_inverse {type : PrecondType} {p : Precond} (h : p.Inverse) (u : PrecondUpdate) : (type.update u.complete u.oldValues u.res u.rest p).Inverse := by
  have h' : ∀ q : Precond, q.Inverse → (type.updateWeights u.complete u.oldValues u.res u.rest q).Inverse := by
    intro q hq
    cases type with
    | constant f => exact hq
    | value =>
      simp only [PrecondType.updateWeights]
      split
      · exact hq
      · exact (scaleByNorms_inverse hq :)
    | residual =>
      simp only [PrecondType.updateWeights]
      split
      · exact hq
      · exact (scaleByNorms_inverse hq :)
    | residualSum t =>
      simp only [PrecondType.updateWeights]
      split
      · exact hq
      · split
        · exact (resetWeights_inverse (p := q.addResiduals u.res u.rest) hq :)
        · exact hq
  unfold PrecondType.update
  split
  · exact h
  · exact h' _ h

theorem run_inverse {type : PrecondType} {p : Precond} (h : p.Inverse) (us : List PrecondUpdate) : (type.run p us).Inverse :=
  foldl_inv (P := Precond.Inverse) (fun _ u _ hb => update_inverse hb u) h

theorem scaleVector_inverse : ∀ {w v : List ℝ}, List.Forall₂ (fun a b => a * b = 1) w v → ∀ x, scaleVector v (scaleVector w x) = x
  | [], [], _, x => by cases x <;> rfl
  | a :: w, b :: v, h, [] => by rfl
  | a :: w, b :: v, h, c :: x => by
    cases h with
    | cons h1 h2 =>
      simp only [scaleVector, List.cons.injEq]
      refine ⟨?_, scaleVector_inverse h2 x⟩
      rw [mul_assoc, h1, mul_one]

theorem scaleCols_inverse : ∀ {w v : List ℝ}, List.Forall₂ (fun a b => a * b = 1) w v → ∀ x, scaleCols v (scaleCols w x) = x
  | [], [], _, x => by cases x <;> rfl
  | a :: w, b :: v, h, [] => by rfl
  | a :: w, b :: v, h, c :: x => by
    cases h with
    | cons h1 h2 =>
      simp only [scaleCols, List.cons.injEq, List.map_map]
      refine ⟨?_, scaleCols_inverse h2 x⟩
      have : ((· * b) ∘ (· * a) : ℝ → ℝ) = id := by
        funext y
        simp only [Function.comp_apply, id, mul_assoc, h1, mul_one]
      rw [this, List.map_id]

/-! ## C77 -/

/-- C77: for every type and every history of updates, with vectors and matrices of any size, reverting what was applied and applying what was reverted is the identity, for vectors, for
matrices and for matrices from the right. The factors of a constant preconditioner have to be different from zero. -/
theorem C77_reversible {type : PrecondType} {freezeAfter : ℤ} {sizes : List ℕ} (hl : ∀ f, type = .constant f → f.length = sizes.length ∧ ∀ a ∈ f, a ≠ 0) (us : List PrecondUpdate) :
    let p := type.run (type.initialize freezeAfter sizes) us
    (∀ v, scaleVector p.invWeights (scaleVector p.weights v) = v ∧ scaleVector p.weights (scaleVector p.invWeights v) = v) ∧
    (∀ m, scaleRows p.invWeights (scaleRows p.weights m) = m ∧ scaleRows p.weights (scaleRows p.invWeights m) = m) ∧
    (∀ m, scaleCols p.invWeights (scaleCols p.weights m) = m ∧ scaleCols p.weights (scaleCols p.invWeights m) = m) := by
  intro p
  have h : p.Inverse := by
    refine run_inverse (initialize_inverse (fun f hf k => ?_) fun f hf => (hl f hf).1) us
    by_cases hk : k < f.length
    · left
      rw [List.getD_eq_getElem?_getD, List.getElem?_eq_getElem hk]
      exact (hl f hf).2 _ (List.getElem_mem hk)
    · right; omega
  have h' : List.Forall₂ (fun a b => a * b = 1) p.invWeights p.weights := (h.flip).imp fun a b hab => by rw [mul_comm]; exact hab
  have hr : ∀ {w v : List ℝ}, List.Forall₂ (fun a b => a * b = 1) w v → ∀ m, scaleRows v (scaleRows w m) = m := by
    intro w v hwv m
    unfold scaleRows
    rw [List.map_map]
    have : (scaleVector v ∘ scaleVector w) = id := funext fun x => scaleVector_inverse hwv x
    rw [this, List.map_id]
  exact ⟨fun v => ⟨scaleVector_inverse h v, scaleVector_inverse h' v⟩, fun m => ⟨hr h m, hr h' m⟩, fun m => ⟨scaleCols_inverse h m, scaleCols_inverse h' m⟩⟩

/-- Non-trivial weights are reached: two data of sizes 1 and 2 with factors 2 and 4. -/
example : ((PrecondType.constant [2, 4]).initialize 0 [1, 2]).weights = [1 / 2, 1 / 4, 1 / 4] := by
  simp [PrecondType.initialize, Precond.create, Precond.setWeights, setBlock, offset, List.range_succ, List.replicate]

/-- C77 needs factors different from zero, which the configuration does not check: a factor of zero erases the data. -/
theorem C77_zero_factor : ∃ v, let p := (PrecondType.constant [0]).initialize 0 [1]
    scaleVector p.invWeights (scaleVector p.weights v) ≠ v := by
  refine ⟨[1], ?_⟩
  simp [PrecondType.initialize, Precond.create, Precond.setWeights, setBlock, offset, scaleVector]

theorem updateWeights_request (type : PrecondType) (c : Bool) (o r : List ℝ) (rest : ℕ → ℝ) (p : Precond) (h : (type.updateWeights c o r rest p).weights ≠ p.weights) :
    (type.updateWeights c o r rest p).requireNewQR = true := by
  cases type with
  | constant f => exact absurd rfl h
  | value =>
    simp only [PrecondType.updateWeights] at h ⊢
    split_ifs at h ⊢
    · exact absurd rfl h
    · rfl
  | residual =>
    simp only [PrecondType.updateWeights] at h ⊢
    split_ifs at h ⊢
    · exact absurd rfl h
    · rfl
  | residualSum t =>
    simp only [PrecondType.updateWeights] at h ⊢
    by_cases hc : c = true
    · rw [if_pos hc] at h
      exact absurd rfl h
    · rw [if_neg hc] at h ⊢
      split_ifs at h ⊢
      · rfl
      · exact absurd rfl h

/-- C77: an update that changes the weights requests a new factorisation, for every type. This is what the quasi-Newton methods rely on. -/
theorem C77_request (type : PrecondType) (u : PrecondUpdate) (p : Precond) (h : (type.update u.complete u.oldValues u.res u.rest p).weights ≠ p.weights) :
    (type.update u.complete u.oldValues u.res u.rest p).requireNewQR = true := by
  unfold PrecondType.update at h ⊢
  by_cases hf : p.frozen = true
  · rw [if_pos hf] at h
    exact absurd rfl h
  · rw [if_neg hf] at h ⊢
    exact updateWeights_request type _ _ _ _ _ h

/-! ## C78 -/

/-- The number of completed windows in a history. -/
def windows (us : List PrecondUpdate) : ℕ := (us.filter fun u => u.complete).length

theorem updateWeights_frame (type : PrecondType) (c : Bool) (o r : List ℝ) (rest : ℕ → ℝ) (p : Precond) :
    (type.updateWeights c o r rest p).frozen = p.frozen ∧ (type.updateWeights c o r rest p).nbWindows = p.nbWindows ∧ (type.updateWeights c o r rest p).maxWindows = p.maxWindows := by
  have hs : ∀ (q : Precond) (norms : ℕ → ℝ), (q.scaleByNorms norms).frozen = q.frozen ∧ (q.scaleByNorms norms).nbWindows = q.nbWindows ∧ (q.scaleByNorms norms).maxWindows = q.maxWindows := by
    intro q norms
    unfold Precond.scaleByNorms
    refine foldl_inv (P := fun b : Precond => b.frozen = q.frozen ∧ b.nbWindows = q.nbWindows ∧ b.maxWindows = q.maxWindows) (fun b k _ hb => ?_) ⟨rfl, rfl, rfl⟩
    split
    · exact hb
    · exact hb
  have hr : ∀ q : Precond, q.resetWeights.frozen = q.frozen ∧ q.resetWeights.nbWindows = q.nbWindows ∧ q.resetWeights.maxWindows = q.maxWindows := by
    intro q
    unfold Precond.resetWeights
    refine foldl_inv (P := fun b : Precond => b.frozen = q.frozen ∧ b.nbWindows = q.nbWindows ∧ b.maxWindows = q.maxWindows) (fun b k _ hb => ?_) ⟨rfl, rfl, rfl⟩
    simp only
    split
    · exact hb
    · exact hb
  cases type with
  | constant f => exact ⟨rfl, rfl, rfl⟩
  | value =>
    simp only [PrecondType.updateWeights]
    split
    · exact ⟨rfl, rfl, rfl⟩
    · exact hs _ _
  | residual =>
    simp only [PrecondType.updateWeights]
    split
    · exact ⟨rfl, rfl, rfl⟩
    · exact hs _ _
  | residualSum t =>
    simp only [PrecondType.updateWeights]
    split
    · exact ⟨rfl, rfl, rfl⟩
    · split
      · exact hr _
      · exact ⟨rfl, rfl, rfl⟩

/-- Once frozen, nothing changes. -/
theorem run_frozen {type : PrecondType} {p : Precond} (h : p.frozen = true) (us : List PrecondUpdate) : type.run p us = p := by
  unfold PrecondType.run
  induction us with
  | nil => rfl
  | cons u us ih =>
    rw [List.foldl_cons]
    have : type.update u.complete u.oldValues u.res u.rest p = p := by unfold PrecondType.update; rw [if_pos h]
    rw [this, ih]

theorem run_count {type : PrecondType} {p : Precond} (hf : p.frozen = false) (hn : ((p.nbWindows : ℕ) : ℤ) < p.maxWindows) (us : List PrecondUpdate) :
    (type.run p us).maxWindows = p.maxWindows ∧
    ((p.nbWindows + windows us : ℤ) < p.maxWindows → (type.run p us).frozen = false ∧ (type.run p us).nbWindows = p.nbWindows + windows us) ∧
    (p.maxWindows ≤ (p.nbWindows + windows us : ℤ) → (type.run p us).frozen = true) := by
  induction us generalizing p with
  | nil =>
    refine ⟨rfl, fun _ => ⟨hf, rfl⟩, fun h => ?_⟩
    exfalso
    simp only [windows, List.filter_nil, List.length_nil, Nat.cast_zero, add_zero] at h
    omega
  | cons u us ih =>
    have hrun : type.run p (u :: us) = type.run (type.update u.complete u.oldValues u.res u.rest p) us := rfl
    rw [hrun]
    have hu : type.update u.complete u.oldValues u.res u.rest p = type.updateWeights u.complete u.oldValues u.res u.rest
        { p with nbWindows := if u.complete then p.nbWindows + 1 else p.nbWindows,
                 frozen := u.complete && decide ((((if u.complete then p.nbWindows + 1 else p.nbWindows) : ℕ) : ℤ) ≥ p.maxWindows ∧ p.maxWindows > 0) } := by
      unfold PrecondType.update
      rw [if_neg (by rw [hf]; decide)]
    obtain ⟨f1, f2, f3⟩ := updateWeights_frame type u.complete u.oldValues u.res u.rest
      { p with nbWindows := if u.complete then p.nbWindows + 1 else p.nbWindows,
               frozen := u.complete && decide ((((if u.complete then p.nbWindows + 1 else p.nbWindows) : ℕ) : ℤ) ≥ p.maxWindows ∧ p.maxWindows > 0) }
    rw [← hu] at f1 f2 f3
    simp only at f1 f2 f3
    cases hc : u.complete with
    | false =>
      rw [hc] at f1 f2 f3
      simp only [Bool.false_eq_true, if_false, Bool.false_and] at f1 f2 f3
      have hw : windows (u :: us) = windows us := by simp [windows, hc]
      have := ih (p := type.update false u.oldValues u.res u.rest p) f1 (by rw [f2, f3]; exact hn)
      rw [f2, f3] at this
      rw [hw]
      exact this
    | true =>
      rw [hc] at f1 f2 f3
      simp only [if_true, Bool.true_and] at f1 f2 f3
      have hw : windows (u :: us) = windows us + 1 := by simp [windows, hc]
      rw [hw]
      by_cases hmax : ((p.nbWindows : ℤ) + 1) ≥ p.maxWindows
      · have hfz : (type.update true u.oldValues u.res u.rest p).frozen = true := by
          rw [f1, decide_eq_true_eq]
          push_cast
          exact ⟨hmax, by omega⟩
        rw [run_frozen hfz]
        refine ⟨f3, fun h => ?_, fun _ => hfz⟩
        exfalso
        push_cast at h
        omega
      · have hfz : (type.update true u.oldValues u.res u.rest p).frozen = false := by
          rw [f1, decide_eq_false_iff_not]
          push_cast
          exact fun h => hmax h.1
        have := ih (p := type.update true u.oldValues u.res u.rest p) hfz (by rw [f2, f3]; push_cast; omega)
        rw [f2, f3] at this
        push_cast at this ⊢
        refine ⟨this.1, fun h => ?_, fun h => this.2.2 (by omega)⟩
        have h2 := this.2.1 (by omega)
        exact ⟨h2.1, by omega⟩

/-- C78: after `freeze-after` completed windows the weights do not change any more, whatever updates follow. -/
theorem C78_frozen {type : PrecondType} {n : ℕ} (hn : 0 < n) {sizes : List ℕ} {us : List PrecondUpdate} (h : n ≤ windows us) (more : List PrecondUpdate) :
    (type.run (type.initialize n sizes) (us ++ more)).weights = (type.run (type.initialize n sizes) us).weights ∧
    (type.run (type.initialize n sizes) (us ++ more)).invWeights = (type.run (type.initialize n sizes) us).invWeights := by
  have hz : (type.run (type.initialize n sizes) us).frozen = true := by
    cases type with
    | constant f => rw [run_frozen (by rfl)]; rfl
    | value => exact (run_count (p := Precond.create n sizes) rfl (by simpa [Precond.create] using hn) us).2.2 (by simpa [Precond.create] using h)
    | residual => exact (run_count (p := Precond.create n sizes) rfl (by simpa [Precond.create] using hn) us).2.2 (by simpa [Precond.create] using h)
    | residualSum t => exact (run_count (p := Precond.create n sizes) rfl (by simpa [Precond.create] using hn) us).2.2 (by simpa [Precond.create] using h)
  have : type.run (type.initialize n sizes) (us ++ more) = type.run (type.run (type.initialize n sizes) us) more := by
    unfold PrecondType.run
    rw [List.foldl_append]
  rw [this, run_frozen hz]
  exact ⟨rfl, rfl⟩

/-- C78: before that the preconditioner is not frozen (unless it is a constant one). -/
theorem C78_not_before {type : PrecondType} (ht : ∀ f, type ≠ .constant f) {n : ℕ} {sizes : List ℕ} {us : List PrecondUpdate} (h : windows us < n) :
    (type.run (type.initialize n sizes) us).frozen = false := by
  cases type with
  | constant f => exact absurd rfl (ht f)
  | value => exact ((run_count (p := Precond.create n sizes) rfl (by simp [Precond.create]; omega) us).2.1 (by simpa [Precond.create] using h)).1
  | residual => exact ((run_count (p := Precond.create n sizes) rfl (by simp [Precond.create]; omega) us).2.1 (by simpa [Precond.create] using h)).1
  | residualSum t => exact ((run_count (p := Precond.create n sizes) rfl (by simp [Precond.create]; omega) us).2.1 (by simpa [Precond.create] using h)).1

/-- A history with two completed windows. -/
example : 2 ≤ windows [⟨false, [1], [3], fun _ => 0⟩, ⟨true, [2], [1], fun _ => 0⟩, ⟨false, [4], [1], fun _ => 0⟩, ⟨true, [5], [1], fun _ => 0⟩] := by
  simp [windows]

/-- Before freezing, the weights do change: the residual preconditioner scales by the norm of the residual. -/
example : (PrecondType.residual.run (PrecondType.residual.initialize 2 [1]) [⟨false, [1], [3], fun _ => 0⟩]).weights = [1 / 3] := by
  have h9 : (√(3 * 3 : ℝ)) = 3 := Real.sqrt_mul_self (by norm_num)
  have htol : ¬ ((3 : ℝ) < (tol : ℝ)) := by
    unfold tol
    norm_num
  simp [PrecondType.run, PrecondType.update, PrecondType.updateWeights, PrecondType.initialize, Precond.create, Precond.scaleByNorms, squaredNorm, segment, offset, h9, htol,
    Precond.setWeights, setBlock]

end Verif.Accel
