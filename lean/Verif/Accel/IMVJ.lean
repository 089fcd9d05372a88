import Verif.Accel.QNColumns

/-!
# The multi-vector quasi-Newton acceleration IQN-IMVJ (model for C93)

Model of `/repo/src/acceleration/IQNIMVJAcceleration.cpp` on top of the base class (`Verif.Accel.QN`). `ι` are the global rows of the primary data, `κ` those of all data; products of distributed
matrices are the global products (see C94 for those).

The virtual function `removeMatrixColumn` (IQNIMVJAcceleration.cpp:727-739) is called by the base class; it removes the column from `_Wtil` and then calls the version of the base class. The model
runs the function of the base class and removes the same columns, in the same order, from `_Wtil` (`IMVJ.lift`). Its assertion `_Wtil.cols() > 1` (732), which has no effect in release builds, is
left out.

Not modelled: the restart modes RS-LS and RS-SVD compute the new representation of the Jacobian from further data; here their result is arbitrary (`Restart.other`).
-/

set_option autoImplicit false
set_option linter.unusedSectionVars false

namespace Verif.Accel

open Finset

variable {ι κ : Type} [Fintype ι] [Fintype κ]

/-- `_imvjRestartType` (IQNIMVJAcceleration.hpp): RS-0, RS-SLIDE, or another one -/
inductive Restart where
  | zero
  | slide
  | other
  deriving DecidableEq

/-- `_alwaysBuildJacobian`, neither, or `_imvjRestart` with `_chunkSize`. The configuration rejects the first together with the last (AccelerationConfiguration.cpp:262). -/
inductive IMVJMode where
  | always
  | efficient
  | restart (chunkSize : ℕ) (kind : Restart)
  deriving DecidableEq

/-- Options: those of the base class and the mode. -/
structure IMVJConfig where
  qn : QNConfig
  mode : IMVJMode

/-- `_imvjRestart` -/
def IMVJConfig.restarts (c : IMVJConfig) : Bool :=
  match c.mode with
  | .restart _ _ => true
  | _ => false

/-- One entry of `_WtilChunk` with the one of `_pseudoInverseChunk`. Row `j` of `Z` is used for column `j` of `W`. -/
structure Factor (ι κ : Type) where
  W : List (κ → ℝ)
  Z : ℕ → ι → ℝ

/-- `_WtilChunk[i] * (_pseudoInverseChunk[i] * v)`, IQNIMVJAcceleration.cpp:110-119 -/
def Factor.apply (f : Factor ι κ) (v : ι → ℝ) : κ → ℝ := combine f.W fun j => ip (f.Z j) v

/-- The members of `IQNIMVJAcceleration`. -/
structure IMVJ (ι κ : Type) where
  base : QN ι κ
  /-- `_Wtil` -/
  til : List (κ → ℝ)
  /-- `_invJacobian` -/
  jac : κ → ι → ℝ
  /-- `_oldInvJacobian` -/
  oldJac : κ → ι → ℝ
  /-- `_WtilChunk`, `_pseudoInverseChunk` -/
  chunk : List (Factor ι κ)
  /-- `_resetLS` -/
  resetLS : Bool

/-- The product of the previous Jacobian with a vector, IQNIMVJAcceleration.cpp:105-134 (restart mode: 110-119, otherwise: 133), 364-379 -/
def IMVJ.prev (c : IMVJConfig) (s : IMVJ ι κ) (v : ι → ℝ) : κ → ℝ :=
  if c.restarts then fun k => (s.chunk.map fun f => f.apply v k).sum else fun k => ip (s.oldJac k) v

/-- The new column `w - J_prev v`, IQNIMVJAcceleration.cpp:105-136 -/
def IMVJ.tilColumn (c : IMVJConfig) (s : IMVJ ι κ) (v : QNCol ι) (w : QNCol κ) : κ → ℝ := fun k => w.val k - s.prev c v.val k

/-- The new column is put in front of `_Wtil`, IQNIMVJAcceleration.cpp:138-142 with 102-103; `shiftSetFirst` (EigenHelperFunctions.cpp) writes the first column, so there must be one. -/
def IMVJ.pushTil (c : IMVJConfig) (s : IMVJ ι κ) (t : κ → ℝ) : Option (IMVJ ι κ) :=
  if s.til.length ≠ c.qn.maxUsed ∧ s.til.length ≤ Fintype.card κ then some { s with til := t :: s.til }
  else if s.til = [] then none
  else some { s with til := t :: s.til.dropLast }

/-- The newest columns of `V` and `W` give the newest one of `_Wtil`, IQNIMVJAcceleration.cpp:90-145 -/
def IMVJ.addTil (c : IMVJConfig) (s : IMVJ ι κ) : Option (IMVJ ι κ) :=
  match s.base.sys.V, s.base.sys.W with
  | v :: _, w :: _ => s.pushTil c (s.tilColumn c v w)
  | _, _ => none

/-- `updateDifferenceMatrices`, IQNIMVJAcceleration.cpp:74-146 -/
noncomputable def IMVJ.updateDifferences (c : IMVJConfig) (s : IMVJ ι κ) (r : ι → ℝ) (x : κ → ℝ) : Option (IMVJ ι κ) := do
  let b ← s.base.updateDifferences c.qn r x
  let s' := { s with base := b }
  if c.mode ≠ .always ∧ s.base.firstIteration = false then s'.addTil c else some s'

/-- One column is removed from `_Wtil`, IQNIMVJAcceleration.cpp:734-736; the column must exist. -/
def removeTil (t : List (κ → ℝ)) (i : ℕ) : Option (List (κ → ℝ)) := if i < t.length then some (t.eraseIdx i) else none

/-- A function of the base class that removes the columns `dels` with `removeMatrixColumn`, IQNIMVJAcceleration.cpp:727-739 -/
def IMVJ.lift (c : IMVJConfig) (s : IMVJ ι κ) (f : QN ι κ → Option (QN ι κ)) (dels : List ℕ) : Option (IMVJ ι κ) :=
  (f s.base).bind fun b => (if s.resetLS = false ∧ c.mode ≠ .always then dels.foldlM removeTil s.til else some s.til).map fun t => { s with base := b, til := t }

/-- Columns removed by `reset`, BaseQNAcceleration.cpp:430-434, 453-457 -/
noncomputable def QN.resetDels (s : QN ι κ) : List ℕ := (QR.reset (scaled s.weights s.sys.V)).2

/-- Columns removed by a rebuilt factorisation, from the last to the first, BaseQNAcceleration.cpp:567-574 -/
noncomputable def QN.rebuildDels (c : QNConfig) (s : QN ι κ) : List ℕ := (QR.resetFilter c.limit (scaled s.weights s.sys.V)).2.reverse

open Classical in
/-- Columns removed by `applyFilter`, BaseQNAcceleration.cpp:557-578 with QRFactorization.cpp:111-170 -/
noncomputable def QN.filterDels (c : QNConfig) (s : QN ι κ) : List ℕ :=
  match c.filter with
  | .none => []
  | .qr1 absolute => (s.qr.filter1 absolute c.limit).2.reverse
  | .qr2 => s.rebuildDels c
  | .qr3 => if s.qr.needsQR2 c.limit (scaled s.weights s.sys.V) = some true ∨ s.needQR2 = true then s.rebuildDels c else []

/-- `BaseQNAcceleration::applyFilter` with the column removal of IMVJ -/
noncomputable def IMVJ.applyFilter (c : IMVJConfig) (s : IMVJ ι κ) : Option (IMVJ ι κ) := s.lift c (QN.applyFilter c.qn) (s.base.filterDels c.qn)

/-- The columns are restored from the backup, BaseQNAcceleration.cpp:416-438; sets `_resetLS` -/
noncomputable def IMVJ.restore (c : IMVJConfig) (s : IMVJ ι κ) : Option (IMVJ ι κ) :=
  if ¬ s.base.firstWindow ∧ s.base.sys.blocks.sum < 1 ∧ c.qn.reused = 0 ∧ ¬ c.qn.force then
    (s.lift c (QN.restore c.qn) (QN.resetDels { s.base with sys := s.base.backup })).map fun s => { s with resetLS := true }
  else some s

/-- Columns removed by `precondition` -/
noncomputable def QN.preconditionDels (c : QNConfig) (s : QN ι κ) (w : ι → ℝ) (newQR : Bool) : List ℕ :=
  if (s.newQR || newQR) = true ∧ c.filter ≠ .qr2 ∧ c.filter ≠ .qr3 then QN.resetDels { s with weights := w } else []

/-- The preconditioner is updated, BaseQNAcceleration.cpp:446-464, with the column removal of IMVJ -/
noncomputable def IMVJ.precondition (c : IMVJConfig) (s : IMVJ ι κ) (w : ι → ℝ) (newQR : Bool) : Option (IMVJ ι κ) :=
  s.lift c (fun b => b.precondition c.qn w newQR) (s.base.preconditionDels c.qn w newQR)

/-- `performAcceleration` up to `computeQNUpdate`, BaseQNAcceleration.cpp:399-481 -/
noncomputable def IMVJ.prepare (c : IMVJConfig) (s : IMVJ ι κ) (r : ι → ℝ) (x : κ → ℝ) (w : ι → ℝ) (newQR : Bool) : Option (IMVJ ι κ) := do
  let s ← s.updateDifferences c r x
  let s ← s.restore c
  let s ← s.precondition c w newQR
  let s ← s.applyFilter c
  if s.base.qr.cols = s.base.sys.blocks.sum then some s else none

/-- `pseudoInverse`, IQNIMVJAcceleration.cpp:176-211: back substitution for every row of `Q`, then scaled with the weights -/
noncomputable def QN.pseudoInverse (s : QN ι κ) : ℕ → ι → ℝ := fun j i => backSubstitution s.qr.R s.qr.cols (fun l => s.qr.Q l i) j * s.weights i

/-- `buildWtil`, IQNIMVJAcceleration.cpp:213-251 -/
def IMVJ.buildTil (c : IMVJConfig) (s : IMVJ ι κ) : IMVJ ι κ :=
  { s with til := List.zipWith (s.tilColumn c) s.base.sys.V s.base.sys.W, resetLS := false }

/-- `_Wtil * Z` -/
def product (T : List (κ → ℝ)) (Z : ℕ → ι → ℝ) : κ → ι → ℝ := fun k i => combine T (fun j => Z j i) k

/-- `computeNewtonUpdate`, IQNIMVJAcceleration.cpp:392-427: the Jacobian is assembled -/
noncomputable def IMVJ.newton (c : IMVJConfig) (s : IMVJ ι κ) : IMVJ ι κ :=
  let s := s.buildTil c
  { s with jac := fun k i => product s.til s.base.pseudoInverse k i + s.oldJac k i }

/-- `computeNewtonUpdateEfficient`, IQNIMVJAcceleration.cpp:327-330: `_Wtil` is only assembled on request -/
def IMVJ.refresh (c : IMVJConfig) (s : IMVJ ι κ) : IMVJ ι κ := if s.resetLS then s.buildTil c else s

/-- `computeQNUpdate`, IQNIMVJAcceleration.cpp:149-173: the state afterwards, before the pending deletion -/
noncomputable def IMVJ.compute (c : IMVJConfig) (s : IMVJ ι κ) : IMVJ ι κ := if c.mode = .always then s.newton c else s.refresh c

/-- The update of the values that `computeQNUpdate` returns: `J (-r)`, IQNIMVJAcceleration.cpp:420-426, or `J_prev (-r) + Wtil (Z (-r))`, 332-381. -/
noncomputable def IMVJ.update (c : IMVJConfig) (s : IMVJ ι κ) (r : ι → ℝ) : κ → ℝ :=
  let s := s.compute c
  if c.mode = .always then fun k => ip (s.jac k) fun i => -r i
  else fun k => s.prev c (fun i => -r i) k + combine s.til (fun j => ip (s.base.pseudoInverse j) fun i => -r i) k

/-- Pending deletion in `computeNewtonUpdateEfficient`, IQNIMVJAcceleration.cpp:384-388 -/
def IMVJ.pendingTil (c : IMVJConfig) (s : IMVJ ι κ) : IMVJ ι κ :=
  if c.mode ≠ .always ∧ s.base.firstIteration = true ∧ c.qn.reused = 0 ∧ c.qn.force = false then { s with til := [], resetLS := true } else s

/-- Pending deletion in `performAcceleration`, BaseQNAcceleration.cpp:521-541 -/
def IMVJ.pending (c : IMVJConfig) (s : IMVJ ι κ) : IMVJ ι κ :=
  { s with
    base := s.base.pending c.qn
    resetLS := s.resetLS || decide (s.base.firstIteration = true ∧ c.qn.reused = 0 ∧ c.qn.force = false ∧ s.base.firstWindow = false) }

/-- `performAcceleration`, BaseQNAcceleration.cpp:363-554 -/
noncomputable def IMVJ.accelerate (c : IMVJConfig) (s : IMVJ ι κ) (r : ι → ℝ) (x : κ → ℝ) (w : ι → ℝ) (newQR : Bool) : Option (IMVJ ι κ) :=
  if s.base.firstIteration ∧ (s.base.firstWindow ∨ c.qn.force) then
    some { s with base := { s.base with oldResidual := r, oldXTilde := x, firstIteration := false, iteration := s.base.iteration + 1 } }
  else do
    let s ← s.prepare c r x w newQR
    let s := ((s.compute c).pendingTil c).pending c
    some { s with base := { s.base with firstIteration := false, iteration := s.base.iteration + 1 } }

/-- Columns removed when the factorisation is renewed at the end of a window -/
noncomputable def QN.renewDels (c : QNConfig) (s : QN ι κ) : List ℕ := if s.newQR = true ∧ c.filter ≠ .qr2 then s.resetDels else []

/-- The factorisation is renewed if necessary, IQNIMVJAcceleration.cpp:655-668 -/
noncomputable def QN.renew (c : QNConfig) (s : QN ι κ) : Option (QN ι κ) :=
  if s.newQR then (if c.filter = .qr2 then some s else s.reset).map fun s => { s with newQR := false } else some s

/-- The restart mode RS-SLIDE, IQNIMVJAcceleration.cpp:586-607: counts down from the number of entries minus one; the product of the oldest entry with the current `V` is added to entry `i`, then
the oldest entry is dropped. The matrices that are added must have the same number of columns. -/
def slideStep (V : List (QNCol ι)) (i : ℕ) : List (Factor ι κ) → Option (List (Factor ι κ))
  | [] => none
  | f :: fs =>
    match (f :: fs)[i]? with
    | none => none
    | some g =>
      if g.W.length = V.length then
        some (((f :: fs).set i ⟨List.zipWith (fun t v => fun k => t k + f.apply v.val k) g.W V, g.Z⟩).drop 1)
      else none

/-- The loop of RS-SLIDE, `i = n, n - 1, ..., 1` -/
def slideLoop (V : List (QNCol ι)) : ℕ → List (Factor ι κ) → Option (List (Factor ι κ))
  | 0, l => some l
  | i + 1, l => do
    let l ← slideStep V (i + 1) l
    slideLoop V i l

/-- `restartIMVJ`, IQNIMVJAcceleration.cpp:430-614 -/
def restartChunk (kind : Restart) (V : List (QNCol ι)) (other l : List (Factor ι κ)) : Option (List (Factor ι κ)) :=
  match kind with
  | .zero => some []
  | .slide => slideLoop V (l.length - 1) l
  | .other => some other

/-- The entry for the window is appended, and a restart is done, IQNIMVJAcceleration.cpp:675-705 -/
noncomputable def IMVJ.store (c : IMVJConfig) (s : IMVJ ι κ) (other : List (Factor ι κ)) : Option (IMVJ ι κ) :=
  match c.mode with
  | .restart chunkSize kind =>
    let l := s.chunk ++ [⟨s.til, s.base.pseudoInverse⟩]
    (if l.length ≥ chunkSize + 1 then restartChunk kind s.base.sys.V other l else some l).map fun l => { s with chunk := l }
  | _ =>
    let s := s.refresh c
    let J : κ → ι → ℝ := fun k i => product s.til s.base.pseudoInverse k i + s.oldJac k i
    some { s with jac := J, oldJac := J }

/-- `specializedIterationsConverged`, IQNIMVJAcceleration.cpp:617-724, without the matrices of RS-LS (622-645) -/
noncomputable def IMVJ.specialized (c : IMVJConfig) (s : IMVJ ι κ) (other : List (Factor ι κ)) : Option (IMVJ ι κ) :=
  if c.mode = .always then some { s with oldJac := s.jac }
  else do
    let s ← s.lift c (QN.renew c.qn) (s.base.renewDels c.qn)
    let s ← s.applyFilter c
    let s ← s.store c other
    some { s with resetLS := s.resetLS || decide (c.qn.reused > 0 ∨ c.qn.force = true) }

/-- `BaseQNAcceleration::iterationsConverged` after `specializedIterationsConverged`, BaseQNAcceleration.cpp:668-712 -/
noncomputable def QN.finishWindow (c : QNConfig) (s : QN ι κ) (w : ι → ℝ) (newQR : Bool) : Option (QN ι κ) := do
  let s := { s with firstWindow := s.firstWindow && s.firstIteration, weights := w, newQR := s.newQR || newQR }
  let s ← s.dropWindow c
  some { s with sys := ⟨s.sys.V, s.sys.W, 0 :: s.sys.blocks⟩, firstIteration := true, window := s.window + 1, iteration := 0 }

/-- `updateDifferenceMatrices` at the end of a window, and the counter of a window without columns is removed, BaseQNAcceleration.cpp:647-651 -/
noncomputable def IMVJ.lastDifferences (c : IMVJConfig) (s : IMVJ ι κ) (r : ι → ℝ) (x : κ → ℝ) : Option (IMVJ ι κ) :=
  (s.updateDifferences c r x).map fun s => { s with base := { s.base with sys := ⟨s.base.sys.V, s.base.sys.W, popZero s.base.sys.blocks⟩ } }

/-- `iterationsConverged`, BaseQNAcceleration.cpp:617-713 -/
noncomputable def IMVJ.converged (c : IMVJConfig) (s : IMVJ ι κ) (r : ι → ℝ) (x : κ → ℝ) (w : ι → ℝ) (newQR : Bool) (other : List (Factor ι κ)) : Option (IMVJ ι κ) := do
  let s ← s.lastDifferences c r x
  let s ← s.specialized c other
  let b ← s.base.finishWindow c.qn w newQR
  some { s with base := b }

/-- `specializedInitializeVectorsAndPreconditioner`, IQNIMVJAcceleration.cpp:741-788 -/
def IMVJ.init (w : ι → ℝ) : IMVJ ι κ where
  base := QN.init w
  til := []
  jac := fun _ _ => 0
  oldJac := fun _ _ => 0
  chunk := []
  resetLS := false

/-- One call of the coupling scheme. -/
noncomputable def IMVJ.step (c : IMVJConfig) (s : IMVJ ι κ) (a : QNCall ι κ) (other : List (Factor ι κ)) : Option (IMVJ ι κ) :=
  if a.conv then s.converged c a.residual a.values a.weights a.newQR other else s.accelerate c a.residual a.values a.weights a.newQR

/-- States that can be reached with configuration `c`. -/
inductive IMVJ.Reachable (c : IMVJConfig) : IMVJ ι κ → Prop
  | init (w : ι → ℝ) : IMVJ.Reachable c (IMVJ.init w)
  | step {s s' : IMVJ ι κ} {a : QNCall ι κ} {other : List (Factor ι κ)} :
      IMVJ.Reachable c s → (a.weights ≠ s.base.weights → a.newQR = true) → s.step c a other = some s' → IMVJ.Reachable c s'

end Verif.Accel
