import Verif.Accel.QRFilter

/-!
# The least-squares system of the quasi-Newton acceleration (model for C73, C74, C75, C92)

Model of `/repo/src/acceleration/BaseQNAcceleration.cpp` and `IQNILSAcceleration.cpp`: the difference matrices `V` and `W`, the number of columns per window `_matrixCols`, the
factorisation of the scaled matrix `V`, the filters and the clean-up after a window. `ι` are the (global) rows of the primary data, `κ` those of all data. Every column carries the number of
the window and of the iteration in which it was added; the code does not have these tags, they are only used to state properties.

A result `none` stands for a violated assertion of the code or for undefined behaviour (access to an empty deque, removing a column of an empty matrix).

The preconditioner is represented by its weights, which an update may change arbitrarily, and by the request for a new factorisation; `C77_request` in `Verif.Accel.Preconditioner` shows that a
change of the weights always comes with that request.
-/

set_option autoImplicit false
set_option linter.unusedSectionVars false

namespace Verif.Accel

open Finset

variable {ι κ : Type} [Fintype ι]

/-- `Acceleration::NOFILTER`, `QR1FILTER`, `QR1FILTER_ABS`, `QR2FILTER`, `QR3FILTER` -/
inductive FilterType where
  | none
  | qr1 (absolute : Bool)
  | qr2
  | qr3
  deriving DecidableEq

/-- Options of the acceleration. -/
structure QNConfig where
  filter : FilterType
  /-- `_singularityLimit` -/
  limit : ℝ
  /-- `_maxIterationsUsed` -/
  maxUsed : ℕ
  /-- `_timeWindowsReused` -/
  reused : ℕ
  /-- `_forceInitialRelaxation` -/
  force : Bool

/-- A column with the numbers of the window and the iteration in which it was added. -/
structure QNCol (α : Type) where
  tag : ℕ × ℕ
  val : α → ℝ

/-- The matrices with the counters: `_matrixV`, `_matrixW`, `_matrixCols`. -/
structure QNSystem (ι κ : Type) where
  V : List (QNCol ι)
  W : List (QNCol κ)
  blocks : List ℕ

/-- The members of `BaseQNAcceleration` that matter for the least-squares system. -/
structure QN (ι κ : Type) where
  sys : QNSystem ι κ
  qr : QR ι
  /-- `_qrV._computeQR2Filter`: set whenever a column could not be inserted -/
  needQR2 : Bool
  /-- weights of the preconditioner -/
  weights : ι → ℝ
  /-- `_preconditioner->requireNewQR()` -/
  newQR : Bool
  firstIteration : Bool
  firstWindow : Bool
  /-- `_matrixVBackup`, `_matrixWBackup`, `_matrixColsBackup` -/
  backup : QNSystem ι κ
  oldResidual : ι → ℝ
  oldXTilde : κ → ℝ
  /-- number of the current window, not in the code -/
  window : ℕ
  /-- number of the current iteration, not in the code -/
  iteration : ℕ

/-- `_preconditioner->apply` -/
def scaledCol (w : ι → ℝ) (v : ι → ℝ) : ι → ℝ := fun i => v i * w i

/-- `_preconditioner->apply(_matrixV)` -/
def scaled (w : ι → ℝ) (V : List (QNCol ι)) : List (ι → ℝ) := V.map fun c => scaledCol w c.val

/-- `_matrixCols.front()++`; undefined for an empty deque. -/
def incFront : List ℕ → Option (List ℕ)
  | [] => none
  | b :: bs => some ((b + 1) :: bs)

/-- `_matrixCols.back()--` and `pop_back` if it became zero, BaseQNAcceleration.cpp:345-348; undefined for an empty deque; a negative number is excluded. -/
def decBack : List ℕ → Option (List ℕ)
  | [] => none
  | [b] => if b = 0 then none else if b = 1 then some [] else some [b - 1]
  | b :: b' :: bs => (decBack (b' :: bs)).map fun l => b :: l

/-- `_qrV.pushFront`, QRFactorization.cpp:798-801: a failed insertion is not reported, but sets `_computeQR2Filter`. -/
noncomputable def QN.pushQR (s : QN ι κ) (v : ι → ℝ) : QN ι κ :=
  match s.qr.insertColumn 0 v 0 with
  | some q => { s with qr := q }
  | none => { s with needQR2 := true }

/-- `_qrV.popBack`, QRFactorization.cpp:813-816; there has to be a column. -/
noncomputable def QN.popQR (s : QN ι κ) : Option (QN ι κ) := if s.qr.cols = 0 then none else some { s with qr := s.qr.deleteColumn (s.qr.cols - 1) }

/-- The new columns of an iteration, `deltaR` and `deltaXTilde`. -/
def QN.newV (s : QN ι κ) (r : ι → ℝ) : QNCol ι := ⟨(s.window, s.iteration), fun i => r i - s.oldResidual i⟩

@[inherit_doc QN.newV]
def QN.newW (s : QN ι κ) (x : κ → ℝ) : QNCol κ := ⟨(s.window, s.iteration), fun i => x i - s.oldXTilde i⟩

/-- Add a column, BaseQNAcceleration.cpp:318-350; `getLSSystemCols()` is the sum of the counters. -/
noncomputable def QN.addColumn (c : QNConfig) (s : QN ι κ) (r : ι → ℝ) (x : κ → ℝ) : Option (QN ι κ) :=
  let dv := s.newV r
  let dw := s.newW x
  if s.sys.blocks.sum ≠ c.maxUsed ∧ s.sys.blocks.sum ≤ Fintype.card ι then do
    let b ← incFront s.sys.blocks
    some (QN.pushQR { s with sys := ⟨dv :: s.sys.V, dw :: s.sys.W, b⟩ } (scaledCol s.weights dv.val))
  else if s.sys.V = [] then none
  else do
    let s' ← QN.popQR (s.pushQR (scaledCol s.weights dv.val))
    let b ← incFront s.sys.blocks
    let b ← decBack b
    some { s' with sys := ⟨dv :: s.sys.V.dropLast, dw :: s.sys.W.dropLast, b⟩ }

/-- `updateDifferenceMatrices`, BaseQNAcceleration.cpp:266-356 -/
noncomputable def QN.updateDifferences (c : QNConfig) (s : QN ι κ) (r : ι → ℝ) (x : κ → ℝ) : Option (QN ι κ) :=
  if s.firstIteration ∧ (s.firstWindow ∨ c.force) then some s
  else (if s.firstIteration then some s else s.addColumn c r x).map fun s => { s with oldResidual := r, oldXTilde := x }

/-- Reduce the counter of the window the column belongs to, BaseQNAcceleration.cpp:733-746 -/
def decBlock : ℕ → List ℕ → List ℕ
  | _, [] => []
  | i, b :: bs => if i < b then (if b = 1 then bs else (b - 1) :: bs) else b :: decBlock (i - b) bs

/-- `removeMatrixColumn`, BaseQNAcceleration.cpp:721-747, with the assertions on the number of columns (lines 728 and EigenHelperFunctions.cpp:45). -/
def QNSystem.removeColumn (m : QNSystem ι κ) (i : ℕ) : Option (QNSystem ι κ) :=
  if 1 < m.V.length ∧ i < m.V.length then some ⟨m.V.eraseIdx i, m.W.eraseIdx i, decBlock i m.blocks⟩ else none

/-- Remove several columns in the given order. -/
def QNSystem.removeColumns (m : QNSystem ι κ) (is : List ℕ) : Option (QNSystem ι κ) := is.foldlM QNSystem.removeColumn m

/-- Rebuild the factorisation and remove the columns that could not be inserted, in ascending order, BaseQNAcceleration.cpp:430-434 and 453-458, with the final assertion. -/
noncomputable def QN.reset (s : QN ι κ) : Option (QN ι κ) := do
  let r := QR.reset (scaled s.weights s.sys.V)
  let m ← s.sys.removeColumns r.2
  if m.V.length = r.1.cols then some { s with qr := r.1, sys := m, needQR2 := s.needQR2 || !r.2.isEmpty } else none

/-- The filters by rebuilding, with removal in descending order. -/
noncomputable def QN.filterRebuild (c : QNConfig) (s : QN ι κ) : Option (QN ι κ) := do
  let r := QR.resetFilter c.limit (scaled s.weights s.sys.V)
  let m ← s.sys.removeColumns r.2.reverse
  if m.V.length = r.1.cols then some { s with qr := r.1, sys := m } else none

/-- The filter QR3 after its check: rebuild if it is needed or was requested. -/
noncomputable def QN.filterChecked (c : QNConfig) (s : QN ι κ) (need : Bool) : Option (QN ι κ) :=
  if need || s.needQR2 then s.filterRebuild c else if s.sys.V.length = s.qr.cols then some s else none

/-- `applyFilter`, BaseQNAcceleration.cpp:559-579, and QRFactorization.cpp:111-170 -/
noncomputable def QN.applyFilter (c : QNConfig) (s : QN ι κ) : Option (QN ι κ) :=
  match c.filter with
  | .none => some s
  | .qr1 absolute => do
    let r := s.qr.filter1 absolute c.limit
    let m ← s.sys.removeColumns r.2.reverse
    if m.V.length = r.1.cols then some { s with qr := r.1, sys := m } else none
  | .qr2 => s.filterRebuild c
  | .qr3 => do
    let need ← s.qr.needsQR2 c.limit (scaled s.weights s.sys.V)
    let s ← s.filterChecked c need
    some { s with needQR2 := false }

/-- Restore the matrices of the backup, BaseQNAcceleration.cpp:415-439 -/
noncomputable def QN.restore (c : QNConfig) (s : QN ι κ) : Option (QN ι κ) :=
  if ¬ s.firstWindow ∧ s.sys.blocks.sum < 1 ∧ c.reused = 0 ∧ ¬ c.force then QN.reset { s with sys := s.backup } else some s

/-- The new factorisation; with the filters QR2 and QR3 it is left to them. -/
noncomputable def QN.newFactors (c : QNConfig) (s : QN ι κ) : Option (QN ι κ) := if c.filter = .qr2 ∨ c.filter = .qr3 then some s else s.reset

/-- Update of the preconditioner and the new factorisation it asks for, BaseQNAcceleration.cpp:446-465 -/
noncomputable def QN.precondition (c : QNConfig) (s : QN ι κ) (w : ι → ℝ) (newQR : Bool) : Option (QN ι κ) :=
  let s := { s with weights := w, newQR := s.newQR || newQR }
  if s.newQR then (s.newFactors c).map fun s => { s with needQR2 := s.needQR2 || decide (c.filter = .qr3), newQR := false }
  else some s

/-- The part of `performAcceleration` before the update is computed, BaseQNAcceleration.cpp:403-477, with the assertion of `computeQNUpdate`, IQNILSAcceleration.cpp:83. -/
noncomputable def QN.prepare (c : QNConfig) (s : QN ι κ) (r : ι → ℝ) (x : κ → ℝ) (w : ι → ℝ) (newQR : Bool) : Option (QN ι κ) := do
  let s ← s.updateDifferences c r x
  let s ← s.restore c
  let s ← s.precondition c w newQR
  let s ← s.applyFilter c
  if s.qr.cols = s.sys.blocks.sum then some s else none

/-- The matrices are deleted after the first iteration if no windows are reused, BaseQNAcceleration.cpp:513-542 -/
def QN.pending (c : QNConfig) (s : QN ι κ) : QN ι κ :=
  if s.firstIteration ∧ c.reused = 0 ∧ ¬ c.force then
    let s := if s.sys.blocks.sum > 0 then { s with backup := s.sys } else s
    if ¬ s.firstWindow then { s with sys := ⟨[], [], [0]⟩, qr := QR.empty } else s
  else s

/-- `performAcceleration`, BaseQNAcceleration.cpp:364-557 -/
noncomputable def QN.accelerate (c : QNConfig) (s : QN ι κ) (r : ι → ℝ) (x : κ → ℝ) (w : ι → ℝ) (newQR : Bool) : Option (QN ι κ) :=
  if s.firstIteration ∧ (s.firstWindow ∨ c.force) then some { s with oldResidual := r, oldXTilde := x, firstIteration := false, iteration := s.iteration + 1 }
  else do
    let s ← s.prepare c r x w newQR
    some { s.pending c with firstIteration := false, iteration := s.iteration + 1 }

/-- `if (_matrixCols.front() == 0) pop_front`, BaseQNAcceleration.cpp:649-651 and IQNILSAcceleration.cpp:116-124 -/
def popZero : List ℕ → List ℕ
  | 0 :: bs => bs
  | bs => bs

/-- Remove the last columns one by one, BaseQNAcceleration.cpp:701-707 -/
noncomputable def QN.dropColumns : ℕ → QN ι κ → Option (QN ι κ)
  | 0, s => some s
  | n + 1, s => do
    let s ← s.popQR
    QN.dropColumns n { s with sys := ⟨s.sys.V.dropLast, s.sys.W.dropLast, s.sys.blocks⟩ }

/-- Remove the oldest window, BaseQNAcceleration.cpp:678-709 -/
noncomputable def QN.dropWindow (c : QNConfig) (s : QN ι κ) : Option (QN ι κ) :=
  if c.reused = 0 then
    some (if c.force then { s with sys := ⟨[], [], []⟩, qr := QR.empty } else s)
  else if s.sys.blocks.length > c.reused then
    match s.sys.blocks.getLast? with
    | none => none
    | some n =>
      if 0 < n ∧ n < s.sys.blocks.sum then do
        let s ← s.dropColumns n
        some { s with sys := ⟨s.sys.V, s.sys.W, s.sys.blocks.dropLast⟩ }
      else none
  else some s

/-- `iterationsConverged`, BaseQNAcceleration.cpp:617-713 -/
noncomputable def QN.converged (c : QNConfig) (s : QN ι κ) (r : ι → ℝ) (x : κ → ℝ) (w : ι → ℝ) (newQR : Bool) : Option (QN ι κ) := do
  let s ← s.updateDifferences c r x
  let s := { s with sys := ⟨s.sys.V, s.sys.W, popZero (popZero s.sys.blocks)⟩ }
  let s := { s with firstWindow := s.firstWindow && s.firstIteration, weights := w, newQR := s.newQR || newQR }
  let s ← s.dropWindow c
  some { s with sys := ⟨s.sys.V, s.sys.W, 0 :: s.sys.blocks⟩, firstIteration := true, window := s.window + 1, iteration := 0 }

/-- `initialize` and `initializeVectorsAndPreconditioner`, BaseQNAcceleration.cpp:88-115, 851-948 -/
def QN.init (w : ι → ℝ) : QN ι κ where
  sys := ⟨[], [], [0]⟩
  qr := QR.empty
  needQR2 := false
  weights := w
  newQR := false
  firstIteration := true
  firstWindow := true
  backup := ⟨[], [], []⟩
  oldResidual := fun _ => 0
  oldXTilde := fun _ => 0
  window := 0
  iteration := 0

/-- A call of the coupling scheme: an iteration that has not converged, or one that has. A change of the weights comes with a request for a new factorisation. -/
structure QNCall (ι κ : Type) where
  conv : Bool
  residual : ι → ℝ
  values : κ → ℝ
  weights : ι → ℝ
  newQR : Bool

/-- One call. -/
noncomputable def QN.step (c : QNConfig) (s : QN ι κ) (a : QNCall ι κ) : Option (QN ι κ) :=
  if a.conv then s.converged c a.residual a.values a.weights a.newQR else s.accelerate c a.residual a.values a.weights a.newQR

/-- States that can be reached with configuration `c`. -/
inductive QN.Reachable (c : QNConfig) : QN ι κ → Prop
  | init (w : ι → ℝ) : QN.Reachable c (QN.init w)
  | step {s s' : QN ι κ} {a : QNCall ι κ} : QN.Reachable c s → (a.weights ≠ s.weights → a.newQR = true) → s.step c a = some s' → QN.Reachable c s'

end Verif.Accel
