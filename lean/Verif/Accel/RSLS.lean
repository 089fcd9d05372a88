import Verif.Accel.IMVJSpec
import Verif.Accel.IMVJ
import Verif.Accel.QNColumns

/-!
# Restart of the multi-vector quasi-Newton method with a least-squares problem (model for C103)

Model of the restart mode RS-LS of `/repo/src/acceleration/IQNIMVJAcceleration.cpp`: besides the data of `Verif.Accel.IMVJ` there are the difference matrices `_matrixV_RSLS` and `_matrixW_RSLS` with
the counters `_matrixCols_RSLS`. As in `Verif.Accel.QN`, columns carry the numbers of their window and iteration, and `none` stands for a violated assertion or undefined behaviour.
-/

set_option autoImplicit false
set_option linter.unusedSectionVars false

namespace Verif.Accel

variable {ι κ : Type} [Fintype ι] [Fintype κ]

/-- Shorten the matrices until twice the number of columns is less than the number of rows, IQNIMVJAcceleration.cpp:506-509; `removeMatrixColumnRSLS` (824-847) is `removeMatrixColumn` of the base
class for other matrices, and also needs two columns (line 828). The first argument bounds the number of passes. -/
def QNSystem.shorten (rows : ℕ) : ℕ → QNSystem ι κ → Option (QNSystem ι κ)
  | 0, m => if m.V.length * 2 ≥ rows then none else some m
  | n + 1, m => if m.V.length * 2 ≥ rows then (m.removeColumn (m.V.length - 1)).bind (QNSystem.shorten rows n) else some m

/-- The factorisation of the scaled matrix before the filter, IQNIMVJAcceleration.cpp:518-527: columns are inserted at the end, as in `resetFilter` without limit; a failed insertion is not reported,
but sets `_computeQR2Filter`. With the filter QR2 nothing is inserted here. -/
noncomputable def QNSystem.factorise (c : QNConfig) (w : ι → ℝ) (m : QNSystem ι κ) : QN ι κ :=
  if c.filter = .qr2 then { QN.init w with sys := m }
  else { QN.init w with sys := m, qr := (QR.resetFilter 0 (scaled w m.V)).1, needQR2 := !(QR.resetFilter 0 (scaled w m.V)).2.isEmpty }

/-- RS-LS in `restartIMVJ`, IQNIMVJAcceleration.cpp:500-567, with the weights `w` of the preconditioner: the new matrices and the new stored factors. Filtering is `applyFilter` of the base class with
the other matrices (530-538). Applying and reverting the preconditioner to `V` and `W` cancel. The number of columns of both factors has to be the same; the code asserts this when the factors are
used (line 112). -/
noncomputable def QNSystem.restart (c : QNConfig) (w : ι → ℝ) (m : QNSystem ι κ) : Option (QNSystem ι κ × List (Factor ι κ)) :=
  if m.V = [] then some (m, [])
  else do
    let m ← m.shorten (Fintype.card ι) m.V.length
    let s ← (m.factorise c w).applyFilter c
    if s.sys.V.length = s.qr.cols then some (s.sys, [⟨s.sys.W.map QNCol.val, pinv s.qr w⟩]) else none

/-- Drop the oldest window, IQNIMVJAcceleration.cpp:622-645; `reused` is `_RSLSreusedTimeWindows`. -/
def QNSystem.trim (reused : ℕ) (m : QNSystem ι κ) : Option (QNSystem ι κ) :=
  if m.blocks = [] then none
  else if reused = 0 then some ⟨[], [], [0]⟩
  else if (popZero m.blocks).length > reused then
    match (popZero m.blocks).getLast? with
    | none => none
    | some n =>
      if 0 < n ∧ n < m.V.length then some ⟨m.V.take (m.V.length - n), m.W.take (m.W.length - n), 0 :: (popZero m.blocks).dropLast⟩ else none
  else some ⟨m.V, m.W, 0 :: popZero m.blocks⟩

/-- The members of `IQNIMVJAcceleration` in the restart mode RS-LS. -/
structure RSLS (ι κ : Type) where
  imvj : IMVJ ι κ
  /-- `_matrixV_RSLS`, `_matrixW_RSLS`, `_matrixCols_RSLS` -/
  ls : QNSystem ι κ

/-- The part of `updateDifferenceMatrices` for RS-LS, IQNIMVJAcceleration.cpp:91-126: the first columns of `V` and `W`, which the base class has just added. -/
def RSLS.add (s : RSLS ι κ) (r : ι → ℝ) (x : κ → ℝ) : Option (QNSystem ι κ) :=
  if s.imvj.base.firstIteration then some s.ls
  else (incFront s.ls.blocks).map fun b => ⟨s.imvj.base.newV r :: s.ls.V, s.imvj.base.newW x :: s.ls.W, b⟩

/-- The end of a window, IQNIMVJAcceleration.cpp:617-724, with chunk size `size`. -/
noncomputable def RSLS.converged (c : IMVJConfig) (size reused : ℕ) (s : RSLS ι κ) (a : QNCall ι κ) : Option (RSLS ι κ) := do
  let m ← s.add a.residual a.values
  let m ← m.trim reused
  if s.imvj.chunk.length ≥ size then do
    let p ← m.restart c.qn s.imvj.base.weights
    let i ← s.imvj.step c a p.2
    some ⟨i, p.1⟩
  else do
    let i ← s.imvj.step c a []
    some ⟨i, m⟩

/-- One call of the coupling scheme. -/
noncomputable def RSLS.step (c : IMVJConfig) (size reused : ℕ) (s : RSLS ι κ) (a : QNCall ι κ) : Option (RSLS ι κ) :=
  if a.conv then s.converged c size reused a
  else do
    let m ← s.add a.residual a.values
    let i ← s.imvj.step c a []
    some ⟨i, m⟩

/-- `specializedInitializeVectorsAndPreconditioner`, IQNIMVJAcceleration.cpp:741-788 -/
def RSLS.init (w : ι → ℝ) : RSLS ι κ := ⟨IMVJ.init w, ⟨[], [], [0]⟩⟩

/-- States that can be reached; the mode of `c` is a restart mode that takes its factors from here. -/
inductive RSLS.Reachable (c : IMVJConfig) (size reused : ℕ) : RSLS ι κ → Prop
  | init (w : ι → ℝ) : RSLS.Reachable c size reused (RSLS.init w)
  | step {s s' : RSLS ι κ} {a : QNCall ι κ} :
      RSLS.Reachable c size reused s → (a.weights ≠ s.imvj.base.weights → a.newQR = true) → s.step c size reused a = some s' → RSLS.Reachable c size reused s'

end Verif.Accel
