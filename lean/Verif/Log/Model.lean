import Verif.Log.Writer
import Verif.Scheme.Simulate
import Verif.Scheme.MeasureProps

/-!
# The log files of an implicit coupling scheme

`precice-<participant>-iterations.log` and `precice-<participant>-convergence.log`:
`initializeTXTWriters`, `advanceTXTWriters` and the output of `measureConvergence`
(`/repo/src/cplscheme/BaseCouplingScheme.cpp`), inserted into the scheme of `Verif.Scheme.Base` at the places
where the code calls them. This is the primary rank or the only rank of a participant; secondary ranks
write nothing (`not utils::IntraComm::isSecondary()`).
-/

set_option autoImplicit false

namespace Verif.Log

open Prog

variable {ι D R : Type}

/-- What the columns of the files depend on. -/
structure LogCfg where
  /-- `logHeader()` of the convergence measures, BaseCouplingScheme.hpp:499-502 -/
  measures : List String
  /-- quasi-Newton acceleration, the only one with own columns -/
  qn : Bool
  /-- whether `doImplicitStep` is called in `exchangeFirstData` (SerialCouplingScheme.cpp:121-152) or in
  `exchangeSecondData` (ParallelCouplingScheme.cpp:75-112, MultiCouplingScheme.cpp:147-174) -/
  inFirst : Bool

/-- What is written besides the counters, and whether this call of `advance` reinitializes the participant. -/
structure LogIn (R : Type) where
  /-- result of `reinitHandshake`, ParticipantImpl.cpp:436; it is evaluated at the end of a window only -/
  remesh : Bool
  /-- `getNormResidual()` and the flags of the convergence measures -/
  meas : List (R × Measure.Ctx)
  /-- `getLSSystemCols()`, `getDeletedColumns()`, `getDroppedColumns()` -/
  qn : ℤ × ℤ × ℤ

/-- The two files of a participant. A first participant has no convergence log (its writer is null in the
code). -/
structure Files (R : Type) where
  iter : Writer R
  conv : Writer R

/-- The participant measures convergence. -/
def measures (c : Config) : Bool := c.implicit && !c.first

/-- `addLogEntries`, BaseQNAcceleration.cpp:947-952; the other accelerations have no entries,
Acceleration.hpp:53. -/
def addLogEntries (g : LogCfg) (w : Writer R) : Writer R :=
  if g.qn then
    ((w.addData "QNColumns" .int).addData "DeletedQNColumns" .int).addData "DroppedQNColumns" .int
  else w

/-- `initializeTXTWriters`, BaseCouplingScheme.cpp:751-780. -/
def openFiles (c : Config) (g : LogCfg) : Files R :=
  let it : Writer R := (((Writer.opened.addData "TimeWindow" .int).addData "TotalIterations" .int).addData
    "Iterations" .int).addData "Convergence" .int
  if c.first then ⟨it, .opened⟩
  else
    let cv : Writer R := (Writer.opened.addData "TimeWindow" .int).addData "Iteration" .int
    ⟨addLogEntries g it, g.measures.foldl (fun w n => w.addData n .double) cv⟩

/-- The values of `writeLogEntries`, BaseQNAcceleration.cpp:954-959. -/
def qnEntries (g : LogCfg) (l : LogIn R) : List (String × Cell R) :=
  if g.qn then
    [("QNColumns", .int l.qn.1), ("DeletedQNColumns", .int l.qn.2.1), ("DroppedQNColumns", .int l.qn.2.2)]
  else []

/-- The entry in the column `Convergence`, BaseCouplingScheme.cpp:789-790. -/
def convFlag (c : Config) (iters : ℕ) : ℤ :=
  if (c.minIter ≤ iters) ∧ (Measure.rawMax c.maxIter < 0 ∨ (iters : ℤ) < Measure.rawMax c.maxIter) then 1 else 0

/-- `advanceTXTWriters`, BaseCouplingScheme.cpp:782-797. -/
def advanceWriters (c : Config) (g : LogCfg) (l : LogIn R) (s : State D) (w : Writer R) :
    Except Err (Writer R) :=
  (w.writeAll [("TimeWindow", .int (s.windows - 1)), ("TotalIterations", .int s.total),
    ("Iterations", .int s.iters), ("Convergence", .int (convFlag c s.iters))]).bind fun w =>
  if c.first then .ok w else w.writeAll (qnEntries g l)

/-- The loop of `measureConvergence`, BaseCouplingScheme.cpp:711-736, as far as it writes and fails. -/
def measureLoop (iters maxIter : ℤ) : List (String × R × Measure.Ctx) → Writer R → Except Err (Writer R)
  | [], w => .ok w
  | (n, r, m) :: ms, w =>
    (w.writeData n (.double r)).bind fun w =>
    if m.holds = false ∧ m.strict = true ∧ ¬ iters < maxIter then .error .check
    else measureLoop iters maxIter ms w

/-- The output of `measureConvergence`, BaseCouplingScheme.cpp:690-736. -/
def measureLog (c : Config) (g : LogCfg) (l : LogIn R) (s : State D) (w : Writer R) :
    Except Err (Writer R) :=
  (w.writeAll [("TimeWindow", .int (s.windows - 1)), ("Iteration", .int s.iters)]).bind
    (measureLoop s.iters (Measure.rawMax c.maxIter) (g.measures.zip l.meas))

/-- A failing computation as a program. -/
def lift {M α : Type} : Except Err α → Prog ι M α
  | .ok a => ret a
  | .error e => fail e

/-- The log file part of `doImplicitStep` if it is executed here. -/
def logMeasure (c : Config) (g : LogCfg) (here : Bool) (l : LogIn R) (s : State D) (f : Files R) :
    Prog ι (Msg D) (Files R) :=
  if here && measures c then
    (lift (measureLog c g l s f.conv)).bind fun w => ret { f with conv := w }
  else ret f

/-- `firstExchange` with log files, BaseCouplingScheme.cpp:341-357. -/
def firstExchangeL (c : Config) (h : Hooks ι D) (g : LogCfg) (i : StepIn D) (l : LogIn R) (s : State D)
    (f : Files R) : Prog ι (Msg D) (State D × Files R) :=
  checkActions s fun s =>
  let s := { s with received := false, complete := false }
  if s.reachedEndOfWindow then
    let s := { s with windows := s.windows + 1 }
    (logMeasure c g g.inFirst l s f).bind fun f =>
    (h.first i s).bind fun s => ret (s, f)
  else ret (s, f)

/-- The part of `secondExchange` after `exchangeSecondData` with log files, BaseCouplingScheme.cpp:378-420. -/
def finishWindowL (c : Config) (g : LogCfg) (l : LogIn R) (s : State D) (f : Files R) :
    Prog ι (Msg D) (State D × Files R) :=
  -- 389-391
  (if c.implicit = true ∧ s.converged = true then
    (lift (advanceWriters c g l s f.iter)).bind fun w => ret { f with iter := w }
  else ret f).bind fun f =>
  (finishWindow c s).bind fun s => ret (s, f)

/-- `secondExchange` with log files, BaseCouplingScheme.cpp:364-422. (The parallel and the multi scheme
assert that the participant is at the end of the window before they measure; this has no effect on files.) -/
def secondExchangeL (c : Config) (h : Hooks ι D) (g : LogCfg) (i : StepIn D) (l : LogIn R) (s : State D)
    (f : Files R) : Prog ι (Msg D) (State D × Files R) :=
  checkActions s fun s =>
  ensure .assert (s.complete = false) <|
  if s.reachedEndOfWindow then
    (logMeasure c g (!g.inFirst) l s f).bind fun f =>
    (h.second i s).bind fun s => finishWindowL c g l s f
  else ret (s, f)

/-- `reinitialize` as far as the files are concerned, BaseCouplingScheme.cpp:309-328, called in
ParticipantImpl.cpp:427-441 at the end of a window. -/
def reopen (c : Config) (g : LogCfg) (l : LogIn R) (s : State D) (f : Files R) : Files R :=
  if c.implicit = true ∧ l.remesh = true ∧ s.reachedEndOfWindow then openFiles c g else f

/-- `advance` with log files, ParticipantImpl.cpp:407-449. -/
def advanceL (c : Config) (h : Hooks ι D) (g : LogCfg) (i : StepIn D) (l : LogIn R) (s : State D)
    (f : Files R) : Prog ι (Msg D) (State D × Files R) :=
  (addComputedTime c s i.dt ret).bind fun s =>
  (firstExchangeL c h g i l { s with sendBuf := i.value } (reopen c g l s f)).bind fun x =>
  secondExchangeL c h g i l x.1 x.2

/-- There is a residual for every convergence measure and they give the verdict. -/
structure Fits (c : Config) (g : LogCfg) (i : StepIn D) (l : LogIn R) : Prop where
  length : measures c = true → l.meas.length = g.measures.length
  verdict : measures c = true →
    (i.verdict = true ↔ l.meas ≠ [] ∧ Measure.verdict (l.meas.map (·.2)))

/-- Executions with log files. The files are opened in `initialize()`, BaseCouplingScheme.cpp:302. -/
inductive LExec (c : Config) (h : Hooks ι D) (g : LogCfg) (P : State D → ℚ → Prop) (s₀ : State D) :
    List (Obs × LogIn R) → State D → Files R → Prop where
  | nil : LExec c h g P s₀ [] s₀ (openFiles c g)
  | step {log : List (Obs × LogIn R)} {s s' : State D} {f f' : Files R} {i : StepIn D} {l : LogIn R}
      {tr : List (Ev ι (Msg D))} :
      LExec c h g P s₀ log s f → P s i.dt → Fits c g i l →
      Run (advanceL c h g i l s.fulfilAll f) tr (s', f') →
      LExec c h g P s₀ (log ++ [(s'.obs i, l)]) s' f'

end Verif.Log
