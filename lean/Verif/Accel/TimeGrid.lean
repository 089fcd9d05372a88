import Verif.Api.DataPathSteps
import Verif.Waveform.StoreLemmas

/-!
# Time grids of the quasi-Newton methods (C105)

Model of `/repo/src/time/TimeGrids.cpp` and of its use in `/repo/src/acceleration/BaseQNAcceleration.cpp`: all data are sampled at the times
of a grid, which is taken from the samples in the first window and transformed to each later window; the accelerated values are stored at the times of the
grid.

Times are exact rationals. A grid belongs to one data; the map from data IDs to grids becomes a field of `Field`.
-/

set_option autoImplicit false

namespace Verif.TimeGrid

open DataPath

/-! ## The grid -/

/-- The constructor, TimeGrids.cpp:11-21; `times` are the times of the samples of a data, `tail<1>` of an empty vector is an assertion. -/
def create (reduced : Bool) (times : List ℚ) : Option (List ℚ) :=
  match times.getLast? with
  | none => if reduced then none else some []
  | some last => some (if reduced then [last] else times)

/-- `getTimeGridAfter`, TimeGrids.cpp:23-35 -/
def gridAfter (time : ℚ) (grid : List ℚ) : List ℚ := grid.filter fun d => decide (greater d time)

/-- `transformNewTime`, TimeGrids.cpp:53. The denominator is not zero for a grid with two different times. -/
def transform (oldMin oldMax newMin newMax t : ℚ) : ℚ := (t - oldMin) / (oldMax - oldMin) * (newMax - newMin) + newMin

/-- `moveTimeGridToNewWindow`, TimeGrids.cpp:37-58. Reading the first or last entry of an empty vector, and a division by zero, are undefined. -/
def moveGrid (times grid : List ℚ) : Option (List ℚ) :=
  match times.head?, times.getLast?, grid.head?, grid.getLast? with
  | some newMin, some newMax, some oldMin, some oldMax =>
    if grid.length = 1 then some [newMax]
    else if oldMax - oldMin = 0 then none
    else some (grid.map (transform oldMin oldMax newMin newMax))
  | _, _, _, _ => none

/-- `_firstTimeWindow`, `_firstIteration` and the grid of a data in `_timeGrids` or `_primaryTimeGrids`. -/
structure State where
  firstWindow : Bool
  firstIteration : Bool
  grid : Option (List ℚ)

/-- BaseQNAcceleration.cpp:113-114 -/
def State.init : State := ⟨true, true, none⟩

/-- What `performAcceleration` (BaseQNAcceleration.cpp:374-387) and `iterationsConverged` (634-642) do first with the grid: create it in the
first iteration of the first window (`initializeVectorsAndPreconditioner`, 854-856), move it in the first iteration of each window. -/
def State.prepare (reduced : Bool) (times : List ℚ) (s : State) : Option (List ℚ) := do
  let grid ← if s.firstWindow && s.firstIteration then create reduced times else s.grid
  if s.firstIteration then moveGrid times grid else some grid

/-- An iteration that does not converge: `performAcceleration`, `_firstIteration` is set at 409 and 556. The result contains the grid that is used. -/
def State.perform (reduced : Bool) (times : List ℚ) (s : State) : Option (List ℚ × State) := do
  let grid ← s.prepare reduced times
  some (grid, ⟨s.firstWindow, false, some grid⟩)

/-- The last iteration of a window: `iterationsConverged`, flags at 672-673 and 712. If this is the first iteration of the window, `_firstTimeWindow` stays. -/
def State.converged (reduced : Bool) (times : List ℚ) (s : State) : Option (List ℚ × State) := do
  let grid ← s.prepare reduced times
  some (grid, ⟨s.firstWindow && s.firstIteration, true, some grid⟩)

/-- A window: its start, its end, and the times of the samples of the data in each of its iterations; in the last one the scheme converges. -/
structure Window where
  start : ℚ
  stop : ℚ
  repeated : List (List ℚ)
  last : List ℚ

/-- The iterations of a window that are repeated; the result are the times at which values are exchanged with the acceleration. -/
def iterations (reduced : Bool) (start : ℚ) : List (List ℚ) → State → Option (List (List ℚ) × State)
  | [], s => some ([], s)
  | times :: l, s => do
    let (grid, s) ← s.perform reduced times
    let (r, s) ← iterations reduced start l s
    some (gridAfter start grid :: r, s)

/-- One window. -/
def window (reduced : Bool) (w : Window) (s : State) : Option (List (List ℚ) × State) := do
  let (r, s) ← iterations reduced w.start w.repeated s
  let (grid, s) ← s.converged reduced w.last
  some (r ++ [gridAfter w.start grid], s)

/-- The times used in each iteration of each window. -/
def run (reduced : Bool) : List Window → State → Option (List (List (List ℚ)))
  | [], _ => some []
  | w :: l, s => do
    let (r, s) ← window reduced w s
    let rest ← run reduced l s
    some (r :: rest)

/-! ## The values -/

/-- One coupling data: the number of its values (`getSize()`), the samples in its waveform and their degree, the samples of the previous
iteration, and its time grid. -/
structure Field where
  size : ℕ
  degree : ℕ
  samples : Samples (List ℚ)
  previous : Samples (List ℚ)
  grid : List ℚ

/-- The waveform of the value with index `j`. -/
def component (degree j : ℕ) (l : Samples (List ℚ)) : Waveform := ⟨l.map fun s => (s.1, s.2.getD j 0), degree, none⟩

/-- `Waveform::sample`, Waveform.cpp:200-228, for all values; the spline is not cached (C30 is about the cache). -/
def sampleAt (q : Bspline.Solver) (size degree : ℕ) (l : Samples (List ℚ)) (t : ℚ) : Option (List ℚ) :=
  (List.range size).mapM fun j => (component degree j l).read q t

/-- Write a block of values at an offset; the vector has to be long enough, BaseQNAcceleration.cpp:840-846. -/
def put (offset : ℕ) (x v : List ℚ) : Option (List ℚ) :=
  if offset + x.length ≤ v.length then some (v.take offset ++ x ++ v.drop (offset + x.length)) else none

/-- The inner loop of `concatenateCouplingData`, BaseQNAcceleration.cpp:835-848. The state is the vector and the offset. -/
def gatherTimes (sample : ℚ → Option (List ℚ)) : List ℚ → List ℚ × ℕ → Option (List ℚ × ℕ)
  | [], s => some s
  | t :: l, (v, offset) => do
    let x ← sample t
    let v ← put offset x v
    gatherTimes sample l (v, offset + x.length)

/-- `concatenateCouplingData`, BaseQNAcceleration.cpp:828-850, for one of its two vectors: `old` selects the values of the previous iteration. -/
def gather (q : Bspline.Solver) (old : Bool) (start : ℚ) : List Field → List ℚ × ℕ → Option (List ℚ × ℕ)
  | [], s => some s
  | f :: l, s => do
    let s ← gatherTimes (sampleAt q f.size f.degree (if old then f.previous else f.samples)) (gridAfter start f.grid) s
    gather q old start l s

/-- The number of unknowns, BaseQNAcceleration.cpp:858-865. -/
def unknowns (start : ℚ) (l : List Field) : ℕ := (l.map fun f => (gridAfter start f.grid).length * f.size).sum

/-- `_values` after `concatenateCouplingData`: the vector was created with `n` zeros, BaseQNAcceleration.cpp:867-868. -/
def concatenate (q : Bspline.Solver) (old : Bool) (start : ℚ) (n : ℕ) (l : List Field) : Option (List ℚ) :=
  (gather q old start l (List.replicate n 0, 0)).map (·.1)

/-- The inner loop of `updateCouplingData`, BaseQNAcceleration.cpp:596-605. Reading behind the end of the vector is an assertion of Eigen. -/
def storeTimes (size : ℕ) (v : List ℚ) : List ℚ → Samples (List ℚ) × ℕ → Except Err (Samples (List ℚ) × ℕ)
  | [], s => .ok s
  | t :: l, (samples, offset) =>
    if offset + size ≤ v.length then do
      let samples ← setSample t ((v.drop offset).take size) samples
      storeTimes size v l (samples, offset + size)
    else .error .assert

/-- `updateCouplingData`, BaseQNAcceleration.cpp:581-607. -/
def update (start : ℚ) (v : List ℚ) : List Field → ℕ → Except Err (List Field)
  | [], _ => .ok []
  | f :: l, offset => do
    let (samples, offset) ← storeTimes f.size v (gridAfter start f.grid) (trimAfter start f.samples, offset)
    let rest ← update start v l offset
    .ok ({ f with samples := samples } :: rest)

end Verif.TimeGrid
