import Verif.Export.Model
import Mathlib.Algebra.BigOperators.Group.List.Basic
import Mathlib.Algebra.Order.Ring.Int

/-!
# What a user expects of exports

Stated from the calls of `advance` only.
-/

set_option autoImplicit false

namespace Verif.Export

variable {σ : Type}

/-- The initial state and the ends of the completed time windows, in order. -/
def marks (start : Instant σ) (as : List (Advance σ)) : List (ℚ × Instant σ) :=
  (0, start) :: (as.filter (·.complete)).map fun a => (a.time, a.inst)

/-- The states to be exported by an exporter, with their number and time. Every n time windows: the
ends of the time windows `0, n, 2n, …`. Every iteration: the initial state and the state after
each `advance` that was no subcycling step, with the number of that call. -/
def exported (e : Exporter) (start : Instant σ) (as : List (Advance σ)) :
    List (ℕ × ℚ × Instant σ) :=
  if e.everyIteration then
    (if e.freq < 1 then [] else [(0, 0, start)]) ++
    ((as.zipIdx 1).filter (·.1.reached)).map fun x => (x.2, x.1.time, x.1.inst)
  else if e.freq < 1 then []
  else (((marks start as).zipIdx).filter fun x => decide (e.freq ∣ (x.2 : ℤ))).map
    fun x => (x.2, x.1)

/-- `counts r` vertices on rank `r`; the offsets are their partial sums (claim C57). -/
def Distributed (size : ℕ) (counts : ℕ → ℕ) (i : Instant σ) : Prop :=
  i.offsets.length = size ∧ ∀ r < size, i.offsets[r]? = some ((List.range (r + 1)).map counts).sum

/-- State number `k` of the mesh can be found in the files. -/
def Stored (e : Exporter) (k : ℕ) (counts : ℕ → ℕ) (i : Instant σ) (f : Files σ) : Prop :=
  if e.size = 1 then f (e.serialPath k) = some (.snapshot (i.part 0))
  else if e.format = .csv then ∀ r < e.size, f (e.csvPath k r) = some (.snapshot (i.part r))
  else
    (∃ l : List Name, f (e.parallelPath k) = some (.pieces l) ∧ l.Nodup ∧
      ∀ n, n ∈ l ↔ ∃ r < e.size, counts r ≠ 0 ∧ n = (e.piecePath k r).2) ∧
    ∀ r < e.size, counts r ≠ 0 → f (e.piecePath k r) = some (.snapshot (i.part r))

/-- The file a series refers to. -/
def seriesEntry (e : Exporter) (k : ℕ) : Path :=
  if e.size = 1 then e.serialPath k else e.parallelPath k

/-- The names of the files of state `k`. -/
def fileOf (e : Exporter) (k : ℕ) (p : Path) : Prop :=
  p = e.serialPath k ∨ p = e.parallelPath k ∨ ∃ r < e.size, p = e.piecePath k r ∨ p = e.csvPath k r

/-- A configuration that is accepted: at least one rank, and the legacy VTK format only for serial
participants (ParticipantConfiguration.cpp:668-676). -/
def Accepted (e : Exporter) : Prop := 1 ≤ e.size ∧ (e.format = .vtk → e.size = 1)

/-- A file that belongs to an exporter. -/
def belongs (e : Exporter) (p : Path) : Prop := p = e.seriesPath ∨ ∃ k, fileOf e k p

/-- No two exporters of a participant have a file name in common. -/
def Apart (es : List Exporter) : Prop :=
  ∀ i (hi : i < es.length) j (hj : j < es.length), ∀ p, belongs es[i] p → belongs es[j] p → i = j

end Verif.Export
