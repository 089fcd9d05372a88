import Mathlib.Data.Rat.Defs
import Mathlib.Data.List.Basic
import Mathlib.Logic.Function.Basic

/-!
# Exporters: which files are written when

Model of `/repo/src/io/Export.cpp`, `ExportXML.cpp`, `ExportVTU.cpp`, `ExportVTP.cpp`,
`ExportVTK.cpp`, `ExportCSV.cpp` as far as file names, file series and the division into pieces
are concerned, and of their use in `ParticipantState.cpp:374-434` and
`ParticipantImpl.cpp:1741-1762`.

What a data file says about the mesh is a payload `σ` here; `Verif.Export.Content` models it.
Opening a file always succeeds, the disk does not fill up, and different locations denote
different directories.
-/

set_option autoImplicit false

namespace Verif.Export

abbrev Name := List Char

/-- Types of `<export:...>`, io/config/ExportConfiguration.cpp:12-40. -/
inductive Format where
  | vtk | vtu | vtp | csv
  deriving DecidableEq

/-- One exporter: `io::ExportContext` (io/ExportContext.hpp) with the constructor arguments of
`io::Export` (Export.hpp:24-38). `_kind` is `Iterations` iff `everyIteration`
(ParticipantConfiguration.cpp:660). -/
structure Exporter where
  participant : Name
  location : Name
  mesh : Name
  format : Format
  everyIteration : Bool
  /-- `everyNTimeWindows`, any C++ `int` may be configured -/
  freq : ℤ
  updateSeries : Bool
  rank : ℕ
  size : ℕ

/-- A directory and the name of a file in it. -/
abbrev Path := Name × Name

/-- What is in a file: the part of the mesh known to one rank, the names of the piece files a
parallel file refers to, or the records of a series file. -/
inductive Content (σ : Type) where
  | snapshot (s : σ)
  | pieces (l : List Name)
  | series (l : List (Name × ℚ))
  deriving DecidableEq

/-- Creating or replacing a file, `std::ofstream(…, std::ios::trunc)`. -/
structure Write (σ : Type) where
  path : Path
  content : Content σ
  deriving DecidableEq

abbrev Files (σ : Type) := Path → Option (Content σ)

/-- The files after a sequence of writes. -/
def Files.after {σ : Type} (f : Files σ) (ws : List (Write σ)) : Files σ :=
  ws.foldl (fun f w => Function.update f w.path (some w.content)) f

/-- The mesh when an exporter looks at it: what each rank has of it, and `_vertexOffsets`, which
all ranks know. -/
structure Instant (σ : Type) where
  part : ℕ → σ
  offsets : List ℕ

/-- `std::to_string` and `fmt` of a nonnegative number. -/
def digits (n : ℕ) : Name := Nat.toDigits 10 n

/-- `Export::isParallel`, Export.cpp:7-10. -/
def Exporter.isParallel (e : Exporter) : Bool := 1 < e.size

/-- `Export::formatIndex`, Export.cpp:12-19. -/
def Exporter.formatIndex (e : Exporter) (index : ℕ) : Name :=
  if index = 0 then ['i', 'n', 'i', 't']
  else (if e.everyIteration then ['i', 't'] else ['d', 't']) ++ digits index

/-- `Export::keepExport`, Export.hpp:65-68. -/
def Exporter.keepExport (e : Exporter) (index : ℕ) : Bool :=
  e.everyIteration || (decide (0 < e.freq) && decide ((index : ℤ) % e.freq = 0))

/-- `getPieceExtension`, ExportVTU.cpp:42-45, ExportVTP.cpp; the fixed extensions of VTK and CSV. -/
def Exporter.ext (e : Exporter) : Name :=
  match e.format with
  | .vtk => ['v', 't', 'k']
  | .vtu => ['v', 't', 'u']
  | .vtp => ['v', 't', 'p']
  | .csv => ['c', 's', 'v']

/-- `getParallelExtension`, ExportVTU.cpp:37-40, ExportVTP.cpp. -/
def Exporter.parallelExt (e : Exporter) : Name := 'p' :: e.ext

/-- `"{mesh}-{participant}.{label}.{ext}"`, the common shape of all file names. -/
def Exporter.name (e : Exporter) (label ext : Name) : Name :=
  e.mesh ++ '-' :: (e.participant ++ '.' :: (label ++ '.' :: ext))

def Exporter.path (e : Exporter) (label ext : Name) : Path := (e.location, e.name label ext)

/-- `serialPieceFilename`, ExportXML.cpp:107-111; ExportVTK.cpp:41; ExportCSV.cpp:61. -/
def Exporter.serialPath (e : Exporter) (index : ℕ) : Path := e.path (e.formatIndex index) e.ext

/-- The file of `writeParallelFile`, ExportXML.cpp:113-119. -/
def Exporter.parallelPath (e : Exporter) (index : ℕ) : Path :=
  e.path (e.formatIndex index) e.parallelExt

/-- `"{index}_{rank}"` -/
def Exporter.pieceLabel (e : Exporter) (index rank : ℕ) : Name :=
  e.formatIndex index ++ '_' :: digits rank

/-- `parallelPieceFilenameFor`, ExportXML.cpp:101-105. -/
def Exporter.piecePath (e : Exporter) (index rank : ℕ) : Path :=
  e.path (e.pieceLabel index rank) e.ext

/-- `"{rank}_{index}"` -/
def Exporter.csvLabel (e : Exporter) (index rank : ℕ) : Name :=
  digits rank ++ '_' :: e.formatIndex index

/-- The file of one rank of a parallel CSV export, ExportCSV.cpp:56-58. -/
def Exporter.csvPath (e : Exporter) (index rank : ℕ) : Path :=
  e.path (e.csvLabel index rank) e.ext

/-- The series file, ExportXML.cpp:60-67, ExportVTK.cpp:59-65. CSV exporters write none. -/
def Exporter.seriesPath (e : Exporter) : Path :=
  e.path (if e.isParallel then e.parallelExt else e.ext) ['s', 'e', 'r', 'i', 'e', 's']

/-- `Mesh::isPartitionEmpty`, Mesh.cpp:311-322. Ranks beyond the offsets, for which the code reads
out of bounds, are excluded where this is used. -/
def isPartitionEmpty (offsets : List ℕ) (rank : ℕ) : Bool :=
  if offsets.isEmpty then false
  else if rank = 0 then decide (offsets.getD 0 0 = 0)
  else decide (offsets.getD rank 0 - offsets.getD (rank - 1) 0 = 0)

variable {σ : Type}

/-- The files of `doExport` once the export is kept. XML: ExportXML.cpp:45-57 with the list of
pieces from 141-147; VTK: ExportVTK.cpp:41-57; CSV: ExportCSV.cpp:54-75. -/
def Exporter.outs (e : Exporter) (index : ℕ) (i : Instant σ) : List (Write σ) :=
  match e.format with
  | .vtk => [⟨e.serialPath index, .snapshot (i.part e.rank)⟩]
  | .csv =>
    if e.isParallel then [⟨e.csvPath index e.rank, .snapshot (i.part e.rank)⟩]
    else [⟨e.serialPath index, .snapshot (i.part e.rank)⟩]
  | _ =>
    if e.isParallel then
      (if e.rank = 0 then
        [⟨e.parallelPath index, .pieces (((List.range e.size).filter fun r =>
          !isPartitionEmpty i.offsets r).map fun r => (e.piecePath index r).2)⟩]
      else []) ++
      (if isPartitionEmpty i.offsets e.rank then []
      else [⟨e.piecePath index e.rank, .snapshot (i.part e.rank)⟩])
    else [⟨e.serialPath index, .snapshot (i.part e.rank)⟩]

/-- The records of `doExport` once the export is kept: `recordExport` in ExportXML.cpp:120 (rank 0
only) and 167, ExportVTK.cpp:56. CSV exporters record nothing. -/
def Exporter.recorded (e : Exporter) (index : ℕ) : List Name :=
  match e.format with
  | .vtk => [(e.serialPath index).2]
  | .csv => []
  | _ =>
    if e.isParallel then if e.rank = 0 then [(e.parallelPath index).2] else []
    else [(e.serialPath index).2]

/-- Records of an exporter, `_records`. -/
abbrev Records := List (Name × ℚ)

/-- `doExport` of all exporters: ExportXML.cpp:33-58, ExportVTK.cpp:30-57, ExportCSV.cpp:44-128. -/
def Exporter.doExport (e : Exporter) (index : ℕ) (time : ℚ) (i : Instant σ) (recs : Records) :
    Records × List (Write σ) :=
  if e.keepExport index then
    (recs ++ (e.recorded index).map fun n => (n, time), e.outs index i)
  else (recs, [])

/-- `exportSeries`: ExportXML.cpp:60-67 and ExportVTK.cpp:59-65 with `Export::writeSeriesFile`
(Export.cpp:21-43); ExportCSV.cpp:130-133. -/
def Exporter.exportSeries (e : Exporter) (recs : Records) : List (Write σ) :=
  match e.format with
  | .csv => []
  | _ =>
    if e.isParallel && decide (0 < e.rank) then []
    else if recs.isEmpty then [] else [⟨e.seriesPath, .series recs⟩]

/-- `ParticipantState::exportInitial` for one context, ParticipantState.cpp:374-390. -/
def Exporter.exportInitial (e : Exporter) (i : Instant σ) : Records × List (Write σ) :=
  if e.freq < 1 then ([], [])
  else
    let r := e.doExport 0 0 i []
    (r.1, r.2 ++ if e.updateSeries then e.exportSeries r.1 else [])

/-- `ParticipantState::IntermediateExport` and the mesh at that moment. -/
structure Exp (σ : Type) where
  timewindow : ℕ
  iteration : ℕ
  complete : Bool
  final : Bool
  time : ℚ
  inst : Instant σ

/-- `ParticipantState::exportIntermediate` for one context, ParticipantState.cpp:406-423. -/
def Exporter.exportIntermediate (e : Exporter) (x : Exp σ) (recs : Records) :
    Records × List (Write σ) :=
  if e.everyIteration then e.doExport x.iteration x.time x.inst recs
  else
    let r := if x.complete then e.doExport x.timewindow x.time x.inst recs else (recs, [])
    (r.1, r.2 ++ if x.final || (x.complete && e.updateSeries) then e.exportSeries r.1 else [])

/-- One call of `advance`, as far as exports depend on it. -/
structure Advance (σ : Type) where
  /-- `reachedTimeWindowEnd` -/
  reached : Bool
  /-- for each coupling scheme of the participant, whether it is active and completed its time
  window with this call -/
  done : List Bool
  ongoing : Bool
  /-- `getTime()` after the call -/
  time : ℚ
  inst : Instant σ

/-- `isTimeWindowComplete()`: BaseCouplingScheme, or CompositionalCouplingScheme.cpp:370-378. -/
def Advance.complete (a : Advance σ) : Bool := a.done.any id

/-- `_timeWindows` of each scheme, incremented when its time window is complete,
BaseCouplingScheme.cpp:353, taken back at 386 otherwise. -/
def windowsAfter (ws : List ℕ) (done : List Bool) : List ℕ :=
  ws.zipWith (fun w d => if d then w + 1 else w) done

/-- `getTimeWindows()`: of the only scheme, or the minimum over all schemes,
CompositionalCouplingScheme.cpp:303-315. -/
def timeWindows : List ℕ → ℕ
  | [] => 0
  | [w] => w
  | w :: ws => min w (timeWindows ws)

/-- The calls of `exportIntermediate` during a run, `ParticipantImpl::handleExports`
(ParticipantImpl.cpp:1741-1762), called at the end of `handleDataAfterAdvance` (499-502, 542)
unless the participant is subcycling. `n` is `_numberAdvanceCalls`, incremented by every `advance`
(ParticipantImpl.cpp:418). -/
def exps (n : ℕ) (ws : List ℕ) : List (Advance σ) → List (Exp σ)
  | [] => []
  | a :: as =>
    let ws' := windowsAfter ws a.done
    (if a.reached then
      [⟨timeWindows ws' - 1, n + 1, a.complete, !a.ongoing, a.time, a.inst⟩] else []) ++
    exps (n + 1) ws' as

/-- What an exporter writes for these calls. -/
def Exporter.run (e : Exporter) (recs : Records) : List (Exp σ) → List (Write σ)
  | [] => []
  | x :: xs =>
    let r := e.exportIntermediate x recs
    r.2 ++ e.run r.1 xs

/-- What an exporter writes from `initialize` on, for a participant with `schemes` coupling schemes
(whose `_timeWindows` start at 1). -/
def Exporter.writes (e : Exporter) (schemes : ℕ) (start : Instant σ) (as : List (Advance σ)) :
    List (Write σ) :=
  let r := e.exportInitial start
  r.2 ++ e.run r.1 (exps 0 (List.replicate schemes 1) as)

/-- The same exporter on another rank. -/
def Exporter.on (e : Exporter) (r : ℕ) : Exporter := { e with rank := r }

/-- All ranks of a participant run its exporters; they share the file system. `log` is a possible
order of all writes, labelled with exporter and rank: every rank writes the files of an exporter in
the order of its own calls. -/
structure Log (es : List Exporter) (schemes size : ℕ) (start : Instant σ) (as : List (Advance σ))
    (log : List ((ℕ × ℕ) × Write σ)) : Prop where
  labels : ∀ w ∈ log, ∃ h : w.1.1 < es.length, w.1.2 < es[w.1.1].size
  sizes : ∀ e ∈ es, e.size = size
  order : ∀ i (h : i < es.length), ∀ r < es[i].size,
    (log.filter fun w => w.1 = (i, r)).map (·.2) = (es[i].on r).writes schemes start as

end Verif.Export
