import Verif.Export.Model
import Mathlib.Algebra.Order.Floor.Ring
import Mathlib.Algebra.Order.Round
import Mathlib.Data.Int.Log
import Mathlib.Data.Rat.Floor

/-!
# Exporters: what the files say

Model of the mesh, its cells and its data in the files of `/repo/src/io/ExportXML.cpp`,
`ExportVTU.cpp`, `ExportVTP.cpp`, `ExportVTK.cpp` and `ExportCSV.cpp`. A file is modelled by the
numbers and names in its arrays, in order; white space, XML tags and headers without information on
the mesh are left out. `r x` is the number a reader gets for the printed number `x`.
-/

set_option autoImplicit false

namespace Verif.Export

/-- A data of a mesh, mesh/Data.hpp: its last sample (values vertex by vertex, and the columns of
the matrix of gradients), or none if its waveform is empty. -/
structure Field where
  name : Name
  /-- `getDimensions()` -/
  comps : ℕ
  hasGradient : Bool
  last : Option (List ℚ × List (List ℚ))

/-- What exporters read of a mesh. -/
structure Mesh where
  dim : ℕ
  verts : List (List ℚ)
  edges : List (ℕ × ℕ)
  tris : List (ℕ × ℕ × ℕ)
  tets : List (ℕ × ℕ × ℕ × ℕ)
  fields : List Field

/-- `<DataArray Name NumberOfComponents>` -/
structure Arr where
  name : Name
  comps : ℕ
  values : List ℚ
  deriving DecidableEq

def line (e : ℕ × ℕ) : List ℕ := [e.1, e.2]
def triangle (t : ℕ × ℕ × ℕ) : List ℕ := [t.1, t.2.1, t.2.2]
def tetrahedron (t : ℕ × ℕ × ℕ × ℕ) : List ℕ := [t.1, t.2.1, t.2.2.1, t.2.2.2]

/-- `ExportXML::writeVertex`, ExportXML.cpp:290-302; `ExportVTK::writeVertex`, ExportVTK.cpp:277-287. -/
def writeVertex (r : ℚ → ℚ) (c : List ℚ) : List ℚ := c.map r ++ if c.length = 2 then [0] else []

/-- `ExportXML::exportPoints`, ExportXML.cpp:333-344. -/
def points (r : ℚ → ℚ) (m : Mesh) : List ℚ := m.verts.flatMap (writeVertex r)

/-- The array of a data, ExportXML.cpp:257-283. Reading beyond the values, which only a debug build
notices, is excluded where this is used. -/
def valueArr (r : ℚ → ℚ) (n : ℕ) (f : Field) (vals : List ℚ) : Arr :=
  ⟨f.name, if f.comps = 2 then 3 else f.comps,
    if 1 < f.comps then
      (List.range n).flatMap fun v =>
        ((List.range f.comps).map fun i => r (vals.getD (v * f.comps + i) 0)) ++
          if f.comps = 2 then [0] else []
    else (List.range n).map fun v => r (vals.getD v 0)⟩

/-- The indices of `for (int i = k; i < cols; i += step)`. -/
def strided (k step cols : ℕ) : List ℕ :=
  (List.range ((cols - k + (step - 1)) / step)).map fun j => k + step * j

/-- One array of gradients: the columns `k, k + step, …`, padded to three components. -/
def gradientArr (r : ℚ → ℚ) (name : Name) (k step : ℕ) (cols : List (List ℚ)) : Arr :=
  ⟨name, 3, (strided k step cols.length).flatMap fun i =>
    (cols.getD i []).map r ++ if (cols.getD i []).length < 3 then [0] else []⟩

def suffix (s : String) (f : Field) : Name := f.name ++ s.toList

/-- `ExportXML::exportGradient`, ExportXML.cpp:196-230, called with the dimensions of the data for
`spaceDim` (ExportXML.cpp:285). -/
def gradientArrs (r : ℚ → ℚ) (f : Field) (cols : List (List ℚ)) : List Arr :=
  if f.comps = 1 then [gradientArr r (suffix "_gradient" f) 0 f.comps cols]
  else if f.comps = 2 then
    [gradientArr r (suffix "_dx" f) 0 f.comps cols, gradientArr r (suffix "_dy" f) 1 f.comps cols]
  else if f.comps = 3 then
    [gradientArr r (suffix "_dx" f) 0 f.comps cols, gradientArr r (suffix "_dy" f) 1 f.comps cols,
     gradientArr r (suffix "_dz" f) 2 f.comps cols]
  else []

/-- `ExportXML::exportData`, ExportXML.cpp:232-288. -/
def pointData (r : ℚ → ℚ) (rank : ℕ) (m : Mesh) : List Arr :=
  ⟨"Rank".toList, 1, List.replicate m.verts.length (rank : ℚ)⟩ ::
  m.fields.flatMap fun f =>
    match f.last with
    | none => []
    | some (vals, cols) => valueArr r m.verts.length f vals ::
      if f.hasGradient then gradientArrs r f cols else []

/-- A piece of an unstructured grid. -/
structure Vtu where
  nPoints : ℕ
  nCells : ℕ
  points : List ℚ
  connectivity : List ℕ
  offsets : List ℕ
  types : List ℕ
  data : List Arr

/-- `for (size_t i = 1; i <= n; i++) out << k * i + start` -/
def ends (k start n : ℕ) : List ℕ := (List.range' 1 n).map fun i => k * i + start

/-- `ExportXML::writeSubFile` (ExportXML.cpp:159-194) of the VTU exporter, with `getPieceAttributes`
and `exportConnectivity`, ExportVTU.cpp:47-112. -/
def toVtu (r : ℚ → ℚ) (rank : ℕ) (m : Mesh) : Vtu where
  nPoints := m.verts.length
  nCells := m.edges.length + m.tris.length + m.tets.length
  points := points r m
  connectivity := m.tris.flatMap triangle ++ m.edges.flatMap line ++ m.tets.flatMap tetrahedron
  offsets := ends 3 0 m.tris.length ++ ends 2 (3 * m.tris.length) m.edges.length ++
    ends 4 (2 * m.edges.length + 3 * m.tris.length) m.tets.length
  types := List.replicate m.tris.length 5 ++ List.replicate m.edges.length 3 ++
    List.replicate m.tets.length 10
  data := pointData r rank m

/-- A piece of polygonal data. -/
structure Vtp where
  nPoints : ℕ
  nLines : ℕ
  nPolys : ℕ
  points : List ℚ
  lines : List ℕ
  lineOffsets : List ℕ
  polys : List ℕ
  polyOffsets : List ℕ
  data : List Arr

/-- The same of the VTP exporter, ExportVTP.cpp:36-103. -/
def toVtp (r : ℚ → ℚ) (rank : ℕ) (m : Mesh) : Vtp where
  nPoints := m.verts.length
  nLines := m.edges.length
  nPolys := m.tris.length
  points := points r m
  lines := m.edges.flatMap line
  lineOffsets := ends 2 0 m.edges.length
  polys := m.tris.flatMap triangle
  polyOffsets := ends 3 0 m.tris.length
  data := pointData r rank m

/-- A file in the legacy VTK format. `cells` are the numbers below `CELLS`. -/
structure Vtk where
  nPoints : ℕ
  points : List ℚ
  nCells : ℕ
  nNumbers : ℕ
  cells : List ℕ
  types : List ℕ
  data : List Arr

/-- `ExportVTK::exportGradient`, ExportVTK.cpp:180-253. -/
def vtkGradients (m : Mesh) : List Arr :=
  m.fields.flatMap fun f =>
    match f.last with
    | none => []
    | some (_, cols) =>
      if f.hasGradient then
        if f.comps = 1 then [gradientArr id (suffix "_gradient" f) 0 1 cols]
        else [gradientArr id (suffix "_dx" f) 0 m.dim cols, gradientArr id (suffix "_dy" f) 1 m.dim cols] ++
          if m.dim = 3 then [gradientArr id (suffix "_dz" f) 2 m.dim cols] else []
      else []

/-- `ExportVTK::exportMesh`, `exportData` and `exportGradient`, ExportVTK.cpp:67-253. Numbers are
printed with `max_digits10` digits (ExportVTK.cpp:262-264), so that the same `double` is read back.
`CELLS` are written if the dimension is 2 or 3. -/
def toVtk (m : Mesh) : Vtk :=
  let two := m.edges.flatMap fun e => 2 :: line e
  let three := (m.tets.flatMap fun t => 4 :: tetrahedron t) ++
    (m.tris.flatMap fun t => 3 :: triangle t) ++ two
  { nPoints := m.verts.length
    points := points id m
    nCells := if m.dim = 2 then m.edges.length else m.tris.length + m.edges.length + m.tets.length
    nNumbers := if m.dim = 2 then m.edges.length * 3
      else m.tets.length * 5 + m.tris.length * 4 + m.edges.length * 3
    cells := if m.dim = 2 then two else three
    types := if m.dim = 2 then List.replicate m.edges.length 3
      else List.replicate m.tets.length 10 ++ List.replicate m.tris.length 5 ++
        List.replicate m.edges.length 3
    data := ⟨"Rank".toList, 1, List.replicate m.verts.length 0⟩ ::
      (m.fields.flatMap fun f =>
        match f.last with
        | none => []
        | some (vals, _) => [valueArr id m.verts.length f vals]) ++ vtkGradients m }

/-- A table. -/
structure Csv where
  header : List Name
  rows : List (List ℚ)

/-- `StridedAccess`, ExportCSV.cpp:21-34. -/
structure Column where
  values : List ℚ
  pos : ℕ
  stride : ℕ

/-- The rows, ExportCSV.cpp:112-127. -/
def csvRows (r : ℚ → ℚ) (rank : ℕ) : List (List ℚ) → List Column → List (List ℚ)
  | [], _ => []
  | v :: vs, cols =>
    (v.map r ++ (rank : ℚ) :: cols.map fun c => r (c.values.getD c.pos 0)) ::
      csvRows r rank vs (cols.map fun c => { c with pos := c.pos + c.stride })

/-- Names of the columns of a data, ExportCSV.cpp:85-97. -/
def csvNames (f : Field) : List Name :=
  if f.comps = 2 then [suffix "X" f, suffix "Y" f]
  else if f.comps = 3 then [suffix "X" f, suffix "Y" f, suffix "Z" f]
  else [f.name]

/-- `ExportCSV::doExport`, ExportCSV.cpp:76-128. -/
def toCsv (r : ℚ → ℚ) (rank : ℕ) (m : Mesh) : Csv where
  header := (["PosX".toList, "PosY".toList] ++ if m.dim = 3 then ["PosZ".toList] else []) ++
    "Rank".toList :: m.fields.flatMap fun f => if f.last.isSome then csvNames f else []
  rows := csvRows r rank m.verts (m.fields.flatMap fun f =>
    match f.last with
    | none => []
    | some (vals, _) => (List.range f.comps).map fun i => ⟨vals, i, f.comps⟩)

/-- The number read back from a stream with the default precision of 6 significant digits, as in
the VTU, VTP and CSV exporters, which do not set a precision. -/
def sixDigits (x : ℚ) : ℚ :=
  if x = 0 then 0 else round (x * 10 ^ (5 - Int.log 10 |x|)) / 10 ^ (5 - Int.log 10 |x|)

end Verif.Export
