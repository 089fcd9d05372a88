import Verif.Mesh.Geometry
import Verif.Mesh.Mesh

/-!
# Integrals of data over a mesh

Model of `integrateSurface` and `integrateVolume` (`/repo/src/mesh/Utils.cpp:11-75`). Values are real, coordinates are
the rational coordinates of the mesh model, no rounding.
-/

set_option autoImplicit false

namespace Verif.Integrate

open Geometry

/-- Coordinates of a vertex as real numbers. -/
def realCoords {d : ℕ} (m : Mesh d) (i : ℕ) : Fin d → ℝ := fun k => (((m.verts[i]?.map (·.coords)).getD 0 k : ℚ) : ℝ)

/-- `Edge::getLength` (Edge.cpp:23-27), `Triangle::getArea` (Triangle.cpp:62-65), `Tetrahedron::getVolume`
(Tetrahedron.cpp:31-34), by the number of corners. -/
noncomputable def simplexMeasure : (d : ℕ) → List (Fin d → ℝ) → ℝ
  | _, [a, b] => edgeLength a b
  | 2, [a, b, c] => triangleArea2 a b c
  | 3, [a, b, c] => triangleArea3 a b c
  | 3, [a, b, c, e] => tetraVolume a b c e
  | _, _ => 0

/-- Measure of a cell of a mesh. -/
noncomputable def cellMeasure {d : ℕ} (m : Mesh d) (c : Cell) : ℝ := simplexMeasure d (c.map (realCoords m))

/-- Sum of component `k` over the corners of a cell; data has `n` components. -/
def cornerSum (n : ℕ) (values : ℕ → ℝ) (k : ℕ) (c : Cell) : ℝ := (c.map fun i => values (i * n + k)).sum

/-- `integrateSurface`, Utils.cpp:11-41; component `k` of the result. -/
noncomputable def integrateSurface {d : ℕ} (m : Mesh d) (n : ℕ) (values : ℕ → ℝ) (k : ℕ) : ℝ :=
  if d = 2 then (m.edges.map fun e => 0.5 * cellMeasure m e * cornerSum n values k e).sum
  else (m.tris.map fun t => cellMeasure m t / 3 * cornerSum n values k t).sum

/-- `integrateVolume`, Utils.cpp:43-75; component `k` of the result. -/
noncomputable def integrateVolume {d : ℕ} (m : Mesh d) (n : ℕ) (values : ℕ → ℝ) (k : ℕ) : ℝ :=
  if d = 2 then (m.tris.map fun t => cellMeasure m t / 3 * cornerSum n values k t).sum
  else (m.tets.map fun t => cellMeasure m t / 4 * cornerSum n values k t).sum

/-- Specification: the integral of the piecewise linear function given by values at the vertices is the sum over the
cells of measure times mean of the values at the corners. -/
noncomputable def integral {d : ℕ} (m : Mesh d) (cells : List Cell) (f : ℕ → ℝ) : ℝ :=
  (cells.map fun c => simplexMeasure d (c.map (realCoords m)) * ((c.map f).sum / c.length)).sum

/-- The cells with which surface and volume integrals are computed. -/
def cellsFor {d : ℕ} (volume : Bool) (m : Mesh d) : List Cell :=
  if d = 2 then (if volume then m.tris else m.edges) else (if volume then m.tets else m.tris)

theorem integrateSurface_eq {d : ℕ} (m : Mesh d) (he : ∀ e ∈ m.edges, e.length = 2) (ht : ∀ t ∈ m.tris, t.length = 3)
    (n : ℕ) (values : ℕ → ℝ) (k : ℕ) :
    integrateSurface m n values k = integral m (cellsFor false m) fun i => values (i * n + k) := by
  unfold integrateSurface integral cellsFor cellMeasure cornerSum
  simp only [Bool.false_eq_true, if_false]
  split
  · congr 1
    refine List.map_congr_left fun e h => ?_
    rw [he e h]
    push_cast
    ring
  · congr 1
    refine List.map_congr_left fun e h => ?_
    rw [ht e h]
    push_cast
    ring

theorem integrateVolume_eq {d : ℕ} (m : Mesh d) (he : ∀ e ∈ m.tets, e.length = 4) (ht : ∀ t ∈ m.tris, t.length = 3)
    (n : ℕ) (values : ℕ → ℝ) (k : ℕ) :
    integrateVolume m n values k = integral m (cellsFor true m) fun i => values (i * n + k) := by
  unfold integrateVolume integral cellsFor cellMeasure cornerSum
  simp only [if_true]
  split
  · congr 1
    refine List.map_congr_left fun e h => ?_
    rw [ht e h]
    push_cast
    ring
  · congr 1
    refine List.map_congr_left fun e h => ?_
    rw [he e h]
    push_cast
    ring

theorem integral_smul {d : ℕ} (m : Mesh d) (cells : List Cell) (c : ℝ) (f : ℕ → ℝ) :
    integral m cells (fun i => c * f i) = c * integral m cells f := by
  unfold integral
  rw [← List.sum_map_mul_left]
  congr 1
  refine List.map_congr_left fun e _ => ?_
  rw [List.sum_map_mul_left]
  ring

end Verif.Integrate
