import Verif.Mapping.Model
import Verif.Mapping.Lemmas
import Verif.Mesh.Geometry
import Verif.Net.Prog
import Mathlib.Data.List.Sort
import Mathlib.Analysis.SpecialFunctions.Pow.Real

/-!
# Geometric multiscale mappings

Model of `/repo/src/mapping/RadialGeoMultiscaleMapping.cpp` and `/repo/src/mapping/AxialGeoMultiscaleMapping.cpp`.
The radial mapping only uses the coordinate along the axis, so meshes are lists of these coordinates, over ℚ. The axial
mapping needs square roots and powers and is over ℝ. No rounding.
-/

set_option autoImplicit false

namespace Verif.Multiscale

/-! ## Radial -/

/-- The indices of the 1D vertices ordered along the axis, RadialGeoMultiscaleMapping.cpp:43-48 and 85-90 (a stable sort). -/
def orderedIndices (p : List ℚ) : List ℕ := (List.range p.length).insertionSort fun a b => p[a]?.getD 0 ≤ p[b]?.getD 0

/-- The midpoints for spreading, RadialGeoMultiscaleMapping.cpp:50-55: `none` is an access out of bounds. The neighbor of a vertex is
the one with the next index. -/
def spreadMidpoints (p : List ℚ) : Option (List ℚ) :=
  if p.isEmpty then none
  else
    ((orderedIndices p).take (p.length - 1)).mapM (fun i => do
      let current ← p[i]?
      let next ← p[i + 1]?
      pure ((current + next) / 2)) |>.map (· ++ [dblMax])

/-- The midpoints for collecting, RadialGeoMultiscaleMapping.cpp:92-97. The order is not used. -/
def collectMidpoints (p : List ℚ) : Option (List ℚ) :=
  if p.isEmpty then none
  else
    (List.range (p.length - 1)).mapM (fun i => do
      let current ← p[i]?
      let next ← p[i + 1]?
      pure ((current + next) / 2)) |>.map (· ++ [dblMax])

/-- The loop that looks for the first midpoint that is not passed, RadialGeoMultiscaleMapping.cpp:65-69 and 107-111; `none` is the failing assertion. -/
def locate (mid : List ℚ) (c : ℚ) : Option ℕ :=
  let i := mid.findIdx fun m => !decide (c > m)
  if i < mid.length then some i else none

/-- `computeMapping` for spreading: the index assigned to each 3D vertex (positions `z`), RadialGeoMultiscaleMapping.cpp:38-71. -/
def spreadIndices (p z : List ℚ) : Option (List ℕ) := do
  let mid ← spreadMidpoints p
  z.mapM (locate mid)

/-- `computeMapping` for collecting, RadialGeoMultiscaleMapping.cpp:72-115. -/
def collectIndices (p z : List ℚ) : Option (List ℕ) := do
  let mid ← collectMidpoints p
  z.mapM (locate mid)

/-- `mapConsistent` for spreading, RadialGeoMultiscaleMapping.cpp:163-167, data with `n` components. -/
def mapSpread (n : ℕ) (idx : List ℕ) (x out : ℕ → ℚ) : ℕ → ℚ :=
  (List.range idx.length).foldl (fun o i => Function.update o (i * n) (x (idx[i]?.getD 0 * n))) out

/-- `mapConsistent` for collecting, RadialGeoMultiscaleMapping.cpp:169-184, first component at 1D vertex `i`: sum divided by the
number of assigned vertices, `none` for 0/0. -/
def mapCollect (n : ℕ) (idx : List ℕ) (x : ℕ → ℚ) (i : ℕ) : Option ℚ :=
  let sum := (List.range idx.length).foldl (fun s j => if idx[j]?.getD 0 = i then s + x (j * n) else s) 0
  let counter := (List.range idx.length).foldl (fun c j => if idx[j]?.getD 0 = i then c + 1 else c) 0
  if counter = 0 then none else some (sum / (counter : ℕ))

/-! ## Axial -/

inductive Dimension | d1d3 | d1d2 | d2d3
deriving DecidableEq

inductive Profile | uniform | parabolic
deriving DecidableEq

inductive CrossSection | circle | square
deriving DecidableEq

open Geometry (dot)

/-- Normalised distance, AxialGeoMultiscaleMapping.cpp:70-74 -/
noncomputable def ratio (radius : ℝ) (v0 x : Fin 3 → ℝ) : ℝ := Geometry.norm (v0 - x) / radius

/-- Normalised transverse coordinates, AxialGeoMultiscaleMapping.cpp:84-93 -/
noncomputable def transverse (axis : Fin 3) (radius : ℝ) (v0 x : Fin 3 → ℝ) : ℝ × ℝ :=
  ((v0 (axis + 1) - x (axis + 1)) / radius, (v0 (axis + 2) - x (axis + 2)) / radius)

/-- The check of one output vertex, AxialGeoMultiscaleMapping.cpp:75 and 95-99 -/
def onInterface (axis : Fin 3) (cross : CrossSection) (radius : ℝ) (v0 x : Fin 3 → ℝ) : Prop :=
  match cross with
  | .circle => ratio radius v0 x ≤ 1.05
  | .square => max |(transverse axis radius v0 x).1| |(transverse axis radius v0 x).2| ≤ 1.05

/-- The value spread to one output vertex, AxialGeoMultiscaleMapping.cpp:236-265; `none` is the access to an element of the empty vector of
distances: for a square cross-section the distances are not computed. -/
noncomputable def spreadValue (dim : Dimension) (profile : Profile) (axis : Fin 3) (cross : CrossSection) (radius : ℝ) (v0 : Fin 3 → ℝ)
    (u : ℝ) (x : Fin 3 → ℝ) : Option ℝ :=
  match profile with
  | .uniform => some u
  | .parabolic =>
    if dim = .d1d2 then
      if cross = .circle then some (1.5 * u * (1 - ratio radius v0 x * ratio radius v0 x)) else none
    else
      match cross with
      | .circle => some (2 * u * (1 - ratio radius v0 x * ratio radius v0 x))
      | .square =>
        let s := transverse axis radius v0 x
        let b1 := max 0 (1 - s.1 * s.1)
        let b2 := max 0 (1 - s.2 * s.2)
        some (2.096 * u * b1 ^ (0.879 : ℝ) * b2 ^ (0.879 : ℝ))

open Classical in
/-- Spreading from 1D to 2D or 3D: `computeMapping` (AxialGeoMultiscaleMapping.cpp:36-101) and `mapConsistent` (:228-266). Input and output are
the coordinates of the vertices, `u` the effective component of the value at the 1D vertex. The other components of vector data are not touched. -/
noncomputable def spread1 (dim : Dimension) (profile : Profile) (axis : Fin 3) (cross : CrossSection) (radius : ℝ)
    (input output : List (Fin 3 → ℝ)) (u : ℝ) : Except Err (List ℝ) :=
  match input with
  | [v0] =>
    if ∀ x ∈ output, onInterface axis cross radius v0 x then
      match output.mapM (spreadValue dim profile axis cross radius v0 u) with
      | some l => .ok l
      | none => .error .assert
    else .error .check
  | _ => .error .check

/-- Collecting from 2D or 3D to 1D, AxialGeoMultiscaleMapping.cpp:305-331: `none` for 0/0. -/
noncomputable def collect1 (values : List ℝ) : Option ℝ :=
  let sum := values.foldl (· + ·) 0
  if values.length = 0 then none else some (sum / values.length)

open Classical in
/-- The search loop for the smallest of the first `N` distances, AxialGeoMultiscaleMapping.cpp:128-138 and 172-182: the first one if there are
several (the initial best distance, the largest double, is taken as infinity). -/
noncomputable def argmin (dist : ℕ → ℝ) (N : ℕ) : ℕ :=
  (List.range (N - 1)).foldl (fun best i => if dist (i + 1) < dist best then i + 1 else best) 0

/-- The closest of the given points, by squared distance. -/
noncomputable def closest (ps : List (Fin 3 → ℝ)) (x : Fin 3 → ℝ) : ℕ :=
  argmin (fun i => dot (x - (ps[i]?.getD 0)) (x - (ps[i]?.getD 0))) ps.length

/-- Spreading from 2D to 3D with the uniform profile, AxialGeoMultiscaleMapping.cpp:103-148 and 277-280. -/
noncomputable def spread2 (input output : List (Fin 3 → ℝ)) (u : ℕ → ℝ) : List ℝ := output.map fun x => u (closest input x)

/-- Collecting from 3D to 2D with the uniform profile, AxialGeoMultiscaleMapping.cpp:160-186 and 336-352: `none` if no vertex is
assigned (the value is then left as it is). -/
noncomputable def collect2 (input output : List (Fin 3 → ℝ)) (values : List ℝ) (j : ℕ) : Option ℝ :=
  let band := (List.range input.length).filter fun i => closest output (input[i]?.getD 0) = j
  if band.isEmpty then none
  else some ((band.map fun i => values[i]?.getD 0).foldl (· + ·) 0 / band.length)

end Verif.Multiscale
