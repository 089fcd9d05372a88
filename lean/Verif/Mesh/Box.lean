import Verif.Time.TimeHandler
import Mathlib.Data.Fintype.Basic
import Mathlib.Data.Finset.Max
import Mathlib.Data.Fintype.Pi
import Mathlib.Data.Finset.Lattice.Fold

/-!
# Bounding boxes

Model of `/repo/src/mesh/BoundingBox.cpp` for any dimension `d`, coordinates are rationals.
-/

set_option autoImplicit false

namespace Verif

/-- A point of the `d`-dimensional space. -/
abbrev Pt (d : ℕ) := Fin d → ℚ

/-- `BoundingBox`, BoundingBox.hpp -/
structure Box (d : ℕ) where
  lo : Pt d
  hi : Pt d

namespace Box

variable {d : ℕ}

/-- `BoundingBox(int)`, BoundingBox.cpp:40-51: the "illegal" default box. -/
def default (d : ℕ) : Box d := ⟨fun _ => dblMax, fun _ => -dblMax⟩

/-- `isApproxToConstant` of Eigen with its default precision 1e-12 (component-wise `isApprox`). -/
def approx (x c : ℚ) : Prop := |x - c| ≤ 1 / 10 ^ 12 * min |x| |c|

instance (x c : ℚ) : Decidable (approx x c) := by unfold approx; exact inferInstance

/-- BoundingBox.cpp:65-68 -/
def isDefault (b : Box d) : Prop := (∀ i, approx (b.lo i) dblMax) ∧ ∀ i, approx (b.hi i) (-dblMax)

instance (b : Box d) : Decidable b.isDefault := by unfold isDefault; exact inferInstance

/-- BoundingBox.cpp:70-81, the loop over the directions. -/
def contains (b : Box d) (p : Pt d) : Bool :=
  (List.finRange d).all fun i => !(decide (p i < b.lo i) || decide (p i > b.hi i))

/-- `expandBy(BoundingBox)`, BoundingBox.cpp:137-143 -/
def join (b c : Box d) : Box d := ⟨fun i => min (b.lo i) (c.lo i), fun i => max (b.hi i) (c.hi i)⟩

/-- `expandBy(Vertex)`, BoundingBox.cpp:145-152 -/
def add (b : Box d) (p : Pt d) : Box d := ⟨fun i => min (b.lo i) (p i), fun i => max (b.hi i) (p i)⟩

/-- `expandBy(double)`, BoundingBox.cpp:154-160 -/
def expand (b : Box d) (v : ℚ) : Box d :=
  if b.isDefault then b else ⟨fun i => b.lo i - v, fun i => b.hi i + v⟩

/-- `longestEdgeLength`, BoundingBox.cpp:107-110: maximum over a non-empty set of directions. -/
def longest (b : Box (d + 1)) : ℚ :=
  (Finset.univ : Finset (Fin (d + 1))).sup' ⟨0, Finset.mem_univ _⟩ fun i => b.hi i - b.lo i

/-- `scaleBy`, BoundingBox.cpp:162-170 -/
def scale (b : Box (d + 1)) (f : ℚ) : Box (d + 1) :=
  if b.isDefault then b
  else ⟨fun i => b.lo i - f * b.longest, fun i => b.hi i + f * b.longest⟩

/-- BoundingBox.cpp:172-181 -/
def overlapping (b c : Box d) : Bool :=
  (List.finRange d).all fun i =>
    !((decide (b.lo i < c.lo i) && decide (b.hi i < c.lo i)) ||
      (decide (c.lo i < b.lo i) && decide (c.hi i < b.lo i)))

/-- `Mesh::computeBoundingBox`, Mesh.cpp:266-278 -/
def compute (b : Box d) (vs : List (Pt d)) : Box d :=
  vs.foldl add (if b.isDefault then default d else b)

end Box
end Verif
