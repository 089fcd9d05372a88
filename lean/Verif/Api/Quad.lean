import Verif.Mesh.Mesh

/-!
# Splitting quads

Model of `math::geometry::isConvexQuad` (`/repo/src/math/geometry.cpp:143-237`) and of the split of a
quad in `setMeshQuad` / `setMeshQuads` (`/repo/src/precice/impl/ParticipantImpl.cpp:975-1092`).
-/

set_option autoImplicit false

namespace Verif.Quad

variable {d : ℕ}

/-- The coordinate with the given number, zero if there is none. -/
def comp (p : Pt d) (k : ℕ) : ℚ := if h : k < d then p ⟨k, h⟩ else 0

/-- Euclidean scalar product -/
def dot (u v : Pt d) : ℚ := ∑ i, u i * v i

/-- `e_1.cross(e_2).dot(v)`, geometry.cpp:163-165 -/
def triple (u v w : Pt d) : ℚ :=
  (comp u 1 * comp v 2 - comp u 2 * comp v 1) * comp w 0 +
  (comp u 2 * comp v 0 - comp u 0 * comp v 2) * comp w 1 +
  (comp u 0 * comp v 1 - comp u 1 * comp v 0) * comp w 2

/-- The planarity check, geometry.cpp:158-166; it is only executed for three dimensions. -/
def planar (c : Fin 4 → Pt d) : Prop := d = 3 → equals (triple (c 1 - c 0) (c 2 - c 0) (c 3 - c 0)) 0

instance (c : Fin 4 → Pt d) : Decidable (planar c) := by unfold planar equals; exact inferInstance

/-- The transformed coordinates, geometry.cpp:168-187. The third one is never used. -/
def project (c : Fin 4 → Pt d) (i : Fin 4) : ℚ × ℚ :=
  (dot (c 1 - c 0) (c i - c 0), dot (c 2 - c 0) (c i - c 0))

/-- Index of the left-most point, the first one if there are several, geometry.cpp:196-201. -/
def lowest (q : Fin 4 → ℚ × ℚ) : Fin 4 :=
  ([1, 2, 3] : List (Fin 4)).foldl (fun l i => if (q i).1 < (q l).1 then i else l) 0

/-- The variable `val`, geometry.cpp:217-221 -/
def val (q : Fin 4 → ℚ × ℚ) (cur next i : Fin 4) : ℚ :=
  ((q cur).2 - (q i).2) * ((q cur).1 - (q next).1) - ((q cur).2 - (q next).2) * ((q cur).1 - (q i).1)

/-- The loop that finds the next vertex of the hull, geometry.cpp:215-226. -/
def next (turn : Fin 4 → Fin 4 → Fin 4 → Bool) (cur : Fin 4) : Fin 4 :=
  ([0, 1, 2, 3] : List (Fin 4)).foldl (fun n i => if turn cur n i then i else n) (cur + 1)

/-- The gift-wrapping loop, geometry.cpp:208-233. The order is written into an array of four entries;
a fifth write would be out of bounds: `none`. -/
def wrap (turn : Fin 4 → Fin 4 → Fin 4 → Bool) (start : Fin 4) : ℕ → Fin 4 → List (Fin 4) → Option (List (Fin 4))
  | 0, _, _ => none
  | k + 1, cur, r =>
    let r := r ++ [cur]
    if next turn cur = start then some r else wrap turn start k (next turn cur) r

/-- The projected quad is walked around, geometry.cpp:189-238. `none`: out-of-bounds access. -/
def hull (q : Fin 4 → ℚ × ℚ) : Option (List (Fin 4)) :=
  wrap (fun c n i => decide (val q c n i > 0)) (lowest q) 4 (lowest q) []

/-- What a quad is turned into: an error, undefined behaviour, or two triangles. -/
inductive Split where
  | error
  | ub
  | triangles (a b : List ℕ)
deriving DecidableEq

/-- Square of the distance; only used to compare distances. -/
def dist2 (u v : Pt d) : ℚ := ∑ i, (u i - v i) ^ 2

/-- The shorter diagonal of the reordered quad, ParticipantImpl.cpp:1018-1031 / 1078-1089. -/
def cut (c : Fin 4 → Pt d) (r : Fin 4 → Fin 4) : List (Fin 4) × List (Fin 4) :=
  if dist2 (c (r 0)) (c (r 2)) ≤ dist2 (c (r 1)) (c (r 3)) then ([r 0, r 2, r 1], [r 0, r 2, r 3])
  else ([r 1, r 3, r 0], [r 1, r 3, r 2])

/-- Checks and split for one quad with valid vertex IDs, ParticipantImpl.cpp:1001-1031 / 1056-1089.
`ids` are the four IDs, `c` the coordinates of these vertices. -/
def split (ids : Fin 4 → ℕ) (c : Fin 4 → Pt d) : Split :=
  if ¬ Function.Injective ids then .error
  else if ¬ Function.Injective c then .error
  else if ¬ planar c then .error
  else
    match hull (project c) with
    | none => .ub
    | some [r0, r1, r2, r3] =>
      let t := cut c ![r0, r1, r2, r3]
      .triangles (t.1.map ids) (t.2.map ids)
    | some _ => .error

end Verif.Quad
