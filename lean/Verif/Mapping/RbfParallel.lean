import Verif.Mapping.Rbf
import Verif.Net.Star

/-!
Radial basis function mapping with several ranks: /repo/src/mapping/RadialBasisFctMapping.hpp:93-160 (`computeMapping`),
199-310 (`mapConservative`), 312-392 (`mapConsistent`).

The ranks are `Fin (n + 1)`, the primary rank is 0. The mesh from which the consistent direction reads (`inMesh`) is a list
of positions with the owner flag, the other mesh (`outMesh`) a list of positions. A value is a row with `b` components
(the arrays of the code contain the rows one after the other, so sizes are multiples of `b`; the model counts rows). One
mapping is computed and applied to one sample. Writing or reading outside of a buffer is a failed assertion; where the code
does this inside of a loop the model reports it after the loop (gather) or before it (scatter). Sending and receiving a mesh
is one message (its correctness is C66), the connectivity of the meshes is not used.
-/

set_option autoImplicit false

namespace Verif.Rbf
open Matrix

variable {n b : ℕ}

/-- The components of a value. -/
abbrev Row (b : ℕ) := Fin b → ℝ

/-- What the ranks send to each other. -/
inductive Packet (b : ℕ) where
  | mesh (l : List Point)
  | values (l : List (Row b))
  | size (k : ℕ)

/-- Elements with the owner flag, in the order of the mesh: `filterMesh` with `isOwner` (lines 120 and 135) and, for values,
`getOwnedVertexData`, Mesh.cpp:324-345. -/
def owned {α : Type} (l : List (α × Bool)) : List α := (l.filter (·.2)).map (·.1)

/-- What a rank contributes: the mesh `inMesh` restricted to owned vertices, `outMesh`, the values it sends and the number of
values it expects. -/
structure Share (b : ℕ) where
  own : List Point
  outs : List Point
  data : List (Row b)
  size : ℕ

abbrev Job (n b : ℕ) := Prog (Fin (n + 1)) (Packet b) (List (Row b))

/-- A secondary rank: lines 116-125 (`computeMapping`), 208-222 (conservative) or 320-329 (consistent), and the receive in
lines 293-294 or 388-389. `fin` computes the new output values from the received ones. -/
def secondary (s : Share b) (fin : List (Row b) → Option (List (Row b))) : Job n b :=
  .send 0 (.mesh s.own) <| .send 0 (.mesh s.outs) <| .send 0 (.values s.data) <| .send 0 (.size s.size) <|
  .recv 0 fun
    | .values v => (fin v).elim (.fail .assert) .ret
    | _ => .fail .assert

/-- Collect the meshes, lines 141-150. -/
def gatherMeshes (K : List Point × List Point → Job n b) : List (Fin (n + 1)) → List Point × List Point → Job n b
  | [], s => K s
  | r :: l, s =>
    .recv r fun
      | .mesh x => .recv r fun
        | .mesh y => gatherMeshes K l (s.1 ++ x, s.2 ++ y)
        | _ => .fail .assert
      | _ => .fail .assert

/-- Collect values and sizes, lines 243-252 (conservative) and 346-353 (consistent). -/
def gatherValues (K : List (Row b) × List ℕ → Job n b) : List (Fin (n + 1)) → List (Row b) × List ℕ → Job n b
  | [], s => K s
  | r :: l, s =>
    .recv r fun
      | .values x => .recv r fun
        | .size k => gatherValues K l (s.1 ++ x, s.2 ++ [k])
        | _ => .fail .assert
      | _ => .fail .assert

/-- Send each secondary rank its part of the result, lines 282-287 (conservative) and 377-384 (consistent): `start` is
`beginPoint`, `sizes` is `outputValueSizes` or `outValuesSize`. -/
def scatterSlices (out : List (Row b)) (sizes : List ℕ) (K : Job n b) : List (Fin (n + 1)) → ℕ → Job n b
  | [], _ => K
  | r :: l, start =>
    .send r (.values ((out.drop start).take (sizes.getD r 0))) (scatterSlices out sizes K l (start + sizes.getD r 0))

/-- The primary rank. `limit` is the size of the buffer for the gathered values (consistent, line 335); `solve` builds the
solver from the two gathered meshes (`none`: the constructor reports an error) and applies it to the gathered values
(`none`: outside of a matrix); `fin0` computes the new output values of the primary rank from its number of values and the
whole result. -/
def primary (s : Share b) (limit : Option ℕ) (solve : List Point → List Point → Option (List (Row b) → Option (List (Row b))))
    (fin0 : ℕ → List (Row b) → Option (List (Row b))) : Job n b :=
  gatherMeshes (fun m =>
    (solve m.1 m.2).elim (.fail .check) fun f =>
    gatherValues (fun v =>
      Prog.ensure .assert (∀ k, limit = some k → v.1.length ≤ k) <|
      (f v.1).elim (.fail .assert) fun out =>
      (fin0 (v.2.getD 0 0) out).elim (.fail .assert) fun mine =>
      Prog.ensure .assert (v.2.sum ≤ out.length) <|
      scatterSlices out v.2 (.ret mine) (secondaries n) (v.2.getD 0 0)) (secondaries n) (s.data, [s.size])) (secondaries n) (s.own, s.outs)

/-- What the user configures. -/
structure Setting where
  e : Eigen
  spd : Bool
  φ : ℝ → ℝ
  pol : Polynomial
  active : Fin 3 → Bool

/-- `getInputSize`, RadialBasisFctSolver.hpp:585-588: the number of columns of the system. -/
def inputSize (g : Setting) (k : ℕ) : ℕ := k + if g.pol = .on then Fintype.card (Poly g.active) else 0

/-- The solver and lines 355-370: the buffer has `total` rows (those which have not been written are zero) and is copied into
the first rows of the input matrix. As many rows as there are input vertices have been written to the buffer, so the
polynomial entries are zero. -/
noncomputable def solveConsistent (g : Setting) (total : ℕ) (ins outs : List Point) : Option (List (Row b) → Option (List (Row b))) :=
  (construct g.e g.spd g.φ g.pol g.active ins.get outs.get).map fun s v =>
    if total ≤ inputSize g ins.length then
      some (List.ofFn fun k c => s.solveConsistent (Sum.elim (fun i => if i.1 < total then (v.getD i 0) c else 0) 0) k)
    else none

/-- The solver and lines 256-266: the gathered values are read as a matrix with as many rows as the solver has output
vertices; the first `total` rows of the result are used. Rows of the polynomial which are among them are left out (no rank
reads them, because there are as many rows before them as owned vertices). -/
noncomputable def solveConservative (g : Setting) (total : ℕ) (ins outs : List Point) : Option (List (Row b) → Option (List (Row b))) :=
  (construct g.e g.spd g.φ g.pol g.active ins.get outs.get).map fun s v =>
    if total ≤ inputSize g ins.length ∧ outs.length ≤ v.length then
      some ((List.ofFn fun i c => s.solveConservative (fun k => (v.getD k 0) c) (.inl i)).take total)
    else none

/-- Write the received values to the owned vertices, lines 271-280 and 298-306; `none` if there are not enough values. -/
def fill : List (Point × Bool) → List (Row b) → List (Row b) → Option (List (Row b))
  | [], _, _ => some []
  | (_, true) :: l, _ :: old, x :: v => (fill l old v).map (x :: ·)
  | (_, false) :: l, y :: old, v => (fill l old v).map (y :: ·)
  | _, _, _ => none

/-- The meshes of one rank. -/
structure Part where
  ins : List (Point × Bool)
  outs : List Point

/-- A consistent mapping: `vals r` are the values at all vertices of `inMesh` on rank `r`, `total` is the global number of
vertices of `inMesh`. -/
noncomputable def consistentJob (g : Setting) (total : ℕ) (part : Fin (n + 1) → Part) (vals : Fin (n + 1) → List (Row b)) (r : Fin (n + 1)) : Job n b :=
  let share : Share b := ⟨owned (part r).ins, (part r).outs, owned ((vals r).zip ((part r).ins.map (·.2))), (part r).outs.length⟩
  if r = 0 then primary share (some total) (solveConsistent g total) fun k out => if k ≤ out.length then some (out.take k) else none
  else secondary share some

/-- A conservative mapping: `vals r` are the values at the vertices of `outMesh` (the input of the mapping) on rank `r`,
`old r` the values of the output before the mapping. -/
noncomputable def conservativeJob (g : Setting) (total : ℕ) (part : Fin (n + 1) → Part) (vals old : Fin (n + 1) → List (Row b)) (r : Fin (n + 1)) : Job n b :=
  let share : Share b := ⟨owned (part r).ins, (part r).outs, vals r, (owned (part r).ins).length⟩
  if r = 0 then primary share none (solveConservative g total) fun _ out => fill (part 0).ins (old 0) out
  else secondary share (fill (part r).ins (old r))

end Verif.Rbf
