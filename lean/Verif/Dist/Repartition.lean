import Verif.Net.Lift
import Verif.Dist.OneLevel
import Verif.Dist.GlobalIds
import Verif.Com.SerializedMesh
import Verif.Mesh.BoxProps

/-!
# Distribution of a received mesh over the ranks (C112)

Model of `ReceivedPartition::compute` (`/repo/src/partition/ReceivedPartition.cpp:93-270`) for one-level initialization with the functions it calls: `filterByBoundingBox`
(291-380), `prepareBoundingBox` (480-540), `tagMeshFirstRound` (921-948), `tagMeshSecondRound` (950-958), `createOwnerInformation` (`Verif.Dist.createOwners`) and
`setOwnerInformation` (960-969). A participant has `n + 1` ranks, rank 0 is the primary one.

Simplifications: a mesh is one message (`Verif.Com.SerializedMesh` is about the pieces it is sent in); what the mappings tag is an arbitrary function of the mesh
they get to see; the dimension is at least one.
-/

set_option autoImplicit false

namespace Verif.Repartition

open Verif.Dist Verif.Com

variable {d n : ℕ}

/-- What the ranks of a participant exchange. -/
inductive Msg (d : ℕ) where
  | nums (l : List ℕ)
  | box (b : Box d)
  | mesh (m : Mesh d)

/-- The numbers of a message. -/
def Msg.nums? : Msg d → Option (List ℕ)
  | .nums l => some l
  | _ => none

/-- `GeometricFilter`, ReceivedPartition.hpp:31-41 -/
inductive GeoFilter where
  | onPrimary
  | onSecondary
  | none
deriving DecidableEq

/-- The configuration of the received mesh: geometric filter, safety factor, whether the API may access it, whether a mapping from or to it exists and whether a
just-in-time mapping does. -/
structure Cfg where
  filter : GeoFilter
  safety : ℚ
  direct : Bool
  mapped : Bool
  jit : Bool

/-- What a rank knows: the bounding boxes of the local meshes of the mappings, whether one of these meshes has vertices, the bounding box of the received mesh (which
`setMeshAccessRegion` has set) and what the mappings tag in the two rounds, given by the global IDs of the vertices (which are unique). -/
structure Local (d : ℕ) where
  boxes : List (Box d)
  provided : Bool
  meshBox : Box d
  tag1 : Mesh d → ℤ → Bool
  tag2 : Mesh d → ℤ → Bool

/-- `prepareBoundingBox`, ReceivedPartition.cpp:480-540. The flag that the box has been prepared is only reset before a new partition is computed. -/
def prepareBox (c : Cfg) (x : Local (d + 1)) : Box (d + 1) :=
  let b := x.boxes.foldl (fun b o => b.join (o.scale c.safety)) (Box.default (d + 1))
  if c.direct then b.join (if c.jit then x.meshBox.scale c.safety else x.meshBox) else b

/-- The vertices in a box. -/
def inside (b : Box d) (v : Vertex d) : Bool := b.contains v.coords

/-- The mesh is replaced by `m`: `clear` and `addMesh`, ReceivedPartition.cpp:173-174, 337-338, 367-368. A violated assertion of `addMesh` is a failure. -/
def replaceBy {ι : Type} (m : Mesh d) : Prog ι (Msg d) (Mesh d) :=
  match Mesh.addMesh (Mesh.empty d) m with
  | some m' => .ret m'
  | none => .fail .assert

/-- The error that a mesh is filtered out completely, ReceivedPartition.cpp:318-320, 340-342, 369-371 -/
def notFilteredOut {ι : Type} (provided : Bool) (m : Mesh d) : Prog ι (Msg d) (Mesh d) := Prog.ensure .check (provided = true → m.verts ≠ []) (.ret m)

/-- The loop of the primary rank, ReceivedPartition.cpp:326-335 -/
def serve (m : Mesh d) (K : Prog (Fin (n + 1)) (Msg d) (Mesh d)) : List (Fin (n + 1)) → Prog (Fin (n + 1)) (Msg d) (Mesh d)
  | [] => K
  | r :: l => .recv r fun
    | .box b => .send r (.mesh (Mesh.filter (Mesh.empty d) m (inside b))) (serve m K l)
    | _ => .fail .assert

/-- `receiveMesh` and `broadcastReceiveMesh` into an empty mesh: what arrives is proved in C66. -/
def receiveMesh (K : Mesh d → Prog (Fin (n + 1)) (Msg d) (Mesh d)) : Prog (Fin (n + 1)) (Msg d) (Mesh d) :=
  .recv 0 fun
    | .mesh m => K (appended (Mesh.empty d) m)
    | _ => .fail .assert

/-- `broadcastSendMesh`, `broadcastReceiveMesh`, ReceivedPartition.cpp:348-358 -/
def broadcastMesh (r : Fin (n + 1)) (m : Mesh d) : Prog (Fin (n + 1)) (Msg d) (Mesh d) :=
  if r = 0 then scatter (fun _ => .mesh m) (.ret m) (secondaries n) else receiveMesh .ret

/-- `filterByBoundingBox`, ReceivedPartition.cpp:291-380, with the mesh `m` on this rank and the prepared box `bb` -/
def filterByBox (g : GeoFilter) (provided : Bool) (bb : Box d) (r : Fin (n + 1)) (m : Mesh d) : Prog (Fin (n + 1)) (Msg d) (Mesh d) :=
  match g with
  | .onPrimary =>
    if r = 0 then serve m ((replaceBy (Mesh.filter (Mesh.empty d) m (inside bb))).bind (notFilteredOut provided)) (secondaries n)
    else .send 0 (.box bb) (receiveMesh (notFilteredOut provided))
  | .onSecondary => (broadcastMesh r m).bind fun m => (replaceBy (Mesh.filter (Mesh.empty d) m (inside bb))).bind (notFilteredOut provided)
  | .none => broadcastMesh r m

/-- Tagging vertices. -/
def tagVerts (t : Vertex d → Bool) (m : Mesh d) : Mesh d := { m with verts := m.verts.map fun v => { v with tagged := v.tagged || t v } }

/-- `tagMeshFirstRound`, ReceivedPartition.cpp:921-948 -/
def tagFirst (c : Cfg) (x : Local d) (m : Mesh d) : Mesh d :=
  let m1 := if c.direct then tagVerts (inside x.meshBox) m else m
  tagVerts (fun v => x.tag1 m1 v.globalIndex) m1

/-- What `createOwnerInformation` sees of the mesh. -/
def ownerView (m : Mesh d) : LocalMesh := m.verts.map fun v => (v.globalIndex.toNat, v.tagged)

/-- `setOwnerInformation`, ReceivedPartition.cpp:960-969 -/
def setOwners (own : List Bool) (m : Mesh d) : Mesh d := { m with verts := List.zipWith (fun v o => { v with owner := o }) m.verts own }

/-- The global IDs of the vertices. -/
def gids (m : Mesh d) : List ℕ := m.verts.map fun v => v.globalIndex.toNat

/-- Step (6), ReceivedPartition.cpp:206-229: the primary rank collects the vertex distribution. -/
def feedback (r : Fin (n + 1)) (ids : List ℕ) : Prog (Fin (n + 1)) (Msg d) (Fin (n + 1) → List ℕ) :=
  if r = 0 then gather (fun s q m => Function.update s q (m.nums?.getD [])) .ret (secondaries n) (Function.update (fun _ => []) 0 ids)
  else .send 0 (.nums ids) (.ret fun _ => [])

/-- Step (7), ReceivedPartition.cpp:232-262: the vertex offsets. -/
def offsets (r : Fin (n + 1)) (count : ℕ) : Prog (Fin (n + 1)) (Msg d) (List ℕ) :=
  if r = 0 then gather (fun s _ m => s ++ [(m.nums?.getD []).headD 0 + s.getLastD 0]) (fun s => scatter (fun _ => .nums s) (.ret s) (secondaries n)) (secondaries n) [count]
  else .send 0 (.nums [count]) (.recv 0 fun m => .ret (m.nums?.getD []))

/-- The mesh of a rank after `compute`, the vertex distribution (primary rank only) and the vertex offsets. -/
structure Part (d n : ℕ) where
  mesh : Mesh d
  dist : Fin (n + 1) → List ℕ
  offs : List ℕ

/-- `compute` of a parallel participant, ReceivedPartition.cpp:140-270; `total` is the global number of vertices, `m` the mesh the rank has: the received one on
the primary rank, an empty one on the others. -/
def compute (c : Cfg) (total : ℕ) (x : Local (d + 1)) (r : Fin (n + 1)) (m : Mesh (d + 1)) : Prog (Fin (n + 1)) (Msg (d + 1)) (Part (d + 1) n) :=
  Prog.ensure .check (r = 0 → c.mapped = true ∨ c.direct = true) <|
  (filterByBox c.filter x.provided (prepareBox c x) r m).bind fun m =>
  let m1 := tagFirst c x m
  (Prog.lift .nums Msg.nums? (createOwners total r (ownerView m1))).bind fun own =>
  let m2 := setOwners own m1
  let m3 := tagVerts (fun v => x.tag2 m2 v.globalIndex) m2
  (replaceBy (Mesh.filter (Mesh.empty (d + 1)) m3 fun v => v.tagged)).bind fun m4 =>
  (feedback r (gids m4)).bind fun dist =>
  (offsets r m4.verts.length).bind fun offs => .ret ⟨m4, dist, offs⟩

/-- `BoundingBox::empty`, BoundingBox.cpp:60-63; `isZero` of Eigen has the precision 1e-12. -/
def emptyBox (b : Box d) : Prop := b.isDefault ∨ ∀ i, |b.lo i - b.hi i| ≤ 1 / 10 ^ 12

instance (b : Box d) : Decidable (emptyBox b) := by unfold emptyBox; exact inferInstance

/-- `compute` of a serial participant, ReceivedPartition.cpp:98-138 -/
def computeSerial (c : Cfg) (x : Local (d + 1)) (m : Mesh (d + 1)) : Except Err (Part (d + 1) 0) :=
  if c.direct = true ∧ emptyBox (prepareBox c x) then .error .check
  else .ok ⟨{ m with verts := m.verts.map fun v => { v with owner := true } }, fun _ => List.range m.verts.length, [m.verts.length]⟩

end Verif.Repartition
