import Verif.Com.Flat
import Verif.Mesh.MeshLemmas

/-!
# Transfer of meshes (C66)

Model of `/repo/src/com/SerializedMesh.cpp`. A read outside of a buffer is excluded by the assertions in `assertValid`; the total functions return 0 there.
-/

set_option autoImplicit false

namespace Verif.Com

variable {d : ℕ} {α : Type}

/-- `SerializedMesh`, SerializedMesh.hpp -/
structure SerializedMesh where
  sizes : List ℤ
  coords : List ℚ
  ids : List ℤ

/-- `Mesh::hasConnectivity`, Mesh.hpp:126-129 -/
def hasConnectivity (m : Mesh d) : Bool := !m.edges.isEmpty || !m.tris.isEmpty || !m.tets.isEmpty

namespace SerializedMesh

/-- `serialize`, SerializedMesh.cpp:157-233, without the final assertion (see `sendMesh`). -/
def serialize (m : Mesh d) : SerializedMesh :=
  { sizes := [d, m.verts.length, m.edges.length, m.tris.length, m.tets.length]
    coords := (m.verts.map fun v => List.ofFn v.coords).flatten
    ids :=
      if hasConnectivity m then
        (m.verts.zipIdx.map fun x => [x.1.globalIndex, (x.2 : ℤ)]).flatten ++ ((m.edges.map fun c => c.map Int.ofNat).flatten ++
          ((m.tris.map fun c => c.map Int.ofNat).flatten ++ ((m.tets.map fun c => c.map Int.ofNat).flatten ++ [])))
      else m.verts.map (·.globalIndex) }

def size (s : SerializedMesh) (i : ℕ) : ℤ := s.sizes.getD i 0

/-- SerializedMesh.cpp:32, 108 -/
def conn (s : SerializedMesh) : Prop := s.size 2 + s.size 3 + s.size 4 > 0

instance (s : SerializedMesh) : Decidable s.conn := by unfold conn; exact inferInstance

/-- `assertValid`, SerializedMesh.cpp:12-49 -/
def Valid (s : SerializedMesh) : Prop :=
  s.sizes.length = 5 ∧ 0 < s.size 0 ∧ s.size 0 ≤ 3 ∧ 0 ≤ s.size 1 ∧
  if s.size 1 = 0 then s.size 2 = 0 ∧ s.size 3 = 0 ∧ s.size 4 = 0 ∧ s.ids = [] ∧ s.coords = []
  else s.size 1 * s.size 0 = s.coords.length ∧
    if s.conn then
      (s.ids.length : ℤ) = 2 * s.size 1 + 2 * s.size 2 + 3 * s.size 3 + 4 * s.size 4 ∧
      ((List.range (s.size 1).toNat).map fun i => s.ids.getD (2 * i + 1) 0).Nodup ∧
      ∀ x ∈ s.ids.drop (2 * (s.size 1).toNat), x ∈ (List.range (s.size 1).toNat).map fun i => s.ids.getD (2 * i + 1) 0
    else (s.ids.length : ℤ) = s.size 1

instance (s : SerializedMesh) : Decidable s.Valid := by unfold Valid; exact inferInstance

/-- The vertex loop of `addToMesh`, SerializedMesh.cpp:112-128. The map does not overwrite existing entries. -/
def addVertices (s : SerializedMesh) (dst : Mesh d) (n : ℕ) : Mesh d × (ℤ → Option ℕ) :=
  (List.range n).foldl (fun st i =>
    let r := st.1.createVertex { coords := fun k => s.coords.getD (d * i + k) 0, globalIndex := if s.conn then s.ids.getD (2 * i) 0 else s.ids.getD i 0 }
    (r.1, if s.conn ∧ st.2 (s.ids.getD (2 * i + 1) 0) = none then Function.update st.2 (s.ids.getD (2 * i + 1) 0) (some r.2) else st.2)) (dst, fun _ => none)

/-- An element loop of `addToMesh`; `vertices.at` throws for unknown IDs. -/
def addElements (create : Mesh d → List ℕ → Mesh d) (f : ℤ → Option ℕ) : List (List ℤ) → Mesh d → Option (Mesh d)
  | [], m => some m
  | c :: cs, m => if c.all (fun i => (f i).isSome) then addElements create f cs (create m (c.filterMap f)) else none

/-- `addToMesh`, SerializedMesh.cpp:97-155. The loop over the tetrahedra runs until the end of the IDs. -/
def addToMesh (s : SerializedMesh) (dst : Mesh d) : Option (Mesh d) :=
  if s.size 0 ≠ d then none
  else if s.size 1 = 0 then some dst
  else
    let nv := (s.size 1).toNat
    let r := s.addVertices dst nv
    if ¬ s.conn then some r.1
    else
      let offEdge := nv * 2
      let offTri := offEdge + 2 * (s.size 2).toNat
      let offTet := offTri + 3 * (s.size 3).toNat
      do
        let m ← addElements Mesh.createEdge r.2 (blocksAt 0 s.ids offEdge 2 (s.size 2).toNat) r.1
        let m ← addElements Mesh.createTriangle r.2 (blocksAt 0 s.ids offTri 3 (s.size 3).toNat) m
        addElements Mesh.createTetrahedron r.2 (blocksAt 0 s.ids offTet 4 ((s.ids.length - offTet) / 4)) m

end SerializedMesh

/-- `send`, SerializedMesh.cpp:51-58, to the other of two communicating ranks -/
def sendMesh (s : SerializedMesh) (K : Prog Bool Msg α) : Prog Bool Msg α :=
  .send false (.ints s.sizes) (if s.size 1 > 0 then .send false (.reals s.coords) (.send false (.ints s.ids) K) else K)

/-- `receiveRange` of integers -/
def recvInts (K : List ℤ → Prog Bool Msg α) : Prog Bool Msg α :=
  .recv true fun
    | .ints l => K l
    | .reals _ => .fail .assert

/-- `receiveRange` of floating point numbers -/
def recvReals (K : List ℚ → Prog Bool Msg α) : Prog Bool Msg α :=
  .recv true fun
    | .reals l => K l
    | .ints _ => .fail .assert

/-- `receive`, SerializedMesh.cpp:60-72 -/
def receiveMesh (K : SerializedMesh → Prog Bool Msg α) : Prog Bool Msg α :=
  recvInts fun sizes => Prog.ensure .assert (sizes.length = 5)
    (if sizes.getD 1 0 > 0 then recvReals fun coords => recvInts fun ids => Prog.ensure .assert (SerializedMesh.Valid ⟨sizes, coords, ids⟩) (K ⟨sizes, coords, ids⟩)
     else Prog.ensure .assert (SerializedMesh.Valid ⟨sizes, [], []⟩) (K ⟨sizes, [], []⟩))

/-- One rank serializes and sends its mesh, the other one receives it and adds it to its own. -/
def transferMesh (m dst : Mesh d) : Bool → Prog Bool Msg (Mesh d) :=
  pair (Prog.ensure .assert (hasConnectivity m → m.verts ≠ [] → (SerializedMesh.serialize m).Valid) (sendMesh (SerializedMesh.serialize m) (.ret m)))
    (receiveMesh fun s => match s.addToMesh dst with
      | some r => .ret r
      | none => .fail .assert)

/-! ## Specification -/

/-- Elements as the constructors build them: the right number of existing vertices in ascending order. -/
def CellOf (n k : ℕ) (c : Cell) : Prop := c.length = k ∧ (∀ i ∈ c, i < n) ∧ c.Pairwise (· ≤ ·)

structure Formed (m : Mesh d) : Prop where
  edges : ∀ c ∈ m.edges, CellOf m.verts.length 2 c
  tris : ∀ c ∈ m.tris, CellOf m.verts.length 3 c
  tets : ∀ c ∈ m.tets, CellOf m.verts.length 4 c

/-- What is transferred of a vertex. -/
def core (v : Vertex d) : Vertex d := { coords := v.coords, globalIndex := v.globalIndex }

/-- The mesh with the vertices and elements of `m` after those of `dst`. -/
def appended (dst m : Mesh d) : Mesh d :=
  { verts := dst.verts ++ m.verts.map core
    edges := dst.edges ++ m.edges.map fun c => c.map (dst.verts.length + ·)
    tris := dst.tris ++ m.tris.map fun c => c.map (dst.verts.length + ·)
    tets := dst.tets ++ m.tets.map fun c => c.map (dst.verts.length + ·) }

/-! ## Lemmas -/

namespace SerializedMesh

@[simp] theorem size_dim (m : Mesh d) : (serialize m).size 0 = d := rfl
@[simp] theorem size_verts (m : Mesh d) : (serialize m).size 1 = m.verts.length := rfl
@[simp] theorem size_edges (m : Mesh d) : (serialize m).size 2 = m.edges.length := rfl
@[simp] theorem size_tris (m : Mesh d) : (serialize m).size 3 = m.tris.length := rfl
@[simp] theorem size_tets (m : Mesh d) : (serialize m).size 4 = m.tets.length := rfl

theorem conn_iff (m : Mesh d) : (serialize m).conn ↔ hasConnectivity m = true := by
  unfold conn hasConnectivity
  simp only [size_edges, size_tris, size_tets, Bool.or_eq_true, Bool.not_eq_true', List.isEmpty_eq_false_iff]
  rw [← List.length_pos_iff, ← List.length_pos_iff, ← List.length_pos_iff]
  omega

theorem coords_at (m : Mesh d) (i : ℕ) (hi : i < m.verts.length) (k : Fin d) : (serialize m).coords.getD (d * i + k) 0 = (m.verts[i]).coords k := by
  unfold serialize
  simp only [List.getD_eq_getElem?_getD]
  rw [flatten_get _ d (by simp +contextual) i k k.2]
  simp [hi]

theorem coords_length (m : Mesh d) : (serialize m).coords.length = m.verts.length * d := by
  unfold serialize
  simp only []
  rw [flatten_length _ d (by simp +contextual), List.length_map]

theorem ids_conn (m : Mesh d) (h : hasConnectivity m = true) :
    (serialize m).ids = (m.verts.zipIdx.map fun x => [x.1.globalIndex, (x.2 : ℤ)]).flatten ++ ((m.edges.map fun c => c.map Int.ofNat).flatten ++
          ((m.tris.map fun c => c.map Int.ofNat).flatten ++ ((m.tets.map fun c => c.map Int.ofNat).flatten ++ []))) := by
  unfold serialize
  rw [if_pos h]

theorem verts_pairs (m : Mesh d) : ∀ x ∈ m.verts.zipIdx.map fun x => [x.1.globalIndex, (x.2 : ℤ)], x.length = 2 := by
  intro x hx
  obtain ⟨y, -, rfl⟩ := List.mem_map.1 hx
  rfl

theorem verts_length (m : Mesh d) : ((m.verts.zipIdx.map fun x => [x.1.globalIndex, (x.2 : ℤ)]).flatten).length = m.verts.length * 2 := by
  rw [flatten_length _ 2 (verts_pairs m), List.length_map, List.length_zipIdx]

theorem ids_at (m : Mesh d) (h : hasConnectivity m = true) (i : ℕ) (hi : i < m.verts.length) :
    (serialize m).ids.getD (2 * i) 0 = (m.verts[i]).globalIndex ∧ (serialize m).ids.getD (2 * i + 1) 0 = i := by
  rw [ids_conn m h]
  simp only [List.getD_eq_getElem?_getD]
  have hl := verts_length m
  constructor
  · rw [List.getElem?_append_left (by omega)]
    have := flatten_get (m.verts.zipIdx.map fun x => [x.1.globalIndex, (x.2 : ℤ)]) 2 (verts_pairs m) i 0 (by omega)
    rw [Nat.add_zero] at this
    rw [this]
    simp [hi]
  · rw [List.getElem?_append_left (by omega), flatten_get _ 2 (verts_pairs m) i 1 (by omega)]
    simp [hi]

theorem local_ids (m : Mesh d) (h : hasConnectivity m = true) :
    ((List.range m.verts.length).map fun i => (serialize m).ids.getD (2 * i + 1) 0) = (List.range m.verts.length).map Int.ofNat := by
  refine List.map_congr_left fun i hi => ?_
  exact (ids_at m h i (List.mem_range.1 hi)).2

theorem cells_length {n k : ℕ} {l : List Cell} (h : ∀ c ∈ l, CellOf n k c) : ∀ x ∈ l.map (fun c => c.map Int.ofNat), x.length = k := by
  intro x hx
  obtain ⟨c, hc, rfl⟩ := List.mem_map.1 hx
  rw [List.length_map]
  exact (h c hc).1

theorem ids_length (m : Mesh d) (hm : Formed m) (h : hasConnectivity m = true) :
    (serialize m).ids.length = 2 * m.verts.length + 2 * m.edges.length + 3 * m.tris.length + 4 * m.tets.length := by
  rw [ids_conn m h, List.length_append, List.length_append, List.length_append, List.append_nil, verts_length, flatten_length _ 2 (cells_length hm.edges),
    flatten_length _ 3 (cells_length hm.tris), flatten_length _ 4 (cells_length hm.tets)]
  simp only [List.length_map]
  omega

theorem serialize_valid (m : Mesh d) (hm : Formed m) (hd : 0 < d) (hd' : d ≤ 3) : (serialize m).Valid := by
  unfold Valid
  refine ⟨rfl, by rw [size_dim]; omega, by rw [size_dim]; omega, by rw [size_verts]; omega, ?_⟩
  have hc := conn_iff m
  by_cases h0 : m.verts = []
  · have hnone : ∀ {k : ℕ} {l : List Cell}, 0 < k → (∀ c ∈ l, CellOf m.verts.length k c) → l = [] := by
      intro k l hk h
      refine List.eq_nil_iff_forall_not_mem.2 fun c hc => ?_
      obtain ⟨h1, h2, -⟩ := h c hc
      obtain ⟨i, hi⟩ := List.exists_mem_of_length_pos (by omega : 0 < c.length)
      have := h2 i hi
      rw [h0] at this
      simp at this
    have e1 := hnone (by omega) hm.edges
    have e2 := hnone (by omega) hm.tris
    have e3 := hnone (by omega) hm.tets
    rw [if_pos (show (serialize m).size 1 = 0 by simp [h0])]
    refine ⟨by simp [e1], by simp [e2], by simp [e3], ?_, ?_⟩
    · unfold serialize hasConnectivity
      simp [e1, e2, e3, h0]
    · unfold serialize
      simp [h0]
  · rw [if_neg (show ¬ (serialize m).size 1 = 0 by simpa using h0)]
    refine ⟨by rw [coords_length]; push_cast; rfl, ?_⟩
    by_cases h : hasConnectivity m = true
    · rw [if_pos (hc.2 h)]
      refine ⟨by rw [ids_length m hm h]; push_cast; rfl, ?_, ?_⟩
      · rw [size_verts, Int.toNat_natCast, local_ids m h]
        exact List.nodup_range.map Int.ofNat_injective
      · rw [size_verts, Int.toNat_natCast, local_ids m h, ids_conn m h, Nat.mul_comm 2, ← verts_length m, List.drop_left]
        have key : ∀ {k : ℕ} {l : List Cell}, (∀ c ∈ l, CellOf m.verts.length k c) → ∀ x ∈ (l.map fun c => c.map Int.ofNat).flatten,
            x ∈ (List.range m.verts.length).map Int.ofNat := by
          intro k l hl x hx
          obtain ⟨y, hy, hxy⟩ := List.mem_flatten.1 hx
          obtain ⟨c, hcl, rfl⟩ := List.mem_map.1 hy
          obtain ⟨i, hi, rfl⟩ := List.mem_map.1 hxy
          exact List.mem_map.2 ⟨i, List.mem_range.2 ((hl c hcl).2.1 i hi), rfl⟩
        intro x hx
        simp only [List.append_nil, List.mem_append] at hx
        rcases hx with hx | hx | hx
        · exact key hm.edges x hx
        · exact key hm.tris x hx
        · exact key hm.tets x hx
    · rw [if_neg fun e => h (hc.1 e), size_verts]
      unfold serialize
      simp [h]

theorem addVertices_eq (m dst : Mesh d) (n : ℕ) (hn : n ≤ m.verts.length) :
    (serialize m).addVertices dst n = ({ dst with verts := dst.verts ++ (m.verts.take n).map core },
      fun key : ℤ => if hasConnectivity m = true ∧ 0 ≤ key ∧ key < n then some (dst.verts.length + key.toNat) else none) := by
  induction n with
  | zero =>
    unfold addVertices
    simp only [List.range_zero, List.foldl_nil, List.take_zero, List.map_nil, List.append_nil, Prod.mk.injEq, true_and]
    funext key
    rw [if_neg (by omega)]
  | succ n ih =>
    have hn' : n < m.verts.length := by omega
    unfold addVertices at ih ⊢
    rw [List.range_succ, List.foldl_append, ih (by omega), List.foldl_cons, List.foldl_nil]
    simp only [Mesh.createVertex, Prod.mk.injEq]
    constructor
    · congr 1
      rw [List.take_add_one, List.getElem?_eq_getElem hn', List.map_append, List.append_assoc]
      congr 2
      simp only [Option.toList_some, List.map_cons, List.map_nil, core, List.cons.injEq, and_true]
      congr 1
      · funext k
        exact coords_at m n hn' k
      · by_cases h : hasConnectivity m = true
        · rw [if_pos ((conn_iff m).2 h)]
          exact (ids_at m h n hn').1
        · rw [if_neg fun e => h ((conn_iff m).1 e)]
          unfold serialize
          simp [h, hn']
    · by_cases h : hasConnectivity m = true
      · have hid := (ids_at m h n hn').2
        rw [hid, if_pos]
        · funext key
          rw [Function.update_apply]
          split
          · rename_i he
            subst he
            rw [if_pos ⟨h, by omega, by omega⟩]
            simp [hn'.le]
          · by_cases hk : 0 ≤ key ∧ key < n
            · rw [if_pos ⟨h, hk⟩, if_pos ⟨h, by omega, by omega⟩]
            · rw [if_neg fun e => hk e.2, if_neg fun e => hk ⟨e.2.1, by omega⟩]
        · refine ⟨(conn_iff m).2 h, ?_⟩
          rw [if_neg (by omega)]
      · rw [if_neg fun e => h ((conn_iff m).1 e.1)]
        funext key
        rw [if_neg fun e => h e.1, if_neg fun e => h e.1]

theorem addElements_eq {n k : ℕ} (f : ℤ → Option ℕ) (b : ℕ) (hf : ∀ i : ℕ, i < n → f i = some (b + i)) (create : Mesh d → List ℕ → Mesh d) (l : List Cell)
    (hl : ∀ c ∈ l, CellOf n k c) (m : Mesh d) :
    addElements create f (l.map fun c => c.map Int.ofNat) m = some (l.foldl (fun m c => create m (c.map (b + ·))) m) := by
  induction l generalizing m with
  | nil => rfl
  | cons c l ih =>
    obtain ⟨-, h2, -⟩ := hl c (by simp)
    rw [List.map_cons]
    unfold addElements
    have h3 : (c.map Int.ofNat).all (fun i => (f i).isSome) = true := by
      rw [List.all_eq_true]
      intro x hx
      obtain ⟨i, hi, rfl⟩ := List.mem_map.1 hx
      have := hf i (h2 i hi)
      rw [Int.ofNat_eq_natCast, this]
      rfl
    have h4 : (c.map Int.ofNat).filterMap f = c.map (b + ·) := by
      rw [List.filterMap_map, ← List.filterMap_eq_map]
      refine List.filterMap_congr fun i hi => ?_
      exact hf i (h2 i hi)
    rw [if_pos h3, h4, ih fun c hc => hl c (by simp [hc])]
    rfl

theorem mkCell_shift {n k : ℕ} {c : Cell} (h : CellOf n k c) (b : ℕ) : Mesh.mkCell (c.map (b + ·)) = c.map (b + ·) := by
  refine Mesh.mkCell_sorted ?_
  rw [List.pairwise_map]
  exact h.2.2.imp fun h => by omega

theorem create_edges {n : ℕ} (b : ℕ) (l : List Cell) (hl : ∀ c ∈ l, CellOf n 2 c) (m : Mesh d) :
    l.foldl (fun m c => m.createEdge (c.map (b + ·))) m = { m with edges := m.edges ++ l.map fun c => c.map (b + ·) } := by
  induction l generalizing m with
  | nil => simp
  | cons c l ih => rw [List.foldl_cons, ih fun c hc => hl c (by simp [hc])]; simp [Mesh.createEdge, mkCell_shift (hl c (by simp))]

theorem create_tris {n : ℕ} (b : ℕ) (l : List Cell) (hl : ∀ c ∈ l, CellOf n 3 c) (m : Mesh d) :
    l.foldl (fun m c => m.createTriangle (c.map (b + ·))) m = { m with tris := m.tris ++ l.map fun c => c.map (b + ·) } := by
  induction l generalizing m with
  | nil => simp
  | cons c l ih => rw [List.foldl_cons, ih fun c hc => hl c (by simp [hc])]; simp [Mesh.createTriangle, mkCell_shift (hl c (by simp))]

theorem create_tets {n : ℕ} (b : ℕ) (l : List Cell) (hl : ∀ c ∈ l, CellOf n 4 c) (m : Mesh d) :
    l.foldl (fun m c => m.createTetrahedron (c.map (b + ·))) m = { m with tets := m.tets ++ l.map fun c => c.map (b + ·) } := by
  induction l generalizing m with
  | nil => simp
  | cons c l ih => rw [List.foldl_cons, ih fun c hc => hl c (by simp [hc])]; simp [Mesh.createTetrahedron, mkCell_shift (hl c (by simp))]

theorem addToMesh_serialize (m dst : Mesh d) (hm : Formed m) (hd : 0 < d) (hd' : d ≤ 3) : (serialize m).addToMesh dst = some (appended dst m) := by
  unfold addToMesh
  rw [if_neg (by simp)]
  have hv := serialize_valid m hm hd hd'
  by_cases h0 : m.verts = []
  · have h0' : (serialize m).size 1 = 0 := by simp [h0]
    rw [if_pos h0']
    have := hv.2.2.2.2
    rw [if_pos h0'] at this
    obtain ⟨e1, e2, e3, -, -⟩ := this
    simp only [size_edges, size_tris, size_tets, Nat.cast_eq_zero, List.length_eq_zero_iff] at e1 e2 e3
    simp [appended, e1, e2, e3, h0]
  · rw [if_neg (by simpa using h0)]
    simp only [size_verts, size_edges, size_tris, Int.toNat_natCast, addVertices_eq m dst _ le_rfl, List.take_length]
    by_cases h : hasConnectivity m = true
    · rw [if_neg (not_not.2 ((conn_iff m).2 h))]
      have hf : ∀ i : ℕ, i < m.verts.length → (fun key : ℤ => if hasConnectivity m = true ∧ 0 ≤ key ∧ key < m.verts.length then
          some (dst.verts.length + key.toNat) else none) i = some (dst.verts.length + i) := by
        intro i hi
        simp only []
        rw [if_pos ⟨h, by omega, by omega⟩, Int.toNat_natCast]
      have hids := ids_conn m h
      generalize hA : (m.verts.zipIdx.map fun x => [x.1.globalIndex, (x.2 : ℤ)]).flatten = A at hids
      have hAl : A.length = m.verts.length * 2 := by rw [← hA]; exact verts_length m
      have hE := blocksAt_eq (0 : ℤ) A ((m.tris.map fun c => c.map Int.ofNat).flatten ++ ((m.tets.map fun c => c.map Int.ofNat).flatten ++ []))
        (m.edges.map fun c => c.map Int.ofNat) 2 (cells_length hm.edges)
      rw [← hids, hAl, List.length_map] at hE
      have hT := blocksAt_eq (0 : ℤ) (A ++ (m.edges.map fun c => c.map Int.ofNat).flatten) ((m.tets.map fun c => c.map Int.ofNat).flatten ++ [])
        (m.tris.map fun c => c.map Int.ofNat) 3 (cells_length hm.tris)
      rw [List.append_assoc, ← hids, List.length_append, hAl, flatten_length _ 2 (cells_length hm.edges), List.length_map, List.length_map, Nat.mul_comm m.edges.length] at hT
      have hQ := blocksAt_eq (0 : ℤ) (A ++ ((m.edges.map fun c => c.map Int.ofNat).flatten ++ (m.tris.map fun c => c.map Int.ofNat).flatten)) []
        (m.tets.map fun c => c.map Int.ofNat) 4 (cells_length hm.tets)
      rw [List.append_assoc, List.append_assoc, ← hids, List.length_append, List.length_append, hAl, flatten_length _ 2 (cells_length hm.edges),
        flatten_length _ 3 (cells_length hm.tris), List.length_map, List.length_map, List.length_map, Nat.mul_comm m.edges.length, Nat.mul_comm m.tris.length,
        ← Nat.add_assoc] at hQ
      have hn : ((serialize m).ids.length - (m.verts.length * 2 + 2 * m.edges.length + 3 * m.tris.length)) / 4 = m.tets.length := by
        rw [ids_length m hm h]; omega
      rw [hE, hT, hn, hQ, addElements_eq _ dst.verts.length hf _ _ hm.edges]
      simp only [Option.bind_eq_bind, Option.bind_some]
      rw [addElements_eq _ dst.verts.length hf _ _ hm.tris]
      simp only [Option.bind_some]
      rw [addElements_eq _ dst.verts.length hf _ _ hm.tets, create_edges _ _ hm.edges, create_tris _ _ hm.tris, create_tets _ _ hm.tets]
      rfl
    · rw [if_pos fun e => h ((conn_iff m).1 e)]
      unfold hasConnectivity at h
      simp only [Bool.or_eq_true, Bool.not_eq_true', List.isEmpty_eq_false_iff, not_or, ne_eq, not_not] at h
      simp [appended, h.1.1, h.1.2, h.2]

end SerializedMesh

/-! ## Main theorems -/

/-- Sending a mesh always completes, and the receiving mesh has afterwards the vertices (coordinates and global IDs) and the elements of the sent one after its own. -/
theorem C66_append (m dst : Mesh d) (hm : Formed m) (hd : 0 < d) (hd' : d ≤ 3) :
    RNet.AlwaysCompletes (transferMesh m dst) fun x => bif x then m else appended dst m := by
  have hv := SerializedMesh.serialize_valid m hm hd hd'
  have hr := SerializedMesh.addToMesh_serialize m dst hm hd hd'
  refine Meet.alwaysCompletes ?_
  simp only [Prog.ensure]
  rw [if_pos fun _ _ => hv]
  unfold sendMesh receiveMesh recvInts recvReals
  refine .fwd ?_
  simp only []
  rw [Prog.ensure, if_pos (show (SerializedMesh.serialize m).sizes.length = 5 from rfl)]
  have hs : (SerializedMesh.serialize m).size 1 = (SerializedMesh.serialize m).sizes.getD 1 0 := rfl
  by_cases h : (SerializedMesh.serialize m).size 1 > 0
  · rw [if_pos h, if_pos (hs ▸ h)]
    refine .fwd (.fwd ?_)
    simp only [Prog.ensure]
    rw [if_pos hv, hr]
    exact .ret _ _
  · have h0 : (SerializedMesh.serialize m).size 1 = 0 := le_antisymm (not_lt.1 h) hv.2.2.2.1
    have hv' := hv.2.2.2.2
    rw [if_pos h0] at hv'
    obtain ⟨-, -, -, hi, hc⟩ := hv'
    have he : SerializedMesh.mk (SerializedMesh.serialize m).sizes [] [] = SerializedMesh.serialize m := by rw [← hi, ← hc]
    rw [if_neg h, if_neg (hs ▸ h), he]
    simp only [Prog.ensure]
    rw [if_pos hv, hr]
    exact .ret _ _

/-- Sending a mesh to an empty one reproduces it: the same vertices in the same order with the same global IDs, and the same edges, triangles and tetrahedra. -/
theorem C66_lossless (m : Mesh d) (hm : Formed m) (hd : 0 < d) (hd' : d ≤ 3) :
    ∃ r : Mesh d, RNet.AlwaysCompletes (transferMesh m (Mesh.empty d)) (fun x => bif x then m else r) ∧
      r.verts.map (·.coords) = m.verts.map (·.coords) ∧ r.verts.map (·.globalIndex) = m.verts.map (·.globalIndex) ∧
      r.edges = m.edges ∧ r.tris = m.tris ∧ r.tets = m.tets := by
  refine ⟨_, C66_append m (Mesh.empty d) hm hd hd', ?_⟩
  simp [appended, Mesh.empty, core, Function.comp_def]

/-- Non-vacuity: a mesh with all kinds of elements and global IDs that are not the positions. -/
example : Formed (d := 3) ⟨[⟨![0, 0, 0], 7, true, false⟩, ⟨![1, 0, 0], 3, false, true⟩, ⟨![0, 1, 0], 4, true, true⟩, ⟨![0, 0, 1], 9, true, false⟩], [[0, 3]], [[0, 1, 2], [1, 2, 3]],
    [[0, 1, 2, 3]]⟩ := by
  constructor <;> (unfold CellOf; decide)

end Verif.Com
