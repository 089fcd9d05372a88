import Verif.Dist.Repartition
import Verif.Mesh.MeshProps

/-!
# Restrictions of meshes

Specification and lemmas for C112: the elements of a mesh are named by the global IDs of their vertices.
-/

set_option autoImplicit false

namespace Verif.Repartition

open Verif.Dist Verif.Com

variable {d n : ℕ}

/-! ## Specification -/

/-- The global ID of vertex `i`. -/
def name (m : Mesh d) (i : ℕ) : ℤ := ((m.verts[i]?).map fun v => v.globalIndex).getD (-1)

/-- An element by the global IDs of its vertices. -/
def named (m : Mesh d) (c : Cell) : List ℤ := c.map (name m)

/-- The global IDs of the vertices. -/
def ids (m : Mesh d) : List ℤ := m.verts.map fun v => v.globalIndex

/-- `part` is the part of `whole` with the vertices selected by `p`: these vertices, in the same order, with the same coordinates and global IDs, and the elements
all of whose vertices are there. -/
structure Restricts (part whole : Mesh d) (p : Vertex d → Bool) : Prop where
  verts : part.verts.map core = (whole.verts.map core).filter p
  edges : part.edges.map (named part) = (whole.edges.map (named whole)).filter fun e => ∀ g ∈ e, g ∈ ids part
  tris : part.tris.map (named part) = (whole.tris.map (named whole)).filter fun e => ∀ g ∈ e, g ∈ ids part
  tets : part.tets.map (named part) = (whole.tets.map (named whole)).filter fun e => ∀ g ∈ e, g ∈ ids part

/-! ## Lemmas -/

theorem ids_core (m : Mesh d) : ids m = (m.verts.map core).map fun v => v.globalIndex := by
  unfold ids
  rw [List.map_map]
  rfl

theorem Restricts.subset {part whole : Mesh d} {p : Vertex d → Bool} (h : Restricts part whole p) : ∀ g ∈ ids part, g ∈ ids whole := by
  intro g hg
  rw [ids_core, h.verts] at hg
  rw [ids_core]
  obtain ⟨v, hv, rfl⟩ := List.mem_map.1 hg
  exact List.mem_map_of_mem (List.mem_of_mem_filter hv)

theorem Restricts.nodup {part whole : Mesh d} {p : Vertex d → Bool} (h : Restricts part whole p) (hn : (ids whole).Nodup) : (ids part).Nodup := by
  rw [ids_core, h.verts]
  rw [ids_core] at hn
  exact hn.sublist (List.filter_sublist.map _)

theorem Restricts.trans {a b c : Mesh d} {p q : Vertex d → Bool} (h : Restricts a b q) (h' : Restricts b c p) : Restricts a c fun v => p v && q v := by
  have key : ∀ l : List (List ℤ), ((l.filter fun e => ∀ g ∈ e, g ∈ ids b).filter fun e => ∀ g ∈ e, g ∈ ids a) = l.filter fun e => ∀ g ∈ e, g ∈ ids a := by
    intro l
    rw [List.filter_filter]
    refine List.filter_congr fun e _ => ?_
    rw [Bool.eq_iff_iff, Bool.and_eq_true, decide_eq_true_eq, decide_eq_true_eq]
    exact ⟨fun x => x.1, fun x => ⟨x, fun g hg => h.subset g (x g hg)⟩⟩
  refine ⟨?_, ?_, ?_, ?_⟩
  · rw [h.verts, h'.verts, List.filter_filter]
    refine List.filter_congr fun v _ => ?_
    rw [Bool.and_comm]
  · rw [h.edges, h'.edges, key]
  · rw [h.tris, h'.tris, key]
  · rw [h.tets, h'.tets, key]

theorem Restricts.congr {a b : Mesh d} {p q : Vertex d → Bool} (h : Restricts a b p) (hpq : ∀ v ∈ b.verts.map core, p v = q v) : Restricts a b q :=
  ⟨h.verts.trans (List.filter_congr hpq), h.edges, h.tris, h.tets⟩

theorem name_of_verts {a b : Mesh d} (h : a.verts.map core = b.verts.map core) (i : ℕ) : name a i = name b i := by
  have := congrArg (fun l : List (Vertex d) => (l[i]?).map fun v => v.globalIndex) h
  simp only [List.getElem?_map, Option.map_map] at this
  unfold name
  exact congrArg (fun o => o.getD (-1)) this

theorem ids_of_verts {a b : Mesh d} (h : a.verts.map core = b.verts.map core) : ids a = ids b := by rw [ids_core, ids_core, h]

theorem named_mem {m : Mesh d} {k : ℕ} {cs : List Cell} (h : Mesh.CellsOk m.verts.length k cs) {c : Cell} (hc : c ∈ cs) : ∀ g ∈ named m c, g ∈ ids m := by
  intro g hg
  obtain ⟨i, hi, rfl⟩ := List.mem_map.1 hg
  have hlt := (h c hc).2.2.2 i hi
  unfold name ids
  rw [List.getElem?_eq_getElem hlt]
  exact List.mem_map_of_mem (List.getElem_mem hlt)

/-- A mesh that only differs in the flags of the vertices. -/
theorem Restricts.of_flags {a b : Mesh d} (hb : b.Ok) (hv : a.verts.map core = b.verts.map core) (he : a.edges = b.edges) (ht : a.tris = b.tris) (htt : a.tets = b.tets) :
    Restricts a b fun _ => true := by
  have hn : named a = named b := funext fun c => List.map_congr_left fun i _ => name_of_verts hv i
  have key : ∀ {k : ℕ} {cs : List Cell}, Mesh.CellsOk b.verts.length k cs → cs.map (named b) = (cs.map (named b)).filter fun e => ∀ g ∈ e, g ∈ ids a := by
    intro k cs hcs
    symm
    rw [List.filter_eq_self]
    intro e he
    obtain ⟨c, hc, rfl⟩ := List.mem_map.1 he
    rw [decide_eq_true_eq, ids_of_verts hv]
    exact named_mem hcs hc
  refine ⟨by rw [hv, List.filter_true], ?_, ?_, ?_⟩
  · rw [he, hn]; exact key hb.edges
  · rw [ht, hn]; exact key hb.tris
  · rw [htt, hn]; exact key hb.tets

theorem selected_iff {src : Mesh d} (hn : (ids src).Nodup) (p : Vertex d → Bool) {part : Mesh d} (hp : part.verts = src.verts.filter p) {i : ℕ} (hi : i < src.verts.length) :
    Mesh.Selected src p i ↔ name src i ∈ ids part := by
  unfold Mesh.Selected name ids
  rw [List.getElem?_eq_getElem hi, hp]
  simp only [Option.some.injEq, Option.map_some, Option.getD_some, exists_eq_left', List.mem_map, List.mem_filter]
  constructor
  · exact fun h => ⟨_, ⟨List.getElem_mem hi, h⟩, rfl⟩
  · rintro ⟨v, ⟨hv, hpv⟩, hg⟩
    obtain ⟨j, hj, rfl⟩ := List.getElem_of_mem hv
    have : j = i := by
      have h1 : (ids src)[j]'(by simpa [ids] using hj) = (ids src)[i]'(by simpa [ids] using hi) := by simpa [ids] using hg
      exact (List.Nodup.getElem_inj_iff hn).1 h1
    subst this
    exact hpv

theorem filter_name {src : Mesh d} (hs : src.Ok) (p : Vertex d → Bool) {i : ℕ} (h : Mesh.Selected src p i) :
    name (Mesh.filter (Mesh.empty d) src p) (Mesh.newId (Mesh.empty d) src p i) = name src i := by
  obtain ⟨-, -, -, -, h5⟩ := Mesh.C41_filter (Mesh.empty d) src hs p
  unfold name
  rw [h5 i h]

/-- `filterMesh` into an empty mesh. -/
theorem restricts_filter {src : Mesh d} (hs : src.Ok) (hn : (ids src).Nodup) (p q : Vertex d → Bool) (hq : ∀ v ∈ src.verts, q (core v) = p v) :
    Restricts (Mesh.filter (Mesh.empty d) src p) src q := by
  obtain ⟨h1, h2, h3, h4, h5⟩ := Mesh.C41_filter (Mesh.empty d) src hs p
  rw [show (Mesh.empty d).verts = [] from rfl, List.nil_append] at h1
  rw [show (Mesh.empty d).edges = [] from rfl, List.nil_append] at h2
  rw [show (Mesh.empty d).tris = [] from rfl, List.nil_append] at h3
  rw [show (Mesh.empty d).tets = [] from rfl, List.nil_append] at h4
  have key : ∀ {k : ℕ} {cs : List Cell}, Mesh.CellsOk src.verts.length k cs →
      ((cs.filter fun c => decide (∀ i ∈ c, Mesh.Selected src p i)).map fun c => c.map (Mesh.newId (Mesh.empty d) src p)).map
          (named (Mesh.filter (Mesh.empty d) src p)) =
        (cs.map (named src)).filter fun e => ∀ g ∈ e, g ∈ ids (Mesh.filter (Mesh.empty d) src p) := by
    intro k cs hcs
    rw [List.filter_map, List.map_map]
    have hf : cs.filter (fun c => decide (∀ i ∈ c, Mesh.Selected src p i)) =
        cs.filter ((fun e => decide (∀ g ∈ e, g ∈ ids (Mesh.filter (Mesh.empty d) src p))) ∘ named src) := by
      refine List.filter_congr fun c hc => ?_
      simp only [Function.comp_apply, decide_eq_decide, named, List.forall_mem_map]
      exact forall₂_congr fun i hi => selected_iff hn p h1 ((hcs c hc).2.2.2 i hi)
    rw [← hf]
    refine List.map_congr_left fun c hc => ?_
    have hsel := (List.mem_filter.1 hc).2
    rw [decide_eq_true_eq] at hsel
    simp only [Function.comp_apply, named, List.map_map]
    exact List.map_congr_left fun i hi => filter_name hs p (hsel i hi)
  refine ⟨?_, ?_, ?_, ?_⟩
  · rw [h1, List.filter_map]
    congr 1
    exact List.filter_congr fun v hv => (hq v hv).symm
  · rw [h2]; exact key hs.edges
  · rw [h3]; exact key hs.tris
  · rw [h4]; exact key hs.tets

theorem newId_lt {src : Mesh d} (p : Vertex d → Bool) {i j : ℕ} (hi : Mesh.Selected src p i) (hij : i < j) :
    Mesh.newId (Mesh.empty d) src p i < Mesh.newId (Mesh.empty d) src p j := by
  unfold Mesh.newId
  obtain ⟨v, hv, hp⟩ := hi
  have hlt := (List.getElem?_eq_some_iff.1 hv).1
  have h1 : ((src.verts.take (i + 1)).filter p).length = ((src.verts.take i).filter p).length + 1 := by
    rw [List.take_add_one, hv, List.filter_append, List.length_append]
    simp [hp]
  have h2 : ((src.verts.take (i + 1)).filter p).length ≤ ((src.verts.take j).filter p).length :=
    ((List.take_prefix_take_left (by omega : i + 1 ≤ j)).sublist.filter p).length_le
  omega

theorem filter_ok {src : Mesh d} (hs : src.Ok) (p : Vertex d → Bool) : (Mesh.filter (Mesh.empty d) src p).Ok := by
  obtain ⟨h1, h2, h3, h4, h5⟩ := Mesh.C41_filter (Mesh.empty d) src hs p
  have key : ∀ {k : ℕ} {cs cs' : List Cell}, Mesh.CellsOk src.verts.length k cs →
      cs' = [] ++ (cs.filter fun c => decide (∀ i ∈ c, Mesh.Selected src p i)).map (fun c => c.map (Mesh.newId (Mesh.empty d) src p)) →
      Mesh.CellsOk (Mesh.filter (Mesh.empty d) src p).verts.length k cs' := by
    rintro k cs cs' hcs rfl c' hc'
    rw [List.nil_append] at hc'
    obtain ⟨c, hc, rfl⟩ := List.mem_map.1 hc'
    obtain ⟨hc, hsel⟩ := List.mem_filter.1 hc
    rw [decide_eq_true_eq] at hsel
    obtain ⟨g1, g2, g3, g4⟩ := hcs c hc
    have hlt : c.Pairwise (· < ·) := by
      refine (List.Pairwise.and g2 g3).imp fun h => lt_of_le_of_ne h.2 h.1
    refine ⟨by rw [List.length_map]; exact g1, ?_, ?_, ?_⟩
    · rw [List.Nodup, List.pairwise_map]
      refine List.Pairwise.imp_of_mem ?_ hlt
      intro a b ha _ hab
      exact (newId_lt p (hsel a ha) hab).ne
    · rw [List.pairwise_map]
      exact g3.imp fun h => Mesh.newId_mono _ _ _ h
    · intro i hi
      obtain ⟨j, hj, rfl⟩ := List.mem_map.1 hi
      obtain ⟨v, hv, -⟩ := hsel j hj
      have := h5 j (hsel j hj)
      rw [hv] at this
      exact (List.getElem?_eq_some_iff.1 this).1
  exact ⟨key hs.edges h2, key hs.tris h3, key hs.tets h4⟩

theorem addMesh_empty {m : Mesh d} (h : m.Ok) : Mesh.addMesh (Mesh.empty d) m = some m := by
  obtain ⟨r, hr, h1, h2, h3, h4⟩ := Mesh.C42_addMesh (Mesh.empty d) m h
  have hz : ∀ cs : List Cell, (cs.map fun c => c.map ((Mesh.empty d).verts.length + ·)) = cs := by
    intro cs
    conv_rhs => rw [← List.map_id cs]
    refine List.map_congr_left fun c _ => ?_
    simp [Mesh.empty]
  rw [hz] at h2 h3 h4
  rw [hr]
  congr 1
  cases r
  cases m
  simp_all [Mesh.empty]

theorem appended_empty {m : Mesh d} (h : m.verts.map core = m.verts) : appended (Mesh.empty d) m = m := by
  have hz : ∀ cs : List Cell, (cs.map fun c => c.map ((Mesh.empty d).verts.length + ·)) = cs := by
    intro cs
    conv_rhs => rw [← List.map_id cs]
    refine List.map_congr_left fun c _ => ?_
    simp [Mesh.empty]
  unfold appended
  rw [hz, hz, hz, h]
  cases m
  simp [Mesh.empty]

end Verif.Repartition
