import Verif.Mesh.MeshLemmas
import Mathlib.Data.Fin.VecNotation

/-!
# Properties C38, C41, C42: preprocessing, filtering and merging of meshes
-/

set_option autoImplicit false

namespace Verif.Mesh

variable {d : ℕ}

/-! ### Specification -/

/-- A mesh as built by the API: elements have `k` distinct existing vertices, listed by ID. -/
def CellsOk (n k : ℕ) (cs : List Cell) : Prop :=
  ∀ c ∈ cs, c.length = k ∧ c.Nodup ∧ c.Pairwise (· ≤ ·) ∧ ∀ i ∈ c, i < n

structure Ok (m : Mesh d) : Prop where
  edges : CellsOk m.verts.length 2 m.edges
  tris : CellsOk m.verts.length 3 m.tris
  tets : CellsOk m.verts.length 4 m.tets

/-- No two vertices are at the same position (as compared by the code). -/
def DistinctVerts (m : Mesh d) : Prop :=
  ∀ (i j : ℕ) (v w : Vertex d), m.verts[i]? = some v → m.verts[j]? = some w → v.same w → i = j

/-- No element occurs twice, elements being identified with their vertex sets. -/
def NoDup (cs : List Cell) : Prop := cs.Pairwise fun a b => ¬ a.Perm b

/-- Some element has exactly the vertices `s`. -/
def Has (cs : List Cell) (s : List ℕ) : Prop := ∃ c ∈ cs, c.Perm s

/-! ### C38 -/

theorem perm_eq_of_sorted {a b : Cell} (ha : a.Pairwise (· ≤ ·)) (hb : b.Pairwise (· ≤ ·)) (h : a.Perm b) :
    a = b := List.Perm.eq_of_pairwise (fun _ _ _ _ h1 h2 => le_antisymm h1 h2) ha hb h

theorem dedup_subset (m : Mesh d) (l : List Cell) : ∀ c ∈ dedupCells m l, c ∈ l := fun c hc =>
  (List.perm_insertionSort (fun a b => cellLe a b = true) l).mem_iff.mp (unique_subset _ _ c hc)

theorem dedup_noDup (m : Mesh d) {k : ℕ} {l : List Cell} (h : CellsOk m.verts.length k l) :
    NoDup (dedupCells m l) := by
  have hn : (dedupCells m l).Nodup := unique_nodup _ _
    (fun c hc => isPerm_self (h c ((List.perm_insertionSort (fun a b => cellLe a b = true) l).mem_iff.mp hc)).2.2.2) (sorted_cells l)
  refine List.Pairwise.imp_of_mem (fun {a b} ha hb hne hp => hne ?_) hn
  exact perm_eq_of_sorted (h a (dedup_subset m l a ha)).2.2.1 (h b (dedup_subset m l b hb)).2.2.1 hp

theorem vertEq_eq {m : Mesh d} (hm : DistinctVerts m) (i j : ℕ) (h : vertEq m i j = true) : i = j := by
  unfold vertEq at h
  split at h
  · next v w h1 h2 => exact hm i j v w h1 h2 (of_decide_eq_true h)
  · cases h

theorem dedup_keeps (m : Mesh d) (hm : DistinctVerts m) {k : ℕ} {l : List Cell}
    (h : CellsOk m.verts.length k l) : ∀ c ∈ l, c ∈ dedupCells m l := by
  intro c hc
  refine unique_keeps _ _ (fun a ha b hb he => ?_) c ((List.perm_insertionSort (fun a b => cellLe a b = true) l).mem_iff.mpr hc)
  have ha' := (List.perm_insertionSort (fun a b => cellLe a b = true) l).mem_iff.mp ha
  have hb' := (List.perm_insertionSort (fun a b => cellLe a b = true) l).mem_iff.mp hb
  exact perm_eq_of_sorted (h a ha').2.2.1 (h b hb').2.2.1 (isPerm_perm (vertEq_eq hm) he)

/-- the tetrahedra, triangles and edges after preprocessing -/
theorem preprocess_tets (ptr : ℕ → ℕ) (m : Mesh d) : (preprocess ptr m).tets = dedupCells m m.tets := by
  unfold preprocess generateImplicit
  split <;> rfl

theorem preprocess_tris (ptr : ℕ → ℕ) (m : Mesh d) :
    (preprocess ptr m).tris = complete ptr facesOf (dedupCells m m.tets) (dedupCells m m.tris) := by
  unfold preprocess generateImplicit
  split
  · next h =>
    have h1 : dedupCells m m.tris = [] := h.1
    have h2 : dedupCells m m.tets = [] := h.2
    show dedupCells m m.tris = _
    rw [h1, h2]; rfl
  · rfl

theorem preprocess_edges (ptr : ℕ → ℕ) (m : Mesh d) :
    (preprocess ptr m).edges = complete ptr edgesOf (preprocess ptr m).tris (dedupCells m m.edges) := by
  rw [preprocess_tris]
  unfold preprocess generateImplicit
  split
  · next h =>
    have h1 : dedupCells m m.tris = [] := h.1
    have h2 : dedupCells m m.tets = [] := h.2
    show dedupCells m m.edges = _
    rw [h1, h2]; rfl
  · rfl

theorem has_sub {ptr : ℕ → ℕ} {n k : ℕ} {sub : List ℕ → List (List ℕ)} {t s : List ℕ}
    (hmem : ∀ {l s : List ℕ}, l.length = n → s.Sublist l → s.length = k → s ∈ sub l)
    (ht : t.length = n) (hs : s.length = k) (hn : s.Nodup) (hsub : s ⊆ t) :
    ∃ s' ∈ sub (sortedPtrs ptr t), s'.Perm s := by
  have h1 : s.Subperm (sortedPtrs ptr t) :=
    hn.subperm fun x hx => (sortedPtrs_perm t).mem_iff.mpr (hsub hx)
  obtain ⟨s', hp, hs'⟩ := h1
  exact ⟨s', hmem ((sortedPtrs_perm t).length_eq.trans ht) hs' (hp.length_eq.trans hs), hp⟩

theorem tris_length {ptr : ℕ → ℕ} (hp : Function.Injective ptr) {m : Mesh d} (hm : m.Ok) :
    ∀ t ∈ (preprocess ptr m).tris, t.length = 3 := by
  intro t ht
  rw [preprocess_tris] at ht
  obtain ⟨st, e, inv⟩ := complete_inv hp facesOf facesOf_sublist (dedupCells m m.tets) (dedupCells m m.tris)
  rw [e] at ht
  rcases inv.only t ht with h | ⟨s, hs, rfl⟩
  · exact (hm.tris t (dedup_subset m _ t h)).1
  · rw [(mkCell_perm s).length_eq]
    rw [List.mem_flatMap] at hs
    obtain ⟨u, _, hs⟩ := hs
    unfold facesOf at hs
    split at hs
    · simp only [List.mem_cons, List.not_mem_nil, or_false] at hs
      rcases hs with rfl | rfl | rfl | rfl <;> rfl
    · simp at hs

/-- C38: after preprocessing every edge of every triangle and every face of every tetrahedron is
present. -/
theorem C38_complete {ptr : ℕ → ℕ} (hp : Function.Injective ptr) {m : Mesh d} (hm : m.Ok) :
    (∀ t ∈ (preprocess ptr m).tets, ∀ s : List ℕ, s.length = 3 → s.Nodup → s ⊆ t → Has (preprocess ptr m).tris s) ∧
    (∀ t ∈ (preprocess ptr m).tris, ∀ s : List ℕ, s.length = 2 → s.Nodup → s ⊆ t → Has (preprocess ptr m).edges s) := by
  constructor
  · intro t ht s hs hn hsub
    rw [preprocess_tets] at ht
    rw [preprocess_tris]
    obtain ⟨st, e, inv⟩ := complete_inv hp facesOf facesOf_sublist (dedupCells m m.tets) (dedupCells m m.tris)
    rw [e]
    obtain ⟨s', h1, h2⟩ := has_sub (ptr := ptr) mem_facesOf (hm.tets t (dedup_subset m _ t ht)).1 hs hn hsub
    obtain ⟨c, hc, h3⟩ := inv.all s' (List.mem_flatMap.mpr ⟨t, ht, h1⟩)
    exact ⟨c, hc, h3.trans h2⟩
  · intro t ht s hs hn hsub
    have hl := tris_length hp hm t ht
    rw [preprocess_edges]
    obtain ⟨st, e, inv⟩ := complete_inv hp edgesOf edgesOf_sublist (preprocess ptr m).tris (dedupCells m m.edges)
    rw [e]
    obtain ⟨s', h1, h2⟩ := has_sub (ptr := ptr) mem_edgesOf hl hs hn hsub
    obtain ⟨c, hc, h3⟩ := inv.all s' (List.mem_flatMap.mpr ⟨t, ht, h1⟩)
    exact ⟨c, hc, h3.trans h2⟩

/-- C38: no element occurs twice. -/
theorem C38_no_duplicates {ptr : ℕ → ℕ} (hp : Function.Injective ptr) {m : Mesh d} (hm : m.Ok) :
    NoDup (preprocess ptr m).edges ∧ NoDup (preprocess ptr m).tris ∧ NoDup (preprocess ptr m).tets := by
  refine ⟨?_, ?_, ?_⟩
  · rw [preprocess_edges]
    obtain ⟨st, e, inv⟩ := complete_inv hp edgesOf edgesOf_sublist (preprocess ptr m).tris (dedupCells m m.edges)
    rw [e]; exact inv.nodup (dedup_noDup m hm.edges)
  · rw [preprocess_tris]
    obtain ⟨st, e, inv⟩ := complete_inv hp facesOf facesOf_sublist (dedupCells m m.tets) (dedupCells m m.tris)
    rw [e]; exact inv.nodup (dedup_noDup m hm.tris)
  · rw [preprocess_tets]; exact dedup_noDup m hm.tets

/-- C38: nothing is added except faces of given tetrahedra and edges of (given or added) triangles. -/
theorem C38_nothing_extra {ptr : ℕ → ℕ} (hp : Function.Injective ptr) (m : Mesh d) :
    (∀ t ∈ (preprocess ptr m).tets, t ∈ m.tets) ∧
    (∀ t ∈ (preprocess ptr m).tris, t ∈ m.tris ∨ ∃ u ∈ m.tets, t ⊆ u) ∧
    (∀ t ∈ (preprocess ptr m).edges, t ∈ m.edges ∨ ∃ u ∈ (preprocess ptr m).tris, t ⊆ u) := by
  have aux : ∀ {sub : List ℕ → List (List ℕ)} (_ : ∀ l, ∀ s ∈ sub l, s.Sublist l) {parents : List Cell} {s : List ℕ},
      s ∈ (parents.flatMap fun t => sub (sortedPtrs ptr t)) → ∃ u ∈ parents, mkCell s ⊆ u := by
    intro sub hsub parents s hs
    rw [List.mem_flatMap] at hs
    obtain ⟨u, hu, hs⟩ := hs
    exact ⟨u, hu, fun x hx => (sortedPtrs_perm u).mem_iff.mp
      ((hsub _ s hs).subset ((mkCell_perm s).mem_iff.mp hx))⟩
  refine ⟨?_, ?_, ?_⟩
  · rw [preprocess_tets]; exact dedup_subset m _
  · intro t ht
    rw [preprocess_tris] at ht
    obtain ⟨st, e, inv⟩ := complete_inv hp facesOf facesOf_sublist (dedupCells m m.tets) (dedupCells m m.tris)
    rw [e] at ht
    rcases inv.only t ht with h | ⟨s, hs, rfl⟩
    · exact Or.inl (dedup_subset m _ t h)
    · obtain ⟨u, hu, h⟩ := aux facesOf_sublist hs
      exact Or.inr ⟨u, dedup_subset m _ u hu, h⟩
  · intro t ht
    rw [preprocess_edges] at ht
    obtain ⟨st, e, inv⟩ := complete_inv hp edgesOf edgesOf_sublist (preprocess ptr m).tris (dedupCells m m.edges)
    rw [e] at ht
    rcases inv.only t ht with h | ⟨s, hs, rfl⟩
    · exact Or.inl (dedup_subset m _ t h)
    · exact Or.inr (aux edgesOf_sublist hs)

/-- C38: no given element is lost, if no two vertices coincide. -/
theorem C38_nothing_lost {ptr : ℕ → ℕ} (hp : Function.Injective ptr) {m : Mesh d} (hm : m.Ok)
    (hd : DistinctVerts m) :
    (∀ t ∈ m.tets, t ∈ (preprocess ptr m).tets) ∧ (∀ t ∈ m.tris, t ∈ (preprocess ptr m).tris) ∧
    (∀ t ∈ m.edges, t ∈ (preprocess ptr m).edges) ∧ (preprocess ptr m).verts = m.verts := by
  refine ⟨?_, ?_, ?_, ?_⟩
  · rw [preprocess_tets]; exact dedup_keeps m hd hm.tets
  · intro t ht
    rw [preprocess_tris]
    obtain ⟨st, e, inv⟩ := complete_inv hp facesOf facesOf_sublist (dedupCells m m.tets) (dedupCells m m.tris)
    rw [e]; exact inv.pre.subset (dedup_keeps m hd hm.tris t ht)
  · intro t ht
    rw [preprocess_edges]
    obtain ⟨st, e, inv⟩ := complete_inv hp edgesOf edgesOf_sublist (preprocess ptr m).tris (dedupCells m m.edges)
    rw [e]; exact inv.pre.subset (dedup_keeps m hd hm.edges t ht)
  · unfold preprocess generateImplicit
    split <;> rfl

/-- two triangles on both sides of a slit: vertices 1 and 2 have equal coordinates -/
def slit : Mesh 2 :=
  { verts := [⟨![0, 1], -1, true, false⟩, ⟨![1, 0], -1, true, false⟩, ⟨![1, 0], -1, true, false⟩, ⟨![2, 2], -1, true, false⟩]
    edges := [], tris := [[0, 1, 3], [0, 2, 3]], tets := [] }

/-- C38, disagreement: elements are compared by coordinates, so if two vertices coincide, one of two
different triangles is dropped, together with its edges. -/
theorem C38_coincident_vertices_lose_elements :
    slit.Ok ∧ (preprocess id slit).tris = [[0, 1, 3]] ∧ (preprocess id slit).edges = [[0, 1], [0, 3], [1, 3]] := by
  refine ⟨⟨?_, ?_, ?_⟩, ?_, ?_⟩
  · intro c hc; simp [slit] at hc
  · unfold CellsOk; decide +kernel
  · intro c hc; simp [slit] at hc
  · decide +kernel
  · decide +kernel

/-! ### C41 -/

/-- Vertex `i` of the mesh is selected. -/
def Selected (m : Mesh d) (p : Vertex d → Bool) (i : ℕ) : Prop := ∃ v, m.verts[i]? = some v ∧ p v = true

instance (m : Mesh d) (p : Vertex d → Bool) (i : ℕ) : Decidable (Selected m p i) :=
  decidable_of_iff ((m.verts[i]?).any p = true) (by
    unfold Selected; cases m.verts[i]? <;> simp)

/-- The position of the selected vertex `i` in the result. -/
def newId (dst src : Mesh d) (p : Vertex d → Bool) (i : ℕ) : ℕ :=
  dst.verts.length + ((src.verts.take i).filter p).length

theorem selMap_eq (dst src : Mesh d) (p : Vertex d → Bool) (i : ℕ) :
    selMap p src.verts 0 dst.verts.length (fun _ => none) i =
      if Selected src p i then some (newId dst src p i) else none := by
  unfold selMap newId
  rw [List.countP_eq_length_filter]
  have : (0 ≤ i ∧ (src.verts[i - 0]?).any p = true) ↔ Selected src p i := by
    unfold Selected
    rw [Nat.sub_zero]
    cases src.verts[i]? <;> simp
  by_cases h : Selected src p i
  · rw [if_pos (this.mpr h), if_pos h, Nat.sub_zero]
  · rw [if_neg (fun h' => h (this.mp h')), if_neg h]

theorem newId_mono (dst src : Mesh d) (p : Vertex d → Bool) {i j : ℕ} (h : i ≤ j) :
    newId dst src p i ≤ newId dst src p j := by
  unfold newId
  exact Nat.add_le_add_left (((List.take_prefix_take_left h).sublist.filter p).length_le) _

theorem cells_eq (dst src : Mesh d) (p : Vertex d → Bool) {f : VMap}
    (hf : ∀ i, f i = if Selected src p i then some (newId dst src p i) else none) (cs : List Cell)
    (hs : ∀ c ∈ cs, c.Pairwise (· ≤ ·)) :
    ((cs.filter fun c => c.all fun i => (f i).isSome).map fun c => mkCell (c.filterMap f)) =
      (cs.filter fun c => decide (∀ i ∈ c, Selected src p i)).map fun c => c.map (newId dst src p) := by
  have hsome : ∀ i, (f i).isSome = true ↔ Selected src p i := by
    intro i; rw [hf i]; by_cases h : Selected src p i <;> simp [h]
  have hfilter : (cs.filter fun c => c.all fun i => (f i).isSome) =
      cs.filter fun c => decide (∀ i ∈ c, Selected src p i) := by
    apply List.filter_congr
    intro c _
    rw [Bool.eq_iff_iff, List.all_eq_true, decide_eq_true_eq]
    exact forall₂_congr fun i _ => hsome i
  rw [hfilter]
  apply List.map_congr_left
  intro c hc
  rw [List.mem_filter, decide_eq_true_eq] at hc
  have hmap : c.filterMap f = c.map (newId dst src p) := by
    rw [← List.filterMap_eq_map]
    apply List.filterMap_congr
    intro i hi
    rw [hf i, if_pos (hc.2 i hi)]; rfl
  rw [hmap]
  exact mkCell_sorted ((hs c hc.1).map _ fun _ _ h => newId_mono dst src p h)

/-- C41: the result consists of the old content followed by exactly the selected vertices, in order
and unchanged, and exactly those elements all of whose vertices are selected, with every vertex
replaced by its copy. -/
theorem C41_filter (dst src : Mesh d) (hs : src.Ok) (p : Vertex d → Bool) :
    let r := filter dst src p
    let keep := fun c : Cell => decide (∀ i ∈ c, Selected src p i)
    r.verts = dst.verts ++ src.verts.filter p ∧
    r.edges = dst.edges ++ (src.edges.filter keep).map (fun c => c.map (newId dst src p)) ∧
    r.tris = dst.tris ++ (src.tris.filter keep).map (fun c => c.map (newId dst src p)) ∧
    r.tets = dst.tets ++ (src.tets.filter keep).map (fun c => c.map (newId dst src p)) ∧
    ∀ i, Selected src p i → r.verts[newId dst src p i]? = src.verts[i]? := by
  intro r keep
  have hr : r = { verts := dst.verts ++ src.verts.filter p,
                  edges := dst.edges ++ (src.edges.filter keep).map (fun c => c.map (newId dst src p)),
                  tris := dst.tris ++ (src.tris.filter keep).map (fun c => c.map (newId dst src p)),
                  tets := dst.tets ++ (src.tets.filter keep).map (fun c => c.map (newId dst src p)) } := by
    simp only [r, filter, filterVerts_eq, filterCells_edges, filterCells_tris, filterCells_tets]
    rw [cells_eq dst src p (selMap_eq dst src p) src.edges fun c hc => (hs.edges c hc).2.2.1,
      cells_eq dst src p (selMap_eq dst src p) src.tris fun c hc => (hs.tris c hc).2.2.1,
      cells_eq dst src p (selMap_eq dst src p) src.tets fun c hc => (hs.tets c hc).2.2.1]
  rw [hr]
  refine ⟨rfl, rfl, rfl, rfl, fun i ⟨v, hv, hpv⟩ => ?_⟩
  dsimp only
  unfold newId
  rw [List.getElem?_append_right (by omega), Nat.add_sub_cancel_left, hv]
  obtain ⟨hi, rfl⟩ := List.getElem?_eq_some_iff.mp hv
  conv_lhs => rw [← List.take_append_drop i src.verts, List.filter_append,
    List.drop_eq_getElem_cons hi, List.filter_cons_of_pos hpv]
  rw [List.getElem?_append_right (by simp)]
  simp

/-- Example: keep the first and third vertex of a triangle with one more edge. -/
example : (filter (empty 2)
    { verts := [⟨![0, 0], 5, true, false⟩, ⟨![1, 0], 6, false, true⟩, ⟨![0, 1], 7, true, true⟩]
      edges := [[0, 1], [0, 2]], tris := [[0, 1, 2]], tets := [] }
    (fun v => decide (v.globalIndex ≠ 6))).edges = [[0, 1]] := by decide +kernel

/-! ### C42 -/

/-- C42: merging succeeds for meshes built by the API, keeps the previous content and appends the
vertices and the elements of the added mesh, shifted by the number of previous vertices. -/
theorem C42_addMesh (dst delta : Mesh d) (h : delta.Ok) :
    ∃ r : Mesh d, addMesh dst delta = some r ∧
      r.verts = dst.verts ++ delta.verts ∧
      r.edges = dst.edges ++ delta.edges.map (fun c => c.map (dst.verts.length + ·)) ∧
      r.tris = dst.tris ++ delta.tris.map (fun c => c.map (dst.verts.length + ·)) ∧
      r.tets = dst.tets ++ delta.tets.map (fun c => c.map (dst.verts.length + ·)) := by
  have hall : ∀ {k : ℕ} {cs : List Cell}, CellsOk delta.verts.length k cs → ∀ c ∈ cs, ∀ i ∈ c,
      Selected delta (fun _ => true) i := fun hc c hcm i hi =>
    ⟨_, List.getElem?_eq_getElem ((hc c hcm).2.2.2 i hi), rfl⟩
  have hsel := selMap_eq dst delta (fun _ => true)
  have hcond : ∀ {k : ℕ} {cs : List Cell}, CellsOk delta.verts.length k cs →
      cs.all (fun c => c.all fun i =>
        (selMap (fun _ => true) delta.verts 0 dst.verts.length (fun _ => none) i).isSome) = true := by
    intro k cs hc
    rw [List.all_eq_true]
    intro c hcm
    rw [List.all_eq_true]
    intro i hi
    rw [hsel i, if_pos (hall hc c hcm i hi)]; rfl
  have hmap : ∀ {k : ℕ} {cs : List Cell}, CellsOk delta.verts.length k cs →
      ((cs.filter fun c => decide (∀ i ∈ c, Selected delta (fun _ => true) i)).map fun c =>
        c.map (newId dst delta fun _ => true)) = cs.map fun c => c.map (dst.verts.length + ·) := by
    intro k cs hc
    rw [List.filter_eq_self.mpr fun c hcm => decide_eq_true fun i hi => hall hc c hcm i hi]
    apply List.map_congr_left
    intro c hcm
    apply List.map_congr_left
    intro i hi
    unfold newId
    have : i < delta.verts.length := (hc c hcm).2.2.2 i hi
    simp only [List.filter_true, List.length_take]
    omega
  refine ⟨⟨_, _, _, _⟩, ?_, rfl, rfl, rfl, rfl⟩
  simp only [addMesh, filterVerts_eq, addCells_eq, hcond h.edges, hcond h.tris, hcond h.tets, if_true,
    Option.bind_eq_bind, Option.bind_some, filterCells_edges, filterCells_tris, filterCells_tets]
  rw [cells_eq dst delta _ hsel delta.edges fun c hc => (h.edges c hc).2.2.1,
      cells_eq dst delta _ hsel delta.tris fun c hc => (h.tris c hc).2.2.1,
      cells_eq dst delta _ hsel delta.tets fun c hc => (h.tets c hc).2.2.1,
      hmap h.edges, hmap h.tris, hmap h.tets, List.filter_true]

/-- C42: meshes built by the API stay so. -/
theorem C42_ok (dst delta : Mesh d) (hd : dst.Ok) (h : delta.Ok) {r : Mesh d} (hr : addMesh dst delta = some r) :
    r.Ok := by
  obtain ⟨r', e, h1, h2, h3, h4⟩ := C42_addMesh dst delta h
  rw [hr] at e
  cases e
  have aux : ∀ {k : ℕ} {cs cs' : List Cell}, CellsOk dst.verts.length k cs → CellsOk delta.verts.length k cs' →
      CellsOk r.verts.length k (cs ++ cs'.map fun c => c.map (dst.verts.length + ·)) := by
    intro k cs cs' ha hb c hc
    rw [h1, List.length_append]
    rw [List.mem_append, List.mem_map] at hc
    rcases hc with hc | ⟨c, hc, rfl⟩
    · have := ha c hc
      exact ⟨this.1, this.2.1, this.2.2.1, fun i hi => (this.2.2.2 i hi).trans_le (by omega)⟩
    · have := hb c hc
      refine ⟨by rw [List.length_map]; exact this.1, this.2.1.map fun a b h => by simpa using h,
        this.2.2.1.map _ fun a b h => by simpa using h, fun i hi => ?_⟩
      obtain ⟨j, hj, rfl⟩ := List.mem_map.mp hi
      have := this.2.2.2 j hj
      omega
  exact ⟨h2 ▸ aux hd.edges h.edges, h3 ▸ aux hd.tris h.tris, h4 ▸ aux hd.tets h.tets⟩

/-! ### Examples -/

/-- a tetrahedron with one explicit face, given twice in different vertex order -/
def tetMesh : Mesh 3 :=
  let m : Mesh 3 := { empty 3 with verts := [⟨![0, 0, 0], -1, true, false⟩, ⟨![1, 0, 0], -1, true, false⟩,
    ⟨![0, 1, 0], -1, true, false⟩, ⟨![0, 0, 1], -1, true, false⟩] }
  ((m.createTetrahedron [2, 0, 3, 1]).createTriangle [3, 1, 0]).createTriangle [0, 1, 3]

example : tetMesh.Ok := by
  refine ⟨?_, ?_, ?_⟩ <;> unfold CellsOk <;> decide +kernel

example : DistinctVerts tetMesh := by
  have h : ∀ i < 4, ∀ j < 4, vertEq tetMesh i j = true → i = j := by decide +kernel
  intro i j v w h1 h2 h3
  have hi : i < 4 := (List.getElem?_eq_some_iff.mp h1).1
  have hj : j < 4 := (List.getElem?_eq_some_iff.mp h2).1
  refine h i hi j hj ?_
  unfold vertEq
  rw [h1, h2]
  exact decide_eq_true h3

example : ((preprocess id tetMesh).tris.length, (preprocess id tetMesh).edges.length) = (4, 6) := by decide +kernel

end Verif.Mesh
