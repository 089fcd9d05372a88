import Verif.Mapping.ParallelNN

/-!
# Projection mappings of parallel participants (C113)

`tagMeshFirstRound` of `/repo/src/mapping/BarycentricBaseMapping.cpp:131-164`: the vertices with a weight in one of the operations are tagged, the others are not, and elements with a
vertex that is not tagged are lost.
-/

set_option autoImplicit false

namespace Verif.Mapping

open Verif.Repartition Verif.Com Verif.Dist Geometry

variable {d n : ℕ}

/-! ## Model -/

/-- What a nearest-projection or linear-cell-interpolation mapping tags in the received mesh, BarycentricBaseMapping.cpp:136-164 -/
def npTags (kind : Kind) (q : Query d) (con : Constraint) (own m : Mesh d) (g : ℤ) : Bool :=
  (computeMapping kind q con (meshes con own m).1 (meshes con own m).2).any fun op => decide (name m op.in' = g)

/-! ## Specification -/

/-- A vertex or an edge of the mesh. -/
def VertexOrEdge (m : Mesh d) (c : Cell) : Prop := (∃ i < m.verts.length, c = [i]) ∨ c ∈ m.edges

/-- No point of a vertex or an edge of the mesh is closer. -/
def ClosestPoint (m : Mesh d) (u p : Pt d) : Prop := ∀ c, VertexOrEdge m c → ∀ p', InCell m c p' → dist2 u p ≤ dist2 u p'

/-- The weights of the projections on the edges are not mistaken for zero. -/
def Clean (m : Mesh d) (u : Pt d) : Prop := ∀ c ∈ m.edges, ∀ p, polation m u c = some p → ∀ e ∈ p.elems, equals e.2 0 → e.2 = 0

/-- A rank takes part with a nearest-projection mapping in two dimensions: it asks for the vertices of that mapping, and for every vertex an element with a closest point is within
reach. -/
structure UsesNP (q : Query 2) (con : Constraint) (k : Cfg) (x : Local 2) (own m : Mesh 2) : Prop where
  tags : ∀ M g, npTags .projection q con own M g = true → x.tag1 M g = true
  reach : ∀ i < own.verts.length, ∃ c p, VertexOrEdge m c ∧ InCell m c p ∧ ClosestPoint m (coordsOf own i) p ∧ ∀ j ∈ c, ∀ v : Vertex 2, m.verts[j]? = some v → Reach k x v = true
  clean : ∀ i < own.verts.length, Clean m (coordsOf own i)

/-! ## Lemmas -/

/-- Vertices with the same global ID have the same coordinates. -/
theorem coords_of_name {part m : Mesh d} {p : Vertex d → Bool} (hc : m.verts.map core = m.verts) (hn : (ids m).Nodup) (h : Restricts part m p) {i j : ℕ} (hi : i < part.verts.length)
    (hj : j < m.verts.length) (he : name part i = name m j) : coordsOf part i = coordsOf m j := by
  obtain ⟨j', v, h1, -, h3, h4⟩ := restricts_down hc h hi
  have hj' : m.verts[j]? = some m.verts[j] := List.getElem?_eq_getElem hj
  have : j' = j := ids_inj hn h1 hj' (by rw [← h3, he, name_some hj'])
  subst this
  rw [h4, coordsOf_some h1]

theorem cell_coords {part m : Mesh d} {p : Vertex d → Bool} (hc : m.verts.map core = m.verts) (hn : (ids m).Nodup) (h : Restricts part m p) : ∀ {c' c : Cell},
    (∀ i ∈ c', i < part.verts.length) → (∀ i ∈ c, i < m.verts.length) → named part c' = named m c → c'.map (coordsOf part) = c.map (coordsOf m) := by
  intro c'
  induction c' with
  | nil =>
    intro c _ _ he
    cases c with
    | nil => rfl
    | cons => simp [named] at he
  | cons a c' ih =>
    intro c h1 h2 he
    cases c with
    | nil => simp [named] at he
    | cons b c =>
      simp only [named, List.map_cons, List.cons.injEq] at he
      rw [List.map_cons, List.map_cons, coords_of_name hc hn h (h1 a (by simp)) (h2 b (by simp)) he.1,
        ih (fun i hi => h1 i (by simp [hi])) (fun i hi => h2 i (by simp [hi])) he.2]

theorem VertexOrEdge.lt {m : Mesh d} (hm : m.Ok) {c : Cell} (h : VertexOrEdge m c) : ∀ i ∈ c, i < m.verts.length := by
  rcases h with ⟨i, hi, rfl⟩ | h
  · intro j hj
    rw [List.mem_singleton.1 hj]
    exact hi
  · exact (hm.edges c h).2.2.2

/-- An element of the part is an element of the whole. -/
theorem elem_down {part m : Mesh d} (hok : part.Ok) (hm : m.Ok) {p : Vertex d → Bool} (hc : m.verts.map core = m.verts) (hn : (ids m).Nodup) (h : Restricts part m p) {c' : Cell}
    (hv : VertexOrEdge part c') : ∃ c, VertexOrEdge m c ∧ (c' ∈ part.edges → c ∈ m.edges) ∧ named part c' = named m c ∧ c'.map (coordsOf part) = c.map (coordsOf m) := by
  rcases hv with ⟨i, hi, rfl⟩ | he
  · obtain ⟨j, v, h1, -, h3, h4⟩ := restricts_down hc h hi
    refine ⟨[j], .inl ⟨j, (List.getElem?_eq_some_iff.1 h1).1, rfl⟩, ?_, ?_, ?_⟩
    · intro h
      have := (hok.edges _ h).1
      simp at this
    · simp [named, h3, name_some h1]
    · simp [h4, coordsOf_some h1]
  · have h1 : named part c' ∈ part.edges.map (named part) := List.mem_map_of_mem he
    rw [h.edges] at h1
    obtain ⟨c, hc1, hc2⟩ := List.mem_map.1 (List.mem_of_mem_filter h1)
    exact ⟨c, .inr hc1, fun _ => hc1, hc2.symm, cell_coords hc hn h (hok.edges _ he).2.2.2 (hm.edges _ hc1).2.2.2 hc2.symm⟩

/-- An element whose vertices are kept is an element of the part. -/
theorem elem_up {part m : Mesh d} (hok : part.Ok) (hm : m.Ok) {p : Vertex d → Bool} (hc : m.verts.map core = m.verts) (hn : (ids m).Nodup) (h : Restricts part m p) {c : Cell}
    (hv : VertexOrEdge m c) (hp : ∀ j ∈ c, ∀ v : Vertex d, m.verts[j]? = some v → p v = true) :
    ∃ c', VertexOrEdge part c' ∧ named part c' = named m c ∧ c'.map (coordsOf part) = c.map (coordsOf m) := by
  have key : ∀ j ∈ c, name m j ∈ ids part := by
    intro j hj
    have hjl := hv.lt hm j hj
    have h1 : m.verts[j]? = some m.verts[j] := List.getElem?_eq_getElem hjl
    obtain ⟨i, hi, h2, -⟩ := restricts_up hc h h1 (hp j hj _ h1)
    rw [name_some h1, ← h2, name_some (List.getElem?_eq_getElem hi)]
    exact List.mem_map_of_mem (List.getElem_mem hi)
  rcases hv with ⟨j, hj, rfl⟩ | he
  · have h1 : m.verts[j]? = some m.verts[j] := List.getElem?_eq_getElem hj
    obtain ⟨i, hi, h2, h3⟩ := restricts_up hc h h1 (hp j (by simp) _ h1)
    refine ⟨[i], .inl ⟨i, hi, rfl⟩, ?_, ?_⟩
    · simp [named, h2, name_some h1]
    · simp [h3, coordsOf_some h1]
  · have h1 : named m c ∈ part.edges.map (named part) := by
      rw [h.edges]
      refine List.mem_filter.2 ⟨List.mem_map_of_mem he, decide_eq_true ?_⟩
      intro g hg
      obtain ⟨j, hj, rfl⟩ := List.mem_map.1 hg
      exact key j hj
    obtain ⟨c', h2, h3⟩ := List.mem_map.1 h1
    exact ⟨c', .inr h2, h3, cell_coords hc hn h (hok.edges _ h2).2.2.2 (hm.edges _ he).2.2.2 h3⟩

theorem inCell_congr {a b : Mesh d} {c c' : Cell} (h : c'.map (coordsOf a) = c.map (coordsOf b)) {p : Pt d} (hp : InCell b c p) : InCell a c' p := by
  obtain ⟨ws, h1, h2, h3, h4⟩ := hp
  have hl : c'.length = c.length := by simpa using congrArg List.length h
  exact ⟨ws, by rw [h1, hl], h2, h3, by rw [h4, h]⟩

theorem clean_part {part m : Mesh d} (hok : part.Ok) (hm : m.Ok) {p : Vertex d → Bool} (hc : m.verts.map core = m.verts) (hn : (ids m).Nodup) (h : Restricts part m p) {u : Pt d}
    (hcl : Clean m u) : Clean part u := by
  intro c' hc' pl hpl e he heq
  obtain ⟨c, -, h2, -, h4⟩ := elem_down hok hm hc hn h (.inr hc')
  obtain ⟨ws, g1, g2, g3, -, g5, -⟩ := polation_elems hpl
  have hl : c'.length = c.length := by simpa using congrArg List.length h4
  have hmem : e.2 ∈ ws := by
    rw [← g5]
    exact List.mem_map_of_mem he
  have hm' : ∃ p', polation m u c = some p' ∧ p'.elems.map (·.2) = ws := by
    unfold polation
    rw [h4] at g1
    rw [g1]
    refine ⟨_, rfl, ?_⟩
    exact List.map_snd_zip (by omega)
  obtain ⟨p', k1, k2⟩ := hm'
  rw [← k2] at hmem
  obtain ⟨e', he', hee⟩ := List.mem_map.1 hmem
  rw [← hee] at heq ⊢
  exact hcl c (h2 hc') p' k1 e' he' heq

/-- The result of the search in two dimensions if no weight is mistaken for zero. -/
theorem search_clean {q : Query 2} (hq : q.Valid) {m : Mesh 2} (hok : m.Ok) (hm : m.verts ≠ []) {u : Pt 2} (hcl : Clean m u) :
    ∃ c ws, VertexOrEdge m c ∧ (search .projection q m u).elems = c.zip ws ∧ ws.length = c.length ∧ (∀ w ∈ ws, 0 ≤ w) ∧ ws.sum = 1 ∧
      ClosestPoint m u (combine (c.map (coordsOf m)) ws) ∧ ∀ e ∈ (search .projection q m u).elems, equals e.2 0 → e.2 = 0 := by
  have hbest : ∀ c, VertexOrEdge m c → ∀ p', InCell m c p' → (search .projection q m u).dist2 ≤ dist2 u p' := by
    rintro c (⟨i, hi, rfl⟩ | hc) p' hp'
    · obtain ⟨ws, h1, -, h3, h4⟩ := hp'
      match ws, h1 with
      | [w], _ =>
        have hw : w = 1 := by simpa using h3
        rw [h4, hw, List.map_cons, List.map_nil, combine_one]
        exact C49_vertex hq m hm u 4 i hi
    · exact C49_global_2d hq m hok hm u 4 (by norm_num) c hc p' hp'
  rcases (C49_minimal q m u 4).1 (findVertexProjection q m u) with h | ⟨h, -⟩
  · have hs : search .projection q m u = findVertexProjection q m u := by
      unfold search findNearestProjection
      simp only [if_true]
      exact h
    rw [hs] at hbest ⊢
    have hlt := (hq.vertex m u hm).1
    refine ⟨[q.closestVertex m u], [1], .inl ⟨_, hlt, rfl⟩, rfl, rfl, by simp, by simp, ?_, ?_⟩
    · rw [List.map_cons, List.map_nil, combine_one]
      exact hbest
    · intro e he heq
      have : e.2 = 1 := by
        simp only [findVertexProjection, List.mem_singleton] at he
        rw [he]
      rw [this] at heq
      unfold equals tol at heq
      norm_num at heq
  · have hs : search .projection q m u = findEdgeProjection q m u 4 (findVertexProjection q m u) := by
      unfold search findNearestProjection
      simp only [if_true]
    rw [← hs] at h
    obtain ⟨i, -, c, hc, hp, hint⟩ := mem_candidates h
    obtain ⟨ws, g1, g2, g3, -, g5, g6⟩ := polation_elems hp
    have hce := List.mem_of_getElem? hc
    have hz := hcl c hce _ hp
    refine ⟨c, ws, .inr hce, g2, g3, ?_, g6, ?_, hz⟩
    · intro w hw
      rw [← g5] at hw
      obtain ⟨e, he, rfl⟩ := List.mem_map.1 hw
      have h1 := hint e he
      unfold greaterEquals at h1
      by_contra hneg
      have : e.2 = 0 := hz e he (by unfold equals; rw [sub_zero, abs_le]; constructor <;> linarith [tol_pos])
      linarith
    · intro c' hc' p' hp'
      have hd : (search .projection q m u).dist2 = dist2 u (combine (c.map (coordsOf m)) ws) := by
        unfold polation at hp
        rw [g1] at hp
        simp only [Option.some.injEq] at hp
        rw [← hp]
        simp only
        rw [if_neg]
        rw [(hok.edges c hce).1]
        norm_num
      rw [← hd]
      exact hbest c' hc' p' hp'

theorem npTags_search (kind : Kind) (q : Query d) (con : Constraint) (own m : Mesh d) {i : ℕ} (hi : i < own.verts.length) {e : ℕ × ℚ}
    (he : e ∈ (search kind q m (coordsOf own i)).elems) (hz : ¬ equals e.2 0) : npTags kind q con own m (name m e.1) = true := by
  have hmem : (⟨i, e.1, e.2⟩ : Operation) ∈ computeOps kind q own m := by
    rw [computeOps_eq, List.mem_flatMap]
    refine ⟨i, List.mem_range.2 hi, ?_⟩
    unfold opsOf
    exact List.mem_map.2 ⟨e, List.mem_filter.2 ⟨he, by simpa using hz⟩, rfl⟩
  unfold npTags computeMapping setup meshes postProcess
  refine List.any_eq_true.2 ⟨⟨i, e.1, e.2⟩, ?_, decide_eq_true rfl⟩
  by_cases h : con = .conservative
  · simp only [if_pos h]
    exact (List.mem_insertionSort _).2 hmem
  · simp only [if_neg h]
    exact hmem

theorem elem_zip {c : Cell} {ws : List ℚ} (hl : ws.length = c.length) {f : ℕ → ℚ} : ((c.zip ws).map fun e => e.2 * f e.1).sum = (List.zipWith (fun w x => w * x) ws (c.map f)).sum := by
  congr 1
  induction c generalizing ws with
  | nil => simp
  | cons a c ih =>
    cases ws with
    | nil => simp at hl
    | cons w ws => simp [ih (by simpa using hl)]

/-- An edge or vertex with weights: leaving out the vertices with weight zero gives an element with the same point. -/
theorem drop_zero {m : Mesh d} (hok : m.Ok) {c : Cell} (hc : VertexOrEdge m c) {ws : List ℚ} (hl : ws.length = c.length) (h0 : ∀ w ∈ ws, 0 ≤ w) (h1 : ws.sum = 1) :
    ∃ c0, VertexOrEdge m c0 ∧ (∀ j ∈ c0, ∃ e ∈ c.zip ws, e.1 = j ∧ e.2 ≠ 0) ∧ InCell m c0 (combine (c.map (coordsOf m)) ws) := by
  have hwhole : InCell m c (combine (c.map (coordsOf m)) ws) := ⟨ws, hl, h0, h1, rfl⟩
  rcases hc with ⟨i, hi, rfl⟩ | he
  · match ws, hl with
    | [w], _ =>
      have hw : w = 1 := by simpa using h1
      exact ⟨[i], .inl ⟨i, hi, rfl⟩, fun j hj => ⟨(i, w), by simp, (List.mem_singleton.1 hj).symm, by rw [hw]; exact one_ne_zero⟩, hwhole⟩
  · have hlen := (hok.edges c he).1
    have hlt := (hok.edges c he).2.2.2
    match c, hlen with
    | [a, b], _ =>
      match ws, hl with
      | [x, y], _ =>
        have hxy : x + y = 1 := by simpa using h1
        have hone : ∀ p : Pt d, ∃ ws : List ℚ, ws.length = 1 ∧ (∀ w ∈ ws, 0 ≤ w) ∧ ws.sum = 1 ∧ p = combine [p] ws :=
          fun p => ⟨[1], rfl, by simp, by simp, (combine_one p).symm⟩
        by_cases hx : x = 0
        · have hy : y = 1 := by linarith
          refine ⟨[b], .inl ⟨b, hlt b (by simp), rfl⟩, fun j hj => ⟨(b, y), by simp, (List.mem_singleton.1 hj).symm, by rw [hy]; exact one_ne_zero⟩, ?_⟩
          have : combine ([a, b].map (coordsOf m)) [x, y] = coordsOf m b := by
            simp only [List.map_cons, List.map_nil, combine_two, hx, hy]
            funext k
            ring
          rw [this]
          exact hone _
        · by_cases hy : y = 0
          · have hx : x = 1 := by linarith
            refine ⟨[a], .inl ⟨a, hlt a (by simp), rfl⟩, fun j hj => ⟨(a, x), by simp, (List.mem_singleton.1 hj).symm, by rw [hx]; exact one_ne_zero⟩, ?_⟩
            have : combine ([a, b].map (coordsOf m)) [x, y] = coordsOf m a := by
              simp only [List.map_cons, List.map_nil, combine_two, hx, hy]
              funext k
              ring
            rw [this]
            exact hone _
          · refine ⟨[a, b], .inr he, ?_, hwhole⟩
            intro j hj
            rcases List.mem_cons.1 hj with rfl | hj
            · exact ⟨(j, x), by simp, rfl, hx⟩
            · rw [List.mem_singleton.1 hj]
              exact ⟨(b, y), by simp, rfl, hy⟩

theorem closestPoint_of_le {m : Mesh d} {u p p' : Pt d} (h : ClosestPoint m u p) (hle : dist2 u p' ≤ dist2 u p) : ClosestPoint m u p' := fun c hc x hx => hle.trans (h c hc x hx)

theorem nonempty_of_elem {m : Mesh d} (hm : m.Ok) {c : Cell} (h : VertexOrEdge m c) : m.verts ≠ [] := by
  have : ∃ i, i ∈ c := by
    rcases h with ⟨i, -, rfl⟩ | h
    · exact ⟨i, by simp⟩
    · have := (hm.edges c h).1
      match c, this with
      | [a, b], _ => exact ⟨a, by simp⟩
  obtain ⟨i, hi⟩ := this
  exact List.ne_nil_of_length_pos (lt_of_le_of_lt (Nat.zero_le _) (h.lt hm i hi))

/-- On the part a rank keeps, the search finds a point that is closest in the whole mesh. -/
theorem projection_of_part {q : Query 2} (hq : q.Valid) {part first m : Mesh 2} {p R : Vertex 2 → Bool} (hm : m.Ok) (hfo : first.Ok) (hpo : part.Ok) (hc : m.verts.map core = m.verts)
    (hn : (ids m).Nodup) (hf : Restricts first m R) (hp : Restricts part m p) (u : Pt 2) (hcl : Clean m u)
    (htag : ∀ e ∈ (search .projection q first u).elems, ¬ equals e.2 0 → ∀ (j : ℕ) (v : Vertex 2), m.verts[j]? = some v → R v = true → v.globalIndex = name first e.1 → p v = true)
    (hreach : ∃ c p0, VertexOrEdge m c ∧ InCell m c p0 ∧ ClosestPoint m u p0 ∧ ∀ j ∈ c, ∀ v : Vertex 2, m.verts[j]? = some v → R v = true) :
    ∃ c' c ws, VertexOrEdge part c' ∧ VertexOrEdge m c ∧ (search .projection q part u).elems = c'.zip ws ∧ ws.length = c.length ∧ (∀ w ∈ ws, 0 ≤ w) ∧ ws.sum = 1 ∧
      ClosestPoint m u (combine (c.map (coordsOf m)) ws) ∧ named part c' = named m c ∧ ∀ e ∈ (search .projection q part u).elems, equals e.2 0 → e.2 = 0 := by
  obtain ⟨c0, p0, hc0, hp0, hbest, hR0⟩ := hreach
  -- the search on the first mesh
  obtain ⟨c1, hv1, -, hco1⟩ := elem_up hfo hm hc hn hf hc0 hR0
  obtain ⟨c2, ws2, hv2, he2, hl2, h02, hs2, hb2, hz2⟩ := search_clean hq hfo (nonempty_of_elem hfo hv1) (clean_part hfo hm hc hn hf hcl)
  have hle1 : dist2 u (combine (c2.map (coordsOf first)) ws2) ≤ dist2 u p0 := hb2 c1 hv1 p0 (inCell_congr hco1 hp0)
  -- the vertices with weights are kept
  obtain ⟨c3, hv3, hw3, hp3⟩ := drop_zero hfo hv2 hl2 h02 hs2
  obtain ⟨c4, hv4, -, hn4, hco4⟩ := elem_down hfo hm hc hn hf hv3
  have hkeep : ∀ j ∈ c4, ∀ v : Vertex 2, m.verts[j]? = some v → p v = true := by
    intro j hj v hv
    have h1 : name m j ∈ named first c3 := by
      rw [hn4]
      exact List.mem_map_of_mem hj
    obtain ⟨i, hi, hij⟩ := List.mem_map.1 h1
    obtain ⟨e, he, rfl, hne⟩ := hw3 i hi
    rw [← he2] at he
    have hil := hv3.lt hfo e.1 hi
    obtain ⟨j', v', g1, g2, g3, -⟩ := restricts_down hc hf hil
    have hjj : j' = j := ids_inj hn g1 hv (by rw [← g3, hij, name_some hv])
    subst hjj
    rw [hv] at g1
    cases g1
    exact htag e he (fun h => hne (hz2 e he h)) j' v hv g2 g3.symm
  obtain ⟨c5, hv5, -, hco5⟩ := elem_up hpo hm hc hn hp hv4 hkeep
  -- the search on the kept mesh
  obtain ⟨c6, ws6, hv6, he6, hl6, h06, hs6, hb6, hz6⟩ := search_clean hq hpo (nonempty_of_elem hpo hv5) (clean_part hpo hm hc hn hp hcl)
  obtain ⟨c7, hv7, -, hn7, hco7⟩ := elem_down hpo hm hc hn hp hv6
  refine ⟨c6, c7, ws6, hv6, hv7, he6, ?_, h06, hs6, ?_, hn7, hz6⟩
  · rw [hl6]
    simpa using congrArg List.length hco7
  · refine closestPoint_of_le hbest (le_trans ?_ hle1)
    rw [← hco7]
    exact hb6 c5 hv5 _ (inCell_congr (hco5.trans hco4.symm) hp3)

theorem seen_ok {m : Mesh (d + 1)} (hm : m.Ok) (k : Cfg) (x : Local (d + 1)) : (seen k x m).Ok := by
  unfold seen
  split
  · exact tagged_ok (candidates_ok hm k x) _
  · exact candidates_ok hm k x

/-- What C112 gives for ranks with a nearest-projection mapping. -/
theorem np_parts {q : Query 2} (hq : q.Valid) (con : Constraint) {m : Mesh 2} (hm : m.Ok) (hc : m.verts.map core = m.verts) (hn : (ids m).Nodup) {k : Cfg} {x : Fin (n + 1) → Local 2}
    {own : Fin (n + 1) → Mesh 2} (huse : ∀ r, UsesNP q con k (x r) (own r) m) {second : Fin (n + 1) → Mesh 2} {res : Fin (n + 1) → Part 2 n}
    (h : Repartitioned (d := 1) k x m (fun r => seen (d := 1) k (x r) m) second res) (r : Fin (n + 1)) (i : ℕ) (hi : i < (own r).verts.length) :
    ∃ c' c ws, VertexOrEdge (res r).mesh c' ∧ VertexOrEdge m c ∧ (search .projection q (res r).mesh (coordsOf (own r) i)).elems = c'.zip ws ∧ ws.length = c.length ∧ (∀ w ∈ ws, 0 ≤ w) ∧
      ws.sum = 1 ∧ ClosestPoint m (coordsOf (own r) i) (combine (c.map (coordsOf m)) ws) ∧ named (res r).mesh c' = named m c ∧
      ∀ e ∈ (search .projection q (res r).mesh (coordsOf (own r) i)).elems, equals e.2 0 → e.2 = 0 := by
  refine projection_of_part hq hm (seen_ok (d := 1) hm k (x r)) (h.ok r) hc hn (h.seen1 r) (h.mesh r) (coordsOf (own r) i) ((huse r).clean i hi) ?_ ((huse r).reach i hi)
  intro e he hz j v _ hR hg
  have : (x r).tag1 (seen (d := 1) k (x r) m) v.globalIndex = true := (huse r).tags _ _ (hg ▸ npTags_search .projection q con (own r) (seen (d := 1) k (x r) m) hi he hz)
  rw [hR, this, Bool.or_true, Bool.true_or]
  rfl

/-- Some rank needs a vertex. -/
theorem np_needed {q : Query 2} (hq : q.Valid) (con : Constraint) {m : Mesh 2} (hm : m.Ok) (hc : m.verts.map core = m.verts) (hn : (ids m).Nodup) {k : Cfg} {x : Fin (n + 1) → Local 2}
    {own : Fin (n + 1) → Mesh 2} (huse : ∀ r, UsesNP q con k (x r) (own r) m) (hsome : ∃ r, (own r).verts ≠ []) :
    ∃ r, ∃ v ∈ m.verts, Reach (d := 1) k (x r) v = true ∧ (Accessed k (x r) v || (x r).tag1 (seen (d := 1) k (x r) m) v.globalIndex) = true := by
  obtain ⟨r, hr⟩ := hsome
  have hpos : 0 < (own r).verts.length := List.length_pos_iff.2 hr
  obtain ⟨c0, p0, hc0, -, -, hR0⟩ := (huse r).reach 0 hpos
  have hf := seen_restricts (d := 1) hm hn k (x r)
  have hfo := seen_ok (d := 1) hm k (x r)
  obtain ⟨c1, hv1, -, -⟩ := elem_up hfo hm hc hn hf hc0 hR0
  obtain ⟨c2, ws2, hv2, he2, hl2, h02, hs2, -, hz2⟩ := search_clean hq hfo (nonempty_of_elem hfo hv1) (clean_part hfo hm hc hn hf ((huse r).clean 0 hpos))
  obtain ⟨c3, hv3, hw3, -⟩ := drop_zero hfo hv2 hl2 h02 hs2
  obtain ⟨i, hi⟩ : ∃ i, i ∈ c3 := by
    rcases hv3 with ⟨i, -, rfl⟩ | h
    · exact ⟨i, by simp⟩
    · have := (hfo.edges c3 h).1
      match c3, this with
      | [a, b], _ => exact ⟨a, by simp⟩
  obtain ⟨e, he, rfl, hne⟩ := hw3 i hi
  rw [← he2] at he
  obtain ⟨j, v, g1, g2, g3, -⟩ := restricts_down hc hf (hv3.lt hfo e.1 hi)
  refine ⟨r, v, List.mem_of_getElem? g1, g2, ?_⟩
  rw [(huse r).tags _ _ (g3 ▸ npTags_search .projection q con (own r) (seen (d := 1) k (x r) m) hpos he fun h => hne (hz2 e he h)), Bool.or_true]

/-! ## Theorems -/

/-- Reading with a consistent nearest-projection mapping in two dimensions in parallel: every vertex of every rank gets the value that the data of the provider, interpolated linearly on
the vertices and edges of the whole mesh, has at a point closest to the vertex. `w` are the data of the provider in the order of the mesh. -/
theorem C113_projection_2d {q : Query 2} (hq : q.Valid) {con : Constraint} (hcon : con ≠ .conservative) {m : Mesh 2} (hm : m.Ok)
    (hc : m.verts.map core = m.verts) (hn : (ids m).Nodup) (k : Cfg) (x : Fin (n + 1) → Local 2) (total : ℕ)
    (hid : ∀ v ∈ m.verts, 0 ≤ v.globalIndex ∧ v.globalIndex < total) (hcfg : k.mapped = true)
    (hp : k.filter ≠ .none → ∀ r, (x r).provided = true → ∃ v ∈ m.verts, inside (prepareBox (d := 1) k (x r)) v = true)
    (own : Fin (n + 1) → Mesh 2) (huse : ∀ r, UsesNP q con k (x r) (own r) m) (hsome : ∃ r, (own r).verts ≠ [])
    {p : ℕ} (b : ℕ) (hb : 0 < b) (dist : Fin (p + 1) → List ℕ) (items : Fin (p + 1) → Arr ℚ) (hi : ∀ r, (items r).size = (dist r).length * b)
    (hprov : ∀ v ∈ m.verts, ∃ (s : Fin (p + 1)) (j : ℕ), (dist s)[j]? = some v.globalIndex.toNat ∧
      ∀ (s' : Fin (p + 1)) (j' : ℕ), (dist s')[j']? = some v.globalIndex.toNat → s' = s ∧ j' = j)
    (w : Data) (hw : ∀ (j : ℕ) (v : Vertex 2) (s : Fin (p + 1)) (l : ℕ), m.verts[j]? = some v → (dist s)[l]? = some v.globalIndex.toNat →
      ∀ e < b, w (j * b + e) = (items s).get (b * l + e)) :
    ∃ second res, RNet.AlwaysCompletes (fun r => compute (d := 1) k total (x r) r (start m r)) res ∧
      Repartitioned (d := 1) k x m (fun r => seen (d := 1) k (x r) m) second res ∧
      ∀ buf : Fin (n + 1) → Arr ℚ, (∀ r, (buf r).size = (gids (res r).mesh).length * b) →
        ∃ data, RNet.AlwaysCompletes (gsTransfer b total dist (fun r => gids (res r).mesh) items buf) data ∧
          ∀ r, ∀ i < (own r).verts.length, ∃ c ws, VertexOrEdge m c ∧ ws.length = c.length ∧ (∀ w ∈ ws, 0 ≤ w) ∧ ws.sum = 1 ∧
            ClosestPoint m (coordsOf (own r) i) (combine (c.map (coordsOf m)) ws) ∧
            ∀ e < b, mapProjection .projection q con (res r).mesh (own r) b (data (.inr r)).get (i * b + e) =
              (List.zipWith (fun a x => a * x) ws (c.map fun j => w (j * b + e))).sum := by
  obtain ⟨second, res, h1, h2⟩ := C112_repartition (d := 1) hm hc hn k x total hid (.inl hcfg) hp (np_needed hq con hm hc hn huse hsome)
  refine ⟨second, res, h1, h2, fun buf hbuf => ?_⟩
  obtain ⟨data, h3, -, h5⟩ := C60_gather_scatter b total hb dist (fun r => gids (res r).mesh) items buf hi hbuf
  refine ⟨data, h3, fun r i hi' => ?_⟩
  obtain ⟨c', c, ws, g1, g2, g3, g4, g5, g6, g7, g8, g9⟩ := np_parts hq con hm hc hn huse h2 r i hi'
  refine ⟨c, ws, g2, g4, g5, g6, g7, fun e he => ?_⟩
  have hlen : c'.length = c.length := by simpa [named] using congrArg List.length g8
  rw [consistent_value .projection q con hcon _ _ he _ hi', applied_full_of_exact _ _ g9]
  unfold full
  rw [g3]
  refine (elem_zip (by omega) (f := fun j => (data (.inr r)).get (j * b + e))).trans ?_
  congr 2
  -- the values of the vertices
  have hval : ∀ (j : ℕ), j < (res r).mesh.verts.length → ∀ l < m.verts.length, name (res r).mesh j = name m l → (data (.inr r)).get (j * b + e) = w (l * b + e) := by
    intro j hj l hl hjl
    have hv : m.verts[l]? = some m.verts[l] := List.getElem?_eq_getElem hl
    obtain ⟨s, t, ht, hu⟩ := hprov _ (List.mem_of_getElem? hv)
    rw [hw l _ s t hv ht e he, Nat.mul_comm j b, (h5 r).2 _ _ e (gids_closest hj (hjl.trans (name_some hv))) he]
    exact C60_partition b dist (fun r => (items r).get) e ht hu
  have hlt' := g1.lt (h2.ok r)
  have hlt := g2.lt hm
  clear g1 g2 g3 g4 g7 g9 hlen
  induction c' generalizing c with
  | nil =>
    cases c with
    | nil => rfl
    | cons => simp [named] at g8
  | cons a c' ih =>
    cases c with
    | nil => simp [named] at g8
    | cons a' c =>
      simp only [named, List.map_cons, List.cons.injEq] at g8
      rw [List.map_cons, List.map_cons, hval a (hlt' a (by simp)) a' (hlt a' (by simp)) g8.1,
        ih c g8.2 (fun i hi => hlt' i (by simp [hi])) (fun i hi => hlt i (by simp [hi]))]

/-- The weight of vertex `l` in an element with weights. -/
def weightOf (c : Cell) (ws : List ℚ) (l : ℕ) : ℚ := ((c.zip ws).map fun e => if e.1 = l then e.2 else 0).sum

theorem opsOf_sum_in (i l : ℕ) (p : Polation) (y : ℕ → ℚ) (h : ∀ e ∈ p.elems, equals e.2 0 → e.2 = 0) :
    ((opsOf i p).map fun op => if op.in' = l then op.weight * y op.out else 0).sum = (p.elems.map fun e => if e.1 = l then e.2 else 0).sum * y i := by
  unfold opsOf
  generalize p.elems = es at h
  induction es with
  | nil => simp
  | cons e es ih =>
    have ih := ih fun e' he' => h e' (by simp [he'])
    rw [List.filter_cons]
    by_cases hz : equals e.2 0
    · have h0 := h e (by simp) hz
      simp only [hz, not_true, decide_false, Bool.false_eq_true, if_false, List.map_cons, List.sum_cons]
      rw [ih, h0, ite_self, zero_add]
    · simp only [hz, not_false_eq_true, decide_true, if_true, List.map_cons, List.sum_cons]
      rw [ih, add_mul, ite_mul, zero_mul]

theorem weightOf_named {part m : Mesh d} (hnp : (ids part).Nodup) (hn : (ids m).Nodup) {j l : ℕ} (hj : j < part.verts.length) (hl : l < m.verts.length) (hjl : name part j = name m l) :
    ∀ {c' c : Cell} (ws : List ℚ), (∀ i ∈ c', i < part.verts.length) → (∀ i ∈ c, i < m.verts.length) → named part c' = named m c → weightOf c' ws j = weightOf c ws l := by
  intro c'
  unfold weightOf
  induction c' with
  | nil =>
    intro c ws _ _ h
    cases c with
    | nil => rfl
    | cons => simp [named] at h
  | cons a c' ih =>
    intro c ws h1 h2 h
    cases c with
    | nil => simp [named] at h
    | cons a' c =>
      cases ws with
      | nil => simp
      | cons w ws =>
        simp only [named, List.map_cons, List.cons.injEq] at h
        have hiff : a = j ↔ a' = l := by
          have ha : part.verts[a]? = some _ := List.getElem?_eq_getElem (h1 a (by simp))
          have ha' : m.verts[a']? = some _ := List.getElem?_eq_getElem (h2 a' (by simp))
          have hj' : part.verts[j]? = some _ := List.getElem?_eq_getElem hj
          have hl' : m.verts[l]? = some _ := List.getElem?_eq_getElem hl
          constructor
          · rintro rfl
            exact ids_inj hn ha' hl' (by rw [← name_some ha', ← name_some hl', ← h.1, hjl])
          · rintro rfl
            exact ids_inj hnp ha hj' (by rw [← name_some ha, ← name_some hj', h.1, hjl])
        simp only [List.zip_cons_cons, List.map_cons, List.sum_cons]
        rw [ih ws (fun i hi => h1 i (by simp [hi])) (fun i hi => h2 i (by simp [hi])) h.2, if_congr hiff rfl rfl]

theorem weightOf_absent {c : Cell} {ws : List ℚ} {l : ℕ} (h : l ∉ c) : weightOf c ws l = 0 := by
  unfold weightOf
  refine List.sum_eq_zero fun x hx => ?_
  obtain ⟨e, he, rfl⟩ := List.mem_map.1 hx
  rw [if_neg]
  rintro rfl
  exact h (List.of_mem_zip he).1

/-- Writing with a conservative nearest-projection mapping in two dimensions in parallel: every vertex of every rank has a closest point on a vertex or an edge of the whole mesh, and what
was written at it is distributed to the vertices there with the weights of that point. -/
theorem C113_projection_2d_write {q : Query 2} (hq : q.Valid) {m : Mesh 2} (hm : m.Ok)
    (hc : m.verts.map core = m.verts) (hn : (ids m).Nodup) (k : Cfg) (x : Fin (n + 1) → Local 2) (total : ℕ)
    (hid : ∀ v ∈ m.verts, 0 ≤ v.globalIndex ∧ v.globalIndex < total) (hcfg : k.mapped = true)
    (hp : k.filter ≠ .none → ∀ r, (x r).provided = true → ∃ v ∈ m.verts, inside (prepareBox (d := 1) k (x r)) v = true)
    (own : Fin (n + 1) → Mesh 2) (huse : ∀ r, UsesNP q .conservative k (x r) (own r) m) (hsome : ∃ r, (own r).verts ≠ [])
    {p : ℕ} (b : ℕ) (hb : 0 < b) (dist : Fin (p + 1) → List ℕ) (buf : Fin (p + 1) → Arr ℚ) (hbuf : ∀ r, (buf r).size = (dist r).length * b)
    (y : Fin (n + 1) → Data) :
    ∃ second res, RNet.AlwaysCompletes (fun r => compute (d := 1) k total (x r) r (start m r)) res ∧
      Repartitioned (d := 1) k x m (fun r => seen (d := 1) k (x r) m) second res ∧
      ∃ (c : Fin (n + 1) → ℕ → Cell) (ws : Fin (n + 1) → ℕ → List ℚ) (data : _),
        (∀ r, ∀ i < (own r).verts.length, VertexOrEdge m (c r i) ∧ (ws r i).length = (c r i).length ∧ (∀ w ∈ ws r i, 0 ≤ w) ∧ (ws r i).sum = 1 ∧
          ClosestPoint m (coordsOf (own r) i) (combine ((c r i).map (coordsOf m)) (ws r i))) ∧
        RNet.AlwaysCompletes (gsTransfer b total (fun r => gids (res r).mesh) dist
          (fun r => ⟨(gids (res r).mesh).length * b, mapProjection .projection q .conservative (own r) (res r).mesh b (y r)⟩) buf) data ∧
        ∀ (s : Fin (p + 1)) (j l : ℕ) (v : Vertex 2), m.verts[l]? = some v → (dist s)[j]? = some v.globalIndex.toNat → ∀ e < b,
          (data (.inr s)).get (b * j + e) = ∑ r, ∑ i ∈ Finset.range (own r).verts.length, weightOf (c r i) (ws r i) l * y r (i * b + e) := by
  obtain ⟨second, res, h1, h2⟩ := C112_repartition (d := 1) hm hc hn k x total hid (.inl hcfg) hp (np_needed hq .conservative hm hc hn huse hsome)
  refine ⟨second, res, h1, h2, ?_⟩
  have hparts := np_parts hq .conservative hm hc hn huse h2
  choose! c' c ws g1 g2 g3 g4 g5 g6 g7 g8 g9 using hparts
  obtain ⟨data, h3, -, h5⟩ := C60_gather_scatter b total hb (fun r => gids (res r).mesh) dist
    (fun r => ⟨(gids (res r).mesh).length * b, mapProjection .projection q .conservative (own r) (res r).mesh b (y r)⟩) buf (fun _ => rfl) hbuf
  refine ⟨c, ws, data, fun r i hi => ⟨g2 r i hi, g4 r i hi, g5 r i hi, g6 r i hi, g7 r i hi⟩, h3, fun s j l v hv hj e he => ?_⟩
  rw [(h5 s).2 j _ e hj he]
  unfold globalValue
  refine Finset.sum_congr rfl fun r _ => ?_
  have hnp : (ids (res r).mesh).Nodup := (h2.mesh r).nodup hn
  have hl := (List.getElem?_eq_some_iff.1 hv).1
  have hval : ∀ t, mapProjection .projection q .conservative (own r) (res r).mesh b (y r) (b * t + e) =
      ∑ i ∈ Finset.range (own r).verts.length, weightOf (c' r i) (ws r i) t * y r (i * b + e) := by
    intro t
    rw [Nat.mul_comm, conservative_value .projection q _ _ he, computeOps_eq, sum_flatMap, range_map_sum]
    refine Finset.sum_congr rfl fun i hi => ?_
    have hi := Finset.mem_range.1 hi
    refine (opsOf_sum_in i t _ (fun i => y r (i * b + e)) (g9 r i hi)).trans ?_
    rw [g3 r i hi]
    rfl
  simp only [hval]
  by_cases hex : ∃ t < (res r).mesh.verts.length, name (res r).mesh t = v.globalIndex
  · obtain ⟨t, ht, hname⟩ := hex
    have hsel : ∀ t' ∈ Finset.range (gids (res r).mesh).length, ((gids (res r).mesh)[t']? = some v.globalIndex.toNat ↔ t' = t) := by
      intro t' ht'
      have ht' : t' < (res r).mesh.verts.length := by simpa [gids] using ht'
      have h1 : (res r).mesh.verts[t']? = some _ := List.getElem?_eq_getElem ht'
      have h2' : (res r).mesh.verts[t]? = some _ := List.getElem?_eq_getElem ht
      rw [gids_closest ht' rfl, Option.some.injEq]
      constructor
      · intro heq
        refine ids_inj hnp h1 h2' ?_
        rw [← name_some h1, ← name_some h2', hname]
        obtain ⟨j', v', k1, -, k3, -⟩ := restricts_down hc (h2.mesh r) ht'
        have e1 := (hid _ (List.mem_of_getElem? k1)).1
        have e2 := (hid _ (List.mem_of_getElem? hv)).1
        omega
      · rintro rfl
        rw [hname]
    rw [Finset.sum_congr rfl fun t' ht' => if_congr (hsel t' ht') rfl rfl, Finset.sum_ite_eq', if_pos (by simpa [gids] using ht)]
    refine Finset.sum_congr rfl fun i hi => ?_
    have hi := Finset.mem_range.1 hi
    rw [weightOf_named hnp hn ht hl (hname.trans (name_some hv).symm) (ws r i) ((g1 r i hi).lt (h2.ok r)) ((g2 r i hi).lt hm) (g8 r i hi)]
  · rw [Finset.sum_eq_zero, Finset.sum_eq_zero]
    · intro i hi
      have hi := Finset.mem_range.1 hi
      rw [weightOf_absent, zero_mul]
      intro hmem
      refine hex ?_
      have h3' : name m l ∈ named (res r).mesh (c' r i) := by
        rw [g8 r i hi]
        exact List.mem_map_of_mem hmem
      obtain ⟨t, ht, hte⟩ := List.mem_map.1 h3'
      exact ⟨t, (g1 r i hi).lt (h2.ok r) t ht, by rw [hte, name_some hv]⟩
    · intro t ht
      have ht' : t < (res r).mesh.verts.length := by simpa [gids] using ht
      rw [if_neg]
      rw [gids_closest ht' rfl, Option.some.injEq]
      intro heq
      refine hex ⟨t, ht', ?_⟩
      obtain ⟨j', v', k1, -, k3, -⟩ := restricts_down hc (h2.mesh r) ht'
      have e1 := (hid _ (List.mem_of_getElem? k1)).1
      have e2 := (hid _ (List.mem_of_getElem? hv)).1
      omega

end Verif.Mapping
