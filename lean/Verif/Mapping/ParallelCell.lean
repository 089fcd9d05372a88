import Verif.Mapping.CellProps
import Verif.Mapping.ParallelProjection

/-!
# Linear cell interpolation of parallel participants (C113)

As for projections (ParallelProjection.lean), for vertices that are inside cells of the received mesh.
-/

set_option autoImplicit false

namespace Verif.Mapping

open Verif.Repartition Verif.Com Verif.Dist Geometry

variable {d n : ℕ}

/-! ## Specification -/

/-- No weight of the location in a cell that contains it is mistaken for zero: it is not on a face of the cell. -/
def Generic (m : Mesh d) (u : Pt d) : Prop := ∀ c ∈ cellsOf m, ∀ p, polation m u c = some p → p.isInterpolation → ∀ e ∈ p.elems, ¬ equals e.2 0

/-- A rank takes part with a linear cell interpolation: it asks for the vertices of that mapping, and every vertex is inside a cell within reach. -/
structure UsesLC (q : Query (d + 1)) (con : Constraint) (k : Cfg) (x : Local (d + 1)) (own m : Mesh (d + 1)) : Prop where
  tags : ∀ M g, npTags .cell q con own M g = true → x.tag1 M g = true
  reach : ∀ i < own.verts.length, ∃ c ∈ cellsOf m, Proper m c ∧ InCell m c (coordsOf own i) ∧ ∀ j ∈ c, ∀ v : Vertex (d + 1), m.verts[j]? = some v → Reach k x v = true
  few : d + 1 = 2 → ∀ i < own.verts.length, (m.tris.filter fun c => InBox m c (coordsOf own i)).length ≤ 4
  generic : ∀ i < own.verts.length, Generic m (coordsOf own i)

/-! ## Lemmas -/

theorem cellsOf_lt {m : Mesh d} (hm : m.Ok) {c : Cell} (h : c ∈ cellsOf m) : ∀ i ∈ c, i < m.verts.length := by
  unfold cellsOf at h
  split at h
  · exact (hm.tris c h).2.2.2
  · exact (hm.tets c h).2.2.2

theorem cellsOf_ne {m : Mesh d} (hm : m.Ok) {c : Cell} (h : c ∈ cellsOf m) : ∃ i, i ∈ c := by
  have : 0 < c.length := by
    unfold cellsOf at h
    split at h
    · rw [(hm.tris c h).1]
      norm_num
    · rw [(hm.tets c h).1]
      norm_num
  exact List.exists_mem_of_length_pos this

theorem cellsOf_restricts {part m : Mesh d} {p : Vertex d → Bool} (h : Restricts part m p) :
    (cellsOf part).map (named part) = ((cellsOf m).map (named m)).filter fun e => ∀ g ∈ e, g ∈ ids part := by
  unfold cellsOf
  split
  · exact h.tris
  · exact h.tets

/-- A cell of the part is a cell of the whole. -/
theorem cell_down {part m : Mesh d} (hok : part.Ok) (hm : m.Ok) {p : Vertex d → Bool} (hc : m.verts.map core = m.verts) (hn : (ids m).Nodup) (h : Restricts part m p) {c' : Cell}
    (hv : c' ∈ cellsOf part) : ∃ c ∈ cellsOf m, named part c' = named m c ∧ c'.map (coordsOf part) = c.map (coordsOf m) := by
  have h1 : named part c' ∈ (cellsOf part).map (named part) := List.mem_map_of_mem hv
  rw [cellsOf_restricts h] at h1
  obtain ⟨c, hc1, hc2⟩ := List.mem_map.1 (List.mem_of_mem_filter h1)
  exact ⟨c, hc1, hc2.symm, cell_coords hc hn h (cellsOf_lt hok hv) (cellsOf_lt hm hc1) hc2.symm⟩

/-- A cell whose vertices are kept is a cell of the part. -/
theorem cell_up {part m : Mesh d} (hok : part.Ok) (hm : m.Ok) {p : Vertex d → Bool} (hc : m.verts.map core = m.verts) (hn : (ids m).Nodup) (h : Restricts part m p) {c : Cell}
    (hv : c ∈ cellsOf m) (hp : ∀ j ∈ c, ∀ v : Vertex d, m.verts[j]? = some v → p v = true) :
    ∃ c' ∈ cellsOf part, named part c' = named m c ∧ c'.map (coordsOf part) = c.map (coordsOf m) := by
  have key : ∀ j ∈ c, name m j ∈ ids part := by
    intro j hj
    have hjl := cellsOf_lt hm hv j hj
    have h1 : m.verts[j]? = some m.verts[j] := List.getElem?_eq_getElem hjl
    obtain ⟨i, hi, h2, -⟩ := restricts_up hc h h1 (hp j hj _ h1)
    rw [name_some h1, ← h2, name_some (List.getElem?_eq_getElem hi)]
    exact List.mem_map_of_mem (List.getElem_mem hi)
  have h1 : named m c ∈ (cellsOf part).map (named part) := by
    rw [cellsOf_restricts h]
    refine List.mem_filter.2 ⟨List.mem_map_of_mem hv, decide_eq_true ?_⟩
    intro g hg
    obtain ⟨j, hj, rfl⟩ := List.mem_map.1 hg
    exact key j hj
  obtain ⟨c', h2, h3⟩ := List.mem_map.1 h1
  exact ⟨c', h2, h3, cell_coords hc hn h (cellsOf_lt hok h2) (cellsOf_lt hm hv) h3⟩

theorem inBox_congr {a b : Mesh d} {c c' : Cell} (h : c'.map (coordsOf a) = c.map (coordsOf b)) (u : Pt d) : InBox a c' u ↔ InBox b c u := by
  have : ∀ k, along a c' k = along b c k := by
    intro k
    have := congrArg (List.map fun x : Pt d => x k) h
    simpa [along, List.map_map, Function.comp_def] using this
  unfold InBox
  simp only [this]

theorem proper_congr {a b : Mesh d} {c c' : Cell} (h : c'.map (coordsOf a) = c.map (coordsOf b)) (hp : Proper b c) : Proper a c' := by
  unfold Proper
  rw [h]
  exact hp

/-- A part has no more boxes around the location. -/
theorem few_part {part m : Mesh d} (hok : part.Ok) (hm : m.Ok) {p : Vertex d → Bool} (hc : m.verts.map core = m.verts) (hn : (ids m).Nodup) (h : Restricts part m p) (hd : d = 2) (u : Pt d) :
    (part.tris.filter fun c => InBox part c u).length ≤ (m.tris.filter fun c => InBox m c u).length := by
  classical
  -- whether a box contains the location depends on the names of the vertices
  let f : List ℤ → Bool := fun e => ∃ c ∈ m.tris, named m c = e ∧ InBox m c u
  have hcell : ∀ {M : Mesh d}, cellsOf M = M.tris := fun {M} => by
    unfold cellsOf
    rw [if_pos hd]
  have key : ∀ c ∈ m.tris, ∀ c2 ∈ m.tris, named m c = named m c2 → InBox m c u → InBox m c2 u := by
    intro c h1 c2 h2 he hb
    have h3 : c.map (coordsOf m) = c2.map (coordsOf m) := by
      have hl := (hm.tris c h1).2.2.2
      have hl2 := (hm.tris c2 h2).2.2.2
      have : c = c2 := by
        have inj : ∀ a ∈ c, ∀ b ∈ c2, name m a = name m b → a = b := by
          intro a ha b hb' hab
          have e1 : m.verts[a]? = some _ := List.getElem?_eq_getElem (hl a ha)
          have e2 : m.verts[b]? = some _ := List.getElem?_eq_getElem (hl2 b hb')
          exact ids_inj hn e1 e2 (by rw [← name_some e1, ← name_some e2, hab])
        clear h1 h2 hb hl hl2
        induction c generalizing c2 with
        | nil =>
          cases c2 with
          | nil => rfl
          | cons => simp [named] at he
        | cons a c ih =>
          cases c2 with
          | nil => simp [named] at he
          | cons b c2 =>
            simp only [named, List.map_cons, List.cons.injEq] at he
            rw [inj a (by simp) b (by simp) he.1, ih c2 he.2 fun a ha b hb => inj a (by simp [ha]) b (by simp [hb])]
      rw [this]
    exact (inBox_congr h3 u).1 hb
  have e1 : (m.tris.filter fun c => InBox m c u).length = ((m.tris.map (named m)).filter f).length := by
    rw [List.filter_map, List.length_map]
    congr 1
    refine List.filter_congr fun c hc' => ?_
    simp only [Function.comp, f]
    refine decide_eq_decide.2 ⟨fun hb => ⟨c, hc', rfl, hb⟩, fun ⟨c2, h2, h3, h4⟩ => key c2 h2 c hc' h3 h4⟩
  have e2 : (part.tris.filter fun c => InBox part c u).length = ((part.tris.map (named part)).filter f).length := by
    rw [List.filter_map, List.length_map]
    congr 1
    refine List.filter_congr fun c' hc' => ?_
    obtain ⟨c, h1, h2, h3⟩ := cell_down hok hm hc hn h (c' := c') (by rw [hcell]; exact hc')
    rw [hcell] at h1
    simp only [Function.comp, f]
    rw [h2]
    refine decide_eq_decide.2 ((inBox_congr h3 u).trans ⟨fun hb => ⟨c, h1, rfl, hb⟩, fun ⟨c2, k2, k3, k4⟩ => key c2 k2 c h1 k3 k4⟩)
  rw [e1, e2, h.tris]
  exact (List.Sublist.filter _ List.filter_sublist).length_le

/-- A cell of the part in the sense of the search is such a cell of the whole. -/
theorem generic_part {part m : Mesh d} (hok : part.Ok) (hm : m.Ok) {p : Vertex d → Bool} (hc : m.verts.map core = m.verts) (hn : (ids m).Nodup) (h : Restricts part m p) {u : Pt d}
    (hg : Generic m u) : Generic part u := by
  intro c' hc' pl hpl hint e he heq
  obtain ⟨c, h2, -, h4⟩ := cell_down hok hm hc hn h hc'
  obtain ⟨ws, g1, g2, g3, -, g5, -⟩ := polation_elems hpl
  have hl : c'.length = c.length := by simpa using congrArg List.length h4
  have hm' : ∃ p', polation m u c = some p' ∧ p'.elems.map (·.2) = ws := by
    unfold polation
    rw [h4] at g1
    rw [g1]
    refine ⟨_, rfl, ?_⟩
    exact List.map_snd_zip (by omega)
  obtain ⟨p', k1, k2⟩ := hm'
  have hint' : p'.isInterpolation := by
    intro e' he'
    have : e'.2 ∈ pl.elems.map (·.2) := by
      rw [g5, ← k2]
      exact List.mem_map_of_mem he'
    obtain ⟨e'', h1, h2⟩ := List.mem_map.1 this
    rw [← h2]
    exact hint e'' h1
  have hmem : e.2 ∈ p'.elems.map (·.2) := by
    rw [k2, ← g5]
    exact List.mem_map_of_mem he
  obtain ⟨e', he', hee⟩ := List.mem_map.1 hmem
  exact hg c h2 p' k1 hint' e' he' (hee ▸ heq)

/-- The result of the search if no weight is mistaken for zero. -/
theorem search_generic {q : Query d} (hq : q.Valid) (hb : q.Boxes) {m : Mesh d} (hok : m.Ok) {u : Pt d} (hs : Seen m u) (hg : Generic m u) :
    ∃ c ∈ cellsOf m, ∃ ws, (search .cell q m u).elems = c.zip ws ∧ ws.length = c.length ∧ (∀ w ∈ ws, 0 < w) ∧ ws.sum = 1 ∧ combine (c.map (coordsOf m)) ws = u ∧
      (∀ e ∈ (search .cell q m u).elems, ¬ equals e.2 0) ∧ Proper m c := by
  obtain ⟨c, hc, hp, hint, hcomb⟩ := seen_polation hq hb hok hs
  obtain ⟨ws, g1, g2, g3, -, g5, g6⟩ := polation_elems hp
  have hz := hg c hc _ hp hint
  refine ⟨c, hc, ws, g2, g3, ?_, g6, hcomb ws g1, hz, ⟨u, ws, g1⟩⟩
  intro w hw
  rw [← g5] at hw
  obtain ⟨e, he, rfl⟩ := List.mem_map.1 hw
  have h1 := hint e he
  have h2 := hz e he
  unfold greaterEquals at h1
  by_contra hneg
  exact h2 (by unfold equals; rw [sub_zero, abs_le]; constructor <;> linarith [tol_pos])

theorem nonempty_of_cell {m : Mesh d} (hm : m.Ok) {c : Cell} (h : c ∈ cellsOf m) : m.verts ≠ [] := by
  obtain ⟨i, hi⟩ := cellsOf_ne hm h
  exact List.ne_nil_of_length_pos (lt_of_le_of_lt (Nat.zero_le _) (cellsOf_lt hm h i hi))

/-- The search on the mesh a rank sees, and the cells of the whole mesh it gives. -/
theorem cell_first {q : Query d} (hq : q.Valid) (hb : q.Boxes) {first m : Mesh d} {R : Vertex d → Bool} (hm : m.Ok) (hfo : first.Ok) (hc : m.verts.map core = m.verts)
    (hn : (ids m).Nodup) (hf : Restricts first m R) (u : Pt d) (hd : d = 2 ∨ d = 3) (hfew : d = 2 → (m.tris.filter fun c => InBox m c u).length ≤ 4) (hg : Generic m u)
    (hreach : ∃ c ∈ cellsOf m, Proper m c ∧ InCell m c u ∧ ∀ j ∈ c, ∀ v : Vertex d, m.verts[j]? = some v → R v = true) :
    ∃ c' ∈ cellsOf first, ∃ c ∈ cellsOf m, ∃ ws, (search .cell q first u).elems = c'.zip ws ∧ ws.length = c.length ∧ (∀ w ∈ ws, 0 < w) ∧ ws.sum = 1 ∧
      combine (c.map (coordsOf m)) ws = u ∧ named first c' = named m c ∧ c'.map (coordsOf first) = c.map (coordsOf m) ∧ (∀ e ∈ (search .cell q first u).elems, ¬ equals e.2 0) ∧
      Proper m c := by
  obtain ⟨c0, hc0, hp0, hi0, hR0⟩ := hreach
  obtain ⟨c1, hv1, -, hco1⟩ := cell_up hfo hm hc hn hf hc0 hR0
  have hseen : Seen first u :=
    ⟨hd, ⟨c1, hv1, proper_congr hco1 hp0, inCell_congr hco1 hi0⟩, fun h => (few_part hfo hm hc hn hf h u).trans (hfew h)⟩
  obtain ⟨c2, hv2, ws, h1, h2, h3, h4, h5, h6, h7⟩ := search_generic hq hb hfo hseen (generic_part hfo hm hc hn hf hg)
  obtain ⟨c3, hv3, hn3, hco3⟩ := cell_down hfo hm hc hn hf hv2
  refine ⟨c2, hv2, c3, hv3, ws, h1, ?_, h3, h4, by rw [← hco3, h5], hn3, hco3, h6, proper_congr hco3.symm h7⟩
  rw [h2]
  simpa using congrArg List.length hco3

/-- On the part a rank keeps, the search finds a cell of the whole mesh that contains the location. -/
theorem cell_of_part {q : Query d} (hq : q.Valid) (hb : q.Boxes) {part first m : Mesh d} {p R : Vertex d → Bool} (hm : m.Ok) (hfo : first.Ok) (hpo : part.Ok)
    (hc : m.verts.map core = m.verts) (hn : (ids m).Nodup) (hf : Restricts first m R) (hp : Restricts part m p) (u : Pt d) (hd : d = 2 ∨ d = 3)
    (hfew : d = 2 → (m.tris.filter fun c => InBox m c u).length ≤ 4) (hg : Generic m u)
    (htag : ∀ e ∈ (search .cell q first u).elems, ¬ equals e.2 0 → ∀ (j : ℕ) (v : Vertex d), m.verts[j]? = some v → R v = true → v.globalIndex = name first e.1 → p v = true)
    (hreach : ∃ c ∈ cellsOf m, Proper m c ∧ InCell m c u ∧ ∀ j ∈ c, ∀ v : Vertex d, m.verts[j]? = some v → R v = true) :
    ∃ c' ∈ cellsOf part, ∃ c ∈ cellsOf m, ∃ ws, (search .cell q part u).elems = c'.zip ws ∧ ws.length = c.length ∧ (∀ w ∈ ws, 0 < w) ∧ ws.sum = 1 ∧
      combine (c.map (coordsOf m)) ws = u ∧ named part c' = named m c ∧ (∀ e ∈ (search .cell q part u).elems, ¬ equals e.2 0) := by
  obtain ⟨c1, hv1, c2, hv2, ws, h1, h2, h3, h4, h5, h6, h7, h8, h9⟩ := cell_first hq hb hm hfo hc hn hf u hd hfew hg hreach
  have hlen : c1.length = c2.length := by simpa using congrArg List.length h7
  have hkeep : ∀ j ∈ c2, ∀ v : Vertex d, m.verts[j]? = some v → p v = true := by
    intro j hj v hv
    have k1 : name m j ∈ named first c1 := by
      rw [h6]
      exact List.mem_map_of_mem hj
    obtain ⟨i, hi, hij⟩ := List.mem_map.1 k1
    obtain ⟨j', v', g1, g2, g3, -⟩ := restricts_down hc hf (cellsOf_lt hfo hv1 i hi)
    have hjj : j' = j := ids_inj hn g1 hv (by rw [← g3, hij, name_some hv])
    subst hjj
    rw [hv] at g1
    cases g1
    have hi' : i ∈ (c1.zip ws).map Prod.fst := by
      rw [List.map_fst_zip (by omega)]
      exact hi
    obtain ⟨e, he, rfl⟩ := List.mem_map.1 hi'
    rw [← h1] at he
    exact htag e he (h8 e he) j' v hv g2 g3.symm
  obtain ⟨c3, hv3, c4, hv4, ws', g1, g2, g3, g4, g5, g6, -, g8, -⟩ :=
    cell_first hq hb hm hpo hc hn hp u hd hfew hg ⟨c2, hv2, h9, ⟨ws, h2, fun w hw => (h3 w hw).le, h4, h5.symm⟩, hkeep⟩
  exact ⟨c3, hv3, c4, hv4, ws', g1, g2, g3, g4, g5, g6, g8⟩

/-- What C112 gives for ranks with a linear cell interpolation. -/
theorem lc_parts {q : Query (d + 1)} (hq : q.Valid) (hb : q.Boxes) (hd : d + 1 = 2 ∨ d + 1 = 3) (con : Constraint) {m : Mesh (d + 1)} (hm : m.Ok) (hc : m.verts.map core = m.verts)
    (hn : (ids m).Nodup) {k : Cfg} {x : Fin (n + 1) → Local (d + 1)} {own : Fin (n + 1) → Mesh (d + 1)} (huse : ∀ r, UsesLC q con k (x r) (own r) m) {second : Fin (n + 1) → Mesh (d + 1)}
    {res : Fin (n + 1) → Part (d + 1) n} (h : Repartitioned k x m (fun r => seen k (x r) m) second res) (r : Fin (n + 1)) (i : ℕ) (hi : i < (own r).verts.length) :
    ∃ c' c ws, c' ∈ cellsOf (res r).mesh ∧ c ∈ cellsOf m ∧ (search .cell q (res r).mesh (coordsOf (own r) i)).elems = c'.zip ws ∧ ws.length = c.length ∧ (∀ w ∈ ws, 0 < w) ∧
      ws.sum = 1 ∧ combine (c.map (coordsOf m)) ws = coordsOf (own r) i ∧ named (res r).mesh c' = named m c ∧
      ∀ e ∈ (search .cell q (res r).mesh (coordsOf (own r) i)).elems, equals e.2 0 → e.2 = 0 := by
  obtain ⟨c', h1, c, h2, ws, h3, h4, h5, h6, h7, h8, h9⟩ := cell_of_part hq hb hm (seen_ok hm k (x r)) (h.ok r) hc hn (h.seen1 r) (h.mesh r) (coordsOf (own r) i) hd
    (fun e => (huse r).few e i hi) ((huse r).generic i hi) (by
      intro e he hz j v _ hR hg
      have : (x r).tag1 (seen k (x r) m) v.globalIndex = true := (huse r).tags _ _ (hg ▸ npTags_search .cell q con (own r) (seen k (x r) m) hi he hz)
      rw [hR, this, Bool.or_true, Bool.true_or]
      rfl) ((huse r).reach i hi)
  exact ⟨c', c, ws, h1, h2, h3, h4, h5, h6, h7, h8, fun e he h => absurd h (h9 e he)⟩

/-- Some rank needs a vertex. -/
theorem lc_needed {q : Query (d + 1)} (hq : q.Valid) (hb : q.Boxes) (hd : d + 1 = 2 ∨ d + 1 = 3) (con : Constraint) {m : Mesh (d + 1)} (hm : m.Ok) (hc : m.verts.map core = m.verts)
    (hn : (ids m).Nodup) {k : Cfg} {x : Fin (n + 1) → Local (d + 1)} {own : Fin (n + 1) → Mesh (d + 1)} (huse : ∀ r, UsesLC q con k (x r) (own r) m) (hsome : ∃ r, (own r).verts ≠ []) :
    ∃ r, ∃ v ∈ m.verts, Reach k (x r) v = true ∧ (Accessed k (x r) v || (x r).tag1 (seen k (x r) m) v.globalIndex) = true := by
  obtain ⟨r, hr⟩ := hsome
  have hpos : 0 < (own r).verts.length := List.length_pos_iff.2 hr
  have hf := seen_restricts hm hn k (x r)
  have hfo := seen_ok hm k (x r)
  obtain ⟨c1, hv1, c2, hv2, ws, h1, h2, h3, h4, h5, h6, h7, h8, h9⟩ :=
    cell_first hq hb hm hfo hc hn hf (coordsOf (own r) 0) hd (fun e => (huse r).few e 0 hpos) ((huse r).generic 0 hpos) ((huse r).reach 0 hpos)
  have hlen : c1.length = c2.length := by simpa using congrArg List.length h7
  obtain ⟨i, hi⟩ := cellsOf_ne hfo hv1
  obtain ⟨j, v, g1, g2, g3, -⟩ := restricts_down hc hf (cellsOf_lt hfo hv1 i hi)
  have hi' : i ∈ (c1.zip ws).map Prod.fst := by
    rw [List.map_fst_zip (by omega)]
    exact hi
  obtain ⟨e, he, rfl⟩ := List.mem_map.1 hi'
  rw [← h1] at he
  refine ⟨r, v, List.mem_of_getElem? g1, g2, ?_⟩
  rw [(huse r).tags _ _ (g3 ▸ npTags_search .cell q con (own r) (seen k (x r) m) hpos he (h8 e he)), Bool.or_true]

/-- The value at a vertex, in terms of the whole mesh. -/
theorem part_value (kind : Kind) (q : Query d) {con : Constraint} (hcon : con ≠ .conservative) (part own m : Mesh d) {b e : ℕ} (he : e < b) (data w : Data) {i : ℕ} (hi : i < own.verts.length)
    {c' c : Cell} {ws : List ℚ} (h1 : (search kind q part (coordsOf own i)).elems = c'.zip ws) (h2 : ws.length = c.length) (h3 : named part c' = named m c)
    (h4 : ∀ e ∈ (search kind q part (coordsOf own i)).elems, equals e.2 0 → e.2 = 0) (hlt' : ∀ i ∈ c', i < part.verts.length) (hlt : ∀ i ∈ c, i < m.verts.length)
    (hval : ∀ j < part.verts.length, ∀ l < m.verts.length, name part j = name m l → data (j * b + e) = w (l * b + e)) :
    mapProjection kind q con part own b data (i * b + e) = (List.zipWith (fun a x => a * x) ws (c.map fun j => w (j * b + e))).sum := by
  have hlen : c'.length = c.length := by simpa [named] using congrArg List.length h3
  rw [consistent_value kind q con hcon _ _ he _ hi, applied_full_of_exact _ _ h4]
  unfold full
  rw [h1]
  refine (elem_zip (by omega) (f := fun j => data (j * b + e))).trans ?_
  congr 2
  clear h1 h2 h4 hlen
  induction c' generalizing c with
  | nil =>
    cases c with
    | nil => rfl
    | cons => simp [named] at h3
  | cons a c' ih =>
    cases c with
    | nil => simp [named] at h3
    | cons a' c =>
      simp only [named, List.map_cons, List.cons.injEq] at h3
      rw [List.map_cons, List.map_cons, hval a (hlt' a (by simp)) a' (hlt a' (by simp)) h3.1,
        ih h3.2 (fun i hi => hlt' i (by simp [hi])) (fun i hi => hlt i (by simp [hi]))]

/-! ## Theorems -/

/-- Reading with a consistent linear cell interpolation in parallel: every vertex of every rank gets the value that the data of the provider, interpolated linearly on a triangle (two
dimensions) or tetrahedron (three dimensions) of the whole mesh around the vertex, has there. `w` are the data of the provider in the order of the mesh. -/
theorem C113_cell {q : Query (d + 1)} (hq : q.Valid) (hqb : q.Boxes) (hd : d + 1 = 2 ∨ d + 1 = 3) {con : Constraint} (hcon : con ≠ .conservative) {m : Mesh (d + 1)} (hm : m.Ok)
    (hc : m.verts.map core = m.verts) (hn : (ids m).Nodup) (k : Cfg) (x : Fin (n + 1) → Local (d + 1)) (total : ℕ)
    (hid : ∀ v ∈ m.verts, 0 ≤ v.globalIndex ∧ v.globalIndex < total) (hcfg : k.mapped = true)
    (hp : k.filter ≠ .none → ∀ r, (x r).provided = true → ∃ v ∈ m.verts, inside (prepareBox k (x r)) v = true)
    (own : Fin (n + 1) → Mesh (d + 1)) (huse : ∀ r, UsesLC q con k (x r) (own r) m) (hsome : ∃ r, (own r).verts ≠ [])
    {p : ℕ} (b : ℕ) (hb : 0 < b) (dist : Fin (p + 1) → List ℕ) (items : Fin (p + 1) → Arr ℚ) (hi : ∀ r, (items r).size = (dist r).length * b)
    (hprov : ∀ v ∈ m.verts, ∃ (s : Fin (p + 1)) (j : ℕ), (dist s)[j]? = some v.globalIndex.toNat ∧
      ∀ (s' : Fin (p + 1)) (j' : ℕ), (dist s')[j']? = some v.globalIndex.toNat → s' = s ∧ j' = j)
    (w : Data) (hw : ∀ (j : ℕ) (v : Vertex (d + 1)) (s : Fin (p + 1)) (l : ℕ), m.verts[j]? = some v → (dist s)[l]? = some v.globalIndex.toNat →
      ∀ e < b, w (j * b + e) = (items s).get (b * l + e)) :
    ∃ second res, RNet.AlwaysCompletes (fun r => compute k total (x r) r (start m r)) res ∧
      Repartitioned k x m (fun r => seen k (x r) m) second res ∧
      ∀ buf : Fin (n + 1) → Arr ℚ, (∀ r, (buf r).size = (gids (res r).mesh).length * b) →
        ∃ data, RNet.AlwaysCompletes (gsTransfer b total dist (fun r => gids (res r).mesh) items buf) data ∧
          ∀ r, ∀ i < (own r).verts.length, ∃ c ws, c ∈ cellsOf m ∧ ws.length = c.length ∧ (∀ w ∈ ws, 0 < w) ∧ ws.sum = 1 ∧
            combine (c.map (coordsOf m)) ws = coordsOf (own r) i ∧
            ∀ e < b, mapProjection .cell q con (res r).mesh (own r) b (data (.inr r)).get (i * b + e) =
              (List.zipWith (fun a x => a * x) ws (c.map fun j => w (j * b + e))).sum := by
  obtain ⟨second, res, h1, h2⟩ := C112_repartition hm hc hn k x total hid (.inl hcfg) hp (lc_needed hq hqb hd con hm hc hn huse hsome)
  refine ⟨second, res, h1, h2, fun buf hbuf => ?_⟩
  obtain ⟨data, h3, -, h5⟩ := C60_gather_scatter b total hb dist (fun r => gids (res r).mesh) items buf hi hbuf
  refine ⟨data, h3, fun r i hi' => ?_⟩
  obtain ⟨c', c, ws, g1, g2, g3, g4, g5, g6, g7, g8, g9⟩ := lc_parts hq hqb hd con hm hc hn huse h2 r i hi'
  refine ⟨c, ws, g2, g4, g5, g6, g7, fun e he => ?_⟩
  refine part_value .cell q hcon _ _ m he _ w hi' g3 g4 g8 g9 (cellsOf_lt (h2.ok r) g1) (cellsOf_lt hm g2) ?_
  intro j hj l hl hjl
  have hv : m.verts[l]? = some m.verts[l] := List.getElem?_eq_getElem hl
  obtain ⟨s, t, ht, hu⟩ := hprov _ (List.mem_of_getElem? hv)
  rw [hw l _ s t hv ht e he, Nat.mul_comm j b, (h5 r).2 _ _ e (gids_closest hj (hjl.trans (name_some hv))) he]
  exact C60_partition b dist (fun r => (items r).get) e ht hu

/-- Writing with a conservative linear cell interpolation in parallel: every vertex of every rank is in a cell of the whole mesh, and what was written at it is distributed to the vertices of
that cell with the weights of the vertex. -/
theorem C113_cell_write {q : Query (d + 1)} (hq : q.Valid) (hqb : q.Boxes) (hd : d + 1 = 2 ∨ d + 1 = 3) {m : Mesh (d + 1)} (hm : m.Ok)
    (hc : m.verts.map core = m.verts) (hn : (ids m).Nodup) (k : Cfg) (x : Fin (n + 1) → Local (d + 1)) (total : ℕ)
    (hid : ∀ v ∈ m.verts, 0 ≤ v.globalIndex ∧ v.globalIndex < total) (hcfg : k.mapped = true)
    (hp : k.filter ≠ .none → ∀ r, (x r).provided = true → ∃ v ∈ m.verts, inside (prepareBox k (x r)) v = true)
    (own : Fin (n + 1) → Mesh (d + 1)) (huse : ∀ r, UsesLC q .conservative k (x r) (own r) m) (hsome : ∃ r, (own r).verts ≠ [])
    {p : ℕ} (b : ℕ) (hb : 0 < b) (dist : Fin (p + 1) → List ℕ) (buf : Fin (p + 1) → Arr ℚ) (hbuf : ∀ r, (buf r).size = (dist r).length * b)
    (y : Fin (n + 1) → Data) :
    ∃ second res, RNet.AlwaysCompletes (fun r => compute k total (x r) r (start m r)) res ∧
      Repartitioned k x m (fun r => seen k (x r) m) second res ∧
      ∃ (c : Fin (n + 1) → ℕ → Cell) (ws : Fin (n + 1) → ℕ → List ℚ) (data : _),
        (∀ r, ∀ i < (own r).verts.length, c r i ∈ cellsOf m ∧ (ws r i).length = (c r i).length ∧ (∀ w ∈ ws r i, 0 < w) ∧ (ws r i).sum = 1 ∧
          combine ((c r i).map (coordsOf m)) (ws r i) = coordsOf (own r) i) ∧
        RNet.AlwaysCompletes (gsTransfer b total (fun r => gids (res r).mesh) dist
          (fun r => ⟨(gids (res r).mesh).length * b, mapProjection .cell q .conservative (own r) (res r).mesh b (y r)⟩) buf) data ∧
        ∀ (s : Fin (p + 1)) (j l : ℕ) (v : Vertex (d + 1)), m.verts[l]? = some v → (dist s)[j]? = some v.globalIndex.toNat → ∀ e < b,
          (data (.inr s)).get (b * j + e) = ∑ r, ∑ i ∈ Finset.range (own r).verts.length, weightOf (c r i) (ws r i) l * y r (i * b + e) := by
  obtain ⟨second, res, h1, h2⟩ := C112_repartition hm hc hn k x total hid (.inl hcfg) hp (lc_needed hq hqb hd .conservative hm hc hn huse hsome)
  refine ⟨second, res, h1, h2, ?_⟩
  have hparts := lc_parts hq hqb hd .conservative hm hc hn huse h2
  choose! c' c ws g1 g2 g3 g4 g5 g6 g7 g8 g9 using hparts
  obtain ⟨data, h3, -, h5⟩ := C60_gather_scatter b total hb (fun r => gids (res r).mesh) dist
    (fun r => ⟨(gids (res r).mesh).length * b, mapProjection .cell q .conservative (own r) (res r).mesh b (y r)⟩) buf (fun _ => rfl) hbuf
  refine ⟨c, ws, data, fun r i hi => ⟨g2 r i hi, g4 r i hi, g5 r i hi, g6 r i hi, g7 r i hi⟩, h3, fun s j l v hv hj e he => ?_⟩
  rw [(h5 s).2 j _ e hj he]
  unfold globalValue
  refine Finset.sum_congr rfl fun r _ => ?_
  have hnp : (ids (res r).mesh).Nodup := (h2.mesh r).nodup hn
  have hl := (List.getElem?_eq_some_iff.1 hv).1
  have hval : ∀ t, mapProjection .cell q .conservative (own r) (res r).mesh b (y r) (b * t + e) =
      ∑ i ∈ Finset.range (own r).verts.length, weightOf (c' r i) (ws r i) t * y r (i * b + e) := by
    intro t
    rw [Nat.mul_comm, conservative_value .cell q _ _ he, computeOps_eq, sum_flatMap, range_map_sum]
    refine Finset.sum_congr rfl fun i hi => ?_
    have hi := Finset.mem_range.1 hi
    refine (opsOf_sum_in i t _ (fun i => y r (i * b + e)) (g9 r i hi)).trans ?_
    rw [g3 r i hi]
    rfl
  simp only [hval]
  by_cases hex : ∃ t < (res r).mesh.verts.length, name (res r).mesh t = v.globalIndex
  · obtain ⟨t, ht, hname⟩ := hex
    have hsel : ∀ t' ∈ Finset.range (gids (res r).mesh).length, ((gids (res r).mesh)[t']? = some v.globalIndex.toNat ↔ t' = t) := by
      intro t' ht'
      have ht' : t' < (res r).mesh.verts.length := by simpa [gids] using ht'
      have h1 : (res r).mesh.verts[t']? = some _ := List.getElem?_eq_getElem ht'
      have h2' : (res r).mesh.verts[t]? = some _ := List.getElem?_eq_getElem ht
      rw [gids_closest ht' rfl, Option.some.injEq]
      constructor
      · intro heq
        refine ids_inj hnp h1 h2' ?_
        rw [← name_some h1, ← name_some h2', hname]
        obtain ⟨j', v', k1, -, k3, -⟩ := restricts_down hc (h2.mesh r) ht'
        have e1 := (hid _ (List.mem_of_getElem? k1)).1
        have e2 := (hid _ (List.mem_of_getElem? hv)).1
        omega
      · rintro rfl
        rw [hname]
    rw [Finset.sum_congr rfl fun t' ht' => if_congr (hsel t' ht') rfl rfl, Finset.sum_ite_eq', if_pos (by simpa [gids] using ht)]
    refine Finset.sum_congr rfl fun i hi => ?_
    have hi := Finset.mem_range.1 hi
    rw [weightOf_named hnp hn ht hl (hname.trans (name_some hv).symm) (ws r i) (cellsOf_lt (h2.ok r) (g1 r i hi)) (cellsOf_lt hm (g2 r i hi)) (g8 r i hi)]
  · rw [Finset.sum_eq_zero, Finset.sum_eq_zero]
    · intro i hi
      have hi := Finset.mem_range.1 hi
      rw [weightOf_absent, zero_mul]
      intro hmem
      refine hex ?_
      have h3' : name m l ∈ named (res r).mesh (c' r i) := by
        rw [g8 r i hi]
        exact List.mem_map_of_mem hmem
      obtain ⟨t, ht, hte⟩ := List.mem_map.1 h3'
      exact ⟨t, cellsOf_lt (h2.ok r) (g1 r i hi) t ht, by rw [hte, name_some hv]⟩
    · intro t ht
      have ht' : t < (res r).mesh.verts.length := by simpa [gids] using ht
      rw [if_neg]
      rw [gids_closest ht' rfl, Option.some.injEq]
      intro heq
      refine hex ⟨t, ht', ?_⟩
      obtain ⟨j', v', k1, -, k3, -⟩ := restricts_down hc (h2.mesh r) ht'
      have e1 := (hid _ (List.mem_of_getElem? k1)).1
      have e2 := (hid _ (List.mem_of_getElem? hv)).1
      omega

end Verif.Mapping
