import Verif.Api.AccessProps
import Verif.Mapping.Props

/-!
# Nearest-neighbor mappings of parallel participants (C113)

`tagMeshFirstRound` of `/repo/src/mapping/NearestNeighborBaseMapping.cpp:109-147`; together with the distribution of the received mesh (C112), the transfer (C60) and the mapping on
every rank (C43, C44).
-/

set_option autoImplicit false

namespace Verif.Mapping

open Verif.Repartition Verif.Com Verif.Dist Geometry

variable {d n : ℕ}

/-! ## Model -/

/-- Input and output mesh of a mapping between the mesh `own` of this participant and the received mesh `m`: consistent mappings read from the received mesh, conservative ones write to
it (other combinations are refused in parallel, MappingConfiguration.cpp). -/
def meshes (con : Constraint) (own m : Mesh d) : Mesh d × Mesh d := if con = .conservative then (own, m) else (m, own)

/-- What a nearest-neighbor mapping tags in the received mesh, NearestNeighborBaseMapping.cpp:130-144 -/
def nnTags (q : Query d) (con : Constraint) (own m : Mesh d) (g : ℤ) : Bool :=
  (nnIndices q con (meshes con own m).1 (meshes con own m).2).any fun j => decide (name m j = g)

/-! ## Specification -/

/-- Vertex `j` of the mesh is a closest one. -/
def Nearest (m : Mesh d) (u : Pt d) (j : ℕ) : Prop := j < m.verts.length ∧ ∀ i < m.verts.length, dist2 u (coordsOf m j) ≤ dist2 u (coordsOf m i)

/-- A rank takes part with a nearest-neighbor mapping (and maybe others): it asks for the vertices of that mapping, and a closest vertex of every vertex is within reach. -/
structure UsesNN (q : Query (d + 1)) (con : Constraint) (k : Cfg) (x : Local (d + 1)) (own m : Mesh (d + 1)) : Prop where
  tags : ∀ M g, nnTags q con own M g = true → x.tag1 M g = true
  reach : ∀ i < own.verts.length, ∃ (j : ℕ) (v : Vertex _), Nearest m (coordsOf own i) j ∧ m.verts[j]? = some v ∧ Reach k x v = true

/-! ## Lemmas -/

theorem coordsOf_some {m : Mesh d} {i : ℕ} {v : Vertex d} (h : m.verts[i]? = some v) : coordsOf m i = v.coords := by
  unfold coordsOf
  rw [h]
  rfl

theorem name_some {m : Mesh d} {i : ℕ} {v : Vertex d} (h : m.verts[i]? = some v) : name m i = v.globalIndex := by
  unfold name
  rw [h]
  rfl

/-- A vertex of a part is a vertex of the whole. -/
theorem restricts_down {part m : Mesh d} {p : Vertex d → Bool} (hc : m.verts.map core = m.verts) (h : Restricts part m p) {i : ℕ} (hi : i < part.verts.length) :
    ∃ (j : ℕ) (v : Vertex _), m.verts[j]? = some v ∧ p v = true ∧ name part i = v.globalIndex ∧ coordsOf part i = v.coords := by
  have h1 : core part.verts[i] ∈ (m.verts.map core).filter p := by
    rw [← h.verts]
    exact List.mem_map_of_mem (List.getElem_mem hi)
  rw [hc, List.mem_filter] at h1
  obtain ⟨j, hj⟩ := List.getElem?_of_mem h1.1
  have hi' : part.verts[i]? = some part.verts[i] := List.getElem?_eq_getElem hi
  exact ⟨j, _, hj, h1.2, by rw [name_some hi']; rfl, by rw [coordsOf_some hi']; rfl⟩

/-- A selected vertex of the whole is in the part. -/
theorem restricts_up {part m : Mesh d} {p : Vertex d → Bool} (hc : m.verts.map core = m.verts) (h : Restricts part m p) {j : ℕ} {v : Vertex d} (hj : m.verts[j]? = some v)
    (hv : p v = true) : ∃ i < part.verts.length, name part i = v.globalIndex ∧ coordsOf part i = v.coords := by
  have h1 : v ∈ (m.verts.map core).filter p := by
    rw [hc]
    exact List.mem_filter.2 ⟨List.mem_of_getElem? hj, hv⟩
  rw [← h.verts] at h1
  obtain ⟨w, hw, rfl⟩ := List.mem_map.1 h1
  obtain ⟨i, hi, rfl⟩ := List.getElem_of_mem hw
  have hi' : part.verts[i]? = some part.verts[i] := List.getElem?_eq_getElem hi
  exact ⟨i, hi, by rw [name_some hi']; rfl, by rw [coordsOf_some hi']; rfl⟩

theorem nearest_of_le {m : Mesh d} {u : Pt d} {j j' : ℕ} (h : Nearest m u j) (hj' : j' < m.verts.length) (hle : dist2 u (coordsOf m j') ≤ dist2 u (coordsOf m j)) : Nearest m u j' :=
  ⟨hj', fun i hi => hle.trans (h.2 i hi)⟩

theorem ids_inj {m : Mesh d} (hn : (ids m).Nodup) {i j : ℕ} {v w : Vertex d} (hi : m.verts[i]? = some v) (hj : m.verts[j]? = some w) (h : v.globalIndex = w.globalIndex) : i = j := by
  have h1 : (ids m)[i]? = some v.globalIndex := by unfold ids; rw [List.getElem?_map, hi]; rfl
  have h2 : (ids m)[j]? = some w.globalIndex := by unfold ids; rw [List.getElem?_map, hj]; rfl
  rw [h] at h1
  have hl := (List.getElem?_eq_some_iff.1 h1).1
  exact (List.getElem?_inj hl hn).1 (h1.trans h2.symm)

theorem nnTags_closest (q : Query d) (con : Constraint) (own m : Mesh d) {i : ℕ} (hi : i < own.verts.length) :
    nnTags q con own m (name m (q.closestVertex m (coordsOf own i))) = true := by
  unfold nnTags nnIndices setup meshes
  by_cases h : con = .conservative
  · simp only [if_pos h]
    exact List.any_eq_true.2 ⟨_, List.mem_map.2 ⟨i, List.mem_range.2 hi, rfl⟩, decide_eq_true rfl⟩
  · simp only [if_neg h]
    exact List.any_eq_true.2 ⟨_, List.mem_map.2 ⟨i, List.mem_range.2 hi, rfl⟩, decide_eq_true rfl⟩

/-- On the part a rank keeps, the search finds a vertex that is closest in the whole mesh. -/
theorem closest_of_part {q : Query d} (hq : q.Valid) {part first m : Mesh d} {p R : Vertex d → Bool} (hc : m.verts.map core = m.verts)
    (hf : Restricts first m R) (hp : Restricts part m p) (u : Pt d)
    (htag : ∀ (j : ℕ) (v : Vertex d), m.verts[j]? = some v → R v = true → v.globalIndex = name first (q.closestVertex first u) → p v = true)
    (hreach : ∃ (j : ℕ) (v : Vertex d), Nearest m u j ∧ m.verts[j]? = some v ∧ R v = true) :
    q.closestVertex part u < part.verts.length ∧
      ∃ (j : ℕ) (v : Vertex d), Nearest m u j ∧ m.verts[j]? = some v ∧ name part (q.closestVertex part u) = v.globalIndex ∧ coordsOf part (q.closestVertex part u) = v.coords := by
  obtain ⟨j0, v0, hj0, hv0, hR0⟩ := hreach
  -- the search on the first mesh
  obtain ⟨i1, hi1, -, hx1⟩ := restricts_up hc hf hv0 hR0
  have hne : first.verts ≠ [] := List.ne_nil_of_length_pos (by omega)
  obtain ⟨h1, h2⟩ := hq.vertex first u hne
  obtain ⟨j1, v1, hv1, hR1, hname1, hco1⟩ := restricts_down hc hf h1
  have hn1 : Nearest m u j1 := by
    refine nearest_of_le hj0 (List.getElem?_eq_some_iff.1 hv1).1 ?_
    rw [coordsOf_some hv1, coordsOf_some hv0, ← hco1, ← hx1]
    exact h2 i1 hi1
  -- it is kept
  have hp1 := htag j1 v1 hv1 hR1 hname1.symm
  obtain ⟨i2, hi2, -, hx2⟩ := restricts_up hc hp hv1 hp1
  have hne2 : part.verts ≠ [] := List.ne_nil_of_length_pos (by omega)
  obtain ⟨g1, g2⟩ := hq.vertex part u hne2
  obtain ⟨j3, v3, hv3, -, hname3, hco3⟩ := restricts_down hc hp g1
  refine ⟨g1, j3, v3, ?_, hv3, hname3, hco3⟩
  refine nearest_of_le hn1 (List.getElem?_eq_some_iff.1 hv3).1 ?_
  rw [coordsOf_some hv3, coordsOf_some hv1, ← hco3, ← hx2]
  exact g2 i2 hi2

/-- What C112 gives for ranks with a nearest-neighbor mapping. -/
theorem nn_parts {q : Query (d + 1)} (hq : q.Valid) (con : Constraint) {m : Mesh (d + 1)} (hc : m.verts.map core = m.verts) {k : Cfg}
    {x : Fin (n + 1) → Local (d + 1)} {own : Fin (n + 1) → Mesh (d + 1)} (huse : ∀ r, UsesNN q con k (x r) (own r) m) {first second : Fin (n + 1) → Mesh (d + 1)}
    {res : Fin (n + 1) → Part (d + 1) n} (h : Repartitioned k x m first second res) (r : Fin (n + 1)) (i : ℕ) (hi : i < (own r).verts.length) :
    q.closestVertex (res r).mesh (coordsOf (own r) i) < (res r).mesh.verts.length ∧
      ∃ (j : ℕ) (v : Vertex (d + 1)), Nearest m (coordsOf (own r) i) j ∧ m.verts[j]? = some v ∧
        name (res r).mesh (q.closestVertex (res r).mesh (coordsOf (own r) i)) = v.globalIndex := by
  obtain ⟨h1, j, v, h2, h3, h4, -⟩ := closest_of_part hq hc (h.seen1 r) (h.mesh r) (coordsOf (own r) i) (by
    intro j v _ hR hg
    have : (x r).tag1 (first r) v.globalIndex = true := (huse r).tags _ _ (hg ▸ nnTags_closest q con (own r) (first r) hi)
    rw [hR, this, Bool.or_true, Bool.true_or]
    rfl) ((huse r).reach i hi)
  exact ⟨h1, j, v, h2, h3, h4⟩

/-- Some rank needs a vertex. -/
theorem nn_needed {q : Query (d + 1)} (hq : q.Valid) (con : Constraint) {m : Mesh (d + 1)} (hm : m.Ok) (hc : m.verts.map core = m.verts) (hn : (ids m).Nodup) {k : Cfg}
    {x : Fin (n + 1) → Local (d + 1)} {own : Fin (n + 1) → Mesh (d + 1)} (huse : ∀ r, UsesNN q con k (x r) (own r) m) (hsome : ∃ r, (own r).verts ≠ []) :
    ∃ r, ∃ v ∈ m.verts, Reach k (x r) v = true ∧ (Accessed k (x r) v || (x r).tag1 (seen k (x r) m) v.globalIndex) = true := by
  obtain ⟨r, hr⟩ := hsome
  have hpos : 0 < (own r).verts.length := List.length_pos_iff.2 hr
  obtain ⟨j0, v0, -, hv0, hR0⟩ := (huse r).reach 0 hpos
  have hf := seen_restricts hm hn k (x r)
  obtain ⟨i1, hi1, -, -⟩ := restricts_up hc hf hv0 hR0
  obtain ⟨h1, -⟩ := hq.vertex (seen k (x r) m) (coordsOf (own r) 0) (List.ne_nil_of_length_pos (by omega))
  obtain ⟨j1, v1, hv1, hR1, hname1, -⟩ := restricts_down hc hf h1
  refine ⟨r, v1, List.mem_of_getElem? hv1, hR1, ?_⟩
  rw [(huse r).tags _ _ (hname1 ▸ nnTags_closest q con (own r) (seen k (x r) m) hpos), Bool.or_true]

theorem gids_closest {m : Mesh d} {i : ℕ} (hi : i < m.verts.length) {g : ℤ} (h : name m i = g) : (gids m)[i]? = some g.toNat := by
  have h1 : m.verts[i]? = some m.verts[i] := List.getElem?_eq_getElem hi
  unfold gids
  rw [List.getElem?_map, h1, Option.map_some, ← h, name_some h1]

/-! ## Theorems -/

/-- Reading with a consistent nearest-neighbor mapping in parallel: the received mesh is distributed, the data of the provider (which has every vertex on one rank) is transferred and every
rank maps it. Every vertex of every rank gets the value the provider has written at a vertex of the whole mesh that is closest to it, as in a serial run (C43). -/
theorem C113_nn_read {q : Query (d + 1)} (hq : q.Valid) {con : Constraint} (hcon : con ≠ .conservative) {m : Mesh (d + 1)} (hm : m.Ok)
    (hc : m.verts.map core = m.verts) (hn : (ids m).Nodup) (k : Cfg) (x : Fin (n + 1) → Local (d + 1)) (total : ℕ)
    (hid : ∀ v ∈ m.verts, 0 ≤ v.globalIndex ∧ v.globalIndex < total) (hcfg : k.mapped = true)
    (hp : k.filter ≠ .none → ∀ r, (x r).provided = true → ∃ v ∈ m.verts, inside (prepareBox k (x r)) v = true)
    (own : Fin (n + 1) → Mesh (d + 1)) (huse : ∀ r, UsesNN q con k (x r) (own r) m) (hsome : ∃ r, (own r).verts ≠ [])
    {p : ℕ} (b : ℕ) (hb : 0 < b) (dist : Fin (p + 1) → List ℕ) (items : Fin (p + 1) → Arr ℚ) (hi : ∀ r, (items r).size = (dist r).length * b)
    (hprov : ∀ v ∈ m.verts, ∃ (s : Fin (p + 1)) (j : ℕ), (dist s)[j]? = some v.globalIndex.toNat ∧
      ∀ (s' : Fin (p + 1)) (j' : ℕ), (dist s')[j']? = some v.globalIndex.toNat → s' = s ∧ j' = j) :
    ∃ second res, RNet.AlwaysCompletes (fun r => compute k total (x r) r (start m r)) res ∧ Repartitioned k x m (fun r => seen k (x r) m) second res ∧
      ∀ buf : Fin (n + 1) → Arr ℚ, (∀ r, (buf r).size = (gids (res r).mesh).length * b) →
        ∃ data, RNet.AlwaysCompletes (gsTransfer b total dist (fun r => gids (res r).mesh) items buf) data ∧
          ∀ r, ∀ i < (own r).verts.length, ∃ (j : ℕ) (v : Vertex (d + 1)) (s : Fin (p + 1)) (l : ℕ), Nearest m (coordsOf (own r) i) j ∧ m.verts[j]? = some v ∧
            (dist s)[l]? = some v.globalIndex.toNat ∧ ∀ e < b, mapNN q con (res r).mesh (own r) b (data (.inr r)).get (i * b + e) = (items s).get (b * l + e) := by
  obtain ⟨second, res, h1, h2⟩ := C112_repartition hm hc hn k x total hid (.inl hcfg) hp (nn_needed hq con hm hc hn huse hsome)
  refine ⟨second, res, h1, h2, fun buf hbuf => ?_⟩
  obtain ⟨data, h3, -, h5⟩ := C60_gather_scatter b total hb dist (fun r => gids (res r).mesh) items buf hi hbuf
  refine ⟨data, h3, fun r i hi' => ?_⟩
  obtain ⟨g1, j, v, g2, g3, g4⟩ := nn_parts hq con hc huse h2 r i hi'
  obtain ⟨s, l, hl, hu⟩ := hprov v (List.mem_of_getElem? g3)
  refine ⟨j, v, s, l, g2, g3, hl, fun e he => ?_⟩
  unfold mapNN
  simp only [if_neg hcon]
  rw [nnConsistent_apply he, if_pos hi', nnIndices_consistent q hcon _ _ hi', Nat.mul_comm _ b, (h5 r).2 _ _ e (gids_closest g1 g4) he]
  exact C60_partition b dist (fun r => (items r).get) e hl hu

/-- The number of ranks does not matter: where only one vertex is closest, the parallel run computes the value of a serial run with the mesh `whole`, in which the vertex `i'` is at the
same place. `w` are the data of the provider in the order of the mesh. -/
theorem C113_nn_same {q : Query (d + 1)} (hq : q.Valid) {con : Constraint} (hcon : con ≠ .conservative) {m : Mesh (d + 1)} (hm : m.Ok)
    (hc : m.verts.map core = m.verts) (hn : (ids m).Nodup) (k : Cfg) (x : Fin (n + 1) → Local (d + 1)) (total : ℕ)
    (hid : ∀ v ∈ m.verts, 0 ≤ v.globalIndex ∧ v.globalIndex < total) (hcfg : k.mapped = true)
    (hp : k.filter ≠ .none → ∀ r, (x r).provided = true → ∃ v ∈ m.verts, inside (prepareBox k (x r)) v = true)
    (own : Fin (n + 1) → Mesh (d + 1)) (huse : ∀ r, UsesNN q con k (x r) (own r) m) (hsome : ∃ r, (own r).verts ≠ [])
    {p : ℕ} (b : ℕ) (hb : 0 < b) (dist : Fin (p + 1) → List ℕ) (items : Fin (p + 1) → Arr ℚ) (hi : ∀ r, (items r).size = (dist r).length * b)
    (hprov : ∀ v ∈ m.verts, ∃ (s : Fin (p + 1)) (j : ℕ), (dist s)[j]? = some v.globalIndex.toNat ∧
      ∀ (s' : Fin (p + 1)) (j' : ℕ), (dist s')[j']? = some v.globalIndex.toNat → s' = s ∧ j' = j)
    (w : Data) (hw : ∀ (j : ℕ) (v : Vertex (d + 1)) (s : Fin (p + 1)) (l : ℕ), m.verts[j]? = some v → (dist s)[l]? = some v.globalIndex.toNat →
      ∀ e < b, w (j * b + e) = (items s).get (b * l + e)) (whole : Mesh (d + 1)) :
    ∃ res, RNet.AlwaysCompletes (fun r => compute k total (x r) r (start m r)) res ∧
      ∀ buf : Fin (n + 1) → Arr ℚ, (∀ r, (buf r).size = (gids (res r).mesh).length * b) →
        ∃ data, RNet.AlwaysCompletes (gsTransfer b total dist (fun r => gids (res r).mesh) items buf) data ∧
          ∀ r, ∀ i < (own r).verts.length, ∀ i' < whole.verts.length, coordsOf whole i' = coordsOf (own r) i →
            (∀ j j', Nearest m (coordsOf (own r) i) j → Nearest m (coordsOf (own r) i) j' → j = j') →
            ∀ e < b, mapNN q con (res r).mesh (own r) b (data (.inr r)).get (i * b + e) = mapNN q con m whole b w (i' * b + e) := by
  obtain ⟨second, res, h1, -, h3⟩ := C113_nn_read hq hcon hm hc hn k x total hid hcfg hp own huse hsome b hb dist items hi hprov
  refine ⟨res, h1, fun buf hbuf => ?_⟩
  obtain ⟨data, h4, h5⟩ := h3 buf hbuf
  refine ⟨data, h4, fun r i hi i' hi' hco hun e he => ?_⟩
  obtain ⟨j, v, s, l, g1, g2, g3, g4⟩ := h5 r i hi
  have hne : m.verts ≠ [] := List.ne_nil_of_length_pos (lt_of_le_of_lt (Nat.zero_le _) g1.1)
  obtain ⟨j', hj', hnear, hval⟩ := C43_nearest hq hcon m whole hne b w i' hi'
  have hjj : j = j' := hun j j' g1 ⟨hj', by rw [← hco]; exact hnear⟩
  rw [g4 e he, hval e he, ← hjj, hw j v s l g2 g3 e he]

/-- Writing with a conservative nearest-neighbor mapping in parallel: every vertex `i` of every rank `r` has a closest vertex `f r i` of the whole mesh, and the provider gets at each of
its vertices the sum of what was written at the vertices assigned to it, as in a serial run (C44). -/
theorem C113_nn_write {q : Query (d + 1)} (hq : q.Valid) {m : Mesh (d + 1)} (hm : m.Ok)
    (hc : m.verts.map core = m.verts) (hn : (ids m).Nodup) (k : Cfg) (x : Fin (n + 1) → Local (d + 1)) (total : ℕ)
    (hid : ∀ v ∈ m.verts, 0 ≤ v.globalIndex ∧ v.globalIndex < total) (hcfg : k.mapped = true)
    (hp : k.filter ≠ .none → ∀ r, (x r).provided = true → ∃ v ∈ m.verts, inside (prepareBox k (x r)) v = true)
    (own : Fin (n + 1) → Mesh (d + 1)) (huse : ∀ r, UsesNN q .conservative k (x r) (own r) m) (hsome : ∃ r, (own r).verts ≠ [])
    {p : ℕ} (b : ℕ) (hb : 0 < b) (dist : Fin (p + 1) → List ℕ) (buf : Fin (p + 1) → Arr ℚ) (hbuf : ∀ r, (buf r).size = (dist r).length * b)
    (y : Fin (n + 1) → Data) :
    ∃ second res, RNet.AlwaysCompletes (fun r => compute k total (x r) r (start m r)) res ∧ Repartitioned k x m (fun r => seen k (x r) m) second res ∧
      ∃ (f : Fin (n + 1) → ℕ → ℕ) (data : _), (∀ r, ∀ i < (own r).verts.length, Nearest m (coordsOf (own r) i) (f r i)) ∧
        RNet.AlwaysCompletes (gsTransfer b total (fun r => gids (res r).mesh) dist
          (fun r => ⟨(gids (res r).mesh).length * b, mapNN q .conservative (own r) (res r).mesh b (y r)⟩) buf) data ∧
        ∀ (s : Fin (p + 1)) (j l : ℕ) (v : Vertex (d + 1)), m.verts[l]? = some v → (dist s)[j]? = some v.globalIndex.toNat → ∀ e < b,
          (data (.inr s)).get (b * j + e) = ∑ r, ∑ i ∈ Finset.range (own r).verts.length, if f r i = l then y r (i * b + e) else 0 := by
  obtain ⟨second, res, h1, h2⟩ := C112_repartition hm hc hn k x total hid (.inl hcfg) hp (nn_needed hq .conservative hm hc hn huse hsome)
  refine ⟨second, res, h1, h2, ?_⟩
  have hparts := nn_parts hq .conservative hc huse h2
  choose! g1 f vv g2 g3 g4 using hparts
  obtain ⟨data, h3, -, h5⟩ := C60_gather_scatter b total hb (fun r => gids (res r).mesh) dist
    (fun r => ⟨(gids (res r).mesh).length * b, mapNN q .conservative (own r) (res r).mesh b (y r)⟩) buf (fun _ => rfl) hbuf
  refine ⟨f, data, g2, h3, fun s j l v hv hj e he => ?_⟩
  rw [(h5 s).2 j _ e hj he]
  unfold globalValue
  refine Finset.sum_congr rfl fun r _ => ?_
  have hval : ∀ t, mapNN q .conservative (own r) (res r).mesh b (y r) (b * t + e) =
      ∑ i ∈ Finset.range (own r).verts.length, if q.closestVertex (res r).mesh (coordsOf (own r) i) = t then y r (i * b + e) else 0 := by
    intro t
    unfold mapNN
    simp only [if_true]
    rw [Nat.mul_comm, nnConservative_apply he, Pi.zero_apply, zero_add, range_map_sum]
    refine Finset.sum_congr rfl fun i hi => ?_
    rw [nnIndices_conservative q _ _ (Finset.mem_range.1 hi)]
  simp only [hval]
  have hpull : ∀ t ∈ Finset.range (gids (res r).mesh).length, (if (gids (res r).mesh)[t]? = some v.globalIndex.toNat then
      ∑ i ∈ Finset.range (own r).verts.length, (if q.closestVertex (res r).mesh (coordsOf (own r) i) = t then y r (i * b + e) else 0) else 0) =
      ∑ i ∈ Finset.range (own r).verts.length, if q.closestVertex (res r).mesh (coordsOf (own r) i) = t then
        (if (gids (res r).mesh)[t]? = some v.globalIndex.toNat then y r (i * b + e) else 0) else 0 := by
    intro t _
    split
    · rfl
    · simp
  rw [Finset.sum_congr rfl hpull, Finset.sum_comm]
  refine Finset.sum_congr rfl fun i hi => ?_
  have hi := Finset.mem_range.1 hi
  have hlt := g1 r i hi
  rw [Finset.sum_ite_eq, if_pos (by rw [Finset.mem_range]; simpa [gids] using hlt), gids_closest hlt (g4 r i hi)]
  refine if_congr ?_ rfl rfl
  rw [Option.some.injEq]
  have hp1 := (hid _ (List.mem_of_getElem? (g3 r i hi))).1
  have hp2 := (hid _ (List.mem_of_getElem? hv)).1
  constructor
  · intro heq
    exact ids_inj hn (g3 r i hi) hv (by omega)
  · intro heq
    have hv' := g3 r i hi
    rw [heq, hv] at hv'
    rw [Option.some.inj hv']

/-! ### When is a closest vertex within reach? -/

theorem foldl_join_contains (f : ℚ) : ∀ (bs : List (Box (d + 1))) (b0 : Box (d + 1)) (p : Pt (d + 1)),
    p ∈ b0.points ∨ (∃ b ∈ bs, p ∈ (b.scale f).points) → p ∈ (bs.foldl (fun b o => b.join (o.scale f)) b0).points := by
  intro bs
  induction bs with
  | nil =>
    rintro b0 p (h | ⟨b, hb, -⟩)
    · exact h
    · cases hb
  | cons b bs ih =>
    rintro b0 p (h | ⟨b', hb, hp⟩)
    · exact ih _ _ (.inl ((Box.C39_join _ _).1 h))
    · rcases List.mem_cons.1 hb with rfl | hb
      · exact ih _ _ (.inl ((Box.C39_join _ _).2 hp))
      · exact ih _ _ (.inr ⟨b', hb, hp⟩)

theorem prepareBox_contains (k : Cfg) (x : Local (d + 1)) {b : Box (d + 1)} (hb : b ∈ x.boxes) {p : Pt (d + 1)} (hp : p ∈ (b.scale k.safety).points) :
    p ∈ (prepareBox k x).points := by
  unfold prepareBox
  have := foldl_join_contains k.safety x.boxes (Box.default (d + 1)) p (.inr ⟨b, hb, hp⟩)
  simp only
  split
  · exact (Box.C39_join _ _).1 this
  · exact this

theorem not_default_of_mem {b : Box (d + 1)} {p : Pt (d + 1)} (hp : p ∈ b.points) : ¬ b.isDefault := by
  rintro ⟨h1, h2⟩
  have hmax : (0 : ℚ) < dblMax := by unfold dblMax; norm_num
  have e1 := h1 0
  have e2 := h2 0
  unfold Box.approx at e1 e2
  have h3 := hp 0
  have g1 : |b.lo 0 - dblMax| ≤ 1 / 10 ^ 12 * dblMax :=
    e1.trans (mul_le_mul_of_nonneg_left ((min_le_right _ _).trans (abs_of_pos hmax).le) (by norm_num))
  have g2 : |b.hi 0 - -dblMax| ≤ 1 / 10 ^ 12 * dblMax :=
    e2.trans (mul_le_mul_of_nonneg_left ((min_le_right _ _).trans (by rw [abs_neg, abs_of_pos hmax])) (by norm_num))
  rw [abs_le] at g1 g2
  have : b.lo 0 ≤ b.hi 0 := h3.1.trans h3.2
  nlinarith [g1.1, g2.2]

theorem comp_le_dist2 (u v : Pt d) (i : Fin d) : (u i - v i) ^ 2 ≤ dist2 u v := by
  unfold dist2 dot
  have := Finset.single_le_sum (f := fun j => (u - v) j * (u - v) j) (fun j _ => mul_self_nonneg _) (Finset.mem_univ i)
  simpa [pow_two] using this

/-- Without geometric filter every vertex is within reach. -/
theorem C113_reach_no_filter {k : Cfg} (hk : k.filter = .none) (x : Local (d + 1)) (v : Vertex (d + 1)) : Reach k x v = true := by
  unfold Reach
  simp [hk]

/-- With a geometric filter, a vertex is within reach if its distance to a vertex of the local mesh is at most the safety factor times the longest edge of the bounding box of the local
mesh. -/
theorem C113_reach_margin (k : Cfg) (hs : 0 ≤ k.safety) (x : Local (d + 1)) (own : Mesh (d + 1)) (b0 : Box (d + 1))
    (hbox : b0.compute (own.verts.map fun w => w.coords) ∈ x.boxes) {i : ℕ} (hi : i < own.verts.length) (v : Vertex (d + 1))
    (hv : dist2 (coordsOf own i) v.coords ≤ (k.safety * (b0.compute (own.verts.map fun w => w.coords)).longest) ^ 2) : Reach k x v = true := by
  set b := b0.compute (own.verts.map fun w => w.coords) with hb
  have hu : coordsOf own i ∈ b.points := by
    refine (Box.C39_contains _ _).1 (Box.C39_computed_box_contains b0 _ ?_)
    rw [coordsOf_some (List.getElem?_eq_getElem hi)]
    exact List.mem_map.2 ⟨_, List.getElem_mem hi, rfl⟩
  have hl : 0 ≤ b.longest := by
    have h0 : b.hi 0 - b.lo 0 ≤ b.longest := Finset.le_sup' (fun i => b.hi i - b.lo i) (Finset.mem_univ 0)
    have := hu 0
    linarith
  unfold Reach
  rw [Bool.or_eq_true]
  refine .inr ((Box.C39_contains _ _).2 (prepareBox_contains k x hbox ?_))
  intro j
  unfold Box.scale
  rw [if_neg (not_default_of_mem hu)]
  have h1 := abs_le.1 (abs_le_of_sq_le_sq ((comp_le_dist2 (coordsOf own i) v.coords j).trans hv) (mul_nonneg hs hl))
  have h2 := hu j
  constructor
  · show b.lo j - k.safety * b.longest ≤ v.coords j
    linarith [h1.1, h1.2]
  · show v.coords j ≤ b.hi j + k.safety * b.longest
    linarith [h1.1, h1.2]

theorem mem_prepareBox_single (k : Cfg) (hd : k.direct = false) (x : Local (d + 1)) (b : Box (d + 1)) (hb : x.boxes = [b]) (hnd : ¬ b.isDefault) (h1 : ∀ i, b.lo i - k.safety * b.longest ≤ dblMax)
    (h2 : ∀ i, -dblMax ≤ b.hi i + k.safety * b.longest) (p : Pt (d + 1)) :
    p ∈ (prepareBox k x).points ↔ ∀ i, b.lo i - k.safety * b.longest ≤ p i ∧ p i ≤ b.hi i + k.safety * b.longest := by
  unfold prepareBox
  rw [hd, hb]
  simp only [List.foldl_cons, List.foldl_nil]
  refine forall_congr' fun i => ?_
  unfold Box.join Box.scale Box.default
  rw [if_neg hnd]
  simp only [min_eq_right (h1 i), max_eq_right (h2 i), if_neg Bool.false_ne_true]

/-- The safety factor does not help a rank whose local mesh has a single vertex: the bounding box has no extent, so only vertices at exactly the same place are within reach. -/
theorem C113_single_vertex (k : Cfg) (hf : k.filter ≠ .none) (hd : k.direct = false) (x : Local (d + 1)) (u : Pt (d + 1)) (hu : ∀ i, |u i| ≤ dblMax)
    (hb : x.boxes = [(Box.default (d + 1)).compute [u]]) (v : Vertex (d + 1)) : Reach k x v = true ↔ v.coords = u := by
  have hmem : u ∈ ((Box.default (d + 1)).compute [u]).points := (Box.C39_contains _ _).1 (Box.C39_computed_box_contains _ _ (by simp))
  have hlo : ∀ i, ((Box.default (d + 1)).compute [u]).lo i = u i := by
    intro i
    refine le_antisymm (hmem i).1 ?_
    unfold Box.compute Box.add Box.default
    simp only [ite_self, List.foldl_cons, List.foldl_nil]
    exact le_min ((abs_le.1 (hu i)).2) le_rfl
  have hhi : ∀ i, ((Box.default (d + 1)).compute [u]).hi i = u i := by
    intro i
    refine le_antisymm ?_ (hmem i).2
    unfold Box.compute Box.add Box.default
    simp only [ite_self, List.foldl_cons, List.foldl_nil]
    exact max_le ((abs_le.1 (hu i)).1) le_rfl
  have hlong : ((Box.default (d + 1)).compute [u]).longest = 0 := by
    unfold Box.longest
    simp only [hlo, hhi, sub_self]
    exact Finset.sup'_const _ _
  unfold Reach
  rw [Bool.or_eq_true, decide_eq_true_iff]
  simp only [hf, false_or]
  unfold inside
  rw [Box.C39_contains, mem_prepareBox_single k hd x _ hb (not_default_of_mem hmem)]
  · simp only [hlong, mul_zero, sub_zero, add_zero, hlo, hhi]
    constructor
    · intro h
      funext i
      exact le_antisymm (h i).2 (h i).1
    · rintro rfl i
      exact ⟨le_rfl, le_rfl⟩
  · intro i
    rw [hlong, mul_zero, sub_zero, hlo]
    exact (abs_le.1 (hu i)).2
  · intro i
    rw [hlong, mul_zero, add_zero, hhi]
    exact (abs_le.1 (hu i)).1

theorem two_steps {M α : Type} {p : Fin 2 → Prog (Fin 2) M α} {a b : M} {k0 k1 : M → Prog (Fin 2) M α} {k2 p' : Prog (Fin 2) M α} (h1 : p 1 = .send 0 a (.recv 0 k1))
    (h0 : p 0 = .recv 1 k0) (h2 : k0 a = .send 1 b k2) (h3 : k1 b = p') : ∃ l q, RNet.Steps l p q ∧ q 1 = p' := by
  have s1 : RNet.Step p (Function.update (Function.update p 1 (.recv 0 k1)) 0 (k0 a)) := ⟨1, 0, _, _, _, h1, h0, rfl⟩
  rw [h2] at s1
  have s2 : RNet.Step (Function.update (Function.update p 1 (.recv 0 k1)) 0 (.send 1 b k2)) _ := ⟨0, 1, b, k2, k1, Function.update_self _ _ _, by
    rw [Function.update_of_ne (by decide : (1 : Fin 2) ≠ 0), Function.update_self], rfl⟩
  exact ⟨2, _, .head s1 (.single s2), by rw [Function.update_self, h3]⟩

/-- Hence such a participant does not start: if rank 1 of 2 has one vertex and no vertex of the received mesh is at the same place, rank 1 stops with an error, whatever the safety
factor. -/
theorem C113_single_vertex_error (m : Mesh (d + 1)) (hm : m.Ok) (k : Cfg) (hf : k.filter = .onPrimary) (hd : k.direct = false) (hcfg : k.mapped = true) (x : Fin 2 → Local (d + 1)) (total : ℕ)
    (u : Pt (d + 1)) (hu : ∀ i, |u i| ≤ dblMax) (hb : (x 1).boxes = [(Box.default (d + 1)).compute [u]]) (hprov : (x 1).provided = true) (hv : ∀ v ∈ m.verts, v.coords ≠ u) :
    ∃ l p, RNet.Steps l (fun r : Fin 2 => compute (n := 1) k total (x r) r (start m r)) p ∧ p 1 = .fail .check := by
  have hempty : (Mesh.filter (Mesh.empty (d + 1)) m (inside (prepareBox k (x 1)))).verts = [] := by
    rw [(Mesh.C41_filter (Mesh.empty (d + 1)) m hm _).1, show (Mesh.empty (d + 1)).verts = [] from rfl, List.nil_append, List.filter_eq_nil_iff]
    intro v hmem hin
    refine hv v hmem ((C113_single_vertex k (by rw [hf]; decide) hd (x 1) u hu hb v).1 ?_)
    unfold Reach
    rw [hin, Bool.or_true]
  have happ : (appended (Mesh.empty (d + 1)) (Mesh.filter (Mesh.empty (d + 1)) m (inside (prepareBox k (x 1))))).verts = [] := by
    unfold appended
    simp only [hempty, List.map_nil, List.append_nil]
    rfl
  have hsec : secondaries 1 = [(1 : Fin 2)] := by decide
  have h1 : ∃ k1, compute (n := 1) k total (x 1) 1 (start (n := 1) m 1) = .send 0 (.box (prepareBox k (x 1))) (.recv 0 k1) ∧
      k1 (.mesh (Mesh.filter (Mesh.empty (d + 1)) m (inside (prepareBox k (x 1))))) = .fail .check := by
    simp only [compute, filterByBox, hf, Prog.ensure, if_neg (by decide : ¬ (1 : Fin 2) = 0), Repartition.receiveMesh, Prog.bind]
    refine ⟨_, rfl, ?_⟩
    simp only [notFilteredOut, Prog.ensure, happ, hprov]
    rfl
  have h0 : ∃ k0 k2, compute (n := 1) k total (x 0) 0 (start (n := 1) m 0) = .recv 1 k0 ∧
      k0 (.box (prepareBox k (x 1))) = .send 1 (.mesh (Mesh.filter (Mesh.empty (d + 1)) m (inside (prepareBox k (x 1))))) k2 := by
    simp only [compute, filterByBox, hf, hsec, Prog.ensure, if_true, start, hcfg, serve, Prog.bind, true_or, implies_true]
    exact ⟨_, _, rfl, rfl⟩
  obtain ⟨k1, e1, e2⟩ := h1
  obtain ⟨k0, k2, e3, e4⟩ := h0
  exact two_steps e1 e3 e4 e2

/-- If no closest vertex is within reach, another vertex is used. -/
theorem C113_out_of_reach {q : Query (d + 1)} {m : Mesh (d + 1)} (hc : m.verts.map core = m.verts) {k : Cfg} {x : Fin (n + 1) → Local (d + 1)}
    {first second : Fin (n + 1) → Mesh (d + 1)} {res : Fin (n + 1) → Part (d + 1) n} (h : Repartitioned k x m first second res) (r : Fin (n + 1)) (u : Pt (d + 1))
    (hr : ∀ (j : ℕ) (v : Vertex (d + 1)), Nearest m u j → m.verts[j]? = some v → Reach k (x r) v = false) (hlt : q.closestVertex (res r).mesh u < (res r).mesh.verts.length) :
    ∃ (j : ℕ) (v : Vertex (d + 1)), m.verts[j]? = some v ∧ name (res r).mesh (q.closestVertex (res r).mesh u) = v.globalIndex ∧ ¬ Nearest m u j := by
  obtain ⟨j, v, h1, h2, h3, -⟩ := restricts_down hc (h.mesh r) hlt
  refine ⟨j, v, h1, h3, fun hne => ?_⟩
  rw [hr j v hne h1, Bool.false_and] at h2
  cases h2

namespace Example

open Access.Example (line)

/-- The local meshes of two ranks beside the mesh `line`. -/
def own : Fin 2 → Mesh 2 :=
  ![⟨[{ coords := ![0, 1 / 4] }, { coords := ![3 / 4, 1 / 4] }], [], [], []⟩, ⟨[{ coords := ![7 / 4, 1 / 4] }, { coords := ![5 / 4, 1 / 4] }], [], [], []⟩]

def here (con : Constraint) (r : Fin 2) : Local 2 :=
  ⟨[(Box.default 2).compute ((own r).verts.map fun w => w.coords)], true, Box.default 2, nnTags (bruteForce 2) con (own r), fun _ _ => false⟩

def cfg : Cfg := ⟨.onPrimary, 1 / 2, false, true, false⟩

theorem line_ok : line.Ok := by constructor <;> unfold Mesh.CellsOk <;> decide

instance {d : ℕ} (m : Mesh d) (u : Pt d) (j : ℕ) : Decidable (Nearest m u j) := by unfold Nearest; exact inferInstance

/-- The closest vertices are within reach with the safety factor 1/2: vertices 0 and 1 for rank 0, vertices 2 and 1 for rank 1. -/
theorem uses (con : Constraint) (r : Fin 2) : UsesNN (bruteForce 2) con cfg (here con r) (own r) line := by
  refine ⟨fun M g h => h, ?_⟩
  have h : ∀ r : Fin 2, ∀ i < (own r).verts.length, ∃ j ∈ List.range 3, Nearest line (coordsOf (own r) i) j ∧
      inside (prepareBox cfg (here .consistent r)) (line.verts.getD j { coords := 0 }) = true := by decide +kernel
  intro i hi
  obtain ⟨j, -, h1, h2⟩ := h r i hi
  refine ⟨j, _, h1, List.getElem?_eq_getElem h1.1, ?_⟩
  unfold Reach
  rw [Bool.or_eq_true]
  rw [List.getD_eq_getElem?_getD, List.getElem?_eq_getElem h1.1] at h2
  exact .inr h2

theorem found (con : Constraint) : cfg.filter ≠ .none → ∀ r, (here con r).provided = true → ∃ v ∈ line.verts, inside (prepareBox cfg (here con r)) v = true := by
  have h : ∀ r, ∃ v ∈ line.verts, inside (prepareBox cfg (here .consistent r)) v = true := by decide +kernel
  exact fun _ r _ => h r

theorem one_rank {l : List ℕ} (hn : l.Nodup) {g : ℕ} (hg : g ∈ l) : ∃ (s : Fin 1) (j : ℕ), l[j]? = some g ∧ ∀ (s' : Fin 1) (j' : ℕ), l[j']? = some g → s' = s ∧ j' = j := by
  obtain ⟨j, hj⟩ := List.getElem?_of_mem hg
  refine ⟨0, j, hj, fun s' j' h => ⟨Subsingleton.elim _ _, ?_⟩⟩
  exact (List.getElem?_inj (List.getElem?_eq_some_iff.1 h).1 hn).1 (h.trans hj.symm)

example := C113_nn_read (bruteForce_valid 2) (con := .consistent) (by decide) line_ok rfl (by decide) cfg (here .consistent) 3 (by decide) rfl (found _) own (uses _)
  ⟨0, by decide⟩ 2 (by decide) (fun _ : Fin 1 => [2, 0, 1]) (fun _ => ⟨6, fun i => i⟩) (by decide) (fun v hv => one_rank (by decide) (by revert v; decide))

example := C113_nn_write (bruteForce_valid 2) line_ok rfl (by decide) cfg (here .conservative) 3 (by decide) rfl (found _) own (uses _)
  ⟨0, by decide⟩ 2 (by decide) (fun _ : Fin 1 => [2, 0, 1]) (fun _ => ⟨6, fun i => i⟩) (by decide) (fun _ i => i)

/-- The closest vertex is unique. -/
example : ∀ j j', Nearest line (coordsOf (own 1) 1) j → Nearest line (coordsOf (own 1) 1) j' → j = j' := by
  intro j j' h h'
  have : ∀ j < 3, ∀ j' < 3, Nearest line (coordsOf (own 1) 1) j → Nearest line (coordsOf (own 1) 1) j' → j = j' := by decide +kernel
  exact this j h.1 j' h'.1 h h'

example : Reach cfg (here .consistent 0) { coords := ![1, 0] } = true :=
  C113_reach_margin cfg (by decide +kernel) (here .consistent 0) (own 0) (Box.default 2) (List.mem_singleton.2 rfl) (i := 1) (by decide) { coords := ![1, 0] } (by decide +kernel)

/-- Rank 1 has a single vertex, close to a vertex of the received mesh, and a safety factor of 1000. -/
example := C113_single_vertex_error line line_ok ⟨.onPrimary, 1000, false, true, false⟩ rfl rfl rfl
  ![here .consistent 0, ⟨[(Box.default 2).compute [![2, 1 / 100]]], true, Box.default 2, nnTags (bruteForce 2) .consistent (own 1), fun _ _ => false⟩] 3 ![2, 1 / 100]
  (by unfold dblMax; decide +kernel) rfl rfl (by decide +kernel)

/-- The first vertex is closest to (0, 0), but not within reach of the box from (-1/2, -1/2) to (3/2, 1/2). -/
def apart : Mesh 2 := ⟨[{ coords := ![0, 3 / 5], globalIndex := 0 }, { coords := ![3 / 2, 1 / 2], globalIndex := 1 }], [], [], []⟩

def flat : Mesh 2 := ⟨[{ coords := ![0, 0] }, { coords := ![1, 0] }], [], [], []⟩

def local2 : Fin 2 → Local 2 := fun _ => ⟨[(Box.default 2).compute (flat.verts.map fun w => w.coords)], true, Box.default 2, nnTags (bruteForce 2) .consistent flat, fun _ _ => false⟩

/-- The run completes, but the vertex at (0, 0) reads the value of vertex 1, not that of the closest vertex 0. -/
theorem C113_far : ∃ second res, RNet.AlwaysCompletes (fun r : Fin 2 => compute (n := 1) cfg 2 (local2 r) r (start (n := 1) apart r)) res ∧
    Repartitioned cfg local2 apart (fun r => seen cfg (local2 r) apart) second res ∧ Nearest apart (coordsOf flat 0) 0 ∧
    ∀ r, (bruteForce 2).closestVertex (res r).mesh (coordsOf flat 0) = 0 ∧ name (res r).mesh 0 = 1 := by
  obtain ⟨second, res, h1, h2⟩ := C112_repartition (n := 1) (m := apart) (by constructor <;> unfold Mesh.CellsOk <;> decide) rfl (by decide) cfg local2 2 (by decide) (.inl rfl)
    (fun _ r _ => by
      have : ∀ r : Fin 2, ∃ v ∈ apart.verts, inside (prepareBox cfg (local2 r)) v = true := by decide +kernel
      exact this r) ⟨0, by decide +kernel⟩
  refine ⟨second, res, h1, h2, by decide +kernel, fun r => ?_⟩
  have hv := (h2.mesh r).verts
  have e0 : ∀ r : Fin 2, Reach cfg (local2 r) { coords := ![0, 3 / 5], globalIndex := 0 } = false := by decide +kernel
  have e1 : ∀ r : Fin 2, (Reach cfg (local2 r) { coords := ![3 / 2, 1 / 2], globalIndex := 1 } && (local2 r).tag1 (seen cfg (local2 r) apart) 1) = true := by decide +kernel
  have e1' := e1 r
  rw [Bool.and_eq_true] at e1'
  have hw : (res r).mesh.verts.map core = [{ coords := ![3 / 2, 1 / 2], globalIndex := 1 }] := by
    rw [hv]
    show List.filter _ [_, _] = _
    simp only [core, List.filter_cons, e0 r, Bool.false_and, e1'.1, e1'.2, Bool.or_true, Bool.true_or, Bool.and_true, if_true, List.filter_nil, if_neg Bool.false_ne_true]
  have hl : (res r).mesh.verts.length = 1 := by simpa using congrArg List.length hw
  refine ⟨?_, ?_⟩
  · have := ((bruteForce_valid 2).vertex (res r).mesh (coordsOf flat 0) (List.ne_nil_of_length_pos (by omega))).1
    omega
  · obtain ⟨v, hv⟩ := List.length_eq_one_iff.1 hl
    rw [hv] at hw
    have := congrArg (fun l => l.map fun w : Vertex 2 => w.globalIndex) hw
    unfold name
    rw [hv]
    simpa [core] using this

end Example

end Verif.Mapping
