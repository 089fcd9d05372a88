import Verif.Api.AccessRegion
import Verif.Dist.GatherScatter

/-!
# Property C112: direct access to a received mesh
-/

set_option autoImplicit false

namespace Verif.Access

open Verif.Repartition Verif.Com Verif.Dist

variable {d n : ℕ}

/-! ## Specification -/

/-- The region given by limits: every coordinate is between its limits. -/
def InRegion (bounds : List ℚ) (p : Pt d) : Prop := ∀ i : Fin d, ∃ lo hi, bounds[2 * i.val]? = some lo ∧ bounds[2 * i.val + 1]? = some hi ∧ lo ≤ p i ∧ p i ≤ hi

/-- The IDs and coordinates `out` a rank with the mesh `part` gets are those of the vertices `vs`: the IDs are different IDs of the mesh in ascending order, belong to the vertices and
the coordinates are theirs. -/
structure Gives (part : Mesh d) (vs : List (Vertex d)) (out : List ℕ × List ℚ) : Prop where
  ascending : out.1.Pairwise (· < ·)
  ids : out.1.map (fun i => (part.verts[i]?).map core) = vs.map fun v => some (core v)
  coords : out.2 = vs.flatMap fun v => List.ofFn v.coords

open Classical in
/-- The vertices of a mesh in the region. -/
noncomputable def regionOf (bounds : List ℚ) (m : Mesh d) : List (Vertex d) := m.verts.filter fun v => InRegion bounds v.coords

/-- The state after `initialize` with the given local mesh. -/
def Ctx.ready (c : Ctx d) (part : Mesh d) : Ctx d := { c with phase := .initialized, mesh := part }

/-! ## Lemmas -/

theorem inside_iff (b : Box d) (v : Vertex d) : inside b v = true ↔ ∀ i, b.lo i ≤ v.coords i ∧ v.coords i ≤ b.hi i := Box.C39_contains b v.coords

theorem region_contains {bounds : List ℚ} (hl : bounds.length = d * 2) (p : Pt d) : (boxOf d bounds).contains p = true ↔ InRegion bounds p := by
  rw [Box.C39_contains]
  refine forall_congr' fun i => ?_
  have h1 : 2 * i.val < bounds.length := by omega
  have h2 : 2 * i.val + 1 < bounds.length := by omega
  simp only [boxOf, List.getD_eq_getElem?_getD, List.getElem?_eq_getElem h1, List.getElem?_eq_getElem h2, Option.getD_some, Option.some.injEq]
  exact ⟨fun h => ⟨_, _, rfl, rfl, h.1, h.2⟩, fun ⟨_, _, e1, e2, h⟩ => e1 ▸ e2 ▸ h⟩

theorem setRegion_ok {c c' : Ctx d} {bounds : List ℚ} (h : setRegion c bounds = .ok c') :
    (c.received = true ∧ c.direct = true) ∧ c.phase = .constructed ∧ c.region = none ∧ bounds.length = d * 2 ∧
      (∀ i : Fin d, bounds.getD (2 * i.val) 0 ≤ bounds.getD (2 * i.val + 1) 0) ∧
      c' = { c with region := some (boxOf d bounds), meshBox := c.meshBox.join (boxOf d bounds) } := by
  unfold setRegion at h
  split at h <;> [cases h; skip]
  split at h <;> [cases h; skip]
  split at h <;> [cases h; skip]
  split at h <;> [cases h; skip]
  split at h <;> [cases h; skip]
  split at h <;> [cases h; skip]
  rename_i h1 h2 h3 h4 h5 h6
  cases h
  refine ⟨not_not.1 h1, ?_, ?_, not_not.1 h5, not_not.1 h6, rfl⟩
  · cases hp : c.phase <;> simp_all
  · simpa using h4

/-- Filtering the enumerated vertices. -/
theorem accessible_eq {c : Ctx d} {b : Box d} (h : c.region = some b) : accessible c = c.mesh.verts.zipIdx.filter fun e => inside b e.1 := by
  unfold accessible
  rw [h]

theorem accessible_fst {c : Ctx d} {b : Box d} (h : c.region = some b) : (accessible c).map Prod.fst = c.mesh.verts.filter (inside b) := by
  rw [accessible_eq h]
  conv_rhs => rw [← List.zipIdx_map_fst 0 c.mesh.verts, List.filter_map]
  rfl

theorem accessible_getElem {c : Ctx d} : ∀ e ∈ accessible c, c.mesh.verts[e.2]? = some e.1 := by
  intro e he
  have := List.mem_of_mem_filter he
  rw [List.mem_zipIdx_iff_getElem?] at this
  exact this

theorem accessible_ascending (c : Ctx d) : ((accessible c).map Prod.snd).Pairwise (· < ·) := by
  have h : ((c.mesh.verts.zipIdx).map Prod.snd).Pairwise (· < ·) := by
    rw [List.zipIdx_map_snd]
    exact List.pairwise_lt_range'
  exact h.sublist (List.filter_sublist.map _)

/-- The region is part of the box of the mesh, and nothing else if there was no box before. -/
theorem meshBox_region {c : Ctx d} {bounds : List ℚ} (hc : c.meshBox = Box.default d) (hl : bounds.length = d * 2) (hb : ∀ x ∈ bounds, |x| ≤ dblMax) :
    c.meshBox.join (boxOf d bounds) = boxOf d bounds := by
  have key : ∀ k < d * 2, |bounds.getD k 0| ≤ dblMax := by
    intro k hk
    rw [List.getD_eq_getElem?_getD, List.getElem?_eq_getElem (by omega)]
    exact hb _ (List.getElem_mem _)
  rw [hc]
  unfold Box.join Box.default boxOf
  congr 1
  · funext i
    exact min_eq_right (abs_le.1 (key _ (by omega))).2
  · funext i
    exact max_eq_right (abs_le.1 (key _ (by omega))).1

theorem reach_of_box {k : Cfg} (hd : k.direct = true) (hs : 0 ≤ k.safety) (x : Local (d + 1)) (v : Vertex (d + 1)) (h : inside x.meshBox v = true) : Reach k x v = true := by
  unfold Reach
  rw [Bool.or_eq_true]
  refine .inr ?_
  have hv : v.coords ∈ x.meshBox.points := (Box.C39_contains _ _).1 h
  refine (Box.C39_contains _ _).2 ?_
  unfold prepareBox
  rw [if_pos hd]
  refine (Box.C39_join _ _).2 ?_
  split
  · exact Box.C39_scale _ hs hv
  · exact hv

/-- What a rank can access if its mesh is a part of the mesh with at least the vertices in the region. -/
theorem gives_of_restricts {part m : Mesh d} {p : Vertex d → Bool} (hc : m.verts.map core = m.verts) (h : Restricts part m p) {c : Ctx d} {bounds : List ℚ}
    (hr : c.received = true) (hd : c.direct = true) (hph : c.phase = .initialized) (hreg : c.region = some (boxOf d bounds))
    (hmesh : c.mesh = part) (hp : ∀ v ∈ m.verts, inside (boxOf d bounds) v = true → p v = true) (vs : List (Vertex d))
    (hvs : vs = m.verts.filter fun v => inside (boxOf d bounds) v) :
    vertexSize c = .ok vs.length ∧ ∃ out, idsAndCoordinates c vs.length (d * vs.length) = .ok out ∧ Gives part vs out := by
  have hcore : (accessible c).map (fun e => core e.1) = vs := by
    have h1 := congrArg (List.map core) (accessible_fst hreg)
    rw [List.map_map] at h1
    refine (show (accessible c).map (fun e => core e.1) = _ from h1).trans ?_
    rw [hmesh]
    have h2 : (part.verts.filter (inside (boxOf d bounds))).map core = (part.verts.map core).filter (inside (boxOf d bounds)) := by
      rw [List.filter_map]
      rfl
    rw [h2, h.verts, hc, hvs, List.filter_filter]
    refine List.filter_congr fun v hv => ?_
    by_cases hi : inside (boxOf d bounds) v = true
    · rw [hi, hp v hv hi]; rfl
    · rw [Bool.not_eq_true] at hi
      rw [hi]; rfl
  have hlen : (accessible c).length = vs.length := by rw [← hcore, List.length_map]
  have hsize : vertexSize c = .ok vs.length := by
    unfold vertexSize
    rw [if_neg (by simp [hph]), if_pos ⟨hr, hd⟩, hreg]
    simp only
    congr 1
    rw [← hlen, ← List.length_map (f := Prod.fst), accessible_fst hreg, List.countP_eq_length_filter]
  refine ⟨hsize, ?_⟩
  have hflat : ((accessible c).flatMap fun e => List.ofFn e.1.coords) = vs.flatMap fun v => List.ofFn v.coords := by
    rw [← hcore, List.flatMap_map]
    rfl
  unfold idsAndCoordinates
  rw [if_neg (by simp [hr, hd]), if_neg (by simp [hreg]), if_neg (by simp [hph])]
  by_cases h0 : vs.length = 0 ∧ d * vs.length = 0
  · rw [if_pos h0]
    have : vs = [] := List.eq_nil_of_length_eq_zero h0.1
    rw [this]
    exact ⟨_, rfl, List.Pairwise.nil, rfl, rfl⟩
  · rw [if_neg h0, if_neg (not_not.2 hlen.symm), if_neg (by rw [hlen]; exact not_not.2 rfl)]
    refine ⟨_, rfl, accessible_ascending c, ?_, hflat⟩
    rw [← hcore, List.map_map, List.map_map]
    refine List.map_congr_left fun e he => ?_
    simp only [Function.comp_apply]
    rw [← hmesh, accessible_getElem e he]
    rfl

open Classical in
theorem regionOf_eq {bounds : List ℚ} (hl : bounds.length = d * 2) (m : Mesh d) : regionOf bounds m = m.verts.filter fun v => inside (boxOf d bounds) v := by
  unfold regionOf
  refine List.filter_congr fun v _ => ?_
  rw [Bool.eq_iff_iff]
  exact (decide_eq_true_iff).trans (region_contains hl v.coords).symm

/-! ## Theorems -/

/-- `setMeshAccessRegion` succeeds only for a region with at least one point, and only once per mesh. -/
theorem C112_set_region {c c' : Ctx d} {bounds : List ℚ} (h : setRegion c bounds = .ok c') :
    (∃ p : Pt d, InRegion bounds p) ∧ ∀ bounds', setRegion c' bounds' = .error := by
  obtain ⟨h1, h2, h3, hl, hle, rfl⟩ := setRegion_ok h
  constructor
  · refine ⟨(boxOf d bounds).lo, (region_contains hl _).1 ((Box.C39_contains _ _).2 fun i => ⟨le_rfl, hle i⟩)⟩
  · intro bounds'
    unfold setRegion
    rw [if_neg (by simpa using h1), if_neg (by simp [h2]), if_neg (by simp [h2]), if_pos (by rfl)]

/-- Every rank of a parallel participant sets its region, then the received mesh is distributed. Whatever geometric filter, safety factor and mappings are used, every schedule
completes and every rank gets access to exactly the vertices of the received mesh in its region, in their order. -/
theorem C112_direct {m : Mesh (d + 1)} (hm : m.Ok) (hc : m.verts.map core = m.verts) (hn : (ids m).Nodup) (k : Cfg) (hk : k.direct = true) (hs : 0 ≤ k.safety)
    (x : Fin (n + 1) → Local (d + 1)) (total : ℕ) (hid : ∀ v ∈ m.verts, 0 ≤ v.globalIndex ∧ v.globalIndex < total)
    (hp : k.filter ≠ .none → ∀ r, (x r).provided = true → ∃ v ∈ m.verts, inside (prepareBox k (x r)) v = true)
    (c c' : Fin (n + 1) → Ctx (d + 1)) (bounds : Fin (n + 1) → List ℚ) (hset : ∀ r, setRegion (c r) (bounds r) = .ok (c' r))
    (hbox : ∀ r, (c r).meshBox = Box.default (d + 1)) (hrep : ∀ r, ∀ b ∈ bounds r, |b| ≤ dblMax) (hx : ∀ r, (x r).meshBox = (c' r).meshBox)
    (hsome : ∃ r, regionOf (bounds r) m ≠ []) :
    ∃ second res, RNet.AlwaysCompletes (fun r => compute k total (x r) r (start m r)) res ∧ Repartitioned k x m (fun r => seen k (x r) m) second res ∧
      ∀ r, vertexSize ((c' r).ready (res r).mesh) = .ok (regionOf (bounds r) m).length ∧
        ∃ out, idsAndCoordinates ((c' r).ready (res r).mesh) (regionOf (bounds r) m).length ((d + 1) * (regionOf (bounds r) m).length) = .ok out ∧
          Gives (res r).mesh (regionOf (bounds r) m) out := by
  have hxb : ∀ r, (x r).meshBox = boxOf (d + 1) (bounds r) := by
    intro r
    obtain ⟨-, -, -, hl, -, he⟩ := setRegion_ok (hset r)
    rw [hx r, he]
    exact meshBox_region (hbox r) hl (hrep r)
  have hacc : ∀ r v, inside (boxOf (d + 1) (bounds r)) v = true → Reach k (x r) v = true ∧ Accessed k (x r) v = true := by
    intro r v hv
    rw [← hxb r] at hv
    refine ⟨reach_of_box hk hs _ _ hv, ?_⟩
    unfold Accessed
    rw [hk, hv]
    rfl
  obtain ⟨second, res, h1, h2⟩ := C112_repartition hm hc hn k x total hid (.inr hk) hp (by
    obtain ⟨r, hr⟩ := hsome
    obtain ⟨-, -, -, hl, -, -⟩ := setRegion_ok (hset r)
    rw [regionOf_eq hl] at hr
    obtain ⟨v, hv⟩ := List.exists_mem_of_ne_nil _ hr
    obtain ⟨hv, hi⟩ := List.mem_filter.1 hv
    obtain ⟨g1, g2⟩ := hacc r v hi
    exact ⟨r, v, hv, g1, by rw [g2, Bool.true_or]⟩)
  refine ⟨second, res, h1, h2, fun r => ?_⟩
  obtain ⟨⟨hr, hd⟩, -, -, hl, -, he⟩ := setRegion_ok (hset r)
  refine gives_of_restricts hc (h2.mesh r) (c := (c' r).ready (res r).mesh) ?_ ?_ rfl ?_ rfl ?_ _ (regionOf_eq hl m)
  · simpa [Ctx.ready, he] using hr
  · simpa [Ctx.ready, he] using hd
  · simp [Ctx.ready, he]
  · intro v _ hi
    obtain ⟨g1, g2⟩ := hacc r v hi
    rw [g1, g2]
    rfl

/-- The same for a serial participant, which keeps the whole mesh. -/
theorem C112_direct_serial {m : Mesh (d + 1)} (hm : m.Ok) (hc : m.verts.map core = m.verts) (k : Cfg) (x : Local (d + 1)) {c c' : Ctx (d + 1)} {bounds : List ℚ}
    (hset : setRegion c bounds = .ok c') {part : Part (d + 1) 0} (h : computeSerial k x m = .ok part) :
    vertexSize (c'.ready part.mesh) = .ok (regionOf bounds m).length ∧
      ∃ out, idsAndCoordinates (c'.ready part.mesh) (regionOf bounds m).length ((d + 1) * (regionOf bounds m).length) = .ok out ∧ Gives part.mesh (regionOf bounds m) out := by
  obtain ⟨⟨hr, hd⟩, -, -, hl, -, he⟩ := setRegion_ok hset
  unfold computeSerial at h
  split at h
  · cases h
  · cases h
    refine gives_of_restricts (p := fun _ => true) (bounds := bounds) hc ?_ (c := c'.ready _) ?_ ?_ rfl ?_ rfl (fun _ _ _ => rfl) _ (regionOf_eq hl m)
    · refine Restricts.of_flags hm ?_ rfl rfl rfl
      show List.map core (List.map _ m.verts) = _
      rw [List.map_map]
      rfl
    · simpa [Ctx.ready, he] using hr
    · simpa [Ctx.ready, he] using hd
    · simp [Ctx.ready, he]

/-- Read data: with gather-scatter communication, at the ID of an accessible vertex there is what the provider has written at that vertex. `dist` is the vertex distribution of the
provider, which provides every vertex on one rank. -/
theorem C112_read {V : Type} [AddCommMonoid V] {p : ℕ} (b total : ℕ) (hb : 0 < b) (dist : Fin (p + 1) → List ℕ) (items : Fin (p + 1) → Arr V)
    (hi : ∀ r, (items r).size = (dist r).length * b) (part : Fin (n + 1) → Mesh d) (buf : Fin (n + 1) → Arr V) (hbuf : ∀ r, (buf r).size = (gids (part r)).length * b) :
    ∃ res, RNet.AlwaysCompletes (gsTransfer b total dist (fun r => gids (part r)) items buf) res ∧
      ∀ r vs out, Gives (part r) vs out → ∀ (i j : ℕ) (v : Vertex d) (s : Fin (p + 1)), vs[i]? = some v → (dist s)[j]? = some v.globalIndex.toNat →
        (∀ s' j', (dist s')[j']? = some v.globalIndex.toNat → s' = s ∧ j' = j) → ∃ id, out.1[i]? = some id ∧ ∀ q < b, (res (.inr r)).get (b * id + q) = (items s).get (b * j + q) := by
  obtain ⟨res, h1, -, h3⟩ := C60_gather_scatter b total hb dist (fun r => gids (part r)) items buf hi hbuf
  refine ⟨res, h1, fun r vs out hg i j v s hv hj hu => ?_⟩
  have he := congrArg (fun l : List (Option (Vertex d)) => l[i]?) hg.ids
  simp only [List.getElem?_map, hv, Option.map_some] at he
  obtain ⟨id, hid, he⟩ := Option.map_eq_some_iff.1 he
  obtain ⟨w, hw, he⟩ := Option.map_eq_some_iff.1 he
  refine ⟨id, hid, fun q hq => ?_⟩
  have hgid : (gids (part r))[id]? = some v.globalIndex.toNat := by
    unfold gids
    rw [List.getElem?_map, hw]
    have : w.globalIndex = v.globalIndex := show (core w).globalIndex = (core v).globalIndex from congrArg (fun u : Vertex d => u.globalIndex) he
    simp [this]
  rw [(h3 r).2 id _ q hgid hq]
  exact C60_partition b dist (fun r => (items r).get) q hj hu

/-- Written data: what the provider gets at a vertex is the sum of what the ranks that hold the vertex have written there (regions may overlap), zero if no rank holds it. -/
theorem C112_write {V : Type} [AddCommMonoid V] {p : ℕ} (b total : ℕ) (hb : 0 < b) (dist : Fin (p + 1) → List ℕ) (buf : Fin (p + 1) → Arr V)
    (hbuf : ∀ r, (buf r).size = (dist r).length * b) (part : Fin (n + 1) → Mesh d) (hnd : ∀ r, (gids (part r)).Nodup) (items : Fin (n + 1) → Arr V)
    (hi : ∀ r, (items r).size = (gids (part r)).length * b) :
    ∃ res, RNet.AlwaysCompletes (gsTransfer b total (fun r => gids (part r)) dist items buf) res ∧
      ∀ s j g, (dist s)[j]? = some g → ∀ q < b,
        (res (.inr s)).get (b * j + q) = ∑ r, (if g ∈ gids (part r) then (items r).get (b * (gids (part r)).idxOf g + q) else 0) := by
  obtain ⟨res, h1, -, h3⟩ := C60_gather_scatter b total hb (fun r => gids (part r)) dist items buf hi hbuf
  refine ⟨res, h1, fun s j g hg q hq => ?_⟩
  rw [(h3 s).2 j g q hg hq]
  unfold globalValue
  refine Finset.sum_congr rfl fun r _ => ?_
  split
  · rename_i hm
    have hlt := List.idxOf_lt_length_of_mem hm
    rw [Finset.sum_eq_single ((gids (part r)).idxOf g)]
    · rw [if_pos (by rw [List.getElem?_eq_getElem hlt, List.getElem_idxOf])]
    · intro k hk hne
      refine if_neg fun e => hne ?_
      obtain ⟨hk', e⟩ := List.getElem?_eq_some_iff.1 e
      rw [← e]
      exact ((hnd r).idxOf_getElem k hk').symm
    · intro h
      exact absurd (Finset.mem_range.2 hlt) h
  · rename_i hm
    exact Finset.sum_eq_zero fun k _ => if_neg fun e => hm (List.mem_of_getElem? e)

/-! ### Points of just-in-time mappings -/

theorem le_foldl_min (ps : List (Pt d)) : ∀ p : Pt d, ∀ (b : ℚ) (i : Fin d), b ≤ minOf d p ps i ↔ b ≤ p i ∧ ∀ q ∈ ps, b ≤ q i := by
  unfold minOf
  induction ps with
  | nil => intro p b i; simp
  | cons q ps ih =>
    intro p b i
    rw [List.foldl_cons, ih]
    simp [and_assoc]

theorem foldl_max_le (ps : List (Pt d)) : ∀ p : Pt d, ∀ (b : ℚ) (i : Fin d), maxOf d p ps i ≤ b ↔ p i ≤ b ∧ ∀ q ∈ ps, q i ≤ b := by
  unfold maxOf
  induction ps with
  | nil => intro p b i; simp
  | cons q ps ih =>
    intro p b i
    rw [List.foldl_cons, ih]
    simp [and_assoc]

theorem checkInside_ok {b : Box d} {coords : List ℚ} (h : pointsOf d coords ≠ []) :
    checkInside (some b) coords = .ok () ↔ ∀ p ∈ pointsOf d coords, b.contains p = true := by
  unfold checkInside
  cases hp : pointsOf d coords with
  | nil => exact absurd hp h
  | cons p ps =>
    simp only [le_foldl_min, foldl_max_le]
    constructor
    · intro h
      split at h
      · rename_i h'
        intro q hq
        refine (Box.C39_contains _ _).2 fun i => ?_
        rcases List.mem_cons.1 hq with rfl | hq
        · exact ⟨(h'.1 i).1, (h'.2 i).1⟩
        · exact ⟨(h'.1 i).2 q hq, (h'.2 i).2 q hq⟩
      · cases h
    · intro h
      have h' : ∀ q ∈ p :: ps, q ∈ b.points := fun q hq => (Box.C39_contains _ _).1 (h q hq)
      rw [if_pos ⟨fun i => ⟨(h' p List.mem_cons_self i).1, fun q hq => (h' q (List.mem_cons_of_mem _ hq) i).1⟩,
        fun i => ⟨(h' p List.mem_cons_self i).2, fun q hq => (h' q (List.mem_cons_of_mem _ hq) i).2⟩⟩]

theorem pointsOf_ne_nil {coords : List ℚ} (hd : 0 < d) (h : d ≤ coords.length) : pointsOf d coords ≠ [] := by
  have : 0 < coords.length / d := Nat.div_pos h hd
  unfold pointsOf
  intro e
  have := congrArg List.length e
  simp at this
  omega

/-- Data can only be mapped to and from points in the region, for a matching number of values. -/
theorem C112_points_partial {c c' : Ctx d} {bounds : List ℚ} (hset : setRegion c bounds = .ok c') (part : Mesh d) (jit : Bool) (dim : ℕ) (hd : 0 < d)
    (coords : List ℚ) (k nValues : ℕ) (hk : 0 < k) (hco : coords.length = k * d) (ps : List (Pt d)) :
    (readPoints (c'.ready part) jit dim coords nValues = .ok ps ↔
      part.verts ≠ [] ∧ jit = true ∧ nValues = k * dim ∧ ps = pointsOf d coords ∧ ∀ p ∈ ps, InRegion bounds p) ∧
    (writePoints (c'.ready part) jit dim coords nValues = readPoints (c'.ready part) jit dim coords nValues) := by
  obtain ⟨⟨hr, hdir⟩, -, -, hl, -, he⟩ := setRegion_ok hset
  have hne : coords ≠ [] := by
    rintro rfl
    rw [List.length_nil] at hco
    have := Nat.mul_pos hk hd
    omega
  have hle : d ≤ coords.length := by
    rw [hco]
    exact Nat.le_mul_of_pos_left d hk
  have hdiv : coords.length / d = k := by rw [hco, Nat.mul_div_cancel _ hd]
  have hreg : (c'.ready part).region = some (boxOf d bounds) := by simp [Ctx.ready, he]
  have h1 : ¬ ((c'.ready part).phase ≠ .initialized) := by simp [Ctx.ready]
  have h2 : ¬ ¬ ((c'.ready part).received = true ∧ (c'.ready part).direct = true) := not_not.2 (by simpa [Ctx.ready, he] using ⟨hr, hdir⟩)
  have h3 : ¬ ((c'.ready part).needsRegion = true ∧ (c'.ready part).region.isNone = true) := by simp [hreg]
  have h4 : ¬ (coords = [] ∧ nValues = 0) := fun h => hne h.1
  have hmesh : (c'.ready part).mesh = part := rfl
  have hin := checkInside_ok (b := boxOf d bounds) (pointsOf_ne_nil hd hle)
  simp only [region_contains hl] at hin
  constructor
  · unfold readPoints
    rw [if_neg h1, if_neg h2, if_neg h3, hmesh, hreg, if_neg h4]
    by_cases hv : part.verts = []
    · simp [hv]
    · rw [if_neg hv]
      cases jit
      · simp
      · rw [if_neg (by simp)]
        unfold checkedPoints
        rw [hdiv]
        cases hci : checkInside (some (boxOf d bounds)) coords with
        | ok u =>
          have := hin.1 hci
          by_cases hnv : k * dim = nValues
          · simp only [hnv, if_true, Out.ok.injEq, ne_eq, hv, not_false_iff, true_and]
            exact ⟨fun e => ⟨e.symm, e ▸ this⟩, fun e => e.1.symm⟩
          · simp only [hnv, if_false]
            exact ⟨fun e => (nomatch e), fun e => absurd e.2.2.1.symm hnv⟩
        | error =>
          refine ⟨fun e => (nomatch e), fun e => ?_⟩
          rw [hin.2 (e.2.2.2.1 ▸ e.2.2.2.2)] at hci
          cases hci
        | undefined =>
          refine ⟨fun e => (nomatch e), fun e => ?_⟩
          rw [hin.2 (e.2.2.2.1 ▸ e.2.2.2.2)] at hci
          cases hci
  · have hdef : ∀ u, checkedPoints (c'.ready part).region dim coords nValues = u → u ≠ .undefined := by
      rintro u rfl hu
      unfold checkedPoints checkInside at hu
      rw [hreg] at hu
      cases hp : pointsOf d coords with
      | nil => exact pointsOf_ne_nil hd hle hp
      | cons p ps =>
        simp only [hp] at hu
        split at hu
        · split at hu <;> cases hu
        · cases hu
        · rename_i h
          split at h <;> cases h
    unfold readPoints writePoints
    rw [if_neg h1, if_neg h2, if_neg h3, if_neg h4, if_neg h1, if_neg h2, if_neg h3, if_neg h4]
    by_cases hv : (c'.ready part).mesh.verts = []
    · rw [if_pos hv]
      split
      · rfl
      · cases hcp : checkedPoints (c'.ready part).region dim coords nValues with
        | ok u => simp
        | error => rfl
        | undefined => exact absurd rfl (hdef _ hcp)
    · rw [if_neg hv]
      split
      · rfl
      · cases hcp : checkedPoints (c'.ready part).region dim coords nValues with
        | ok u => simp
        | error => rfl
        | undefined => rfl

/-! ### Where the code differs from what one expects -/

/-- The documentation of `setMeshAccessRegion` (/repo/src/precice/Participant.hpp:1041-1048) says that it may not be needed with a mapping, in parallel it always is. -/
theorem C112_parallel_needs_region (c : Ctx d) (hr : c.received = true) (hd : c.direct = true) (hp : c.parallel = true) (hreg : c.region = none) (nIds nCoords : ℕ) :
    vertexSize c = .error ∧ idsAndCoordinates c nIds nCoords = .error := by
  have hn : c.needsRegion = true := by simp [Ctx.needsRegion, hr, hp]
  constructor
  · unfold vertexSize
    split
    · rfl
    · simp [hr, hd, hreg]
  · unfold idsAndCoordinates
    rw [if_neg (by simp [hr, hd]), if_pos ⟨hn, by simp [hreg]⟩]

/-- In serial it is not needed with a mapping: everything can be accessed. -/
theorem C112_serial_without_region (c : Ctx d) (hr : c.received = true) (hd : c.direct = true) (hp : c.parallel = false) (hreg : c.region = none) (hph : c.phase = .initialized) :
    vertexSize c = .ok c.mesh.verts.length ∧ accessible c = c.mesh.verts.zipIdx := by
  have hn : c.needsRegion = false := by simp [Ctx.needsRegion, hp]
  constructor
  · unfold vertexSize
    rw [if_neg (by simp [hph]), if_pos ⟨hr, hd⟩, hreg]
    simp [hn]
  · unfold accessible
    rw [hreg]
    simp [hn]

/-- A region that is a single point is accepted by `setMeshAccessRegion` and works in parallel (`C112_direct`), a serial participant without mappings fails with the claim that the
region has not been set. -/
theorem C112_point_region_serial (k : Cfg) (hk : k.direct = true) (hj : k.jit = false) (x : Local (d + 1)) (hx : x.boxes = []) (p : Pt (d + 1)) (hp : ∀ i, |p i| ≤ dblMax)
    (hb : x.meshBox = ⟨p, p⟩) (m : Mesh (d + 1)) : computeSerial k x m = .error .check := by
  unfold computeSerial
  refine if_pos ⟨hk, .inr fun i => ?_⟩
  unfold prepareBox
  rw [hx, hj, hk, hb]
  simp only [List.foldl_nil, if_true, Bool.false_eq_true, if_false, Box.join, Box.default]
  rw [min_eq_right (abs_le.1 (hp i)).2, max_eq_right (abs_le.1 (hp i)).1]
  simp

/-- Surplus coordinates are ignored. -/
theorem C112_surplus_coordinates (k : ℕ) (hk : 0 < k) (coords extra : List ℚ) (hd : 0 < d) (hc : coords.length = k * d) (he : extra.length < d) (c : Ctx d) (jit : Bool) (dim nValues : ℕ) :
    readPoints c jit dim (coords ++ extra) nValues = readPoints c jit dim coords nValues := by
  have hlen : (coords ++ extra).length / d = coords.length / d := by
    rw [List.length_append, hc, Nat.add_comm, Nat.add_mul_div_right _ _ hd, Nat.div_eq_of_lt he, Nat.zero_add, Nat.mul_div_cancel _ hd]
  have hne : coords ≠ [] := by
    rintro rfl
    rw [List.length_nil] at hc
    have := Nat.mul_pos hk hd
    omega
  have hpts : pointsOf d (coords ++ extra) = pointsOf d coords := by
    unfold pointsOf
    rw [hlen]
    refine List.map_congr_left fun j hj => funext fun i => ?_
    rw [List.mem_range, hc, Nat.mul_div_cancel _ hd] at hj
    have : d * j + i.val < coords.length := by
      rw [hc]
      calc d * j + i.val < d * j + d := by omega
        _ = (j + 1) * d := by rw [Nat.add_mul, Nat.mul_comm, Nat.one_mul]
        _ ≤ k * d := Nat.mul_le_mul_right _ hj
    rw [List.getD_eq_getElem?_getD, List.getD_eq_getElem?_getD, List.getElem?_append_left this]
  have hck : checkedPoints c.region dim (coords ++ extra) nValues = checkedPoints c.region dim coords nValues := by
    unfold checkedPoints checkInside
    rw [hlen, hpts]
  unfold readPoints
  rw [hck]
  simp [hne]

/-- Too few coordinates for a single point: with a region, the minimum of no numbers is computed. -/
theorem C112_too_few_coordinates {c c' : Ctx d} {bounds : List ℚ} (hset : setRegion c bounds = .ok c') (part : Mesh d) (hpart : part.verts ≠ []) (dim nValues : ℕ)
    (coords : List ℚ) (h0 : coords ≠ []) (hlt : coords.length < d) : readPoints (c'.ready part) true dim coords nValues = .undefined := by
  obtain ⟨⟨hr, hdir⟩, -, -, hl, -, he⟩ := setRegion_ok hset
  have hreg : (c'.ready part).region = some (boxOf d bounds) := by simp [Ctx.ready, he]
  have hp : pointsOf d coords = [] := by
    unfold pointsOf
    rw [Nat.div_eq_of_lt hlt]
    rfl
  unfold readPoints
  rw [if_neg (by simp [Ctx.ready]), if_neg (not_not.2 (by simpa [Ctx.ready, he] using ⟨hr, hdir⟩)), if_neg (by simp [hreg]), if_neg (by exact hpart), if_neg (by simp),
    if_neg fun h => h0 h.1]
  unfold checkedPoints checkInside
  rw [hreg]
  simp only [hp]

/-- With empty buffers `getMeshVertexIDsAndCoordinates` succeeds although there are vertices. -/
theorem C112_empty_buffers {c c' : Ctx d} {bounds : List ℚ} (hset : setRegion c bounds = .ok c') (part : Mesh d) :
    idsAndCoordinates (c'.ready part) 0 0 = .ok ([], []) := by
  obtain ⟨⟨hr, hdir⟩, -, -, hl, -, he⟩ := setRegion_ok hset
  unfold idsAndCoordinates
  rw [if_neg (by simp [Ctx.ready, he, hr, hdir]), if_neg (by simp [Ctx.ready, he]), if_neg (by simp [Ctx.ready]), if_pos ⟨rfl, rfl⟩]

/-! ### Examples -/

namespace Example

/-- Three vertices on a line and the edges between them. -/
def line : Mesh 2 := ⟨[{ coords := ![0, 0], globalIndex := 0 }, { coords := ![1, 0], globalIndex := 1 }, { coords := ![2, 0], globalIndex := 2 }], [[0, 1], [1, 2]], [], []⟩

def ctx : Ctx 2 := ⟨true, true, true, .constructed, none, Box.default 2, Mesh.empty 2⟩

/-- The regions of two ranks; they share the second vertex. -/
def limits : Fin 2 → List ℚ := ![[0, 1, 0, 1], [1, 1, -1, 1]]

def here (r : Fin 2) : Local 2 := ⟨[], false, (Box.default 2).join (boxOf 2 (limits r)), fun _ _ => false, fun _ g => g == 2⟩

theorem set_ok (r : Fin 2) : setRegion ctx (limits r) = .ok { ctx with region := some (boxOf 2 (limits r)), meshBox := (Box.default 2).join (boxOf 2 (limits r)) } := by
  unfold setRegion
  rw [if_neg (by decide), if_neg (by decide), if_neg (by decide), if_neg (by decide), if_neg (by revert r; decide +kernel), if_neg (by revert r; decide +kernel)]
  rfl

example :=
  C112_direct (m := line) (by constructor <;> unfold Mesh.CellsOk <;> decide) rfl (by decide) ⟨.onPrimary, 1 / 2, true, false, false⟩ rfl (by norm_num) here 3 (by decide) (by decide)
    (fun _ => ctx) _ limits set_ok (fun _ => rfl) (by decide +kernel) (fun _ => rfl) ⟨0, by
      rw [regionOf_eq (by decide)]
      decide +kernel⟩

example := C112_direct_serial (m := line) (by constructor <;> unfold Mesh.CellsOk <;> decide) rfl ⟨.none, 0, true, false, false⟩ (here 0) (set_ok 0)
  (part := ⟨{ line with verts := line.verts.map fun v => { v with owner := true } }, fun _ => List.range 3, [3]⟩) (if_neg (by decide +kernel))

/-- Two ranks that hold the second vertex and write 5 and 6: the provider gets 11. -/
example : ∃ res, RNet.AlwaysCompletes (gsTransfer (n := 1) (m := 0) 1 3 (fun _ => gids line) (fun _ => [0, 1, 2]) ![⟨3, ![0, 5, 0] ∘ Fin.ofNat 3⟩, ⟨3, ![1, 6, 0] ∘ Fin.ofNat 3⟩]
    fun _ => ⟨3, fun _ => (0 : ℤ)⟩) res ∧ (res (.inr 0)).get 1 = 11 := by
  obtain ⟨res, h1, h2⟩ := C112_write (V := ℤ) 1 3 one_pos (fun _ : Fin 1 => [0, 1, 2]) (fun _ => ⟨3, fun _ => 0⟩) (by decide) (fun _ : Fin 2 => line) (by decide)
    ![⟨3, ![0, 5, 0] ∘ Fin.ofNat 3⟩, ⟨3, ![1, 6, 0] ∘ Fin.ofNat 3⟩] (by decide)
  exact ⟨res, h1, (h2 0 1 1 rfl 0 one_pos).trans (by decide)⟩

/-- A point in the region and one outside. -/
example : readPoints (d := 2) { ctx with region := some (boxOf 2 (limits 0)), phase := .initialized, mesh := line } true 1 [1 / 2, 1 / 2] 1 =
      .ok (pointsOf 2 [1 / 2, 1 / 2]) ∧ readPoints (d := 2) { ctx with region := some (boxOf 2 (limits 0)), phase := .initialized, mesh := line } true 1 [1 / 2, 1 / 2, 2, 0] 2 = .error := by
  refine ⟨?_, by decide +kernel⟩
  have h := C112_points_partial (set_ok 0) line true 1 (by decide) [1 / 2, 1 / 2] 1 1 (by decide) rfl (pointsOf 2 [1 / 2, 1 / 2])
  refine h.1.2 ⟨by decide, rfl, rfl, rfl, fun p hp => (region_contains (by decide) p).1 ?_⟩
  revert p
  decide +kernel

end Example

end Verif.Access
