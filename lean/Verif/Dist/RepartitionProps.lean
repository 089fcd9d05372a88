import Verif.Dist.RepartitionRun

/-!
# Property C112: the distribution of a received mesh
-/

set_option autoImplicit false

namespace Verif.Repartition

open Verif.Dist Verif.Com

variable {d n : ℕ}

/-! ## Specification -/

/-- The vertices a rank may get: without geometric filter all, otherwise those in its bounding box. -/
def Reach (c : Cfg) (x : Local (d + 1)) (v : Vertex (d + 1)) : Bool := decide (c.filter = .none) || inside (prepareBox c x) v

/-- The vertices in the region of the rank that is accessed directly. -/
def Accessed (c : Cfg) (x : Local d) (v : Vertex d) : Bool := c.direct && inside x.meshBox v

/-- The meshes the mappings of the ranks see in the two rounds, the results and the global number of vertices belong to the distribution of `m`. -/
structure Repartitioned (c : Cfg) (x : Fin (n + 1) → Local (d + 1)) (m : Mesh (d + 1)) (first second : Fin (n + 1) → Mesh (d + 1)) (res : Fin (n + 1) → Part (d + 1) n) :
    Prop where
  /-- In both rounds the mappings see what may be needed. -/
  seen1 : ∀ r, Restricts (first r) m (Reach c (x r))
  seen2 : ∀ r, Restricts (second r) m (Reach c (x r))
  /-- A rank keeps what is accessed directly or tagged in one of the rounds, nothing else. -/
  mesh : ∀ r, Restricts (res r).mesh m fun v =>
    Reach c (x r) v && (Accessed c (x r) v || (x r).tag1 (first r) v.globalIndex || (x r).tag2 (second r) v.globalIndex)
  /-- No element refers to a vertex the rank does not have. -/
  ok : ∀ r, (res r).mesh.Ok
  /-- The primary rank knows the global IDs of the vertices of every rank. -/
  dist : ∀ r, (res 0).dist r = gids (res r).mesh
  /-- All ranks know how many vertices the ranks have. -/
  offs : ∀ r s : Fin (n + 1), (res r).offs[s.val]? = some (∑ i, if i ≤ s then (res i).mesh.verts.length else 0)
  offs_length : ∀ r, (res r).offs.length = n + 1
  /-- A vertex that is accessed or tagged in the first round somewhere has one owner, other vertices have none. -/
  owner : ∀ v ∈ m.verts, ∑ r, (res r).mesh.verts.countP (fun w => decide (w.globalIndex = v.globalIndex) && w.owner) =
    if ∃ r, Reach c (x r) v = true ∧ (Accessed c (x r) v || (x r).tag1 (first r) v.globalIndex) = true then 1 else 0

/-- The mesh the mappings see in the first round. -/
def seen (c : Cfg) (x : Local (d + 1)) (m : Mesh (d + 1)) : Mesh (d + 1) :=
  if c.direct then tagVerts (inside x.meshBox) (candidates c x m) else candidates c x m

/-! ## Lemmas -/

/-- What is tagged in the first round. -/
def firstTag (c : Cfg) (x : Local (d + 1)) (m : Mesh (d + 1)) (v : Vertex (d + 1)) : Bool := Accessed c x v || x.tag1 (seen c x m) v.globalIndex

theorem candidates_core {m : Mesh (d + 1)} (hm : m.Ok) (hc : m.verts.map core = m.verts) (c : Cfg) (x : Local (d + 1)) :
    (candidates c x m).verts.map core = (candidates c x m).verts := by
  unfold candidates
  split
  · exact hc
  · exact filter_core hm hc _

theorem candidates_restricts {m : Mesh (d + 1)} (hm : m.Ok) (hn : (ids m).Nodup) (c : Cfg) (x : Local (d + 1)) : Restricts (candidates c x m) m (Reach c x) := by
  unfold candidates Reach
  split
  · rename_i h
    refine (Restricts.of_flags hm rfl rfl rfl rfl).congr fun v _ => ?_
    simp [h]
  · rename_i h
    refine (restricts_filter hm hn _ (inside (prepareBox c x)) fun v _ => rfl).congr fun v _ => ?_
    simp [h]

theorem mem_candidates {m : Mesh (d + 1)} (hm : m.Ok) (c : Cfg) (x : Local (d + 1)) (v : Vertex (d + 1)) :
    v ∈ (candidates c x m).verts ↔ v ∈ m.verts ∧ Reach c x v = true := by
  unfold candidates Reach
  split
  · rename_i h; simp [h]
  · rename_i h
    obtain ⟨h1, -⟩ := Mesh.C41_filter (Mesh.empty (d + 1)) m hm (inside (prepareBox c x))
    rw [h1, show (Mesh.empty (d + 1)).verts = [] from rfl, List.nil_append, List.mem_filter]
    simp [h]

theorem tagFirst_verts {m : Mesh (d + 1)} (hm : m.Ok) (hc : m.verts.map core = m.verts) (c : Cfg) (x : Local (d + 1)) :
    (tagFirst c x (candidates c x m)).verts = (candidates c x m).verts.map fun v => { v with tagged := firstTag c x m v } := by
  have hfalse : ∀ v ∈ (candidates c x m).verts, v.tagged = false := by
    intro v hv
    rw [← candidates_core hm hc c x] at hv
    obtain ⟨w, -, rfl⟩ := List.mem_map.1 hv
    rfl
  unfold tagFirst firstTag Accessed
  rw [show (if c.direct = true then tagVerts (inside x.meshBox) (candidates c x m) else candidates c x m) = seen c x m from rfl]
  by_cases h : c.direct = true
  · have : (seen c x m).verts = (candidates c x m).verts.map fun v => { v with tagged := v.tagged || inside x.meshBox v } := by
      unfold seen
      rw [if_pos h]
      rfl
    simp only [tagVerts, this, List.map_map]
    refine List.map_congr_left fun v hv => ?_
    simp [hfalse v hv, h]
  · have : (seen c x m).verts = (candidates c x m).verts := by
      unfold seen
      rw [if_neg h]
    simp only [tagVerts, this]
    refine List.map_congr_left fun v hv => ?_
    simp [hfalse v hv, h]

theorem ownerView_eq {m : Mesh (d + 1)} (hm : m.Ok) (hc : m.verts.map core = m.verts) (c : Cfg) (x : Local (d + 1)) :
    ownerView (tagFirst c x (candidates c x m)) = (candidates c x m).verts.map fun v => (v.globalIndex.toNat, firstTag c x m v) := by
  unfold ownerView
  rw [tagFirst_verts hm hc, List.map_map]
  rfl

theorem owned_verts {m : Mesh (d + 1)} (hm : m.Ok) (hc : m.verts.map core = m.verts) (c : Cfg) (x : Local (d + 1)) (own : List Bool) :
    (owned c x m own).verts = List.zipWith (fun v o => { v with tagged := firstTag c x m v, owner := o }) (candidates c x m).verts own := by
  unfold owned setOwners
  simp only []
  rw [tagFirst_verts hm hc, List.zipWith_map_left]

/-- The vertices a rank keeps, before the second filter. -/
theorem marked_tagged {m : Mesh (d + 1)} (hm : m.Ok) (hc : m.verts.map core = m.verts) (c : Cfg) (x : Local (d + 1)) (own : List Bool) :
    ∀ v ∈ (tagVerts (fun v => x.tag2 (owned c x m own) v.globalIndex) (owned c x m own)).verts,
      (firstTag c x m (core v) || x.tag2 (owned c x m own) (core v).globalIndex) = v.tagged := by
  intro v hv
  unfold tagVerts at hv
  obtain ⟨w, hw, rfl⟩ := List.mem_map.1 hv
  rw [owned_verts hm hc] at hw
  obtain ⟨u, o, huo, rfl⟩ : ∃ u o, (u, o) ∈ (candidates c x m).verts.zip own ∧ w = { u with tagged := firstTag c x m u, owner := o } := by
    rw [← List.map_uncurry_zip_eq_zipWith] at hw
    obtain ⟨⟨u, o⟩, h, rfl⟩ := List.mem_map.1 hw
    exact ⟨u, o, h, rfl⟩
  rfl

theorem second_core {m : Mesh (d + 1)} {c : Cfg} {x : Local (d + 1)} {own : List Bool} (h : own.length = (candidates c x m).verts.length) :
    (tagVerts (fun v => x.tag2 (owned c x m own) v.globalIndex) (owned c x m own)).verts.map core = (candidates c x m).verts.map core := by
  rw [tagVerts_core, owned_core h]

theorem kept_restricts {m : Mesh (d + 1)} (hm : m.Ok) (hc : m.verts.map core = m.verts) (hn : (ids m).Nodup) {c : Cfg} {x : Local (d + 1)} {own : List Bool}
    (h : own.length = (candidates c x m).verts.length) :
    Restricts (kept c x m own) m fun v => Reach c x v && (firstTag c x m v || x.tag2 (owned c x m own) v.globalIndex) := by
  have h1 := candidates_restricts hm hn c x
  have h2 : Restricts (tagVerts (fun v => x.tag2 (owned c x m own) v.globalIndex) (owned c x m own)) (candidates c x m) fun _ => true :=
    Restricts.of_flags (candidates_ok hm c x) (second_core h) (tagFirst_cells c x _).1 (tagFirst_cells c x _).2.1 (tagFirst_cells c x _).2.2
  have h3 := restricts_filter (tagged_ok (owned_ok hm h) fun v => x.tag2 (owned c x m own) v.globalIndex) (h2.nodup (h1.nodup hn)) (fun v => v.tagged)
    (fun v => firstTag c x m v || x.tag2 (owned c x m own) v.globalIndex) (marked_tagged hm hc c x own)
  refine (h3.trans (h2.trans h1)).congr fun v _ => ?_
  simp

theorem owned_restricts {m : Mesh (d + 1)} (hm : m.Ok) (hn : (ids m).Nodup) {c : Cfg} {x : Local (d + 1)} {own : List Bool}
    (h : own.length = (candidates c x m).verts.length) : Restricts (owned c x m own) m (Reach c x) := by
  have h2 : Restricts (owned c x m own) (candidates c x m) fun _ => true :=
    Restricts.of_flags (candidates_ok hm c x) (owned_core h) (tagFirst_cells c x _).1 (tagFirst_cells c x _).2.1 (tagFirst_cells c x _).2.2
  exact (h2.trans (candidates_restricts hm hn c x)).congr fun v _ => by simp

theorem seen_restricts {m : Mesh (d + 1)} (hm : m.Ok) (hn : (ids m).Nodup) (c : Cfg) (x : Local (d + 1)) : Restricts (seen c x m) m (Reach c x) := by
  have h2 : Restricts (seen c x m) (candidates c x m) fun _ => true := by
    unfold seen
    split
    · exact Restricts.of_flags (candidates_ok hm c x) (tagVerts_core _ _) rfl rfl rfl
    · exact Restricts.of_flags (candidates_ok hm c x) rfl rfl rfl rfl
  exact (h2.trans (candidates_restricts hm hn c x)).congr fun v _ => by simp

/-- The owned vertices survive the second filter. -/
theorem kept_owned {m : Mesh (d + 1)} (hm : m.Ok) (hc : m.verts.map core = m.verts) {c : Cfg} {x : Local (d + 1)} {own : List Bool}
    (h : own.length = (candidates c x m).verts.length)
    (hneed : ∀ e ∈ (ownerView (tagFirst c x (candidates c x m))).zip own, e.2 = true → e.1.2 = true) (hpos : ∀ v ∈ m.verts, 0 ≤ v.globalIndex) {g : ℤ} (hg : 0 ≤ g) :
    (kept c x m own).verts.countP (fun w => decide (w.globalIndex = g) && w.owner) = ownedCount g.toNat (ownerView (tagFirst c x (candidates c x m))) own := by
  obtain ⟨h1, -⟩ := Mesh.C41_filter (Mesh.empty (d + 1)) (tagVerts (fun v => x.tag2 (owned c x m own) v.globalIndex) (owned c x m own)) (tagged_ok (owned_ok hm h) _)
    fun v => v.tagged
  unfold kept
  simp only []
  rw [h1, show (Mesh.empty (d + 1)).verts = [] from rfl, List.nil_append, List.countP_filter]
  unfold ownedCount
  rw [ownerView_eq hm hc] at hneed ⊢
  unfold tagVerts
  simp only []
  rw [owned_verts hm hc, ← List.map_uncurry_zip_eq_zipWith, List.map_map, List.countP_map, List.zip_map_left, List.countP_map]
  refine List.countP_congr fun e he => ?_
  obtain ⟨u, o⟩ := e
  have hn := hneed (Prod.map (fun v => (v.globalIndex.toNat, firstTag c x m v)) id (u, o)) (by rw [List.zip_map_left]; exact List.mem_map_of_mem he)
  have hp : 0 ≤ u.globalIndex := hpos _ ((mem_candidates hm c x u).1 (List.of_mem_zip he).1).1
  simp only [Prod.map_apply, id] at hn
  simp only [Function.comp_apply, Bool.and_eq_true, Bool.or_eq_true, Prod.map_apply, id, beq_iff_eq, Function.uncurry_apply_pair]
  constructor
  · rintro ⟨⟨h1, h2⟩, -⟩
    rw [of_decide_eq_true h1]
    exact ⟨rfl, h2⟩
  · rintro ⟨h2, h3⟩
    exact ⟨⟨decide_eq_true (by omega), h3⟩, .inl (hn h3)⟩

/-! ## Theorems -/

/-- With one-level initialization the ranks of a participant distribute a received mesh: every schedule completes; every rank keeps exactly the vertices it accesses
directly or its mappings tag, unchanged and in the order of the received mesh, with the elements all of whose vertices it keeps; vertex distribution and offsets describe
what the ranks have; every vertex needed in the first round has one owner. -/
theorem C112_repartition {m : Mesh (d + 1)} (hm : m.Ok) (hc : m.verts.map core = m.verts) (hn : (ids m).Nodup) (c : Cfg) (x : Fin (n + 1) → Local (d + 1)) (total : ℕ)
    (hid : ∀ v ∈ m.verts, 0 ≤ v.globalIndex ∧ v.globalIndex < total) (hcfg : c.mapped = true ∨ c.direct = true)
    (hp : c.filter ≠ .none → ∀ r, (x r).provided = true → ∃ v ∈ m.verts, inside (prepareBox c (x r)) v = true)
    (hneed : ∃ r, ∃ v ∈ m.verts, Reach c (x r) v = true ∧ (Accessed c (x r) v || (x r).tag1 (seen c (x r) m) v.globalIndex) = true) :
    ∃ second res, RNet.AlwaysCompletes (fun r => compute c total (x r) r (start m r)) res ∧ Repartitioned c x m (fun r => seen c (x r) m) second res := by
  obtain ⟨own, ho, hone⟩ := C58_one_owner total (fun r => ownerView (tagFirst c (x r) (candidates c (x r) m))) (by
      intro r e he
      rw [ownerView_eq hm hc] at he
      obtain ⟨v, hv, rfl⟩ := List.mem_map.1 he
      have := hid v ((mem_candidates hm c (x r) v).1 hv).1
      simp only
      omega) (by
      obtain ⟨r, v, hv, hr, ht⟩ := hneed
      refine ⟨r, v.globalIndex.toNat, ?_⟩
      rw [ownerView_eq hm hc]
      refine List.mem_map.2 ⟨v, (mem_candidates hm c (x r) v).2 ⟨hv, hr⟩, ?_⟩
      unfold firstTag
      rw [ht])
  have hl : ∀ r, (own r).length = (candidates c (x r) m).verts.length := by
    intro r
    rw [hone.length r, ownerView_eq hm hc, List.length_map]
  refine ⟨fun r => owned c (x r) m (own r), _, compute_completes hm hc c x total hcfg ?_ ho hl, ?_⟩
  · intro hf r hr
    obtain ⟨v, hv, hi⟩ := hp hf r hr
    exact List.ne_nil_of_mem ((mem_candidates hm c (x r) v).2 ⟨hv, by unfold Reach; rw [hi, Bool.or_true]⟩)
  · refine ⟨fun r => seen_restricts hm hn c (x r), fun r => owned_restricts hm hn (hl r), fun r => ?_, fun r => filter_ok (tagged_ok (owned_ok hm (hl r)) _) _, fun r => rfl, fun r s => ?_, fun r => ?_, fun v hv => ?_⟩
    · exact kept_restricts hm hc hn (hl r)
    · rw [offsets_get _ s.isLt]
      congr 1
      unfold before
      refine Finset.sum_congr rfl fun i _ => ?_
      simp only [Fin.le_def]
      exact if_congr (by omega) rfl rfl
    · simp [offsetsOf]
    · have hs : ∀ r, (kept c (x r) m (own r)).verts.countP (fun w => decide (w.globalIndex = v.globalIndex) && w.owner) =
          ownedCount v.globalIndex.toNat (ownerView (tagFirst c (x r) (candidates c (x r) m))) (own r) := fun r =>
        kept_owned hm hc (hl r) (hone.needed r) (fun v hv => (hid v hv).1) (hid v hv).1
      simp only [hs]
      rw [hone.count]
      refine if_congr (exists_congr fun r => ?_) rfl rfl
      rw [ownerView_eq hm hc, List.mem_map]
      constructor
      · rintro ⟨w, hw, he⟩
        obtain ⟨hwm, hwr⟩ := (mem_candidates hm c (x r) w).1 hw
        simp only [Prod.mk.injEq] at he
        have hg : w.globalIndex = v.globalIndex := by
          have h1 := (hid w hwm).1
          have h2 := (hid v hv).1
          omega
        have : w = v := List.inj_on_of_nodup_map hn hwm hv hg
        subst this
        exact ⟨hwr, he.2⟩
      · rintro ⟨hr, ht⟩
        exact ⟨v, (mem_candidates hm c (x r) v).2 ⟨hv, hr⟩, by unfold firstTag; rw [ht]⟩

end Verif.Repartition
