import Verif.Dist.TwoLevelCompute

/-!
# Property C116: two-level initialization, the meshes
-/

set_option autoImplicit false

namespace Verif.TwoLevelInit

open Verif.Dist Verif.Com Verif.Repartition

variable {d p n : ℕ}

/-! ## Specification -/

/-- What the ranks know after `compareBoundingBoxes` and `communicate`: both sides agree on which ranks are connected; a rank of the receiver has got the first and the last
global ID of every rank it is connected to, and the meshes of these ranks, one after the other in the order of the ranks (`appended`, see C66). -/
structure Connected (m : Fin (p + 1) → Mesh d) (link : Fin (p + 1) → Fin (n + 1) → Prop) (res : Ranks p n → List (Fin (n + 1)) ⊕ Got d p) : Prop where
  provider : ∀ r, ∃ l, res (.inl r) = .inl l ∧ l.Pairwise (· < ·) ∧ ∀ q, q ∈ l ↔ link r q
  receiver : ∀ q, ∃ g, res (.inr q) = .inr g ∧ g.conn.Pairwise (· < ·) ∧ (∀ r, r ∈ g.conn ↔ link r q) ∧
    g.mins = g.conn.map (fun r => ((before (fun s => (m s).verts.length) r.val : ℕ) : ℤ)) ∧
    g.maxs = g.conn.map (fun r => ((before (fun s => (m s).verts.length) r.val : ℕ) : ℤ) + (m r).verts.length - 1) ∧
    g.mesh.verts = g.conn.flatMap (fun r => (m r).verts.map core) ∧ g.mesh = (g.conn.map m).foldl appended (Mesh.empty d) ∧ g.total = ∑ r, (m r).verts.length

/-- The meshes the mappings of the ranks see in the two rounds and the meshes the ranks get belong to the distribution of `m`; see `Verif.Repartition.Repartitioned` for one-level
initialization. -/
structure Distributed (c : Cfg) (x : Fin (n + 1) → Local (d + 1)) (m : Mesh (d + 1)) (first second res : Fin (n + 1) → Mesh (d + 1)) : Prop where
  seen1 : ∀ r, Restricts (first r) m (Reach c (x r))
  seen2 : ∀ r, Restricts (second r) m (Reach c (x r))
  mesh : ∀ r, Restricts (res r) m fun v => Reach c (x r) v && (Accessed c (x r) v || (x r).tag1 (first r) v.globalIndex || (x r).tag2 (second r) v.globalIndex)
  ok : ∀ r, (res r).Ok
  owner : ∀ v ∈ m.verts, ∑ r, (res r).verts.countP (fun w => decide (w.globalIndex = v.globalIndex) && w.owner) =
    if ∃ r, Reach c (x r) v = true ∧ (Accessed c (x r) v || (x r).tag1 (first r) v.globalIndex) = true then 1 else 0

/-! ## Theorems -/

theorem sorted_filter {k : ℕ} (f : Fin k → Bool) : ((List.finRange k).filter f).Pairwise (· < ·) :=
  (List.pairwise_lt_finRange k).sublist List.filter_sublist

/-- If some bounding boxes overlap, all ranks of both participants complete the first part of two-level initialization. Ranks are connected if and only if their bounding boxes
overlap, both sides agree on it. -/
theorem C116_connect (box : Fin (p + 1) → Box d) (bb : Fin (n + 1) → Box d) (m : Fin (p + 1) → Mesh d) (h : ∃ r q, (bb q).overlapping (box r) = true) :
    ∃ res, RNet.AlwaysCompletes (setup box bb (∑ r, (m r).verts.length) (offsetsOf (fun r => (m r).verts.length) (p + 1)) m) res ∧
      Connected m (fun r q => (bb q).overlapping (box r) = true) res := by
  refine ⟨_, setup_completes box bb _ _ m h, fun r => ⟨_, rfl, sorted_filter _, fun q => by simp⟩, fun q => ⟨_, rfl, sorted_filter _, fun r => by simp, ?_, ?_, ?_, rfl, rfl⟩⟩
  · refine List.map_congr_left fun r _ => ?_
    have := before_succ (fun s => (m s).verts.length) r
    rw [List.getD_eq_getElem?_getD, offsets_get _ r.isLt, Option.getD_some, this]
    push_cast
    omega
  · refine List.map_congr_left fun r _ => ?_
    have := before_succ (fun s => (m s).verts.length) r
    rw [List.getD_eq_getElem?_getD, offsets_get _ r.isLt, Option.getD_some, this]
    push_cast
    omega
  · rw [foldl_verts, List.flatMap_map]
    rfl

/-- Ranks with a vertex in both boxes are connected. -/
theorem C116_link (box : Fin (p + 1) → Box d) (bb : Fin (n + 1) → Box d) (m : Fin (p + 1) → Mesh d) (hbox : ∀ r, ∀ v ∈ (m r).verts, (box r).contains v.coords = true)
    {r : Fin (p + 1)} {q : Fin (n + 1)} {v : Vertex d} (hv : v ∈ (m r).verts) (hq : (bb q).contains v.coords = true) : (bb q).overlapping (box r) = true :=
  overlapping_of_common hq (hbox r v hv)

/-- With two-level initialization and the geometric filter on the secondary ranks, the ranks distribute the mesh of the provider as with one-level initialization: every rank keeps
exactly the vertices it accesses directly or its mappings tag, although it only gets the parts whose boxes overlap its own; every vertex needed in the first round has one
owner. -/
theorem C116_repartition {m : Fin (p + 1) → Mesh (d + 1)} (hm : ∀ r, (m r).Ok) (hnum : Numbered m) (box : Fin (p + 1) → Box (d + 1))
    (hbox : ∀ r, ∀ v ∈ (m r).verts, (box r).contains v.coords = true) (pos : ℕ → Pt (d + 1)) (hpos : ∀ v ∈ (whole m).verts, pos v.globalIndex.toNat = v.coords)
    (c : Cfg) (hf : c.filter = .onSecondary) (x : Fin (n + 1) → Local (d + 1)) (hcfg : c.mapped = true ∨ c.direct = true)
    (hp : ∀ r, (x r).provided = true → ∃ v ∈ (whole m).verts, inside (prepareBox c (x r)) v = true) :
    ∃ second res, Net.AlwaysCompletes (RNet.toNet fun r => computeTwoLevel c pos (x r) r (gotten box (prepareBox c (x r)) m)) res ∧
      Distributed c x (whole m) (fun r => seen c (x r) (whole m)) second res := by
  have hw := whole_ok hm
  have hc := whole_core m
  have hn := ids_whole hnum
  have hcand := fun r => candidates_gotten box hm hbox hf (x r)
  have hview := fun r => ownerView_eq hw hc c (x r)
  obtain ⟨own, ho, hone⟩ := C59_one_owner_partial pos (fun r => prepareBox c (x r)) (fun r => ownerView (tagFirst c (x r) (candidates c (x r) (whole m)))) (by
    intro r
    rw [hview, List.map_map]
    have h1 : (candidates c (x r) (whole m)).verts.map ((fun v : ℕ × Bool => v.1) ∘ fun v => (v.globalIndex.toNat, firstTag c (x r) (whole m) v)) =
        gids (candidates c (x r) (whole m)) := rfl
    rw [h1]
    have h2 : (gids (whole m)).Pairwise (· < ·) := by
      rw [gids_whole hnum]
      exact List.pairwise_lt_range
    refine h2.sublist ?_
    unfold gids
    refine List.Sublist.map _ ?_
    unfold candidates
    rw [if_neg (by rw [hf]; decide)]
    obtain ⟨h3, -⟩ := Mesh.C41_filter (Mesh.empty (d + 1)) (whole m) hw (inside (prepareBox c (x r)))
    rw [h3]
    exact List.filter_sublist)
  have hall : ∀ r, Dist.filterByBox pos (prepareBox c (x r)) (ownerView (tagFirst c (x r) (candidates c (x r) (whole m)))) = ownerView (tagFirst c (x r) (candidates c (x r) (whole m))) := by
    intro r
    unfold Dist.filterByBox
    rw [List.filter_eq_self]
    intro e he
    rw [hview] at he
    obtain ⟨v, hv, rfl⟩ := List.mem_map.1 he
    obtain ⟨h1, h2⟩ := (mem_candidates hw c (x r) v).1 hv
    simp only [hpos v h1]
    unfold Reach at h2
    rw [hf] at h2
    simpa [inside] using h2
  simp only [hall] at ho hone
  have hl : ∀ r, (own r).length = (candidates c (x r) (whole m)).verts.length := by
    intro r
    rw [hone.length r, hview, List.length_map]
  have hk : ∀ r, kept c (x r) (gotten box (prepareBox c (x r)) m) (own r) = kept c (x r) (whole m) (own r) := by
    intro r
    unfold kept owned
    rw [hcand]
  refine ⟨fun r => owned c (x r) (whole m) (own r), fun r => kept c (x r) (whole m) (own r), ?_, ?_⟩
  · have := computeTwoLevel_completes (m := fun r => gotten box (prepareBox c (x r)) m) (fun r => gotten_ok box _ hm) c pos x hcfg (by rw [hf]; decide) (by
      intro _ r hr
      rw [hcand]
      obtain ⟨v, hv, hi⟩ := hp r hr
      exact List.ne_nil_of_mem ((mem_candidates hw c (x r) v).2 ⟨hv, by unfold Reach; rw [hi, Bool.or_true]⟩)) (own := own) (by
      simp only [hcand]
      exact ho) (fun r => by rw [hcand]; exact hl r)
    simp only [hk] at this
    exact this
  · refine ⟨fun r => seen_restricts hw hn c (x r), fun r => owned_restricts hw hn (hl r), fun r => kept_restricts hw hc hn (hl r), fun r => filter_ok (tagged_ok (owned_ok hw (hl r)) _) _,
      fun v hv => ?_⟩
    have hs : ∀ r, (kept c (x r) (whole m) (own r)).verts.countP (fun w => decide (w.globalIndex = v.globalIndex) && w.owner) =
        ownedCount v.globalIndex.toNat (ownerView (tagFirst c (x r) (candidates c (x r) (whole m)))) (own r) := fun r =>
      kept_owned hw hc (hl r) (hone.needed r) (whole_pos hnum) (whole_pos hnum v hv)
    simp only [hs]
    rw [hone.count]
    refine if_congr (exists_congr fun r => ?_) rfl rfl
    rw [hview, List.mem_map]
    constructor
    · rintro ⟨w, hw', he⟩
      obtain ⟨hwm, hwr⟩ := (mem_candidates hw c (x r) w).1 hw'
      simp only [Prod.mk.injEq] at he
      have hg : w.globalIndex = v.globalIndex := by
        have h1 := whole_pos hnum w hwm
        have h2 := whole_pos hnum v hv
        omega
      have : w = v := List.inj_on_of_nodup_map hn hwm hv hg
      subst this
      exact ⟨hwr, he.2⟩
    · rintro ⟨hr, ht⟩
      exact ⟨v, (mem_candidates hw c (x r) v).2 ⟨hv, hr⟩, by unfold firstTag; rw [ht]⟩

/-- If the mappings do not look at who owns a vertex when they tag, the meshes of the ranks have the same vertices and elements with one-level and with two-level
initialization. -/
theorem C116_same_as_one_level {m : Fin (p + 1) → Mesh (d + 1)} (hm : ∀ r, (m r).Ok) (hnum : Numbered m) (box : Fin (p + 1) → Box (d + 1))
    (hbox : ∀ r, ∀ v ∈ (m r).verts, (box r).contains v.coords = true) (pos : ℕ → Pt (d + 1)) (hpos : ∀ v ∈ (whole m).verts, pos v.globalIndex.toNat = v.coords)
    (c : Cfg) (hf : c.filter = .onSecondary) (x : Fin (n + 1) → Local (d + 1)) (hcfg : c.mapped = true ∨ c.direct = true)
    (hp : ∀ r, (x r).provided = true → ∃ v ∈ (whole m).verts, inside (prepareBox c (x r)) v = true)
    (htag : ∀ r a b, a.verts.map core = b.verts.map core → a.edges.map (named a) = b.edges.map (named b) → a.tris.map (named a) = b.tris.map (named b) →
      a.tets.map (named a) = b.tets.map (named b) → (x r).tag2 a = (x r).tag2 b)
    (hneed : ∃ r, ∃ v ∈ (whole m).verts, Reach c (x r) v = true ∧ (Accessed c (x r) v || (x r).tag1 (seen c (x r) (whole m)) v.globalIndex) = true) :
    ∃ two one, Net.AlwaysCompletes (RNet.toNet fun r => computeTwoLevel c pos (x r) r (gotten box (prepareBox c (x r)) m)) two ∧
      RNet.AlwaysCompletes (fun r => compute c (∑ r, (m r).verts.length) (x r) r (start (whole m) r)) one ∧
      ∀ r, (two r).verts.map core = (one r).mesh.verts.map core ∧ (two r).edges.map (named (two r)) = (one r).mesh.edges.map (named (one r).mesh) ∧
        (two r).tris.map (named (two r)) = (one r).mesh.tris.map (named (one r).mesh) ∧ (two r).tets.map (named (two r)) = (one r).mesh.tets.map (named (one r).mesh) := by
  have hid : ∀ v ∈ (whole m).verts, 0 ≤ v.globalIndex ∧ v.globalIndex < ((∑ r, (m r).verts.length : ℕ) : ℤ) := by
    intro v hv
    refine ⟨whole_pos hnum v hv, ?_⟩
    have h1 : v.globalIndex.toNat ∈ gids (whole m) := List.mem_map.2 ⟨v, hv, rfl⟩
    rw [gids_whole hnum, List.mem_range] at h1
    have := whole_pos hnum v hv
    omega
  obtain ⟨s2, two, h2, d2⟩ := C116_repartition hm hnum box hbox pos hpos c hf x hcfg hp
  obtain ⟨s1, one, h1, d1⟩ := C112_repartition (whole_ok hm) (whole_core m) (ids_whole hnum) c x _ hid hcfg (fun _ => hp) hneed
  refine ⟨two, one, h2, h1, fun r => ?_⟩
  have e : (x r).tag2 (s2 r) = (x r).tag2 (s1 r) := by
    have a2 := d2.seen2 r
    have a1 := d1.seen2 r
    have hi : ids (s2 r) = ids (s1 r) := by rw [ids_core, ids_core, a2.verts, a1.verts]
    exact htag r _ _ (a2.verts.trans a1.verts.symm) (by rw [a2.edges, a1.edges, hi]) (by rw [a2.tris, a1.tris, hi]) (by rw [a2.tets, a1.tets, hi])
  have a2 := d2.mesh r
  have a1 := d1.mesh r
  rw [e] at a2
  have hi : ids (two r) = ids (one r).mesh := by rw [ids_core, ids_core, a2.verts, a1.verts]
  exact ⟨a2.verts.trans a1.verts.symm, by rw [a2.edges, a1.edges, hi], by rw [a2.tris, a1.tris, hi], by rw [a2.tets, a1.tets, hi]⟩

end Verif.TwoLevelInit
