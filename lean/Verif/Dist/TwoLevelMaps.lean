import Verif.Dist.TwoLevelProps
import Verif.Dist.PointToPoint

/-!
# Communication maps and data transfer with two-level initialization (C116)

Model of step (6) of `ReceivedPartition::compute` (`/repo/src/partition/ReceivedPartition.cpp:176-204`), of `scatterAllCommunicationMap` and `gatherAllCommunicationMap`
(`/repo/src/m2n/PointToPointCommunication.cpp:688-700`; called in `ProvidedPartition::compute`, `/repo/src/partition/ProvidedPartition.cpp:230-242`) and of
`completeSecondaryRanksConnection` (586-593). `send` and `receive` are `Verif.Dist.p2pSend` and `Verif.Dist.p2pReceive`.
-/

set_option autoImplicit false

namespace Verif.TwoLevelInit

open Verif.Dist Verif.Com Verif.Repartition Ordered

variable {d p n : ℕ}

/-- The two maps of the receiver, ReceivedPartition.cpp:183-201: for a connected rank the local indices (first) and the indices on the connected rank (second). -/
def commMaps (g : Got d p) (m : Mesh d) : Fin (p + 1) → List (ℕ × ℤ) :=
  m.verts.zipIdx.foldl (fun s v => (List.range g.conn.length).foldl (fun s k =>
    if v.1.globalIndex ≤ g.maxs.getD k 0 ∧ g.mins.getD k 0 ≤ v.1.globalIndex then
      Function.update s (g.conn.getD k 0) (s (g.conn.getD k 0) ++ [(v.2, v.1.globalIndex - g.mins.getD k 0)])
    else s) s) fun _ => []

/-- The receiver sends what the connected ranks have to communicate, `scatterAllCommunicationMap`; its mappings are those of `completeSecondaryRanksConnection`. -/
def sendMaps (g : Got d p) (m : Mesh d) : Do d p n (List (Fin (p + 1) × List ℕ)) :=
  (collect (fun r => .send (.inl r) (.ids ((commMaps g m r).map (·.2))) (.ret ())) g.conn).bind fun _ =>
  .ret (g.conn.map fun r => (r, (commMaps g m r).map (·.1)))

/-- The provider gets its map, `gatherAllCommunicationMap`. Negative indices would be out of range. -/
def receiveMaps (conn : List (Fin (n + 1))) : Do d p n (List (Fin (n + 1) × List ℕ)) :=
  collect (fun q => getIds (.inr q) fun l => (Prog.ensure .assert (∀ i ∈ l, 0 ≤ i) (.ret (q, l.map Int.toNat)))) conn

/-- The exchange of the maps: `res` is what the ranks know after `setup`, `m` are the meshes of the receiver. -/
def exchangeMaps (m : Fin (n + 1) → Mesh d) (res : Ranks p n → List (Fin (n + 1)) ⊕ Got d p) : Ranks p n → Do d p n (List (Fin (n + 1) × List ℕ) ⊕ List (Fin (p + 1) × List ℕ))
  | .inl r => match res (.inl r) with
    | .inl conn => (receiveMaps conn).bind fun l => .ret (.inl l)
    | .inr _ => .fail .assert
  | .inr q => match res (.inr q) with
    | .inr g => (sendMaps g (m q)).bind fun l => .ret (.inr l)
    | .inl _ => .fail .assert

/-! ## Specification -/

/-- The indices `ia` into `as` and `ib` into `bs` list the common vertices of `as` and `bs`, in the same order. -/
structure Fit (as bs ia ib : List ℕ) : Prop where
  same : ia.map (fun i => as[i]?) = ib.map fun i => bs[i]?
  left : ∀ i ∈ ia, i < as.length
  right : ∀ i ∈ ib, i < bs.length
  nodup : ia.Nodup ∧ ib.Nodup
  all : ∀ g, g ∈ as → g ∈ bs → some g ∈ ia.map fun i => as[i]?

theorem Fit.symm {as bs ia ib : List ℕ} (h : Fit as bs ia ib) : Fit bs as ib ia :=
  ⟨h.same.symm, h.right, h.left, h.nodup.symm, fun g h1 h2 => by rw [← h.same]; exact h.all g h2 h1⟩

/-! ## The maps -/

/-- The entries of the maps for a connected rank. -/
def entries (lo hi : ℤ) (l : List (Vertex d × ℕ)) : List (ℕ × ℤ) := (l.filter fun v => decide (v.1.globalIndex ≤ hi ∧ lo ≤ v.1.globalIndex)).map fun v => (v.2, v.1.globalIndex - lo)

theorem commMaps_inner (conn : List (Fin (p + 1))) (hn : conn.Nodup) (lo hi : Fin (p + 1) → ℤ) (v : Vertex d × ℕ) (s : Fin (p + 1) → List (ℕ × ℤ)) : ∀ j, j ≤ conn.length →
    (List.range j).foldl (fun s k =>
      if v.1.globalIndex ≤ (conn.map hi).getD k 0 ∧ (conn.map lo).getD k 0 ≤ v.1.globalIndex then
        Function.update s (conn.getD k 0) (s (conn.getD k 0) ++ [(v.2, v.1.globalIndex - (conn.map lo).getD k 0)])
      else s) s = fun r => if r ∈ conn.take j then s r ++ entries (lo r) (hi r) [v] else s r := by
  intro j
  induction j with
  | zero => intro _; simp
  | succ j ih =>
    intro hj
    have hlt : j < conn.length := hj
    rw [List.range_succ, List.foldl_append, ih (by omega), List.foldl_cons, List.foldl_nil]
    have e1 : (conn.map hi).getD j 0 = hi conn[j] := by simp [List.getD_eq_getElem?_getD, hlt]
    have e2 : (conn.map lo).getD j 0 = lo conn[j] := by simp [List.getD_eq_getElem?_getD, hlt]
    have e3 : conn.getD j 0 = conn[j] := by simp [List.getD_eq_getElem?_getD, hlt]
    have hnot : conn[j] ∉ conn.take j := by
      intro hm
      obtain ⟨i, hi', he⟩ := List.mem_take_iff_getElem.1 hm
      have := (List.Nodup.getElem_inj_iff hn).1 he
      omega
    have htake : ∀ r, r ∈ conn.take (j + 1) ↔ r ∈ conn.take j ∨ r = conn[j] := by
      intro r
      rw [List.take_add_one, List.getElem?_eq_getElem hlt, List.mem_append, Option.toList_some, List.mem_singleton]
    rw [e1, e2, e3]
    funext r
    by_cases hr : r = conn[j]
    · rw [if_pos ((htake r).2 (.inr hr)), hr]
      split
      · rename_i h
        rw [Function.update_self]
        simp only [if_neg hnot]
        simp [entries, h]
      · rename_i h
        simp only [if_neg hnot]
        simp [entries, h]
    · have : (r ∈ conn.take (j + 1)) ↔ r ∈ conn.take j := by rw [htake]; simp [hr]
      rw [if_congr this rfl rfl]
      split
      · rw [Function.update_of_ne hr]
      · rfl

theorem commMaps_eq (g : Got d p) (hn : g.conn.Nodup) (lo hi : Fin (p + 1) → ℤ) (hlo : g.mins = g.conn.map lo) (hhi : g.maxs = g.conn.map hi) (m : Mesh d) (r : Fin (p + 1))
    (hr : r ∈ g.conn) : commMaps g m r = entries (lo r) (hi r) m.verts.zipIdx := by
  have key : ∀ (l : List (Vertex d × ℕ)) (s : Fin (p + 1) → List (ℕ × ℤ)), l.foldl (fun s v => (List.range g.conn.length).foldl (fun s k =>
      if v.1.globalIndex ≤ g.maxs.getD k 0 ∧ g.mins.getD k 0 ≤ v.1.globalIndex then
        Function.update s (g.conn.getD k 0) (s (g.conn.getD k 0) ++ [(v.2, v.1.globalIndex - g.mins.getD k 0)])
      else s) s) s r = s r ++ entries (lo r) (hi r) l := by
    intro l
    induction l with
    | nil => intro s; simp [entries]
    | cons v l ih =>
      intro s
      rw [List.foldl_cons, ih, hlo, hhi, commMaps_inner g.conn hn lo hi v s _ le_rfl, List.take_of_length_le le_rfl]
      simp only [if_pos hr]
      rw [List.append_assoc]
      congr 1
      unfold entries
      rw [← List.map_append, ← List.filter_append]
      rfl
  exact (key _ _).trans (List.nil_append _)

theorem idsFrom_get {a k i : ℕ} (h : i < k) : (idsFrom a k)[i]? = some (a + i) := by
  unfold idsFrom
  rw [List.getElem?_map, List.getElem?_range h]
  rfl

theorem mem_entries {lo hi : ℤ} {m : Mesh d} {x : ℕ × ℤ} :
    x ∈ entries lo hi m.verts.zipIdx ↔ ∃ v, m.verts[x.1]? = some v ∧ v.globalIndex ≤ hi ∧ lo ≤ v.globalIndex ∧ x.2 = v.globalIndex - lo := by
  unfold entries
  obtain ⟨i, z⟩ := x
  simp only [List.mem_map, List.mem_filter, decide_eq_true_eq, Prod.exists, Prod.mk.injEq]
  constructor
  · rintro ⟨v, j, ⟨hm, h1, h2⟩, rfl, rfl⟩
    exact ⟨v, List.mem_zipIdx_iff_getElem?.1 hm, h1, h2, rfl⟩
  · rintro ⟨v, hv, h1, h2, rfl⟩
    exact ⟨v, i, ⟨List.mem_zipIdx_iff_getElem?.2 hv, h1, h2⟩, rfl, rfl⟩

/-- The maps list the common vertices. -/
theorem entries_fit {m fm : Mesh d} {a : ℕ} (hg : gids m = idsFrom a m.verts.length) (hn : (gids fm).Nodup) (hpos : ∀ v ∈ fm.verts, 0 ≤ v.globalIndex) :
    Fit (gids m) (gids fm) ((entries a (a + m.verts.length - 1) fm.verts.zipIdx).map (Int.toNat ∘ (·.2))) ((entries a (a + m.verts.length - 1) fm.verts.zipIdx).map (·.1)) := by
  have hl : (gids m).length = m.verts.length := by simp [gids]
  have hl' : (gids fm).length = fm.verts.length := by simp [gids]
  have key : ∀ x ∈ entries a (a + m.verts.length - 1) fm.verts.zipIdx, ∃ v, fm.verts[x.1]? = some v ∧ v.globalIndex.toNat = a + x.2.toNat ∧ x.2.toNat < m.verts.length := by
    intro x hx
    obtain ⟨v, hv, h1, h2, h3⟩ := mem_entries.1 hx
    refine ⟨v, hv, ?_, ?_⟩ <;> omega
  have hb : ∀ x ∈ entries a (a + m.verts.length - 1) fm.verts.zipIdx, (gids fm)[x.1]? = some (a + x.2.toNat) := by
    intro x hx
    obtain ⟨v, hv, h1, h2⟩ := key x hx
    unfold gids
    rw [List.getElem?_map, hv, Option.map_some, h1]
  have ha : ∀ x ∈ entries a (a + m.verts.length - 1) fm.verts.zipIdx, (gids m)[x.2.toNat]? = some (a + x.2.toNat) := by
    intro x hx
    obtain ⟨v, hv, h1, h2⟩ := key x hx
    rw [hg, idsFrom_get h2]
  have n1 : ((entries a (a + m.verts.length - 1) fm.verts.zipIdx).map (·.1)).Nodup := by
    unfold entries
    rw [List.map_map]
    have h1 : (fm.verts.zipIdx.map Prod.snd).Nodup := by
      rw [List.zipIdx_map_snd]
      exact List.nodup_range' (step := 1)
    exact h1.sublist (List.filter_sublist.map _)
  have n2 : (entries a (a + m.verts.length - 1) fm.verts.zipIdx).Nodup := List.Nodup.of_map _ n1
  refine ⟨?_, ?_, ?_, ⟨?_, n1⟩, ?_⟩
  · rw [List.map_map, List.map_map]
    refine List.map_congr_left fun x hx => ?_
    simp only [Function.comp_apply]
    rw [ha x hx, hb x hx]
  · intro i hi
    obtain ⟨x, hx, rfl⟩ := List.mem_map.1 hi
    rw [hl]
    obtain ⟨v, hv, h1, h2⟩ := key x hx
    exact h2
  · intro i hi
    obtain ⟨x, hx, rfl⟩ := List.mem_map.1 hi
    exact (List.getElem?_eq_some_iff.1 (hb x hx)).1
  · refine (List.nodup_map_iff_inj_on n2).2 fun x hx y hy e => ?_
    simp only [Function.comp_apply] at e
    have e1 := hb x hx
    have e2 := hb y hy
    rw [← e] at e2
    have e3 : x.1 = y.1 := by
      obtain ⟨p1, q1⟩ := List.getElem?_eq_some_iff.1 e1
      obtain ⟨p2, q2⟩ := List.getElem?_eq_some_iff.1 e2
      exact (List.Nodup.getElem_inj_iff hn).1 (q1.trans q2.symm)
    obtain ⟨v, hv, h1, h2, h3⟩ := mem_entries.1 hx
    obtain ⟨w, hw, h4, h5, h6⟩ := mem_entries.1 hy
    rw [e3, hw] at hv
    cases hv
    exact Prod.ext e3 (by omega)
  · intro g h1 h2
    rw [hg, mem_idsFrom] at h1
    unfold gids at h2
    obtain ⟨v, hv, rfl⟩ := List.mem_map.1 h2
    obtain ⟨i, hi⟩ := List.mem_iff_getElem?.1 hv
    have hp := hpos v hv
    refine List.mem_map.2 ⟨(v.globalIndex - a).toNat, List.mem_map.2 ⟨(i, v.globalIndex - a), mem_entries.2 ⟨v, hi, by omega, by omega, rfl⟩, rfl⟩, ?_⟩
    rw [hg, idsFrom_get (by omega)]
    congr 1
    omega

theorem eq_filter {k : ℕ} {l : List (Fin k)} (hs : l.Pairwise (· < ·)) {f : Fin k → Bool} (h : ∀ q, q ∈ l ↔ f q = true) : l = (List.finRange k).filter f := by
  refine List.Perm.eq_of_pairwise (le := (· < ·)) (fun a b _ _ h1 h2 => absurd h1 (not_lt_of_gt h2)) hs (sorted_filter f) ?_
  refine (List.perm_ext_iff_of_nodup (hs.imp fun h => ne_of_lt h) ((sorted_filter f).imp fun h => ne_of_lt h)).2 fun q => ?_
  rw [h q]
  simp

/-- What the ranks use for the communication after initialization: both sides have an entry for a rank if and only if they are connected. -/
structure Mapped (m : Fin (p + 1) → Mesh d) (fm : Fin (n + 1) → Mesh d) (link : Fin (p + 1) → Fin (n + 1) → Prop)
    (maps : Ranks p n → List (Fin (n + 1) × List ℕ) ⊕ List (Fin (p + 1) × List ℕ)) : Prop where
  ex : ∃ (cp : Fin (p + 1) → List (Fin (n + 1))) (cr : Fin (n + 1) → List (Fin (p + 1))) (ip : Fin (p + 1) → Fin (n + 1) → List ℕ) (ir : Fin (n + 1) → Fin (p + 1) → List ℕ),
    (∀ r, maps (.inl r) = .inl ((cp r).map fun q => (q, ip r q))) ∧ (∀ q, maps (.inr q) = .inr ((cr q).map fun r => (r, ir q r))) ∧
    (∀ r, (cp r).Nodup ∧ ∀ q, q ∈ cp r ↔ link r q) ∧ (∀ q, (cr q).Nodup ∧ ∀ r, r ∈ cr q ↔ link r q) ∧
    ∀ r q, link r q → Fit (gids (m r)) (gids (fm q)) (ip r q) (ir q r)

/-- The exchange of the communication maps completes and the maps list the common vertices of connected ranks in the same order on both sides. -/
theorem C116_maps {m : Fin (p + 1) → Mesh d} (hnum : Numbered m) (box : Fin (p + 1) → Box d) (bb : Fin (n + 1) → Box d) {res : Ranks p n → List (Fin (n + 1)) ⊕ Got d p}
    (hres : Connected m (fun r q => (bb q).overlapping (box r) = true) res) (fm : Fin (n + 1) → Mesh d) (hn : ∀ q, (gids (fm q)).Nodup)
    (hpos : ∀ q, ∀ v ∈ (fm q).verts, 0 ≤ v.globalIndex) :
    ∃ maps, RNet.AlwaysCompletes (exchangeMaps fm res) maps ∧ Mapped m fm (fun r q => (bb q).overlapping (box r) = true) maps := by
  set lo : Fin (p + 1) → ℤ := fun r => ((before (fun s => (m s).verts.length) r.val : ℕ) : ℤ) with hlo
  set hi : Fin (p + 1) → ℤ := fun r => ((before (fun s => (m s).verts.length) r.val : ℕ) : ℤ) + (m r).verts.length - 1 with hhi
  set E : Fin (p + 1) → Fin (n + 1) → List (ℕ × ℤ) := fun r q => entries (lo r) (hi r) (fm q).verts.zipIdx with hE
  have hEpos : ∀ r q, ∀ x ∈ E r q, 0 ≤ x.2 := by
    intro r q x hx
    obtain ⟨v, -, -, h2, h3⟩ := mem_entries.1 hx
    omega
  have hfit : ∀ r q, Fit (gids (m r)) (gids (fm q)) ((E r q).map (Int.toNat ∘ (·.2))) ((E r q).map (·.1)) := fun r q => entries_fit (gids_part hnum r) (hn q) (hpos q)
  refine ⟨fun
    | .inl r => .inl (((List.finRange (n + 1)).filter fun q => (bb q).overlapping (box r)).map fun q => (q, (E r q).map (Int.toNat ∘ (·.2))))
    | .inr q => .inr (((List.finRange (p + 1)).filter fun r => (bb q).overlapping (box r)).map fun r => (r, (E r q).map (·.1))), ?_,
    ⟨fun r => (List.finRange (n + 1)).filter fun q => (bb q).overlapping (box r), fun q => (List.finRange (p + 1)).filter fun r => (bb q).overlapping (box r),
      fun r q => (E r q).map (Int.toNat ∘ (·.2)), fun q r => (E r q).map (·.1), fun r => rfl, fun q => rfl, fun r => ⟨(List.nodup_finRange _).filter _, fun q => by simp⟩,
      fun q => ⟨(List.nodup_finRange _).filter _, fun r => by simp⟩, fun r q _ => hfit r q⟩⟩
  refine choreo_completes (c := (pairs box bb).map fun x => (.inr x.2, .inl x.1, .ids ((E x.1 x.2).map (·.2)))) ?_ ?_
  · intro x hx
    obtain ⟨y, -, rfl⟩ := List.mem_map.1 hx
    exact Sum.inr_ne_inl
  · rintro (r | q)
    · obtain ⟨l, hl, hs, hm⟩ := hres.provider r
      rw [part_back r fun r q => .ids ((E r q).map (·.2))]
      have hl' := eq_filter hs hm
      simp only [exchangeMaps, hl]
      rw [hl']
      have h1 : Follows (receiveMaps (d := d) (p := p) ((List.finRange (n + 1)).filter fun q => (bb q).overlapping (box r)))
          (((List.finRange (n + 1)).filter fun q => (bb q).overlapping (box r)).map fun q => .recv (.inr q) (.ids ((E r q).map (·.2))))
          (((List.finRange (n + 1)).filter fun q => (bb q).overlapping (box r)).map fun q => (q, (E r q).map (Int.toNat ∘ (·.2)))) := by
        refine follows_ask _ (fun q => .inr q) (fun q => .ids ((E r q).map (·.2))) fun q _ => ?_
        refine Follows.recv _ (Msg.ids ((E r q).map (·.2))) ?_
        have hp : ∀ i ∈ (E r q).map (·.2), 0 ≤ i := by
          intro i hi
          obtain ⟨x, hx, rfl⟩ := List.mem_map.1 hi
          exact hEpos r q x hx
        simp only [Prog.ensure, if_pos hp, List.map_map]
        exact .ret _
      have := h1.bind (f := fun l => .ret (.inl l : List (Fin (n + 1) × List ℕ) ⊕ List (Fin (p + 1) × List ℕ))) (.ret _)
      rwa [List.append_nil] at this
    · obtain ⟨g, hg, hs, hm, hmins, hmaxs, -⟩ := hres.receiver q
      rw [part_back_r q fun r q => .ids ((E r q).map (·.2))]
      have hc := eq_filter hs hm
      have hmap : ∀ r ∈ g.conn, commMaps g (fm q) r = E r q := fun r hr => commMaps_eq g (hs.imp fun h => ne_of_lt h) lo hi hmins hmaxs (fm q) r hr
      simp only [exchangeMaps, hg, sendMaps]
      have h1 := follows_collect (ι := Ranks p n) (M := Msg d p n) (f := fun r => .send (.inl r) (.ids ((commMaps g (fm q) r).map (·.2))) (.ret ()))
        (acts := fun r => [.send (.inl r) (.ids ((E r q).map (·.2)))]) (res := fun _ => ()) g.conn fun r hr => by
          rw [hmap r hr]
          exact .send _ _ (.ret _)
      rw [← List.map_eq_flatMap] at h1
      have h2 : (g.conn.map fun r => (r, (commMaps g (fm q) r).map (·.1))) = ((List.finRange (p + 1)).filter fun r => (bb q).overlapping (box r)).map fun r => (r, (E r q).map (·.1)) := by
        rw [← hc]
        exact List.map_congr_left fun r hr => by rw [hmap r hr]
      rw [h2, ← hc]
      have := (h1.bind (f := fun _ => .ret (g.conn.map fun r => (r, (E r q).map (·.1)))) (.ret _)).bind
        (f := fun l => .ret (.inr l : List (Fin (n + 1) × List ℕ) ⊕ List (Fin (p + 1) × List ℕ))) (.ret _)
      rwa [List.append_nil, List.append_nil] at this

end Verif.TwoLevelInit
