import Verif.Dist.TwoLevelTransfer
import Verif.Net.Never
import Mathlib.Data.Fin.VecNotation
import Mathlib.Tactic.FinCases

/-!
# Property C116: two-level initialization, the whole
-/

set_option autoImplicit false

namespace Verif.TwoLevelInit

open Verif.Dist Verif.Com Verif.Repartition Ordered

variable {d p n : ℕ} {V : Type}

/-- The mappings of a rank of the provider. -/
def provMap (maps : Ranks p n → List (Fin (n + 1) × List ℕ) ⊕ List (Fin (p + 1) × List ℕ)) (r : Fin (p + 1)) : List (Fin (n + 1) × List ℕ) := (maps (.inl r)).elim id fun _ => []

/-- The mappings of a rank of the receiver. -/
def recvMap (maps : Ranks p n → List (Fin (n + 1) × List ℕ) ⊕ List (Fin (p + 1) × List ℕ)) (q : Fin (n + 1)) : List (Fin (p + 1) × List ℕ) := (maps (.inr q)).elim (fun _ => []) id

/-- The mesh a rank of the receiver has got. -/
def gotMesh (res : Ranks p n → List (Fin (n + 1)) ⊕ Got d p) (q : Fin (n + 1)) : Mesh d := (res (.inr q)).elim (fun _ => Mesh.empty d) fun g => g.mesh

/-- Data of `b` components arrives by global IDs: for every rank and vertex the sum of the values of all sending ranks that have it. -/
def Arrives [AddCommMonoid V] {k l : ℕ} (b : ℕ) (dist : Fin (k + 1) → List ℕ) (dist' : Fin (l + 1) → List ℕ) (net : (Fin (k + 1) → Arr V) → (Fin (l + 1) → Arr V) → Net (Ranks k l) (Arr V) (Arr V)) :
    Prop :=
  ∀ (items : Fin (k + 1) → Arr V) (buf : Fin (l + 1) → Arr V), (∀ r, (items r).size = (dist r).length * b) → (∀ s, (buf s).size = (dist' s).length * b) →
    ∃ res, Net.AlwaysCompletes (net items buf) res ∧ (∀ r, res (.inl r) = items r) ∧ ∀ s, (res (.inr s)).size = (dist' s).length * b ∧
      ((∃ r, ∃ g ∈ dist' s, g ∈ dist r) → ∀ i g j, (dist' s)[i]? = some g → j < b → (res (.inr s)).get (b * i + j) = globalValue b dist (fun r => (items r).get) g j)

theorem arrives [AddCommMonoid V] {k l : ℕ} {b : ℕ} (hb : 0 < b) {dist : Fin (k + 1) → List ℕ} {dist' : Fin (l + 1) → List ℕ} {cs : Fin (k + 1) → List (Fin (l + 1))}
    {cr : Fin (l + 1) → List (Fin (k + 1))} {is : Fin (k + 1) → Fin (l + 1) → List ℕ} {ir : Fin (l + 1) → Fin (k + 1) → List ℕ}
    (hns : ∀ r, (cs r).Nodup) (hnr : ∀ s, (cr s).Nodup) (hsym : ∀ r s, s ∈ cs r ↔ r ∈ cr s) (hfit : ∀ r s, s ∈ cs r → Fit (dist r) (dist' s) (is r s) (ir s r))
    (hd : ∀ r, (dist r).Nodup) (hd' : ∀ s, (dist' s).Nodup) (hapart : ∀ r s, s ∉ cs r → ∀ g ∈ dist' s, g ∉ dist r) (hempty : ∀ r s, s ∈ cs r → (dist r = [] ↔ dist' s = [])) :
    Arrives (V := V) b dist dist' fun items buf => RNet.toNet (transferWith b (fun r => (cs r).map fun s => (s, is r s)) (fun s => (cr s).map fun r => (r, ir s r)) items buf) := by
  intro items buf hi hbuf
  refine ⟨_, transfer_completes b cs cr is ir items buf hns hnr hsym ?_ ?_, fun _ => rfl, fun s => ⟨?_, ?_⟩⟩
  · intro r s h
    have := congrArg List.length (hfit r s h).same
    simpa using this
  · intro r s h
    rw [hi, hbuf, Nat.mul_eq_zero, Nat.mul_eq_zero, List.length_eq_zero_iff, List.length_eq_zero_iff, hempty r s h]
  · show (if _ then _ else _ : Arr V).size = _
    split
    · exact hbuf s
    · exact hbuf s
  · rintro ⟨r, g0, h1, h2⟩ i g j hg hj
    have hr : r ∈ cr s := by
      rw [← hsym]
      by_contra h
      exact hapart r s h g0 h1 h2
    have h0 : ¬ (cr s = [] ∨ (buf s).size = 0) := by
      rintro (e | e)
      · rw [e] at hr; simp at hr
      · rw [hbuf, Nat.mul_eq_zero, List.length_eq_zero_iff] at e
        rcases e with e | e
        · rw [e] at hg; simp at hg
        · omega
    show (if _ then _ else _ : Arr V).get _ = _
    rw [if_neg h0]
    exact transfer_value b dist dist' cr is ir items hnr hd hd' (fun s r hr => hfit r s ((hsym r s).2 hr)) (fun s r hr => hapart r s fun h => hr ((hsym r s).1 h)) s hg hj

/-- Two-level initialization as a whole, with the geometric filter on the secondary ranks: the ranks of both participants find their partners by overlapping bounding boxes, the ranks of
the receiver get the parts of the mesh, keep what they need and tell the provider what they keep. Afterwards data arrives by global IDs in both directions, for every
number of components. Assumed: no rank that is connected to one with vertices is left without any (see `C116_empty_rank_waits`). -/
theorem C116_initialized {m : Fin (p + 1) → Mesh (d + 1)} (hm : ∀ r, (m r).Ok) (hnum : Numbered m) (box : Fin (p + 1) → Box (d + 1))
    (hbox : ∀ r, ∀ v ∈ (m r).verts, (box r).contains v.coords = true) (hdef : ∀ r, (m r).verts = [] → box r = Box.default (d + 1))
    (pos : ℕ → Pt (d + 1)) (hpos : ∀ v ∈ (whole m).verts, pos v.globalIndex.toNat = v.coords) (c : Cfg) (hf : c.filter = .onSecondary) (x : Fin (n + 1) → Local (d + 1))
    (hrange : ∀ q i, -dblMax < (prepareBox c (x q)).lo i ∧ (prepareBox c (x q)).hi i < dblMax) (hcfg : c.mapped = true ∨ c.direct = true)
    (hp : ∀ r, (x r).provided = true → ∃ v ∈ (whole m).verts, inside (prepareBox c (x r)) v = true) (hsome : ∃ r q, (prepareBox c (x q)).overlapping (box r) = true) :
    ∃ res fm maps,
      RNet.AlwaysCompletes (setup box (fun q => prepareBox c (x q)) (∑ r, (m r).verts.length) (offsetsOf (fun r => (m r).verts.length) (p + 1)) m) res ∧
      Net.AlwaysCompletes (RNet.toNet fun q => computeTwoLevel c pos (x q) q (gotMesh res q)) fm ∧
      RNet.AlwaysCompletes (exchangeMaps fm res) maps ∧
      (∃ second, Distributed c x (whole m) (fun r => seen c (x r) (whole m)) second fm) ∧
      Mapped m fm (fun r q => (prepareBox c (x q)).overlapping (box r) = true) maps ∧
      ((∀ r q, (prepareBox c (x q)).overlapping (box r) = true → (m r).verts ≠ [] → (fm q).verts ≠ []) → ∀ b, 0 < b → ∀ (V : Type) [AddCommMonoid V],
        Arrives (V := V) b (fun r => gids (m r)) (fun q => gids (fm q)) (fun items buf => RNet.toNet (transferWith b (provMap maps) (recvMap maps) items buf)) ∧
        Arrives (V := V) b (fun q => gids (fm q)) (fun r => gids (m r)) (fun items buf => RNet.toNet (transferWith b (recvMap maps) (provMap maps) items buf))) := by
  obtain ⟨res, hres, hconn⟩ := C116_connect box (fun q => prepareBox c (x q)) m hsome
  obtain ⟨second, fm, hfm, hdist⟩ := C116_repartition (n := n) hm hnum box hbox pos hpos c hf x hcfg hp
  have hgot : ∀ q, gotMesh res q = gotten box (prepareBox c (x q)) m := by
    intro q
    obtain ⟨g, hg, hs, hmem, -, -, -, hmesh, -⟩ := hconn.receiver q
    unfold gotMesh
    rw [hg]
    show g.mesh = _
    rw [hmesh, eq_filter hs hmem]
    rfl
  -- the vertices of the meshes of the receiver
  have hv : ∀ q, ∀ v ∈ (fm q).verts, core v ∈ (whole m).verts ∧ inside (prepareBox c (x q)) v = true := by
    intro q v hv
    have h1 : core v ∈ (fm q).verts.map core := List.mem_map_of_mem hv
    rw [(hdist.mesh q).verts, List.mem_filter, whole_core] at h1
    refine ⟨h1.1, ?_⟩
    have h2 := h1.2
    rw [Bool.and_eq_true] at h2
    have h3 := h2.1
    unfold Reach at h3
    rw [hf] at h3
    have h4 : inside (prepareBox c (x q)) (core v) = true := by simpa using h3
    exact h4
  have hfpos : ∀ q, ∀ v ∈ (fm q).verts, 0 ≤ v.globalIndex := fun q v h => whole_pos hnum (core v) (hv q v h).1
  have hfn : ∀ q, (gids (fm q)).Nodup := by
    intro q
    have h1 := (hdist.mesh q).nodup (ids_whole hnum)
    rw [ids_gids (hfpos q)] at h1
    exact List.Nodup.of_map _ h1
  have hmn : ∀ r, (gids (m r)).Nodup := by
    intro r
    rw [gids_part hnum]
    unfold idsFrom
    exact List.nodup_range.map fun a b e => by simpa using e
  obtain ⟨maps, hmaps, ⟨cp, cr, ip, ir, h1, h2, h3, h4, h5⟩⟩ := C116_maps hnum box (fun q => prepareBox c (x q)) hconn fm hfn hfpos
  refine ⟨res, fm, maps, hres, ?_, hmaps, ⟨second, hdist⟩, ⟨cp, cr, ip, ir, h1, h2, h3, h4, h5⟩, fun hne b hb V _ => ?_⟩
  · simp only [hgot]
    exact hfm
  -- vertices of ranks that are not connected
  have hapart : ∀ r q, (prepareBox c (x q)).overlapping (box r) ≠ true → ∀ g ∈ gids (fm q), g ∉ gids (m r) := by
    intro r q hn g hg hg'
    obtain ⟨v, hvq, rfl⟩ := List.mem_map.1 hg
    obtain ⟨w, hw, hwg⟩ := List.mem_map.1 hg'
    obtain ⟨hvw, hin⟩ := hv q v hvq
    have hww : core w ∈ (whole m).verts := by
      rw [whole_verts, List.mem_flatMap]
      exact ⟨r, List.mem_finRange r, List.mem_map_of_mem hw⟩
    have e : core w = core v := by
      refine List.inj_on_of_nodup_map (ids_whole hnum) hww hvw ?_
      have a1 := whole_pos hnum _ hww
      have a2 := whole_pos hnum _ hvw
      show w.globalIndex = v.globalIndex
      change 0 ≤ w.globalIndex at a1
      change 0 ≤ v.globalIndex at a2
      omega
    refine hn (overlapping_of_common (x := v.coords) hin ?_)
    have : v.coords = w.coords := by
      show (core v).coords = (core w).coords
      rw [e]
    rw [this]
    exact hbox r w hw
  have hempty : ∀ r q, (prepareBox c (x q)).overlapping (box r) = true → (gids (m r) = [] ↔ gids (fm q) = []) := by
    intro r q hl
    unfold gids
    rw [List.map_eq_nil_iff, List.map_eq_nil_iff]
    constructor
    · intro h0
      by_contra hne0
      obtain ⟨v, hvq⟩ := List.exists_mem_of_ne_nil _ hne0
      have hin := (hv q v hvq).2
      unfold inside at hin
      rw [Box.C39_contains] at hin
      rw [hdef r h0, Box.C40_symm, Box.C40_default_box _ ⟨_, hin⟩ (hrange q)] at hl
      exact Bool.false_ne_true hl
    · intro h0
      by_contra hne0
      exact hne r q hl hne0 h0
  have e1 : (provMap maps) = fun r => (cp r).map fun q => (q, ip r q) := by
    funext r
    unfold provMap
    rw [h1 r]
    rfl
  have e2 : (recvMap maps) = fun q => (cr q).map fun r => (r, ir q r) := by
    funext q
    unfold recvMap
    rw [h2 q]
    rfl
  have hsym : ∀ r q, q ∈ cp r ↔ r ∈ cr q := fun r q => ((h3 r).2 q).trans ((h4 q).2 r).symm
  rw [e1, e2]
  constructor
  · exact arrives hb (fun r => (h3 r).1) (fun q => (h4 q).1) hsym (fun r q h => h5 r q (((h3 r).2 q).1 h)) hmn hfn (fun r q h => hapart r q fun e => h (((h3 r).2 q).2 e))
      fun r q h => hempty r q (((h3 r).2 q).1 h)
  · exact arrives hb (fun q => (h4 q).1) (fun r => (h3 r).1) (fun q r => (hsym r q).symm) (fun q r h => (h5 r q (((h4 q).2 r).1 h)).symm) hfn hmn
      (fun q r h g hg hg' => hapart r q (fun e => h (((h4 q).2 r).2 e)) g hg' hg) fun q r h => (hempty r q (((h4 q).2 r).1 h)).symm

/-! ## A connected rank without vertices -/

/-- A rank that waits for another one without data to send does not finish: the other one does not send anything (PointToPointCommunication.cpp:612-614), although it is a partner
(with MPI; sockets complete receiving nothing at once). -/
theorem C116_waits [AddCommMonoid V] {k l : ℕ} (b : ℕ) (ms : Fin (k + 1) → List (Fin (l + 1) × List ℕ)) (mr : Fin (l + 1) → List (Fin (k + 1) × List ℕ)) (items : Fin (k + 1) → Arr V)
    (buf : Fin (l + 1) → Arr V) {r : Fin (k + 1)} {s : Fin (l + 1)} (hr : r ∈ (mr s).map (·.1)) (hi : (items r).size = 0) (hb : (buf s).size ≠ 0) {j : ℕ} {f : Net (Ranks k l) (Arr V) (Arr V)}
    (h : Net.Steps j (RNet.toNet (transferWith b ms mr items buf)) f) (a : Arr V) : f.procs (.inr s) ≠ .ret a := by
  refine Waits.never_returns (ok := fun i _ _ => i ≠ .inl r) h (fun i j m hm => by simp [RNet.toNet] at hm) ?_ ?_ a
  · intro i
    by_cases hir : i = .inl r
    · subst hir
      show Waits.Sends _ (p2pSend b (ms r) (items r))
      unfold p2pSend
      rw [if_pos (.inr hi)]
      trivial
    · have : ∀ q : Prog (Ranks k l) (Arr V) (Arr V), Waits.Sends (fun _ _ => i ≠ .inl r) q := by
        intro q
        induction q with
        | ret a => trivial
        | send d m k ih => exact ⟨hir, ih⟩
        | recv s k ih => exact fun m => ih m
        | fail e => trivial
      exact this _
  · show Waits.Never _ (p2pReceive b (mr s) (buf s))
    unfold p2pReceive
    have h0 : mr s ≠ [] := by
      intro e
      rw [e] at hr
      simp at hr
    rw [if_neg (by rintro (e | e); exacts [h0 e, hb e])]
    generalize (fun _ => (0 : V) : ℕ → V) = t
    generalize mr s = ps at hr
    induction ps generalizing t with
    | nil => simp at hr
    | cons x ps ih =>
      intro m hm
      rw [List.map_cons, List.mem_cons] at hr
      rcases hr with hr | hr
      · subst hr
        exact absurd rfl hm
      · exact Waits.Never.ensure fun _ => ih _ hr

namespace Hole

/-- The first rank of the provider has vertices at 0 and 10, the second one has a vertex at 20. -/
def parts : Fin 2 → Mesh 1
  | 0 => { Mesh.empty 1 with verts := [⟨fun _ => 0, 0, true, false⟩, ⟨fun _ => 10, 1, true, false⟩] }
  | 1 => { Mesh.empty 1 with verts := [⟨fun _ => 20, 2, true, false⟩] }

def boxes : Fin 2 → Box 1
  | 0 => ⟨fun _ => 0, fun _ => 10⟩
  | 1 => ⟨fun _ => 20, fun _ => 20⟩

/-- Direct access without mappings. -/
def cfg : Cfg := ⟨.onSecondary, 1 / 2, true, false, false⟩

/-- The first rank of the receiver accesses the region from 9 to 21, the second one the region from 4 to 6, where no vertex is. -/
def locals : Fin 2 → Local 1
  | 0 => ⟨[], false, ⟨fun _ => 9, fun _ => 21⟩, fun _ _ => false, fun _ _ => false⟩
  | 1 => ⟨[], false, ⟨fun _ => 4, fun _ => 6⟩, fun _ _ => false, fun _ _ => false⟩

/-- As `locals`, but the second rank accesses the region from 4 to 16. -/
def locals' : Fin 2 → Local 1
  | 0 => ⟨[], false, ⟨fun _ => 9, fun _ => 21⟩, fun _ _ => false, fun _ _ => false⟩
  | 1 => ⟨[], false, ⟨fun _ => 4, fun _ => 16⟩, fun _ _ => false, fun _ _ => false⟩

def pos (g : ℕ) : Pt 1 := fun _ => 10 * g

theorem parts_ok (r : Fin 2) : (parts r).Ok := by
  fin_cases r <;> exact ⟨fun _ h => by simp [parts, Mesh.empty] at h, fun _ h => by simp [parts, Mesh.empty] at h, fun _ h => by simp [parts, Mesh.empty] at h⟩

theorem numbered : Numbered parts := by
  intro r i v h
  fin_cases r
  · match i with
    | 0 => cases h; decide
    | 1 => cases h; decide
    | i + 2 => simp [parts] at h
  · match i with
    | 0 => cases h; decide
    | i + 1 => simp [parts] at h

theorem in_boxes (r : Fin 2) : ∀ v ∈ (parts r).verts, (boxes r).contains v.coords = true := by
  fin_cases r <;> decide +kernel

theorem not_empty (r : Fin 2) (h : (parts r).verts = []) : boxes r = Box.default 1 := by
  fin_cases r <;> simp [parts] at h

theorem pos_ok : ∀ v ∈ (whole parts).verts, pos v.globalIndex.toNat = v.coords := by decide +kernel

theorem in_range (q : Fin 2) (i : Fin 1) : -dblMax < (prepareBox cfg (locals q)).lo i ∧ (prepareBox cfg (locals q)).hi i < dblMax := by
  revert q i
  decide +kernel

theorem in_range' (q : Fin 2) (i : Fin 1) : -dblMax < (prepareBox cfg (locals' q)).lo i ∧ (prepareBox cfg (locals' q)).hi i < dblMax := by
  revert q i
  decide +kernel

theorem not_provided (q : Fin 2) : (locals q).provided ≠ true := by
  revert q
  decide

theorem not_provided' (q : Fin 2) : (locals' q).provided ≠ true := by
  revert q
  decide

theorem overlaps : (prepareBox cfg (locals 1)).overlapping (boxes 0) = true := by decide +kernel

theorem overlaps' : (prepareBox cfg (locals' 1)).overlapping (boxes 0) = true := by decide +kernel

/-- No rank is left without vertices if the regions contain vertices. -/
theorem nonempty' {first second res : Fin 2 → Mesh 1} (h : Distributed cfg locals' (whole parts) first second res) (q : Fin 2) : (res q).verts ≠ [] := by
  intro e
  have h1 := (h.mesh q).verts
  rw [e] at h1
  have h2 : (⟨fun _ => 10, 1, true, false⟩ : Vertex 1) ∈ (whole parts).verts.map core := by
    rw [whole_core]
    decide +kernel
  have h3 : Reach cfg (locals' q) ⟨fun _ => 10, 1, true, false⟩ = true ∧ Accessed cfg (locals' q) ⟨fun _ => 10, 1, true, false⟩ = true := by
    clear h1 e
    revert q
    decide +kernel
  rw [eq_comm, List.map_nil, List.filter_eq_nil_iff] at h1
  have h4 := h1 _ h2
  rw [h3.1, h3.2] at h4
  simp at h4

/-- The rank that accesses the hole gets no vertices. -/
theorem empty {first second res : Fin 2 → Mesh 1} (h : Distributed cfg locals (whole parts) first second res) : (res 1).verts = [] := by
  have h1 := (h.mesh 1).verts
  have h2 : ∀ v ∈ (whole parts).verts.map core, Reach cfg (locals 1) v = false := by
    rw [whole_core]
    decide +kernel
  rw [List.filter_eq_nil_iff.2 (fun v hv => by rw [h2 v hv]; simp), List.map_eq_nil_iff] at h1
  exact h1

end Hole

/-- The hypotheses of `C116_initialized` can be met. -/
example : ∃ res fm maps,
    RNet.AlwaysCompletes (setup Hole.boxes (fun q => prepareBox Hole.cfg (Hole.locals' q)) (∑ r, (Hole.parts r).verts.length) (offsetsOf (fun r => (Hole.parts r).verts.length) 2) Hole.parts) res ∧
    Net.AlwaysCompletes (RNet.toNet fun q => computeTwoLevel Hole.cfg Hole.pos (Hole.locals' q) q (gotMesh res q)) fm ∧ RNet.AlwaysCompletes (exchangeMaps fm res) maps ∧
    Arrives (V := ℚ) 2 (fun r => gids (Hole.parts r)) (fun q => gids (fm q)) (fun items buf => RNet.toNet (transferWith 2 (provMap maps) (recvMap maps) items buf)) ∧
    Arrives (V := ℚ) 2 (fun q => gids (fm q)) (fun r => gids (Hole.parts r)) (fun items buf => RNet.toNet (transferWith 2 (recvMap maps) (provMap maps) items buf)) := by
  obtain ⟨res, fm, maps, h1, h2, h3, ⟨second, h4⟩, -, h5⟩ := C116_initialized Hole.parts_ok Hole.numbered Hole.boxes Hole.in_boxes Hole.not_empty Hole.pos Hole.pos_ok Hole.cfg rfl
    Hole.locals' Hole.in_range' (.inr rfl) (fun q h => absurd h (Hole.not_provided' q)) ⟨0, 1, Hole.overlaps'⟩
  have h6 := h5 (fun _ q _ _ => Hole.nonempty' h4 q) 2 (by decide) ℚ
  exact ⟨res, fm, maps, h1, h2, h3, h6.1, h6.2⟩

/-- The hypotheses of `C116_same_as_one_level` (and of `C116_repartition`, `C116_connect`) can be met. -/
example : ∃ two one,
    Net.AlwaysCompletes (RNet.toNet fun q => computeTwoLevel Hole.cfg Hole.pos (Hole.locals' q) q (gotten Hole.boxes (prepareBox Hole.cfg (Hole.locals' q)) Hole.parts)) two ∧
    RNet.AlwaysCompletes (fun r => compute Hole.cfg (∑ r, (Hole.parts r).verts.length) (Hole.locals' r) r (start (whole Hole.parts) r)) one ∧
    ∀ r, (two r).verts.map core = (one r).mesh.verts.map core := by
  obtain ⟨two, one, h1, h2, h3⟩ := C116_same_as_one_level Hole.parts_ok Hole.numbered Hole.boxes Hole.in_boxes Hole.pos Hole.pos_ok Hole.cfg rfl Hole.locals' (.inr rfl)
    (fun q h => absurd h (Hole.not_provided' q)) (fun r _ _ _ _ _ _ => by fin_cases r <;> rfl)
    ⟨0, ⟨fun _ => 10, 1, true, false⟩, by decide +kernel, by decide +kernel, by decide +kernel⟩
  exact ⟨two, one, h1, h2, fun r => (h3 r).1⟩

/-- The code does not fulfil it without the assumption: a rank of the receiver that accesses a region without vertices inside the bounding box of a rank of the provider is connected to
it, but does not send to it. The rank of the provider never gets its data. -/
theorem C116_empty_rank_waits : ∃ res fm maps,
    RNet.AlwaysCompletes (setup Hole.boxes (fun q => prepareBox Hole.cfg (Hole.locals q)) (∑ r, (Hole.parts r).verts.length) (offsetsOf (fun r => (Hole.parts r).verts.length) 2) Hole.parts) res ∧
    Net.AlwaysCompletes (RNet.toNet fun q => computeTwoLevel Hole.cfg Hole.pos (Hole.locals q) q (gotMesh res q)) fm ∧ RNet.AlwaysCompletes (exchangeMaps fm res) maps ∧
    ∀ (items : Fin 2 → Arr ℚ) (buf : Fin 2 → Arr ℚ), (∀ q, (items q).size = (gids (fm q)).length) → (∀ r, (buf r).size = (gids (Hole.parts r)).length) →
      ∀ {j : ℕ} {f : Net (Ranks 1 1) (Arr ℚ) (Arr ℚ)}, Net.Steps j (RNet.toNet (transferWith 1 (recvMap maps) (provMap maps) items buf)) f → ∀ a, f.procs (.inr 0) ≠ .ret a := by
  obtain ⟨res, fm, maps, h1, h2, h3, ⟨second, h4⟩, ⟨cp, cr, ip, ir, m1, m2, m3, m4, m5⟩, -⟩ := C116_initialized Hole.parts_ok Hole.numbered Hole.boxes Hole.in_boxes Hole.not_empty
    Hole.pos Hole.pos_ok Hole.cfg rfl Hole.locals Hole.in_range (.inr rfl) (fun q h => absurd h (Hole.not_provided q)) ⟨0, 1, Hole.overlaps⟩
  refine ⟨res, fm, maps, h1, h2, h3, fun items buf hi hb j f h a => C116_waits 1 (recvMap maps) (provMap maps) items buf (r := 1) (s := 0) ?_ ?_ ?_ h a⟩
  · unfold provMap
    rw [m1]
    exact List.mem_map.2 ⟨(1, ip 0 1), List.mem_map.2 ⟨1, ((m3 0).2 1).2 Hole.overlaps, rfl⟩, rfl⟩
  · rw [hi]
    unfold gids
    rw [Hole.empty h4]
    rfl
  · rw [hb]
    decide

/-! ## Without the geometric filter -/

namespace NoFilter

/-- A mapping without geometric filter, as for every mapping with radial basis functions (ParticipantConfiguration.cpp:481-497). -/
def cfg : Cfg := ⟨.none, 1 / 2, false, true, false⟩

/-- The own vertices of the two ranks are between 0 and 5 and between 18 and 22; the mapping tags everything, as one with a basis function of global support. -/
def locals : Fin 2 → Local 1
  | 0 => ⟨[⟨fun _ => 0, fun _ => 5⟩], true, Box.default 1, fun _ _ => true, fun _ _ => false⟩
  | 1 => ⟨[⟨fun _ => 18, fun _ => 22⟩], true, Box.default 1, fun _ _ => true, fun _ _ => false⟩

end NoFilter

/-- The code does not fulfil `C116_same_as_one_level` without the geometric filter, which is switched off for mappings with radial basis functions: with two-level initialization a rank
still only gets the parts whose boxes overlap its own. Here the mapping on the first rank needs the vertex with global ID 2; the rank has it with one-level, but not with
two-level initialization. -/
theorem C116_no_filter_differs : ∃ one two second,
    RNet.AlwaysCompletes (fun r => compute NoFilter.cfg 3 (NoFilter.locals r) r (start (whole Hole.parts) r)) one ∧
    Repartitioned NoFilter.cfg NoFilter.locals (whole Hole.parts) (fun r => seen NoFilter.cfg (NoFilter.locals r) (whole Hole.parts)) second one ∧
    Net.AlwaysCompletes (RNet.toNet fun q => computeTwoLevel NoFilter.cfg Hole.pos (NoFilter.locals q) q (gotten Hole.boxes (prepareBox NoFilter.cfg (NoFilter.locals q)) Hole.parts)) two ∧
    (∃ v ∈ (one 0).mesh.verts, v.globalIndex = 2) ∧ ¬ ∃ v ∈ (two 0).verts, v.globalIndex = 2 := by
  have hw := whole_ok Hole.parts_ok
  have hc := whole_core Hole.parts
  have hn := ids_whole Hole.numbered
  have hmem : (⟨fun _ => 20, 2, true, false⟩ : Vertex 1) ∈ (whole Hole.parts).verts := by decide +kernel
  obtain ⟨second, one, h1, h2⟩ := C112_repartition hw hc hn NoFilter.cfg NoFilter.locals 3 (by decide +kernel) (.inl rfl) (fun h => absurd rfl h)
    ⟨0, _, hmem, rfl, rfl⟩
  set g : Fin 2 → Mesh 1 := fun q => gotten Hole.boxes (prepareBox NoFilter.cfg (NoFilter.locals q)) Hole.parts with hg
  obtain ⟨own, h3, h4, -, -⟩ := C59_some_owner Hole.pos (fun q => prepareBox NoFilter.cfg (NoFilter.locals q))
    (fun q => ownerView (tagFirst NoFilter.cfg (NoFilter.locals q) (candidates NoFilter.cfg (NoFilter.locals q) (g q))))
  have hgok : ∀ q, (g q).Ok := fun q => gotten_ok _ _ Hole.parts_ok
  have hgc : ∀ q, (g q).verts.map core = (g q).verts := by decide +kernel
  have hgn : (ids (g 0)).Nodup := by decide +kernel
  have hg0 : ∀ v ∈ (g 0).verts, v.globalIndex ≠ 2 := by decide +kernel
  have hl : ∀ q, (own q).length = (candidates NoFilter.cfg (NoFilter.locals q) (g q)).verts.length := by
    intro q
    rw [h4, ownerView_eq (hgok q) (hgc q), List.length_map]
  have h5 := computeTwoLevel_completes (m := g) hgok NoFilter.cfg Hole.pos NoFilter.locals (.inl rfl) (by decide) (fun h => absurd rfl h) h3 hl
  refine ⟨one, _, second, h1, h2, h5, ?_, ?_⟩
  · have h6 := (h2.mesh 0).verts
    have h7 : (⟨fun _ => 20, 2, true, false⟩ : Vertex 1) ∈ (one 0).mesh.verts.map core := by
      rw [h6]
      refine List.mem_filter.2 ⟨by rw [hc]; exact hmem, rfl⟩
    obtain ⟨v, hv, he⟩ := List.mem_map.1 h7
    exact ⟨v, hv, by have := congrArg Vertex.globalIndex he; exact this⟩
  · rintro ⟨v, hv, he⟩
    have h6 := (kept_restricts (hgok 0) (hgc 0) hgn (hl 0)).verts
    have h7 := List.mem_map_of_mem (f := core) hv
    rw [h6, hgc 0] at h7
    exact hg0 _ (List.mem_filter.1 h7).1 he

end Verif.TwoLevelInit
