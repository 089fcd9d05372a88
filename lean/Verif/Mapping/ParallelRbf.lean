import Verif.Api.AccessProps
import Verif.Mapping.ParallelNN
import Verif.Mapping.RbfParallelProps
import Verif.Mapping.SolvableUse

/-!
# Radial basis function mappings of parallel participants from and to received meshes (C115)

`tagMeshFirstRound` and `tagMeshSecondRound` of `/repo/src/mapping/RadialBasisFctBaseMapping.hpp:119-192`; together with the distribution of the received mesh (C112), the transfer (C60)
and the mapping over all ranks (C96).
-/

set_option autoImplicit false

namespace Verif.Mapping

open Verif.Repartition Verif.Com Verif.Dist Verif.Rbf

variable {d n : ℕ}

/-! ## Model -/

/-- `Vertex::rawCoords`, Vertex.hpp: three coordinates, those beyond the dimension of the mesh are zero. -/
noncomputable def toPoint (p : Pt d) : Point := fun i => if h : i.1 < d then (p ⟨i.1, h⟩ : ℝ) else 0

/-- `tagMeshFirstRound`, RadialBasisFctBaseMapping.hpp:123-154: `box` is the bounding box of the local mesh `own`, `support` the support radius of a basis function with compact support. -/
def rbfFirst (support : Option ℚ) (box : Box d) (own m : Mesh d) (g : ℤ) : Bool :=
  !own.verts.isEmpty && m.verts.any fun v => decide (v.globalIndex = g) && match support with
    | some R => (box.expand R).contains v.coords
    | none => true

/-- `tagMeshSecondRound`, RadialBasisFctBaseMapping.hpp:160-192: vertices close to the owned ones. The assertion that owned vertices are tagged is left out. -/
def rbfSecond (support : Option ℚ) (m : Mesh d) (g : ℤ) : Bool :=
  match support with
  | some R =>
    let box := ((m.verts.filter fun v => v.owner).foldl (fun b v => b.add v.coords) (Box.default d)).expand R
    m.verts.any fun v => decide (v.globalIndex = g) && box.contains v.coords
  | none => false

/-- The meshes of a rank as `computeMapping` sees them: the received one with owner flags, and the local one. -/
noncomputable def rbfPart (received own : Mesh d) : Rbf.Part :=
  ⟨received.verts.map fun v => (toPoint v.coords, v.owner), own.verts.map fun v => toPoint v.coords⟩

/-- The values of a data array by vertices. -/
def rows (b count : ℕ) (a : Arr ℝ) : List (Row b) := (List.range count).map fun i c => a.get (b * i + c)

/-- Back to a data array. -/
def flatten {b : ℕ} (hb : 0 < b) (l : List (Row b)) : Arr ℝ := ⟨l.length * b, fun p => l.getD (p / b) 0 ⟨p % b, Nat.mod_lt p hb⟩⟩

/-! ## Specification -/

/-- The vertices of a mesh in space. -/
noncomputable def positions (m : Mesh d) (i : Fin m.verts.length) : Point := toPoint m.verts[i].coords

/-- A rank takes part with a radial basis function mapping (and maybe others). -/
def UsesRbf (support : Option ℚ) (box : Box d) (x : Local d) (own : Mesh d) : Prop := ∀ M g, rbfFirst support box own M g = true → x.tag1 M g = true

/-- A vertex of the received mesh is needed by the mapping of a rank: the rank has vertices, the geometric filter does not remove the vertex, and it is in the support of the basis function
around the bounding box of the local mesh. -/
def Needed (support : Option ℚ) (box : Box (d + 1)) (k : Cfg) (x : Local (d + 1)) (own : Mesh (d + 1)) (v : Vertex (d + 1)) : Prop :=
  own.verts ≠ [] ∧ Reach k x v = true ∧ ∀ R, support = some R → (box.expand R).contains v.coords = true

/-! ## Lemmas -/

/-- The vertices of `m` a rank has, by their positions in `m`. -/
def kept (m : Mesh d) (p : Vertex d → Bool) : List (Fin m.verts.length) := (List.finRange m.verts.length).filter fun i => p m.verts[i]

theorem kept_map (m : Mesh d) (p : Vertex d → Bool) : (kept m p).map (fun i => m.verts[i]) = m.verts.filter p := by
  have h : m.verts = (List.finRange m.verts.length).map fun i => m.verts[i] := by
    refine List.ext_getElem (by simp) fun i h1 h2 => ?_
    simp
  conv_rhs => rw [h, List.filter_map]
  rfl

theorem kept_nodup (m : Mesh d) (p : Vertex d → Bool) : (kept m p).Nodup := (List.nodup_finRange _).filter _

/-- The vertices of the part of a rank with the owner flags. -/
def held (m part : Mesh d) (p : Vertex d → Bool) : List (Fin m.verts.length × Bool) := (kept m p).zip (part.verts.map fun v => v.owner)

section Held

variable {m part : Mesh d} {p : Vertex d → Bool} (hc : m.verts.map core = m.verts) (h : Restricts part m p)

include hc h

theorem part_core : part.verts.map core = (kept m p).map fun i => m.verts[i] := by rw [h.verts, hc, kept_map]

theorem kept_length : (kept m p).length = part.verts.length := by simpa using (congrArg List.length (part_core hc h)).symm

theorem held_length : (held m part p).length = part.verts.length := by
  unfold held
  rw [List.length_zip, List.length_map, kept_length hc h, min_self]

/-- Position `i` of the part. -/
theorem kept_at {i : ℕ} {v : Fin m.verts.length} (hv : (kept m p)[i]? = some v) :
    ∃ w, part.verts[i]? = some w ∧ w.coords = m.verts[v].coords ∧ w.globalIndex = m.verts[v].globalIndex := by
  have h1 := congrArg (fun l : List (Vertex d) => l[i]?) (part_core hc h)
  simp only [List.getElem?_map, hv, Option.map_some] at h1
  obtain ⟨w, hw, hcw⟩ := Option.map_eq_some_iff.1 h1
  refine ⟨w, hw, ?_, ?_⟩
  · rw [← hcw]; rfl
  · rw [← hcw]; rfl

theorem held_at {i : ℕ} {v : Fin m.verts.length} {o : Bool} :
    (held m part p)[i]? = some (v, o) ↔ (kept m p)[i]? = some v ∧ ∃ w, part.verts[i]? = some w ∧ w.owner = o ∧ w.globalIndex = m.verts[v].globalIndex := by
  unfold held
  rw [List.getElem?_zip_eq_some, List.getElem?_map]
  constructor
  · rintro ⟨h1, h2⟩
    obtain ⟨w, hw, hg⟩ := Option.map_eq_some_iff.1 h2
    obtain ⟨w', hw', -, hgi⟩ := kept_at hc h h1
    obtain rfl := Option.some.inj (hw.symm.trans hw')
    exact ⟨h1, w, hw, hg, hgi⟩
  · rintro ⟨h1, w, hw, ho, -⟩
    exact ⟨h1, by rw [hw, Option.map_some, ho]⟩

theorem held_points : (held m part p).map (fun x => (positions m x.1, x.2)) = part.verts.map fun v => (toPoint v.coords, v.owner) := by
  refine List.ext_getElem? fun i => ?_
  rw [List.getElem?_map, List.getElem?_map]
  by_cases hi : i < part.verts.length
  · have h1 : (held m part p)[i]? = some ((held m part p)[i]'(by rw [held_length hc h]; exact hi)) := List.getElem?_eq_getElem _
    generalize (held m part p)[i]'(by rw [held_length hc h]; exact hi) = y at h1
    obtain ⟨v, o⟩ := y
    obtain ⟨h2, w, hw, ho, -⟩ := (held_at hc h).1 h1
    obtain ⟨w', hw', hco, -⟩ := kept_at hc h h2
    obtain rfl := Option.some.inj (hw.symm.trans hw')
    rw [h1, hw, Option.map_some, Option.map_some, positions, ← hco, ho]
  · rw [List.getElem?_eq_none (by rw [held_length hc h]; omega), List.getElem?_eq_none (by omega)]
    rfl

end Held

variable {k : Cfg} {x : Fin (n + 1) → Local (d + 1)} {m : Mesh (d + 1)} {first second : Fin (n + 1) → Mesh (d + 1)} {res : Fin (n + 1) → Part (d + 1) n}

/-- What a rank keeps. -/
def keeps (k : Cfg) (x : Fin (n + 1) → Local (d + 1)) (first second : Fin (n + 1) → Mesh (d + 1)) (r : Fin (n + 1)) (v : Vertex (d + 1)) : Bool :=
  Reach k (x r) v && (Accessed k (x r) v || (x r).tag1 (first r) v.globalIndex || (x r).tag2 (second r) v.globalIndex)

/-- The vertices of a rank with owner flags, by their positions in the received mesh. -/
def shares (k : Cfg) (x : Fin (n + 1) → Local (d + 1)) (m : Mesh (d + 1)) (first second : Fin (n + 1) → Mesh (d + 1)) (res : Fin (n + 1) → Part (d + 1) n) (r : Fin (n + 1)) :
    List (Fin m.verts.length × Bool) := held m (res r).mesh (keeps k x first second r)

theorem kept_restricts (h : Repartitioned k x m first second res) (r : Fin (n + 1)) : Restricts (res r).mesh m (keeps k x first second r) := h.mesh r

theorem countP_pos_of_share (hc : m.verts.map core = m.verts) (h : Repartitioned k x m first second res) {r : Fin (n + 1)} {i : ℕ} {v : Fin m.verts.length}
    (hi : (shares k x m first second res r)[i]? = some (v, true)) :
    0 < (res r).mesh.verts.countP fun w => decide (w.globalIndex = m.verts[v].globalIndex) && w.owner := by
  obtain ⟨-, w, hw, ho, hg⟩ := (held_at hc (kept_restricts h r)).1 hi
  exact List.countP_pos_iff.2 ⟨w, List.mem_of_getElem? hw, by simp [ho, hg]⟩

theorem share_of_countP (hc : m.verts.map core = m.verts) (hn : (ids m).Nodup) (h : Repartitioned k x m first second res) {r : Fin (n + 1)} {v : Fin m.verts.length}
    (hp : 0 < (res r).mesh.verts.countP fun w => decide (w.globalIndex = m.verts[v].globalIndex) && w.owner) :
    ∃ i : ℕ, (shares k x m first second res r)[i]? = some (v, true) := by
  obtain ⟨w, hw, hw'⟩ := List.countP_pos_iff.1 hp
  rw [Bool.and_eq_true, decide_eq_true_iff] at hw'
  obtain ⟨i, hi⟩ := List.getElem?_of_mem hw
  have hlt : i < (kept m (keeps k x first second r)).length := by
    rw [kept_length hc (kept_restricts h r)]
    exact (List.getElem?_eq_some_iff.1 hi).1
  have h1 : (kept m (keeps k x first second r))[i]? = some (kept m (keeps k x first second r))[i] := List.getElem?_eq_getElem hlt
  obtain ⟨w', hw1, -, hg⟩ := kept_at hc (kept_restricts h r) h1
  obtain rfl := Option.some.inj (hi.symm.trans hw1)
  have hv : (kept m (keeps k x first second r))[i] = v := by
    refine Fin.ext (ids_inj hn (List.getElem?_eq_getElem (Fin.isLt _)) (List.getElem?_eq_getElem (Fin.isLt _)) ?_)
    exact hg.symm.trans hw'.1
  exact ⟨i, (held_at hc (kept_restricts h r)).2 ⟨by rw [h1, hv], w, hi, hw'.2, hw'.1⟩⟩

/-- No vertex has two owners. -/
theorem share_unique (hc : m.verts.map core = m.verts) (h : Repartitioned k x m first second res) {r r' : Fin (n + 1)} {i i' : ℕ} {v : Fin m.verts.length}
    (hi : (shares k x m first second res r)[i]? = some (v, true)) (hi' : (shares k x m first second res r')[i']? = some (v, true)) : r = r' ∧ i = i' := by
  have hr : r = r' := by
    by_contra hne
    have h1 := countP_pos_of_share hc h hi
    have h2 := countP_pos_of_share hc h hi'
    have h3 := h.owner m.verts[v] (List.getElem_mem _)
    have h4 := Finset.add_le_sum (f := fun r => (res r).mesh.verts.countP fun w => decide (w.globalIndex = m.verts[v].globalIndex) && w.owner) (s := Finset.univ)
      (fun _ _ => Nat.zero_le _) (Finset.mem_univ r) (Finset.mem_univ r') hne
    have h5 : (if ∃ r, Reach k (x r) m.verts[v] = true ∧ (Accessed k (x r) m.verts[v] || (x r).tag1 (first r) m.verts[v].globalIndex) = true then 1 else 0) ≤ 1 := by split <;> omega
    simp only [Fin.getElem_fin] at *
    omega
  subst hr
  refine ⟨rfl, ?_⟩
  have h1 := ((held_at hc (kept_restricts h r)).1 hi).1
  have h2 := ((held_at hc (kept_restricts h r)).1 hi').1
  exact (List.getElem?_inj (List.getElem?_eq_some_iff.1 h1).1 (kept_nodup _ _)).1 (h1.trans h2.symm)

theorem owned_once (hc : m.verts.map core = m.verts) (hn : (ids m).Nodup) (h : Repartitioned k x m first second res)
    (hall : ∀ v ∈ m.verts, ∃ r, Reach k (x r) v = true ∧ (x r).tag1 (first r) v.globalIndex = true) : OwnedOnce (shares k x m first second res) := fun v => by
  have h3 := h.owner m.verts[v] (List.getElem_mem _)
  obtain ⟨r, hr, ht⟩ := hall m.verts[v] (List.getElem_mem _)
  rw [if_pos ⟨r, hr, by rw [ht, Bool.or_true]⟩] at h3
  obtain ⟨r0, -, hr0⟩ := Finset.exists_ne_zero_of_sum_ne_zero (h3.trans_ne one_ne_zero)
  obtain ⟨i, hi⟩ := share_of_countP hc hn h (Nat.pos_of_ne_zero hr0)
  refine ⟨(r0, i), hi, fun y hy => ?_⟩
  obtain ⟨h1, h2⟩ := share_unique hc h hy hi
  exact Prod.ext h1 h2

theorem rbfPart_eq (hc : m.verts.map core = m.verts) (h : Repartitioned k x m first second res) (own : Fin (n + 1) → Mesh (d + 1)) :
    (fun r => rbfPart (res r).mesh (own r)) = parts (positions m) (shares k x m first second res) fun r => (own r).verts.map fun v => toPoint v.coords := by
  funext r
  unfold rbfPart parts shares
  exact congrArg (fun l => Rbf.Part.mk l _) (held_points hc (kept_restricts h r)).symm

theorem needed_tagged {support : Option ℚ} {box : Box (d + 1)} {x : Local (d + 1)} {own : Mesh (d + 1)} (hu : UsesRbf support box x own) {v : Vertex (d + 1)}
    (hv : Needed support box k x own v) {M : Mesh (d + 1)} (hm : ∃ w ∈ M.verts, w.globalIndex = v.globalIndex ∧ w.coords = v.coords) : x.tag1 M v.globalIndex = true := by
  refine hu _ _ ?_
  obtain ⟨w, hw, hg, hco⟩ := hm
  unfold rbfFirst
  rw [Bool.and_eq_true]
  refine ⟨by simpa using hv.1, List.any_eq_true.2 ⟨w, hw, ?_⟩⟩
  rw [Bool.and_eq_true]
  refine ⟨decide_eq_true hg, ?_⟩
  cases support with
  | none => rfl
  | some R => exact hco ▸ hv.2.2 R rfl

theorem seen_has (hc : m.verts.map core = m.verts) {M : Mesh (d + 1)} {p : Vertex (d + 1) → Bool} (h : Restricts M m p) {v : Vertex (d + 1)} (hv : v ∈ m.verts) (hp : p v = true) :
    ∃ w ∈ M.verts, w.globalIndex = v.globalIndex ∧ w.coords = v.coords := by
  have h1 : v ∈ (m.verts.map core).filter p := by
    rw [hc]
    exact List.mem_filter.2 ⟨hv, hp⟩
  rw [← h.verts] at h1
  obtain ⟨w, hw, rfl⟩ := List.mem_map.1 h1
  exact ⟨w, hw, rfl, rfl⟩

theorem gids_share (hc : m.verts.map core = m.verts) (h : Repartitioned k x m first second res) {r : Fin (n + 1)} {i : ℕ} {v : Fin m.verts.length} {o : Bool}
    (hi : (shares k x m first second res r)[i]? = some (v, o)) : (gids (res r).mesh)[i]? = some m.verts[v].globalIndex.toNat := by
  obtain ⟨-, w, hw, -, hg⟩ := (held_at hc (kept_restricts h r)).1 hi
  unfold gids
  rw [List.getElem?_map, hw, Option.map_some, hg]

theorem rows_eq (hc : m.verts.map core = m.verts) (h : Repartitioned k x m first second res) {b : ℕ} {r : Fin (n + 1)} {a : Arr ℝ} {F : Fin m.verts.length → Row b}
    (ha : ∀ (i : ℕ) (v : Fin m.verts.length) (o : Bool), (shares k x m first second res r)[i]? = some (v, o) → ∀ c : Fin b, a.get (b * i + c) = F v c) :
    rows b (res r).mesh.verts.length a = (shares k x m first second res r).map fun y => F y.1 := by
  have hl : (shares k x m first second res r).length = (res r).mesh.verts.length := held_length hc (kept_restricts h r)
  refine List.ext_getElem (by simp [rows, hl]) fun i h1 h2 => ?_
  have hlt : i < (shares k x m first second res r).length := by simpa using h2
  have h3 : (shares k x m first second res r)[i]? = some (shares k x m first second res r)[i] := List.getElem?_eq_getElem hlt
  simp only [rows, List.getElem_map, List.getElem_range]
  funext c
  exact ha i _ _ h3 c

theorem replicate_getD {b : ℕ} (l i : ℕ) : ((List.replicate l (0 : Row b))[i]?).getD 0 = 0 := by
  rw [List.getElem?_replicate]
  split <;> rfl

/-! ## Theorems -/

/-- **Reading with a consistent radial basis function mapping in parallel.** If every vertex of the received mesh is needed by some rank, the received mesh is distributed, the data of the
provider is transferred, and the ranks map it together, in every schedule; and every vertex of every rank gets exactly the value a serial run computes there from the whole mesh. -/
theorem C115_read (g : Setting) (he : g.e.Valid) (ho : g.e.OrderFree) {m : Mesh (d + 1)} (hm : m.Ok) (hc : m.verts.map core = m.verts) (hn : (ids m).Nodup) (k : Cfg)
    (x : Fin (n + 1) → Local (d + 1)) (hid : ∀ v ∈ m.verts, 0 ≤ v.globalIndex ∧ v.globalIndex < m.verts.length) (hcfg : k.mapped = true)
    (hp : k.filter ≠ .none → ∀ r, (x r).provided = true → ∃ v ∈ m.verts, inside (prepareBox k (x r)) v = true)
    (own : Fin (n + 1) → Mesh (d + 1)) (box : Fin (n + 1) → Box (d + 1)) (support : Option ℚ) (huse : ∀ r, UsesRbf support (box r) (x r) (own r))
    (hne : m.verts ≠ []) (hneed : ∀ v ∈ m.verts, ∃ r, Needed support (box r) k (x r) (own r) v)
    {M : ℕ} (Y : Fin M → Pt (d + 1)) (s : Solver m.verts.length M g.pol g.active) (hs : construct g.e g.spd g.φ g.pol g.active (positions m) (fun j => toPoint (Y j)) = some s)
    (hsep : g.pol = .separate → Fintype.card (Poly g.active) ≤ m.verts.length)
    {p : ℕ} (b : ℕ) (hb : 0 < b) (dist : Fin (p + 1) → List ℕ) (items : Fin (p + 1) → Arr ℝ) (hi : ∀ r, (items r).size = (dist r).length * b)
    (hprov : ∀ v ∈ m.verts, ∃ (q : Fin (p + 1)) (j : ℕ), (dist q)[j]? = some v.globalIndex.toNat ∧
      ∀ (q' : Fin (p + 1)) (j' : ℕ), (dist q')[j']? = some v.globalIndex.toNat → q' = q ∧ j' = j)
    (w : Fin m.verts.length → Row b) (hw : ∀ (v : Fin m.verts.length) (q : Fin (p + 1)) (l : ℕ), (dist q)[l]? = some m.verts[v].globalIndex.toNat → ∀ c : Fin b, w v c = (items q).get (b * l + c)) :
    ∃ res, RNet.AlwaysCompletes (fun r => compute k m.verts.length (x r) r (start m r)) res ∧
      ∀ buf : Fin (n + 1) → Arr ℝ, (∀ r, (buf r).size = (gids (res r).mesh).length * b) →
        ∃ data, RNet.AlwaysCompletes (gsTransfer b m.verts.length dist (fun r => gids (res r).mesh) items buf) data ∧
          ∃ out, RNet.AlwaysCompletes (consistentJob g m.verts.length (fun r => rbfPart (res r).mesh (own r)) fun r => rows b (res r).mesh.verts.length (data (.inr r))) out ∧
            ∀ r, (out r).length = (own r).verts.length ∧
              ∀ i < (own r).verts.length, ∀ j, coordsOf (own r) i = Y j → (out r)[i]? = some fun c => s.mapConsistent (fun v => w v c) j := by
  have hseen : ∀ v ∈ m.verts, ∃ r, Reach k (x r) v = true ∧ (x r).tag1 (seen k (x r) m) v.globalIndex = true := fun v hv => by
    obtain ⟨r, hr⟩ := hneed v hv
    exact ⟨r, hr.2.1, needed_tagged (huse r) hr (seen_has hc (seen_restricts hm hn k (x r)) hv hr.2.1)⟩
  obtain ⟨second, res, h1, h2⟩ := C112_repartition hm hc hn k x m.verts.length hid (.inl hcfg) hp (by
    obtain ⟨v, hv⟩ := List.exists_mem_of_ne_nil _ hne
    obtain ⟨r, hr, ht⟩ := hseen v hv
    exact ⟨r, v, hv, hr, by rw [ht, Bool.or_true]⟩)
  refine ⟨res, h1, fun buf hbuf => ?_⟩
  obtain ⟨data, h3, -, h5⟩ := C60_gather_scatter b m.verts.length hb dist (fun r => gids (res r).mesh) items buf hi hbuf
  refine ⟨data, h3, ?_⟩
  have hrows : (fun r => rows b (res r).mesh.verts.length (data (.inr r))) = fun r => (shares k x m (fun r => seen k (x r) m) second res r).map fun y => w y.1 := by
    funext r
    refine rows_eq hc h2 fun i v o hio c => ?_
    rw [(h5 r).2 i _ c (gids_share hc h2 hio) c.2]
    obtain ⟨q, j, hj, hu⟩ := hprov m.verts[v] (List.getElem_mem _)
    rw [C60_partition b dist (fun r => (items r).get) c hj hu, hw v q j hj c]
  obtain ⟨out, h6, h7⟩ := C96_consistent g he ho (positions m) (fun j => toPoint (Y j)) s hs hsep _ (owned_once hc hn h2 hseen) (fun r => (own r).verts.map fun v => toPoint v.coords) w
  refine ⟨out, ?_, fun r => ⟨by simpa using (h7 r).1, fun i hil j hij => ?_⟩⟩
  · rw [rbfPart_eq hc h2, hrows]
    exact h6
  · refine (h7 r).2 i j (toPoint (coordsOf (own r) i)) ?_ fun e _ => by rw [hij]
    rw [List.getElem?_map, List.getElem?_eq_getElem hil, coordsOf_some (List.getElem?_eq_getElem hil)]
    rfl

/-- **Writing with a conservative radial basis function mapping in parallel.** The local meshes of the ranks together are the mesh `Y`, `U` are the values written there. The provider gets at
every vertex exactly what a serial run computes. -/
theorem C115_write (g : Setting) (he : g.e.Valid) (ho : g.e.OrderFree) {m : Mesh (d + 1)} (hm : m.Ok) (hc : m.verts.map core = m.verts) (hn : (ids m).Nodup) (k : Cfg)
    (x : Fin (n + 1) → Local (d + 1)) (hid : ∀ v ∈ m.verts, 0 ≤ v.globalIndex ∧ v.globalIndex < m.verts.length) (hcfg : k.mapped = true)
    (hp : k.filter ≠ .none → ∀ r, (x r).provided = true → ∃ v ∈ m.verts, inside (prepareBox k (x r)) v = true)
    (own : Fin (n + 1) → Mesh (d + 1)) (box : Fin (n + 1) → Box (d + 1)) (support : Option ℚ) (huse : ∀ r, UsesRbf support (box r) (x r) (own r))
    (hne : m.verts ≠ []) (hneed : ∀ v ∈ m.verts, ∃ r, Needed support (box r) k (x r) (own r) v)
    {M : ℕ} (Y : Fin M → Pt (d + 1)) (oids : Fin (n + 1) → List (Fin M)) (hheld : HeldOnce oids) (hown : ∀ r, (own r).verts.map (fun v => v.coords) = (oids r).map Y)
    (s : Solver m.verts.length M g.pol g.active) (hs : construct g.e g.spd g.φ g.pol g.active (positions m) (fun j => toPoint (Y j)) = some s)
    (hsep : g.pol = .separate → Fintype.card (Poly g.active) ≤ m.verts.length)
    {p : ℕ} (b : ℕ) (hb : 0 < b) (dist : Fin (p + 1) → List ℕ) (buf : Fin (p + 1) → Arr ℝ) (hbuf : ∀ r, (buf r).size = (dist r).length * b) (U : Fin M → Row b) :
    ∃ res, RNet.AlwaysCompletes (fun r => compute k m.verts.length (x r) r (start m r)) res ∧
      ∃ out, RNet.AlwaysCompletes (conservativeJob g m.verts.length (fun r => rbfPart (res r).mesh (own r)) (fun r => (oids r).map U)
          fun r => List.replicate (res r).mesh.verts.length 0) out ∧
        ∃ data, RNet.AlwaysCompletes (gsTransfer b m.verts.length (fun r => gids (res r).mesh) dist (fun r => flatten hb (out r)) buf) data ∧
          ∀ (q : Fin (p + 1)) (j : ℕ) (v : Fin m.verts.length), (dist q)[j]? = some m.verts[v].globalIndex.toNat →
            ∀ c : Fin b, (data (.inr q)).get (b * j + c) = s.mapConservative (fun l => U l c) v := by
  have hseen : ∀ v ∈ m.verts, ∃ r, Reach k (x r) v = true ∧ (x r).tag1 (seen k (x r) m) v.globalIndex = true := fun v hv => by
    obtain ⟨r, hr⟩ := hneed v hv
    exact ⟨r, hr.2.1, needed_tagged (huse r) hr (seen_has hc (seen_restricts hm hn k (x r)) hv hr.2.1)⟩
  obtain ⟨second, res, h1, h2⟩ := C112_repartition hm hc hn k x m.verts.length hid (.inl hcfg) hp (by
    obtain ⟨v, hv⟩ := List.exists_mem_of_ne_nil _ hne
    obtain ⟨r, hr, ht⟩ := hseen v hv
    exact ⟨r, v, hv, hr, by rw [ht, Bool.or_true]⟩)
  refine ⟨res, h1, ?_⟩
  have hl : ∀ r, (shares k x m (fun r => seen k (x r) m) second res r).length = (res r).mesh.verts.length := fun r => held_length hc (kept_restricts h2 r)
  have honce := owned_once hc hn h2 hseen
  obtain ⟨out, h6, h7⟩ := C96_conservative g he ho (positions m) (fun j => toPoint (Y j)) s hs hsep _ honce oids hheld U
    (fun r => List.replicate (res r).mesh.verts.length 0) fun r => by rw [List.length_replicate, hl r]
  refine ⟨out, ?_, ?_⟩
  · have hy : (fun r => (own r).verts.map fun v => toPoint v.coords) = fun r => (oids r).map fun j => toPoint (Y j) := by
      funext r
      have := congrArg (List.map toPoint) (hown r)
      rwa [List.map_map, List.map_map] at this
    rw [rbfPart_eq hc h2, hy]
    exact h6
  have hlo : ∀ r, (out r).length = (gids (res r).mesh).length := fun r => by rw [(h7 r).1, hl r, gids, List.length_map]
  obtain ⟨data, h3, -, h5⟩ := C60_gather_scatter b m.verts.length hb (fun r => gids (res r).mesh) dist (fun r => flatten hb (out r)) buf
    (fun r => by rw [← hlo r]; rfl) hbuf
  refine ⟨data, h3, fun q j v hv c => ?_⟩
  rw [(h5 q).2 j _ c hv c.2]
  have hget : ∀ r i, (flatten hb (out r)).get (b * i + c) = (out r).getD i 0 c := fun r i => by
    unfold flatten
    have e1 : (b * i + c) / b = i := by rw [Nat.mul_add_div hb, Nat.div_eq_of_lt c.2, add_zero]
    have e2 : (b * i + c.1) % b = c.1 := by rw [Nat.mul_add_mod, Nat.mod_eq_of_lt c.2]
    simp only [e1, e2]
  -- what a rank has at its copy of the vertex
  have hcopy : ∀ r i, (gids (res r).mesh)[i]? = some m.verts[v].globalIndex.toNat → ∃ o, (shares k x m (fun r => seen k (x r) m) second res r)[i]? = some (v, o) := fun r i hgi => by
    have hlt : i < (shares k x m (fun r => seen k (x r) m) second res r).length := by
      rw [hl r]
      have := (List.getElem?_eq_some_iff.1 hgi).1
      rwa [gids, List.length_map] at this
    have e1 : (shares k x m (fun r => seen k (x r) m) second res r)[i]? = some (shares k x m (fun r => seen k (x r) m) second res r)[i] := List.getElem?_eq_getElem hlt
    generalize (shares k x m (fun r => seen k (x r) m) second res r)[i] = y at e1
    obtain ⟨u, o⟩ := y
    refine ⟨o, ?_⟩
    have e2 := Option.some.inj ((gids_share hc h2 e1).symm.trans hgi)
    have e3 : u = v := by
      refine Fin.ext (ids_inj hn (List.getElem?_eq_getElem u.2) (List.getElem?_eq_getElem v.2) ?_)
      have := hid m.verts[u] (List.getElem_mem _)
      have := hid m.verts[v] (List.getElem_mem _)
      simp only [Fin.getElem_fin] at *
      omega
    rw [e1, e3]
  obtain ⟨⟨r0, i0⟩, h8, -⟩ := honce v
  unfold globalValue
  simp only [hget]
  rw [Finset.sum_eq_single r0, Finset.sum_eq_single i0]
  · rw [if_pos (gids_share hc h2 h8), List.getD_eq_getElem?_getD, ((h7 r0).2 i0 v).1 h8]
    rfl
  · intro i _ hine
    by_cases hgi : (gids (res r0).mesh)[i]? = some m.verts[v].globalIndex.toNat
    · obtain ⟨o, ho⟩ := hcopy r0 i hgi
      cases o with
      | true => exact absurd (share_unique hc h2 ho h8).2 hine
      | false =>
        rw [if_pos hgi, List.getD_eq_getElem?_getD, ((h7 r0).2 i v).2 ho, replicate_getD]
        rfl
    · exact if_neg hgi
  · intro hi0
    exact absurd (Finset.mem_range.2 (List.getElem?_eq_some_iff.1 (gids_share hc h2 h8)).1) hi0
  · intro r _ hrne
    refine Finset.sum_eq_zero fun i _ => ?_
    by_cases hgi : (gids (res r).mesh)[i]? = some m.verts[v].globalIndex.toNat
    · obtain ⟨o, ho⟩ := hcopy r i hgi
      cases o with
      | true => exact absurd (share_unique hc h2 ho h8).1 hrne
      | false =>
        rw [if_pos hgi, List.getD_eq_getElem?_getD, ((h7 r).2 i v).2 ho, replicate_getD]
        rfl
    · exact if_neg hgi
  · simp

theorem tagged_needed (hm : m.Ok) (hc : m.verts.map core = m.verts) (hn : (ids m).Nodup) {support : Option ℚ} {box : Box (d + 1)} {y : Local (d + 1)} {own : Mesh (d + 1)} {v : Vertex (d + 1)}
    (hv : v ∈ m.verts) (hr : Reach k y v = true) (ht : rbfFirst support box own (seen k y m) v.globalIndex = true) : Needed support box k y own v := by
  unfold rbfFirst at ht
  rw [Bool.and_eq_true] at ht
  obtain ⟨w, hw, hg⟩ := List.any_eq_true.1 ht.2
  rw [Bool.and_eq_true, decide_eq_true_iff] at hg
  obtain ⟨i, hi, rfl⟩ := List.getElem_of_mem hw
  obtain ⟨j, u, hu, -, hname, hco⟩ := restricts_down hc (seen_restricts hm hn k y) hi
  rw [name_some (List.getElem?_eq_getElem hi), hg.1] at hname
  rw [coordsOf_some (List.getElem?_eq_getElem hi)] at hco
  obtain ⟨l, hl⟩ := List.getElem?_of_mem hv
  obtain rfl := ids_inj hn hu hl hname.symm
  obtain rfl := Option.some.inj (hu.symm.trans hl)
  refine ⟨by simpa using ht.1, hr, fun R hR => ?_⟩
  subst hR
  rw [← hco]
  exact hg.2

/-- **Disagreement: a vertex of the received mesh that no rank needs makes the mapping fail.** With a positive definite basis function and distinct vertices, a serial run works (C114), and so
does the distribution of the mesh; but then the primary rank accesses memory out of bounds. -/
theorem C115_lost (e : Eigen) (he : e.Valid) (kind : Basis.Kind) (hk : Basis.Definite kind) (R shape : ℝ) (f : Basis.Fn) (hf : Basis.constructRBF kind R shape = some f) (pol : Polynomial)
    (hpol : pol ≠ .on) (active : Fin 3 → Bool) {m : Mesh (d + 1)} (hm : m.Ok) (hc : m.verts.map core = m.verts) (hn : (ids m).Nodup) (k : Cfg)
    (x : Fin (n + 1) → Local (d + 1)) (hid : ∀ v ∈ m.verts, 0 ≤ v.globalIndex ∧ v.globalIndex < m.verts.length) (hcfg : k.mapped = true) (hdir : k.direct = false)
    (hp : k.filter ≠ .none → ∀ r, (x r).provided = true → ∃ v ∈ m.verts, inside (prepareBox k (x r)) v = true)
    (own : Fin (n + 1) → Mesh (d + 1)) (box : Fin (n + 1) → Box (d + 1)) (support : Option ℚ) (htag : ∀ r, (x r).tag1 = rbfFirst support (box r) (own r))
    (hX : Distinct active (positions m)) (hsome : ∃ v ∈ m.verts, ∃ r, Needed support (box r) k (x r) (own r) v)
    (hlost : ∃ v ∈ m.verts, ∀ r, ¬ Needed support (box r) k (x r) (own r) v) {b : ℕ} :
    (∀ (M : ℕ) (Y : Fin M → Point), (construct e f.definite f.eval pol active (positions m) Y).isSome) ∧
    ∃ res, RNet.AlwaysCompletes (fun r => compute k m.verts.length (x r) r (start m r)) res ∧
      ∀ vals : Fin (n + 1) → List (Row b), (∀ r, (vals r).length = (res r).mesh.verts.length) →
        (∃ l p, RNet.Steps l (consistentJob ⟨e, f.definite, f.eval, pol, active⟩ m.verts.length (fun r => rbfPart (res r).mesh (own r)) vals) p ∧ p 0 = .fail .assert) ∧
        ¬ ∃ out, RNet.AlwaysCompletes (consistentJob ⟨e, f.definite, f.eval, pol, active⟩ m.verts.length (fun r => rbfPart (res r).mesh (own r)) vals) out := by
  refine ⟨fun M Y => (C114_definite he kind hk R shape f hf hpol _ _).2 hX, ?_⟩
  obtain ⟨second, res, h1, h2⟩ := C112_repartition hm hc hn k x m.verts.length hid (.inl hcfg) hp (by
    obtain ⟨v, hv, r, hr⟩ := hsome
    refine ⟨r, v, hv, hr.2.1, ?_⟩
    rw [needed_tagged (fun M g h => by rw [htag r]; exact h) hr (seen_has hc (seen_restricts hm hn k (x r)) hv hr.2.1), Bool.or_true])
  refine ⟨res, h1, fun vals hvals => ?_⟩
  set ids' := shares k x m (fun r => seen k (x r) m) second res with hids
  have hL : ((allRanks n).flatMap fun r => owned (ids' r)).Nodup := by
    refine flatMap_nodup _ (fun r => owned_nodup fun v i j hi hj => (share_unique hc h2 hi hj).2) fun r r' v hv hv' => ?_
    obtain ⟨i, hi⟩ := List.mem_iff_getElem?.1 (mem_owned.1 hv)
    obtain ⟨j, hj⟩ := List.mem_iff_getElem?.1 (mem_owned.1 hv')
    exact (share_unique hc h2 hi hj).1
  have hins : ((allRanks n).flatMap fun r => owned (rbfPart (res r).mesh (own r)).ins) = ((allRanks n).flatMap fun r => owned (ids' r)).map (positions m) := by
    rw [List.map_flatMap]
    congr 1
    funext r
    have := congrFun (rbfPart_eq hc h2 own) r
    rw [this]
    exact owned_map _ _
  have hlen : ((allRanks n).flatMap fun r => owned (rbfPart (res r).mesh (own r)).ins).length ≠ m.verts.length := by
    rw [hins, List.length_map]
    obtain ⟨v, hv, hno⟩ := hlost
    obtain ⟨i, hi, rfl⟩ := List.getElem_of_mem hv
    intro heq
    have hmem : (⟨i, hi⟩ : Fin m.verts.length) ∈ (allRanks n).flatMap fun r => owned (ids' r) := by
      have h3 := List.toFinset_card_of_nodup hL
      rw [heq] at h3
      have h4 := Finset.eq_univ_of_card _ (h3.trans (Fintype.card_fin _).symm)
      exact List.mem_toFinset.1 (h4 ▸ Finset.mem_univ _)
    obtain ⟨r, -, hr⟩ := List.mem_flatMap.1 hmem
    obtain ⟨j, hj⟩ := List.mem_iff_getElem?.1 (mem_owned.1 hr)
    have h5 := countP_pos_of_share hc h2 hj
    have h6 := h2.owner m.verts[i] (List.getElem_mem _)
    rw [if_neg] at h6
    · exact h5.ne' (Finset.sum_eq_zero_iff.1 h6 r (Finset.mem_univ r))
    · rintro ⟨q, hq, ht⟩
      rw [Bool.or_eq_true] at ht
      rcases ht with ht | ht
      · unfold Accessed at ht
        rw [hdir] at ht
        cases ht
      · rw [htag q] at ht
        exact hno q (tagged_needed hm hc hn (List.getElem_mem _) hq ht)
  have hD : Distinct active ((allRanks n).flatMap fun r => owned (rbfPart (res r).mesh (own r)).ins).get := by
    have : ∀ l : List Point, l = ((allRanks n).flatMap fun r => owned (ids' r)).map (positions m) → Distinct active l.get := by
      rintro l rfl i j hij
      have h3 := hX _ _ fun a ha => by simpa using hij a ha
      have h4 := (List.getElem_inj hL).1 h3
      exact Fin.ext h4
    exact this _ hins
  obtain ⟨s, hs⟩ := Option.isSome_iff_exists.1 ((C114_definite he kind hk R shape f hf hpol
    ((allRanks n).flatMap fun r => owned (rbfPart (res r).mesh (own r)).ins).get ((allRanks n).flatMap fun r => (rbfPart (res r).mesh (own r)).outs).get).2 hD)
  exact C96_unowned ⟨e, f.definite, f.eval, pol, active⟩ hpol m.verts.length (fun r => rbfPart (res r).mesh (own r)) vals (fun r => by rw [hvals r]; simp [rbfPart]) s hs hlen

end Verif.Mapping
