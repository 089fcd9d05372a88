import Verif.Dist.TwoLevelMesh
import Verif.Dist.TwoLevel
import Verif.Dist.RepartitionProps
import Verif.Net.BufferedBind

/-!
# The mesh of a rank with two-level initialization (C116)

Model of `ReceivedPartition::compute` (`/repo/src/partition/ReceivedPartition.cpp:93-175`) of a parallel participant with two-level initialization, up to the second filter. The
functions it calls are those of `Verif.Repartition`; ownership is decided by `Verif.Dist.createOwnersTwoLevel`. Messages are buffered, as ownership uses asynchronous sends.
-/

set_option autoImplicit false

namespace Verif.TwoLevelInit

open Verif.Dist Verif.Com Verif.Repartition

variable {d p n : ℕ}

/-- The mesh is replaced: `clear` and `addMesh`, ReceivedPartition.cpp:170-171, 367-368. -/
def replaced {ι M : Type} (m : Mesh d) : Prog ι M (Mesh d) :=
  match Mesh.addMesh (Mesh.empty d) m with
  | some m' => .ret m'
  | none => .fail .assert

/-- `filterByBoundingBox` with two-level initialization, ReceivedPartition.cpp:291-380: the filter on the primary rank is an error (291-297); nothing is broadcast (347); each
rank filters what it has received. -/
def filterOwn {ι M : Type} (g : GeoFilter) (provided : Bool) (bb : Box d) (m : Mesh d) : Prog ι M (Mesh d) :=
  match g with
  | .onPrimary => .fail .check
  | .onSecondary => (replaced (Mesh.filter (Mesh.empty d) m (inside bb))).bind fun m' => .ensure .check (provided = true → m'.verts ≠ []) (.ret m')
  | .none => .ret m

/-- `compute`, ReceivedPartition.cpp:140-171, on rank `r` with the received mesh `m`; `pos` are the coordinates of the vertices by global ID, which the code reads from the
mesh. -/
def computeTwoLevel (c : Cfg) (pos : ℕ → Pt (d + 1)) (x : Local (d + 1)) (r : Fin (n + 1)) (m : Mesh (d + 1)) : Prog (Fin (n + 1)) (OwnMsg (d + 1) n) (Mesh (d + 1)) :=
  .ensure .check (r = 0 → c.mapped = true ∨ c.direct = true) <|
  (filterOwn c.filter x.provided (prepareBox c x) m).bind fun m =>
  let m1 := tagFirst c x m
  (createOwnersTwoLevel pos r (prepareBox c x) (ownerView m1)).bind fun own =>
  let m2 := setOwners own m1
  let m3 := tagVerts (fun v => x.tag2 m2 v.globalIndex) m2
  replaced (Mesh.filter (Mesh.empty (d + 1)) m3 fun v => v.tagged)

/-! ## Proof -/

/-- The whole mesh, put together in the order of the ranks. With one-level initialization the provider gathers it (C66, C67). -/
def whole (m : Fin (p + 1) → Mesh d) : Mesh d := ((List.finRange (p + 1)).map m).foldl appended (Mesh.empty d)

/-- What a rank with the box `b` receives. -/
def gotten (box : Fin (p + 1) → Box d) (b : Box d) (m : Fin (p + 1) → Mesh d) : Mesh d :=
  (((List.finRange (p + 1)).filter fun r => b.overlapping (box r)).map m).foldl appended (Mesh.empty d)

theorem replaced_ok {ι M : Type} {m : Mesh d} (h : m.Ok) : (replaced m : Prog ι M (Mesh d)) = .ret m := by
  unfold replaced
  rw [addMesh_empty h]

theorem whole_ok {m : Fin (p + 1) → Mesh d} (hm : ∀ r, (m r).Ok) : (whole m).Ok :=
  foldl_ok (fun x hx => by obtain ⟨r, -, rfl⟩ := List.mem_map.1 hx; exact hm r) empty_ok

theorem gotten_ok (box : Fin (p + 1) → Box d) (b : Box d) {m : Fin (p + 1) → Mesh d} (hm : ∀ r, (m r).Ok) : (gotten box b m).Ok :=
  foldl_ok (fun x hx => by obtain ⟨r, -, rfl⟩ := List.mem_map.1 hx; exact hm r) empty_ok

theorem whole_verts (m : Fin (p + 1) → Mesh d) : (whole m).verts = (List.finRange (p + 1)).flatMap fun r => (m r).verts.map core := by
  unfold whole
  rw [foldl_verts, List.flatMap_map]
  rfl

theorem whole_core (m : Fin (p + 1) → Mesh d) : (whole m).verts.map core = (whole m).verts := by
  rw [whole_verts, List.map_flatMap]
  refine congrArg (fun f => (List.finRange (p + 1)).flatMap f) (funext fun r => ?_)
  rw [List.map_map]
  rfl

/-- Filtering by the box gives the same for what was received and for the whole mesh. -/
theorem gotten_filter (box : Fin (p + 1) → Box d) (b : Box d) {m : Fin (p + 1) → Mesh d} (hm : ∀ r, (m r).Ok) (hbox : ∀ r, ∀ v ∈ (m r).verts, (box r).contains v.coords = true) :
    Mesh.filter (Mesh.empty d) (gotten box b m) (inside b) = Mesh.filter (Mesh.empty d) (whole m) (inside b) := by
  refine filter_foldl_sub (inside b) (fun v => rfl) m hm (fun r => b.overlapping (box r)) ?_ _
  intro r hr v hv
  by_contra h
  rw [Bool.not_eq_false] at h
  rw [overlapping_of_common h (hbox r v hv)] at hr
  exact Bool.true_eq_false_eq_False hr

theorem candidates_gotten (box : Fin (p + 1) → Box (d + 1)) {m : Fin (p + 1) → Mesh (d + 1)} (hm : ∀ r, (m r).Ok)
    (hbox : ∀ r, ∀ v ∈ (m r).verts, (box r).contains v.coords = true) {c : Cfg} (hf : c.filter = .onSecondary) (x : Local (d + 1)) :
    candidates c x (gotten box (prepareBox c x) m) = candidates c x (whole m) := by
  unfold candidates
  rw [if_neg (by rw [hf]; decide), if_neg (by rw [hf]; decide), gotten_filter box _ hm hbox]

/-- All ranks complete with two-level initialization; `own` are the owner vectors. -/
theorem computeTwoLevel_completes {m : Fin (n + 1) → Mesh (d + 1)} (hm : ∀ r, (m r).Ok) (c : Cfg) (pos : ℕ → Pt (d + 1)) (x : Fin (n + 1) → Local (d + 1))
    (hcfg : c.mapped = true ∨ c.direct = true) (hf : c.filter ≠ .onPrimary) (hp : c.filter ≠ .none → ∀ r, (x r).provided = true → (candidates c (x r) (m r)).verts ≠ [])
    {own : Fin (n + 1) → List Bool}
    (ho : Net.AlwaysCompletes (RNet.toNet fun r => createOwnersTwoLevel pos r (prepareBox c (x r)) (ownerView (tagFirst c (x r) (candidates c (x r) (m r))))) own)
    (hl : ∀ r, (own r).length = (candidates c (x r) (m r)).verts.length) :
    Net.AlwaysCompletes (RNet.toNet fun r => computeTwoLevel c pos (x r) r (m r)) fun r => kept c (x r) (m r) (own r) := by
  have h1 : ∀ r, (filterOwn c.filter (x r).provided (prepareBox c (x r)) (m r) : Prog (Fin (n + 1)) (OwnMsg (d + 1) n) (Mesh (d + 1))) = .ret (candidates c (x r) (m r)) := by
    intro r
    unfold filterOwn
    have hp := fun h => hp h r
    unfold candidates at hp ⊢
    cases hc : c.filter with
    | onPrimary => exact absurd hc hf
    | none => simp
    | onSecondary =>
      rw [hc] at hp
      simp only [reduceCtorEq, if_false] at hp ⊢
      rw [replaced_ok (filter_ok (hm r) _)]
      simp only [Prog.ret_bind, Prog.ensure, if_pos (hp (by simp))]
  unfold computeTwoLevel
  simp only [Prog.ensure, hcfg, implies_true, if_true, h1, Prog.ret_bind]
  refine Net.AlwaysCompletes.bind ho (f := fun r own => replaced (Mesh.filter (Mesh.empty (d + 1))
      (tagVerts (fun v => (x r).tag2 (setOwners own (tagFirst c (x r) (candidates c (x r) (m r)))) v.globalIndex) (setOwners own (tagFirst c (x r) (candidates c (x r) (m r)))))
      fun v => v.tagged)) ?_
  have e : ∀ r, (replaced (Mesh.filter (Mesh.empty (d + 1))
      (tagVerts (fun v => (x r).tag2 (setOwners (own r) (tagFirst c (x r) (candidates c (x r) (m r)))) v.globalIndex) (setOwners (own r) (tagFirst c (x r) (candidates c (x r) (m r)))))
      fun v => v.tagged) : Prog (Fin (n + 1)) (OwnMsg (d + 1) n) _) = .ret (kept c (x r) (m r) (own r)) := fun r =>
    replaced_ok (filter_ok (tagged_ok (owned_ok (hm r) (hl r)) _) _)
  simp only [e]
  exact Net.completes_ret

/-- The global IDs of the parts are those of C57: consecutive numbers in the order of the ranks. -/
def Numbered (m : Fin (p + 1) → Mesh d) : Prop :=
  ∀ r i v, (m r).verts[i]? = some v → v.globalIndex = ((before (fun s => (m s).verts.length) r.val + i : ℕ) : ℤ)

theorem gids_part {m : Fin (p + 1) → Mesh d} (h : Numbered m) (r : Fin (p + 1)) : gids (m r) = idsFrom (before (fun s => (m s).verts.length) r.val) (m r).verts.length := by
  refine List.ext_getElem? fun i => ?_
  unfold gids idsFrom
  rw [List.getElem?_map, List.getElem?_map]
  by_cases hi : i < (m r).verts.length
  · rw [List.getElem?_range hi, List.getElem?_eq_getElem hi, Option.map_some, Option.map_some, h r i _ (List.getElem?_eq_getElem hi), Int.toNat_natCast]
  · rw [List.getElem?_eq_none (by omega), List.getElem?_eq_none (by simpa using hi)]
    rfl

theorem blocks_range {k : ℕ} (count : Fin k → ℕ) : ∀ j, j ≤ k → ((List.finRange k).take j).flatMap (fun r => idsFrom (before count r.val) (count r)) = List.range (before count j) := by
  intro j
  induction j with
  | zero => intro _; simp [before_zero]
  | succ j ih =>
    intro hj
    have hlt : j < k := hj
    rw [List.take_add_one, List.flatMap_append, ih (by omega), show (List.finRange k)[j]? = some ⟨j, hlt⟩ from by simp [hlt]]
    have hb := before_succ count ⟨j, hlt⟩
    simp only at hb
    rw [hb, List.range_add]
    simp [idsFrom]

theorem gids_whole {m : Fin (p + 1) → Mesh d} (h : Numbered m) : gids (whole m) = List.range (∑ r, (m r).verts.length) := by
  have h1 := blocks_range (fun s => (m s).verts.length) (p + 1) le_rfl
  rw [List.take_of_length_le (by simp), before_all] at h1
  rw [← h1]
  unfold gids
  rw [whole_verts, List.map_flatMap]
  refine congrArg (fun f => (List.finRange (p + 1)).flatMap f) (funext fun r => ?_)
  rw [← gids_part h r, List.map_map]
  rfl

theorem whole_pos {m : Fin (p + 1) → Mesh d} (h : Numbered m) : ∀ v ∈ (whole m).verts, 0 ≤ v.globalIndex := by
  intro v hv
  rw [whole_verts, List.mem_flatMap] at hv
  obtain ⟨r, -, hv⟩ := hv
  obtain ⟨w, hw, rfl⟩ := List.mem_map.1 hv
  obtain ⟨i, hi⟩ := List.mem_iff_getElem?.1 hw
  show 0 ≤ w.globalIndex
  rw [h r i w hi]
  exact Int.natCast_nonneg _

theorem ids_gids {m : Mesh d} (h : ∀ v ∈ m.verts, 0 ≤ v.globalIndex) : ids m = (gids m).map fun g : ℕ => (g : ℤ) := by
  unfold ids gids
  rw [List.map_map]
  refine List.map_congr_left fun v hv => ?_
  have := h v hv
  simp only [Function.comp_apply]
  omega

theorem ids_whole {m : Fin (p + 1) → Mesh d} (h : Numbered m) : (ids (whole m)).Nodup := by
  rw [ids_gids (whole_pos h), gids_whole h]
  exact List.Nodup.map (fun a b e => by simpa using e) List.nodup_range

end Verif.TwoLevelInit
