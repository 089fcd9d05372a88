import Verif.Net.Choreo
import Verif.Net.Lift
import Verif.Dist.GlobalIds
import Verif.Dist.TwoLevel
import Verif.Dist.PointToPoint
import Verif.Dist.RepartitionProps

/-!
# Two-level initialization (C116)

Model of the communication of two-level initialization between a participant with `p + 1` ranks that provides a mesh and one with `n + 1` ranks that receives it:
`compareBoundingBoxes` and `communicate` of `/repo/src/partition/ProvidedPartition.cpp:35-80, 246-345` and `/repo/src/partition/ReceivedPartition.cpp:44-91, 381-478`,
`compute` of both (ProvidedPartition.cpp:232-243, ReceivedPartition.cpp:93-204) with the functions of `/repo/src/m2n/PointToPointCommunication.cpp:586-700` they call.

Simplifications: sends block until the message is taken; boxes, maps of boxes, connection maps and meshes are one message each (C66 and C67 are about the pieces); a broadcast is
a message to every secondary rank in turn; connections exist already, the code establishes those of connected ranks between `compareBoundingBoxes` and `communicate`
(PointToPointCommunication.cpp:423-452, 556-584). The code also asserts that both participants are parallel.
-/

set_option autoImplicit false

namespace Verif.TwoLevelInit

open Verif.Dist Verif.Com Verif.Repartition Ordered

variable {d p n : ℕ}

/-- What is sent. `boxes` is a map from ranks of the provider, `conn` one from ranks of the receiver; both are iterated in ascending order. -/
inductive Msg (d p n : ℕ) where
  | num (k : ℕ)
  | int (z : ℤ)
  | box (b : Box d)
  | boxes (l : List (Fin (p + 1) × Box d))
  | found (l : List (Fin (p + 1)))
  | ranks (l : List (Fin (n + 1)))
  | conn (l : List (Fin (n + 1) × List (Fin (p + 1))))
  | mesh (m : Mesh d)
  | ids (l : List ℤ)

abbrev Do (d p n : ℕ) (α : Type) := Prog (Ranks p n) (Msg d p n) α

/-- Receive a message of a certain kind. Anything else would be bytes of another type: the code does not check, the model fails. -/
def getNum {α : Type} (q : Ranks p n) (k : ℕ → Do d p n α) : Do d p n α := .recv q fun | .num x => k x | _ => .fail .assert
def getInt {α : Type} (q : Ranks p n) (k : ℤ → Do d p n α) : Do d p n α := .recv q fun | .int x => k x | _ => .fail .assert
def getBox {α : Type} (q : Ranks p n) (k : Box d → Do d p n α) : Do d p n α := .recv q fun | .box x => k x | _ => .fail .assert
def getBoxes {α : Type} (q : Ranks p n) (k : List (Fin (p + 1) × Box d) → Do d p n α) : Do d p n α := .recv q fun | .boxes x => k x | _ => .fail .assert
def getFound {α : Type} (q : Ranks p n) (k : List (Fin (p + 1)) → Do d p n α) : Do d p n α := .recv q fun | .found x => k x | _ => .fail .assert
def getRanks {α : Type} (q : Ranks p n) (k : List (Fin (n + 1)) → Do d p n α) : Do d p n α := .recv q fun | .ranks x => k x | _ => .fail .assert
def getConn {α : Type} (q : Ranks p n) (k : List (Fin (n + 1) × List (Fin (p + 1))) → Do d p n α) : Do d p n α :=
  .recv q fun | .conn x => k x | _ => .fail .assert
def getMesh {α : Type} (q : Ranks p n) (k : Mesh d → Do d p n α) : Do d p n α := .recv q fun | .mesh x => k x | _ => .fail .assert
def getIds {α : Type} (q : Ranks p n) (k : List ℤ → Do d p n α) : Do d p n α := .recv q fun | .ids x => k x | _ => .fail .assert

/-- Send the same to every one of a list. -/
def tell {β : Type} (l : List β) (g : β → Ranks p n) (m : Msg d p n) : Do d p n (List Unit) := collect (fun x => .send (g x) m (.ret ())) l

/-- The ranks of the receiver in whose entry a rank of the provider is, ProvidedPartition.cpp:303-313, 332-342. -/
def connectedTo (r : Fin (p + 1)) (m : List (Fin (n + 1) × List (Fin (p + 1)))) : List (Fin (n + 1)) := m.flatMap fun x => (x.2.filter (· = r)).map fun _ => x.1

/-- The ranks of the provider whose boxes overlap, ReceivedPartition.cpp:425-429, 463-467. -/
def overlapped (bb : Box d) (m : List (Fin (p + 1) × Box d)) : List (Fin (p + 1)) := (m.filter fun x => bb.overlapping x.2).map (·.1)

/-- `ProvidedPartition::compareBoundingBoxes`, ProvidedPartition.cpp:246-345, on rank `r` with the bounding box `b` of its part; the result is what is given to
`setConnectedRanks`. -/
def compareProvided (r : Fin (p + 1)) (b : Box d) : Do d p n (List (Fin (n + 1))) :=
  if r = 0 then
    (collect (fun q => getBox (.inl q) fun b => .ret (q, b)) (secondaries p)).bind fun bs =>
    .send (.inr 0) (.num (p + 1)) <| .send (.inr 0) (.boxes ((0, b) :: bs)) <|
    getRanks (.inr 0) fun l =>
    (if l = [] then .ret [] else getConn (.inr 0) .ret : Do d p n _).bind fun m =>
    (tell (secondaries p) .inl (.ranks l)).bind fun _ =>
    (if l = [] then .ret [] else tell (secondaries p) .inl (.conn m)).bind fun _ => .ret (connectedTo r m)
  else
    .send (.inl 0) (.box b) <| getRanks (.inl 0) fun l => if l = [] then .ret [] else getConn (.inl 0) fun m => .ret (connectedTo r m)

/-- `ReceivedPartition::compareBoundingBoxes`, ReceivedPartition.cpp:381-478, on rank `r` with the prepared bounding box `bb`. Received maps have to have the announced size,
CommunicateBoundingBox.cpp:101-113. -/
def compareReceived (r : Fin (n + 1)) (bb : Box d) : Do d p n (List (Fin (p + 1))) :=
  if r = 0 then
    getNum (.inl 0) fun k => (tell (secondaries n) .inr (.num k)).bind fun _ =>
    getBoxes (.inl 0) fun m => .ensure .assert (m.length = k) <| (tell (secondaries n) .inr (.boxes m)).bind fun _ =>
    (collect (fun q => getFound (.inr q) fun l => .ret (q, l)) (secondaries n)).bind fun ls =>
    .send (.inl 0) (.ranks (((0, overlapped bb m) :: ls).filter (fun x => x.2 ≠ [])|>.map (·.1))) <|
    .ensure .check (((0, overlapped bb m) :: ls).filter (fun x => x.2 ≠ []) ≠ []) <|
    .send (.inl 0) (.conn (((0, overlapped bb m) :: ls).filter fun x => x.2 ≠ [])) (.ret (overlapped bb m))
  else
    getNum (.inr 0) fun k => getBoxes (.inr 0) fun m => .ensure .assert (m.length = k) <|
    .send (.inr 0) (.found (overlapped bb m)) (.ret (overlapped bb m))

/-- What the two-level branch of `ProvidedPartition::communicate` sends, ProvidedPartition.cpp:54-80: `m` is the mesh of the rank, `offs` are the vertex offsets, `conn` the
connected ranks (`broadcastSend`, `broadcastSendMesh`, PointToPointCommunication.cpp:657-662, 674-679). -/
def sendParts (r : Fin (p + 1)) (total : ℕ) (offs : List ℕ) (m : Mesh d) (conn : List (Fin (n + 1))) : Do d p n Unit :=
  (if r = 0 then .send (.inr 0) (.num total) (.ret ()) else .ret () : Do d p n Unit).bind fun _ =>
  (tell conn .inr (.int ((offs.getD r 0 : ℤ) - m.verts.length))).bind fun _ =>
  (tell conn .inr (.int ((offs.getD r 0 : ℤ) - 1))).bind fun _ =>
  (tell conn .inr (.mesh m)).bind fun _ => .ret ()

/-- What a rank of the receiver knows after `communicate`: connected ranks, their smallest and largest global IDs, the mesh and the global number of vertices. -/
structure Got (d p : ℕ) where
  conn : List (Fin (p + 1))
  mins : List ℤ
  maxs : List ℤ
  mesh : Mesh d
  total : ℕ

/-- `ReceivedPartition::communicate`, ReceivedPartition.cpp:44-91, for two-level initialization (`broadcastReceiveAll`, `broadcastReceiveAllMesh`,
PointToPointCommunication.cpp:664-672, 681-686). Meshes are added one after the other (`appended`, C66). -/
def receiveParts (r : Fin (n + 1)) (conn : List (Fin (p + 1))) : Do d p n (Got d p) :=
  (if r = 0 then getNum (.inl 0) .ret else .ret 0 : Do d p n ℕ).bind fun t =>
  (collect (fun q => getInt (.inl q) .ret) conn).bind fun mins =>
  (collect (fun q => getInt (.inl q) .ret) conn).bind fun maxs =>
  (collect (fun q => getMesh (.inl q) .ret) conn).bind fun ms =>
  (if r = 0 then (tell (secondaries n) .inr (.num t)).bind fun _ => .ret t else getNum (.inr 0) .ret : Do d p n ℕ).bind fun t =>
  .ret ⟨conn, mins, maxs, ms.foldl appended (Mesh.empty d), t⟩

/-- Both, on a rank of either participant. -/
def setup (box : Fin (p + 1) → Box d) (bb : Fin (n + 1) → Box d) (total : ℕ) (offs : List ℕ) (part : Fin (p + 1) → Mesh d) :
    Ranks p n → Do d p n (List (Fin (n + 1)) ⊕ Got d p)
  | .inl r => (compareProvided r (box r)).bind fun conn => (sendParts r total offs (part r) conn).bind fun _ => .ret (.inl conn)
  | .inr r => (compareReceived r (bb r)).bind fun conn => (receiveParts r conn).bind fun g => .ret (.inr g)

/-! ## Proof -/

theorem follows_tell {β : Type} (l : List β) (g : β → Ranks p n) (m : Msg d p n) : Follows (tell l g m) (l.map fun x => .send (g x) m) (l.map fun _ => ()) := by
  unfold tell
  have := follows_collect (ι := Ranks p n) (M := Msg d p n) (f := fun x => .send (g x) m (.ret ())) (acts := fun x => [.send (g x) m]) (res := fun _ => ()) l
    fun x _ => .send _ _ (.ret _)
  rwa [← List.map_eq_flatMap] at this

theorem follows_ask {β γ : Type} (l : List β) (g : β → Ranks p n) (f : β → Msg d p n) {k : β → Do d p n γ} {res : β → γ}
    (h : ∀ x ∈ l, Follows (k x) [.recv (g x) (f x)] (res x)) : Follows (collect k l) (l.map fun x => .recv (g x) (f x)) (l.map res) := by
  have := follows_collect l h
  rwa [← List.map_eq_flatMap] at this

/-- The connection map the code builds. -/
def connMap (box : Fin (p + 1) → Box d) (bb : Fin (n + 1) → Box d) : List (Fin (n + 1) × List (Fin (p + 1))) :=
  (((List.finRange (n + 1)).map fun q => (q, (List.finRange (p + 1)).filter fun r => (bb q).overlapping (box r))).filter fun x => x.2 ≠ [])

/-- The pairs of connected ranks. -/
def pairs (box : Fin (p + 1) → Box d) (bb : Fin (n + 1) → Box d) : List (Fin (p + 1) × Fin (n + 1)) :=
  (List.finRange (p + 1)).flatMap fun r => ((List.finRange (n + 1)).filter fun q => (bb q).overlapping (box r)).map fun q => (r, q)

/-- All boxes of the provider. -/
def allBoxes (box : Fin (p + 1) → Box d) : List (Fin (p + 1) × Box d) := (List.finRange (p + 1)).map fun r => (r, box r)

/-- The transfers of `compareBoundingBoxes`. -/
def compareChoreo (box : Fin (p + 1) → Box d) (bb : Fin (n + 1) → Box d) : Choreo (Ranks p n) (Msg d p n) :=
  ((secondaries p).map fun q => (.inl q, .inl 0, .box (box q))) ++
  ([(.inl 0, .inr 0, .num (p + 1))] ++
  (((secondaries n).map fun q => (.inr 0, .inr q, .num (p + 1))) ++
  ([(.inl 0, .inr 0, .boxes (allBoxes box))] ++
  (((secondaries n).map fun q => (.inr 0, .inr q, .boxes (allBoxes box))) ++
  (((secondaries n).map fun q => (.inr q, .inr 0, .found ((List.finRange (p + 1)).filter fun r => (bb q).overlapping (box r)))) ++
  ([(.inr 0, .inl 0, .ranks ((connMap box bb).map (·.1)))] ++
  ([(.inr 0, .inl 0, .conn (connMap box bb))] ++
  (((secondaries p).map fun q => (.inl 0, .inl q, .ranks ((connMap box bb).map (·.1)))) ++
  ((secondaries p).map fun q => (.inl 0, .inl q, .conn (connMap box bb)))))))))))

/-- The transfers of `communicate`. -/
def partsChoreo (box : Fin (p + 1) → Box d) (bb : Fin (n + 1) → Box d) (total : ℕ) (lo hi : Fin (p + 1) → ℤ) (part : Fin (p + 1) → Mesh d) : Choreo (Ranks p n) (Msg d p n) :=
  [(.inl 0, .inr 0, .num total)] ++
  (((pairs box bb).map fun x => (.inl x.1, .inr x.2, .int (lo x.1))) ++
  (((pairs box bb).map fun x => (.inl x.1, .inr x.2, .int (hi x.1))) ++
  (((pairs box bb).map fun x => (.inl x.1, .inr x.2, .mesh (part x.1))) ++
  ((secondaries n).map fun q => (.inr 0, .inr q, .num total)))))

theorem finRange_secondaries (k : ℕ) : List.finRange (k + 1) = 0 :: secondaries k := by
  rw [List.finRange_succ]
  rfl

theorem overlapped_all (b : Box d) (box : Fin (p + 1) → Box d) : overlapped b (allBoxes box) = (List.finRange (p + 1)).filter fun r => b.overlapping (box r) := by
  unfold overlapped allBoxes
  rw [List.filter_map, List.map_map]
  exact List.map_id _

theorem filter_one {β : Type} [DecidableEq β] (f : β → Bool) {l : List β} (hl : l.Nodup) {r : β} (hr : r ∈ l) :
    (l.filter f).filter (fun a => decide (a = r)) = if f r then [r] else [] := by
  have h0 : ∀ (l : List β), r ∉ l → (l.filter f).filter (fun a => decide (a = r)) = [] := by
    intro l hl
    rw [List.filter_eq_nil_iff]
    intro a ha
    rw [decide_eq_true_eq]
    rintro rfl
    exact hl (List.mem_of_mem_filter ha)
  induction l with
  | nil => cases hr
  | cons a l ih =>
    rw [List.nodup_cons] at hl
    rw [List.filter_cons]
    rcases List.mem_cons.1 hr with rfl | hr
    · split
      · rw [List.filter_cons, if_pos (by simp), h0 l hl.1]
      · exact h0 l hl.1
    · have hne : a ≠ r := fun e => hl.1 (e ▸ hr)
      split
      · rw [List.filter_cons, if_neg (by simpa using hne), ih hl.2 hr]
      · exact ih hl.2 hr

theorem connectedTo_connMap (box : Fin (p + 1) → Box d) (bb : Fin (n + 1) → Box d) (r : Fin (p + 1)) :
    connectedTo r (connMap box bb) = (List.finRange (n + 1)).filter fun q => (bb q).overlapping (box r) := by
  unfold connectedTo connMap
  have hone := fun q : Fin (n + 1) => filter_one (fun s => (bb q).overlapping (box s)) (List.nodup_finRange (p + 1)) (List.mem_finRange r)
  induction List.finRange (n + 1) with
  | nil => rfl
  | cons q l ih =>
    rw [List.map_cons, List.filter_cons, List.filter_cons]
    have h1 := hone q
    by_cases h : (bb q).overlapping (box r) = true
    · rw [if_pos h] at h1
      have hne : (List.finRange (p + 1)).filter (fun s => (bb q).overlapping (box s)) ≠ [] := by
        intro e
        rw [e] at h1
        simp at h1
      rw [if_pos (by simpa using hne), if_pos h, List.flatMap_cons, h1, ih]
      rfl
    · rw [if_neg h] at h1
      rw [if_neg h]
      split
      · rw [List.flatMap_cons, h1, ih]
        rfl
      · exact ih

/-! ### Each rank follows its part -/

section parts

variable (box : Fin (p + 1) → Box d) (bb : Fin (n + 1) → Box d)

theorem inl_ne {r : Fin (p + 1)} (h : r ≠ 0) : (Sum.inl r : Ranks p n) ≠ .inl 0 := fun e => h (Sum.inl.inj e)
theorem inr_ne {r : Fin (n + 1)} (h : r ≠ 0) : (Sum.inr r : Ranks p n) ≠ .inr 0 := fun e => h (Sum.inr.inj e)

/-- Messages of the secondary ranks of the provider to the primary one, and so on. -/
theorem part_up (f : Fin (p + 1) → Msg d p n) : part (.inl 0 : Ranks p n) ((secondaries p).map fun q => (.inl q, .inl 0, f q)) = (secondaries p).map fun q => .recv (.inl q) (f q) :=
  part_recvs _ _ _ _ fun _ hx => inl_ne ((mem_secondaries _).1 hx)

theorem part_up' (f : Fin (p + 1) → Msg d p n) {r : Fin (p + 1)} (hr : r ≠ 0) : part (.inl r : Ranks p n) ((secondaries p).map fun q => (.inl q, .inl 0, f q)) = [.send (.inl 0) (f r)] :=
  part_one_send Sum.inl_injective f (secondaries_nodup p) ((mem_secondaries r).2 hr) (inl_ne hr)

theorem part_up_r (f : Fin (n + 1) → Msg d p n) : part (.inr 0 : Ranks p n) ((secondaries n).map fun q => (.inr q, .inr 0, f q)) = (secondaries n).map fun q => .recv (.inr q) (f q) :=
  part_recvs _ _ _ _ fun _ hx => inr_ne ((mem_secondaries _).1 hx)

theorem part_up_r' (f : Fin (n + 1) → Msg d p n) {r : Fin (n + 1)} (hr : r ≠ 0) : part (.inr r : Ranks p n) ((secondaries n).map fun q => (.inr q, .inr 0, f q)) = [.send (.inr 0) (f r)] :=
  part_one_send Sum.inr_injective f (secondaries_nodup n) ((mem_secondaries r).2 hr) (inr_ne hr)

theorem part_down (f : Fin (p + 1) → Msg d p n) : part (.inl 0 : Ranks p n) ((secondaries p).map fun q => (.inl 0, .inl q, f q)) = (secondaries p).map fun q => .send (.inl q) (f q) :=
  part_sends _ _ _ _

theorem part_down' (f : Fin (p + 1) → Msg d p n) {r : Fin (p + 1)} (hr : r ≠ 0) : part (.inl r : Ranks p n) ((secondaries p).map fun q => (.inl 0, .inl q, f q)) = [.recv (.inl 0) (f r)] :=
  part_one_recv Sum.inl_injective f (secondaries_nodup p) ((mem_secondaries r).2 hr) (inl_ne hr)

theorem part_down_r (f : Fin (n + 1) → Msg d p n) : part (.inr 0 : Ranks p n) ((secondaries n).map fun q => (.inr 0, .inr q, f q)) = (secondaries n).map fun q => .send (.inr q) (f q) :=
  part_sends _ _ _ _

theorem part_down_r' (f : Fin (n + 1) → Msg d p n) {r : Fin (n + 1)} (hr : r ≠ 0) : part (.inr r : Ranks p n) ((secondaries n).map fun q => (.inr 0, .inr q, f q)) = [.recv (.inr 0) (f r)] :=
  part_one_recv Sum.inr_injective f (secondaries_nodup n) ((mem_secondaries r).2 hr) (inr_ne hr)

/-- Messages inside the other participant. -/
theorem part_inside_l (r : Fin (p + 1)) {l : List (Fin (n + 1))} (a b : Fin (n + 1) → Fin (n + 1)) (f : Fin (n + 1) → Msg d p n) :
    part (.inl r : Ranks p n) (l.map fun q => (.inr (a q), .inr (b q), f q)) = [] :=
  part_none fun x hx => by
    obtain ⟨q, -, rfl⟩ := List.mem_map.1 hx
    exact ⟨Sum.inr_ne_inl, Sum.inr_ne_inl⟩

theorem part_inside_r (r : Fin (n + 1)) {l : List (Fin (p + 1))} (a b : Fin (p + 1) → Fin (p + 1)) (f : Fin (p + 1) → Msg d p n) :
    part (.inr r : Ranks p n) (l.map fun q => (.inl (a q), .inl (b q), f q)) = [] :=
  part_none fun x hx => by
    obtain ⟨q, -, rfl⟩ := List.mem_map.1 hx
    exact ⟨Sum.inl_ne_inr, Sum.inl_ne_inr⟩

/-- Messages between the primary ranks. -/
theorem part_lr (m : Msg d p n) : part (.inl 0 : Ranks p n) [(.inl 0, .inr 0, m)] = [.send (.inr 0) m] := by simp [part]
theorem part_lr_r (m : Msg d p n) : part (.inr 0 : Ranks p n) [(.inl 0, .inr 0, m)] = [.recv (.inl 0) m] := by simp [part]
theorem part_rl (m : Msg d p n) : part (.inl 0 : Ranks p n) [(.inr 0, .inl 0, m)] = [.recv (.inr 0) m] := by simp [part]
theorem part_rl_r (m : Msg d p n) : part (.inr 0 : Ranks p n) [(.inr 0, .inl 0, m)] = [.send (.inl 0) m] := by simp [part]
theorem part_lr' (m : Msg d p n) {r : Fin (p + 1)} (hr : r ≠ 0) : part (.inl r : Ranks p n) [(.inl 0, .inr 0, m)] = [] := by simp [part, Ne.symm hr]
theorem part_lr_r' (m : Msg d p n) {r : Fin (n + 1)} (hr : r ≠ 0) : part (.inr r : Ranks p n) [(.inl 0, .inr 0, m)] = [] := by simp [part, Ne.symm hr]
theorem part_rl' (m : Msg d p n) {r : Fin (p + 1)} (hr : r ≠ 0) : part (.inl r : Ranks p n) [(.inr 0, .inl 0, m)] = [] := by simp [part, Ne.symm hr]
theorem part_rl_r' (m : Msg d p n) {r : Fin (n + 1)} (hr : r ≠ 0) : part (.inr r : Ranks p n) [(.inr 0, .inl 0, m)] = [] := by simp [part, Ne.symm hr]

variable {box bb}

theorem connMap_eq : connMap box bb = ((0, (List.finRange (p + 1)).filter fun r => (bb 0).overlapping (box r)) ::
    ((secondaries n).map fun q => (q, (List.finRange (p + 1)).filter fun r => (bb q).overlapping (box r)))).filter fun x => x.2 ≠ [] := by
  unfold connMap
  rw [finRange_secondaries n, List.map_cons]

theorem allBoxes_eq : allBoxes box = (0, box 0) :: (secondaries p).map fun q => (q, box q) := by
  unfold allBoxes
  rw [finRange_secondaries p, List.map_cons]

theorem follows_compareProvided (h : connMap box bb ≠ []) (r : Fin (p + 1)) :
    Follows (compareProvided r (box r)) (part (.inl r : Ranks p n) (compareChoreo box bb)) ((List.finRange (n + 1)).filter fun q => (bb q).overlapping (box r)) := by
  have hl : (connMap box bb).map (·.1) ≠ [] := by simpa using h
  unfold compareProvided compareChoreo
  simp only [part_append]
  by_cases hr : r = 0
  · subst hr
    simp only [part_up, part_down, part_lr, part_rl, part_inside_l, if_true, List.nil_append, List.cons_append]
    refine Follows.bind (follows_ask (secondaries p) .inl (fun q => .box (box q)) (res := fun q => (q, box q)) fun q _ => .recv _ _ (.ret _)) ?_
    refine .send _ _ ?_
    rw [← allBoxes_eq]
    refine .send _ _ (.recv _ _ ?_)
    simp only [if_neg hl]
    refine Follows.recv _ (Msg.conn (connMap box bb)) ?_
    refine Follows.bind (follows_tell (secondaries p) .inl _) ?_
    have := Follows.bind (follows_tell (d := d) (p := p) (n := n) (secondaries p) .inl (Msg.conn (connMap box bb)))
      (f := fun _ => .ret (connectedTo 0 (connMap box bb))) (Follows.ret (connectedTo 0 (connMap box bb)))
    rw [List.append_nil] at this
    rw [← connectedTo_connMap box bb 0]
    exact this
  · simp only [part_up' _ hr, part_down' _ hr, part_lr' _ hr, part_rl' _ hr, part_inside_l, if_neg hr, List.nil_append, List.cons_append]
    refine .send _ _ (.recv _ _ ?_)
    simp only [if_neg hl]
    refine .recv _ _ ?_
    rw [← connectedTo_connMap box bb r]
    exact .ret _

theorem follows_compareReceived (h : connMap box bb ≠ []) (r : Fin (n + 1)) :
    Follows (compareReceived r (bb r)) (part (.inr r : Ranks p n) (compareChoreo box bb)) ((List.finRange (p + 1)).filter fun q => (bb r).overlapping (box q)) := by
  have hlen : (allBoxes box).length = p + 1 := by simp [allBoxes]
  unfold compareReceived compareChoreo
  simp only [part_append]
  by_cases hr : r = 0
  · subst hr
    simp only [part_up_r, part_down_r, part_lr_r, part_rl_r, part_inside_r, if_true, List.nil_append, List.cons_append, List.append_nil]
    refine .recv _ _ (Follows.bind (follows_tell (secondaries n) .inr _) (.recv _ _ ?_))
    simp only [Prog.ensure, if_pos hlen]
    refine Follows.bind (follows_tell (secondaries n) .inr _) ?_
    refine Follows.bind (follows_ask (secondaries n) .inr _ (res := fun q => (q, (List.finRange (p + 1)).filter fun r => (bb q).overlapping (box r)))
      fun q _ => .recv _ _ (.ret _)) ?_
    rw [overlapped_all, ← connMap_eq]
    refine .send _ _ ?_
    rw [if_pos h]
    exact .send _ _ (.ret _)
  · simp only [part_up_r' _ hr, part_down_r' _ hr, part_lr_r' _ hr, part_rl_r' _ hr, part_inside_r, if_neg hr, List.nil_append, List.cons_append]
    refine .recv _ _ (.recv _ _ ?_)
    simp only [Prog.ensure, if_pos hlen, overlapped_all]
    exact .send _ _ (.ret _)

theorem flatMap_one {k : ℕ} {β : Type} (r : Fin k) (g : Fin k → List β) : ((List.finRange k).flatMap fun s => if s = r then g s else []) = g r := by
  have h0 : ∀ l : List (Fin k), r ∉ l → (l.flatMap fun s => if s = r then g s else []) = [] := by
    intro l hl
    rw [List.flatMap_eq_nil_iff]
    intro s hs
    exact if_neg fun e : s = r => hl (e ▸ hs)
  obtain ⟨a, b, hab⟩ := List.append_of_mem (List.mem_finRange r)
  have hn := List.nodup_finRange k
  rw [hab, List.nodup_append, List.nodup_cons] at hn
  rw [hab, List.flatMap_append, List.flatMap_cons, if_pos rfl, h0 a fun h => hn.2.2 r h r (by simp) rfl, h0 b hn.2.1.1, List.append_nil, List.nil_append]

theorem flatMap_ite {β γ : Type} (l : List β) (c : β → Bool) (g : β → γ) : (l.flatMap fun s => if c s = true then [g s] else []) = (l.filter c).map g := by
  induction l with
  | nil => rfl
  | cons a l ih =>
    rw [List.flatMap_cons, List.filter_cons, ih]
    split <;> rfl

/-- The messages between connected ranks, seen from both sides, in both directions. -/
theorem part_pairs (r : Fin (p + 1)) (f : Fin (p + 1) → Fin (n + 1) → Msg d p n) : part (.inl r : Ranks p n) ((pairs box bb).map fun x => (.inl x.1, .inr x.2, f x.1 x.2)) =
    ((List.finRange (n + 1)).filter fun q => (bb q).overlapping (box r)).map fun q => .send (.inr q) (f r q) := by
  unfold pairs
  rw [List.map_flatMap, part_flatMap]
  refine (congrArg (fun g => (List.finRange (p + 1)).flatMap g) (funext fun s => ?_)).trans
    (flatMap_one r fun s => ((List.finRange (n + 1)).filter fun q => (bb q).overlapping (box s)).map fun q => Act.send (ι := Ranks p n) (.inr q) (f s q))
  rw [List.map_map]
  by_cases h : s = r
  · subst h
    rw [if_pos rfl]
    exact part_sends _ _ _ _
  · rw [if_neg h]
    refine part_none fun x hx => ?_
    obtain ⟨q, -, rfl⟩ := List.mem_map.1 hx
    exact ⟨fun e => h (Sum.inl.inj e), Sum.inr_ne_inl⟩

theorem part_pairs_r (r : Fin (n + 1)) (f : Fin (p + 1) → Fin (n + 1) → Msg d p n) : part (.inr r : Ranks p n) ((pairs box bb).map fun x => (.inl x.1, .inr x.2, f x.1 x.2)) =
    ((List.finRange (p + 1)).filter fun q => (bb r).overlapping (box q)).map fun q => .recv (.inl q) (f q r) := by
  unfold pairs
  rw [List.map_flatMap, part_flatMap, ← flatMap_ite]
  refine congrArg (fun g => (List.finRange (p + 1)).flatMap g) (funext fun s => ?_)
  rw [List.map_map]
  by_cases h : (bb r).overlapping (box s) = true
  · rw [if_pos h]
    exact part_one_recv Sum.inr_injective (f s) ((List.nodup_finRange _).filter _) (List.mem_filter.2 ⟨List.mem_finRange r, h⟩) Sum.inr_ne_inl
  · rw [if_neg h]
    refine part_none fun x hx => ?_
    obtain ⟨q, hq, rfl⟩ := List.mem_map.1 hx
    exact ⟨Sum.inl_ne_inr, fun e => h (Sum.inr.inj e ▸ (List.mem_filter.1 hq).2)⟩

theorem part_back (r : Fin (p + 1)) (f : Fin (p + 1) → Fin (n + 1) → Msg d p n) : part (.inl r : Ranks p n) ((pairs box bb).map fun x => (.inr x.2, .inl x.1, f x.1 x.2)) =
    ((List.finRange (n + 1)).filter fun q => (bb q).overlapping (box r)).map fun q => .recv (.inr q) (f r q) := by
  unfold pairs
  rw [List.map_flatMap, part_flatMap]
  refine (congrArg (fun g => (List.finRange (p + 1)).flatMap g) (funext fun s => ?_)).trans
    (flatMap_one r fun s => ((List.finRange (n + 1)).filter fun q => (bb q).overlapping (box s)).map fun q => Act.recv (ι := Ranks p n) (.inr q) (f s q))
  rw [List.map_map]
  by_cases h : s = r
  · subst h
    rw [if_pos rfl]
    exact part_recvs _ _ _ _ fun _ _ => Sum.inr_ne_inl
  · rw [if_neg h]
    refine part_none fun x hx => ?_
    obtain ⟨q, -, rfl⟩ := List.mem_map.1 hx
    exact ⟨Sum.inr_ne_inl, fun e => h (Sum.inl.inj e)⟩

theorem part_back_r (r : Fin (n + 1)) (f : Fin (p + 1) → Fin (n + 1) → Msg d p n) : part (.inr r : Ranks p n) ((pairs box bb).map fun x => (.inr x.2, .inl x.1, f x.1 x.2)) =
    ((List.finRange (p + 1)).filter fun q => (bb r).overlapping (box q)).map fun q => .send (.inl q) (f q r) := by
  unfold pairs
  rw [List.map_flatMap, part_flatMap, ← flatMap_ite]
  refine congrArg (fun g => (List.finRange (p + 1)).flatMap g) (funext fun s => ?_)
  rw [List.map_map]
  by_cases h : (bb r).overlapping (box s) = true
  · rw [if_pos h]
    exact part_one_send Sum.inr_injective (f s) ((List.nodup_finRange _).filter _) (List.mem_filter.2 ⟨List.mem_finRange r, h⟩) Sum.inr_ne_inl
  · rw [if_neg h]
    refine part_none fun x hx => ?_
    obtain ⟨q, hq, rfl⟩ := List.mem_map.1 hx
    exact ⟨fun e => h (Sum.inr.inj e ▸ (List.mem_filter.1 hq).2), Sum.inl_ne_inr⟩

theorem follows_sendParts (total : ℕ) (offs : List ℕ) (m : Fin (p + 1) → Mesh d) (r : Fin (p + 1)) :
    Follows (sendParts r total offs (m r) ((List.finRange (n + 1)).filter fun q => (bb q).overlapping (box r)))
      (part (.inl r : Ranks p n) (partsChoreo box bb total (fun r => (offs.getD r 0 : ℤ) - (m r).verts.length) (fun r => (offs.getD r 0 : ℤ) - 1) m)) () := by
  unfold sendParts partsChoreo
  simp only [part_append, part_inside_l, List.append_nil]
  rw [part_pairs r fun s _ => .int ((offs.getD s 0 : ℤ) - (m s).verts.length), part_pairs r fun s _ => .int ((offs.getD s 0 : ℤ) - 1), part_pairs r fun s _ => .mesh (m s)]
  refine Follows.bind (a := ()) ?_ ?_
  · by_cases hr : r = 0
    · subst hr
      rw [part_lr, if_pos rfl]
      exact .send _ _ (.ret _)
    · rw [part_lr' _ hr, if_neg hr]
      exact .ret _
  · refine Follows.bind (follows_tell _ .inr _) (Follows.bind (follows_tell _ .inr _) ?_)
    have := Follows.bind (follows_tell (d := d) (p := p) (n := n) ((List.finRange (n + 1)).filter fun q => (bb q).overlapping (box r)) .inr (Msg.mesh (m r)))
      (f := fun _ => .ret ()) (Follows.ret ())
    rwa [List.append_nil] at this

theorem follows_receiveParts (total : ℕ) (lo hi : Fin (p + 1) → ℤ) (m : Fin (p + 1) → Mesh d) (r : Fin (n + 1)) :
    Follows (receiveParts r ((List.finRange (p + 1)).filter fun q => (bb r).overlapping (box q))) (part (.inr r : Ranks p n) (partsChoreo box bb total lo hi m))
      ⟨(List.finRange (p + 1)).filter fun q => (bb r).overlapping (box q), ((List.finRange (p + 1)).filter fun q => (bb r).overlapping (box q)).map lo,
        ((List.finRange (p + 1)).filter fun q => (bb r).overlapping (box q)).map hi,
        (((List.finRange (p + 1)).filter fun q => (bb r).overlapping (box q)).map m).foldl appended (Mesh.empty d), total⟩ := by
  unfold receiveParts partsChoreo
  simp only [part_append]
  rw [part_pairs_r r fun s _ => .int (lo s), part_pairs_r r fun s _ => .int (hi s), part_pairs_r r fun s _ => .mesh (m s)]
  refine Follows.bind (a := if r = 0 then total else 0) ?_ ?_
  · by_cases hr : r = 0
    · subst hr
      rw [part_lr_r, if_pos rfl, if_pos rfl]
      exact .recv _ _ (.ret _)
    · rw [part_lr_r' _ hr, if_neg hr, if_neg hr]
      exact .ret _
  refine Follows.bind (follows_ask _ .inl (fun q => .int (lo q)) (res := lo) fun q _ => .recv _ _ (.ret _)) ?_
  refine Follows.bind (follows_ask _ .inl (fun q => .int (hi q)) (res := hi) fun q _ => .recv _ _ (.ret _)) ?_
  refine Follows.bind (follows_ask _ .inl (fun q => .mesh (m q)) (res := m) fun q _ => .recv _ _ (.ret _)) ?_
  by_cases hr : r = 0
  · subst hr
    rw [part_down_r]
    simp only [if_true]
    have h1 := Follows.bind (follows_tell (d := d) (p := p) (n := n) (secondaries n) .inr (Msg.num total)) (f := fun _ => .ret total) (Follows.ret total)
    have h2 := Follows.bind h1 (f := fun t => .ret (⟨(List.finRange (p + 1)).filter fun q => (bb 0).overlapping (box q), ((List.finRange (p + 1)).filter fun q => (bb 0).overlapping (box q)).map lo,
        ((List.finRange (p + 1)).filter fun q => (bb 0).overlapping (box q)).map hi,
        (((List.finRange (p + 1)).filter fun q => (bb 0).overlapping (box q)).map m).foldl appended (Mesh.empty d), t⟩ : Got d p)) (.ret _)
    rwa [List.append_nil, List.append_nil] at h2
  · rw [part_down_r' _ hr]
    simp only [if_neg hr]
    exact .recv _ _ (.ret _)

end parts

/-- The rank `r` of the provider and the rank `q` of the receiver are connected. -/
def Linked (box : Fin (p + 1) → Box d) (bb : Fin (n + 1) → Box d) (r : Fin (p + 1)) (q : Fin (n + 1)) : Bool := (bb q).overlapping (box r)

theorem setup_completes (box : Fin (p + 1) → Box d) (bb : Fin (n + 1) → Box d) (total : ℕ) (offs : List ℕ) (m : Fin (p + 1) → Mesh d)
    (h : ∃ r q, (bb q).overlapping (box r) = true) :
    RNet.AlwaysCompletes (setup box bb total offs m) fun
      | .inl r => .inl ((List.finRange (n + 1)).filter fun q => (bb q).overlapping (box r))
      | .inr q => .inr ⟨(List.finRange (p + 1)).filter fun r => (bb q).overlapping (box r),
        ((List.finRange (p + 1)).filter fun r => (bb q).overlapping (box r)).map fun r : Fin (p + 1) => (offs.getD r 0 : ℤ) - (m r).verts.length,
        ((List.finRange (p + 1)).filter fun r => (bb q).overlapping (box r)).map fun r : Fin (p + 1) => (offs.getD r 0 : ℤ) - 1,
        (((List.finRange (p + 1)).filter fun r => (bb q).overlapping (box r)).map m).foldl appended (Mesh.empty d), total⟩ := by
  have hne : connMap box bb ≠ [] := by
    obtain ⟨r, q, hrq⟩ := h
    intro e
    have h1 := connectedTo_connMap box bb r
    rw [e] at h1
    have : q ∈ (List.finRange (n + 1)).filter fun q => (bb q).overlapping (box r) := List.mem_filter.2 ⟨List.mem_finRange q, hrq⟩
    rw [← h1] at this
    simp [connectedTo] at this
  refine choreo_completes (c := compareChoreo box bb ++ partsChoreo box bb total (fun r => (offs.getD r 0 : ℤ) - (m r).verts.length) (fun r => (offs.getD r 0 : ℤ) - 1) m) ?_ ?_
  · have h1 : ∀ q ∈ secondaries p, (Sum.inl q : Ranks p n) ≠ .inl 0 := fun q hq => inl_ne ((mem_secondaries q).1 hq)
    have h2 : ∀ q ∈ secondaries n, (Sum.inr q : Ranks p n) ≠ .inr 0 := fun q hq => inr_ne ((mem_secondaries q).1 hq)
    intro x hx
    simp only [compareChoreo, partsChoreo, List.mem_append, List.mem_map, List.mem_singleton] at hx
    rcases hx with (⟨q, hq, rfl⟩ | rfl | ⟨q, hq, rfl⟩ | rfl | ⟨q, hq, rfl⟩ | ⟨q, hq, rfl⟩ | rfl | rfl | ⟨q, hq, rfl⟩ | ⟨q, hq, rfl⟩) | rfl | ⟨q, hq, rfl⟩ | ⟨q, hq, rfl⟩ | ⟨q, hq, rfl⟩ | ⟨q, hq, rfl⟩
    · exact h1 q hq
    · exact Sum.inl_ne_inr
    · exact (h2 q hq).symm
    · exact Sum.inl_ne_inr
    · exact (h2 q hq).symm
    · exact h2 q hq
    · exact Sum.inr_ne_inl
    · exact Sum.inr_ne_inl
    · exact (h1 q hq).symm
    · exact (h1 q hq).symm
    · exact Sum.inl_ne_inr
    · exact Sum.inl_ne_inr
    · exact Sum.inl_ne_inr
    · exact Sum.inl_ne_inr
    · exact (h2 q hq).symm
  · rintro (r | q)
    · rw [part_append]
      refine Follows.bind (follows_compareProvided hne r) ?_
      have := Follows.bind (follows_sendParts (box := box) (bb := bb) total offs m r) (f := fun _ => .ret (.inl ((List.finRange (n + 1)).filter fun q => (bb q).overlapping (box r)) :
        List (Fin (n + 1)) ⊕ Got d p)) (.ret _)
      rwa [List.append_nil] at this
    · rw [part_append]
      refine Follows.bind (follows_compareReceived hne q) ?_
      have := Follows.bind (follows_receiveParts (box := box) (bb := bb) total (fun r => (offs.getD r 0 : ℤ) - (m r).verts.length) (fun r => (offs.getD r 0 : ℤ) - 1) m q)
        (f := fun g => .ret (.inr g : List (Fin (n + 1)) ⊕ Got d p)) (.ret _)
      rwa [List.append_nil] at this

end Verif.TwoLevelInit
