import Verif.Net.Exchange
import Verif.Dist.OneLevel
import Verif.Dist.Intersection
import Verif.Mesh.BoxProps
import Mathlib.Tactic.Ring
import Mathlib.Tactic.FinCases

/-!
# Vertex ownership with two-level initialization (C59)

Model of `ReceivedPartition::createOwnerInformation`, two-level branch (`/repo/src/partition/ReceivedPartition.cpp:553-749`). Vertices are those of the received mesh
on each rank (`LocalMesh`: global id and tag); `pos` gives the coordinates of a global vertex. Asynchronous receives are posted before the synchronous
sends of the counts and the lists are sent asynchronously, so sends do not block. The size and the items of a vector are one message (an empty one is
the size only).
-/

set_option autoImplicit false

namespace Verif.Dist

open Function (update)

variable {d n : ℕ}

/-- Messages: a box, all boxes, a count, a list of global ids. -/
inductive OwnMsg (d n : ℕ) where
  | box (b : Box d)
  | boxes (b : Fin (n + 1) → Box d)
  | count (c : ℕ)
  | ids (l : List ℕ)

/-- `localConnectedBBMap`, ReceivedPartition.cpp:616-624 -/
def neighbours (bb : Fin (n + 1) → Box d) (r : Fin (n + 1)) : List (Fin (n + 1)) :=
  (List.finRange (n + 1)).filter fun s => decide (s ≠ r) && (bb r).overlapping (bb s)

/-- `sharedVerticesSendMap` for a neighbour with box `b`, ReceivedPartition.cpp:643-647 -/
def sharedWith (pos : ℕ → Pt d) (m : LocalMesh) (b : Box d) : List ℕ := (m.filter fun v => v.2 && b.contains (pos v.1)).map fun v => v.1

/-- `vertexIsShared`, ReceivedPartition.cpp:641-649 -/
def isShared (pos : ℕ → Pt d) (bb : Fin (n + 1) → Box d) (nb : List (Fin (n + 1))) (v : ℕ) : Bool := nb.any fun s => (bb s).contains (pos v)

/-- `sharedVerticesGlobalIDs` and `sharedVerticesLocalIDs`, ReceivedPartition.cpp:655-656 -/
def sharedVertices (pos : ℕ → Pt d) (bb : Fin (n + 1) → Box d) (nb : List (Fin (n + 1))) (m : LocalMesh) : List (ℕ × ℕ) :=
  (m.zipIdx.filter fun x => x.1.2 && isShared pos bb nb x.1.1).map fun x => (x.1.1, x.2)

/-- `ownedVerticesCount`, ReceivedPartition.cpp:651-653 -/
def ownedVertices (pos : ℕ → Pt d) (bb : Fin (n + 1) → Box d) (nb : List (Fin (n + 1))) (m : LocalMesh) : ℕ :=
  m.countP fun v => v.2 && !isShared pos bb nb v.1

/-- Set the tags of the found shared vertices to false, ReceivedPartition.cpp:738-739. -/
def dropShared (shared : List (ℕ × ℕ)) (found : List ℕ) (tags : List Bool) : List Bool :=
  found.foldl (fun t k => match shared[k]? with | some x => t.set x.2 false | none => t) tags

/-- The neighbour `s` with `cs` owned vertices goes before this rank, ReceivedPartition.cpp:725-726. -/
def Before (cs : ℕ) (s : Fin (n + 1)) (c : ℕ) (r : Fin (n + 1)) : Prop := c > cs ∨ c = cs ∧ r > s

instance (cs : ℕ) (s : Fin (n + 1)) (c : ℕ) (r : Fin (n + 1)) : Decidable (Before cs s c r) := by unfold Before; exact inferInstance

/-- Second round, ReceivedPartition.cpp:721-741. -/
def secondAssignment (r : Fin (n + 1)) (nb : List (Fin (n + 1))) (shared : List (ℕ × ℕ)) (c : ℕ) (counts : Fin (n + 1) → ℕ) (lists : Fin (n + 1) → List ℕ)
    (tags : List Bool) : List Bool :=
  nb.foldl (fun t s =>
    if lists s = [] then t
    else if Before (counts s) s c r then dropShared shared (intersectionIndices (shared.map fun x => x.1) (lists s)) t
    else t) tags

/-- Everything after the boxes are known, ReceivedPartition.cpp:612-743. -/
def assignOwners (pos : ℕ → Pt d) (r : Fin (n + 1)) (m : LocalMesh) (bb : Fin (n + 1) → Box d) : Prog (Fin (n + 1)) (OwnMsg d n) (List Bool) :=
  let nb := neighbours bb r
  let c := ownedVertices pos bb nb m
  scatter (fun _ => .count c) (gather (fun (t : Fin (n + 1) → ℕ) s x => match x with | .count k => update t s k | _ => t)
    (fun counts => scatter (fun s => .ids (sharedWith pos m (bb s)))
      (gather (fun (t : Fin (n + 1) → List ℕ) s x => match x with | .ids l => update t s l | _ => t)
        (fun lists => .ret (secondAssignment r nb (sharedVertices pos bb nb m) c counts lists (m.map fun v => v.2)))
        nb (fun _ => [])) nb) nb (fun _ => 0)) nb

/-- Two-level `createOwnerInformation`; the boxes are gathered by the primary rank and broadcast, ReceivedPartition.cpp:591-610. -/
def createOwnersTwoLevel (pos : ℕ → Pt d) (r : Fin (n + 1)) (b : Box d) (m : LocalMesh) : Prog (Fin (n + 1)) (OwnMsg d n) (List Bool) :=
  if r = 0 then
    gather (fun (t : Fin (n + 1) → Box d) s x => match x with | .box b => update t s b | _ => t)
      (fun bb => scatter (fun _ => .boxes bb) (assignOwners pos r m bb) (secondaries n))
      (secondaries n) (update (fun _ => Box.default d) 0 b)
  else .send 0 (.box b) (.recv 0 fun x => match x with | .boxes bb => assignOwners pos r m bb | _ => .fail .assert)

/-! ## What the communication delivers -/

/-- What rank `r` decides. -/
def ownersTwoLevel (pos : ℕ → Pt d) (bb : Fin (n + 1) → Box d) (m : Fin (n + 1) → LocalMesh) (r : Fin (n + 1)) : List Bool :=
  secondAssignment r (neighbours bb r) (sharedVertices pos bb (neighbours bb r) (m r)) (ownedVertices pos bb (neighbours bb r) (m r))
    (fun s => if s ∈ neighbours bb r then ownedVertices pos bb (neighbours bb s) (m s) else 0)
    (fun s => if s ∈ neighbours bb r then sharedWith pos (m s) (bb r) else []) ((m r).map fun v => v.2)

theorem foldl_update {ι β : Type} [DecidableEq ι] (f : ι → β) (l : List ι) : ∀ t : ι → β,
    l.foldl (fun t s => update t s (f s)) t = fun s => if s ∈ l then f s else t s := by
  induction l with
  | nil => intro t; simp
  | cons a l ih =>
    intro t
    rw [List.foldl_cons, ih]
    funext s
    by_cases h : s = a
    · subst h; simp
    · simp [h]

theorem neighbours_symm (bb : Fin (n + 1) → Box d) (r s : Fin (n + 1)) (h : s ∈ neighbours bb r) : r ∈ neighbours bb s := by
  simp only [neighbours, List.mem_filter, List.mem_finRange, true_and, Bool.and_eq_true, decide_eq_true_eq] at h ⊢
  exact ⟨h.1.symm, by rw [Box.C40_symm]; exact h.2⟩

theorem neighbours_nodup (bb : Fin (n + 1) → Box d) (r : Fin (n + 1)) : (neighbours bb r).Nodup := (List.nodup_finRange _).filter _

theorem createOwnersTwoLevel_completes (pos : ℕ → Pt d) (bb : Fin (n + 1) → Box d) (m : Fin (n + 1) → LocalMesh) :
    Net.AlwaysCompletes (RNet.toNet fun r => createOwnersTwoLevel pos r (bb r) (m r)) (ownersTwoLevel pos bb m) := by
  -- boxes
  obtain ⟨k1, hk1⟩ := star_gather (c := (0 : Fin (n + 1)))
    (fun (t : Fin (n + 1) → Box d) s x => match x with | .box b => update t s b | _ => t)
    (fun bb => scatter (fun _ => OwnMsg.boxes bb) (assignOwners pos 0 (m 0) bb) (secondaries n)) (fun r => .box (bb r))
    (fun r => .recv 0 fun x => match x with | .boxes bb => assignOwners pos r (m r) bb | _ => .fail .assert)
    (secondaries n) (secondaries_nodup n) (zero_notMem_secondaries n) (update (fun _ => Box.default d) 0 (bb 0))
    (fun r => createOwnersTwoLevel pos r (bb r) (m r)) rfl (by
      intro r hr
      simp only [createOwnersTwoLevel, if_neg ((mem_secondaries r).1 hr)])
  have hbb : (secondaries n).foldl (fun t r => update t r (bb r)) (update (fun _ => Box.default d) 0 (bb 0)) = bb := by
    rw [foldl_update]
    funext s
    by_cases h : s = 0
    · subst h; simp [zero_notMem_secondaries]
    · simp [(mem_secondaries s).2 h]
  simp only [hbb] at hk1
  obtain ⟨k2, hk2⟩ := star_scatter (c := (0 : Fin (n + 1))) (fun _ => OwnMsg.boxes bb) (assignOwners pos 0 (m 0) bb)
    (fun r x => match x with | .boxes bb => assignOwners pos r (m r) bb | _ => .fail .assert)
    (secondaries n) (secondaries_nodup n) (zero_notMem_secondaries n)
    (fun i => if i = 0 then scatter (fun _ => OwnMsg.boxes bb) (assignOwners pos 0 (m 0) bb) (secondaries n)
      else if i ∈ secondaries n then .recv 0 fun x => match x with | .boxes bb => assignOwners pos i (m i) bb | _ => .fail .assert
      else createOwnersTwoLevel pos i (bb i) (m i)) (by simp only [if_true]) (by
      intro r hr
      simp only [if_neg ((mem_secondaries r).1 hr), if_pos hr])
  have e2 : (fun i : Fin (n + 1) => if i = 0 then assignOwners pos 0 (m 0) bb else if i ∈ secondaries n then assignOwners pos i (m i) bb
      else (if i = 0 then scatter (fun _ => OwnMsg.boxes bb) (assignOwners pos 0 (m 0) bb) (secondaries n)
        else if i ∈ secondaries n then .recv 0 fun x => match x with | .boxes bb => assignOwners pos i (m i) bb | _ => .fail .assert
        else createOwnersTwoLevel pos i (bb i) (m i))) = fun i => assignOwners pos i (m i) bb := by
    funext i
    by_cases h : i = 0
    · simp [h]
    · simp [h, (mem_secondaries i).2 h]
  simp only [] at hk2
  rw [e2] at hk2
  have hb := RNet.steps_buffered (hk1.trans hk2)
  -- counts
  obtain ⟨k3, hk3⟩ := exchange_neighbours (neighbours bb) (neighbours_nodup bb) (neighbours_symm bb)
    (fun i _ => OwnMsg.count (d := d) (n := n) (ownedVertices pos bb (neighbours bb i) (m i)))
    (fun _ (t : Fin (n + 1) → ℕ) s x => match x with | .count k => update t s k | _ => t)
    (fun r counts => scatter (fun s => .ids (sharedWith pos (m r) (bb s)))
      (gather (fun (t : Fin (n + 1) → List ℕ) s x => match x with | .ids l => update t s l | _ => t)
        (fun lists => .ret (secondAssignment r (neighbours bb r) (sharedVertices pos bb (neighbours bb r) (m r))
          (ownedVertices pos bb (neighbours bb r) (m r)) counts lists ((m r).map fun v => v.2)))
        (neighbours bb r) (fun _ => [])) (neighbours bb r)) (fun _ _ => 0) (List.finRange (n + 1)) (List.nodup_finRange _) (List.mem_finRange)
  simp only [foldl_update] at hk3
  -- lists
  obtain ⟨k4, hk4⟩ := exchange_neighbours (neighbours bb) (neighbours_nodup bb) (neighbours_symm bb)
    (fun i s => OwnMsg.ids (d := d) (n := n) (sharedWith pos (m i) (bb s)))
    (fun _ (t : Fin (n + 1) → List ℕ) s x => match x with | .ids l => update t s l | _ => t)
    (fun r lists => .ret (secondAssignment r (neighbours bb r) (sharedVertices pos bb (neighbours bb r) (m r))
          (ownedVertices pos bb (neighbours bb r) (m r))
          (fun s => if s ∈ neighbours bb r then ownedVertices pos bb (neighbours bb s) (m s) else 0) lists ((m r).map fun v => v.2)))
    (fun _ _ => []) (List.finRange (n + 1)) (List.nodup_finRange _) (List.mem_finRange)
  simp only [foldl_update] at hk4
  exact Net.alwaysCompletes_of_steps ((hb.trans hk3).trans hk4) ⟨fun r => rfl, fun _ => rfl⟩

/-! ## Who owns what -/

theorem dropShared_get (shared : List (ℕ × ℕ)) (found : List ℕ) : ∀ (tags : List Bool) (i : ℕ),
    (dropShared shared found tags)[i]? = some true ↔ tags[i]? = some true ∧ ¬ ∃ k ∈ found, ∃ g, shared[k]? = some (g, i) := by
  induction found with
  | nil => intro tags i; simp [dropShared]
  | cons k found ih =>
    intro tags i
    have : dropShared shared (k :: found) tags = dropShared shared found (match shared[k]? with | some x => tags.set x.2 false | none => tags) := rfl
    rw [this, ih]
    have hstep : (match shared[k]? with | some x => tags.set x.2 false | none => tags)[i]? = some true ↔
        tags[i]? = some true ∧ ¬ ∃ g, shared[k]? = some (g, i) := by
      cases h : shared[k]? with
      | none => simp
      | some x =>
        obtain ⟨g, j⟩ := x
        simp only [Option.some.injEq, Prod.mk.injEq, exists_eq_left', List.getElem?_set]
        by_cases e : j = i
        · subst e
          simp
        · simp [e]
    rw [hstep]
    constructor
    · rintro ⟨⟨h1, h2⟩, h3⟩
      refine ⟨h1, ?_⟩
      rintro ⟨k', hk', hg⟩
      rcases List.mem_cons.1 hk' with rfl | hk'
      · exact h2 hg
      · exact h3 ⟨k', hk', hg⟩
    · rintro ⟨h1, h2⟩
      exact ⟨⟨h1, fun hg => h2 ⟨k, by simp, hg⟩⟩, fun ⟨k', hk', hg⟩ => h2 ⟨k', List.mem_cons_of_mem _ hk', hg⟩⟩

theorem dropShared_length (shared : List (ℕ × ℕ)) (found : List ℕ) : ∀ (tags : List Bool), (dropShared shared found tags).length = tags.length := by
  induction found with
  | nil => intro tags; rfl
  | cons k found ih =>
    intro tags
    have : dropShared shared (k :: found) tags = dropShared shared found (match shared[k]? with | some x => tags.set x.2 false | none => tags) := rfl
    rw [this, ih]
    cases shared[k]? <;> simp

theorem secondAssignment_get (r : Fin (n + 1)) (shared : List (ℕ × ℕ)) (c : ℕ) (counts : Fin (n + 1) → ℕ) (lists : Fin (n + 1) → List ℕ)
    (nb : List (Fin (n + 1))) : ∀ (tags : List Bool) (i : ℕ),
    (secondAssignment r nb shared c counts lists tags)[i]? = some true ↔ tags[i]? = some true ∧ ¬ ∃ s ∈ nb, Before (counts s) s c r ∧
      ∃ k ∈ intersectionIndices (shared.map fun x => x.1) (lists s), ∃ g, shared[k]? = some (g, i) := by
  induction nb with
  | nil => intro tags i; simp [secondAssignment]
  | cons s nb ih =>
    intro tags i
    have : secondAssignment r (s :: nb) shared c counts lists tags = secondAssignment r nb shared c counts lists
      (if lists s = [] then tags
       else if Before (counts s) s c r then dropShared shared (intersectionIndices (shared.map fun x => x.1) (lists s)) tags else tags) := rfl
    rw [this, ih]
    have hstep : (if lists s = [] then tags
       else if Before (counts s) s c r then dropShared shared (intersectionIndices (shared.map fun x => x.1) (lists s)) tags else tags)[i]? = some true ↔
        tags[i]? = some true ∧ ¬ (Before (counts s) s c r ∧
          ∃ k ∈ intersectionIndices (shared.map fun x => x.1) (lists s), ∃ g, shared[k]? = some (g, i)) := by
      by_cases h1 : lists s = []
      · rw [if_pos h1]
        have : ¬ ∃ k ∈ intersectionIndices (shared.map fun x => x.1) (lists s), ∃ g, shared[k]? = some (g, i) := by
          rintro ⟨k, hk, -⟩
          obtain ⟨a, -, ha⟩ := intersection_sound hk
          rw [h1] at ha
          simp at ha
        simp only [this, and_false, not_false_eq_true, and_true]
      · rw [if_neg h1]
        by_cases h2 : Before (counts s) s c r
        · rw [if_pos h2, dropShared_get]
          simp only [h2, true_and]
        · rw [if_neg h2]
          simp only [h2, false_and, not_false_eq_true, and_true]
    rw [hstep]
    constructor
    · rintro ⟨⟨h1, h2⟩, h3⟩
      refine ⟨h1, ?_⟩
      rintro ⟨s', hs', hg⟩
      rcases List.mem_cons.1 hs' with rfl | hs'
      · exact h2 hg
      · exact h3 ⟨s', hs', hg⟩
    · rintro ⟨h1, h2⟩
      exact ⟨⟨h1, fun hg => h2 ⟨s, by simp, hg⟩⟩, fun ⟨k', hk', hg⟩ => h2 ⟨k', List.mem_cons_of_mem _ hk', hg⟩⟩

theorem secondAssignment_length (r : Fin (n + 1)) (shared : List (ℕ × ℕ)) (c : ℕ) (counts : Fin (n + 1) → ℕ) (lists : Fin (n + 1) → List ℕ)
    (nb : List (Fin (n + 1))) : ∀ (tags : List Bool), (secondAssignment r nb shared c counts lists tags).length = tags.length := by
  induction nb with
  | nil => intro tags; rfl
  | cons s nb ih =>
    intro tags
    have : secondAssignment r (s :: nb) shared c counts lists tags = secondAssignment r nb shared c counts lists
      (if lists s = [] then tags
       else if Before (counts s) s c r then dropShared shared (intersectionIndices (shared.map fun x => x.1) (lists s)) tags else tags) := rfl
    rw [this, ih]
    split
    · rfl
    · split
      · exact dropShared_length ..
      · rfl

theorem sharedVertices_mem (pos : ℕ → Pt d) (bb : Fin (n + 1) → Box d) (nb : List (Fin (n + 1))) (m : LocalMesh) (g i : ℕ) :
    (g, i) ∈ sharedVertices pos bb nb m ↔ m[i]? = some (g, true) ∧ isShared pos bb nb g = true := by
  unfold sharedVertices
  simp only [List.mem_map, List.mem_filter, Bool.and_eq_true, Prod.exists, Prod.mk.injEq]
  constructor
  · rintro ⟨g', t, i', ⟨h1, h2⟩, rfl, rfl⟩
    rw [List.mem_zipIdx_iff_getElem?] at h1
    exact ⟨by rw [h1, h2.1], h2.2⟩
  · rintro ⟨h1, h2⟩
    exact ⟨g, true, i, ⟨List.mem_zipIdx_iff_getElem?.2 h1, rfl, h2⟩, rfl, rfl⟩

theorem sharedVertices_sorted (pos : ℕ → Pt d) (bb : Fin (n + 1) → Box d) (nb : List (Fin (n + 1))) (m : LocalMesh)
    (hm : (m.map fun v => v.1).Pairwise (· < ·)) : ((sharedVertices pos bb nb m).map fun x => x.1).Pairwise (· < ·) := by
  refine hm.sublist ?_
  have h1 : (m.map fun v => v.1) = m.zipIdx.map fun x => x.1.1 := by
    rw [show (fun x : (ℕ × Bool) × ℕ => x.1.1) = (fun v : ℕ × Bool => v.1) ∘ Prod.fst from rfl, ← List.map_map, List.zipIdx_map_fst]
  rw [h1]
  unfold sharedVertices
  rw [List.map_map]
  exact (List.filter_sublist).map _

theorem sharedWith_sorted (pos : ℕ → Pt d) (m : LocalMesh) (b : Box d) (hm : (m.map fun v => v.1).Pairwise (· < ·)) :
    (sharedWith pos m b).Pairwise (· < ·) := hm.sublist ((List.filter_sublist).map _)

theorem mem_sharedWith (pos : ℕ → Pt d) (m : LocalMesh) (b : Box d) (v : ℕ) :
    v ∈ sharedWith pos m b ↔ (v, true) ∈ m ∧ b.contains (pos v) = true := by
  unfold sharedWith
  simp only [List.mem_map, List.mem_filter, Bool.and_eq_true, Prod.exists, exists_and_right, exists_eq_right]
  constructor
  · rintro ⟨t, h1, h2, h3⟩
    subst h2
    exact ⟨h1, h3⟩
  · rintro ⟨h1, h2⟩
    exact ⟨true, h1, rfl, h2⟩

/-- `r` gives up the vertex `v` in favour of `s`. -/
def GivesUp (pos : ℕ → Pt d) (bb : Fin (n + 1) → Box d) (m : Fin (n + 1) → LocalMesh) (r s : Fin (n + 1)) (v : ℕ) : Prop :=
  s ∈ neighbours bb r ∧ Before (ownedVertices pos bb (neighbours bb s) (m s)) s (ownedVertices pos bb (neighbours bb r) (m r)) r ∧
    (v, true) ∈ m s ∧ (bb r).contains (pos v) = true

theorem owner_of_not_givesUp (pos : ℕ → Pt d) (bb : Fin (n + 1) → Box d) (m : Fin (n + 1) → LocalMesh) (r : Fin (n + 1)) {i v : ℕ}
    (hi : (m r)[i]? = some (v, true)) (h : ∀ s, ¬ GivesUp pos bb m r s v) : (ownersTwoLevel pos bb m r)[i]? = some true := by
  unfold ownersTwoLevel
  rw [secondAssignment_get]
  refine ⟨by rw [List.getElem?_map, hi]; rfl, ?_⟩
  rintro ⟨s, hs, hb, k, hk, g, hg⟩
  rw [if_pos hs] at hb hk
  obtain ⟨a, ha, hl⟩ := intersection_sound hk
  rw [List.getElem?_map, hg] at ha
  simp only [Option.map_some, Option.some.injEq] at ha
  subst ha
  have hm := (sharedVertices_mem pos bb _ (m r) g i).1 (List.mem_of_getElem? hg)
  rw [hi] at hm
  simp only [Option.some.injEq, Prod.mk.injEq, and_true] at hm
  obtain ⟨rfl, -⟩ := hm
  have := (mem_sharedWith pos (m s) (bb r) v).1 hl
  exact h s ⟨hs, hb, this⟩

theorem tagged_of_owner (pos : ℕ → Pt d) (bb : Fin (n + 1) → Box d) (m : Fin (n + 1) → LocalMesh) (r : Fin (n + 1)) {i : ℕ}
    (h : (ownersTwoLevel pos bb m r)[i]? = some true) : ∃ v, (m r)[i]? = some (v, true) := by
  unfold ownersTwoLevel at h
  rw [secondAssignment_get, List.getElem?_map] at h
  obtain ⟨⟨v, t⟩, hx, ht⟩ := Option.map_eq_some_iff.1 h.1
  simp only at ht
  exact ⟨v, by rw [hx, ht]⟩

/-- Sorted ids on each rank: a rank that gives up a shared vertex does not own it. -/
theorem not_owner (pos : ℕ → Pt d) (bb : Fin (n + 1) → Box d) (m : Fin (n + 1) → LocalMesh) (hs : ∀ r, ((m r).map fun v => v.1).Pairwise (· < ·))
    (r s : Fin (n + 1)) {i v : ℕ} (hi : (m r)[i]? = some (v, true)) (h : GivesUp pos bb m r s v) (hb : (bb s).contains (pos v) = true) :
    (ownersTwoLevel pos bb m r)[i]? ≠ some true := by
  unfold ownersTwoLevel
  rw [Ne, secondAssignment_get]
  rintro ⟨-, h2⟩
  obtain ⟨hn, hbef, hv, hc⟩ := h
  have hsh : (v, i) ∈ sharedVertices pos bb (neighbours bb r) (m r) :=
    (sharedVertices_mem ..).2 ⟨hi, List.any_eq_true.2 ⟨s, hn, hb⟩⟩
  obtain ⟨k, hk⟩ := List.mem_iff_getElem?.1 hsh
  refine h2 ⟨s, hn, by rw [if_pos hn]; exact hbef, k, ?_, v, hk⟩
  rw [if_pos hn]
  refine intersection_complete (sharedVertices_sorted pos bb _ _ (hs r)) (sharedWith_sorted pos _ _ (hs s)) (a := v) ?_
    ((mem_sharedWith ..).2 ⟨hv, hc⟩)
  rw [List.getElem?_map, hk]
  rfl

theorem before_total {cs : ℕ} {s : Fin (n + 1)} {c : ℕ} {r : Fin (n + 1)} (h : r ≠ s) : Before cs s c r ∨ Before c r cs s := by
  unfold Before
  have : r.val ≠ s.val := fun e => h (Fin.ext e)
  rw [gt_iff_lt, gt_iff_lt, gt_iff_lt, gt_iff_lt, Fin.lt_def, Fin.lt_def]
  omega

/-- Among the ranks that need a vertex one does not give it up. -/
theorem exists_owner (pos : ℕ → Pt d) (bb : Fin (n + 1) → Box d) (m : Fin (n + 1) → LocalMesh) {v : ℕ} (hv : ∃ r, (v, true) ∈ m r) :
    ∃ r, (v, true) ∈ m r ∧ ∀ s, ¬ GivesUp pos bb m r s v := by
  let key : Fin (n + 1) → ℕ := fun r => ownedVertices pos bb (neighbours bb r) (m r) * (n + 1) + r.val
  have hne : (Finset.univ.filter fun r => (v, true) ∈ m r).Nonempty := by
    obtain ⟨r, hr⟩ := hv
    exact ⟨r, by simp [hr]⟩
  obtain ⟨r, hr, hmin⟩ := Finset.exists_min_image _ key hne
  refine ⟨r, by simpa using hr, ?_⟩
  rintro s ⟨-, hb, hs, -⟩
  have := hmin s (by simp [hs])
  simp only [key] at this
  have h1 := r.isLt
  have h2 := s.isLt
  unfold Before at hb
  rw [gt_iff_lt, gt_iff_lt, Fin.lt_def] at hb
  generalize ownedVertices pos bb (neighbours bb r) (m r) = a at *
  generalize ownedVertices pos bb (neighbours bb s) (m s) = b at *
  rcases hb with hb | ⟨rfl, hb⟩
  · have : (b + 1) * (n + 1) ≤ a * (n + 1) := Nat.mul_le_mul_right _ hb
    have : (b + 1) * (n + 1) = b * (n + 1) + (n + 1) := by ring
    omega
  · omega

/-- Every vertex needed by a rank is owned by a rank that needs it, whatever the boxes are and in whatever order the vertices are; all ranks finish. -/
theorem C59_some_owner (pos : ℕ → Pt d) (bb : Fin (n + 1) → Box d) (m : Fin (n + 1) → LocalMesh) :
    ∃ own, Net.AlwaysCompletes (RNet.toNet fun r => createOwnersTwoLevel pos r (bb r) (m r)) own ∧
      (∀ r, (own r).length = (m r).length) ∧ (∀ r, ∀ e ∈ (m r).zip (own r), e.2 = true → e.1.2 = true) ∧
      ∀ v, (∃ r, (v, true) ∈ m r) → ∃ r, ((v, true), true) ∈ (m r).zip (own r) := by
  refine ⟨_, createOwnersTwoLevel_completes pos bb m, ?_, ?_, ?_⟩
  · intro r
    unfold ownersTwoLevel
    rw [secondAssignment_length]
    simp
  · rintro r ⟨⟨v, t⟩, b⟩ he hb
    obtain ⟨i, hi⟩ := List.mem_iff_getElem?.1 he
    rw [List.getElem?_zip_eq_some] at hi
    simp only at hb hi ⊢
    rw [hb] at hi
    obtain ⟨w, hw⟩ := tagged_of_owner pos bb m r hi.2
    rw [hi.1] at hw
    simp only [Option.some.injEq, Prod.mk.injEq] at hw
    exact hw.2
  · intro v hv
    obtain ⟨r, hr, hg⟩ := exists_owner pos bb m hv
    obtain ⟨i, hi⟩ := List.mem_iff_getElem?.1 hr
    refine ⟨r, List.mem_iff_getElem?.2 ⟨i, ?_⟩⟩
    rw [List.getElem?_zip_eq_some]
    exact ⟨hi, owner_of_not_givesUp pos bb m r hi hg⟩

/-- `ownedCount` is at most 1 if ids are unique on the rank. -/
theorem ownedCount_eq (v : ℕ) (m : LocalMesh) (own : List Bool) (hl : own.length = m.length) (hm : (m.map fun v => v.1).Nodup) :
    ownedCount v m own = if ∃ t, ((v, t), true) ∈ m.zip own then 1 else 0 := by
  have hle : ownedCount v m own ≤ 1 := by
    unfold ownedCount
    have h1 : (m.zip own).countP (fun e => e.1.1 == v && e.2) ≤ (m.zip own).countP (fun e => e.1.1 == v) :=
      List.countP_mono_left fun e _ h => by simp only [Bool.and_eq_true] at h; exact h.1
    have h2 : (m.zip own).countP (fun e => e.1.1 == v) = (m.map fun v => v.1).count v := by
      rw [List.count, List.countP_map]
      have : (m.zip own).countP (fun e => e.1.1 == v) = ((m.zip own).map fun e => e.1).countP (fun e => e.1 == v) := by
        rw [List.countP_map]; rfl
      rw [this, List.map_fst_zip (by omega)]
      rfl
    exact h1.trans (h2 ▸ (List.nodup_iff_count_le_one.1 hm v))
  have hiff : ownedCount v m own ≠ 0 ↔ ∃ t, ((v, t), true) ∈ m.zip own := by
    unfold ownedCount
    rw [← Nat.pos_iff_ne_zero, List.countP_pos_iff]
    constructor
    · rintro ⟨⟨⟨w, t⟩, b⟩, he, hb⟩
      simp only [Bool.and_eq_true, beq_iff_eq] at hb
      obtain ⟨rfl, rfl⟩ := hb
      exact ⟨t, he⟩
    · rintro ⟨t, ht⟩
      exact ⟨_, ht, by simp⟩
  by_cases h : ∃ t, ((v, t), true) ∈ m.zip own
  · rw [if_pos h]
    have := hiff.2 h
    omega
  · rw [if_neg h]
    by_contra hne
    exact h (hiff.1 hne)

/-- The received mesh of a rank after the filter by its bounding box, ReceivedPartition.cpp:371-389 (geometric filter on secondary ranks). -/
def filterByBox (pos : ℕ → Pt d) (b : Box d) (m : LocalMesh) : LocalMesh := m.filter fun v => b.contains (pos v.1)

/-- With two-level initialization and vertices filtered by the bounding boxes of the ranks, every vertex needed by a rank is owned by exactly one rank, which needs
it. The global ids on each rank are ascending (they are in the order of the sending ranks). -/
theorem C59_one_owner_partial (pos : ℕ → Pt d) (bb : Fin (n + 1) → Box d) (m : Fin (n + 1) → LocalMesh) (hs : ∀ r, ((m r).map fun v => v.1).Pairwise (· < ·)) :
    ∃ own, Net.AlwaysCompletes (RNet.toNet fun r => createOwnersTwoLevel pos r (bb r) (filterByBox pos (bb r) (m r))) own ∧
      OneOwner (fun r => filterByBox pos (bb r) (m r)) own := by
  set m' : Fin (n + 1) → LocalMesh := fun r => filterByBox pos (bb r) (m r) with hm'
  have hin : ∀ r v t, (v, t) ∈ m' r → (bb r).contains (pos v) = true := by
    intro r v t h
    exact (List.mem_filter.1 h).2
  have hs' : ∀ r, ((m' r).map fun v => v.1).Pairwise (· < ·) := fun r => (hs r).sublist ((List.filter_sublist).map _)
  obtain ⟨-, -, hl, hn, hex⟩ := C59_some_owner pos bb m'
  refine ⟨_, createOwnersTwoLevel_completes pos bb m', ?_, ?_, ?_⟩
  · intro r
    unfold ownersTwoLevel
    rw [secondAssignment_length]
    simp
  · rintro r ⟨⟨v, t⟩, b⟩ he hb
    obtain ⟨i, hi⟩ := List.mem_iff_getElem?.1 he
    rw [List.getElem?_zip_eq_some] at hi
    simp only at hb hi ⊢
    rw [hb] at hi
    obtain ⟨w, hw⟩ := tagged_of_owner pos bb m' r hi.2
    rw [hi.1] at hw
    simp only [Option.some.injEq, Prod.mk.injEq] at hw
    exact hw.2
  · intro v
    have hlen : ∀ r, (ownersTwoLevel pos bb m' r).length = (m' r).length := by
      intro r
      unfold ownersTwoLevel
      rw [secondAssignment_length]
      simp
    have hcount : ∀ r, ownedCount v (m' r) (ownersTwoLevel pos bb m' r) =
        if ∃ t, ((v, t), true) ∈ (m' r).zip (ownersTwoLevel pos bb m' r) then 1 else 0 :=
      fun r => ownedCount_eq v _ _ (hlen r) ((hs' r).imp fun h => Nat.ne_of_lt h)
    have hpos : ∀ r, (∃ t, ((v, t), true) ∈ (m' r).zip (ownersTwoLevel pos bb m' r)) →
        ∃ i : ℕ, (m' r)[i]? = some (v, true) ∧ (ownersTwoLevel pos bb m' r)[i]? = some true := by
      rintro r ⟨t, ht⟩
      obtain ⟨i, hi⟩ := List.mem_iff_getElem?.1 ht
      rw [List.getElem?_zip_eq_some] at hi
      obtain ⟨w, hw⟩ := tagged_of_owner pos bb m' r hi.2
      have := hi.1
      rw [hw] at this
      simp only [Option.some.injEq, Prod.mk.injEq] at this
      exact ⟨i, by rw [hw, this.1], hi.2⟩
    simp only [hcount]
    by_cases hv : ∃ r, (v, true) ∈ m' r
    · rw [if_pos hv]
      obtain ⟨r, hr, hg⟩ := exists_owner pos bb m' hv
      obtain ⟨i, hi⟩ := List.mem_iff_getElem?.1 hr
      rw [Finset.sum_eq_single r, if_pos]
      · refine ⟨true, List.mem_iff_getElem?.2 ⟨i, ?_⟩⟩
        rw [List.getElem?_zip_eq_some]
        exact ⟨hi, owner_of_not_givesUp pos bb m' r hi hg⟩
      · intro s _ hsr
        refine if_neg fun hown => ?_
        obtain ⟨j, hj, hoj⟩ := hpos s hown
        have hsm : (v, true) ∈ m' s := List.mem_of_getElem? hj
        have hcr := hin r v true hr
        have hcs := hin s v true hsm
        have hov : (bb s).overlapping (bb r) = true := by
          have p1 := (Box.C39_contains _ _).1 hcr
          have p2 := (Box.C39_contains _ _).1 hcs
          exact (Box.C40_overlap_iff _ _ ⟨_, p2⟩ ⟨_, p1⟩).2 ⟨_, p2, p1⟩
        have hnb : r ∈ neighbours bb s := by
          simp only [neighbours, List.mem_filter, List.mem_finRange, true_and, Bool.and_eq_true, decide_eq_true_eq]
          exact ⟨hsr.symm, hov⟩
        rcases before_total (cs := ownedVertices pos bb (neighbours bb r) (m' r)) (s := r)
          (c := ownedVertices pos bb (neighbours bb s) (m' s)) (r := s) hsr with hb | hb
        · exact not_owner pos bb m' hs' s r hj ⟨hnb, hb, hr, hcs⟩ hcr hoj
        · exact hg s ⟨neighbours_symm bb s r hnb, hb, hsm, hcr⟩
      · simp
    · rw [if_neg hv]
      refine Finset.sum_eq_zero fun r _ => if_neg fun hown => ?_
      obtain ⟨i, hi, -⟩ := hpos r hown
      exact hv ⟨r, List.mem_of_getElem? hi⟩

/-- Without the filter (option `no-filter`), a vertex needed by two ranks but outside of their boxes has two owners. -/
theorem C59_no_filter_two_owners : ∃ (pos : ℕ → Pt 1) (bb : Fin 2 → Box 1) (m : Fin 2 → LocalMesh) (own : Fin 2 → List Bool),
    (∀ r, ((m r).map fun v => v.1).Pairwise (· < ·)) ∧ (∀ r, ((bb r).points).Nonempty) ∧
    Net.AlwaysCompletes (RNet.toNet fun r => createOwnersTwoLevel pos r (bb r) (m r)) own ∧
    ∀ r, ((7, true), true) ∈ (m r).zip (own r) := by
  refine ⟨fun _ _ => 5, ![⟨fun _ => 0, fun _ => 1⟩, ⟨fun _ => 2, fun _ => 3⟩], fun _ => [(7, true)], _, ?_, ?_,
    createOwnersTwoLevel_completes (n := 1) _ _ _, ?_⟩
  · intro r; simp
  · intro r
    fin_cases r
    · exact ⟨fun _ => 0, fun i => by norm_num⟩
    · exact ⟨fun _ => 2, fun i => by norm_num⟩
  · decide +kernel

/-- Ids in an order that is not ascending on a rank lead to two owners as well: the intersection of the lists is not found. -/
theorem C59_unsorted_two_owners : ∃ (pos : ℕ → Pt 1) (bb : Fin 2 → Box 1) (m : Fin 2 → LocalMesh) (own : Fin 2 → List Bool),
    (∀ r, ∀ v ∈ m r, (bb r).contains (pos v.1) = true) ∧
    Net.AlwaysCompletes (RNet.toNet fun r => createOwnersTwoLevel pos r (bb r) (m r)) own ∧
    ∀ r, ((3, true), true) ∈ (m r).zip (own r) := by
  refine ⟨fun _ _ => 0, fun _ => ⟨fun _ => 0, fun _ => 1⟩, ![[(3, true), (7, true)], [(7, true), (3, true)]], _, ?_,
    createOwnersTwoLevel_completes (n := 1) _ _ _, ?_⟩
  · decide +kernel
  · decide +kernel

/-- The hypotheses of `C59_one_owner_partial` are met, for instance, here: vertex 2 is needed by both ranks, the one with fewer own vertices gets it. -/
example : ownersTwoLevel (n := 1) (fun i (_ : Fin 1) => (i : ℚ)) ![⟨fun _ => 0, fun _ => 2⟩, ⟨fun _ => 2, fun _ => 3⟩]
    ![[(0, true), (1, true), (2, true)], [(2, true), (3, true)]] = ![[true, true, false], [true, true]] := by
  decide +kernel

end Verif.Dist
