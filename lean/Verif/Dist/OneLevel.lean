import Verif.Net.Star
import Mathlib.Algebra.BigOperators.Fin
import Mathlib.Algebra.Order.BigOperators.Group.Finset
import Mathlib.Data.Fin.VecNotation
import Mathlib.Data.List.FinRange
import Mathlib.Data.List.OfFn

/-!
# Vertex ownership with one-level initialization (C58)

Model of `ReceivedPartition::createOwnerInformation`, one-level branch (`/repo/src/partition/ReceivedPartition.cpp:750-897`).
-/

set_option autoImplicit false

namespace Verif.Dist

open Function (update)

/-- The vertices of the received mesh on one rank: global id and whether the vertex is tagged (needed by a mapping of this rank). -/
abbrev LocalMesh := List (ℕ × Bool)

/-- First round for one rank, ReceivedPartition.cpp:842-855: `c` is the counter, `g` the vector of the vertices which have an owner, the loop
stops when `guess` vertices are assigned. -/
def firstRank (guess : ℕ) : LocalMesh → ℕ → (ℕ → Bool) → List Bool × (ℕ → Bool)
  | [], _, g => ([], g)
  | (v, tag) :: l, c, g =>
    if g v = false ∧ tag = true then
      if c + 1 = guess then (true :: l.map fun _ => false, update g v true)
      else let o := firstRank guess l (c + 1) (update g v true); (true :: o.1, o.2)
    else let o := firstRank guess l c g; (false :: o.1, o.2)

/-- Second round for one rank, ReceivedPartition.cpp:857-867. -/
def secondRank : LocalMesh → List Bool → (ℕ → Bool) → List Bool × (ℕ → Bool)
  | (v, tag) :: l, own :: os, g =>
    if g v = false ∧ tag = true then let o := secondRank l os (update g v true); (true :: o.1, o.2)
    else let o := secondRank l os g; (own :: o.1, o.2)
  | _, os, g => (os, g)

/-- First round for all ranks. -/
def firstRound (guess : ℕ) : List LocalMesh → (ℕ → Bool) → List (List Bool) × (ℕ → Bool)
  | [], g => ([], g)
  | m :: ms, g => let o := firstRank guess m 0 g; let os := firstRound guess ms o.2; (o.1 :: os.1, os.2)

/-- Second round for all ranks. -/
def secondRound : List LocalMesh → List (List Bool) → (ℕ → Bool) → List (List Bool) × (ℕ → Bool)
  | m :: ms, own :: os, g => let o := secondRank m own g; let r := secondRound ms os o.2; (o.1 :: r.1, r.2)
  | _, os, g => (os, g)

/-- The owner vectors of all ranks. -/
def owners (guess : ℕ) (ms : List LocalMesh) : List (List Bool) :=
  let o := firstRound guess ms fun _ => false
  (secondRound ms o.1 o.2).1

/-! ## Protocol -/

/-- A vector of flags as communicated. -/
def flags (l : List Bool) : List ℕ := l.map Bool.toNat

/-- Reading back flags. -/
def unflags (l : List ℕ) : List Bool := l.map fun x => x == 1

theorem unflags_flags (l : List Bool) : unflags (flags l) = l := by
  unfold unflags flags
  rw [List.map_map]
  conv_rhs => rw [← List.map_id l]
  exact List.map_congr_left fun b _ => by cases b <;> rfl

/-- Receiving the tags and ids of the secondary ranks, ReceivedPartition.cpp:810-828. State: the meshes so far and the number of ranks at
the interface. -/
def receiveMeshes {n : ℕ} (K : List LocalMesh × ℕ → Prog (Fin (n + 1)) (List ℕ) (List Bool)) :
    List (Fin (n + 1)) → List LocalMesh × ℕ → Prog (Fin (n + 1)) (List ℕ) (List Bool)
  | [], s => K s
  | r :: l, s => .recv r fun number =>
      if number.headD 0 = 0 then receiveMeshes K l (s.1 ++ [[]], s.2)
      else .recv r fun tags => .recv r fun ids => .recv r fun atInterface =>
        receiveMeshes K l (s.1 ++ [ids.zip (unflags tags)], s.2 + atInterface.headD 0)

/-- Sending the owner vectors to the secondary ranks that have vertices, ReceivedPartition.cpp:869-875. -/
def sendOwners {n : ℕ} (ms : List LocalMesh) (os : List (List Bool)) (K : Prog (Fin (n + 1)) (List ℕ) (List Bool)) :
    List (Fin (n + 1)) → Prog (Fin (n + 1)) (List ℕ) (List Bool)
  | [] => K
  | r :: l =>
    if ms[r.val]?.getD [] = [] then sendOwners ms os K l
    else .send r (flags (os[r.val]?.getD [])) (sendOwners ms os K l)

/-- One-level `createOwnerInformation` of rank `r` with mesh `m`; `total` is the global number of vertices. The result is the owner vector given to
`setOwnerInformation`. Indexing the global vector with an id beyond its size is a failure. -/
def createOwners {n : ℕ} (total : ℕ) (r : Fin (n + 1)) (m : LocalMesh) : Prog (Fin (n + 1)) (List ℕ) (List Bool) :=
  if r = 0 then
    receiveMeshes (fun s =>
        Prog.ensure .assert (s.2 ≠ 0) <| Prog.ensure .assert (∀ m ∈ s.1, ∀ v ∈ m, v.1 < total) <|
        let os := owners (total / s.2) s.1
        sendOwners s.1 os (.ret (os[0]?.getD [])) (secondaries n))
      (secondaries n) ([m], (m.any fun v => v.2).toNat)
  else
    .send 0 [m.length] <|
    if m.length = 0 then .ret [] else
    .send 0 (flags (m.map fun v => v.2)) <| .send 0 (m.map fun v => v.1) <| .send 0 [(m.any fun v => v.2).toNat] <|
    .recv 0 fun own => Prog.ensure .assert (own.length = m.length) (.ret (unflags own))

/-! ## Counting owners -/

/-- Number of vertices of a rank with global id `v` that are owned. -/
def ownedCount (v : ℕ) (m : LocalMesh) (own : List Bool) : ℕ := (m.zip own).countP fun e => e.1.1 == v && e.2

theorem ownedCount_cons (v w : ℕ) (t b : Bool) (m : LocalMesh) (own : List Bool) :
    ownedCount v ((w, t) :: m) (b :: own) = ownedCount v m own + if w = v ∧ b = true then 1 else 0 := by
  unfold ownedCount
  rw [List.zip_cons_cons, List.countP_cons]
  congr 1
  simp

theorem ownedCount_false (v : ℕ) (m : LocalMesh) : ownedCount v m (m.map fun _ => false) = 0 := by
  induction m with
  | nil => rfl
  | cons a m ih => rw [List.map_cons, ownedCount_cons, ih]; simp

theorem update_toNat (g : ℕ → Bool) (w v : ℕ) (h : g w = false) :
    (update g w true v).toNat = (g v).toNat + if w = v then 1 else 0 := by
  by_cases e : v = w
  · subst e; simp [h]
  · rw [Function.update_of_ne e, if_neg (Ne.symm e), add_zero]

/-- Owners of a rank only own tagged vertices. -/
def OnlyTagged (m : LocalMesh) (own : List Bool) : Prop := ∀ e ∈ m.zip own, e.2 = true → e.1.2 = true

theorem onlyTagged_cons {w : ℕ} {t b : Bool} {m : LocalMesh} {own : List Bool} (h : OnlyTagged m own) (hb : b = true → t = true) :
    OnlyTagged ((w, t) :: m) (b :: own) := by
  intro e he
  rw [List.zip_cons_cons, List.mem_cons] at he
  rcases he with rfl | he
  · exact hb
  · exact h e he

theorem firstRank_spec (guess : ℕ) (m : LocalMesh) : ∀ c g,
    (firstRank guess m c g).1.length = m.length ∧ OnlyTagged m (firstRank guess m c g).1 ∧
    ∀ v, (g v).toNat + ownedCount v m (firstRank guess m c g).1 = ((firstRank guess m c g).2 v).toNat := by
  induction m with
  | nil => intro c g; exact ⟨rfl, by intro e he; simp at he, fun v => rfl⟩
  | cons a m ih =>
    obtain ⟨w, t⟩ := a
    intro c g
    unfold firstRank
    by_cases h : g w = false ∧ t = true
    · rw [if_pos h]
      by_cases h' : c + 1 = guess
      · rw [if_pos h']
        refine ⟨by simp, onlyTagged_cons ?_ fun _ => h.2, ?_⟩
        · intro e he
          rw [List.zip_map_right, List.mem_map] at he
          obtain ⟨x, -, rfl⟩ := he
          simp
        · intro v
          rw [ownedCount_cons, ownedCount_false, update_toNat g w v h.1]
          simp
      · rw [if_neg h']
        obtain ⟨h1, h2, h3⟩ := ih (c + 1) (update g w true)
        refine ⟨by simp [h1], onlyTagged_cons h2 fun _ => h.2, fun v => ?_⟩
        rw [ownedCount_cons]
        have := h3 v
        rw [update_toNat g w v h.1] at this
        simp only [and_true]
        omega
    · rw [if_neg h]
      obtain ⟨h1, h2, h3⟩ := ih c g
      refine ⟨by simp [h1], onlyTagged_cons h2 (by simp), fun v => ?_⟩
      rw [ownedCount_cons]
      simpa using h3 v

theorem secondRank_spec (m : LocalMesh) : ∀ own g, own.length = m.length → OnlyTagged m own →
    (∀ v, g v = false → ownedCount v m own = 0) →
    (secondRank m own g).1.length = m.length ∧ OnlyTagged m (secondRank m own g).1 ∧
    (∀ v, (g v).toNat + ownedCount v m (secondRank m own g).1 = ((secondRank m own g).2 v).toNat + ownedCount v m own) ∧
    (∀ v, (v, true) ∈ m → (secondRank m own g).2 v = true) ∧ ∀ v, g v = true → (secondRank m own g).2 v = true := by
  induction m with
  | nil =>
    intro own g h _ _
    simp only [List.length_nil, List.length_eq_zero_iff] at h
    subst h
    exact ⟨rfl, by intro e he; simp at he, fun v => rfl, by simp, fun v h => h⟩
  | cons a m ih =>
    obtain ⟨w, t⟩ := a
    intro own g hl ht hz
    cases own with
    | nil => simp at hl
    | cons b own =>
      have hl' : own.length = m.length := by simpa using hl
      have ht' : OnlyTagged m own := fun e he => ht e (by rw [List.zip_cons_cons]; exact List.mem_cons_of_mem _ he)
      have htb : b = true → t = true := fun hb => ht ((w, t), b) (by simp) hb
      have hz' : ∀ v, g v = false → ownedCount v m own = 0 := by
        intro v hv
        have := hz v hv
        rw [ownedCount_cons] at this
        omega
      unfold secondRank
      by_cases h : g w = false ∧ t = true
      · rw [if_pos h]
        have hb : b = false := by
          have := hz w h.1
          rw [ownedCount_cons] at this
          by_contra hb
          simp [Bool.not_eq_false] at hb
          simp [hb] at this
        obtain ⟨h1, h2, h3, h4, h5⟩ := ih own (update g w true) hl' ht' (by
          intro v hv
          apply hz' v
          by_cases e : v = w
          · subst e; simp at hv
          · rwa [Function.update_of_ne e] at hv)
        refine ⟨by simp [h1], onlyTagged_cons h2 fun _ => h.2, fun v => ?_, fun v hv => ?_, fun v hv => ?_⟩
        · rw [ownedCount_cons, ownedCount_cons]
          have := h3 v
          rw [update_toNat g w v h.1] at this
          simp only [and_true, hb, Bool.false_eq_true, and_false, if_false]
          omega
        · rcases List.mem_cons.1 hv with e | hv
          · have : v = w := congrArg Prod.fst e
            exact h5 v (by rw [this]; simp)
          · exact h4 v hv
        · refine h5 v ?_
          by_cases e : v = w
          · rw [e]; simp
          · rwa [Function.update_of_ne e]
      · rw [if_neg h]
        obtain ⟨h1, h2, h3, h4, h5⟩ := ih own g hl' ht' hz'
        refine ⟨by simp [h1], onlyTagged_cons h2 htb, fun v => ?_, fun v hv => ?_, h5⟩
        · rw [ownedCount_cons, ownedCount_cons]
          have := h3 v
          simp only []
          omega
        · rcases List.mem_cons.1 hv with e | hv
          · have e1 : v = w := congrArg Prod.fst e
            have e2 : true = t := congrArg Prod.snd e
            refine h5 v ?_
            by_contra hg
            exact h ⟨by rw [← e1]; simpa using hg, e2.symm⟩
          · exact h4 v hv

/-- Number of owners of a vertex on all ranks. -/
def totalOwned (v : ℕ) (ms : List LocalMesh) (os : List (List Bool)) : ℕ := (List.zipWith (ownedCount v) ms os).sum

/-- The owner vectors fit the meshes and owned vertices are tagged. -/
def Fits (ms : List LocalMesh) (os : List (List Bool)) : Prop :=
  List.Forall₂ (fun m own => own.length = m.length ∧ OnlyTagged m own) ms os

theorem firstRound_spec (guess : ℕ) (ms : List LocalMesh) : ∀ g, Fits ms (firstRound guess ms g).1 ∧
    ∀ v, (g v).toNat + totalOwned v ms (firstRound guess ms g).1 = ((firstRound guess ms g).2 v).toNat := by
  induction ms with
  | nil => intro g; exact ⟨.nil, fun v => rfl⟩
  | cons m ms ih =>
    intro g
    obtain ⟨h1, h2, h3⟩ := firstRank_spec guess m 0 g
    obtain ⟨k1, k2⟩ := ih (firstRank guess m 0 g).2
    refine ⟨.cons ⟨h1, h2⟩ k1, fun v => ?_⟩
    have a := h3 v
    have b := k2 v
    simp only [firstRound, totalOwned, List.zipWith_cons_cons, List.sum_cons] at *
    omega

theorem secondRound_spec (ms : List LocalMesh) : ∀ os g, Fits ms os →
    (∀ v, g v = false → totalOwned v ms os = 0) →
    Fits ms (secondRound ms os g).1 ∧
    (∀ v, (g v).toNat + totalOwned v ms (secondRound ms os g).1 = ((secondRound ms os g).2 v).toNat + totalOwned v ms os) ∧
    (∀ v, (∃ m ∈ ms, (v, true) ∈ m) → (secondRound ms os g).2 v = true) ∧ ∀ v, g v = true → (secondRound ms os g).2 v = true := by
  induction ms with
  | nil =>
    intro os g h _
    cases h
    exact ⟨.nil, fun v => rfl, by simp, fun v h => h⟩
  | cons m ms ih =>
    intro os g h hz
    cases h with
    | @cons _ own _ os h hs =>
      have hz1 : ∀ v, g v = false → ownedCount v m own = 0 := by
        intro v hv
        have := hz v hv
        simp only [totalOwned, List.zipWith_cons_cons, List.sum_cons] at this
        omega
      obtain ⟨h1, h2, h3, h4, h5⟩ := secondRank_spec m own g h.1 h.2 hz1
      obtain ⟨k1, k2, k3, k4⟩ := ih os (secondRank m own g).2 hs (by
        intro v hv
        have hg : g v = false := by
          by_contra hg
          have := h5 v (by simpa using hg)
          rw [this] at hv
          cases hv
        have := hz v hg
        simp only [totalOwned, List.zipWith_cons_cons, List.sum_cons] at this ⊢
        omega)
      refine ⟨.cons ⟨h1, h2⟩ k1, fun v => ?_, fun v hv => ?_, fun v hv => k4 v (h5 v hv)⟩
      · have a := h3 v
        have b := k2 v
        simp only [secondRound, totalOwned, List.zipWith_cons_cons, List.sum_cons] at *
        omega
      · obtain ⟨m', hm', hv⟩ := hv
        rcases List.mem_cons.1 hm' with rfl | hm'
        · exact k4 v (h4 v hv)
        · exact k3 v ⟨m', hm', hv⟩

theorem totalOwned_pos {v : ℕ} {ms : List LocalMesh} {os : List (List Bool)} (hf : Fits ms os) (h : totalOwned v ms os ≠ 0) :
    ∃ m ∈ ms, (v, true) ∈ m := by
  induction hf with
  | nil => simp [totalOwned] at h
  | @cons m own ms os hm _ ih =>
    simp only [totalOwned, List.zipWith_cons_cons, List.sum_cons] at h
    by_cases h' : ownedCount v m own = 0
    · obtain ⟨m', hm', hv⟩ := ih (by simp only [totalOwned]; omega)
      exact ⟨m', List.mem_cons_of_mem _ hm', hv⟩
    · obtain ⟨e, he, hv⟩ := List.countP_pos_iff.1 (Nat.pos_of_ne_zero h')
      simp only [Bool.and_eq_true, beq_iff_eq] at hv
      have := hm.2 e he hv.2
      refine ⟨m, by simp, ?_⟩
      have := List.of_mem_zip (show (e.1, e.2) ∈ m.zip own from he)
      rw [show e.1 = (v, true) from Prod.ext hv.1 (by assumption)] at this
      exact this.1

theorem owners_spec (guess : ℕ) (ms : List LocalMesh) : Fits ms (owners guess ms) ∧
    ∀ v, totalOwned v ms (owners guess ms) = if ∃ m ∈ ms, (v, true) ∈ m then 1 else 0 := by
  obtain ⟨h1, h2⟩ := firstRound_spec guess ms fun _ => false
  obtain ⟨k1, k2, k3, k4⟩ := secondRound_spec ms (firstRound guess ms fun _ => false).1 (firstRound guess ms fun _ => false).2 h1 (by
    intro v hv
    have := h2 v
    rw [hv] at this
    simpa using this)
  refine ⟨k1, fun v => ?_⟩
  have a := h2 v
  have b := k2 v
  have c : totalOwned v ms (owners guess ms) = ((secondRound ms (firstRound guess ms fun _ => false).1 (firstRound guess ms fun _ => false).2).2 v).toNat := by
    simp only [owners] at *
    simp only [Bool.toNat_false] at a
    omega
  by_cases h : ∃ m ∈ ms, (v, true) ∈ m
  · rw [if_pos h, c, k3 v h]
    rfl
  · rw [if_neg h]
    by_contra hne
    exact h (totalOwned_pos k1 hne)

/-! ## All ranks together -/

/-- The result of the ranks. -/
def ownersOf {n : ℕ} (total : ℕ) (m : Fin (n + 1) → LocalMesh) : List (List Bool) :=
  owners (total / ∑ r, ((m r).any fun v => v.2).toNat) (List.ofFn m)

/-- State of the loop of the primary rank. -/
def nextMeshes {n : ℕ} (m : Fin (n + 1) → LocalMesh) (s : List LocalMesh × ℕ) (r : Fin (n + 1)) : List LocalMesh × ℕ :=
  (s.1 ++ [m r], s.2 + ((m r).any fun v => v.2).toNat)

theorem fold_meshes {n : ℕ} (m : Fin (n + 1) → LocalMesh) :
    (secondaries n).foldl (nextMeshes m) ([m 0], ((m 0).any fun v => v.2).toNat) = (List.ofFn m, ∑ r, ((m r).any fun v => v.2).toNat) := by
  have : ∀ (l : List (Fin (n + 1))) s, l.foldl (nextMeshes m) s = (s.1 ++ l.map m, s.2 + (l.map fun r => ((m r).any fun v => v.2).toNat).sum) := by
    intro l
    induction l with
    | nil => intro s; simp
    | cons r l ih => intro s; rw [List.foldl_cons, ih]; simp [nextMeshes, add_assoc]
  rw [this]
  refine Prod.ext ?_ ?_
  · rw [List.ofFn_succ]
    unfold secondaries
    rw [List.map_map, ← List.ofFn_eq_map]
    rfl
  · rw [Fin.sum_univ_succ]
    simp only [secondaries, List.map_map, Fin.sum_univ_def]
    rfl

theorem createOwners_completes {n : ℕ} (total : ℕ) (m : Fin (n + 1) → LocalMesh) (hid : ∀ r, ∀ v ∈ m r, v.1 < total)
    (hne : ∃ r v, (v, true) ∈ m r) :
    RNet.AlwaysCompletes (fun r => createOwners total r (m r)) fun r => (ownersOf total m)[r.val]?.getD [] := by
  set os := ownersOf total m with hos
  have hfit : Fits (List.ofFn m) os := (owners_spec _ _).1
  have hlen : ∀ r : Fin (n + 1), (os[r.val]?.getD []).length = (m r).length := by
    intro r
    have hl : os.length = n + 1 := by rw [← hfit.length_eq]; simp
    have := List.forall₂_iff_get.1 hfit
    have h := this.2 r.val (by simp) (by omega)
    rw [List.getElem?_eq_getElem (by omega)]
    simpa only [List.get_eq_getElem, List.getElem_ofFn, Option.getD_some] using h.1
  have hms : ∀ r : Fin (n + 1), (List.ofFn m)[r.val]?.getD [] = m r := by
    intro r
    rw [List.getElem?_eq_getElem (by simp), List.getElem_ofFn, Option.getD_some]
  have hcount : ∑ r, ((m r).any fun v => v.2).toNat ≠ 0 := by
    obtain ⟨r, v, hv⟩ := hne
    intro h0
    have := (Finset.sum_eq_zero_iff.1 h0) r (Finset.mem_univ r)
    have h1 : ((m r).any fun v => v.2) = true := List.any_eq_true.2 ⟨(v, true), hv, rfl⟩
    rw [h1] at this
    cases this
  have hids : ∀ mm ∈ List.ofFn m, ∀ v ∈ mm, v.1 < total := by
    intro mm hmm v hv
    obtain ⟨r, rfl⟩ := List.mem_ofFn.1 hmm
    exact hid r v hv
  set K : List LocalMesh × ℕ → Prog (Fin (n + 1)) (List ℕ) (List Bool) := fun s =>
        Prog.ensure .assert (s.2 ≠ 0) <| Prog.ensure .assert (∀ m ∈ s.1, ∀ v ∈ m, v.1 < total) <|
        let os := owners (total / s.2) s.1
        sendOwners s.1 os (.ret (os[0]?.getD [])) (secondaries n)
  set tail : Fin (n + 1) → Prog (Fin (n + 1)) (List ℕ) (List Bool) := fun r => if (m r).length = 0 then .ret [] else
    .recv 0 fun own => Prog.ensure .assert (own.length = (m r).length) (.ret (unflags own))
  obtain ⟨k1, hk1⟩ := star_loop (c := (0 : Fin (n + 1))) (nextMeshes m) (receiveMeshes K)
    (fun r => .send 0 [(m r).length] <|
      if (m r).length = 0 then .ret [] else
      .send 0 (flags ((m r).map fun v => v.2)) <| .send 0 ((m r).map fun v => v.1) <| .send 0 [((m r).any fun v => v.2).toNat] <|
      .recv 0 fun own => Prog.ensure .assert (own.length = (m r).length) (.ret (unflags own)))
    (fun r _ => tail r) (by
      intro r l s
      refine .bwd ?_
      by_cases h : (m r).length = 0
      · have hm : m r = [] := List.length_eq_zero_iff.1 h
        simp only [tail, List.headD_cons, nextMeshes, hm, List.any_nil, Bool.toNat_false, add_zero]
        exact .refl _ _
      · simp only [tail, h, if_false, List.headD_cons]
        refine .bwd (.bwd (.bwd ?_))
        have hz : ((m r).map fun v => v.1).zip (unflags (flags ((m r).map fun v => v.2))) = m r := by
          rw [unflags_flags, List.zip_map']
          simp
        rw [hz]
        exact .refl _ _)
    (secondaries n) (secondaries_nodup n) (zero_notMem_secondaries n) ([m 0], ((m 0).any fun v => v.2).toNat)
    (fun r => createOwners total r (m r)) rfl (by
      intro r hr
      simp only [createOwners, if_neg ((mem_secondaries r).1 hr)])
  rw [fold_meshes] at hk1
  have hK : receiveMeshes K [] (List.ofFn m, ∑ r, ((m r).any fun v => v.2).toNat) =
      sendOwners (List.ofFn m) os (.ret (os[0]?.getD [])) (secondaries n) := by
    change K _ = _
    simp only [K, Prog.ensure, if_pos hcount, if_pos hids]
    rfl
  obtain ⟨k2, hk2⟩ := star_loop (c := (0 : Fin (n + 1))) (fun (_ : Unit) _ => ())
    (fun l _ => sendOwners (List.ofFn m) os (.ret (os[0]?.getD [])) l) tail
    (fun r _ => .ret (os[r.val]?.getD [])) (by
      intro r l s
      by_cases h : (m r).length = 0
      · have hm : m r = [] := List.length_eq_zero_iff.1 h
        have ho : os[r.val]?.getD [] = [] := List.length_eq_zero_iff.1 (by rw [hlen, h])
        simp only [tail, if_true, sendOwners, hms, hm, ho]
        exact .refl _ _
      · have hm : m r ≠ [] := fun e => h (by rw [e]; rfl)
        simp only [tail, h, if_false, sendOwners, hms, hm]
        refine .fwd ?_
        have : (flags (os[r.val]?.getD [])).length = (m r).length := by rw [← hlen r]; simp [flags]
        simp only [Prog.ensure, if_pos this, unflags_flags]
        exact .refl _ _)
    (secondaries n) (secondaries_nodup n) (zero_notMem_secondaries n) ()
    (fun i => if i = 0 then receiveMeshes K [] (List.ofFn m, ∑ r, ((m r).any fun v => v.2).toNat) else
      if i ∈ secondaries n then tail i else createOwners total i (m i)) (by simp only [if_true]; exact hK) (by
      intro r hr
      simp only [if_neg ((mem_secondaries r).1 hr), if_pos hr])
  refine RNet.alwaysCompletes_of_steps (hk1.trans hk2) fun r => ?_
  by_cases h : r = 0
  · subst h
    simp only [if_true]
    rfl
  · simp only [h, if_false, if_pos ((mem_secondaries r).2 h)]

/-- Ownership is right: the owner vectors belong to the vertices of the ranks; the number of (rank, vertex) pairs that own a global vertex is 1 if some
rank needs the vertex and 0 otherwise, and owning ranks need the vertex. -/
structure OneOwner {n : ℕ} (m : Fin (n + 1) → LocalMesh) (own : Fin (n + 1) → List Bool) : Prop where
  length : ∀ r, (own r).length = (m r).length
  needed : ∀ r, ∀ e ∈ (m r).zip (own r), e.2 = true → e.1.2 = true
  count : ∀ v, ∑ r, ownedCount v (m r) (own r) = if ∃ r, (v, true) ∈ m r then 1 else 0

/-- With one-level initialization every vertex needed somewhere has exactly one owner, which needs it; no other vertex has an owner. All ranks finish. -/
theorem C58_one_owner {n : ℕ} (total : ℕ) (m : Fin (n + 1) → LocalMesh) (hid : ∀ r, ∀ v ∈ m r, v.1 < total) (hne : ∃ r v, (v, true) ∈ m r) :
    ∃ own, RNet.AlwaysCompletes (fun r => createOwners total r (m r)) own ∧ OneOwner m own := by
  refine ⟨_, createOwners_completes total m hid hne, ?_⟩
  set os := ownersOf total m with hos
  obtain ⟨hfit, hcount⟩ : Fits (List.ofFn m) os ∧ ∀ v, totalOwned v (List.ofFn m) os = if ∃ m' ∈ List.ofFn m, (v, true) ∈ m' then 1 else 0 :=
    owners_spec _ _
  have hl : os.length = n + 1 := by rw [← hfit.length_eq]; simp
  have hg : ∀ r : Fin (n + 1), (os[r.val]?.getD []).length = (m r).length ∧ OnlyTagged (m r) (os[r.val]?.getD []) := by
    intro r
    have h := (List.forall₂_iff_get.1 hfit).2 r.val (by simp) (by omega)
    rw [List.getElem?_eq_getElem (by omega)]
    simpa only [List.get_eq_getElem, List.getElem_ofFn, Option.getD_some] using h
  refine ⟨fun r => (hg r).1, fun r => (hg r).2, fun v => ?_⟩
  have := hcount v
  have e1 : totalOwned v (List.ofFn m) os = ∑ r : Fin (n + 1), ownedCount v (m r) (os[r.val]?.getD []) := by
    have : os = List.ofFn fun r : Fin (n + 1) => os[r.val]?.getD [] := by
      apply List.ext_getElem
      · simp [hl]
      · intro i h1 h2
        rw [List.getElem_ofFn, List.getElem?_eq_getElem h1]
        rfl
    unfold totalOwned
    conv_lhs => rw [this]
    have hz : ∀ (k : ℕ) (a : Fin k → LocalMesh) (b : Fin k → List Bool),
        (List.zipWith (ownedCount v) (List.ofFn a) (List.ofFn b)).sum = ∑ r, ownedCount v (a r) (b r) := by
      intro k
      induction k with
      | zero => intro a b; simp
      | succ k ih => intro a b; rw [List.ofFn_succ, List.ofFn_succ, List.zipWith_cons_cons, List.sum_cons, ih, Fin.sum_univ_succ]
    exact hz _ m _
  rw [← e1, this]
  refine if_congr ⟨?_, ?_⟩ rfl rfl
  · rintro ⟨_, hm, h⟩
    obtain ⟨r, rfl⟩ := List.mem_ofFn.1 hm
    exact ⟨r, h⟩
  · rintro ⟨r, h⟩
    exact ⟨m r, List.mem_ofFn.2 ⟨r, rfl⟩, h⟩

/-- In particular exactly one rank owns a needed vertex. -/
theorem C58_unique_rank {n : ℕ} {m : Fin (n + 1) → LocalMesh} {own : Fin (n + 1) → List Bool} (h : OneOwner m own) {v : ℕ} (hv : ∃ r, (v, true) ∈ m r) :
    ∃! r, ∃ t, ((v, t), true) ∈ (m r).zip (own r) := by
  have key : ∀ r, (∃ t, ((v, t), true) ∈ (m r).zip (own r)) ↔ ownedCount v (m r) (own r) ≠ 0 := by
    intro r
    unfold ownedCount
    rw [← Nat.pos_iff_ne_zero, List.countP_pos_iff]
    constructor
    · rintro ⟨t, ht⟩
      exact ⟨_, ht, by simp⟩
    · rintro ⟨⟨⟨w, t⟩, b⟩, he, hb⟩
      simp only [Bool.and_eq_true, beq_iff_eq] at hb
      obtain ⟨rfl, rfl⟩ := hb
      exact ⟨t, he⟩
  simp only [key]
  have hsum := h.count v
  rw [if_pos hv] at hsum
  obtain ⟨r, -, hr⟩ := Finset.exists_ne_zero_of_sum_ne_zero (by rw [hsum]; exact one_ne_zero)
  refine ⟨r, hr, fun s hs => ?_⟩
  by_contra hrs
  have := Finset.sum_le_sum_of_subset (f := fun r => ownedCount v (m r) (own r)) (Finset.subset_univ ({r, s} : Finset (Fin (n + 1))))
  rw [Finset.sum_pair (Ne.symm hrs), hsum] at this
  simp only [] at hr hs
  omega

/-- Nobody needs a vertex: the participant stops. -/
theorem C58_none (total : ℕ) (m : LocalMesh) (h : ∀ v ∈ m, v.2 = false) : createOwners (n := 0) total 0 m = .fail .assert := by
  have : (m.any fun v => v.2) = false := by
    rw [List.any_eq_false]
    intro v hv
    simp [h v hv]
  simp [createOwners, receiveMeshes, secondaries, Prog.ensure, this]

example : ownersOf 4 ![[(0, true), (1, true), (2, true)], [], [(2, true), (1, true), (3, false)]] = [[true, true, false], [], [true, false, false]] := by
  decide

end Verif.Dist
