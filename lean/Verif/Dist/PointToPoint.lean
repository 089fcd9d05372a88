import Verif.Net.Exchange
import Verif.Dist.Intersection
import Verif.Dist.GatherScatter

/-!
# Point-to-point communication between two parallel participants (C61, C62)

Model of `buildCommunicationMap`, `send` and `receive` (`/repo/src/m2n/PointToPointCommunication.cpp:261-306, 610-655`). Sends are asynchronous and not waited for, so they do
not block. Both sides know both vertex distributions. Connections are not modelled.
-/

set_option autoImplicit false

namespace Verif.Dist

variable {V : Type} {n m : ℕ}

/-- `buildCommunicationMap`, PointToPointCommunication.cpp:261-306, for a rank with vertices `mine`. A rank that is missing in the distribution behaves like
one with an empty entry. -/
def communicationMap {k : ℕ} (mine : List ℕ) (others : Fin k → List ℕ) : List (Fin k × List ℕ) :=
  (List.finRange k).filterMap fun r =>
    if mine = [] ∨ others r = [] ∨ (others r).getLastD 0 < mine.headD 0 ∨ (others r).headD 0 > mine.getLastD 0 then none
    else if intersectionIndices mine (others r) = [] then none
    else some (r, intersectionIndices mine (others r))

/-- `send`, PointToPointCommunication.cpp:610-629. The buffer contains the blocks with the indices of the mapping. -/
def p2pSend [Zero V] (b : ℕ) (map : List (Fin (m + 1) × List ℕ)) (items : Arr V) : Prog (Ranks n m) (Arr V) (Arr V) :=
  if map = [] ∨ items.size = 0 then .ret items
  else sendL (map.map fun x => (.inr x.1, ⟨x.2.length * b, copyFromBlocks b items.get x.2 0 fun _ => 0⟩)) (.ret items)

/-- The loop of `receive`, PointToPointCommunication.cpp:643-654. -/
def p2pLoop [Add V] (b size : ℕ) : List (Fin (n + 1) × List ℕ) → (ℕ → V) → Prog (Ranks n m) (Arr V) (Arr V)
  | [], s => .ret ⟨size, s⟩
  | x :: l, s => .recv (.inl x.1) fun a => Prog.ensure .assert (a.size = x.2.length * b) (p2pLoop b size l (addToBlocks b a.get x.2 0 s))

/-- `receive`, PointToPointCommunication.cpp:631-655: returns early without touching the buffer if there is no partner. -/
def p2pReceive [Add V] [Zero V] (b : ℕ) (map : List (Fin (n + 1) × List ℕ)) (items : Arr V) : Prog (Ranks n m) (Arr V) (Arr V) :=
  if map = [] ∨ items.size = 0 then .ret items else p2pLoop b items.size map fun _ => 0

/-- The whole transfer. -/
def p2pTransfer [Add V] [Zero V] (b : ℕ) (dist : Fin (n + 1) → List ℕ) (dist' : Fin (m + 1) → List ℕ) (items : Fin (n + 1) → Arr V)
    (buf : Fin (m + 1) → Arr V) : Ranks n m → Prog (Ranks n m) (Arr V) (Arr V)
  | .inl r => p2pSend b (communicationMap (dist r) dist') (items r)
  | .inr r => p2pReceive b (communicationMap (dist' r) dist) (buf r)

/-! ## The communication map -/

/-- Ascending without repetition, as the code asserts up to repetitions. -/
def Ascending (l : List ℕ) : Prop := l.Pairwise (· < ·)

/-- Ranks with a common vertex. -/
def partners {k : ℕ} (mine : List ℕ) (others : Fin k → List ℕ) : List (Fin k) :=
  (List.finRange k).filter fun r => decide (intersectionIndices mine (others r) ≠ [])

theorem Ascending.head_le {l : List ℕ} (h : Ascending l) {a : ℕ} (ha : a ∈ l) : l.headD 0 ≤ a := by
  cases l with
  | nil => simp at ha
  | cons x l =>
    rcases List.mem_cons.1 ha with rfl | ha
    · exact le_refl _
    · exact Nat.le_of_lt ((List.pairwise_cons.1 h).1 a ha)

theorem Ascending.le_last {l : List ℕ} (h : Ascending l) {a : ℕ} (ha : a ∈ l) : a ≤ l.getLastD 0 := by
  induction l generalizing a with
  | nil => simp at ha
  | cons x l ih =>
    cases l with
    | nil => simp at ha; simp [ha]
    | cons y l =>
      have h' := List.pairwise_cons.1 h
      have : (x :: y :: l).getLastD 0 = (y :: l).getLastD 0 := by simp [List.getLastD]
      rw [this]
      rcases List.mem_cons.1 ha with rfl | ha
      · exact (Nat.le_of_lt (h'.1 y (by simp))).trans (ih h'.2 (by simp))
      · exact ih h'.2 ha

theorem mem_both_of_intersection {as bs : List ℕ} (h : intersectionIndices as bs ≠ []) : ∃ a, a ∈ as ∧ a ∈ bs := by
  obtain ⟨i, hi⟩ := List.exists_mem_of_ne_nil _ h
  obtain ⟨a, ha, hb⟩ := intersection_sound hi
  exact ⟨a, List.mem_of_getElem? ha, hb⟩

/-- The check of the bounds only skips empty intersections. -/
theorem communicationMap_eq {k : ℕ} {mine : List ℕ} {others : Fin k → List ℕ} (h1 : Ascending mine) (h2 : ∀ r, Ascending (others r)) :
    communicationMap mine others = (partners mine others).map fun r => (r, intersectionIndices mine (others r)) := by
  unfold communicationMap partners
  induction List.finRange k with
  | nil => rfl
  | cons r l ih =>
    rw [List.filterMap_cons, List.filter_cons, ih]
    by_cases hi : intersectionIndices mine (others r) = []
    · simp only [hi, if_true, ne_eq, not_true_eq_false, decide_false, ite_self]
      rfl
    · have hc : ¬ (mine = [] ∨ others r = [] ∨ (others r).getLastD 0 < mine.headD 0 ∨ (others r).headD 0 > mine.getLastD 0) := by
        obtain ⟨a, ha, hb⟩ := mem_both_of_intersection hi
        rintro (h | h | h | h)
        · rw [h] at ha; simp at ha
        · rw [h] at hb; simp at hb
        · have := h1.head_le ha
          have := (h2 r).le_last hb
          omega
        · have := h1.le_last ha
          have := (h2 r).head_le hb
          omega
      simp only [hc, if_false, hi, ne_eq, not_false_eq_true, decide_true, if_true, List.map_cons]

theorem partners_nodup {k : ℕ} (mine : List ℕ) (others : Fin k → List ℕ) : (partners mine others).Nodup := (List.nodup_finRange k).filter _

theorem mem_partners {k : ℕ} {mine : List ℕ} {others : Fin k → List ℕ} (h1 : Ascending mine) (h2 : ∀ r, Ascending (others r)) (r : Fin k) :
    r ∈ partners mine others ↔ ∃ a, a ∈ mine ∧ a ∈ others r := by
  unfold partners
  simp only [List.mem_filter, List.mem_finRange, true_and, decide_eq_true_eq]
  constructor
  · exact mem_both_of_intersection
  · rintro ⟨a, ha, hb⟩ he
    obtain ⟨i, hi⟩ := List.mem_iff_getElem?.1 ha
    have := intersection_complete h1 (h2 r) hi hb
    rw [he] at this
    simp at this

/-- Both sides list the common vertices in the same order. -/
theorem common_eq {as bs : List ℕ} (h1 : Ascending as) (h2 : Ascending bs) :
    (intersectionIndices as bs).map (fun i => as[i]?.getD 0) = (intersectionIndices bs as).map fun i => bs[i]?.getD 0 := by
  have key : ∀ {as bs : List ℕ}, Ascending as → Ascending bs →
      ((intersectionIndices as bs).map (fun i => as[i]?.getD 0)).Pairwise (· < ·) ∧
      ∀ g, g ∈ (intersectionIndices as bs).map (fun i => as[i]?.getD 0) ↔ g ∈ as ∧ g ∈ bs := by
    intro as bs h1 h2
    constructor
    · rw [List.pairwise_map]
      have hs : (intersectionIndices as bs).Pairwise (· < ·) := (intersectionLoop_sorted _).1
      refine hs.imp_of_mem ?_
      intro i j hi hj hij
      obtain ⟨a, ha, -⟩ := intersection_sound hi
      obtain ⟨b, hb, -⟩ := intersection_sound hj
      rw [ha, hb]
      simp only [Option.getD_some]
      obtain ⟨hi', ea⟩ := List.getElem?_eq_some_iff.1 ha
      obtain ⟨hj', eb⟩ := List.getElem?_eq_some_iff.1 hb
      rw [← ea, ← eb]
      exact List.pairwise_iff_getElem.1 h1 i j hi' hj' hij
    · intro g
      rw [List.mem_map]
      constructor
      · rintro ⟨i, hi, rfl⟩
        obtain ⟨a, ha, hb⟩ := intersection_sound hi
        rw [ha]
        exact ⟨List.mem_of_getElem? ha, hb⟩
      · rintro ⟨ha, hb⟩
        obtain ⟨i, hi⟩ := List.mem_iff_getElem?.1 ha
        exact ⟨i, intersection_complete h1 h2 hi hb, by rw [hi]; rfl⟩
  obtain ⟨s1, m1⟩ := key h1 h2
  obtain ⟨s2, m2⟩ := key h2 h1
  refine List.Perm.eq_of_pairwise (le := (· < ·)) (fun a b _ _ h1 h2 => by omega) s1 s2 ?_
  refine (List.perm_ext_iff_of_nodup (s1.imp fun h => Nat.ne_of_lt h) (s2.imp fun h => Nat.ne_of_lt h)).2 fun g => ?_
  rw [m1, m2, and_comm]

theorem Ascending.index_inj {l : List ℕ} (h : Ascending l) {i j a : ℕ} (hi : l[i]? = some a) (hj : l[j]? = some a) : i = j := by
  obtain ⟨hi', ea⟩ := List.getElem?_eq_some_iff.1 hi
  obtain ⟨hj', eb⟩ := List.getElem?_eq_some_iff.1 hj
  rcases Nat.lt_trichotomy i j with h' | h' | h'
  · have := List.pairwise_iff_getElem.1 h i j hi' hj' h'; omega
  · exact h'
  · have := List.pairwise_iff_getElem.1 h j i hj' hi' h'; omega

/-- What one partner contributes to a vertex. -/
theorem contribution [AddCommMonoid V] (b : ℕ) {as bs : List ℕ} (h1 : Ascending as) (h2 : Ascending bs) (x : ℕ → V) {i g k : ℕ} (hk : k < b)
    (hg : bs[i]? = some g) :
    (∑ j ∈ Finset.range (intersectionIndices bs as).length, if (intersectionIndices bs as)[j]? = some i then
        copyFromBlocks b x (intersectionIndices as bs) 0 (fun _ => 0) (b * j + k) else 0) =
      ∑ j ∈ Finset.range as.length, if as[j]? = some g then x (b * j + k) else 0 := by
  by_cases h : g ∈ as
  · obtain ⟨i', hi'⟩ := List.mem_iff_getElem?.1 h
    have hmem := intersection_complete h2 h1 hg h
    obtain ⟨j0, hj0⟩ := List.mem_iff_getElem?.1 hmem
    have hj0' : (intersectionIndices as bs)[j0]? = some i' := by
      have he := congrArg (fun l => l[j0]?) (common_eq h1 h2)
      simp only [List.getElem?_map, hj0, Option.map_some, hg, Option.getD_some] at he
      obtain ⟨i2, hi2, hv⟩ := Option.map_eq_some_iff.1 he
      obtain ⟨a, ha, -⟩ := intersection_sound (List.mem_of_getElem? hi2)
      rw [ha] at hv
      simp only [Option.getD_some] at hv
      subst hv
      rw [hi2, h1.index_inj ha hi']
    rw [Finset.sum_eq_single j0, if_pos hj0, copyFromBlocks_at b _ _ hk, Nat.sub_zero, hj0', Finset.sum_eq_single i', if_pos hi']
    · simp
    · intro j _ hj
      exact if_neg fun e => hj (h1.index_inj e hi')
    · intro hn
      exact absurd (Finset.mem_range.2 (List.getElem?_eq_some_iff.1 hi').1) hn
    · intro j _ hj
      exact if_neg fun e => hj (Ascending.index_inj (l := intersectionIndices bs as) (intersectionLoop_sorted _).1 e hj0)
    · intro hn
      exact absurd (Finset.mem_range.2 (List.getElem?_eq_some_iff.1 hj0).1) hn
  · rw [Finset.sum_eq_zero, Finset.sum_eq_zero]
    · exact fun j _ => if_neg fun e => h (List.mem_of_getElem? e)
    · refine fun j _ => if_neg fun e => ?_
      obtain ⟨a, ha, hb⟩ := intersection_sound (List.mem_of_getElem? e)
      rw [hg] at ha
      exact h (Option.some.inj ha ▸ hb)

/-! ## The transfer -/

/-- What rank `r` sends to rank `s`. -/
def packed [Zero V] (b : ℕ) (dist : Fin (n + 1) → List ℕ) (dist' : Fin (m + 1) → List ℕ) (items : Fin (n + 1) → Arr V) (r : Fin (n + 1)) (s : Fin (m + 1)) : Arr V :=
  ⟨(intersectionIndices (dist r) (dist' s)).length * b, copyFromBlocks b (items r).get (intersectionIndices (dist r) (dist' s)) 0 fun _ => 0⟩

/-- What rank `s` has after the transfer. -/
def p2pResult [AddCommMonoid V] (b : ℕ) (dist : Fin (n + 1) → List ℕ) (dist' : Fin (m + 1) → List ℕ) (items : Fin (n + 1) → Arr V)
    (buf : Fin (m + 1) → Arr V) : Ranks n m → Arr V
  | .inl r => items r
  | .inr s => if partners (dist' s) dist = [] then buf s else
    ⟨(buf s).size, (partners (dist' s) dist).foldl (fun t r => addToBlocks b (packed b dist dist' items r s).get (intersectionIndices (dist' s) (dist r)) 0 t) fun _ => 0⟩

theorem recvs_p2pLoop [AddCommMonoid V] (b size : ℕ) (f : Fin (n + 1) → Arr V) (idx : Fin (n + 1) → List ℕ)
    (hf : ∀ r, (f r).size = (idx r).length * b) (l : List (Fin (n + 1))) : ∀ s : ℕ → V,
    Recvs (p2pLoop (m := m) b size (l.map fun r => (r, idx r)) s) (l.map Sum.inl) (l.map f)
      (.ret ⟨size, l.foldl (fun t r => addToBlocks b (f r).get (idx r) 0 t) s⟩) := by
  induction l with
  | nil => intro s; exact .nil _
  | cons r l ih =>
    intro s
    refine .cons ?_
    simp only [Prog.ensure, if_pos (hf r)]
    exact ih _

theorem common_length {as bs : List ℕ} (h1 : Ascending as) (h2 : Ascending bs) :
    (intersectionIndices as bs).length = (intersectionIndices bs as).length := by
  have := congrArg List.length (common_eq h1 h2)
  simpa using this

/-- The buffers may be larger than what is used. -/
theorem p2p_completes_le [AddCommMonoid V] (b : ℕ) (hb : 0 < b) (dist : Fin (n + 1) → List ℕ) (dist' : Fin (m + 1) → List ℕ) (items : Fin (n + 1) → Arr V)
    (buf : Fin (m + 1) → Arr V) (hs : ∀ r, Ascending (dist r)) (hs' : ∀ r, Ascending (dist' r)) (hi : ∀ r, (dist r).length * b ≤ (items r).size)
    (hbuf : ∀ r, (dist' r).length * b ≤ (buf r).size) :
    Net.AlwaysCompletes (RNet.toNet (p2pTransfer b dist dist' items buf)) (p2pResult b dist dist' items buf) := by
  have hsize : ∀ {k : ℕ} (mine : List ℕ) (others : Fin k → List ℕ), partners mine others ≠ [] → mine.length * b ≠ 0 := by
    intro k mine others h
    obtain ⟨r, hr⟩ := List.exists_mem_of_ne_nil _ h
    obtain ⟨a, ha, -⟩ := mem_both_of_intersection (by simpa [partners] using hr)
    have := List.length_pos_of_mem ha
    exact Nat.mul_ne_zero (by omega) (by omega)
  have ex : Exchange (p2pTransfer b dist dist' items buf) fun i => .ret (p2pResult b dist dist' items buf i) := by
    refine ⟨fun i => match i with
        | .inl r => ((partners (dist r) dist').map Sum.inr).map fun i => (i, match i with
          | .inr s => packed b dist dist' items r s | .inl _ => ⟨0, fun _ => 0⟩)
        | .inr _ => [],
      fun i => match i with
        | .inl r => .ret (items r)
        | .inr s => p2pTransfer b dist dist' items buf (.inr s),
      fun i => match i with
        | .inl _ => []
        | .inr s => (partners (dist' s) dist).map Sum.inl,
      fun i => match i with
        | .inl _ => []
        | .inr s => (partners (dist' s) dist).map fun r => packed b dist dist' items r s, ?_, ?_, ?_⟩
    · rintro (r | s)
      · simp only [p2pTransfer, p2pSend, communicationMap_eq (hs r) hs']
        by_cases h : partners (dist r) dist' = []
        · simp [h, sendL]
        · have h0 : ¬ ((partners (dist r) dist').map (fun s => (s, intersectionIndices (dist r) (dist' s))) = [] ∨ (items r).size = 0) := by
            rw [List.map_eq_nil_iff]
            rintro (e | e)
            · exact h e
            · exact hsize _ _ h (Nat.le_zero.1 (e ▸ hi r))
          rw [if_neg h0, List.map_map, List.map_map]
          rfl
      · rfl
    · rintro (r | s)
      · exact .nil _
      · simp only [p2pTransfer, p2pReceive, communicationMap_eq (hs' s) hs, p2pResult]
        by_cases h : partners (dist' s) dist = []
        · simp only [h, List.map_nil, true_or, if_true]
          exact .nil _
        · have h0 : ¬ ((partners (dist' s) dist).map (fun r => (r, intersectionIndices (dist' s) (dist r))) = [] ∨ (buf s).size = 0) := by
            rw [List.map_eq_nil_iff]
            rintro (e | e)
            · exact h e
            · exact hsize _ _ h (Nat.le_zero.1 (e ▸ hbuf s))
          rw [if_neg h0, if_neg h]
          refine recvs_p2pLoop b _ (fun r => packed b dist dist' items r s) (fun r => intersectionIndices (dist' s) (dist r)) ?_ _ _
          intro r
          simp only [packed, common_length (hs r) (hs' s)]
    · rintro (r | s)
      · simp only [take]
        congr 2
        funext j
        rcases j with r' | s
        · simp only []
          have : (Sum.inl r : Ranks n m) ∉ (partners (dist r') dist').map Sum.inr := by simp
          rw [toward_targets _ _ _ ((partners_nodup _ _).map Sum.inr_injective), if_neg this]
        · rfl
      · refine (congrArg (take _) (funext fun j => ?_)).trans ((take_targets (fun j : Ranks n m => (match j with
              | .inl r => packed b dist dist' items r s | .inr _ => ⟨0, fun _ => 0⟩ : Arr V)) ((partners (dist' s) dist).map Sum.inl)
              ((partners_nodup _ _).map Sum.inl_injective)).trans ?_)
        · rcases j with r | s'
          · simp only []
            rw [toward_targets _ _ _ ((partners_nodup _ _).map Sum.inr_injective)]
            have hiff : (Sum.inr s : Ranks n m) ∈ (partners (dist r) dist').map Sum.inr ↔ (Sum.inl r : Ranks n m) ∈ (partners (dist' s) dist).map Sum.inl := by
              rw [List.mem_map_of_injective Sum.inr_injective, List.mem_map_of_injective Sum.inl_injective, mem_partners (hs r) hs', mem_partners (hs' s) hs]
              simp only [and_comm]
            by_cases h : (Sum.inl r : Ranks n m) ∈ (partners (dist' s) dist).map Sum.inl
            · rw [if_pos h, if_pos (hiff.2 h)]
            · rw [if_neg h, if_neg fun e => h (hiff.1 e)]
          · simp [toward]
        · rw [List.map_map]
          rfl
  have hall : ∀ i : Ranks n m, i ∈ (List.finRange (n + 1)).map Sum.inl ++ (List.finRange (m + 1)).map Sum.inr := by
    rintro (r | s)
    · simp
    · simp
  have hnd : ((List.finRange (n + 1)).map Sum.inl ++ (List.finRange (m + 1)).map Sum.inr : List (Ranks n m)).Nodup := by
    refine List.Nodup.append ((List.nodup_finRange _).map Sum.inl_injective) ((List.nodup_finRange _).map Sum.inr_injective) ?_
    intro x h1 h2
    obtain ⟨a, -, rfl⟩ := List.mem_map.1 h1
    obtain ⟨b, -, e⟩ := List.mem_map.1 h2
    cases e
  obtain ⟨k, hk⟩ := ex.buffered _ hnd hall
  exact Net.alwaysCompletes_of_steps hk ⟨fun _ => rfl, fun _ => rfl⟩

theorem p2p_completes [AddCommMonoid V] (b : ℕ) (hb : 0 < b) (dist : Fin (n + 1) → List ℕ) (dist' : Fin (m + 1) → List ℕ) (items : Fin (n + 1) → Arr V)
    (buf : Fin (m + 1) → Arr V) (hs : ∀ r, Ascending (dist r)) (hs' : ∀ r, Ascending (dist' r)) (hi : ∀ r, (items r).size = (dist r).length * b)
    (hbuf : ∀ r, (buf r).size = (dist' r).length * b) :
    Net.AlwaysCompletes (RNet.toNet (p2pTransfer b dist dist' items buf)) (p2pResult b dist dist' items buf) :=
  p2p_completes_le b hb dist dist' items buf hs hs' (fun r => (hi r).ge) fun r => (hbuf r).ge

theorem p2p_value [AddCommMonoid V] (b : ℕ) (dist : Fin (n + 1) → List ℕ) (dist' : Fin (m + 1) → List ℕ) (items : Fin (n + 1) → Arr V)
    (hs : ∀ r, Ascending (dist r)) (hs' : ∀ r, Ascending (dist' r)) (s : Fin (m + 1)) {i g k : ℕ} (hg : (dist' s)[i]? = some g) (hk : k < b) :
    (partners (dist' s) dist).foldl (fun t r => addToBlocks b (packed b dist dist' items r s).get (intersectionIndices (dist' s) (dist r)) 0 t) (fun _ => 0) (b * i + k) =
      globalValue b dist (fun r => (items r).get) g k := by
  have h1 : ∀ (l : List (Fin (n + 1))) (t : ℕ → V),
      l.foldl (fun t r => addToBlocks b (packed b dist dist' items r s).get (intersectionIndices (dist' s) (dist r)) 0 t) t (b * i + k) =
      t (b * i + k) + (l.map fun r => ∑ j ∈ Finset.range (dist r).length, if (dist r)[j]? = some g then (items r).get (b * j + k) else 0).sum := by
    intro l
    induction l with
    | nil => intro t; simp
    | cons r l ih =>
      intro t
      rw [List.foldl_cons, ih, addToBlocks_at b _ _ hk, List.map_cons, List.sum_cons, ← add_assoc]
      congr 2
      simp only [Nat.zero_add, packed]
      exact contribution b (hs r) (hs' s) (items r).get hk hg
  rw [h1, zero_add]
  unfold globalValue partners
  rw [Fin.sum_univ_def]
  induction List.finRange (n + 1) with
  | nil => rfl
  | cons r l ih =>
    rw [List.filter_cons, List.map_cons, List.sum_cons, ← ih]
    by_cases h : intersectionIndices (dist' s) (dist r) = []
    · have h0 : ∑ j ∈ Finset.range (dist r).length, (if (dist r)[j]? = some g then (items r).get (b * j + k) else 0) = 0 := by
        refine Finset.sum_eq_zero fun j _ => if_neg fun e => ?_
        have := intersection_complete (hs' s) (hs r) hg (List.mem_of_getElem? e)
        rw [h] at this
        simp at this
      simp [h, h0]
    · simp [h]

/-- Point-to-point communication completes; a rank with at least one partner receives the same values as with gather-scatter communication, for all distributions in ascending
order. A rank without any partner keeps what was in its buffer, where gather-scatter communication would deliver zeros (see `C62_p2p_untouched`). -/
theorem C61_same_partial [AddCommMonoid V] (b total : ℕ) (hb : 0 < b) (dist : Fin (n + 1) → List ℕ) (dist' : Fin (m + 1) → List ℕ) (items : Fin (n + 1) → Arr V)
    (buf : Fin (m + 1) → Arr V) (hs : ∀ r, Ascending (dist r)) (hs' : ∀ r, Ascending (dist' r)) (hi : ∀ r, (items r).size = (dist r).length * b)
    (hbuf : ∀ r, (buf r).size = (dist' r).length * b) :
    ∃ p2p gs, Net.AlwaysCompletes (RNet.toNet (p2pTransfer b dist dist' items buf)) p2p ∧
      RNet.AlwaysCompletes (gsTransfer b total dist dist' items buf) gs ∧ (∀ r, p2p (.inl r) = items r) ∧
      ∀ s, (∃ r, ∃ a ∈ dist' s, a ∈ dist r) → (p2p (.inr s)).size = (gs (.inr s)).size ∧
        ∀ i k, i < (dist' s).length → k < b → (p2p (.inr s)).get (b * i + k) = (gs (.inr s)).get (b * i + k) := by
  obtain ⟨gs, h1, h2, h3⟩ := C60_gather_scatter b total hb dist dist' items buf hi hbuf
  refine ⟨_, gs, p2p_completes b hb dist dist' items buf hs hs' hi hbuf, h1, fun _ => rfl, ?_⟩
  rintro s ⟨r, a, ha, hr⟩
  have hne : partners (dist' s) dist ≠ [] := by
    intro e
    have := (mem_partners (hs' s) hs r).2 ⟨a, ha, hr⟩
    rw [e] at this
    simp at this
  obtain ⟨h4, h5⟩ := h3 s
  constructor
  · rw [h4]
    simp only [p2pResult, if_neg hne, hbuf]
  · intro i k hil hk
    obtain ⟨g, hg⟩ : ∃ g, (dist' s)[i]? = some g := ⟨_, List.getElem?_eq_getElem hil⟩
    rw [h5 i g k hg hk]
    simp only [p2pResult, if_neg hne]
    exact p2p_value b dist dist' items hs hs' s hg hk

/-- A vertex whose value no remote rank sends receives zero with point-to-point communication if its rank has at least one partner. -/
theorem C62_zero_partial [AddCommMonoid V] (b : ℕ) (hb : 0 < b) (dist : Fin (n + 1) → List ℕ) (dist' : Fin (m + 1) → List ℕ) (items : Fin (n + 1) → Arr V)
    (buf : Fin (m + 1) → Arr V) (hs : ∀ r, Ascending (dist r)) (hs' : ∀ r, Ascending (dist' r)) (hi : ∀ r, (items r).size = (dist r).length * b)
    (hbuf : ∀ r, (buf r).size = (dist' r).length * b) :
    ∃ res, Net.AlwaysCompletes (RNet.toNet (p2pTransfer b dist dist' items buf)) res ∧
      ∀ s, (∃ r, ∃ a ∈ dist' s, a ∈ dist r) → ∀ i g, (dist' s)[i]? = some g → (∀ r, g ∉ dist r) → ∀ k < b, (res (.inr s)).get (b * i + k) = 0 := by
  refine ⟨_, p2p_completes b hb dist dist' items buf hs hs' hi hbuf, ?_⟩
  rintro s ⟨r, a, ha, hr⟩ i g hg hno k hk
  have hne : partners (dist' s) dist ≠ [] := by
    intro e
    have := (mem_partners (hs' s) hs r).2 ⟨a, ha, hr⟩
    rw [e] at this
    simp at this
  simp only [p2pResult, if_neg hne]
  rw [p2p_value b dist dist' items hs hs' s hg hk]
  exact Finset.sum_eq_zero fun r _ => Finset.sum_eq_zero fun j _ => if_neg fun e => hno r (List.mem_of_getElem? e)

/-- The full C62 does not hold: a rank without any partner keeps whatever was in its buffer. In the code this is the content of a freshly allocated `Eigen::VectorXd`, which is not
initialised (`SerializedStamples::allocate`, /repo/src/com/SerializedStamples.cpp:38-45). -/
theorem C62_p2p_untouched (b : ℕ) (hb : 0 < b) (dist : Fin (n + 1) → List ℕ) (dist' : Fin (m + 1) → List ℕ) (items : Fin (n + 1) → Arr ℤ)
    (buf : Fin (m + 1) → Arr ℤ) (hs : ∀ r, Ascending (dist r)) (hs' : ∀ r, Ascending (dist' r)) (hi : ∀ r, (items r).size = (dist r).length * b)
    (hbuf : ∀ r, (buf r).size = (dist' r).length * b) :
    ∃ res, Net.AlwaysCompletes (RNet.toNet (p2pTransfer b dist dist' items buf)) res ∧ ∀ s, (∀ r, ∀ a ∈ dist' s, a ∉ dist r) → res (.inr s) = buf s := by
  refine ⟨_, p2p_completes b hb dist dist' items buf hs hs' hi hbuf, fun s h => ?_⟩
  have : partners (dist' s) dist = [] := by
    refine List.eq_nil_iff_forall_not_mem.2 fun r hr => ?_
    obtain ⟨a, ha, hb⟩ := (mem_partners (hs' s) hs r).1 hr
    exact h r a ha hb
  simp only [p2pResult, if_pos this]

/-- A concrete case: the sender holds vertex 0 only, the two receiving ranks hold vertices 0 and 1. The second one is left with the 7 that happened to be in its buffer, while
gather-scatter communication delivers 0. -/
theorem C62_negation : ∃ (dist : Fin 1 → List ℕ) (dist' : Fin 2 → List ℕ) (items : Fin 1 → Arr ℤ) (buf : Fin 2 → Arr ℤ) (p2p gs : Ranks 0 1 → Arr ℤ),
    (∀ r, Ascending (dist r)) ∧ (∀ r, Ascending (dist' r)) ∧ (∀ r, (items r).size = (dist r).length) ∧ (∀ r, (buf r).size = (dist' r).length) ∧
    Net.AlwaysCompletes (RNet.toNet (p2pTransfer 1 dist dist' items buf)) p2p ∧ RNet.AlwaysCompletes (gsTransfer 1 2 dist dist' items buf) gs ∧
    (∀ r, 1 ∉ dist r) ∧ (dist' 1)[0]? = some 1 ∧ (gs (.inr 1)).get 0 = 0 ∧ (p2p (.inr 1)).get 0 = 7 := by
  let dist : Fin 1 → List ℕ := fun _ => [0]
  let dist' : Fin 2 → List ℕ := fun r => [r.val]
  let items : Fin 1 → Arr ℤ := fun _ => ⟨1, fun _ => 5⟩
  let buf : Fin 2 → Arr ℤ := fun _ => ⟨1, fun _ => 7⟩
  have hs : ∀ r, Ascending (dist r) := fun _ => List.pairwise_singleton _ _
  have hs' : ∀ r, Ascending (dist' r) := fun _ => List.pairwise_singleton _ _
  obtain ⟨p2p, h1, h2⟩ := C62_p2p_untouched 1 one_pos dist dist' items buf hs hs' (fun _ => rfl) (fun _ => rfl)
  obtain ⟨gs, h3, -, h4⟩ := C60_gather_scatter 1 2 one_pos dist dist' items buf (fun _ => rfl) (fun _ => rfl)
  refine ⟨dist, dist', items, buf, p2p, gs, hs, hs', fun _ => rfl, fun _ => rfl, h1, h3, fun _ => by simp [dist], rfl, ?_, ?_⟩
  · exact ((h4 1).2 0 1 0 rfl one_pos).trans (by simp [globalValue, dist])
  · rw [h2 1 fun r a ha => by simp [dist, dist'] at ha ⊢; omega]

/-- Non-vacuity: two sending ranks share vertex 2, the receiving ranks are cut differently. -/
example : (∀ r : Fin 2, Ascending (([[0, 2], [1, 2, 5]] : List (List ℕ)).getD r [])) ∧ (∀ r : Fin 2, Ascending (([[1, 2], [0, 3]] : List (List ℕ)).getD r [])) ∧
    ∃ r : Fin 2, ∃ a ∈ ([[1, 2], [0, 3]] : List (List ℕ)).getD 0 [], a ∈ ([[0, 2], [1, 2, 5]] : List (List ℕ)).getD r [] := by
  unfold Ascending
  decide

end Verif.Dist
