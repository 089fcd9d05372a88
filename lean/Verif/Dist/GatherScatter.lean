import Verif.Net.Star
import Verif.Dist.Arrays

/-!
# Gather-scatter communication between two parallel participants (C60)

Model of `GatherScatterCommunication::send` and `receive` (`/repo/src/m2n/GatherScatterCommunication.cpp:100-207`). The ranks of the sending participant are
`inl r`, the ones of the receiving participant `inr r`. `dist r` is the vertex distribution of rank `r` (a rank missing in the map and an empty entry are treated in the same
way by the code), known to the primary rank; `b` is the number of values per vertex. Receiving into a buffer of a different size is a failure.
-/

set_option autoImplicit false

namespace Verif.Dist

variable {V : Type} {n m : ℕ}

/-- The ranks of both participants. -/
abbrev Ranks (n m : ℕ) := Fin (n + 1) ⊕ Fin (m + 1)

/-- The gather loop of the primary rank, GatherScatterCommunication.cpp:126-146. -/
def gatherLoop [Add V] (b : ℕ) (dist : Fin (n + 1) → List ℕ) (K : (ℕ → V) → Prog (Ranks n m) (Arr V) (Arr V)) :
    List (Fin (n + 1)) → (ℕ → V) → Prog (Ranks n m) (Arr V) (Arr V)
  | [], s => K s
  | r :: l, s =>
    if dist r = [] then gatherLoop b dist K l s
    else .recv (.inl r) fun a => Prog.ensure .assert (a.size = (dist r).length * b) (gatherLoop b dist K l (addToBlocks b a.get (dist r) 0 s))

/-- `send`, GatherScatterCommunication.cpp:100-151; `total` is the global number of vertices. The result of the sending side is what it was given. -/
def gsSend [Add V] [Zero V] (b total : ℕ) (dist : Fin (n + 1) → List ℕ) (r : Fin (n + 1)) (items : Arr V) : Prog (Ranks n m) (Arr V) (Arr V) :=
  if r = 0 then
    gatherLoop b dist (fun s => .send (.inr 0) ⟨total * b, s⟩ (.ret items)) (secondaries n) (addToBlocks b items.get (dist 0) 0 fun _ => 0)
  else if items.size = 0 then .ret items else .send (.inl 0) items (.ret items)

/-- The scatter loop of the primary rank, GatherScatterCommunication.cpp:184-206. -/
def scatterLoop [Zero V] (b : ℕ) (dist : Fin (m + 1) → List ℕ) (src : ℕ → V) (K : Prog (Ranks n m) (Arr V) (Arr V)) :
    List (Fin (m + 1)) → Prog (Ranks n m) (Arr V) (Arr V)
  | [] => K
  | r :: l =>
    if dist r = [] then scatterLoop b dist src K l
    else .send (.inr r) ⟨(dist r).length * b, copyFromBlocks b src (dist r) 0 fun _ => 0⟩ (scatterLoop b dist src K l)

/-- `receive`, GatherScatterCommunication.cpp:153-207; `items` is the buffer to fill. -/
def gsReceive [Zero V] (b total : ℕ) (dist : Fin (m + 1) → List ℕ) (r : Fin (m + 1)) (items : Arr V) : Prog (Ranks n m) (Arr V) (Arr V) :=
  if r = 0 then
    .recv (.inl 0) fun a => Prog.ensure .assert (a.size = total * b) <|
    scatterLoop b dist a.get (.ret ⟨items.size, copyFromBlocks b a.get (dist 0) 0 items.get⟩) (secondaries m)
  else if items.size = 0 then .ret items
  else .recv (.inr 0) fun a => Prog.ensure .assert (a.size = items.size) (.ret ⟨items.size, a.get⟩)

/-- The whole transfer. -/
def gsTransfer [Add V] [Zero V] (b total : ℕ) (dist : Fin (n + 1) → List ℕ) (dist' : Fin (m + 1) → List ℕ) (items : Fin (n + 1) → Arr V)
    (buf : Fin (m + 1) → Arr V) : Ranks n m → Prog (Ranks n m) (Arr V) (Arr V)
  | .inl r => gsSend b total dist r (items r)
  | .inr r => gsReceive b total dist' r (buf r)

/-! ## Proof -/

theorem foldl_addToBlocks [AddCommMonoid V] (b : ℕ) (dist : Fin (n + 1) → List ℕ) (items : Fin (n + 1) → ℕ → V) {g k : ℕ} (hk : k < b) (l : List (Fin (n + 1))) :
    ∀ s : ℕ → V, l.foldl (fun s r => addToBlocks b (items r) (dist r) 0 s) s (b * g + k) =
      s (b * g + k) + (l.map fun r => ∑ j ∈ Finset.range (dist r).length, if (dist r)[j]? = some g then items r (b * j + k) else 0).sum := by
  induction l with
  | nil => intro s; simp
  | cons r l ih =>
    intro s
    rw [List.foldl_cons, ih, addToBlocks_at b _ _ hk]
    simp only [List.map_cons, List.sum_cons, Nat.zero_add]
    rw [add_assoc]

theorem gathered_at [AddCommMonoid V] (b : ℕ) (dist : Fin (n + 1) → List ℕ) (items : Fin (n + 1) → ℕ → V) {g k : ℕ} (hk : k < b) :
    (secondaries n).foldl (fun s r => addToBlocks b (items r) (dist r) 0 s) (addToBlocks b (items 0) (dist 0) 0 fun _ => 0) (b * g + k) =
      globalValue b dist items g k := by
  rw [foldl_addToBlocks b dist items hk, addToBlocks_at b _ _ hk]
  unfold globalValue secondaries
  rw [Fin.sum_univ_succ, List.map_map, Fin.sum_univ_def]
  simp only [zero_add]
  rfl

/-- What the receiving ranks get. -/
def gsResult [AddCommMonoid V] (b : ℕ) (dist : Fin (n + 1) → List ℕ) (dist' : Fin (m + 1) → List ℕ) (items : Fin (n + 1) → Arr V)
    (buf : Fin (m + 1) → Arr V) : Ranks n m → Arr V
  | .inl r => items r
  | .inr r =>
    let src := (secondaries n).foldl (fun s r => addToBlocks b (items r).get (dist r) 0 s) (addToBlocks b (items 0).get (dist 0) 0 fun _ => 0)
    if r = 0 then ⟨(buf r).size, copyFromBlocks b src (dist' 0) 0 (buf r).get⟩
    else if (buf r).size = 0 then buf r
    else ⟨(buf r).size, copyFromBlocks b src (dist' r) 0 fun _ => 0⟩

theorem gs_completes [AddCommMonoid V] (b total : ℕ) (hb : 0 < b) (dist : Fin (n + 1) → List ℕ) (dist' : Fin (m + 1) → List ℕ) (items : Fin (n + 1) → Arr V)
    (buf : Fin (m + 1) → Arr V) (hi : ∀ r, (items r).size = (dist r).length * b) (hbuf : ∀ r, (buf r).size = (dist' r).length * b) :
    RNet.AlwaysCompletes (gsTransfer b total dist dist' items buf) (gsResult b dist dist' items buf) := by
  have hsz : ∀ l : List ℕ, l.length * b = 0 ↔ l = [] := by
    intro l
    rw [Nat.mul_eq_zero, List.length_eq_zero_iff]
    exact ⟨fun h => h.resolve_right (by omega), .inl⟩
  set K : (ℕ → V) → Prog (Ranks n m) (Arr V) (Arr V) := fun s => .send (.inr 0) ⟨total * b, s⟩ (.ret (items 0)) with hK
  set src := (secondaries n).foldl (fun s r => addToBlocks b (items r).get (dist r) 0 s) (addToBlocks b (items 0).get (dist 0) 0 fun _ => 0) with hsrc
  -- gather
  obtain ⟨k1, p1, hk1, h1c, h1l, h1o⟩ := star_loop_emb (c := (Sum.inl 0 : Ranks n m)) Sum.inl Sum.inl_injective
      (fun s r => addToBlocks b (items r).get (dist r) 0 s) (gatherLoop b dist K)
      (fun r => if (items r).size = 0 then .ret (items r) else .send (.inl 0) (items r) (.ret (items r)))
      (fun r _ => .ret (items r)) (secondaries n) (by
        intro r _ l' s
        by_cases h : dist r = []
        · rw [if_pos ((hi r).trans ((hsz _).2 h))]
          simp only [gatherLoop, h, if_true, addToBlocks]
          exact .refl _ _
        · rw [if_neg fun e => h ((hsz _).1 ((hi r).symm.trans e))]
          simp only [gatherLoop, h, if_false]
          refine .bwd ?_
          simp only [Prog.ensure, if_pos (hi r)]
          exact .refl _ _) (secondaries_nodup n) (fun r hr e => zero_notMem_secondaries n (Sum.inl.inj e ▸ hr))
      (addToBlocks b (items 0).get (dist 0) 0 fun _ => 0) (gsTransfer b total dist dist' items buf) rfl (by
        intro r hr
        simp only [gsTransfer, gsSend, if_neg ((mem_secondaries r).1 hr)])
  -- between the primary ranks
  have h1r : p1 (.inr 0) = gsReceive b total dist' 0 (buf 0) := h1o _ (by simp) (by simp)
  obtain ⟨k2, hk2⟩ := Chat.steps (c := (Sum.inl 0 : Ranks n m)) (r := Sum.inr 0) (by simp)
    (P := K src) (Q := gsReceive b total dist' 0 (buf 0)) (P' := .ret (items 0))
    (Q' := scatterLoop b dist' src (.ret ⟨(buf 0).size, copyFromBlocks b src (dist' 0) 0 (buf 0).get⟩) (secondaries m)) (by
      simp only [hK, gsReceive, if_true]
      refine .fwd ?_
      simp only [Prog.ensure, if_true]
      exact .refl _ _) (p := p1) h1c h1r
  set p2 := Function.update (Function.update p1 (.inl 0) (.ret (items 0))) (.inr 0)
    (scatterLoop b dist' src (.ret ⟨(buf 0).size, copyFromBlocks b src (dist' 0) 0 (buf 0).get⟩) (secondaries m)) with hp2
  -- scatter
  obtain ⟨k3, p3, hk3, h3c, h3l, h3o⟩ := star_loop_emb (c := (Sum.inr 0 : Ranks n m)) Sum.inr Sum.inr_injective (fun (_ : Unit) _ => ())
      (fun l _ => scatterLoop b dist' src (.ret ⟨(buf 0).size, copyFromBlocks b src (dist' 0) 0 (buf 0).get⟩) l)
      (fun r => if (buf r).size = 0 then .ret (buf r) else .recv (.inr 0) fun a => Prog.ensure .assert (a.size = (buf r).size) (.ret ⟨(buf r).size, a.get⟩))
      (fun r _ => if (buf r).size = 0 then .ret (buf r) else .ret ⟨(buf r).size, copyFromBlocks b src (dist' r) 0 fun _ => 0⟩) (secondaries m) (by
        intro r _ l' s
        by_cases h : dist' r = []
        · have h0 : (buf r).size = 0 := (hbuf r).trans ((hsz _).2 h)
          rw [if_pos h0, if_pos h0]
          simp only [scatterLoop, h, if_true]
          exact .refl _ _
        · have h0 : ¬ (buf r).size = 0 := fun e => h ((hsz _).1 ((hbuf r).symm.trans e))
          rw [if_neg h0, if_neg h0]
          simp only [scatterLoop, h, if_false]
          refine .fwd ?_
          simp only [Prog.ensure, if_pos (hbuf r).symm]
          exact .refl _ _) (secondaries_nodup m) (fun r hr e => zero_notMem_secondaries m (Sum.inr.inj e ▸ hr)) () p2 (by
        rw [hp2, Function.update_self]) (by
        intro r hr
        have hr0 := (mem_secondaries r).1 hr
        rw [hp2, Function.update_of_ne (by simpa using hr0), Function.update_of_ne (by simp), h1o _ (by simp) (by simp)]
        simp only [gsTransfer, gsReceive, if_neg hr0])
  refine RNet.alwaysCompletes_of_steps ((hk1.trans hk2).trans hk3) ?_
  rintro (r | r)
  · rw [h3o _ (by simp) (by simp), hp2, Function.update_of_ne (by simp)]
    by_cases hr : r = 0
    · subst hr
      rw [Function.update_self]
      rfl
    · rw [Function.update_of_ne (by simpa using hr), h1l r ((mem_secondaries r).2 hr)]
      rfl
  · by_cases hr : r = 0
    · subst hr
      rw [h3c]
      simp only [scatterLoop, gsResult, if_true]
      rfl
    · rw [h3l r ((mem_secondaries r).2 hr)]
      simp only [gsResult, if_neg hr]
      split <;> rfl

/-- With gather-scatter communication all ranks finish and every rank receives, for each component of each of its vertices, the sum over all sending ranks and vertices with
the same global id; senders keep their data. Any numbers of ranks, any distributions (also with empty ranks), any number of values per vertex. -/
theorem C60_gather_scatter [AddCommMonoid V] (b total : ℕ) (hb : 0 < b) (dist : Fin (n + 1) → List ℕ) (dist' : Fin (m + 1) → List ℕ) (items : Fin (n + 1) → Arr V)
    (buf : Fin (m + 1) → Arr V) (hi : ∀ r, (items r).size = (dist r).length * b) (hbuf : ∀ r, (buf r).size = (dist' r).length * b) :
    ∃ res, RNet.AlwaysCompletes (gsTransfer b total dist dist' items buf) res ∧ (∀ r, res (.inl r) = items r) ∧
      ∀ r, (res (.inr r)).size = (dist' r).length * b ∧
        ∀ i g k, (dist' r)[i]? = some g → k < b → (res (.inr r)).get (b * i + k) = globalValue b dist (fun r => (items r).get) g k := by
  refine ⟨_, gs_completes b total hb dist dist' items buf hi hbuf, fun _ => rfl, fun r => ⟨?_, fun i g k hg hk => ?_⟩⟩
  · rw [← hbuf r]
    simp only [gsResult]
    split
    · rfl
    · split <;> rfl
  · have hne : ¬ (buf r).size = 0 := by
      rw [hbuf r, Nat.mul_eq_zero]
      rintro (h | h)
      · rw [List.length_eq_zero_iff] at h
        rw [h] at hg
        simp at hg
      · omega
    simp only [gsResult]
    split
    · next h =>
      subst h
      simp only []
      rw [copyFromBlocks_at b _ _ hk, Nat.sub_zero, hg]
      simp only [Nat.zero_le, if_true]
      exact gathered_at b dist (fun r => (items r).get) hk
    · simp only [hne]
      rw [copyFromBlocks_at b _ _ hk, Nat.sub_zero, hg]
      simp only [Nat.zero_le, if_true]
      exact gathered_at b dist (fun r => (items r).get) hk

/-- If the sending side is a partition of the vertices, each vertex receives exactly the value of its global vertex. -/
theorem C60_partition [AddCommMonoid V] (b : ℕ) (dist : Fin (n + 1) → List ℕ) (items : Fin (n + 1) → ℕ → V) (k : ℕ)
    {r : Fin (n + 1)} {j g : ℕ} (hj : (dist r)[j]? = some g) (hu : ∀ s i, (dist s)[i]? = some g → s = r ∧ i = j) :
    globalValue b dist items g k = items r (b * j + k) := globalValue_partition b dist items k hj hu

/-- A vertex that no sending rank holds receives zero. -/
theorem C62_gather_scatter [AddCommMonoid V] (b : ℕ) (dist : Fin (n + 1) → List ℕ) (items : Fin (n + 1) → ℕ → V) (g k : ℕ) (h : ∀ r, g ∉ dist r) :
    globalValue b dist items g k = 0 :=
  Finset.sum_eq_zero fun r _ => Finset.sum_eq_zero fun _ _ => if_neg fun e => h r (List.mem_of_getElem? e)

/-- A secondary rank that provides a buffer of the wrong size makes the primary rank fail (with sockets the surplus would be taken for the next message). -/
theorem C60_wrong_size [AddCommMonoid V] (b total : ℕ) (dist : Fin 2 → List ℕ) (items a : Arr V) (h : dist 1 ≠ []) (ha : a.size ≠ (dist 1).length * b) :
    ∃ K, gsSend (n := 1) (m := m) b total dist 0 items = .recv (.inl 1) K ∧ K a = .fail .assert := by
  refine ⟨fun a => Prog.ensure .assert (a.size = (dist 1).length * b) (gatherLoop b dist (fun s => .send (.inr 0) ⟨total * b, s⟩ (.ret items)) []
    (addToBlocks b a.get (dist 1) 0 (addToBlocks b items.get (dist 0) 0 fun _ => 0))), ?_, ?_⟩
  · simp only [gsSend, if_true, show secondaries 1 = [(1 : Fin 2)] from rfl, gatherLoop, if_neg h]
  · simp only [Prog.ensure, if_neg ha]

example : globalValue (V := ℤ) 2 ![[0, 2], [2]] ![fun p => p, fun p => 10 + p] 2 1 = 3 + 11 := by decide

end Verif.Dist
