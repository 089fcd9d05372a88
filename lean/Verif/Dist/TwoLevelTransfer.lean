import Verif.Dist.TwoLevelMaps

/-!
# Data transfer with two-level initialization (C116)
-/

set_option autoImplicit false

namespace Verif.TwoLevelInit

open Verif.Dist Verif.Com Verif.Repartition Ordered

variable {d p n k : ℕ} {V : Type}

/-- The transfer of data with mappings that were set up somehow, PointToPointCommunication.cpp:610-655. -/
def transferWith [Add V] [Zero V] (b : ℕ) (ms : Fin (n + 1) → List (Fin (k + 1) × List ℕ)) (mr : Fin (k + 1) → List (Fin (n + 1) × List ℕ)) (items : Fin (n + 1) → Arr V)
    (buf : Fin (k + 1) → Arr V) : Ranks n k → Prog (Ranks n k) (Arr V) (Arr V)
  | .inl r => p2pSend b (ms r) (items r)
  | .inr s => p2pReceive b (mr s) (buf s)

/-- What rank `r` sends. -/
def packedWith [Zero V] (b : ℕ) (items : Fin (n + 1) → Arr V) (idx : Fin (n + 1) → Fin (k + 1) → List ℕ) (r : Fin (n + 1)) (s : Fin (k + 1)) : Arr V :=
  ⟨(idx r s).length * b, copyFromBlocks b (items r).get (idx r s) 0 fun _ => 0⟩

theorem transfer_completes [AddCommMonoid V] (b : ℕ) (cs : Fin (n + 1) → List (Fin (k + 1))) (cr : Fin (k + 1) → List (Fin (n + 1))) (is : Fin (n + 1) → Fin (k + 1) → List ℕ)
    (ir : Fin (k + 1) → Fin (n + 1) → List ℕ) (items : Fin (n + 1) → Arr V) (buf : Fin (k + 1) → Arr V) (hns : ∀ r, (cs r).Nodup) (hnr : ∀ s, (cr s).Nodup)
    (hsym : ∀ r s, s ∈ cs r ↔ r ∈ cr s) (hlen : ∀ r s, s ∈ cs r → (is r s).length = (ir s r).length) (hsize : ∀ r s, s ∈ cs r → ((items r).size = 0 ↔ (buf s).size = 0)) :
    Net.AlwaysCompletes (RNet.toNet (transferWith b (fun r => (cs r).map fun s => (s, is r s)) (fun s => (cr s).map fun r => (r, ir s r)) items buf)) fun
      | .inl r => items r
      | .inr s => if cr s = [] ∨ (buf s).size = 0 then buf s else
        ⟨(buf s).size, (cr s).foldl (fun t r => addToBlocks b (packedWith b items is r s).get (ir s r) 0 t) fun _ => 0⟩ := by
  -- the partners a rank really talks to
  set ds : Fin (n + 1) → List (Fin (k + 1)) := fun r => if (items r).size = 0 then [] else cs r with hds
  set dr : Fin (k + 1) → List (Fin (n + 1)) := fun s => if (buf s).size = 0 then [] else cr s with hdr
  have hnds : ∀ r, (ds r).Nodup := by
    intro r
    simp only [hds]
    split
    · exact List.nodup_nil
    · exact hns r
  have hndr : ∀ s, (dr s).Nodup := by
    intro s
    simp only [hdr]
    split
    · exact List.nodup_nil
    · exact hnr s
  have hmem : ∀ r s, s ∈ ds r ↔ r ∈ dr s := by
    intro r s
    simp only [hds, hdr]
    constructor
    · intro h
      split at h
      · simp at h
      · rename_i h0
        rw [if_neg fun e => h0 ((hsize r s h).2 e)]
        exact (hsym r s).1 h
    · intro h
      split at h
      · simp at h
      · rename_i h0
        have h' := (hsym r s).2 h
        rw [if_neg fun e => h0 ((hsize r s h').1 e)]
        exact h'
  set tr := transferWith b (fun r => (cs r).map fun s => (s, is r s)) (fun s => (cr s).map fun r => (r, ir s r)) items buf with htr
  set fin : Ranks n k → Arr V := fun i => match i with
      | .inl r => items r
      | .inr s => if cr s = [] ∨ (buf s).size = 0 then buf s else
        ⟨(buf s).size, (cr s).foldl (fun t r => addToBlocks b (packedWith b items is r s).get (ir s r) 0 t) fun _ => 0⟩ with hfin
  have ex : Exchange tr fun i => .ret (fin i) := by
    refine ⟨fun i => match i with
        | .inl r => ((ds r).map Sum.inr).map fun i => (i, match i with
          | .inr s => packedWith b items is r s | .inl _ => ⟨0, fun _ => 0⟩)
        | .inr _ => [],
      fun i => match i with
        | .inl r => .ret (items r)
        | .inr s => tr (.inr s),
      fun i => match i with
        | .inl _ => []
        | .inr s => (dr s).map Sum.inl,
      fun i => match i with
        | .inl _ => []
        | .inr s => (dr s).map fun r => packedWith b items is r s, ?_, ?_, ?_⟩
    · rintro (r | s)
      · simp only [htr, transferWith, p2pSend, List.map_eq_nil_iff, hds]
        by_cases h0 : (items r).size = 0
        · simp [h0, sendL]
        · by_cases hc : cs r = []
          · simp [hc, sendL]
          · rw [if_neg (by rintro (e | e); exacts [hc e, h0 e]), if_neg h0, List.map_map, List.map_map]
            rfl
      · rfl
    · rintro (r | s)
      · exact .nil _
      · simp only [htr, transferWith, p2pReceive, List.map_eq_nil_iff, hdr, hfin]
        by_cases h0 : (buf s).size = 0
        · simp only [h0, or_true, if_true, List.map_nil]
          exact .nil _
        · by_cases hc : cr s = []
          · simp only [hc, true_or, if_true, List.map_nil, ite_self]
            exact .nil _
          · rw [if_neg (by rintro (e | e); exacts [hc e, h0 e]), if_neg h0, if_neg (by rintro (e | e); exacts [hc e, h0 e])]
            -- only the lengths of connected ranks matter
            have hrec : ∀ (l : List (Fin (n + 1))), (∀ r ∈ l, r ∈ cr s) → ∀ t : ℕ → V,
                Recvs (p2pLoop (m := k) b (buf s).size (l.map fun r => (r, ir s r)) t) (l.map Sum.inl) (l.map fun r => packedWith b items is r s)
                  (.ret ⟨(buf s).size, l.foldl (fun t r => addToBlocks b (packedWith b items is r s).get (ir s r) 0 t) t⟩) := by
              intro l
              induction l with
              | nil => intro _ t; exact .nil _
              | cons r l ih =>
                intro hl t
                refine .cons ?_
                have hr : s ∈ cs r := (hsym r s).2 (hl r (by simp))
                have : (packedWith b items is r s).size = (ir s r).length * b := by rw [← hlen r s hr]; rfl
                simp only [Prog.ensure, if_pos this]
                exact ih (fun r' hr' => hl r' (by simp [hr'])) _
            exact hrec _ (fun r hr => hr) _
    · rintro (r | s)
      · simp only [take]
        congr 2
        funext j
        rcases j with r' | s
        · simp only []
          have : (Sum.inl r : Ranks n k) ∉ (ds r').map Sum.inr := by simp
          rw [toward_targets _ _ _ ((hnds r').map Sum.inr_injective), if_neg this]
        · rfl
      · refine (congrArg (take _) (funext fun j => ?_)).trans ((take_targets (fun j : Ranks n k => (match j with
              | .inl r => packedWith b items is r s | .inr _ => ⟨0, fun _ => 0⟩ : Arr V)) ((dr s).map Sum.inl)
              ((hndr s).map Sum.inl_injective)).trans ?_)
        · rcases j with r | s'
          · simp only []
            rw [toward_targets _ _ _ ((hnds r).map Sum.inr_injective)]
            have hiff : (Sum.inr s : Ranks n k) ∈ (ds r).map Sum.inr ↔ (Sum.inl r : Ranks n k) ∈ (dr s).map Sum.inl := by
              rw [List.mem_map_of_injective Sum.inr_injective, List.mem_map_of_injective Sum.inl_injective, hmem]
            by_cases h : (Sum.inl r : Ranks n k) ∈ (dr s).map Sum.inl
            · rw [if_pos h, if_pos (hiff.2 h)]
            · rw [if_neg h, if_neg fun e => h (hiff.1 e)]
          · simp [toward]
        · rw [List.map_map]
          rfl
  have hall : ∀ i : Ranks n k, i ∈ (List.finRange (n + 1)).map Sum.inl ++ (List.finRange (k + 1)).map Sum.inr := by
    rintro (r | s)
    · simp
    · simp
  have hnd : ((List.finRange (n + 1)).map Sum.inl ++ (List.finRange (k + 1)).map Sum.inr : List (Ranks n k)).Nodup := by
    refine List.Nodup.append ((List.nodup_finRange _).map Sum.inl_injective) ((List.nodup_finRange _).map Sum.inr_injective) ?_
    intro x h1 h2
    obtain ⟨a, -, rfl⟩ := List.mem_map.1 h1
    obtain ⟨b, -, e⟩ := List.mem_map.1 h2
    cases e
  obtain ⟨j, hj⟩ := ex.buffered _ hnd hall
  exact Net.alwaysCompletes_of_steps hj ⟨fun _ => rfl, fun _ => rfl⟩

/-- What one connected rank contributes to a vertex. -/
theorem contribution_fit [AddCommMonoid V] (b : ℕ) {as bs ia ib : List ℕ} (h : Fit as bs ia ib) (ha : as.Nodup) (hbn : bs.Nodup) (x : ℕ → V) {i g j : ℕ} (hj : j < b) (hg : bs[i]? = some g) :
    (∑ l ∈ Finset.range ib.length, if ib[l]? = some i then copyFromBlocks b x ia 0 (fun _ => 0) (b * l + j) else 0) =
      ∑ l ∈ Finset.range as.length, if as[l]? = some g then x (b * l + j) else 0 := by
  have inj : ∀ {l : List ℕ} (_ : l.Nodup) {u v a : ℕ}, l[u]? = some a → l[v]? = some a → u = v := by
    intro l hl u v a hu hv
    obtain ⟨p1, q1⟩ := List.getElem?_eq_some_iff.1 hu
    obtain ⟨p2, q2⟩ := List.getElem?_eq_some_iff.1 hv
    exact (List.Nodup.getElem_inj_iff hl).1 (q1.trans q2.symm)
  have hsame : ∀ l : ℕ, (ia[l]?).map (fun i => as[i]?) = (ib[l]?).map fun i => bs[i]? := by
    intro l
    have := congrArg (fun t => t[l]?) h.same
    simpa only [List.getElem?_map] using this
  by_cases hm : g ∈ as
  · obtain ⟨i', hi'⟩ := List.mem_iff_getElem?.1 hm
    have h1 := h.all g hm (List.mem_of_getElem? hg)
    obtain ⟨a, ha1, ha2⟩ := List.mem_map.1 h1
    have : a = i' := inj ha ha2 hi'
    subst this
    obtain ⟨l0, hl0⟩ := List.mem_iff_getElem?.1 ha1
    have hl0' : ib[l0]? = some i := by
      have e := hsame l0
      rw [hl0, Option.map_some, hi'] at e
      obtain ⟨i2, e1, e2⟩ := Option.map_eq_some_iff.1 e.symm
      rw [e1, inj hbn e2 hg]
    rw [Finset.sum_eq_single l0, if_pos hl0', copyFromBlocks_at b _ _ hj, Nat.sub_zero, hl0, Finset.sum_eq_single a, if_pos hi']
    · simp
    · intro l _ hl
      exact if_neg fun e => hl (inj ha e hi')
    · intro hn
      exact absurd (Finset.mem_range.2 (List.getElem?_eq_some_iff.1 hi').1) hn
    · intro l _ hl
      exact if_neg fun e => hl (inj h.nodup.2 e hl0')
    · intro hn
      exact absurd (Finset.mem_range.2 (List.getElem?_eq_some_iff.1 hl0').1) hn
  · rw [Finset.sum_eq_zero, Finset.sum_eq_zero]
    · exact fun l _ => if_neg fun e => hm (List.mem_of_getElem? e)
    · refine fun l _ => if_neg fun e => ?_
      have e1 := hsame l
      rw [e, Option.map_some, hg] at e1
      obtain ⟨i2, e2, e3⟩ := Option.map_eq_some_iff.1 e1
      exact hm (List.mem_of_getElem? e3)

/-- A rank with partners gets the values by global IDs. -/
theorem transfer_value [AddCommMonoid V] (b : ℕ) (dist : Fin (n + 1) → List ℕ) (dist' : Fin (k + 1) → List ℕ) (cr : Fin (k + 1) → List (Fin (n + 1))) (is : Fin (n + 1) → Fin (k + 1) → List ℕ)
    (ir : Fin (k + 1) → Fin (n + 1) → List ℕ) (items : Fin (n + 1) → Arr V) (hnr : ∀ s, (cr s).Nodup) (hd : ∀ r, (dist r).Nodup) (hd' : ∀ s, (dist' s).Nodup)
    (hfit : ∀ s, ∀ r ∈ cr s, Fit (dist r) (dist' s) (is r s) (ir s r)) (hapart : ∀ s r, r ∉ cr s → ∀ g ∈ dist' s, g ∉ dist r) (s : Fin (k + 1)) {i g j : ℕ}
    (hg : (dist' s)[i]? = some g) (hj : j < b) :
    (cr s).foldl (fun t r => addToBlocks b (packedWith b items is r s).get (ir s r) 0 t) (fun _ => 0) (b * i + j) = globalValue b dist (fun r => (items r).get) g j := by
  have h1 : ∀ (l : List (Fin (n + 1))), (∀ r ∈ l, r ∈ cr s) → ∀ (t : ℕ → V),
      l.foldl (fun t r => addToBlocks b (packedWith b items is r s).get (ir s r) 0 t) t (b * i + j) =
      t (b * i + j) + (l.map fun r => ∑ l ∈ Finset.range (dist r).length, if (dist r)[l]? = some g then (items r).get (b * l + j) else 0).sum := by
    intro l
    induction l with
    | nil => intro _ t; simp
    | cons r l ih =>
      intro hl t
      rw [List.foldl_cons, ih (fun r' hr' => hl r' (by simp [hr'])), addToBlocks_at b _ _ hj, List.map_cons, List.sum_cons, ← add_assoc]
      congr 2
      simp only [Nat.zero_add, packedWith]
      exact contribution_fit b (hfit s r (hl r (by simp))) (hd r) (hd' s) (items r).get hj hg
  rw [h1 _ (fun r hr => hr), zero_add]
  unfold globalValue
  rw [← List.sum_toFinset _ (hnr s)]
  refine Finset.sum_subset (Finset.subset_univ _) fun r _ hr => ?_
  rw [List.mem_toFinset] at hr
  exact Finset.sum_eq_zero fun l _ => if_neg fun e => hapart s r hr g (List.mem_of_getElem? hg) (List.mem_of_getElem? e)

end Verif.TwoLevelInit
