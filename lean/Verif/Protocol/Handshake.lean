import Verif.Net.Rendezvous
import Mathlib.Data.Fintype.Fin
import Mathlib.Data.List.Sort
import Mathlib.Data.List.Nodup
import Mathlib.Algebra.BigOperators.Fin
import Mathlib.Algebra.BigOperators.Group.Finset.Basic
import Mathlib.Data.Finset.Max
import Mathlib.Algebra.Order.BigOperators.Group.Finset
import Mathlib.Tactic.Linarith

/-!
# Handshakes between participants

Version check on connection (`/repo/src/m2n/M2N.cpp`) and agreement on a reinitialization
(`/repo/src/precice/impl/ParticipantImpl.cpp`). Only the primary ranks communicate; their result is broadcast
to the other ranks.
-/

set_option autoImplicit false

namespace Verif.Handshake

open Function (update)

/-! ## Connection -/

/-- `makeLocalInfo`, M2N.cpp:40-47: `PRECICE_VERSION`, a semicolon and the hash of the configuration. Strings
are lists of characters. -/
def makeLocalInfo (version hash : List Char) : List Char := version ++ ';' :: hash

/-- `checkRemoteInfo`, M2N.cpp:54-71: `false` is the error raised by one of the checks. -/
def checkRemoteInfo (version hash remote : List Char) : Bool :=
  match remote.idxOf? ';' with
  | none => false
  | some sep => remote.take sep = version && remote.drop (sep + 1) = hash

/-- Outcome of a connection attempt. -/
inductive Verdict where
  | proceeds
  | aborts
deriving DecidableEq

def verdict (b : Bool) : Verdict := if b then .proceeds else .aborts

/-- `acceptPrimaryRankConnection`, M2N.cpp:73-101, after the connection is established. -/
def accept {ι : Type} (partner : ι) (version hash : List Char) : Prog ι (List Char) Verdict :=
  .send partner (makeLocalInfo version hash) <| .recv partner fun info =>
    .ret (verdict (checkRemoteInfo version hash info))

/-- `requestPrimaryRankConnection`, M2N.cpp:103-128, after the connection is established. -/
def request {ι : Type} (partner : ι) (version hash : List Char) : Prog ι (List Char) Verdict :=
  .recv partner fun info => .send partner (makeLocalInfo version hash) <|
    .ret (verdict (checkRemoteInfo version hash info))

theorem idxOf_info (v h : List Char) (hv : ';' ∉ v) : (makeLocalInfo v h).idxOf? ';' = some v.length := by
  unfold makeLocalInfo
  induction v with
  | nil => simp [List.idxOf?_cons]
  | cons c v ih =>
    simp only [List.mem_cons, not_or] at hv
    have hc : ¬ c = ';' := fun e => hv.1 e.symm
    simp [List.idxOf?_cons, hc, ih hv.2]

theorem check_info (v h v' h' : List Char) (hv' : ';' ∉ v') :
    checkRemoteInfo v h (makeLocalInfo v' h') = decide (v = v' ∧ h = h') := by
  unfold checkRemoteInfo
  rw [idxOf_info v' h' hv']
  simp only [makeLocalInfo, List.take_left', List.drop_append, List.drop_of_length_le (Nat.le_succ _)]
  rw [show v'.length + 1 - v'.length = 1 by omega]
  by_cases h1 : v = v'
  · by_cases h2 : h = h'
    · simp [h1, h2]
    · have : ¬ h' = h := fun e => h2 e.symm
      simp [h1, h2, this]
  · have : ¬ v' = v := fun e => h1 e.symm
    simp [h1, this]

/-- Acceptor and requester always come to a verdict, in every order of execution and even if sends block; both
proceed if versions and hashes agree, otherwise both abort. (Version strings contain no semicolon.) -/
theorem C89_agreement (va ha vr hr : List Char) (h1 : ';' ∉ va) (h2 : ';' ∉ vr) :
    RNet.AlwaysCompletes (pair (accept false va ha) (request true vr hr))
      (fun _ => if va = vr ∧ ha = hr then .proceeds else .aborts) := by
  have hm : Meet (accept false va ha) (request true vr hr) (verdict (checkRemoteInfo va ha (makeLocalInfo vr hr)))
      (verdict (checkRemoteInfo vr hr (makeLocalInfo va ha))) := .fwd (.bwd (.ret _ _))
  rw [check_info _ _ _ _ h2, check_info _ _ _ _ h1] at hm
  have := hm.alwaysCompletes
  convert this using 1
  funext x
  by_cases e1 : va = vr
  · by_cases e2 : ha = hr
    · subst e1 e2; cases x <;> simp [verdict]
    · have : ¬ hr = ha := fun e => e2 e.symm
      cases x <;> simp [verdict, e1, e2, this]
  · have : ¬ vr = va := fun e => e1 e.symm
    cases x <;> simp [verdict, e1, this]

example : RNet.AlwaysCompletes (pair (accept false "3.4.1".toList "ab".toList) (request true "3.4.0".toList "ab".toList))
    (fun _ => .aborts) := by
  have := C89_agreement "3.4.1".toList "ab".toList "3.4.0".toList "ab".toList (by decide) (by decide)
  simpa using this

example : RNet.AlwaysCompletes (pair (accept false "3.4.0".toList "ab".toList) (request true "3.4.0".toList "ab".toList))
    (fun _ => .proceeds) := by
  have := C89_agreement "3.4.0".toList "ab".toList "3.4.0".toList "ab".toList (by decide) (by decide)
  simpa using this

/-! ## Reinitialization -/

/-- `reinitHandshake`, ParticipantImpl.cpp:1924-1956, on the primary rank: the loop over the connected
participants (in the order of their names), with the result so far. -/
def reinit {ι : Type} (requesting : ι → Bool) (own : Bool) : List ι → Bool → Prog ι Bool Bool
  | [], acc => .ret acc
  | j :: js, acc =>
    if requesting j then .send j own <| .recv j fun r => reinit requesting own js (acc || r)
    else .recv j fun r => .send j own <| reinit requesting own js (acc || r)

/-- A configuration of `n` participants, numbered in the order of their names. -/
structure Topology (n : ℕ) where
  /-- the entries of `_m2ns` -/
  partners : Fin n → List (Fin n)
  requesting : Fin n → Fin n → Bool

namespace Topology

variable {n : ℕ}

/-- Connections are mutual, one side requests, and `std::map` iterates in the order of the names. -/
structure Valid (T : Topology n) : Prop where
  sorted : ∀ i, (T.partners i).Pairwise (· < ·)
  symm : ∀ i j, j ∈ T.partners i → i ∈ T.partners j
  irrefl : ∀ i, i ∉ T.partners i
  request : ∀ i j, j ∈ T.partners i → T.requesting j i = !T.requesting i j

/-- The network with intermediate results `acc`. -/
def net (T : Topology n) (own acc : Fin n → Bool) : Fin n → Prog (Fin n) Bool Bool :=
  fun i => reinit (T.requesting i) (own i) (T.partners i) (acc i)

theorem exists_first (T : Topology n) (hT : T.Valid) (h : ∃ i, T.partners i ≠ []) :
    ∃ a b la lb, a ≠ b ∧ T.partners a = b :: la ∧ T.partners b = a :: lb := by
  classical
  let E : Finset (Fin n × Fin n) := Finset.univ.filter (fun e => e.2 ∈ T.partners e.1)
  have hE : E.Nonempty := by
    obtain ⟨i, hi⟩ := h
    obtain ⟨j, l, hl⟩ := List.exists_cons_of_ne_nil hi
    exact ⟨(i, j), by simp [E, hl]⟩
  obtain ⟨⟨a, b⟩, hab, hmin⟩ := Finset.exists_min_image E (fun e => e.1.val + e.2.val) hE
  have hb : b ∈ T.partners a := by simpa [E] using hab
  have head : ∀ x y, y ∈ T.partners x → x.val + y.val = a.val + b.val → ∃ l, T.partners x = y :: l := by
    intro x y hxy hs
    cases hl : T.partners x with
    | nil => rw [hl] at hxy; simp at hxy
    | cons z l =>
      have hz : z ∈ T.partners x := by rw [hl]; exact List.mem_cons_self
      have h1 := hmin (x, z) (by simpa [E] using hz)
      simp only at h1
      rw [hl] at hxy
      rcases List.mem_cons.1 hxy with rfl | hyl
      · exact ⟨l, rfl⟩
      · have := hT.sorted x
        rw [hl, List.pairwise_cons] at this
        have h2 := this.1 y hyl
        have h2' : z.val < y.val := h2
        omega
  obtain ⟨la, hla⟩ := head a b hb rfl
  obtain ⟨lb, hlb⟩ := head b a (hT.symm a b hb) (by omega)
  refine ⟨a, b, la, lb, ?_, hla, hlb⟩
  rintro rfl
  exact hT.irrefl a hb

/-- One connection is served. -/
theorem serve (T : Topology n) (hT : T.Valid) (own acc : Fin n → Bool) (a b : Fin n) (la lb : List (Fin n))
    (hab : a ≠ b) (ha : T.partners a = b :: la) (hb : T.partners b = a :: lb) :
    RNet.Steps 2 (T.net own acc)
      (({ T with partners := update (update T.partners a la) b lb } : Topology n).net own
        (update (update acc a (acc a || own b)) b (acc b || own a))) := by
  have hreq := hT.request a b (by rw [ha]; exact List.mem_cons_self)
  have key : ∀ (a b : Fin n) (la lb : List (Fin n)), a ≠ b → T.partners a = b :: la → T.partners b = a :: lb →
      T.requesting a b = true → T.requesting b a = false → RNet.Steps 2 (T.net own acc)
      (({ T with partners := update (update T.partners a la) b lb } : Topology n).net own
        (update (update acc a (acc a || own b)) b (acc b || own a))) := by
    intro a b la lb hab ha hb h1 h2
    have hba : b ≠ a := hab.symm
    refine .head (p' := update (update (T.net own acc) a
        (.recv b fun r => reinit (T.requesting a) (own a) la (acc a || r))) b
        (.send a (own b) (reinit (T.requesting b) (own b) lb (acc b || own a)))) ?_ (.single ?_)
    · refine ⟨a, b, own a, _, fun r => .send a (own b) (reinit (T.requesting b) (own b) lb (acc b || r)), ?_, ?_, rfl⟩
      · simp only [net, ha, reinit, h1, if_true]
      · simp only [net, hb, reinit, h2]; rfl
    · refine ⟨b, a, own b, reinit (T.requesting b) (own b) lb (acc b || own a),
        fun r => reinit (T.requesting a) (own a) la (acc a || r), ?_, ?_, ?_⟩
      · simp
      · rw [Function.update_of_ne hab]; simp
      · funext x
        by_cases hxa : x = a
        · subst hxa; simp [net, hab]
        · by_cases hxb : x = b
          · subst hxb; simp [net, hxa]
          · simp [net, hxa, hxb]
  cases h : T.requesting a b with
  | true => exact key a b la lb hab ha hb h (by rw [hreq, h]; rfl)
  | false =>
    have := key b a lb la hab.symm hb ha (by rw [hreq, h]; rfl) h
    rwa [Function.update_comm hab, Function.update_comm (f := acc) hab]

theorem serve_valid (T : Topology n) (hT : T.Valid) (a b : Fin n) (la lb : List (Fin n))
    (hab : a ≠ b) (ha : T.partners a = b :: la) (hb : T.partners b = a :: lb) :
    ({ T with partners := update (update T.partners a la) b lb } : Topology n).Valid := by
  have hsub : ∀ i, (update (update T.partners a la) b lb i).Sublist (T.partners i) := by
    intro i
    by_cases hib : i = b
    · subst hib; rw [Function.update_self, hb]; exact List.sublist_cons_self _ _
    · rw [Function.update_of_ne hib]
      by_cases hia : i = a
      · subst hia; rw [Function.update_self, ha]; exact List.sublist_cons_self _ _
      · rw [Function.update_of_ne hia]
  have hla : b ∉ la := by
    have := hT.sorted a
    rw [ha, List.pairwise_cons] at this
    exact fun h => lt_irrefl _ (this.1 b h)
  have hlb : a ∉ lb := by
    have := hT.sorted b
    rw [hb, List.pairwise_cons] at this
    exact fun h => lt_irrefl _ (this.1 a h)
  have hmem : ∀ i j, j ∈ update (update T.partners a la) b lb i ↔
      j ∈ T.partners i ∧ ¬ (i = a ∧ j = b) ∧ ¬ (i = b ∧ j = a) := by
    intro i j
    by_cases hib : i = b
    · subst hib
      rw [Function.update_self, hb]
      constructor
      · intro h; exact ⟨List.mem_cons_of_mem _ h, fun e => hab e.1.symm, fun e => hlb (e.2 ▸ h)⟩
      · rintro ⟨h1, -, h3⟩
        rcases List.mem_cons.1 h1 with rfl | h
        · exact absurd ⟨rfl, rfl⟩ h3
        · exact h
    · rw [Function.update_of_ne hib]
      by_cases hia : i = a
      · subst hia
        rw [Function.update_self, ha]
        constructor
        · intro h; exact ⟨List.mem_cons_of_mem _ h, fun e => hla (e.2 ▸ h), fun e => hab e.1⟩
        · rintro ⟨h1, h2, -⟩
          rcases List.mem_cons.1 h1 with rfl | h
          · exact absurd ⟨rfl, rfl⟩ h2
          · exact h
      · rw [Function.update_of_ne hia]
        simp [hia, hib]
  refine ⟨fun i => (hT.sorted i).sublist (hsub i), fun i j h => ?_, fun i h => hT.irrefl i ((hsub i).subset h),
    fun i j h => hT.request i j ((hsub i).subset h)⟩
  rw [hmem] at h ⊢
  exact ⟨hT.symm i j h.1, fun e => h.2.2 ⟨e.2, e.1⟩, fun e => h.2.1 ⟨e.2, e.1⟩⟩

theorem completes (k : ℕ) (T : Topology n) (hT : T.Valid) (own acc : Fin n → Bool)
    (hk : ∑ i, (T.partners i).length = k) :
    ∃ s, RNet.Steps s (T.net own acc) (fun i => .ret (acc i || (T.partners i).any own)) := by
  induction k using Nat.strong_induction_on generalizing T acc with
  | _ k ih =>
    by_cases h : ∃ i, T.partners i ≠ []
    · obtain ⟨a, b, la, lb, hab, ha, hb⟩ := T.exists_first hT h
      have hs := T.serve hT own acc a b la lb hab ha hb
      have hlt : ∑ i, (update (update T.partners a la) b lb i).length < ∑ i, (T.partners i).length := by
        refine Finset.sum_lt_sum (fun i _ => ?_) ⟨a, Finset.mem_univ a, ?_⟩
        · by_cases hib : i = b
          · subst hib; rw [Function.update_self, hb]; simp
          · rw [Function.update_of_ne hib]
            by_cases hia : i = a
            · subst hia; rw [Function.update_self, ha]; simp
            · rw [Function.update_of_ne hia]
        · rw [Function.update_of_ne hab, Function.update_self, ha]; simp
      obtain ⟨s, hs'⟩ := ih _ (hk ▸ hlt) _ (T.serve_valid hT a b la lb hab ha hb)
        (update (update acc a (acc a || own b)) b (acc b || own a)) rfl
      refine ⟨2 + s, hs.trans ?_⟩
      convert hs' using 1
      funext i
      congr 1
      by_cases hib : i = b
      · subst hib; simp [hb, Bool.or_assoc]
      · by_cases hia : i = a
        · subst hia; simp [hab, ha, Bool.or_assoc]
        · simp [hia, hib]
    · have h' : ∀ i, T.partners i = [] := fun i => not_not.1 fun e => h ⟨i, e⟩
      refine ⟨0, ?_⟩
      have : T.net own acc = fun i => .ret (acc i || (T.partners i).any own) := by
        funext i; simp [net, h' i, reinit]
      rw [← this]; exact .refl _

end Topology

/-- For any number of participants and any set of connections the handshake always completes, even with
blocking sends; a participant reinitializes exactly if itself or a directly connected participant has reset
a mesh. -/
theorem C90_completes {n : ℕ} (T : Topology n) (hT : T.Valid) (own : Fin n → Bool) :
    RNet.AlwaysCompletes (T.net own own) (fun i => own i || (T.partners i).any own) := by
  obtain ⟨s, hs⟩ := T.completes _ hT own own rfl
  exact RNet.alwaysCompletes_of_steps hs (fun _ => rfl)

/-- Two coupled participants (or, more generally, any number of participants that are pairwise connected)
agree: they all reinitialize if one of them has reset a mesh, otherwise none does. -/
theorem C90_agreement {n : ℕ} (T : Topology n) (hT : T.Valid) (hall : ∀ i j, i ≠ j → j ∈ T.partners i)
    (own : Fin n → Bool) :
    RNet.AlwaysCompletes (T.net own own) (fun _ => decide (∃ j, own j = true)) := by
  have := C90_completes T hT own
  convert this using 1
  funext i
  rw [Bool.eq_iff_iff]
  simp only [decide_eq_true_eq, Bool.or_eq_true, List.any_eq_true]
  constructor
  · rintro ⟨j, hj⟩
    by_cases e : i = j
    · exact .inl (e ▸ hj)
    · exact .inr ⟨j, hall i j e, hj⟩
  · rintro (h | ⟨j, -, h⟩)
    · exact ⟨i, h⟩
    · exact ⟨j, h⟩

/-- Two participants. -/
def two : Topology 2 := ⟨fun i => [1 - i], fun i _ => i == 0⟩

example : two.Valid ∧ ∀ i j, i ≠ j → j ∈ two.partners i :=
  ⟨⟨by decide, by decide, by decide, by decide⟩, by decide⟩

/-- Three participants in a row. -/
def chain : Topology 3 := ⟨fun i => if i = 1 then [0, 2] else [1], fun i j => i < j⟩

theorem chain_valid : chain.Valid := ⟨by decide, by decide, by decide, by decide⟩

/-- Disagreement: if the first of three participants in a row resets a mesh then the second one
reinitializes, but the third one, which is coupled to the second one, does not. -/
theorem C90_chain_disagrees :
    RNet.AlwaysCompletes (chain.net (fun i => i == 0) (fun i => i == 0)) (fun i => i != 2) := by
  have := C90_completes chain chain_valid (fun i => i == 0)
  convert this using 1
  decide

end Verif.Handshake
