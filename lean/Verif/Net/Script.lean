import Verif.Net.Network
import Mathlib.Data.Fintype.Basic
import Mathlib.Data.Fintype.Lattice
import Mathlib.Data.Finite.Prod
import Mathlib.Data.Fintype.Sets
import Mathlib.Data.Finite.Defs
import Mathlib.Data.List.Forall2
import Mathlib.Algebra.BigOperators.Group.Finset.Basic
import Mathlib.Algebra.Order.BigOperators.Group.Finset

/-!
# Programs that follow a script

A script is the list of communication operations of a participant. If every participant follows a
script, whatever it receives, and the operations can be ranked such that every participant performs
its operations in increasing rank and every message is sent at a lower rank than it is received, then
every execution completes.
-/

set_option autoImplicit false

namespace Verif

open Function

/-- A communication operation. -/
inductive Act (ι : Type) where
  | send (dst : ι)
  | recv (src : ι)
deriving DecidableEq

namespace Prog

variable {ι M α β : Type}

/-- The program performs exactly the operations of the script, sends only messages that satisfy
`good`, provided that it receives only such messages, does not fail, and its events and its result
satisfy `post`. -/
def Follows (good : M → Prop) : Prog ι M α → List (Act ι) → (List (Ev ι M) → α → Prop) → Prop
  | ret a, [], post => post [] a
  | send d m k, .send d' :: l, post =>
    d = d' ∧ good m ∧ k.Follows good l fun tr a => post (.sent d m :: tr) a
  | recv s k, .recv s' :: l, post =>
    s = s' ∧ ∀ m, good m → (k m).Follows good l fun tr a => post (.got s m :: tr) a
  | _, _, _ => False

theorem Follows.mono {good : M → Prop} {p : Prog ι M α} {l : List (Act ι)}
    {P Q : List (Ev ι M) → α → Prop} (h : p.Follows good l P) (hPQ : ∀ tr a, P tr a → Q tr a) :
    p.Follows good l Q := by
  induction p generalizing l P Q with
  | ret a => cases l <;> simp_all [Follows]
  | fail e => cases l <;> simp_all [Follows]
  | send d m k ih =>
    match l, h with
    | .send d' :: l, h => exact ⟨h.1, h.2.1, ih h.2.2 fun tr a => hPQ _ a⟩
  | recv s k ih =>
    match l, h with
    | .recv s' :: l, h => exact ⟨h.1, fun m hm => ih m (h.2 m hm) fun tr a => hPQ _ a⟩

theorem Follows.bind {good : M → Prop} {p : Prog ι M α} {f : α → Prog ι M β} {l l' : List (Act ι)}
    {P : List (Ev ι M) → α → Prop} {Q : List (Ev ι M) → β → Prop} (h : p.Follows good l P)
    (hf : ∀ tr a, P tr a → (f a).Follows good l' fun tr' b => Q (tr ++ tr') b) :
    (p.bind f).Follows good (l ++ l') Q := by
  induction p generalizing l P Q with
  | ret a =>
    match l, h with
    | [], h => exact hf [] a h
  | fail e => cases l <;> simp_all [Follows]
  | send d m k ih =>
    match l, h with
    | .send d' :: l, h => exact ⟨h.1, h.2.1, ih h.2.2 fun tr a hp => hf _ a hp⟩
  | recv s k ih =>
    match l, h with
    | .recv s' :: l, h => exact ⟨h.1, fun m hm => ih m (h.2 m hm) fun tr a hp => hf _ a hp⟩

theorem follows_ret {good : M → Prop} {a : α} {P : List (Ev ι M) → α → Prop} (h : P [] a) :
    (ret a : Prog ι M α).Follows good [] P := h

theorem follows_ensure {good : M → Prop} {e : Err} {c : Prop} [Decidable c] {p : Prog ι M α}
    {l : List (Act ι)} {P : List (Ev ι M) → α → Prop} (hc : c) (h : p.Follows good l P) :
    (ensure e c p).Follows good l P := by
  unfold ensure; rw [if_pos hc]; exact h

end Prog

open Prog

namespace Script

variable {ι M α R : Type} [DecidableEq ι]

/-- The messages sent to `p`, in order. -/
def sent (p : ι) (tr : List (Ev ι M)) : List M :=
  tr.filterMap fun
    | .sent d m => if d = p then some m else none
    | .got _ _ => none

/-- The messages received from `p`, in order. -/
def got (p : ι) (tr : List (Ev ι M)) : List M :=
  tr.filterMap fun
    | .sent _ _ => none
    | .got s m => if s = p then some m else none

/-- The ranks of the operations that send to `p`. -/
def sends (p : ι) (l : List (R × Act ι)) : List R :=
  l.filterMap fun
    | (r, .send d) => if d = p then some r else none
    | (_, .recv _) => none

/-- The ranks of the operations that receive from `p`. -/
def recvs (p : ι) (l : List (R × Act ι)) : List R :=
  l.filterMap fun
    | (_, .send _) => none
    | (r, .recv s) => if s = p then some r else none

theorem sent_append (p : ι) (a b : List (Ev ι M)) : sent p (a ++ b) = sent p a ++ sent p b :=
  List.filterMap_append
theorem got_append (p : ι) (a b : List (Ev ι M)) : got p (a ++ b) = got p a ++ got p b :=
  List.filterMap_append
theorem sends_append (p : ι) (a b : List (R × Act ι)) : sends p (a ++ b) = sends p a ++ sends p b :=
  List.filterMap_append
theorem recvs_append (p : ι) (a b : List (R × Act ι)) : recvs p (a ++ b) = recvs p a ++ recvs p b :=
  List.filterMap_append

theorem mem_of_sends {p : ι} {l : List (R × Act ι)} {r : R} (h : r ∈ sends p l) : (r, Act.send p) ∈ l := by
  unfold sends at h
  rw [List.mem_filterMap] at h
  obtain ⟨⟨r', a⟩, hm, ha⟩ := h
  cases a with
  | send d =>
    simp only at ha
    split at ha
    · next hd => subst hd; cases ha; exact hm
    · cases ha
  | recv s => cases ha

/-- The script in the middle of an execution: `rest i` are the operations participant `i` still has
to perform, `past i` its events so far. -/
structure Mid [LinearOrder R] (good : M → Prop) (post : ι → List (Ev ι M) → α → Prop)
    (rest : ι → List (R × Act ι)) (past : ι → List (Ev ι M)) (n : Net ι M α) : Prop where
  follows : ∀ i, (n.procs i).Follows good ((rest i).map (·.2)) fun tr a => post i (past i ++ tr) a
  sorted : ∀ i, (rest i).Pairwise fun a b => a.1 < b.1
  good : ∀ c, ∀ m ∈ n.chan c, good m
  flow : ∀ i j, sent j (past i) = got i (past j) ++ n.chan (i, j)
  avail : ∀ i j, (n.chan (i, j)).length ≤ (recvs i (rest j)).length
  order : ∀ i j, List.Forall₂ (· < ·) (sends j (rest i)) ((recvs i (rest j)).drop (n.chan (i, j)).length)

section
theorem sends_cons_send (p d : ι) (r : R) (l : List (R × Act ι)) :
    sends p ((r, Act.send d) :: l) = (if d = p then [r] else []) ++ sends p l := by
  unfold sends; rw [List.filterMap_cons]; by_cases h : d = p <;> simp [h]

theorem sends_cons_recv (p s : ι) (r : R) (l : List (R × Act ι)) :
    sends p ((r, Act.recv s) :: l) = sends p l := rfl

theorem recvs_cons_recv (p s : ι) (r : R) (l : List (R × Act ι)) :
    recvs p ((r, Act.recv s) :: l) = (if s = p then [r] else []) ++ recvs p l := by
  unfold recvs; rw [List.filterMap_cons]; by_cases h : s = p <;> simp [h]

theorem recvs_cons_send (p d : ι) (r : R) (l : List (R × Act ι)) :
    recvs p ((r, Act.send d) :: l) = recvs p l := rfl

theorem sent_sent (p d : ι) (m : M) : sent p [Ev.sent d m] = if d = p then [m] else [] := by
  unfold sent; by_cases h : d = p <;> simp [h]

theorem sent_got (p d : ι) (m : M) : sent p [Ev.got d m] = [] := rfl

theorem got_sent (p d : ι) (m : M) : got p [Ev.sent d m] = [] := rfl

theorem got_got (p s : ι) (m : M) : got p [Ev.got s m] = if s = p then [m] else [] := by
  unfold got; by_cases h : s = p <;> simp [h]

variable [LinearOrder R]

theorem mid_send {good : M → Prop} {post : ι → List (Ev ι M) → α → Prop}
    {rest : ι → List (R × Act ι)} {past : ι → List (Ev ι M)} {n : Net ι M α}
    (h : Mid good post rest past n) {i d : ι} {r : R} {l : List (R × Act ι)} {m : M} {k : Prog ι M α}
    (hr : rest i = (r, .send d) :: l) (hp : n.procs i = .send d m k) :
    Mid good post (update rest i l) (update past i (past i ++ [.sent d m]))
      ⟨update n.procs i k, update n.chan (i, d) (n.chan (i, d) ++ [m])⟩ := by
  have hf := h.follows i
  rw [hr, hp] at hf
  obtain ⟨-, hm, hf⟩ := hf
  have hs := h.sorted i
  rw [hr] at hs
  have hrec : ∀ a b, recvs a (update rest i l b) = recvs a (rest b) := by
    intro a b
    by_cases hb : b = i
    · subst hb; rw [update_self, hr, recvs_cons_send]
    · rw [update_of_ne hb]
  have hgot : ∀ a b, got a (update past i (past i ++ [.sent d m]) b) = got a (past b) := by
    intro a b
    by_cases hb : b = i
    · subst hb; rw [update_self, got_append, got_sent, List.append_nil]
    · rw [update_of_ne hb]
  have hord := h.order i d
  rw [hr, sends_cons_send, if_pos rfl, List.singleton_append] at hord
  obtain ⟨x, xs, hx, hxs, hdrop⟩ := List.forall₂_cons_left_iff.mp hord
  have hlen : (n.chan (i, d)).length < (recvs i (rest d)).length := by
    have := congrArg List.length hdrop
    rw [List.length_drop, List.length_cons] at this
    omega
  have hdrop' : (recvs i (rest d)).drop ((n.chan (i, d)).length + 1) = xs := by
    rw [← List.drop_drop, hdrop, List.drop_one, List.tail_cons]
  refine ⟨fun j => ?_, fun j => ?_, fun c => ?_, fun a b => ?_, fun a b => ?_, fun a b => ?_⟩
  · by_cases hj : j = i
    · subst hj
      simp only [update_self]
      exact hf.mono fun tr a => by simp
    · simp only [update_of_ne hj]; exact h.follows j
  · by_cases hj : j = i
    · subst hj; rw [update_self]; exact (List.pairwise_cons.mp hs).2
    · rw [update_of_ne hj]; exact h.sorted j
  · by_cases hc : c = (i, d)
    · subst hc
      simp only [update_self, List.mem_append, List.mem_singleton]
      rintro m' (hm' | rfl)
      · exact h.good _ _ hm'
      · exact hm
    · simp only [update_of_ne hc]; exact h.good c
  · rw [hgot]
    show _ = _ ++ update n.chan (i, d) (n.chan (i, d) ++ [m]) (a, b)
    by_cases ha : a = i
    · subst ha
      rw [update_self, sent_append, sent_sent, h.flow]
      by_cases hb : d = b
      · subst hb; simp
      · rw [if_neg hb, List.append_nil, update_of_ne (by simpa using Ne.symm hb)]
    · rw [update_of_ne ha, update_of_ne (by simp [ha])]; exact h.flow a b
  · rw [hrec]
    by_cases hc : (a, b) = (i, d)
    · obtain ⟨rfl, rfl⟩ := Prod.mk.inj hc
      simp only [update_self, List.length_append, List.length_singleton]; exact hlen
    · simp only [update_of_ne hc]; exact h.avail a b
  · rw [hrec]
    by_cases hc : (a, b) = (i, d)
    · obtain ⟨rfl, rfl⟩ := Prod.mk.inj hc
      simp only [update_self, List.length_append, List.length_singleton]
      rw [hdrop']; exact hxs
    · simp only [update_of_ne hc]
      by_cases ha : a = i
      · subst ha
        have := h.order a b
        rw [hr, sends_cons_send, if_neg (by rintro rfl; exact hc rfl), List.nil_append] at this
        rw [update_self]; exact this
      · rw [update_of_ne ha]; exact h.order a b

theorem mid_recv {good : M → Prop} {post : ι → List (Ev ι M) → α → Prop}
    {rest : ι → List (R × Act ι)} {past : ι → List (Ev ι M)} {n : Net ι M α}
    (h : Mid good post rest past n) {i s : ι} {r : R} {l : List (R × Act ι)} {m : M} {ms : List M}
    {k : M → Prog ι M α} (hr : rest i = (r, .recv s) :: l) (hp : n.procs i = .recv s k)
    (hc : n.chan (s, i) = m :: ms) :
    Mid good post (update rest i l) (update past i (past i ++ [.got s m]))
      ⟨update n.procs i (k m), update n.chan (s, i) ms⟩ := by
  have hf := h.follows i
  rw [hr, hp] at hf
  have hm : good m := h.good (s, i) m (by rw [hc]; exact List.mem_cons_self)
  replace hf := hf.2 m hm
  have hs := h.sorted i
  rw [hr] at hs
  have hsend : ∀ a b, sends b (update rest i l a) = sends b (rest a) := by
    intro a b
    by_cases ha : a = i
    · subst ha; rw [update_self, hr, sends_cons_recv]
    · rw [update_of_ne ha]
  have hsent : ∀ a b, sent b (update past i (past i ++ [.got s m]) a) = sent b (past a) := by
    intro a b
    by_cases ha : a = i
    · subst ha; rw [update_self, sent_append, sent_got, List.append_nil]
    · rw [update_of_ne ha]
  refine ⟨fun j => ?_, fun j => ?_, fun c => ?_, fun a b => ?_, fun a b => ?_, fun a b => ?_⟩
  · by_cases hj : j = i
    · subst hj
      simp only [update_self]
      exact hf.mono fun tr a => by simp
    · simp only [update_of_ne hj]; exact h.follows j
  · by_cases hj : j = i
    · subst hj; rw [update_self]; exact (List.pairwise_cons.mp hs).2
    · rw [update_of_ne hj]; exact h.sorted j
  · by_cases hcc : c = (s, i)
    · subst hcc
      simp only [update_self]
      exact fun m' hm' => h.good (s, i) m' (by rw [hc]; exact List.mem_cons_of_mem _ hm')
    · simp only [update_of_ne hcc]; exact h.good c
  · rw [hsent]
    show _ = _ ++ update n.chan (s, i) ms (a, b)
    by_cases hb : b = i
    · subst hb
      rw [update_self, got_append, got_got, h.flow]
      by_cases ha : s = a
      · subst ha; simp [hc]
      · rw [if_neg ha, List.append_nil, update_of_ne (by simpa using Ne.symm ha)]
    · rw [update_of_ne hb, update_of_ne (by simp [hb])]; exact h.flow a b
  · by_cases hcc : (a, b) = (s, i)
    · obtain ⟨rfl, rfl⟩ := Prod.mk.inj hcc
      have := h.avail a b
      rw [hr, recvs_cons_recv, if_pos rfl, hc] at this
      simp only [update_self]
      simpa using this
    · simp only [update_of_ne hcc]
      by_cases hb : b = i
      · subst hb
        have := h.avail a b
        rw [hr, recvs_cons_recv, if_neg (by rintro rfl; exact hcc rfl), List.nil_append] at this
        rw [update_self]; exact this
      · rw [update_of_ne hb]; exact h.avail a b
  · rw [hsend]
    by_cases hcc : (a, b) = (s, i)
    · obtain ⟨rfl, rfl⟩ := Prod.mk.inj hcc
      have := h.order a b
      rw [hr, recvs_cons_recv, if_pos rfl, hc] at this
      simp only [update_self]
      simpa using this
    · simp only [update_of_ne hcc]
      by_cases hb : b = i
      · subst hb
        have := h.order a b
        rw [hr, recvs_cons_recv, if_neg (by rintro rfl; exact hcc rfl), List.nil_append] at this
        rw [update_self]; exact this
      · rw [update_of_ne hb]; exact h.order a b

/-- A participant that waits for the operation of lowest rank has a message waiting. -/
theorem avail_of_min {good : M → Prop} {post : ι → List (Ev ι M) → α → Prop}
    {rest : ι → List (R × Act ι)} {past : ι → List (Ev ι M)} {n : Net ι M α}
    (h : Mid good post rest past n) {i s : ι} {r : R} {l : List (R × Act ι)}
    (hr : rest i = (r, .recv s) :: l) (hmin : ∀ j x xs, rest j = x :: xs → r ≤ x.1) :
    n.chan (s, i) ≠ [] := by
  intro hc
  have := h.order s i
  rw [hr, recvs_cons_recv, if_pos rfl, hc, List.length_nil, List.drop_zero, List.singleton_append] at this
  obtain ⟨x, xs, hx, _, hsx⟩ := List.forall₂_cons_right_iff.mp this
  have hmem : (x, Act.send i) ∈ rest s := mem_of_sends (by rw [hsx]; exact List.mem_cons_self)
  cases hrs : rest s with
  | nil => rw [hrs] at hmem; cases hmem
  | cons y ys =>
    have h1 := hmin s y ys hrs
    have h2 := h.sorted s
    rw [hrs] at h2 hmem
    rcases List.mem_cons.mp hmem with rfl | hmem
    · exact absurd hx (not_lt.mpr h1)
    · exact absurd (lt_trans ((List.pairwise_cons.mp h2).1 _ hmem) hx) (not_lt.mpr h1)

end

variable [Fintype ι] [LinearOrder R]

theorem completes_of_mid {good : M → Prop} {post : ι → List (Ev ι M) → α → Prop} :
    ∀ (k : ℕ) (rest : ι → List (R × Act ι)) (past : ι → List (Ev ι M)) (n : Net ι M α),
      ∑ i, (rest i).length = k → Mid good post rest past n →
      ∃ (f : Net ι M α) (r : ι → α) (tr : ι → List (Ev ι M)), Net.Done r f ∧ Net.Steps k n f ∧ (∀ i, post i (tr i) (r i)) ∧
        ∀ i j, sent j (tr i) = got i (tr j)
  | 0, rest, past, n, hk, h => by
    have h0 : ∀ i, rest i = [] := by
      intro i
      have := Finset.sum_eq_zero_iff.mp hk i (Finset.mem_univ i)
      exact List.length_eq_zero_iff.mp this
    have hret : ∀ i, ∃ a, n.procs i = .ret a ∧ post i (past i) a := by
      intro i
      have := h.follows i
      rw [h0 i] at this
      revert this
      cases n.procs i <;> intro this <;> simp_all [Follows]
    choose r hr using hret
    have hch : ∀ c, n.chan c = [] := by
      rintro ⟨a, b⟩
      have := h.avail a b
      rw [h0 b] at this
      exact List.length_eq_zero_iff.mp (Nat.le_zero.mp this)
    refine ⟨n, r, past, ⟨fun i => (hr i).1, hch⟩, .refl n, fun i => (hr i).2, fun i j => ?_⟩
    rw [h.flow i j, hch, List.append_nil]
  | k + 1, rest, past, n, hk, h => by
    obtain ⟨i0, hi0⟩ : ∃ i, rest i ≠ [] := by
      by_contra hcon
      push Not at hcon
      simp [hcon] at hk
    have : Nonempty {i // rest i ≠ []} := ⟨⟨i0, hi0⟩⟩
    have : Finite {i // rest i ≠ []} := Finite.of_injective _ Subtype.val_injective
    obtain ⟨⟨i, hi⟩, hmin⟩ := Finite.exists_min (fun j : {i // rest i ≠ []} => ((rest j.1).head j.2).1)
    obtain ⟨⟨r, a⟩, l, hr⟩ := List.exists_cons_of_ne_nil hi
    have hmin' : ∀ j x xs, rest j = x :: xs → r ≤ x.1 := by
      intro j x xs hx
      have := hmin ⟨j, by rw [hx]; exact List.cons_ne_nil _ _⟩
      simpa [hr, hx] using this
    have hsum : ∑ j, (update rest i l j).length = k := by
      have h1 : ∑ j, (rest j).length = (rest i).length + ∑ j ∈ Finset.univ.erase i, (rest j).length :=
        (Finset.add_sum_erase _ _ (Finset.mem_univ i)).symm
      have h2 : ∑ j, (update rest i l j).length =
          (update rest i l i).length + ∑ j ∈ Finset.univ.erase i, (update rest i l j).length :=
        (Finset.add_sum_erase _ _ (Finset.mem_univ i)).symm
      have h3 : ∑ j ∈ Finset.univ.erase i, (update rest i l j).length =
          ∑ j ∈ Finset.univ.erase i, (rest j).length :=
        Finset.sum_congr rfl fun j hj => by rw [update_of_ne (Finset.ne_of_mem_erase hj)]
      rw [h2, h3, update_self]
      rw [h1, hr, List.length_cons] at hk
      omega
    have hf := h.follows i
    rw [hr] at hf
    cases a with
    | send d =>
      cases hp : n.procs i with
      | send d' m p =>
        rw [hp] at hf
        obtain ⟨rfl, -, -⟩ := hf
        obtain ⟨f, res, tr, h1, h2, h3⟩ := completes_of_mid k _ _ _ hsum (mid_send h hr hp)
        exact ⟨f, res, tr, h1, .head ⟨i, by simp [Net.stepAt, hp]⟩ h2, h3⟩
      | ret a => rw [hp] at hf; exact hf.elim
      | fail e => rw [hp] at hf; exact hf.elim
      | recv s p => rw [hp] at hf; exact hf.elim
    | recv s =>
      cases hp : n.procs i with
      | recv s' p =>
        rw [hp] at hf
        obtain ⟨rfl, -⟩ := hf
        obtain ⟨m, ms, hc⟩ := List.exists_cons_of_ne_nil (avail_of_min h hr hmin')
        obtain ⟨f, res, tr, h1, h2, h3⟩ := completes_of_mid k _ _ _ hsum (mid_recv h hr hp hc)
        exact ⟨f, res, tr, h1, .head ⟨i, by simp [Net.stepAt, hp, hc]⟩ h2, h3⟩
      | ret a => rw [hp] at hf; exact hf.elim
      | fail e => rw [hp] at hf; exact hf.elim
      | send s p => rw [hp] at hf; exact hf.elim

/-- Ranked scripts complete. Every execution ends with the same results, which satisfy `post`
together with a trace of each participant; what `j` received from `i` is what `i` sent to `j`. -/
theorem completes {good : M → Prop} {post : ι → List (Ev ι M) → α → Prop} (p : ι → Prog ι M α)
    (script : ι → List (R × Act ι))
    (hfollows : ∀ i, (p i).Follows good ((script i).map (·.2)) (post i))
    (hsorted : ∀ i, (script i).Pairwise fun a b => a.1 < b.1)
    (horder : ∀ i j, List.Forall₂ (· < ·) (sends j (script i)) (recvs i (script j))) :
    ∃ (r : ι → α) (tr : ι → List (Ev ι M)), Net.AlwaysCompletes (⟨p, fun _ => []⟩ : Net ι M α) r ∧ (∀ i, post i (tr i) (r i)) ∧
      ∀ i j, sent j (tr i) = got i (tr j) := by
  obtain ⟨f, r, tr, h1, h2, h3, h4⟩ := completes_of_mid _ script (fun _ => []) ⟨p, fun _ => []⟩ rfl
    { follows := fun i => (hfollows i).mono fun tr a h => by simpa using h
      sorted := hsorted
      good := fun c m hm => by cases hm
      flow := fun i j => rfl
      avail := fun i j => Nat.zero_le _
      order := fun i j => by simpa using horder i j }
  exact ⟨r, tr, Net.alwaysCompletes_of_steps h2 h1, h3, h4⟩

end Script
end Verif
