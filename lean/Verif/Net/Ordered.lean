import Verif.Net.Rendezvous
import Mathlib.Algebra.BigOperators.Group.Finset.Basic
import Mathlib.Data.Fintype.Basic
import Mathlib.Data.Fintype.BigOperators
import Mathlib.Order.Defs.LinearOrder
import Mathlib.Data.Finset.Max
import Mathlib.Data.Prod.Lex
import Mathlib.Data.List.Basic
import Mathlib.Data.List.Range

/-!
# Networks with blocking sends and ordered communications

A script says which messages a participant sends and expects, each with a label. If the labels grow along the script of each participant and scripts match,
the network completes even with blocking sends.
-/

set_option autoImplicit false

namespace Verif.Ordered

/-- A communication with a partner. -/
inductive Act (ι M : Type) where
  | send (dst : ι) (m : M)
  | recv (src : ι) (m : M)

/-- A program that does exactly the given communications, provided it gets the expected messages, and then returns. -/
inductive Follows {ι M α : Type} : Prog ι M α → List (Act ι M) → α → Prop where
  | ret (a : α) : Follows (.ret a) [] a
  | send (d : ι) (m : M) {k : Prog ι M α} {l : List (Act ι M)} {a : α} : Follows k l a → Follows (.send d m k) (.send d m :: l) a
  | recv (s : ι) (m : M) {k : M → Prog ι M α} {l : List (Act ι M)} {a : α} : Follows (k m) l a → Follows (.recv s k) (.recv s m :: l) a

variable {ι M α R : Type}

theorem Follows.bind {β : Type} {p : Prog ι M α} {l : List (Act ι M)} {a : α} (h : Follows p l a) {f : α → Prog ι M β} {l' : List (Act ι M)} {b : β}
    (h' : Follows (f a) l' b) : Follows (p.bind f) (l ++ l') b := by
  induction h with
  | ret a => exact h'
  | send d m _ ih => exact .send d m (ih h')
  | recv s m _ ih => exact .recv s m (ih h')

/-- Do something for each element of a list, in order, and keep the results. -/
def collect {β γ : Type} (f : β → Prog ι M γ) : List β → Prog ι M (List γ)
  | [] => .ret []
  | b :: l => (f b).bind fun c => (collect f l).bind fun cs => .ret (c :: cs)

theorem follows_collect {β γ : Type} {f : β → Prog ι M γ} {acts : β → List (Act ι M)} {res : β → γ} (l : List β) (h : ∀ b ∈ l, Follows (f b) (acts b) (res b)) :
    Follows (collect f l) (l.flatMap acts) (l.map res) := by
  induction l with
  | nil => exact .ret _
  | cons b l ih =>
    rw [collect, List.flatMap_cons, List.map_cons]
    refine (h b (by simp)).bind ?_
    have := (ih fun b hb => h b (by simp [hb])).bind (f := fun cs => .ret (res b :: cs)) (Follows.ret _)
    rwa [List.append_nil] at this

variable [DecidableEq ι] [Fintype ι] [LinearOrder R]

/-- The scripts match: what one participant sends with some label, the other expects with the same label, and the other way around. -/
structure Matching (s : ι → List (R × Act ι M)) : Prop where
  sorted : ∀ i, (s i).Pairwise fun a b => a.1 < b.1
  taken : ∀ i j r m, (r, Act.send j m) ∈ s i → (r, Act.recv i m) ∈ s j
  given : ∀ i j r m, (r, Act.recv j m) ∈ s i → (r, Act.send i m) ∈ s j

omit [DecidableEq ι] [Fintype ι] in
theorem other {s : ι → List (R × Act ι M)} (h : Matching s) {i j : ι} {r : R} {m : M} (hm : (r, Act.send j m) ∈ s i) : i ≠ j := by
  rintro rfl
  have h2 := h.taken _ _ _ _ hm
  have h3 := h.sorted i
  obtain ⟨a, ha, hia⟩ := List.mem_iff_getElem.1 hm
  obtain ⟨b, hb, hib⟩ := List.mem_iff_getElem.1 h2
  rw [List.pairwise_iff_getElem] at h3
  rcases Nat.lt_trichotomy a b with hab | rfl | hab
  · have := h3 a b ha hb hab
    rw [hia, hib] at this
    exact lt_irrefl _ this
  · rw [hia] at hib
    cases hib
  · have := h3 b a hb ha hab
    rw [hia, hib] at this
    exact lt_irrefl _ this

omit [DecidableEq ι] [Fintype ι] in
/-- An element with the smallest label is the first one. -/
theorem head_of_min {l : List (R × Act ι M)} (h : l.Pairwise fun a b => a.1 < b.1) {x : R × Act ι M} (hx : x ∈ l) (hmin : ∀ y ys, l = y :: ys → x.1 ≤ y.1) : ∃ ys, l = x :: ys := by
  cases l with
  | nil => cases hx
  | cons y ys =>
    rcases List.mem_cons.1 hx with rfl | hx
    · exact ⟨ys, rfl⟩
    · exact absurd ((List.pairwise_cons.1 h).1 x hx) (not_lt.2 (hmin y ys rfl))

open Function (update)

theorem completes_of (n : ℕ) : ∀ (s : ι → List (R × Act ι M)) (p : ι → Prog ι M α) (r : ι → α), ∑ i, (s i).length ≤ n → Matching s →
    (∀ i, Follows (p i) ((s i).map (·.2)) (r i)) → ∃ k, RNet.Steps k p fun i => .ret (r i) := by
  have hdone : ∀ (s : ι → List (R × Act ι M)) (p : ι → Prog ι M α) (r : ι → α), (∀ i, s i = []) →
      (∀ i, Follows (p i) ((s i).map (·.2)) (r i)) → ∃ k, RNet.Steps k p fun i => .ret (r i) := by
    intro s p r h0 hf
    have : p = fun i => .ret (r i) := by
      funext i
      have h := hf i
      rw [h0 i] at h
      revert h
      generalize p i = q
      intro h
      cases h
      rfl
    rw [← this]
    exact ⟨0, .refl _⟩
  induction n with
  | zero =>
    intro s p r hk _ hf
    refine hdone s p r (fun i => ?_) hf
    have := (Finset.sum_eq_zero_iff.1 (Nat.le_zero.1 hk)) i (Finset.mem_univ i)
    exact List.length_eq_zero_iff.1 this
  | succ k ih =>
    intro s p r hk hm hf
    by_cases hex : ∃ i, s i ≠ []
    swap
    · push Not at hex
      exact hdone s p r hex hf
    -- a smallest label
    have hne : ∃ i x xs, s i = x :: xs ∧ ∀ j y ys, s j = y :: ys → x.1 ≤ y.1 := by
      classical
      let T : Finset ι := Finset.univ.filter fun i => s i ≠ []
      have hT : T.Nonempty := by
        obtain ⟨i, hi⟩ := hex
        exact ⟨i, by simp [T, hi]⟩
      obtain ⟨i0, hi0⟩ := hex
      obtain ⟨x0, hx0⟩ := List.exists_mem_of_ne_nil _ hi0
      let f : ι → R := fun i => (s i).head?.elim x0.1 (·.1)
      obtain ⟨i, hi, hmin⟩ := Finset.exists_min_image T f hT
      have hi' : s i ≠ [] := by simpa [T] using hi
      obtain ⟨x, xs, hx⟩ := List.exists_cons_of_ne_nil hi'
      refine ⟨i, x, xs, hx, ?_⟩
      intro j y ys hj
      have := hmin j (by simp [T, hj])
      simpa [f, hx, hj] using this
    obtain ⟨i, x, xs, hx, hmin⟩ := hne
    -- sender and receiver of it
    have key : ∃ i j m a b l l', s i = (a, Act.send j m) :: l ∧ s j = (b, Act.recv i m) :: l' ∧ a = b ∧ i ≠ j := by
      obtain ⟨a, act⟩ := x
      cases act with
      | send j m =>
        have h1 : (a, Act.send j m) ∈ s i := by rw [hx]; simp
        obtain ⟨l', hl'⟩ := head_of_min (hm.sorted j) (hm.taken _ _ _ _ h1) fun y ys hy => hmin j y ys hy
        exact ⟨i, j, m, a, a, xs, l', hx, hl', rfl, other hm h1⟩
      | recv j m =>
        have h1 : (a, Act.recv j m) ∈ s i := by rw [hx]; simp
        have h2 := hm.given _ _ _ _ h1
        obtain ⟨l', hl'⟩ := head_of_min (hm.sorted j) h2 fun y ys hy => hmin j y ys hy
        exact ⟨j, i, m, a, a, l', xs, hl', hx, rfl, other hm h2⟩
    clear hmin hx
    obtain ⟨i, j, m, a, _, l, l', hi, hj, rfl, hij⟩ := key
    have fi := hf i
    have fj := hf j
    rw [hi, List.map_cons] at fi
    rw [hj, List.map_cons] at fj
    obtain ⟨ki, hpi, hki⟩ : ∃ ki, p i = .send j m ki ∧ Follows ki (l.map (·.2)) (r i) := by
      revert fi
      generalize p i = pi
      intro fi
      cases fi with
      | send _ _ h => exact ⟨_, rfl, h⟩
    obtain ⟨kj, hpj, hkj⟩ : ∃ kj, p j = .recv i kj ∧ Follows (kj m) (l'.map (·.2)) (r j) := by
      revert fj
      generalize p j = pj
      intro fj
      cases fj with
      | recv _ _ h => exact ⟨_, rfl, h⟩
    let s' := update (update s i l) j l'
    have hs'i : s' i = l := by simp [s', hij]
    have hs'j : s' j = l' := by simp [s']
    have hs' : ∀ x, x ≠ i → x ≠ j → s' x = s x := fun x h1 h2 => by simp [s', h1, h2]
    have hlab : ∀ z ∈ l, a < z.1 := by
      have := hm.sorted i
      rw [hi] at this
      exact (List.pairwise_cons.1 this).1
    have hlab' : ∀ z ∈ l', a < z.1 := by
      have := hm.sorted j
      rw [hj] at this
      exact (List.pairwise_cons.1 this).1
    -- elements of the new scripts
    have hsub : ∀ x z, z ∈ s' x → z ∈ s x ∧ (x = i ∨ x = j → a < z.1) := by
      intro x z hz
      by_cases h1 : x = i
      · subst h1
        rw [hs'i] at hz
        exact ⟨by rw [hi]; exact List.mem_cons_of_mem _ hz, fun _ => hlab z hz⟩
      · by_cases h2 : x = j
        · subst h2
          rw [hs'j] at hz
          exact ⟨by rw [hj]; exact List.mem_cons_of_mem _ hz, fun _ => hlab' z hz⟩
        · rw [hs' x h1 h2] at hz
          exact ⟨hz, fun h => h.elim (absurd · h1) (absurd · h2)⟩
    have hback : ∀ x z, z ∈ s x → (x = i → z ≠ (a, Act.send j m)) → (x = j → z ≠ (a, Act.recv i m)) → z ∈ s' x := by
      intro x z hz hn1 hn2
      by_cases h1 : x = i
      · subst h1
        rw [hi] at hz
        rw [hs'i]
        exact (List.mem_cons.1 hz).resolve_left (hn1 rfl)
      · by_cases h2 : x = j
        · subst h2
          rw [hj] at hz
          rw [hs'j]
          exact (List.mem_cons.1 hz).resolve_left (hn2 rfl)
        · rwa [hs' x h1 h2]
    have hm' : Matching s' := by
      refine ⟨?_, ?_, ?_⟩
      · intro x
        by_cases h1 : x = i
        · subst h1
          have := hm.sorted x
          rw [hi] at this
          rw [hs'i]
          exact (List.pairwise_cons.1 this).2
        · by_cases h2 : x = j
          · subst h2
            have := hm.sorted x
            rw [hj] at this
            rw [hs'j]
            exact (List.pairwise_cons.1 this).2
          · rw [hs' x h1 h2]
            exact hm.sorted x
      · intro x y b m' hz
        obtain ⟨h1, h2⟩ := hsub _ _ hz
        refine hback _ _ (hm.taken _ _ _ _ h1) ?_ ?_
        · intro _ he
          cases he
        · intro hy he
          cases he
          exact lt_irrefl _ (h2 (.inl rfl))
      · intro x y b m' hz
        obtain ⟨h1, h2⟩ := hsub _ _ hz
        refine hback _ _ (hm.given _ _ _ _ h1) ?_ ?_
        · intro hy he
          cases he
          exact lt_irrefl _ (h2 (.inr rfl))
        · intro _ he
          cases he
    have hlen : ∑ x, (s' x).length ≤ k := by
      have h1 : ∀ f : ι → ℕ, ∑ x, f x = f i + (f j + ∑ x ∈ (Finset.univ.erase i).erase j, f x) := by
        intro f
        rw [← Finset.add_sum_erase _ f (Finset.mem_univ i), ← Finset.add_sum_erase _ f (Finset.mem_erase.2 ⟨hij.symm, Finset.mem_univ j⟩)]
      rw [h1] at hk ⊢
      have h2 : ∑ x ∈ (Finset.univ.erase i).erase j, (s' x).length = ∑ x ∈ (Finset.univ.erase i).erase j, (s x).length := by
        refine Finset.sum_congr rfl fun x hx => ?_
        rw [Finset.mem_erase, Finset.mem_erase] at hx
        rw [hs' x hx.2.1 hx.1]
      rw [h2, hs'i, hs'j]
      rw [hi, hj, List.length_cons, List.length_cons] at hk
      omega
    suffices hx : ∀ x, Follows (update (update p i ki) j (kj m) x) ((s' x).map (·.2)) (r x) by
      obtain ⟨n, hn⟩ := ih s' _ r hlen hm' hx
      exact ⟨n + 1, .head ⟨i, j, m, ki, kj, hpi, hpj, rfl⟩ hn⟩
    intro x
    by_cases h2 : x = j
    · subst h2
      rw [hs'j]
      simpa using hkj
    · by_cases h1 : x = i
      · subst h1
        rw [hs'i]
        simpa [hij] using hki
      · rw [hs' x h1 h2]
        simpa [h1, h2] using hf x

/-- Participants that follow matching scripts always complete, with blocking sends too. -/
theorem completes {s : ι → List (R × Act ι M)} {p : ι → Prog ι M α} {r : ι → α} (hm : Matching s) (hf : ∀ i, Follows (p i) ((s i).map (·.2)) (r i)) :
    RNet.AlwaysCompletes p r := by
  obtain ⟨k, h⟩ := completes_of _ s p r le_rfl hm hf
  exact RNet.alwaysCompletes_of_steps h fun _ => rfl

/-! ## Conversations -/

/-- A conversation with one partner: what is sent (`true`) or expected (`false`) one after the other. -/
abbrev Talk (M : Type) := List (Bool × M)

/-- The same conversation, seen by the partner. -/
def Talk.dual (t : Talk M) : Talk M := t.map fun x => (!x.1, x.2)

def Talk.act (q : ι) (x : Bool × M) : Act ι M := if x.1 then .send q x.2 else .recv q x.2

/-- The communications of a conversation. -/
def Talk.acts (q : ι) (t : Talk M) : List (Act ι M) := t.map (Talk.act q)

/-- Conversations one after the other, each with a label, a partner and the messages. -/
abbrev Plan (R ι M : Type) := List (R × ι × Talk M)

def Plan.acts (s : Plan R ι M) : List (Act ι M) := s.flatMap fun x => Talk.acts x.2.1 x.2.2

/-- Each communication gets the label of its conversation and its place in it. -/
def Plan.script (s : Plan R ι M) : List ((R ×ₗ ℕ) × Act ι M) := s.flatMap fun x => x.2.2.zipIdx.map fun y => (toLex (x.1, y.2), Talk.act x.2.1 y.1)

omit [DecidableEq ι] [Fintype ι] [LinearOrder R] in
theorem Plan.script_acts (s : Plan R ι M) : s.script.map (·.2) = s.acts := by
  induction s with
  | nil => rfl
  | cons x s ih =>
    have h1 : Plan.script (x :: s) = x.2.2.zipIdx.map (fun y => (toLex (x.1, y.2), Talk.act x.2.1 y.1)) ++ Plan.script s := by
      simp only [Plan.script, List.flatMap_cons]
    have h2 : Plan.acts (x :: s) = Talk.acts x.2.1 x.2.2 ++ Plan.acts s := by
      simp only [Plan.acts, List.flatMap_cons]
    rw [h1, h2, List.map_append, ih, List.map_map]
    congr 1
    have : ((fun x => x.2) ∘ fun y : (Bool × M) × ℕ => ((toLex (x.1, y.2) : R ×ₗ ℕ), Talk.act x.2.1 y.1)) = Talk.act x.2.1 ∘ Prod.fst := rfl
    rw [this, ← List.map_map, List.zipIdx_map_fst]
    rfl

/-- The plans match: whom a participant talks to has the same conversation with the same label planned. -/
structure Agreed (s : ι → Plan R ι M) : Prop where
  sorted : ∀ i, (s i).Pairwise fun a b => a.1 < b.1
  agreed : ∀ i j r t, (r, j, t) ∈ s i → (r, i, Talk.dual t) ∈ s j

omit [DecidableEq ι] [Fintype ι] [LinearOrder R] in
theorem mem_script {s : Plan R ι M} {r : R} {k : ℕ} {a : Act ι M} :
    (toLex (r, k), a) ∈ s.script ↔ ∃ q t b, (r, q, t) ∈ s ∧ t[k]? = some b ∧ a = Talk.act q b := by
  unfold Plan.script
  simp only [List.mem_flatMap, List.mem_map]
  constructor
  · rintro ⟨⟨r', q, t⟩, hx, ⟨b, k'⟩, hy, he⟩
    obtain ⟨h1, rfl⟩ := Prod.mk.inj he
    obtain ⟨rfl, rfl⟩ := Prod.mk.inj (toLex.injective h1)
    exact ⟨q, t, b, hx, List.mk_mem_zipIdx_iff_getElem?.1 hy, rfl⟩
  · rintro ⟨q, t, b, hx, hk, rfl⟩
    exact ⟨(r, q, t), hx, (b, k), List.mk_mem_zipIdx_iff_getElem?.2 hk, rfl⟩

omit [DecidableEq ι] [Fintype ι] in
theorem script_sorted {s : Plan R ι M} (h : s.Pairwise fun a b => a.1 < b.1) : s.script.Pairwise fun a b => a.1 < b.1 := by
  unfold Plan.script
  rw [List.pairwise_flatMap]
  constructor
  · intro x _
    rw [List.pairwise_map]
    have := List.pairwise_lt_range' (s := 0) (n := x.2.2.length) (step := 1)
    rw [← List.zipIdx_map_snd 0 x.2.2, List.pairwise_map] at this
    refine this.imp ?_
    intro a b hab
    exact Prod.Lex.toLex_lt_toLex.2 (.inr ⟨rfl, hab⟩)
  · refine h.imp ?_
    intro x y hxy a ha b hb
    obtain ⟨u, _, rfl⟩ := List.mem_map.1 ha
    obtain ⟨v, _, rfl⟩ := List.mem_map.1 hb
    exact Prod.Lex.toLex_lt_toLex.2 (.inl hxy)

omit [DecidableEq ι] [Fintype ι] in
theorem Agreed.matching {s : ι → Plan R ι M} (h : Agreed s) : Matching fun i => (s i).script := by
  have key : ∀ i j r k (x : Bool × M), (toLex (r, k), Talk.act j x) ∈ (s i).script → (toLex (r, k), Talk.act i (!x.1, x.2)) ∈ (s j).script := by
    intro i j r k x hm
    rw [mem_script] at hm ⊢
    obtain ⟨q, t, b, ht, hb, he⟩ := hm
    have : q = j ∧ b = x := by
      unfold Talk.act at he
      rcases b with ⟨_ | _, b⟩ <;> rcases x with ⟨_ | _, x⟩ <;> simp at he ⊢ <;> exact ⟨he.1.symm, he.2.symm⟩
    obtain ⟨rfl, rfl⟩ := this
    exact ⟨i, t.dual, _, h.agreed _ _ _ _ ht, by simp [Talk.dual, hb], rfl⟩
  refine ⟨fun i => script_sorted (h.sorted i), ?_, ?_⟩
  · intro i j r m hm
    exact key i j r.1 r.2 (true, m) hm
  · intro i j r m hm
    exact key i j r.1 r.2 (false, m) hm

/-- Participants with matching plans always complete. -/
theorem Agreed.completes {s : ι → Plan R ι M} {p : ι → Prog ι M α} {r : ι → α} (h : Agreed s) (hf : ∀ i, Follows (p i) (s i).acts (r i)) :
    ∃ k, RNet.Steps k p fun i => .ret (r i) :=
  completes_of _ _ p r le_rfl h.matching fun i => by rw [Plan.script_acts]; exact hf i

end Verif.Ordered
