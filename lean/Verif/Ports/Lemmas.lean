import Verif.Ports.Spec
import Mathlib.Data.List.Nodup
import Mathlib.Data.List.Perm.Subperm
import Mathlib.Algebra.Order.BigOperators.Group.Finset
import Mathlib.Data.Finset.Range

set_option autoImplicit false

namespace Verif.Ports

theorem meets_iff (u w : List ℕ) : meets u w = true ↔ ∃ g, g ∈ u ∧ g ∈ w := by
  simp [meets]

theorem mem_partnersA {c : Conf} {a r : ℕ} : r ∈ c.partnersA a ↔ r < c.nR ∧ Shares c a r := by
  simp [Conf.partnersA, Shares, meets]

theorem mem_partnersR {c : Conf} {a r : ℕ} : a ∈ c.partnersR r ↔ a < c.nA ∧ Shares c a r := by
  simp only [Conf.partnersR, Shares, meets, List.mem_filter, List.mem_range, List.any_eq_true, List.contains_eq_mem,
    decide_eq_true_eq]
  exact ⟨fun ⟨h, g, h1, h2⟩ => ⟨h, g, h2, h1⟩, fun ⟨h, g, h1, h2⟩ => ⟨h, g, h2, h1⟩⟩

theorem nodup_partnersA (c : Conf) (a : ℕ) : (c.partnersA a).Nodup := List.nodup_range.filter _

theorem nodup_partnersR (c : Conf) (r : ℕ) : (c.partnersR r).Nodup := List.nodup_range.filter _

/-- What holds in every state. -/
structure Inv (c : Conf) (s : State) : Prop where
  split : ∀ r, c.partnersR r = (s.connR r).map Prod.fst ++ s.todo r
  toR : ∀ a r k, (r, k) ∈ s.connA a → r < c.nR ∧ (a, k) ∈ s.connR r
  toA : ∀ a r k, (a, k) ∈ s.connR r → (r, k) ∈ s.connA a
  nodup : ∀ a, ((s.connA a).map Prod.fst).Nodup
  lt : ∀ a r k, (r, k) ∈ s.connA a → k < s.next
  own : ∀ a r a' r' k, (r, k) ∈ s.connA a → (r', k) ∈ s.connA a' → a = a' ∧ r = r'

theorem inv_init (c : Conf) : Inv c (init c) := by
  constructor <;> simp [init]

theorem inv_connect {c : Conf} {s : State} (h : Inv c s) {r a : ℕ} {l : List ℕ} (hr : r < c.nR)
    (ht : s.todo r = a :: l) : Inv c (connect s r a l) := by
  have hnot : a ∉ (s.connR r).map Prod.fst := by
    have := nodup_partnersR c r
    rw [h.split r, ht] at this
    intro hm
    exact (List.nodup_append.1 this).2.2 a hm a (by simp) rfl
  have hfresh : r ∉ (s.connA a).map Prod.fst := by
    intro hm
    obtain ⟨⟨r', k⟩, hx, e⟩ := List.mem_map.1 hm
    simp only at e
    subst e
    exact hnot (List.mem_map.2 ⟨_, (h.toR _ _ _ hx).2, rfl⟩)
  have memA : ∀ a' r' k, (r', k) ∈ (connect s r a l).connA a' ↔
      (r', k) ∈ s.connA a' ∨ (a' = a ∧ r' = r ∧ k = s.next) := by
    intro a' r' k
    by_cases e : a' = a
    · subst e
      simp [connect]
    · simp [connect, e]
  have memR : ∀ a' r' k, (a', k) ∈ (connect s r a l).connR r' ↔
      (a', k) ∈ s.connR r' ∨ (a' = a ∧ r' = r ∧ k = s.next) := by
    intro a' r' k
    by_cases e : r' = r
    · subst e
      simp [connect]
    · simp [connect, e]
  refine ⟨?_, ?_, ?_, ?_, ?_, ?_⟩
  · intro r'
    by_cases e : r' = r
    · subst e
      simp [connect, h.split, ht]
    · simp [connect, e, h.split]
  · intro a' r' k hm
    rw [memA] at hm
    rw [memR]
    rcases hm with hm | ⟨rfl, rfl, rfl⟩
    · exact ⟨(h.toR _ _ _ hm).1, Or.inl (h.toR _ _ _ hm).2⟩
    · exact ⟨hr, Or.inr ⟨rfl, rfl, rfl⟩⟩
  · intro a' r' k hm
    rw [memR] at hm
    rw [memA]
    rcases hm with hm | ⟨rfl, rfl, rfl⟩
    · exact Or.inl (h.toA _ _ _ hm)
    · exact Or.inr ⟨rfl, rfl, rfl⟩
  · intro a'
    by_cases e : a' = a
    · subst e
      simp only [connect, Function.update_self, List.map_append, List.map_cons, List.map_nil]
      rw [List.nodup_append]
      refine ⟨h.nodup _, by simp, ?_⟩
      intro x hx y hy
      simp only [List.mem_singleton] at hy
      rw [hy]
      rintro rfl
      exact hfresh hx
    · simpa [connect, e] using h.nodup a'
  · intro a' r' k hm
    rw [memA] at hm
    show k < s.next + 1
    rcases hm with hm | ⟨_, _, rfl⟩
    · exact Nat.lt_succ_of_lt (h.lt _ _ _ hm)
    · exact Nat.lt_succ_self _
  · intro a1 r1 a2 r2 k h1 h2
    rw [memA] at h1 h2
    rcases h1 with h1 | ⟨rfl, rfl, rfl⟩ <;> rcases h2 with h2 | ⟨rfl, rfl, e⟩
    · exact h.own _ _ _ _ _ h1 h2
    · exact absurd (h.lt _ _ _ h1) (by rw [e]; exact Nat.lt_irrefl _)
    · exact absurd (h.lt _ _ _ h2) (Nat.lt_irrefl _)
    · exact ⟨rfl, rfl⟩

theorem inv_step {c : Conf} {s t : State} (h : Inv c s) (hs : Step c s t) : Inv c t := by
  cases hs with
  | publish ha hp hn => exact ⟨h.split, h.toR, h.toA, h.nodup, h.lt, h.own⟩
  | connect hr ht hp hl => exact inv_connect h hr ht

theorem inv_run {c : Conf} {n : ℕ} {s : State} (h : Run c n s) : Inv c s := by
  induction h with
  | init => exact inv_init c
  | step _ hs ih => exact inv_step ih hs

theorem connA_sub {c : Conf} {s : State} (h : Inv c s) (a : ℕ) : (s.connA a).map Prod.fst ⊆ c.partnersA a := by
  intro r hr
  obtain ⟨⟨r', k⟩, hx, e⟩ := List.mem_map.1 hr
  simp only at e
  subst e
  have h1 := h.toR _ _ _ hx
  have : a ∈ c.partnersR r' := by
    rw [h.split r']
    exact List.mem_append.2 (Or.inl (List.mem_map.2 ⟨_, h1.2, rfl⟩))
  exact mem_partnersA.2 ⟨h1.1, (mem_partnersR.1 this).2⟩

/-- Somebody can go on unless all are done. -/
theorem progress {c : Conf} {s : State} (h : Inv c s) (hd : ¬Done c s) : ∃ t, Step c s t := by
  by_cases ht : ∀ r < c.nR, s.todo r = []
  · exfalso
    apply hd
    refine ⟨fun a ha => ?_, ht⟩
    have hle := ((h.nodup a).subperm (connA_sub h a)).length_le
    have hsub : c.partnersA a ⊆ (s.connA a).map Prod.fst := by
      intro r hr
      obtain ⟨hr1, hr2⟩ := mem_partnersA.1 hr
      have hm : a ∈ c.partnersR r := mem_partnersR.2 ⟨ha, hr2⟩
      rw [h.split r, ht r hr1, List.append_nil] at hm
      obtain ⟨⟨a', k⟩, hx, e⟩ := List.mem_map.1 hm
      simp only at e
      subst e
      exact List.mem_map.2 ⟨_, h.toA _ _ _ hx, rfl⟩
    have hge := ((nodup_partnersA c a).subperm hsub).length_le
    simp only [List.length_map] at hle hge
    omega
  · push Not at ht
    obtain ⟨r, hr, hne⟩ := ht
    obtain ⟨a, l, e⟩ : ∃ a l, s.todo r = a :: l := by
      cases hh : s.todo r with
      | nil => exact absurd hh hne
      | cons a l => exact ⟨a, l, rfl⟩
    have ham : a ∈ c.partnersR r := by
      rw [h.split r, e]
      simp
    obtain ⟨ha, hsh⟩ := mem_partnersR.1 ham
    have hrm : r ∈ c.partnersA a := mem_partnersA.2 ⟨hr, hsh⟩
    cases hp : s.pub a with
    | false => exact ⟨_, Step.publish ha (List.ne_nil_of_mem hrm) hp⟩
    | true =>
      refine ⟨_, Step.connect hr e hp ?_⟩
      have hnot : r ∉ (s.connA a).map Prod.fst := by
        intro hm
        obtain ⟨⟨r', k⟩, hx, e'⟩ := List.mem_map.1 hm
        simp only at e'
        subst e'
        have := nodup_partnersR c r'
        rw [h.split r', e] at this
        exact (List.nodup_append.1 this).2.2 a (List.mem_map.2 ⟨_, (h.toR _ _ _ hx).2, rfl⟩) a (by simp) rfl
      have hnd : (r :: (s.connA a).map Prod.fst).Nodup := List.nodup_cons.2 ⟨hnot, h.nodup a⟩
      have hsub : r :: (s.connA a).map Prod.fst ⊆ c.partnersA a :=
        List.cons_subset.2 ⟨hrm, connA_sub h a⟩
      have := (hnd.subperm hsub).length_le
      simp only [List.length_cons, List.length_map] at this
      omega

/-- What is left to do. -/
def left (c : Conf) (s : State) : ℕ :=
  (∑ a ∈ Finset.range c.nA, if s.pub a then 0 else 1) + ∑ r ∈ Finset.range c.nR, (s.todo r).length

theorem left_step {c : Conf} {s t : State} (hs : Step c s t) : left c t < left c s := by
  cases hs with
  | @publish a ha hp hn =>
    apply Nat.add_lt_add_right
    apply Finset.sum_lt_sum
    · intro x _
      by_cases e : x = a
      · subst e; simp [publish]
      · simp [publish, e]
    · exact ⟨a, Finset.mem_range.2 ha, by simp [publish, hn]⟩
  | @connect r a l hr ht hp hl =>
    apply Nat.add_lt_add_left
    apply Finset.sum_lt_sum
    · intro x _
      by_cases e : x = r
      · subst e; simp [connect, ht]
      · simp [connect, e]
    · exact ⟨r, Finset.mem_range.2 hr, by simp [connect, ht]⟩

theorem left_run {c : Conf} {n : ℕ} {s : State} (h : Run c n s) : n + left c s ≤ left c (init c) := by
  induction h with
  | init => simp
  | step _ hs ih =>
    have := left_step hs
    omega

theorem at?_mem {l : List (ℕ × ℕ)} {r k : ℕ} (hn : (l.map Prod.fst).Nodup) : at? l r = some k ↔ (r, k) ∈ l := by
  induction l with
  | nil => simp [at?]
  | cons x l ih =>
    rw [List.map_cons, List.nodup_cons] at hn
    by_cases e : x.1 = r
    · have : at? (x :: l) r = some x.2 := by simp [at?, e]
      rw [this, List.mem_cons]
      constructor
      · intro h
        left
        rw [← e, ← Option.some.inj h]
      · rintro (h | h)
        · rw [← h]
        · exact absurd (List.mem_map.2 ⟨_, h, e.symm⟩) hn.1
    · have : at? (x :: l) r = at? l r := by simp [at?, e]
      rw [this, ih hn.2, List.mem_cons]
      constructor
      · exact Or.inr
      · rintro (h | h)
        · exact absurd (by rw [← h]) e
        · exact h

theorem right_of_done {c : Conf} {s : State} (h : Inv c s) (hd : Done c s) : Right c s := by
  have hnR : ∀ r, ((s.connR r).map Prod.fst).Nodup := fun r => by
    have := nodup_partnersR c r
    rw [h.split r] at this
    exact (List.nodup_append.1 this).1
  refine ⟨?_, ?_, ?_⟩
  · intro a ha r hr hsh
    have hm : a ∈ c.partnersR r := mem_partnersR.2 ⟨ha, hsh⟩
    rw [h.split r, hd.2 r hr, List.append_nil] at hm
    obtain ⟨⟨a', k⟩, hx, e⟩ := List.mem_map.1 hm
    simp only at e
    subst e
    exact ⟨k, (at?_mem (h.nodup _)).2 (h.toA _ _ _ hx), (at?_mem (hnR _)).2 hx⟩
  · intro a ha r hr hsh
    have hno : ∀ k, (a, k) ∉ s.connR r := fun k hk => by
      have : a ∈ c.partnersR r := by
        rw [h.split r]
        exact List.mem_append.2 (Or.inl (List.mem_map.2 ⟨_, hk, rfl⟩))
      exact hsh (mem_partnersR.1 this).2
    constructor
    · rw [Option.eq_none_iff_forall_ne_some]
      intro k hk
      exact hno k (h.toR _ _ _ ((at?_mem (h.nodup _)).1 hk)).2
    · rw [Option.eq_none_iff_forall_ne_some]
      intro k hk
      exact hno k ((at?_mem (hnR _)).1 hk)
  · intro a _ r _ a' _ r' _ k h1 h2
    exact h.own _ _ _ _ _ ((at?_mem (h.nodup _)).1 h1) ((at?_mem (h.nodup _)).1 h2)

/-! ## A single port -/

theorem single_called {c : Conf} {n : ℕ} {s : Called} (h : SingleRun c n s) :
    ∀ x, s x = true → c.partners x ≠ [] := by
  induction h with
  | init => intro x hx; simp at hx
  | step _ hs ih =>
    cases hs with
    | @call x hx hp hn =>
      intro y hy
      by_cases e : y = x
      · rw [e]; exact hp
      · rw [Function.update_of_ne e] at hy
        exact ih y hy

theorem partners_ne {c : Conf} (h : AllShare c) {x : Rank} (hx : c.valid x) : c.partners x ≠ [] := by
  obtain ⟨b, i⟩ := x
  cases b
  · obtain ⟨a, ha, hs⟩ := h.2 i (by simpa [Conf.valid] using hx)
    have : a ∈ c.partnersR i := mem_partnersR.2 ⟨ha, hs⟩
    simpa [Conf.partners] using List.ne_nil_of_mem this
  · obtain ⟨r, hr, hs⟩ := h.1 i (by simpa [Conf.valid] using hx)
    have : r ∈ c.partnersA i := mem_partnersA.2 ⟨hr, hs⟩
    simpa [Conf.partners] using List.ne_nil_of_mem this

theorem ne_nil_iff (l : List ℕ) : l ≠ [] ↔ ∃ x, x ∈ l := by
  cases l with
  | nil => simp
  | cons x l => simp

theorem partners_iff {c : Conf} (x : Rank) : c.partners x ≠ [] ↔ HasPartner c x := by
  obtain ⟨b, i⟩ := x
  cases b
  · simp only [Conf.partners, HasPartner, Bool.false_eq_true, if_false]
    rw [ne_nil_iff]
    exact exists_congr fun a => mem_partnersR
  · simp only [Conf.partners, HasPartner, if_true]
    rw [ne_nil_iff]
    exact exists_congr fun r => mem_partnersA

/-- Calls that are missing. -/
def missing (c : Conf) (s : Called) : ℕ :=
  (∑ a ∈ Finset.range c.nA, if s (true, a) then 0 else 1) + ∑ r ∈ Finset.range c.nR, if s (false, r) then 0 else 1

theorem missing_step {c : Conf} {s t : Called} (hs : SingleStep c s t) : missing c t < missing c s := by
  cases hs with
  | @call x hx hp hn =>
    obtain ⟨b, i⟩ := x
    cases b
    · have hi : i < c.nR := by simpa [Conf.valid] using hx
      have h1 : ∀ a, Function.update s (false, i) true (true, a) = s (true, a) := fun a => by simp
      simp only [missing, h1]
      apply Nat.add_lt_add_left
      apply Finset.sum_lt_sum
      · intro y _
        by_cases e : y = i
        · subst e; simp
        · have : Function.update s (false, i) true (false, y) = s (false, y) := by
            rw [Function.update_of_ne]; simpa using e
          rw [this]
      · exact ⟨i, Finset.mem_range.2 hi, by simp [hn]⟩
    · have hi : i < c.nA := by simpa [Conf.valid] using hx
      have h1 : ∀ a, Function.update s (true, i) true (false, a) = s (false, a) := fun a => by simp
      simp only [missing, h1]
      apply Nat.add_lt_add_right
      apply Finset.sum_lt_sum
      · intro y _
        by_cases e : y = i
        · subst e; simp
        · have : Function.update s (true, i) true (true, y) = s (true, y) := by
            rw [Function.update_of_ne]; simpa using e
          rw [this]
      · exact ⟨i, Finset.mem_range.2 hi, by simp [hn]⟩

theorem missing_run {c : Conf} {n : ℕ} {s : Called} (h : SingleRun c n s) : n + missing c s ≤ c.nA + c.nR := by
  induction h with
  | init => simp [missing]
  | step _ hs ih =>
    have := missing_step hs
    omega

end Verif.Ports
