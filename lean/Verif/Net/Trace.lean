import Verif.Net.Script

/-!
# Programs with known traces

If every participant performs a known list of communication events when it receives the messages of
that list, the messages received from a participant are those it sends, in this order, and the events
can be ranked such that every participant performs its events in increasing rank and every message is
sent at a lower rank than it is received, then every execution completes with the results of these
traces.
-/

set_option autoImplicit false

namespace Verif

open Function

open Prog

namespace Trace

variable {ι M α R : Type} [DecidableEq ι]

/-- The messages sent to `p`, with the ranks of the events. -/
def sent (p : ι) (l : List (R × Ev ι M)) : List (R × M) :=
  l.filterMap fun
    | (r, .sent d m) => if d = p then some (r, m) else none
    | (_, .got _ _) => none

/-- The messages received from `p`, with the ranks of the events. -/
def got (p : ι) (l : List (R × Ev ι M)) : List (R × M) :=
  l.filterMap fun
    | (_, .sent _ _) => none
    | (r, .got s m) => if s = p then some (r, m) else none

theorem sent_append (p : ι) (a b : List (R × Ev ι M)) : sent p (a ++ b) = sent p a ++ sent p b :=
  List.filterMap_append
theorem got_append (p : ι) (a b : List (R × Ev ι M)) : got p (a ++ b) = got p a ++ got p b :=
  List.filterMap_append

theorem sent_cons_sent (p d : ι) (r : R) (m : M) (l : List (R × Ev ι M)) :
    sent p ((r, Ev.sent d m) :: l) = (if d = p then [(r, m)] else []) ++ sent p l := by
  unfold sent; rw [List.filterMap_cons]; by_cases h : d = p <;> simp [h]

theorem sent_cons_got (p s : ι) (r : R) (m : M) (l : List (R × Ev ι M)) :
    sent p ((r, Ev.got s m) :: l) = sent p l := rfl

theorem got_cons_got (p s : ι) (r : R) (m : M) (l : List (R × Ev ι M)) :
    got p ((r, Ev.got s m) :: l) = (if s = p then [(r, m)] else []) ++ got p l := by
  unfold got; rw [List.filterMap_cons]; by_cases h : s = p <;> simp [h]

theorem got_cons_sent (p d : ι) (r : R) (m : M) (l : List (R × Ev ι M)) :
    got p ((r, Ev.sent d m) :: l) = got p l := rfl

theorem mem_of_sent {p : ι} {l : List (R × Ev ι M)} {x : R × M} (h : x ∈ sent p l) :
    (x.1, Ev.sent p x.2) ∈ l := by
  unfold sent at h
  rw [List.mem_filterMap] at h
  obtain ⟨⟨r', a⟩, hm, ha⟩ := h
  cases a with
  | sent d m =>
    simp only at ha
    split at ha
    · next hd => subst hd; cases ha; exact hm
    · cases ha
  | got s => cases ha

variable [LinearOrder R]

/-- A message is sent and received: at increasing ranks, unchanged. -/
def Passes (a b : R × M) : Prop := a.1 < b.1 ∧ a.2 = b.2

/-- The middle of an execution: `rest i` are the events participant `i` still has to perform. -/
structure Mid (res : ι → α) (rest : ι → List (R × Ev ι M)) (n : Net ι M α) : Prop where
  runs : ∀ i, Run (n.procs i) ((rest i).map (·.2)) (res i)
  sorted : ∀ i, (rest i).Pairwise fun a b => a.1 < b.1
  split : ∀ i j, ∃ w, got i (rest j) = w ++ (got i (rest j)).drop w.length ∧ n.chan (i, j) = w.map (·.2) ∧
    List.Forall₂ Passes (sent j (rest i)) ((got i (rest j)).drop w.length)

theorem mid_send {res : ι → α} {rest : ι → List (R × Ev ι M)} {n : Net ι M α}
    (h : Mid res rest n) {i d : ι} {r : R} {l : List (R × Ev ι M)} {m : M} {k : Prog ι M α}
    (hr : rest i = (r, .sent d m) :: l) (hp : n.procs i = .send d m k) :
    Mid res (update rest i l) ⟨update n.procs i k, update n.chan (i, d) (n.chan (i, d) ++ [m])⟩ := by
  have hf := h.runs i
  rw [hr, hp] at hf
  cases hf with
  | send _ _ hf =>
  have hs := h.sorted i
  rw [hr] at hs
  have hgot : ∀ a b, got a (update rest i l b) = got a (rest b) := by
    intro a b
    by_cases hb : b = i
    · subst hb; rw [update_self, hr, got_cons_sent]
    · rw [update_of_ne hb]
  refine ⟨fun j => ?_, fun j => ?_, fun a b => ?_⟩
  · by_cases hj : j = i
    · subst hj; simp only [update_self]; exact hf
    · simp only [update_of_ne hj]; exact h.runs j
  · by_cases hj : j = i
    · subst hj; rw [update_self]; exact (List.pairwise_cons.mp hs).2
    · rw [update_of_ne hj]; exact h.sorted j
  · obtain ⟨w, h1, h2, h3⟩ := h.split a b
    rw [hgot]
    by_cases hc : (a, b) = (i, d)
    · obtain ⟨rfl, rfl⟩ := Prod.mk.inj hc
      rw [hr, sent_cons_sent, if_pos rfl, List.singleton_append] at h3
      obtain ⟨x, xs, hx, hxs, hdrop⟩ := List.forall₂_cons_left_iff.mp h3
      have hdrop' : (got a (rest b)).drop (w ++ [x]).length = xs := by
        rw [List.length_append, List.length_singleton, ← List.drop_drop, hdrop]; rfl
      refine ⟨w ++ [x], ?_, ?_, ?_⟩
      · rw [hdrop', List.append_assoc, List.singleton_append, ← hdrop]; exact h1
      · simp only [update_self, List.map_append, List.map_cons, List.map_nil, h2]
        rw [← hx.2]
      · rw [hdrop', update_self]; exact hxs
    · refine ⟨w, h1, ?_, ?_⟩
      · simp only [update_of_ne hc]; exact h2
      · by_cases ha : a = i
        · subst ha
          rw [hr, sent_cons_sent, if_neg (by rintro rfl; exact hc rfl), List.nil_append] at h3
          rw [update_self]; exact h3
        · rw [update_of_ne ha]; exact h3

theorem mid_recv {res : ι → α} {rest : ι → List (R × Ev ι M)} {n : Net ι M α}
    (h : Mid res rest n) {i s : ι} {r : R} {l : List (R × Ev ι M)} {m m' : M} {ms : List M}
    {k : M → Prog ι M α} (hr : rest i = (r, .got s m) :: l) (hp : n.procs i = .recv s k)
    (hc : n.chan (s, i) = m' :: ms) :
    m' = m ∧ Mid res (update rest i l) ⟨update n.procs i (k m), update n.chan (s, i) ms⟩ := by
  have hf := h.runs i
  rw [hr, hp] at hf
  cases hf with
  | recv _ _ hf =>
  have hs := h.sorted i
  rw [hr] at hs
  have hsent : ∀ a b, sent b (update rest i l a) = sent b (rest a) := by
    intro a b
    by_cases ha : a = i
    · subst ha; rw [update_self, hr, sent_cons_got]
    · rw [update_of_ne ha]
  obtain ⟨w, h1, h2, h3⟩ := h.split s i
  rw [hr, got_cons_got, if_pos rfl, List.singleton_append] at h1 h3
  rw [hc] at h2
  match w, h2 with
  | x :: w, h2 =>
  simp only [List.map_cons, List.cons.injEq] at h2
  simp only [List.length_cons, List.drop_succ_cons, List.cons_append, List.cons.injEq] at h1 h3
  have hm : m' = m := by rw [h2.1, ← h1.1]
  refine ⟨hm, fun j => ?_, fun j => ?_, fun a b => ?_⟩
  · by_cases hj : j = i
    · subst hj; simp only [update_self]; exact hf
    · simp only [update_of_ne hj]; exact h.runs j
  · by_cases hj : j = i
    · subst hj; rw [update_self]; exact (List.pairwise_cons.mp hs).2
    · rw [update_of_ne hj]; exact h.sorted j
  · rw [hsent]
    by_cases hcc : (a, b) = (s, i)
    · obtain ⟨rfl, rfl⟩ := Prod.mk.inj hcc
      refine ⟨w, ?_, ?_, ?_⟩
      · rw [update_self]; exact h1.2
      · simp only [update_self]; exact h2.2
      · rw [update_self]; exact h3
    · obtain ⟨w', h1', h2', h3'⟩ := h.split a b
      have hgot : got a (update rest i l b) = got a (rest b) := by
        by_cases hb : b = i
        · subst hb
          rw [update_self, hr, got_cons_got, if_neg (by rintro rfl; exact hcc rfl), List.nil_append]
        · rw [update_of_ne hb]
      refine ⟨w', ?_, ?_, ?_⟩
      · rw [hgot]; exact h1'
      · simp only [update_of_ne hcc]; exact h2'
      · rw [hgot]; exact h3'

/-- A participant that waits for the event of lowest rank has a message waiting. -/
theorem avail_of_min {res : ι → α} {rest : ι → List (R × Ev ι M)} {n : Net ι M α}
    (h : Mid res rest n) {i s : ι} {r : R} {m : M} {l : List (R × Ev ι M)}
    (hr : rest i = (r, .got s m) :: l) (hmin : ∀ j x xs, rest j = x :: xs → r ≤ x.1) :
    n.chan (s, i) ≠ [] := by
  intro hc
  obtain ⟨w, -, h2, h3⟩ := h.split s i
  rw [hc] at h2
  have hw : w = [] := List.map_eq_nil_iff.mp h2.symm
  rw [hw, hr, got_cons_got, if_pos rfl, List.length_nil, List.drop_zero, List.singleton_append] at h3
  obtain ⟨x, xs, hx, _, hsx⟩ := List.forall₂_cons_right_iff.mp h3
  have hmem : (x.1, Ev.sent i x.2) ∈ rest s := mem_of_sent (by rw [hsx]; exact List.mem_cons_self)
  cases hrs : rest s with
  | nil => rw [hrs] at hmem; cases hmem
  | cons y ys =>
    have h1 := hmin s y ys hrs
    have h2 := h.sorted s
    rw [hrs] at h2 hmem
    rcases List.mem_cons.mp hmem with rfl | hmem
    · exact absurd hx.1 (not_lt.mpr h1)
    · exact absurd (lt_trans ((List.pairwise_cons.mp h2).1 _ hmem) hx.1) (not_lt.mpr h1)

variable [Fintype ι]

theorem completes_of_mid {res : ι → α} :
    ∀ (k : ℕ) (rest : ι → List (R × Ev ι M)) (n : Net ι M α),
      ∑ i, (rest i).length = k → Mid res rest n → ∃ f, Net.Done res f ∧ Net.Steps k n f
  | 0, rest, n, hk, h => by
    have h0 : ∀ i, rest i = [] := by
      intro i
      have := Finset.sum_eq_zero_iff.mp hk i (Finset.mem_univ i)
      exact List.length_eq_zero_iff.mp this
    refine ⟨n, ⟨fun i => ?_, ?_⟩, .refl n⟩
    · have := h.runs i
      rw [h0 i] at this
      revert this
      cases n.procs i <;> intro this <;> simp_all
    · rintro ⟨a, b⟩
      obtain ⟨w, h1, h2, -⟩ := h.split a b
      rw [h0 b] at h1
      have hw : w = [] := (List.append_eq_nil_iff.mp h1.symm).1
      rw [h2, hw]; rfl
  | k + 1, rest, n, hk, h => by
    obtain ⟨i0, hi0⟩ : ∃ i, rest i ≠ [] := by
      by_contra hcon
      push Not at hcon
      simp [hcon] at hk
    have : Nonempty {i // rest i ≠ []} := ⟨⟨i0, hi0⟩⟩
    have : Finite {i // rest i ≠ []} := Finite.of_injective _ Subtype.val_injective
    obtain ⟨⟨i, hi⟩, hmin⟩ := Finite.exists_min (fun j : {i // rest i ≠ []} => ((rest j.1).head j.2).1)
    obtain ⟨⟨r, a⟩, l, hr⟩ := List.exists_cons_of_ne_nil hi
    have hmin' : ∀ j x xs, rest j = x :: xs → r ≤ x.1 := by
      intro j x xs hx
      have := hmin ⟨j, by rw [hx]; exact List.cons_ne_nil _ _⟩
      simpa [hr, hx] using this
    have hsum : ∑ j, (update rest i l j).length = k := by
      have h1 : ∑ j, (rest j).length = (rest i).length + ∑ j ∈ Finset.univ.erase i, (rest j).length :=
        (Finset.add_sum_erase _ _ (Finset.mem_univ i)).symm
      have h2 : ∑ j, (update rest i l j).length =
          (update rest i l i).length + ∑ j ∈ Finset.univ.erase i, (update rest i l j).length :=
        (Finset.add_sum_erase _ _ (Finset.mem_univ i)).symm
      have h3 : ∑ j ∈ Finset.univ.erase i, (update rest i l j).length =
          ∑ j ∈ Finset.univ.erase i, (rest j).length :=
        Finset.sum_congr rfl fun j hj => by rw [update_of_ne (Finset.ne_of_mem_erase hj)]
      rw [h2, h3, update_self]
      rw [h1, hr, List.length_cons] at hk
      omega
    have hf := h.runs i
    rw [hr] at hf
    cases a with
    | sent d m =>
      cases hp : n.procs i with
      | send d' m' p =>
        rw [hp] at hf
        obtain ⟨rfl, rfl⟩ : d' = d ∧ m' = m := by cases hf; exact ⟨rfl, rfl⟩
        obtain ⟨f, h1, h2⟩ := completes_of_mid k _ _ hsum (mid_send h hr hp)
        exact ⟨f, h1, .head ⟨i, by simp [Net.stepAt, hp]⟩ h2⟩
      | ret a => rw [hp] at hf; cases hf
      | fail e => rw [hp] at hf; cases hf
      | recv s p => rw [hp] at hf; cases hf
    | got s m =>
      cases hp : n.procs i with
      | recv s' p =>
        rw [hp] at hf
        obtain rfl : s' = s := by cases hf; rfl
        obtain ⟨m', ms, hc⟩ := List.exists_cons_of_ne_nil (avail_of_min h hr hmin')
        obtain ⟨rfl, hmid⟩ := mid_recv h hr hp hc
        obtain ⟨f, h1, h2⟩ := completes_of_mid k _ _ hsum hmid
        exact ⟨f, h1, .head ⟨i, by simp [Net.stepAt, hp, hc]⟩ h2⟩
      | ret a => rw [hp] at hf; cases hf
      | fail e => rw [hp] at hf; cases hf
      | send s p => rw [hp] at hf; cases hf

/-- Ranked traces complete, with the results of the traces. -/
theorem completes (p : ι → Prog ι M α) (res : ι → α) (trace : ι → List (R × Ev ι M))
    (hruns : ∀ i, Run (p i) ((trace i).map (·.2)) (res i))
    (hsorted : ∀ i, (trace i).Pairwise fun a b => a.1 < b.1)
    (hpasses : ∀ i j, List.Forall₂ Passes (sent j (trace i)) (got i (trace j))) :
    Net.AlwaysCompletes (⟨p, fun _ => []⟩ : Net ι M α) res := by
  obtain ⟨f, h1, h2⟩ := completes_of_mid _ trace ⟨p, fun _ => []⟩ rfl
    ⟨hruns, hsorted, fun i j => ⟨[], by simp, rfl, by simpa using hpasses i j⟩⟩
  exact Net.alwaysCompletes_of_steps h2 h1

end Trace
end Verif
