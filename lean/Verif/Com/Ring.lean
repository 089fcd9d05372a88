import Verif.Net.Rendezvous
import Mathlib.Data.Fintype.Fin
import Mathlib.Data.List.FinRange
import Mathlib.Data.List.Nodup

/-!
# Connecting all ranks to a ring (C70)

Model of `connectCircularComm`, `/repo/src/com/Communication.cpp:359-394`. Establishing a connection is a meeting of the requesting and the accepting rank: `requestConnection` waits for
the acceptor (it reads the connection file that the acceptor publishes) and `acceptConnection` waits for the requester. The file names contain the ranks of both, so that a rank meets
exactly the rank it names. The requester is the sender of a meeting.
-/

set_option autoImplicit false

namespace Verif.Com.Ring

open Function

variable {n : ℕ}

/-- `nextProc`, Communication.cpp:376 -/
def next (r : Fin n) : Fin n := ⟨(r.val + 1) % n, Nat.mod_lt _ (Nat.lt_of_le_of_lt (Nat.zero_le _) r.2)⟩

/-- `prevProc`, Communication.cpp:375 -/
def prev (r : Fin n) : Fin n := ⟨(r.val + n - 1) % n, Nat.mod_lt _ (Nat.lt_of_le_of_lt (Nat.zero_le _) r.2)⟩

/-- Who is connected to the left and to the right of a rank. -/
abbrev Result (n : ℕ) := Option (Fin n) × Option (Fin n)

/-- `connectCircularComm`, Communication.cpp:359-394. The message is the name of the requester. -/
def connect (n : ℕ) (r : Fin n) : Prog (Fin n) (Fin n) (Result n) :=
  if n = 1 then .ret (none, none)
  else if r.val % 2 = 0 then .recv (prev r) fun l => .send (next r) r (.ret (some l, some (next r)))
  else .send (next r) r (.recv (prev r) fun l => .ret (some l, some (next r)))

/-! ## Disjoint meetings -/

variable {ι M α : Type} [DecidableEq ι]

/-- Any number of meetings between disjoint pairs of ranks can take place. -/
theorem steps_meetings (k : ι → Prog ι M α) (k' : ι → M → Prog ι M α) (m : ι → M) (l : List (ι × ι)) : ∀ p : ι → Prog ι M α, (l.map (·.1)).Nodup → (l.map (·.2)).Nodup →
    (∀ x ∈ l, ∀ y ∈ l, x.1 ≠ y.2) → (∀ x ∈ l, p x.1 = .send x.2 (m x.1) (k x.1)) → (∀ x ∈ l, p x.2 = .recv x.1 (k' x.2)) →
    ∃ p', RNet.Steps l.length p p' ∧ (∀ x ∈ l, p' x.1 = k x.1 ∧ p' x.2 = k' x.2 (m x.1)) ∧ ∀ i, (∀ x ∈ l, i ≠ x.1 ∧ i ≠ x.2) → p' i = p i := by
  induction l with
  | nil => exact fun p _ _ _ _ _ => ⟨p, .refl _, by simp, fun _ _ => rfl⟩
  | cons x l ih =>
    intro p h1 h2 h3 h4 h5
    rw [List.map_cons, List.nodup_cons] at h1 h2
    have hx := h3 x (by simp) x (by simp)
    let q := update (update p x.1 (k x.1)) x.2 (k' x.2 (m x.1))
    have hq : ∀ i, i ≠ x.1 → i ≠ x.2 → q i = p i := by
      intro i hi hi'
      simp only [q, update_of_ne hi', update_of_ne hi]
    have hl : ∀ y ∈ l, y.1 ≠ x.1 ∧ y.1 ≠ x.2 ∧ y.2 ≠ x.1 ∧ y.2 ≠ x.2 := by
      intro y hy
      refine ⟨fun e => h1.1 ?_, h3 y (by simp [hy]) x (by simp), (h3 x (by simp) y (by simp [hy])).symm, fun e => h2.1 ?_⟩
      · exact List.mem_map.2 ⟨y, hy, e⟩
      · exact List.mem_map.2 ⟨y, hy, e⟩
    obtain ⟨p', hs, ha, hb⟩ := ih q h1.2 h2.2 (fun a ha b hb => h3 a (by simp [ha]) b (by simp [hb]))
      (fun y hy => by rw [hq _ (hl y hy).1 (hl y hy).2.1]; exact h4 y (by simp [hy]))
      (fun y hy => by rw [hq _ (hl y hy).2.2.1 (hl y hy).2.2.2]; exact h5 y (by simp [hy]))
    have hstep : RNet.Step p q := ⟨x.1, x.2, m x.1, k x.1, k' x.2, h4 x (by simp), h5 x (by simp), rfl⟩
    refine ⟨p', .head hstep hs, ?_, ?_⟩
    · intro y hy
      rcases List.mem_cons.1 hy with rfl | hy
      · have e1 : p' y.1 = q y.1 := hb _ fun z hz => ⟨(hl z hz).1.symm, (hl z hz).2.2.1.symm⟩
        have e2 : p' y.2 = q y.2 := hb _ fun z hz => ⟨(hl z hz).2.1.symm, (hl z hz).2.2.2.symm⟩
        rw [e1, e2]
        simp only [q, update_self, update_of_ne hx]
        exact ⟨trivial, trivial⟩
      · exact ha y hy
    · intro i hi
      rw [hb i fun y hy => hi y (by simp [hy]), hq i (hi x (by simp)).1 (hi x (by simp)).2]

/-! ## The ring -/

theorem next_val (r : Fin n) : (next r).val = if r.val + 1 = n then 0 else r.val + 1 := by
  unfold next
  have := r.2
  simp only
  split
  · rename_i h; rw [h, Nat.mod_self]
  · rw [Nat.mod_eq_of_lt (by omega)]

theorem prev_val (r : Fin n) : (prev r).val = if r.val = 0 then n - 1 else r.val - 1 := by
  unfold prev
  have := r.2
  simp only
  split
  · rename_i h; rw [h, Nat.mod_eq_of_lt (by omega)]; omega
  · have h : r.val + n - 1 = r.val - 1 + n := by omega
    rw [h, Nat.add_mod_right, Nat.mod_eq_of_lt (by omega)]

theorem prev_next (r : Fin n) : prev (next r) = r := by
  refine Fin.ext ?_
  rw [prev_val, next_val]
  have := r.2
  split <;> split <;> omega

theorem next_prev (r : Fin n) : next (prev r) = r := by
  refine Fin.ext ?_
  rw [next_val, prev_val]
  have := r.2
  split <;> split <;> omega

theorem next_injective : Function.Injective (next (n := n)) := fun a b h => by rw [← prev_next a, h, prev_next]

/-- The pairs of ranks with a property and their successors. -/
def meetings (n : ℕ) (P : Fin n → Bool) : List (Fin n × Fin n) := ((List.finRange n).filter P).map fun r => (r, next r)

theorem mem_meetings {P : Fin n → Bool} {x : Fin n × Fin n} : x ∈ meetings n P ↔ P x.1 = true ∧ x.2 = next x.1 := by
  unfold meetings
  simp only [List.mem_map, List.mem_filter, List.mem_finRange, true_and]
  constructor
  · rintro ⟨r, hr, rfl⟩; exact ⟨hr, rfl⟩
  · rintro ⟨h1, h2⟩; exact ⟨x.1, h1, by rw [← h2]⟩

theorem meetings_nodup (P : Fin n → Bool) : ((meetings n P).map (·.1)).Nodup ∧ ((meetings n P).map (·.2)).Nodup := by
  unfold meetings
  rw [List.map_map, List.map_map]
  refine ⟨?_, ?_⟩
  · have : ((fun x : Fin n × Fin n => x.1) ∘ fun r => (r, next r)) = id := rfl
    rw [this, List.map_id]
    exact (List.nodup_finRange n).filter _
  · exact ((List.nodup_finRange n).filter _).map next_injective

/-- One round of meetings of all ranks with property `P` with their successors, if no successor has the property. -/
theorem steps_round {M α : Type} (P : Fin n → Bool) (hP : ∀ r, P r = true → P (next r) = false) (k : Fin n → Prog (Fin n) M α) (k' : Fin n → M → Prog (Fin n) M α)
    (m : Fin n → M) (p : Fin n → Prog (Fin n) M α) (hs : ∀ r, P r = true → p r = .send (next r) (m r) (k r)) (hr : ∀ r, P r = true → p (next r) = .recv r (k' (next r))) :
    ∃ j, RNet.Steps j p fun r => if P r = true then k r else if P (prev r) = true then k' r (m (prev r)) else p r := by
  obtain ⟨p', h1, h2, h3⟩ := steps_meetings k k' m (meetings n P) p (meetings_nodup P).1 (meetings_nodup P).2
    (by
      intro x hx y hy e
      obtain ⟨a, -⟩ := mem_meetings.1 hx
      obtain ⟨c, d⟩ := mem_meetings.1 hy
      rw [e, d, hP _ c] at a
      cases a)
    (by
      intro x hx
      obtain ⟨a, b⟩ := mem_meetings.1 hx
      rw [hs _ a, b])
    (by
      intro x hx
      obtain ⟨a, b⟩ := mem_meetings.1 hx
      rw [b, hr _ a])
  refine ⟨_, (?_ : p' = _) ▸ h1⟩
  funext r
  by_cases hr : P r = true
  · rw [if_pos hr]
    exact (h2 (r, next r) (mem_meetings.2 ⟨hr, rfl⟩)).1
  · rw [if_neg hr]
    by_cases hp : P (prev r) = true
    · rw [if_pos hp]
      have := (h2 (prev r, r) (mem_meetings.2 ⟨hp, (next_prev r).symm⟩)).2
      exact this
    · rw [if_neg hp]
      refine h3 r fun x hx => ?_
      obtain ⟨a, b⟩ := mem_meetings.1 hx
      constructor
      · rintro rfl; exact hr a
      · rintro rfl
        rw [b, prev_next] at hp
        exact hp a

/-- For any number of ranks, connecting the ring cannot deadlock: every schedule completes, and every rank is connected to its predecessor and its successor. -/
theorem C70_ring (n : ℕ) (hn : 1 < n) : RNet.AlwaysCompletes (connect n) fun r => (some (prev r), some (next r)) := by
  have hn1 : ¬ n = 1 := by omega
  have hE : ∀ r : Fin n, r.val % 2 = 0 → connect n r = .recv (prev r) fun l => .send (next r) r (.ret (some l, some (next r))) := by
    intro r h
    unfold connect
    rw [if_neg hn1, if_pos h]
  have hO : ∀ r : Fin n, r.val % 2 ≠ 0 → connect n r = .send (next r) r (.recv (prev r) fun l => .ret (some l, some (next r))) := by
    intro r h
    unfold connect
    rw [if_neg hn1, if_neg h]
  -- first all odd ranks meet their successors
  obtain ⟨j1, s1⟩ := steps_round (fun r : Fin n => decide (r.val % 2 ≠ 0)) (by
      intro r h
      simp only [ne_eq, decide_eq_true_eq, decide_eq_false_iff_not, not_not] at h ⊢
      rw [next_val]
      have := r.2
      split <;> omega)
    (fun r => .recv (prev r) fun l => .ret (some l, some (next r))) (fun r l => .send (next r) r (.ret (some l, some (next r)))) id (connect n)
    (by
      intro r h
      simp only [ne_eq, decide_eq_true_eq] at h
      exact hO r h)
    (by
      intro r h
      simp only [ne_eq, decide_eq_true_eq] at h
      rw [hE (next r), prev_next]
      rw [next_val]
      have := r.2
      split <;> omega)
  -- then the even ranks that have met their predecessor meet their successor
  obtain ⟨j2, s2⟩ := steps_round (fun r : Fin n => decide (r.val % 2 = 0 ∧ (prev r).val % 2 ≠ 0)) (by
      intro r h
      simp only [ne_eq, decide_eq_true_eq, decide_eq_false_iff_not, prev_next] at h ⊢
      omega)
    (fun r => .ret (some (prev r), some (next r))) (fun r l => if r.val % 2 = 0 then .send (next r) r (.ret (some l, some (next r))) else .ret (some l, some (next r))) id
    (fun r => if decide (r.val % 2 ≠ 0) = true then .recv (prev r) fun l => .ret (some l, some (next r))
      else if decide ((prev r).val % 2 ≠ 0) = true then .send (next r) r (.ret (some (prev r), some (next r))) else connect n r)
    (by
      intro r h
      simp only [ne_eq, decide_eq_true_eq] at h
      simp only [ne_eq, decide_eq_true_eq]
      rw [if_neg (by omega), if_pos h.2]
      rfl)
    (by
      intro r h
      simp only [ne_eq, decide_eq_true_eq] at h
      simp only [ne_eq, decide_eq_true_eq, prev_next]
      by_cases hr : (next r).val % 2 = 0
      · rw [if_neg (not_not.2 hr), if_neg (by omega), hE _ hr, prev_next]
        simp only [hr, if_true]
      · rw [if_pos hr]
        simp only [hr, if_false])
  -- for an odd number of ranks, rank 0 is left
  obtain ⟨j3, s3⟩ := steps_round (fun r : Fin n => decide (r.val % 2 = 0 ∧ (prev r).val % 2 = 0)) (by
      intro r h
      simp only [decide_eq_true_eq, decide_eq_false_iff_not, prev_next] at h ⊢
      rw [prev_val] at h
      rw [next_val]
      have := r.2
      split <;> split at h <;> omega)
    (fun r => .ret (some (prev r), some (next r))) (fun r l => .ret (some l, some (next r))) id
    (fun r => if decide (r.val % 2 = 0 ∧ (prev r).val % 2 ≠ 0) = true then .ret (some (prev r), some (next r))
      else if decide ((prev r).val % 2 = 0 ∧ (prev (prev r)).val % 2 ≠ 0) = true then
        if r.val % 2 = 0 then .send (next r) r (.ret (some (prev r), some (next r))) else .ret (some (prev r), some (next r))
      else if decide (r.val % 2 ≠ 0) = true then .recv (prev r) fun l => .ret (some l, some (next r))
      else if decide ((prev r).val % 2 ≠ 0) = true then .send (next r) r (.ret (some (prev r), some (next r))) else connect n r)
    (by
      intro r h
      simp only [decide_eq_true_eq] at h
      have h0 : r.val = 0 := by
        have := h.2
        rw [prev_val] at this
        split at this <;> omega
      have hp : (prev r).val = n - 1 := by rw [prev_val, if_pos h0]
      have hpp : (prev (prev r)).val = n - 2 := by rw [prev_val, if_neg (by omega)]; omega
      simp only [ne_eq, decide_eq_true_eq, id]
      rw [if_neg (by omega), if_pos ⟨h.2, by omega⟩, if_pos h.1])
    (by
      intro r h
      simp only [decide_eq_true_eq] at h
      have h0 : r.val = 0 := by
        have := h.2
        rw [prev_val] at this
        split at this <;> omega
      have hnx : (next r).val = 1 := by rw [next_val, if_neg (by omega)]; omega
      simp only [ne_eq, decide_eq_true_eq, prev_next]
      rw [if_neg (by omega), if_neg (by omega), if_pos (by omega)])
  refine RNet.alwaysCompletes_of_steps ((s1.trans s2).trans s3) fun r => ?_
  simp only [ne_eq, decide_eq_true_eq, id]
  have hr := r.2
  have hp := prev_val r
  have hpp := prev_val (prev r)
  by_cases h1 : r.val % 2 = 0
  · by_cases h2 : (prev r).val % 2 = 0
    · rw [if_pos ⟨h1, h2⟩]
    · rw [if_neg (by omega), if_neg (by omega), if_pos ⟨h1, h2⟩]
  · by_cases h0 : r.val = 1
    · have hp0 : (prev r).val = 0 := by rw [hp, if_neg (by omega)]; omega
      rw [if_pos hp0] at hpp
      by_cases hodd : n % 2 = 0
      · rw [if_neg (by omega), if_neg (by omega), if_neg (by omega), if_pos ⟨by omega, by omega⟩, if_neg h1]
      · rw [if_neg (by omega), if_pos ⟨by omega, by omega⟩]
    · rw [if_neg (by omega)] at hp
      rw [if_neg (by omega)] at hpp
      rw [if_neg (by omega), if_neg (by omega), if_neg (by omega), if_pos ⟨by omega, by omega⟩, if_neg h1]

/-- A single rank does nothing. -/
theorem C70_single : RNet.AlwaysCompletes (connect 1) fun _ => (none, none) :=
  RNet.alwaysCompletes_of_steps (.refl _) fun _ => rfl

/-- If all ranks accepted first, nothing could ever happen. -/
theorem C70_same_order_deadlocks (n : ℕ) :
    RNet.Stuck fun r : Fin n => (.recv (prev r) fun l => .send (next r) r (.ret (some l, some (next r))) : Prog (Fin n) (Fin n) (Result n)) := by
  rintro p' ⟨a, b, m, k, k', h, -, -⟩
  cases h

end Verif.Com.Ring
