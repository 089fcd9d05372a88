import Verif.Accel.ParallelProduct
import Verif.Net.Trace
import Mathlib.Data.List.GetD

/-!
# Matrix products of a parallel participant (C94): executions

The lists which consist of a part for every rank, the ring, and the reduction with its distribution.
-/

set_option autoImplicit false
set_option linter.unusedSectionVars false

namespace Verif.MatOps

open Function (update)
open Prog

variable {K : Type} [CommRing K] {n : ℕ}

/-! ## Lists which consist of a part for every rank -/

/-- The concatenation of the parts of all ranks. -/
def stack {α : Type} (part : Fin (n + 1) → List α) : List α := (List.finRange (n + 1)).flatMap part

/-- The offsets cut a list into parts of the given lengths. -/
structure Cuts (offsets : ℕ → ℕ) (len : Fin (n + 1) → ℕ) : Prop where
  zero : offsets 0 = 0
  succ : ∀ r : Fin (n + 1), offsets (r + 1) = offsets r + len r

theorem Cuts.rowsOf {offsets : ℕ → ℕ} {len : Fin (n + 1) → ℕ} (h : Cuts offsets len) (s : Fin (n + 1)) : rowsOf offsets s = len s := by
  have := h.succ s
  unfold MatOps.rowsOf
  split
  · omega
  · next h0 =>
    have h0 : (s : ℕ) = 0 := by omega
    rw [h0, h.zero] at this
    simpa using this

theorem flatMap_split {α : Type} : ∀ (m : ℕ) (part : Fin m → List α) (r : Fin m), ∃ a b,
    (List.finRange m).flatMap part = a ++ part r ++ b ∧ a.length = (((List.finRange m).take r).map fun i => (part i).length).sum ∧
      ∀ x, (List.finRange m).flatMap (update part r x) = a ++ x ++ b
  | 0, _, r => r.elim0
  | m + 1, part, r => by
    rw [List.finRange_succ, List.flatMap_cons, List.flatMap_map]
    by_cases hr : r = 0
    · subst hr
      refine ⟨[], (List.finRange m).flatMap (fun i => part i.succ), by simp, by simp, fun x => ?_⟩
      rw [List.flatMap_cons, List.flatMap_map, Function.update_self, List.nil_append]
      have : (fun i : Fin m => update part 0 x i.succ) = fun i => part i.succ := by
        funext i; rw [Function.update_of_ne (Fin.succ_ne_zero i)]
      rw [this]
    · obtain ⟨r, rfl⟩ := Fin.exists_succ_eq.2 hr
      obtain ⟨a, b, h1, h2, h3⟩ := flatMap_split m (fun i => part i.succ) r
      refine ⟨part 0 ++ a, b, ?_, ?_, fun x => ?_⟩
      · rw [h1]; simp
      · rw [List.length_append, h2, Fin.val_succ, List.take_succ_cons, List.map_cons, List.sum_cons, ← List.map_take, List.map_map]
        rfl
      · rw [List.flatMap_cons, List.flatMap_map, Function.update_of_ne (Fin.succ_ne_zero r).symm]
        have : (fun i : Fin m => update part r.succ x i.succ) = update (fun i => part i.succ) r x := by
          funext i
          by_cases h : i = r
          · subst h; simp
          · rw [Function.update_of_ne h, Function.update_of_ne (fun e => h (Fin.succ_injective _ e))]
        rw [this, h3]
        simp

theorem Cuts.sum {offsets : ℕ → ℕ} {len : Fin (n + 1) → ℕ} (h : Cuts offsets len) :
    ∀ k : ℕ, k ≤ n + 1 → (((List.finRange (n + 1)).take k).map len).sum = offsets k
  | 0, _ => by simp [h.zero]
  | k + 1, hk => by
    rw [List.take_add_one, List.getElem?_eq_getElem (by rw [List.length_finRange]; omega), List.getElem_finRange, List.map_append, List.sum_append,
      h.sum k (by omega)]
    have := h.succ ⟨k, hk⟩
    simpa using this.symm

/-- The part of a rank in a stack. -/
theorem stack_split {α : Type} {offsets : ℕ → ℕ} {len : Fin (n + 1) → ℕ} (h : Cuts offsets len) (part : Fin (n + 1) → List α)
    (hl : ∀ r, (part r).length = len r) (r : Fin (n + 1)) :
    ∃ a b, stack part = a ++ part r ++ b ∧ a.length = offsets r ∧ ∀ x, stack (update part r x) = a ++ x ++ b := by
  obtain ⟨a, b, h1, h2, h3⟩ := flatMap_split (n + 1) part r
  refine ⟨a, b, h1, ?_, h3⟩
  rw [h2, ← h.sum r r.2.le, List.map_congr_left fun i _ => hl i]

theorem stack_length {α : Type} {offsets : ℕ → ℕ} {len : Fin (n + 1) → ℕ} (h : Cuts offsets len) (part : Fin (n + 1) → List α)
    (hl : ∀ r, (part r).length = len r) : (stack part).length = offsets (n + 1) := by
  rw [stack, List.length_flatMap, List.map_congr_left fun i _ => hl i, ← h.sum (n + 1) le_rfl, List.take_of_length_le (by simp)]

theorem stack_slice {α : Type} {offsets : ℕ → ℕ} {len : Fin (n + 1) → ℕ} (h : Cuts offsets len) (part : Fin (n + 1) → List α)
    (hl : ∀ r, (part r).length = len r) (r : Fin (n + 1)) : ((stack part).drop (offsets r)).take (len r) = part r := by
  obtain ⟨a, b, h1, h2, -⟩ := stack_split h part hl r
  rw [h1, ← h2, List.append_assoc, List.drop_left, ← hl r, List.take_left]

theorem stack_block {c : ℕ} {offsets : ℕ → ℕ} {len : Fin (n + 1) → ℕ} (h : Cuts offsets len) (part : Fin (n + 1) → Rows K c)
    (hl : ∀ r, (part r).length = len r) (r : Fin (n + 1)) (x : Rows K c) (hx : x.length = len r) :
    offsets r + x.length ≤ (stack part).length ∧ setBlock (offsets r) x (stack part) = stack (update part r x) := by
  obtain ⟨a, b, h1, h2, h3⟩ := stack_split h part hl r
  rw [h1, h3, ← h2]
  refine ⟨by simp only [List.length_append, hl, hx]; omega, ?_⟩
  unfold setBlock
  rw [List.append_assoc a, List.take_left, ← List.drop_drop, List.drop_left, hx, ← hl r, List.drop_left, List.append_assoc]

theorem Cuts.le {offsets : ℕ → ℕ} {len : Fin (n + 1) → ℕ} (h : Cuts offsets len) (r : Fin (n + 1)) : offsets r + len r ≤ offsets (n + 1) := by
  have := (stack_block (K := ℤ) (c := 0) h (fun r => List.replicate (len r) 0) (by simp) r (List.replicate (len r) 0) (by simp)).1
  rwa [stack_length h _ (by simp), List.length_replicate] at this

/-- Every list of the right length is a stack. -/
theorem exists_stack {α : Type} {offsets : ℕ → ℕ} {len : Fin (n + 1) → ℕ} (h : Cuts offsets len) (l : List α) (hl : l.length = offsets (n + 1)) :
    ∃ part : Fin (n + 1) → List α, (∀ r, (part r).length = len r) ∧ stack part = l := by
  refine ⟨fun r => (l.drop (offsets r)).take (len r), fun r => ?_, ?_⟩
  · have := h.le r
    rw [List.length_take, List.length_drop]; omega
  · have : ∀ k, k ≤ n + 1 → ((List.finRange (n + 1)).take k).flatMap (fun r : Fin (n + 1) => (l.drop (offsets r)).take (len r)) = l.take (offsets k) := by
      intro k
      induction k with
      | zero => intro _; simp [h.zero]
      | succ k ih =>
        intro hk
        rw [List.take_add_one, List.getElem?_eq_getElem (by rw [List.length_finRange]; omega), List.getElem_finRange, List.flatMap_append, ih (by omega)]
        have := h.succ ⟨k, hk⟩
        simp only [Fin.cast_mk, Option.toList_some, List.flatMap_cons, List.flatMap_nil, List.append_nil]
        rw [show offsets (k + 1) = offsets k + len ⟨k, hk⟩ from this, ← List.take_add]
    have := this (n + 1) le_rfl
    rwa [List.take_of_length_le (by simp), List.take_of_length_le (by omega)] at this

theorem stack_update_all {α : Type} (part : Fin (n + 1) → List α) (f : Fin (n + 1) → List α) (h : ∀ r, part r = f r) : stack part = stack f := by
  rw [funext h]

theorem mul_stack {q c : ℕ} (part : Fin (n + 1) → Rows K q) (B : Matrix (Fin q) (Fin c) K) : mul (stack part) B = stack fun r => mul (part r) B := by
  unfold mul stack; rw [List.map_flatMap]

theorem length_mul {q c : ℕ} (A : Rows K q) (B : Matrix (Fin q) (Fin c) K) : (mul A B).length = A.length := List.length_map _

theorem Cuts.mono {offsets : ℕ → ℕ} {len : Fin (n + 1) → ℕ} (h : Cuts offsets len) (i : ℕ) : ∀ k, k ≤ n + 1 → i < offsets k → ∃ s : Fin (n + 1), offsets s ≤ i ∧ i < offsets s + len s
  | 0, _, hi => by rw [h.zero] at hi; omega
  | k + 1, hk, hi => by
    by_cases hi' : i < offsets k
    · exact h.mono i k (by omega) hi'
    · exact ⟨⟨k, hk⟩, by simpa using hi', by rw [← h.succ ⟨k, hk⟩]; exact hi⟩

/-- The entries of a stack. -/
theorem stack_getD {α : Type} {offsets : ℕ → ℕ} {len : Fin (n + 1) → ℕ} (h : Cuts offsets len) (part : Fin (n + 1) → List α)
    (hl : ∀ r, (part r).length = len r) (s : Fin (n + 1)) (i : ℕ) (hi : i < len s) (d : α) : (stack part).getD (offsets s + i) d = (part s).getD i d := by
  obtain ⟨a, b, h1, h2, -⟩ := stack_split h part hl s
  rw [h1, ← h2, List.append_assoc, List.getD_append_right _ _ _ _ (by omega), Nat.add_sub_cancel_left, List.getD_append _ _ _ _ (by rw [hl]; exact hi)]

/-! ## The ring -/

theorem source_val (r : Fin (n + 1)) (c : ℕ) (hc : c ≤ n + 1) :
    (source r c).val = if r.val < c then n + 1 + r.val - c else r.val - c := by
  unfold source
  rw [Fin.val_ofNat, Nat.mod_eq_of_lt]
  have := r.2
  split <;> omega

theorem source_zero (r : Fin (n + 1)) : source r 0 = r := by
  apply Fin.ext; rw [source_val r 0 (by omega)]; simp

theorem rightOf_val (r : Fin (n + 1)) : (rightOf r).val = if r.val = n then 0 else r.val + 1 := by
  unfold rightOf
  rw [Fin.val_ofNat]
  have := r.2
  split
  · next h => rw [h, Nat.mod_self]
  · rw [Nat.mod_eq_of_lt]; omega

theorem source_rightOf (r : Fin (n + 1)) (c : ℕ) (hc : c ≤ n) : source (rightOf r) (c + 1) = source r c := by
  apply Fin.ext
  rw [source_val _ _ (by omega), source_val _ _ (by omega), rightOf_val]
  have := r.2
  split_ifs <;> omega

theorem left_rightOf (r : Fin (n + 1)) : source (rightOf r) 1 = r := by
  rw [source_rightOf r 0 (by omega), source_zero]

theorem right_left (r : Fin (n + 1)) : rightOf (source r 1) = r := by
  apply Fin.ext
  rw [rightOf_val, source_val _ _ (by omega)]
  have := r.2
  split_ifs <;> omega

theorem exists_source (r s : Fin (n + 1)) : ∃ c ≤ n, source r c = s := by
  have := r.2
  have := s.2
  refine ⟨if s.val ≤ r.val then r.val - s.val else n + 1 + r.val - s.val, by split <;> omega, ?_⟩
  apply Fin.ext
  rw [source_val _ _ (by split <;> omega)]
  split_ifs <;> omega

/-- The events of the cycles of a rank. -/
def events {q : ℕ} (A : Fin (n + 1) → Rows K q) (r : Fin (n + 1)) : ℕ → ℕ → List (ℕ × Ev (Fin (n + 1)) (Rows K q))
  | 0, _ => []
  | k + 1, cycle =>
    (if 0 < entries (A (source r cycle)) then (2 * cycle - 1, .got (source r 1) (A (source r cycle))) ::
      (if cycle < n then [(2 * cycle, .sent (rightOf r) (A (source r cycle)))] else []) else []) ++ events A r k (cycle + 1)

theorem events_succ {q : ℕ} (A : Fin (n + 1) → Rows K q) (r : Fin (n + 1)) (k cycle : ℕ) : events A r (k + 1) cycle =
    (if 0 < entries (A (source r cycle)) then (2 * cycle - 1, .got (source r 1) (A (source r cycle))) ::
      (if cycle < n then [(2 * cycle, .sent (rightOf r) (A (source r cycle)))] else []) else []) ++ events A r k (cycle + 1) := rfl

/-- The parts of the result after the cycles. -/
def filled {q c : ℕ} (A : Fin (n + 1) → Rows K q) (B : Matrix (Fin q) (Fin c) K) (r : Fin (n + 1)) :
    ℕ → ℕ → (Fin (n + 1) → Rows K c) → Fin (n + 1) → Rows K c
  | 0, _, part => part
  | k + 1, cycle, part => filled A B r k (cycle + 1) (update part (source r cycle) (mul (A (source r cycle)) B))

theorem filled_keep {q c : ℕ} (A : Fin (n + 1) → Rows K q) (B : Matrix (Fin q) (Fin c) K) (r s : Fin (n + 1)) :
    ∀ (k cycle : ℕ) (part : Fin (n + 1) → Rows K c), part s = mul (A s) B → filled A B r k cycle part s = mul (A s) B
  | 0, _, _, h => h
  | k + 1, cycle, part, h => by
    refine filled_keep A B r s k (cycle + 1) _ ?_
    by_cases hs : s = source r cycle
    · subst hs; rw [Function.update_self]
    · rw [Function.update_of_ne hs]; exact h

theorem filled_of_mem {q c : ℕ} (A : Fin (n + 1) → Rows K q) (B : Matrix (Fin q) (Fin c) K) (r s : Fin (n + 1)) :
    ∀ (k cycle : ℕ) (part : Fin (n + 1) → Rows K c) (x : ℕ), cycle ≤ x → x < cycle + k → source r x = s →
      filled A B r k cycle part s = mul (A s) B
  | 0, _, _, _, h1, h2, _ => by omega
  | k + 1, cycle, part, x, h1, h2, hx => by
    by_cases h : x = cycle
    · subst h
      refine filled_keep A B r s k (x + 1) _ ?_
      rw [hx, Function.update_self]
    · exact filled_of_mem A B r s k (cycle + 1) _ x (by omega) (by omega) hx

theorem run_pass {q : ℕ} {α : Type} (dst : Fin (n + 1)) (A : Rows K q) {k : Prog (Fin (n + 1)) (Rows K q) α} {tr : List (Ev (Fin (n + 1)) (Rows K q))} {a : α}
    (h : Run k tr a) : Run (pass dst A k) ((if 0 < entries A then [.sent dst A] else []) ++ tr) a := by
  unfold pass
  split
  · exact .send _ _ h
  · exact h

theorem run_expect {q : ℕ} {α : Type} (src : Fin (n + 1)) (A : Rows K q) {k : Rows K q → Prog (Fin (n + 1)) (Rows K q) α}
    {tr : List (Ev (Fin (n + 1)) (Rows K q))} {a : α} (h : Run (k A) tr a) :
    Run (expect src A.length k) ((if 0 < entries A then [.got src A] else []) ++ tr) a := by
  unfold expect entries
  split
  · refine .recv _ _ ?_
    rw [run_ensure]
    exact ⟨rfl, h⟩
  · next h0 =>
    have : A = List.replicate A.length 0 := by
      rcases Nat.mul_eq_zero.1 (Nat.eq_zero_of_not_pos h0) with h | h
      · rw [h, List.replicate_zero]; exact List.length_eq_zero_iff.1 h
      · subst h
        exact List.eq_replicate_iff.2 ⟨rfl, fun b _ => Subsingleton.elim _ _⟩
    rw [← this]
    exact h

theorem run_cycles {q c : ℕ} {offsets : ℕ → ℕ} {A : Fin (n + 1) → Rows K q} (h : Cuts offsets fun s => (A s).length)
    (B : Matrix (Fin q) (Fin c) K) (r : Fin (n + 1)) : ∀ (k cycle : ℕ) (part : Fin (n + 1) → Rows K c), cycle + k = n + 1 →
      (∀ s, (part s).length = (A s).length) →
      Run (cycles r B offsets k cycle (A (source r cycle)).length (stack part)) ((events A r k cycle).map (·.2)) (stack (filled A B r k cycle part))
  | 0, _, _, _, _ => .ret _
  | k + 1, cycle, part, hk, hl => by
    obtain ⟨h1, h2⟩ := stack_block h part hl (source r cycle) (mul (A (source r cycle)) B) (length_mul _ _)
    have hrest : Run (Prog.ensure .assert (offsets (source r cycle) + (mul (A (source r cycle)) B).length ≤ (stack part).length)
      (cycles r B offsets k (cycle + 1) (rowsOf offsets (source r (cycle + 1))) (setBlock (offsets (source r cycle)) (mul (A (source r cycle)) B) (stack part))))
        ((events A r k (cycle + 1)).map (·.2)) (stack (filled A B r (k + 1) cycle part)) := by
      rw [run_ensure, h2, h.rowsOf]
      refine ⟨h1, run_cycles h B r k (cycle + 1) _ (by omega) fun s => ?_⟩
      by_cases hs : s = source r cycle
      · subst hs; rw [Function.update_self, length_mul]
      · rw [Function.update_of_ne hs, hl]
    have hev : (events A r (k + 1) cycle).map (·.2) = (if 0 < entries (A (source r cycle)) then [.got (source r 1) (A (source r cycle))] else []) ++
        (if cycle < n then (if 0 < entries (A (source r cycle)) then [.sent (rightOf r) (A (source r cycle))] else []) ++
          (events A r k (cycle + 1)).map (·.2) else (events A r k (cycle + 1)).map (·.2)) := by
      rw [events_succ]
      split_ifs <;> simp
    rw [hev]
    unfold cycles
    refine run_expect _ _ ?_
    split
    · exact run_pass _ _ hrest
    · exact hrest

theorem events_rank {q : ℕ} (A : Fin (n + 1) → Rows K q) (r : Fin (n + 1)) : ∀ (k cycle : ℕ), 1 ≤ cycle → ∀ x ∈ events A r k cycle, 2 * cycle - 1 ≤ x.1
  | 0, _, _, x, hx => by cases hx
  | k + 1, cycle, hc, x, hx => by
    unfold events at hx
    rcases List.mem_append.1 hx with hx | hx
    · split_ifs at hx <;> simp at hx
      · rcases hx with rfl | rfl <;> simp
      · subst hx; simp
    · have := events_rank A r k (cycle + 1) (by omega) x hx
      omega

theorem events_sorted {q : ℕ} (A : Fin (n + 1) → Rows K q) (r : Fin (n + 1)) :
    ∀ (k cycle : ℕ), 1 ≤ cycle → (events A r k cycle).Pairwise fun a b => a.1 < b.1
  | 0, _, _ => .nil
  | k + 1, cycle, hc => by
    unfold events
    refine List.pairwise_append.2 ⟨?_, events_sorted A r k (cycle + 1) (by omega), fun a ha b hb => ?_⟩
    · split_ifs <;> simp
      omega
    · have := events_rank A r k (cycle + 1) (by omega) b hb
      split_ifs at ha <;> simp at ha
      · rcases ha with rfl | rfl <;> simp <;> omega
      · subst ha; simp; omega

theorem events_sent_other {q : ℕ} (A : Fin (n + 1) → Rows K q) (r : Fin (n + 1)) {j : Fin (n + 1)} (hj : rightOf r ≠ j) :
    ∀ (k cycle : ℕ), Trace.sent j (events A r k cycle) = []
  | 0, _ => rfl
  | k + 1, cycle => by
    unfold events
    rw [Trace.sent_append, events_sent_other A r hj k (cycle + 1)]
    split_ifs
    · rw [Trace.sent_cons_got, Trace.sent_cons_sent, if_neg hj]; rfl
    · rfl
    · rfl

theorem events_got_other {q : ℕ} (A : Fin (n + 1) → Rows K q) (r : Fin (n + 1)) {j : Fin (n + 1)} (hj : source r 1 ≠ j) :
    ∀ (k cycle : ℕ), Trace.got j (events A r k cycle) = []
  | 0, _ => rfl
  | k + 1, cycle => by
    unfold events
    rw [Trace.got_append, events_got_other A r hj k (cycle + 1)]
    split_ifs
    · rw [Trace.got_cons_got, if_neg hj, Trace.got_cons_sent]; rfl
    · rw [Trace.got_cons_got, if_neg hj]; rfl
    · rfl

theorem events_pass {q : ℕ} (A : Fin (n + 1) → Rows K q) (r : Fin (n + 1)) : ∀ (k cycle : ℕ), 1 ≤ cycle → cycle + (k + 1) = n + 1 →
    List.Forall₂ Trace.Passes (Trace.sent (rightOf r) (events A r (k + 1) cycle)) (Trace.got r (events A (rightOf r) k (cycle + 1)))
  | 0, cycle, hc, hk => by
    have : ¬ cycle < n := by omega
    unfold events
    rw [if_neg this]
    unfold events
    rw [List.append_nil]
    split_ifs
    · exact .nil
    · exact .nil
  | k + 1, cycle, hc, hk => by
    have hlt : cycle < n := by omega
    have ih := events_pass A r k (cycle + 1) (by omega) (by omega)
    have e1 : events A r (k + 1 + 1) cycle = (if 0 < entries (A (source r cycle)) then (2 * cycle - 1, .got (source r 1) (A (source r cycle))) ::
      (if cycle < n then [(2 * cycle, .sent (rightOf r) (A (source r cycle)))] else []) else []) ++ events A r (k + 1) (cycle + 1) := rfl
    have e2 : events A (rightOf r) (k + 1) (cycle + 1) = (if 0 < entries (A (source (rightOf r) (cycle + 1))) then
      (2 * (cycle + 1) - 1, .got (source (rightOf r) 1) (A (source (rightOf r) (cycle + 1)))) ::
      (if cycle + 1 < n then [(2 * (cycle + 1), .sent (rightOf (rightOf r)) (A (source (rightOf r) (cycle + 1))))] else []) else []) ++
      events A (rightOf r) k (cycle + 1 + 1) := rfl
    rw [e1, e2, Trace.sent_append, Trace.got_append, source_rightOf r cycle (by omega), left_rightOf, if_pos hlt]
    by_cases h0 : 0 < entries (A (source r cycle))
    · rw [if_pos h0, if_pos h0, Trace.sent_cons_got, Trace.sent_cons_sent, if_pos rfl, Trace.got_cons_got, if_pos rfl]
      have : Trace.got r (if cycle + 1 < n then [(2 * (cycle + 1), Ev.sent (rightOf (rightOf r)) (A (source r cycle)))] else []) = [] := by
        split_ifs <;> rfl
      rw [this]
      refine List.Forall₂.cons ⟨?_, rfl⟩ ih
      show 2 * cycle < 2 * (cycle + 1) - 1
      omega
    · rw [if_neg h0, if_neg h0]
      exact ih

/-- Ranks in a ring: the product of the rows of all ranks with the columns of the rank. -/
theorem cyclic_complete (hn : 0 < n) {q : ℕ} {c : Fin (n + 1) → ℕ} {offsets : ℕ → ℕ} {A : Fin (n + 1) → Rows K q} (h : Cuts offsets fun s => (A s).length)
    (B : (r : Fin (n + 1)) → Matrix (Fin q) (Fin (c r)) K) (result : (r : Fin (n + 1)) → Rows K (c r))
    (hres : ∀ r, (result r).length = offsets (n + 1)) {α : Type} (f : (r : Fin (n + 1)) → Rows K (c r) → α) :
    Net.AlwaysCompletes (⟨fun r => (cyclic offsets r (A r) (B r) (result r)).bind fun x => .ret (f r x), fun _ => []⟩ : Net (Fin (n + 1)) (Rows K q) α)
      fun r => f r (stack fun s => mul (A s) (B r)) := by
  obtain ⟨m, rfl⟩ : ∃ m, n = m + 1 := ⟨n - 1, by omega⟩
  refine Trace.completes (R := ℕ) _ _
    (fun r => (if 0 < entries (A r) then [(0, .sent (rightOf r) (A r))] else []) ++ events A r (m + 1) 1) (fun r => ?_) (fun r => ?_) fun i j => ?_
  · rw [run_bind]
    refine ⟨_, [], stack fun s => mul (A s) (B r), (List.append_nil _).symm, ?_, .ret _⟩
    obtain ⟨part, hp, hs⟩ := exists_stack h (result r) (hres r)
    obtain ⟨h1, h2⟩ := stack_block h part hp r (mul (A r) (B r)) (length_mul _ _)
    have hrun := run_cycles h (B r) r (m + 1) 1 (update part r (mul (A r) (B r))) (by omega) fun s => by
      by_cases hs : s = r
      · subst hs; rw [Function.update_self, length_mul]
      · rw [Function.update_of_ne hs]; exact hp s
    have hfin : stack (filled A (B r) r (m + 1) 1 (update part r (mul (A r) (B r)))) = stack fun s => mul (A s) (B r) := by
      refine stack_update_all _ _ fun s => ?_
      obtain ⟨x, hx, hxs⟩ := exists_source r s
      by_cases h0 : x = 0
      · subst h0
        rw [source_zero] at hxs
        subst hxs
        exact filled_keep A (B r) r r _ _ _ (Function.update_self ..)
      · exact filled_of_mem A (B r) r s _ _ _ x (by omega) (by omega) hxs
    rw [hfin] at hrun
    unfold cyclic
    rw [List.map_append]
    have : List.map (·.2) (if 0 < entries (A r) then [((0 : ℕ), Ev.sent (rightOf r) (A r))] else []) =
        if 0 < entries (A r) then [Ev.sent (rightOf r) (A r)] else [] := by split_ifs <;> rfl
    rw [this]
    refine run_pass _ _ ?_
    rw [run_ensure, ← hs, h2, h.rowsOf]
    exact ⟨h1, hrun⟩
  · refine List.pairwise_append.2 ⟨by split_ifs <;> simp, events_sorted A r _ _ le_rfl, fun a ha b hb => ?_⟩
    have := events_rank A r _ _ le_rfl b hb
    split_ifs at ha <;> simp at ha
    subst ha
    show 0 < b.1
    omega
  · rw [Trace.sent_append, Trace.got_append]
    have hnone : Trace.got i (if 0 < entries (A j) then [((0 : ℕ), Ev.sent (rightOf j) (A j))] else []) = [] := by split_ifs <;> rfl
    rw [hnone, List.nil_append]
    by_cases hj : rightOf i = j
    · subst hj
      have e2 : events A (rightOf i) (m + 1) 1 = (if 0 < entries (A (source (rightOf i) 1)) then
        (2 * 1 - 1, .got (source (rightOf i) 1) (A (source (rightOf i) 1))) ::
        (if 1 < m + 1 then [(2 * 1, .sent (rightOf (rightOf i)) (A (source (rightOf i) 1)))] else []) else []) ++
        events A (rightOf i) m 2 := rfl
      rw [e2, Trace.got_append, left_rightOf]
      have ih := events_pass A i m 1 le_rfl (by omega)
      by_cases h0 : 0 < entries (A i)
      · rw [if_pos h0, if_pos h0, Trace.sent_cons_sent, if_pos rfl, Trace.got_cons_got, if_pos rfl]
        have : Trace.got i (if 1 < m + 1 then [(2 * 1, Ev.sent (rightOf (rightOf i)) (A i))] else []) = [] := by split_ifs <;> rfl
        rw [this]
        exact List.Forall₂.cons ⟨Nat.zero_lt_one, rfl⟩ ih
      · rw [if_neg h0, if_neg h0]
        exact ih
    · rw [events_sent_other A i hj, events_got_other A j (fun e => hj (by rw [← e, right_left]))]
      split_ifs
      · rw [Trace.sent_cons_sent, if_neg hj]; exact .nil
      · exact .nil

/-! ## Reduction and distribution -/

theorem accumulate_all {m : ℕ} (x : Fin (n + 1) → Rows K m) (L : ℕ) (hx : ∀ r, (x r).length = L) :
    ∀ (l : List (Fin (n + 1))) (a : Rows K m), a.length = L →
      ∃ s, l.foldl (fun s r => accumulate s (x r)) (some a) = some s ∧ s.length = L ∧
        ∀ (i : ℕ) (k : Fin m), (s.getD i 0) k = (a.getD i 0) k + (l.map fun r => ((x r).getD i 0) k).sum
  | [], a, ha => ⟨a, rfl, ha, fun i k => by simp⟩
  | r :: l, a, ha => by
    have hlen : (x r).length = a.length := by rw [hx, ha]
    obtain ⟨s, h1, h2, h3⟩ := accumulate_all x L hx l (List.zipWith (· + ·) a (x r)) (by rw [List.length_zipWith, hlen, Nat.min_self, ha])
    refine ⟨s, ?_, h2, fun i k => ?_⟩
    · rw [List.foldl_cons]
      unfold accumulate at h1 ⊢
      rw [Option.bind_some, if_pos hlen]
      exact h1
    · rw [h3, List.map_cons, List.sum_cons, ← add_assoc]
      congr 1
      by_cases hi : i < a.length
      · rw [List.getD_eq_getElem _ _ (by rw [List.length_zipWith]; omega), List.getElem_zipWith, List.getD_eq_getElem _ _ hi,
          List.getD_eq_getElem _ _ (by omega)]
        rfl
      · rw [List.getD_eq_default _ _ (by rw [List.length_zipWith]; omega), List.getD_eq_default _ _ (by omega), List.getD_eq_default _ _ (by omega)]
        simp

/-- The program of the primary rank after the reduction. -/
def afterSum {m : ℕ} (offsets : ℕ → ℕ) (s : Option (Rows K m)) : Prog (Fin (n + 1)) (Rows K m) (Rows K m) :=
  s.elim (.fail .assert) fun total =>
    .ensure .assert (offsets 1 ≤ total.length) (distribute offsets total (total.take (offsets 1)) (secondaries n))

/-- The program of a secondary rank after the reduction. -/
def afterSend {m : ℕ} (result : Rows K m) : Prog (Fin (n + 1)) (Rows K m) (Rows K m) :=
  if 0 < entries result then .recv 0 fun x => .ensure .assert (x.length = result.length) (.ret x) else .ret result

theorem no_entries {m : ℕ} {x y : Rows K m} (hl : x.length = y.length) (h : ¬ 0 < x.length * m) : x = y := by
  rcases Nat.mul_eq_zero.1 (Nat.eq_zero_of_not_pos h) with h | h
  · have hy : y.length = 0 := hl ▸ h
    rw [List.length_eq_zero_iff.1 h, List.length_eq_zero_iff.1 hy]
  · subst h
    exact List.ext_getElem hl fun i _ _ => Subsingleton.elim _ _

/-- Reduction and distribution: every rank gets its rows of the sum of the products. -/
theorem blockwise_complete {m : ℕ} {c : Fin (n + 1) → ℕ} {offsets : ℕ → ℕ} {len : Fin (n + 1) → ℕ} (h : Cuts offsets len)
    (A : (r : Fin (n + 1)) → Rows K (c r)) (hA : ∀ r, (A r).length = offsets (n + 1)) (B : (r : Fin (n + 1)) → Matrix (Fin (c r)) (Fin m) K)
    (result : Fin (n + 1) → Rows K m) (hres : ∀ r, (result r).length = len r) (part : Fin (n + 1) → Rows K m) (hpart : ∀ r, (part r).length = len r)
    (hsum : ∀ (i : ℕ) (k : Fin m), ((stack part).getD i 0) k = ∑ r, ((mul (A r) (B r)).getD i 0) k) :
    RNet.AlwaysCompletes (fun r => blockwise offsets r (A r) (B r) (result r)) part := by
  obtain ⟨total, hfold, hlen, htotal⟩ := accumulate_all (fun r => mul (A r) (B r)) (offsets (n + 1)) (fun r => by rw [length_mul, hA]) (secondaries n)
    (mul (A 0) (B 0)) (by rw [length_mul, hA])
  have hT : total = stack part := by
    refine List.ext_getElem (by rw [hlen, stack_length h _ hpart]) fun i h1 h2 => ?_
    funext k
    rw [← List.getD_eq_getElem _ 0 h1, ← List.getD_eq_getElem _ 0 h2, htotal, hsum, Fin.sum_univ_succ]
    unfold secondaries
    rw [List.map_map, Fin.sum_univ_def]
    rfl
  subst hT
  obtain ⟨k, hk⟩ := star_gather (c := (0 : Fin (n + 1))) (fun s _ x => accumulate s x) (afterSum offsets) (fun r => mul (A r) (B r)) (fun r => afterSend (result r))
    (secondaries n) (secondaries_nodup n) (zero_notMem_secondaries n) (some (mul (A 0) (B 0))) (fun r => blockwise offsets r (A r) (B r) (result r)) rfl (by
      intro r hr
      simp only [blockwise, if_neg ((mem_secondaries r).1 hr)]
      rfl)
  rw [hfold] at hk
  have h0 : offsets 1 = len 0 := by
    have := h.succ 0
    simpa [h.zero] using this
  have hmine : (stack part).take (offsets 1) = part 0 := by
    have := stack_slice h part hpart 0
    rwa [Fin.val_zero, h.zero, List.drop_zero, ← h0] at this
  have hsum' : afterSum (n := n) offsets (some (stack part)) = distribute offsets (stack part) (part 0) (secondaries n) := by
    have : offsets 1 ≤ (stack part).length := by
      have := h.le 0
      rw [Fin.val_zero, h.zero] at this
      rw [stack_length h part hpart]
      omega
    simp only [afterSum, Option.elim_some, Prog.ensure, if_pos this, hmine]
  rw [hsum'] at hk
  obtain ⟨k', hk'⟩ := star_loop (c := (0 : Fin (n + 1))) (fun (_ : Unit) _ => ()) (fun l _ => distribute offsets (stack part) (part 0) l)
    (fun r => afterSend (result r)) (fun r _ => .ret (part r)) (by
      intro r l _
      have hr := h.succ r
      have hle := h.le r
      simp only [distribute]
      rw [show offsets (↑r + 1) - offsets ↑r = len r by omega, stack_slice h part hpart r]
      have h1 : offsets ↑r + len r ≤ (stack part).length := by rw [stack_length h part hpart]; exact hle
      simp only [Prog.ensure, if_pos h1]
      unfold afterSend entries
      rw [hres]
      by_cases he : 0 < len r * m
      · rw [if_pos he, if_pos he]
        refine .fwd ?_
        simp only [Prog.ensure, hpart, if_true]
        exact .refl _ _
      · rw [if_neg he, if_neg he, no_entries (x := result r) (y := part r) (by rw [hres, hpart]) (by rwa [hres])]
        exact .refl _ _)
    (secondaries n) (secondaries_nodup n) (zero_notMem_secondaries n) () (fun i => if i = 0 then distribute offsets (stack part) (part 0) (secondaries n) else
      if i ∈ secondaries n then afterSend (result i) else blockwise offsets i (A i) (B i) (result i)) (by simp only [if_true]) (by
      intro r hr
      simp only [if_neg ((mem_secondaries r).1 hr), if_pos hr])
  refine RNet.alwaysCompletes_of_steps (hk.trans hk') fun r => ?_
  by_cases hr : r = 0
  · subst hr
    simp only [if_true, distribute]
  · simp only [hr, if_false, if_pos ((mem_secondaries r).2 hr)]

end Verif.MatOps
