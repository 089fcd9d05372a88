import Verif.Net.Network
import Verif.Net.Ordered

/-!
# Participants that never finish
-/

set_option autoImplicit false

namespace Verif.Waits

variable {ι M α β : Type}

/-- Whatever the program receives, all it sends is of a certain kind. -/
def Sends (ok : ι → M → Prop) : Prog ι M α → Prop
  | .ret _ => True
  | .send d m k => ok d m ∧ Sends ok k
  | .recv _ k => ∀ m, Sends ok (k m)
  | .fail _ => True

/-- The program does not return if all it receives is of a certain kind. -/
def Never (ok : ι → M → Prop) : Prog ι M α → Prop
  | .ret _ => False
  | .send _ _ k => Never ok k
  | .recv s k => ∀ m, ok s m → Never ok (k m)
  | .fail _ => True

theorem Sends.bind {ok : ι → M → Prop} {p : Prog ι M α} {f : α → Prog ι M β} (h : Sends ok p) (hf : ∀ a, Sends ok (f a)) : Sends ok (p.bind f) := by
  induction p with
  | ret a => exact hf a
  | send d m k ih => exact ⟨h.1, ih h.2⟩
  | recv s k ih => exact fun m => ih m (h m)
  | fail e => trivial

theorem Never.bind {ok : ι → M → Prop} {p : Prog ι M α} {f : α → Prog ι M β} (h : Never ok p) : Never ok (p.bind f) := by
  induction p with
  | ret a => exact h.elim
  | send d m k ih => exact ih h
  | recv s k ih => exact fun m hm => ih m (h m hm)
  | fail e => trivial

theorem Never.bind_right {ok : ι → M → Prop} (p : Prog ι M α) {f : α → Prog ι M β} (hf : ∀ a, Never ok (f a)) : Never ok (p.bind f) := by
  induction p with
  | ret a => exact hf a
  | send d m k ih => exact ih
  | recv s k ih => exact fun m _ => ih m
  | fail e => trivial

open Ordered (collect)

theorem Sends.collect {ok : ι → M → Prop} {f : α → Prog ι M β} {l : List α} (h : ∀ a ∈ l, Sends ok (f a)) : Sends ok (collect f l) := by
  induction l with
  | nil => trivial
  | cons a l ih => exact (h a (by simp)).bind fun _ => (ih fun b hb => h b (by simp [hb])).bind fun _ => trivial

theorem Never.collect {ok : ι → M → Prop} {f : α → Prog ι M β} {l : List α} {a : α} (ha : a ∈ l) (h : Never ok (f a)) : Never ok (collect f l) := by
  induction l with
  | nil => cases ha
  | cons b l ih =>
    rcases List.mem_cons.1 ha with rfl | ha
    · exact h.bind
    · exact Never.bind_right _ fun _ => (ih ha).bind

theorem Sends.ensure {ok : ι → M → Prop} {e : Err} {c : Prop} [Decidable c] {p : Prog ι M α} (h : c → Sends ok p) : Sends ok (.ensure e c p) := by
  unfold Prog.ensure
  split
  · exact h ‹_›
  · trivial

theorem Never.ensure {ok : ι → M → Prop} {e : Err} {c : Prop} [Decidable c] {p : Prog ι M α} (h : c → Never ok p) : Never ok (.ensure e c p) := by
  unfold Prog.ensure
  split
  · exact h ‹_›
  · trivial

variable [DecidableEq ι]

open Function (update)

/-- A participant that needs what no other participant sends does not finish. -/
theorem never_returns {ok : ι → ι → M → Prop} {p : ι} {k : ℕ} {n n' : Net ι M α} (h : Net.Steps k n n') (hc : ∀ i j, ∀ m ∈ n.chan (i, j), ok i j m)
    (hs : ∀ i, Sends (ok i) (n.procs i)) (hp : Never (fun i m => ok i p m) (n.procs p)) (a : α) : n'.procs p ≠ .ret a := by
  induction h with
  | refl n =>
    intro he
    rw [he] at hp
    exact hp
  | @head k n n1 n2 hstep _ ih =>
    obtain ⟨i, hi⟩ := hstep
    have hsi := hs i
    unfold Net.stepAt at hi
    cases hpi : n.procs i with
    | ret b => rw [hpi] at hi; cases hi
    | fail e => rw [hpi] at hi; cases hi
    | send d m q =>
      rw [hpi] at hi hsi
      cases hi
      refine ih ?_ ?_ ?_
      · intro x y m' hm'
        by_cases hxy : (x, y) = (i, d)
        · cases hxy
          simp only [Function.update_self, List.mem_append, List.mem_singleton] at hm'
          rcases hm' with hm' | rfl
          · exact hc _ _ _ hm'
          · exact hsi.1
        · simp only [Function.update_of_ne hxy] at hm'
          exact hc _ _ _ hm'
      · intro x
        by_cases hx : x = i
        · subst hx
          simp only [Function.update_self]
          exact hsi.2
        · simp only [Function.update_of_ne hx]
          exact hs x
      · by_cases hx : p = i
        · subst hx
          rw [hpi] at hp
          simp only [Function.update_self]
          exact hp
        · simp only [Function.update_of_ne hx]
          exact hp
    | recv s q =>
      rw [hpi] at hi hsi
      simp only at hi
      cases hch : n.chan (s, i) with
      | nil => rw [hch] at hi; cases hi
      | cons m rest =>
        rw [hch] at hi
        cases hi
        have hm : ok s i m := hc s i m (by rw [hch]; simp)
        refine ih ?_ ?_ ?_
        · intro x y m' hm'
          by_cases hxy : (x, y) = (s, i)
          · cases hxy
            simp only [Function.update_self] at hm'
            exact hc _ _ _ (by rw [hch]; exact List.mem_cons_of_mem _ hm')
          · simp only [Function.update_of_ne hxy] at hm'
            exact hc _ _ _ hm'
        · intro x
          by_cases hx : x = i
          · subst hx
            simp only [Function.update_self]
            exact hsi m
          · simp only [Function.update_of_ne hx]
            exact hs x
        · by_cases hx : p = i
          · subst hx
            rw [hpi] at hp
            simp only [Function.update_self]
            exact hp m hm
          · simp only [Function.update_of_ne hx]
            exact hp

end Verif.Waits
