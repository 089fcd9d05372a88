import Mathlib.Data.List.Basic
import Mathlib.Data.List.OfFn
import Mathlib.Data.Rat.Defs
import Verif.Net.Rendezvous

/-!
# Flat buffers

Messages and buffers that consist of blocks of the same size.
-/

set_option autoImplicit false

namespace Verif.Com

/-- Ranges of integers or floating point numbers, as sent by `sendRange` and received by `receiveRange` (Communication.hpp): a received range has the size of the sent one. -/
inductive Msg where
  | ints (l : List ℤ)
  | reals (l : List ℚ)

variable {β : Type}

/-- Entry `c` of block `j`. -/
theorem flatten_get (l : List (List β)) (k : ℕ) (h : ∀ x ∈ l, x.length = k) (j c : ℕ) (hc : c < k) :
    l.flatten[k * j + c]? = (l[j]?).bind (·[c]?) := by
  induction l generalizing j with
  | nil => simp
  | cons x l ih =>
    have hx := h x (by simp)
    cases j with
    | zero =>
      simp only [Nat.mul_zero, Nat.zero_add, List.flatten_cons, List.getElem?_cons_zero, Option.bind_some]
      rw [List.getElem?_append_left (by omega)]
    | succ j =>
      rw [List.flatten_cons, List.getElem?_append_right (by rw [hx, Nat.mul_succ]; omega), List.getElem?_cons_succ, ← ih (fun y hy => h y (by simp [hy])) j]
      congr 1
      rw [hx, Nat.mul_succ]; omega

theorem flatten_length (l : List (List β)) (k : ℕ) (h : ∀ x ∈ l, x.length = k) : l.flatten.length = l.length * k := by
  induction l with
  | nil => simp
  | cons x l ih =>
    rw [List.flatten_cons, List.length_append, ih (fun y hy => h y (by simp [hy])), h x (by simp), List.length_cons, Nat.add_mul, Nat.one_mul, Nat.add_comm]

/-- Reads `n` blocks of size `k` starting at `off`. -/
def blocksAt (dflt : β) (buf : List β) (off k n : ℕ) : List (List β) :=
  (List.range n).map fun j => (List.range k).map fun c => buf.getD (off + k * j + c) dflt

theorem blocksAt_eq (dflt : β) (pre post : List β) (l : List (List β)) (k : ℕ) (h : ∀ x ∈ l, x.length = k) :
    blocksAt dflt (pre ++ (l.flatten ++ post)) pre.length k l.length = l := by
  unfold blocksAt
  refine List.ext_getElem? fun j => ?_
  rw [List.getElem?_map]
  by_cases hj : j < l.length
  · rw [List.getElem?_range hj, Option.map_some, List.getElem?_eq_getElem hj]
    congr 1
    have hx := h _ (List.getElem_mem hj)
    refine List.ext_getElem? fun c => ?_
    rw [List.getElem?_map]
    by_cases hc : c < k
    · rw [List.getElem?_range hc, Option.map_some, List.getD_eq_getElem?_getD, Nat.add_assoc, List.getElem?_append_right (by omega), Nat.add_sub_cancel_left,
        List.getElem?_append_left, flatten_get l k h j c hc, List.getElem?_eq_getElem hj, Option.bind_some, List.getElem?_eq_getElem (by omega), Option.getD_some]
      rw [flatten_length l k h]
      calc k * j + c < k * j + k := by omega
        _ = (j + 1) * k := by rw [Nat.add_mul, Nat.one_mul, Nat.mul_comm]
        _ ≤ l.length * k := Nat.mul_le_mul_right _ hj
    · rw [List.getElem?_eq_none (by simp; omega), List.getElem?_eq_none (by omega), Option.map_none]
  · rw [List.getElem?_eq_none (by simp; omega), List.getElem?_eq_none (by omega), Option.map_none]

end Verif.Com
