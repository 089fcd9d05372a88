import Mathlib.Data.List.Basic
import Mathlib.Order.Basic
import Mathlib.Tactic.Ring

/-!
# Indices of an intersection of sorted ranges

Model of `set_intersection_indices` (`/repo/src/utils/algorithm.hpp:32-46`).
-/

set_option autoImplicit false

namespace Verif.Dist

/-- The loop, algorithm.hpp:35-45: `k` is the position of the head of the first range in the whole range. Every iteration removes an element, hence
`fuel` = sum of lengths iterations suffice. -/
def intersectionLoop : ℕ → ℕ → List ℕ → List ℕ → List ℕ
  | fuel + 1, k, a :: as, b :: bs =>
    if a < b then intersectionLoop fuel (k + 1) as (b :: bs)
    else if ¬ b < a then k :: intersectionLoop fuel (k + 1) as bs
    else intersectionLoop fuel k (a :: as) bs
  | _, _, _, _ => []

/-- `set_intersection_indices` with the begin of the first range as reference. -/
def intersectionIndices (as bs : List ℕ) : List ℕ := intersectionLoop (as.length + bs.length) 0 as bs

theorem intersectionLoop_sound (f : ℕ) : ∀ {k j : ℕ} {as bs : List ℕ}, j ∈ intersectionLoop f k as bs →
    k ≤ j ∧ ∃ a, as[j - k]? = some a ∧ a ∈ bs := by
  induction f with
  | zero => intro k j as bs h; simp [intersectionLoop] at h
  | succ f ih =>
    intro k j as bs h
    cases as with
    | nil => simp [intersectionLoop] at h
    | cons a as =>
      cases bs with
      | nil => simp [intersectionLoop] at h
      | cons b bs =>
        unfold intersectionLoop at h
        by_cases h1 : a < b
        · rw [if_pos h1] at h
          obtain ⟨hk, x, hx, hb⟩ := ih h
          refine ⟨by omega, x, ?_, hb⟩
          rw [show j - k = (j - (k + 1)) + 1 by omega, List.getElem?_cons_succ]
          exact hx
        · rw [if_neg h1] at h
          by_cases h2 : b < a
          · rw [if_neg (by simpa using h2)] at h
            obtain ⟨hk, x, hx, hb⟩ := ih h
            exact ⟨hk, x, hx, List.mem_cons_of_mem _ hb⟩
          · rw [if_pos h2, List.mem_cons] at h
            rcases h with rfl | h
            · exact ⟨le_refl _, a, by simp, by have : a = b := by omega
                                               simp [this]⟩
            · obtain ⟨hk, x, hx, hb⟩ := ih h
              refine ⟨by omega, x, ?_, List.mem_cons_of_mem _ hb⟩
              rw [show j - k = (j - (k + 1)) + 1 by omega, List.getElem?_cons_succ]
              exact hx

theorem intersectionLoop_complete (f : ℕ) : ∀ {k i a : ℕ} {as bs : List ℕ}, as.length + bs.length ≤ f →
    as.Pairwise (· < ·) → bs.Pairwise (· < ·) → as[i]? = some a → a ∈ bs → k + i ∈ intersectionLoop f k as bs := by
  induction f with
  | zero =>
    intro k i a as bs hf _ _ ha _
    have : as = [] := List.length_eq_zero_iff.1 (by omega)
    subst this
    simp at ha
  | succ f ih =>
    intro k i a as bs hf hs ht ha hb
    cases as with
    | nil => simp at ha
    | cons x as =>
      cases bs with
      | nil => simp at hb
      | cons y bs =>
        rw [List.pairwise_cons] at hs ht
        simp only [List.length_cons] at hf
        unfold intersectionLoop
        by_cases h1 : x < y
        · rw [if_pos h1]
          cases i with
          | zero =>
            simp only [List.getElem?_cons_zero, Option.some.injEq] at ha
            subst ha
            rcases List.mem_cons.1 hb with rfl | hb
            · omega
            · have := ht.1 _ hb; omega
          | succ i =>
            rw [show k + (i + 1) = k + 1 + i by ring]
            exact ih (by simp only [List.length_cons]; omega) hs.2 (List.pairwise_cons.2 ht) (by simpa using ha) hb
        · rw [if_neg h1]
          by_cases h2 : y < x
          · rw [if_neg (by simpa using h2)]
            refine ih (by simp only [List.length_cons]; omega) (List.pairwise_cons.2 hs) ht.2 ha ?_
            rcases List.mem_cons.1 hb with rfl | hb
            · exfalso
              have hm : a ∈ x :: as := List.mem_of_getElem? ha
              rcases List.mem_cons.1 hm with rfl | hm
              · omega
              · have := hs.1 _ hm; omega
            · exact hb
          · rw [if_pos h2]
            have hxy : x = y := by omega
            cases i with
            | zero => simp
            | succ i =>
              rw [show k + (i + 1) = k + 1 + i by ring]
              refine List.mem_cons_of_mem _ (ih (by omega) hs.2 ht.2 (by simpa using ha) ?_)
              rcases List.mem_cons.1 hb with rfl | hb
              · exfalso
                have hm : a ∈ as := List.mem_of_getElem? (by simpa using ha)
                have := hs.1 _ hm
                omega
              · exact hb

/-- Only indices of elements of both ranges are found. -/
theorem intersection_sound {as bs : List ℕ} {i : ℕ} (h : i ∈ intersectionIndices as bs) : ∃ a, as[i]? = some a ∧ a ∈ bs := by
  obtain ⟨-, a, ha, hb⟩ := intersectionLoop_sound _ h
  exact ⟨a, by simpa using ha, hb⟩

/-- All are found if both ranges are strictly sorted. -/
theorem intersection_complete {as bs : List ℕ} (hs : as.Pairwise (· < ·)) (ht : bs.Pairwise (· < ·)) {i a : ℕ} (ha : as[i]? = some a)
    (hb : a ∈ bs) : i ∈ intersectionIndices as bs := by
  have := intersectionLoop_complete _ (k := 0) (le_refl (as.length + bs.length)) hs ht ha hb
  rwa [Nat.zero_add] at this

/-- For sorted ranges the indices are in ascending order, each once. -/
theorem intersectionLoop_sorted (f : ℕ) : ∀ {k : ℕ} {as bs : List ℕ},
    (intersectionLoop f k as bs).Pairwise (· < ·) ∧ ∀ j ∈ intersectionLoop f k as bs, k ≤ j := by
  induction f with
  | zero => intro k as bs; simp [intersectionLoop]
  | succ f ih =>
    intro k as bs
    refine ⟨?_, fun j hj => (intersectionLoop_sound _ hj).1⟩
    cases as with
    | nil => simp [intersectionLoop]
    | cons a as =>
      cases bs with
      | nil => simp [intersectionLoop]
      | cons b bs =>
        unfold intersectionLoop
        split
        · exact ih.1
        · split
          · refine List.pairwise_cons.2 ⟨fun j hj => ?_, ih.1⟩
            have := ih.2 j hj
            omega
          · exact ih.1

/-- Hence: exactly the positions of the common elements, in ascending order. -/
theorem intersection_eq {as bs : List ℕ} (hs : as.Pairwise (· < ·)) (ht : bs.Pairwise (· < ·)) :
    intersectionIndices as bs = (List.range as.length).filter fun i => decide (∃ a ∈ as[i]?, a ∈ bs) := by
  refine List.Perm.eq_of_pairwise (le := (· < ·)) (fun a b _ _ h1 h2 => by omega) (intersectionLoop_sorted _).1
    (List.Pairwise.filter _ List.pairwise_lt_range) ?_
  refine (List.perm_ext_iff_of_nodup ((intersectionLoop_sorted _).1.imp fun h => Nat.ne_of_lt h)
    (List.nodup_range.filter _)).2 fun i => ?_
  rw [List.mem_filter, List.mem_range, decide_eq_true_iff]
  constructor
  · intro h
    obtain ⟨a, ha, hb⟩ := intersection_sound h
    exact ⟨(List.getElem?_eq_some_iff.1 ha).1, a, ha, hb⟩
  · rintro ⟨-, a, ha, hb⟩
    exact intersection_complete hs ht ha hb

example : intersectionIndices [1, 3, 4, 8, 9] [0, 3, 8, 10] = [1, 3] := by decide

end Verif.Dist
