import Mathlib.Data.List.Sort
import Mathlib.Data.List.Lex
import Mathlib.Order.Bounds.Basic
import Mathlib.Order.MinMax
import Mathlib.Data.List.Induction

/-!
# Edit distance and name suggestions

Model of `editDistance` (`/repo/src/utils/String.cpp`:79-101), `computeMatches` (`/repo/src/utils/String.hpp`:79-106)
and of the hints built from them (`/repo/src/precice/impl/ParticipantState.cpp`:453-498,
`/repo/src/xml/ConfigParser.cpp`:269-277, `/repo/src/xml/XMLTag.cpp`:201-208). A string is a list of characters.
-/

set_option autoImplicit false

namespace Verif
namespace Edit

variable {α : Type}

/-! ## Model -/

/-- writing one entry of the matrix `distances` -/
def setEntry (m : ℕ → ℕ → ℕ) (i j v : ℕ) : ℕ → ℕ → ℕ :=
  fun a b => if a = i ∧ b = j then v else m a b

/-- String.cpp:85-89: the first entry, the first column and the first row. -/
def border (len1 len2 : ℕ) (m : ℕ → ℕ → ℕ) : ℕ → ℕ → ℕ :=
  let m := setEntry m 0 0 0
  let m := (List.range' 1 len1).foldl (fun m i => setEntry m i 0 i) m
  (List.range' 1 len2).foldl (fun m i => setEntry m 0 i i) m

/-- String.cpp:93-96: the body of the inner loop -/
def cell [DecidableEq α] (s t : List α) (i : ℕ) (m : ℕ → ℕ → ℕ) (j : ℕ) : ℕ → ℕ → ℕ :=
  let deletion := m (i - 1) j + 1
  let insertion := m i (j - 1) + 1
  let substitution := m (i - 1) (j - 1) + (if s[i - 1]? = t[j - 1]? then 0 else 1)
  setEntry m i j (min (min deletion insertion) substitution)

/-- String.cpp:92-97: one pass of the outer loop -/
def row [DecidableEq α] (s t : List α) (m : ℕ → ℕ → ℕ) (i : ℕ) : ℕ → ℕ → ℕ :=
  (List.range' 1 t.length).foldl (cell s t i) m

/-- `editDistance`, String.cpp:79-101. `garbage` is the content of the uninitialised matrix. -/
def editDistance [DecidableEq α] (garbage : ℕ → ℕ → ℕ) (s t : List α) : ℕ :=
  ((List.range' 1 s.length).foldl (row s t) (border s.length t.length garbage)) s.length t.length

/-! ## Specification -/

/-- One edit: inserting, deleting or replacing one character anywhere. -/
inductive Step : List α → List α → Prop
  | insert (a b : List α) (c : α) : Step (a ++ b) (a ++ c :: b)
  | delete (a b : List α) (c : α) : Step (a ++ c :: b) (a ++ b)
  | replace (a b : List α) (c d : α) : Step (a ++ c :: b) (a ++ d :: b)

/-- `n` edits, one after the other -/
inductive Steps : ℕ → List α → List α → Prop
  | none (s : List α) : Steps 0 s s
  | more {n : ℕ} {s t u : List α} : Steps n s t → Step t u → Steps (n + 1) s u

/-! ## The matrix -/

/-- what the matrix is meant to contain -/
def lev [DecidableEq α] (s t : List α) : ℕ → ℕ → ℕ
  | 0, j => j
  | i + 1, 0 => i + 1
  | i + 1, j + 1 => min (min (lev s t i (j + 1) + 1) (lev s t (i + 1) j + 1))
      (lev s t i j + if s[i]? = t[j]? then 0 else 1)

theorem lev_zero [DecidableEq α] (s t : List α) (i : ℕ) : lev s t i 0 = i := by
  cases i <;> rw [lev]

theorem setEntry_eq (m : ℕ → ℕ → ℕ) (i j v : ℕ) : setEntry m i j v i j = v := by simp [setEntry]

theorem setEntry_ne {m : ℕ → ℕ → ℕ} {i j v a b : ℕ} (h : ¬(a = i ∧ b = j)) :
    setEntry m i j v a b = m a b := if_neg h

theorem column_spec (n : ℕ) (m : ℕ → ℕ → ℕ) (a b : ℕ) :
    (List.range' 1 n).foldl (fun m i => setEntry m i 0 i) m a b =
      if b = 0 ∧ 1 ≤ a ∧ a ≤ n then a else m a b := by
  induction n with
  | zero => simp only [List.range'_zero, List.foldl_nil]; rw [if_neg (by omega)]
  | succ n ih =>
    rw [List.range'_concat, List.foldl_append]
    simp only [List.foldl_cons, List.foldl_nil]
    by_cases h : a = 1 + 1 * n ∧ b = 0
    · rw [h.1, h.2, setEntry_eq, if_pos (by omega)]
    · rw [setEntry_ne h, ih]
      by_cases h' : b = 0 ∧ 1 ≤ a ∧ a ≤ n
      · rw [if_pos h', if_pos (by omega)]
      · rw [if_neg h', if_neg (by omega)]

theorem firstRow_spec (n : ℕ) (m : ℕ → ℕ → ℕ) (a b : ℕ) :
    (List.range' 1 n).foldl (fun m i => setEntry m 0 i i) m a b =
      if a = 0 ∧ 1 ≤ b ∧ b ≤ n then b else m a b := by
  induction n with
  | zero => simp only [List.range'_zero, List.foldl_nil]; rw [if_neg (by omega)]
  | succ n ih =>
    rw [List.range'_concat, List.foldl_append]
    simp only [List.foldl_cons, List.foldl_nil]
    by_cases h : a = 0 ∧ b = 1 + 1 * n
    · rw [h.1, h.2, setEntry_eq, if_pos (by omega)]
    · rw [setEntry_ne h, ih]
      by_cases h' : a = 0 ∧ 1 ≤ b ∧ b ≤ n
      · rw [if_pos h', if_pos (by omega)]
      · rw [if_neg h', if_neg (by omega)]

theorem border_spec (len1 len2 : ℕ) (m : ℕ → ℕ → ℕ) :
    (∀ j, j ≤ len2 → border len1 len2 m 0 j = j) ∧ ∀ i, i ≤ len1 → border len1 len2 m i 0 = i := by
  refine ⟨fun j hj => ?_, fun i hi => ?_⟩
  · simp only [border]
    rw [firstRow_spec]
    rcases Nat.eq_zero_or_pos j with rfl | h
    · rw [if_neg (by omega), column_spec, if_neg (by omega), setEntry_eq]
    · rw [if_pos ⟨rfl, h, hj⟩]
  · simp only [border]
    rw [firstRow_spec, if_neg (by omega), column_spec]
    rcases Nat.eq_zero_or_pos i with rfl | h
    · rw [if_neg (by omega), setEntry_eq]
    · rw [if_pos ⟨rfl, h, hi⟩]

/-- the part of the matrix which is filled after row `i` -/
def Filled [DecidableEq α] (s t : List α) (i : ℕ) (m : ℕ → ℕ → ℕ) : Prop :=
  (∀ a b, a ≤ i → b ≤ t.length → m a b = lev s t a b) ∧ ∀ a, a ≤ s.length → m a 0 = a

theorem row_filled [DecidableEq α] {s t : List α} {i : ℕ} {m : ℕ → ℕ → ℕ} (h : Filled s t i m)
    (hi : i + 1 ≤ s.length) : Filled s t (i + 1) (row s t m (i + 1)) := by
  have key : ∀ n, n ≤ t.length →
      (∀ a b, a ≤ i → b ≤ t.length → (List.range' 1 n).foldl (cell s t (i + 1)) m a b = lev s t a b) ∧
      (∀ a, a ≤ s.length → (List.range' 1 n).foldl (cell s t (i + 1)) m a 0 = a) ∧
      ∀ b, b ≤ n → (List.range' 1 n).foldl (cell s t (i + 1)) m (i + 1) b = lev s t (i + 1) b := by
    intro n hn
    induction n with
    | zero =>
      refine ⟨h.1, h.2, fun b hb => ?_⟩
      obtain rfl : b = 0 := by omega
      exact (h.2 _ hi).trans (lev_zero s t _).symm
    | succ n ih =>
      obtain ⟨h1, h2, h3⟩ := ih (by omega)
      rw [List.range'_concat, List.foldl_append]
      simp only [List.foldl_cons, List.foldl_nil]
      rw [show 1 + 1 * n = n + 1 by omega]
      generalize (List.range' 1 n).foldl (cell s t (i + 1)) m = m' at h1 h2 h3
      refine ⟨fun a b ha hb => ?_, fun a ha => ?_, fun b hb => ?_⟩
      · rw [cell, setEntry_ne (by omega)]; exact h1 a b ha hb
      · rw [cell, setEntry_ne (by omega)]; exact h2 a ha
      · rcases Nat.eq_or_lt_of_le hb with rfl | hb
        · simp only [cell, Nat.add_sub_cancel]
          rw [setEntry_eq, lev, h1 i (n + 1) le_rfl hn, h1 i n le_rfl (by omega), h3 n le_rfl]
        · rw [cell, setEntry_ne (by omega)]; exact h3 b (by omega)
  obtain ⟨h1, h2, h3⟩ := key t.length le_rfl
  refine ⟨fun a b ha hb => ?_, h2⟩
  rcases Nat.eq_or_lt_of_le ha with rfl | ha
  · exact h3 b hb
  · exact h1 a b (by omega) hb

theorem editDistance_eq_lev [DecidableEq α] (garbage : ℕ → ℕ → ℕ) (s t : List α) :
    editDistance garbage s t = lev s t s.length t.length := by
  have key : ∀ n, n ≤ s.length → Filled s t n ((List.range' 1 n).foldl (row s t) (border s.length t.length garbage)) := by
    intro n hn
    induction n with
    | zero =>
      obtain ⟨h1, h2⟩ := border_spec s.length t.length garbage
      refine ⟨fun a b ha hb => ?_, h2⟩
      obtain rfl : a = 0 := by omega
      exact (h1 b hb).trans (by rw [lev])
    | succ n ih =>
      rw [List.range'_concat, List.foldl_append]
      simp only [List.foldl_cons, List.foldl_nil]
      rw [show 1 + 1 * n = n + 1 by omega]
      exact row_filled (ih (by omega)) hn
  exact (key s.length le_rfl).1 _ _ le_rfl le_rfl

/-! ## Alignments -/

/-- A way to obtain the second string from the first, from left to right, with its cost. -/
inductive Align [DecidableEq α] : List α → List α → ℕ → Prop
  | nil : Align [] [] 0
  | del {s t : List α} {n : ℕ} (x : α) : Align s t n → Align (s ++ [x]) t (n + 1)
  | ins {s t : List α} {n : ℕ} (y : α) : Align s t n → Align s (t ++ [y]) (n + 1)
  | sub {s t : List α} {n : ℕ} (x y : α) : Align s t n →
      Align (s ++ [x]) (t ++ [y]) (n + if x = y then 0 else 1)

theorem take_last {s : List α} {i : ℕ} (h : i < s.length) : s.take (i + 1) = s.take i ++ [s[i]] := by
  rw [List.take_add_one, List.getElem?_eq_getElem h]; rfl

theorem align_lev [DecidableEq α] (s t : List α) (i j : ℕ) (hi : i ≤ s.length) (hj : j ≤ t.length) :
    Align (s.take i) (t.take j) (lev s t i j) := by
  induction i generalizing j with
  | zero =>
    rw [lev]
    induction j with
    | zero => exact .nil
    | succ j ih => rw [take_last (by omega : j < t.length)]; exact .ins _ (ih (by omega))
  | succ i ihi =>
    rw [take_last (by omega : i < s.length)]
    induction j with
    | zero =>
      rw [lev]
      have := ihi 0 (by omega) (by omega)
      rw [lev_zero] at this
      exact .del _ this
    | succ j ihj =>
      have h1 := Align.del s[i] (ihi (j + 1) (by omega) hj)
      have h2 := Align.ins t[j] (ihj (by omega))
      have h3 := Align.sub s[i] t[j] (ihi j (by omega) (by omega))
      rw [← take_last (by omega : j < t.length)] at h2 h3
      rw [lev, List.getElem?_eq_getElem (by omega : i < s.length),
        List.getElem?_eq_getElem (by omega : j < t.length)]
      simp only [Option.some.injEq]
      rcases min_choice (min (lev s t i (j + 1) + 1) (lev s t (i + 1) j + 1))
        (lev s t i j + if s[i] = t[j] then 0 else 1) with h | h <;> rw [h]
      · rcases min_choice (lev s t i (j + 1) + 1) (lev s t (i + 1) j + 1) with h | h <;> rw [h]
        · exact h1
        · exact h2
      · exact h3

theorem take_snoc {s p : List α} {x : α} {i : ℕ} (hi : i ≤ s.length) (h : p ++ [x] = s.take i) :
    ∃ k, i = k + 1 ∧ p = s.take k ∧ s[k]? = some x := by
  have hl : p.length + 1 = i := by
    have := congrArg List.length h
    simp only [List.length_append, List.length_cons, List.length_nil, List.length_take] at this
    omega
  refine ⟨p.length, hl.symm, ?_, ?_⟩
  · have := congrArg (List.take p.length) h
    rw [List.take_left, List.take_take, min_eq_left (by omega)] at this
    exact this
  · have := congrArg (·[p.length]?) h
    simp only [List.getElem?_concat_length] at this
    rw [List.getElem?_take, if_pos (by omega)] at this
    exact this.symm

theorem lev_le [DecidableEq α] {s t p q : List α} {n : ℕ} (h : Align p q n) :
    ∀ i j, i ≤ s.length → j ≤ t.length → p = s.take i → q = t.take j → lev s t i j ≤ n := by
  induction h with
  | nil =>
    intro i j hi hj hp hq
    have h1 := congrArg List.length hp
    have h2 := congrArg List.length hq
    simp only [List.length_nil, List.length_take] at h1 h2
    obtain rfl : i = 0 := by omega
    obtain rfl : j = 0 := by omega
    rw [lev]
  | del x _ ih =>
    intro i j hi hj hp hq
    obtain ⟨k, rfl, hp, _⟩ := take_snoc hi hp
    have := ih k j (by omega) hj hp hq
    cases j with
    | zero => rw [lev_zero] at this ⊢; omega
    | succ j => rw [lev]; exact (min_le_left _ _).trans ((min_le_left _ _).trans (by omega))
  | ins y _ ih =>
    intro i j hi hj hp hq
    obtain ⟨k, rfl, hq, _⟩ := take_snoc hj hq
    have := ih i k hi (by omega) hp hq
    cases i with
    | zero => rw [lev] at this ⊢; omega
    | succ i => rw [lev]; exact (min_le_left _ _).trans ((min_le_right _ _).trans (by omega))
  | sub x y _ ih =>
    intro i j hi hj hp hq
    obtain ⟨k, rfl, hp, hx⟩ := take_snoc hi hp
    obtain ⟨l, rfl, hq, hy⟩ := take_snoc hj hq
    have := ih k l (by omega) (by omega) hp hq
    rw [lev, hx, hy]
    simp only [Option.some.injEq]
    exact (min_le_right _ _).trans (by omega)

/-! ## Alignments and edits -/

theorem Step.append {s t : List α} (h : Step s t) (u : List α) : Step (s ++ u) (t ++ u) := by
  cases h with
  | insert a b c => simpa using Step.insert a (b ++ u) c
  | delete a b c => simpa using Step.delete a (b ++ u) c
  | replace a b c d => simpa using Step.replace a (b ++ u) c d

theorem Steps.append {n : ℕ} {s t : List α} (h : Steps n s t) (u : List α) : Steps n (s ++ u) (t ++ u) := by
  induction h with
  | none s => exact .none _
  | more _ h ih => exact .more ih (h.append u)

theorem steps_of_align [DecidableEq α] {s t : List α} {n : ℕ} (h : Align s t n) : Steps n s t := by
  induction h with
  | nil => exact .none _
  | @del s t n x _ ih =>
    refine .more (ih.append [x]) ?_
    simpa using Step.delete t [] x
  | @ins s t n y _ ih =>
    refine .more ih ?_
    simpa using Step.insert t [] y
  | @sub s t n x y _ ih =>
    split
    · rename_i e; subst e; exact ih.append [x]
    · exact .more (ih.append [x]) (Step.replace t [] x y)

theorem append_eq_snoc {a b t : List α} {c y : α} (h : a ++ c :: b = t ++ [y]) :
    (b = [] ∧ a = t ∧ c = y) ∨ ∃ b', b = b' ++ [y] ∧ t = a ++ c :: b' := by
  rcases List.eq_nil_or_concat b with rfl | ⟨b', z, rfl⟩
  · have := List.append_inj' h rfl
    exact .inl ⟨rfl, this.1, by simpa using this.2⟩
  · rw [List.concat_eq_append, ← List.cons_append, ← List.append_assoc] at h
    have := List.append_inj' h rfl
    have hz : z = y := by simpa using this.2
    exact .inr ⟨b', by rw [hz, List.concat_eq_append], this.1.symm⟩

theorem append_eq_snoc' {a b t : List α} {y : α} (h : a ++ b = t ++ [y]) :
    (b = [] ∧ a = t ++ [y]) ∨ ∃ b', b = b' ++ [y] ∧ t = a ++ b' := by
  rcases List.eq_nil_or_concat b with rfl | ⟨b', z, rfl⟩
  · exact .inl ⟨rfl, by simpa using h⟩
  · rw [List.concat_eq_append, ← List.append_assoc] at h
    have := List.append_inj' h rfl
    have hz : z = y := by simpa using this.2
    exact .inr ⟨b', by rw [hz, List.concat_eq_append], this.1.symm⟩

theorem align_delete [DecidableEq α] {s t : List α} {n : ℕ} (h : Align s t n) :
    ∀ {a b : List α} {c : α}, t = a ++ c :: b → ∃ m, m ≤ n + 1 ∧ Align s (a ++ b) m := by
  induction h with
  | nil => intro a b c h; simp at h
  | del x _ ih =>
    intro a b c h
    obtain ⟨m, hm, h⟩ := ih h
    exact ⟨m + 1, by omega, .del x h⟩
  | @ins s t n y h0 ih =>
    intro a b c h
    rcases append_eq_snoc h.symm with ⟨rfl, rfl, rfl⟩ | ⟨b', rfl, h'⟩
    · exact ⟨n, by omega, by simpa using h0⟩
    · obtain ⟨m, hm, h⟩ := ih h'
      exact ⟨m + 1, by omega, by rw [← List.append_assoc]; exact .ins y h⟩
  | @sub s t n x y h0 ih =>
    intro a b c h
    rcases append_eq_snoc h.symm with ⟨rfl, rfl, rfl⟩ | ⟨b', rfl, h'⟩
    · exact ⟨n + 1, by omega, by simpa using Align.del x h0⟩
    · obtain ⟨m, hm, h⟩ := ih h'
      exact ⟨m + if x = y then 0 else 1, by omega, by rw [← List.append_assoc]; exact .sub x y h⟩

theorem align_insert [DecidableEq α] {s t : List α} {n : ℕ} (h : Align s t n) :
    ∀ {a b : List α} (c : α), t = a ++ b → ∃ m, m ≤ n + 1 ∧ Align s (a ++ c :: b) m := by
  induction h with
  | nil =>
    intro a b c h
    obtain ⟨rfl, rfl⟩ := List.append_eq_nil_iff.1 h.symm
    exact ⟨1, le_rfl, Align.ins c .nil⟩
  | del x _ ih =>
    intro a b c h
    obtain ⟨m, hm, h⟩ := ih c h
    exact ⟨m + 1, by omega, .del x h⟩
  | @ins s t n y h0 ih =>
    intro a b c h
    rcases append_eq_snoc' h.symm with ⟨rfl, rfl⟩ | ⟨b', rfl, h'⟩
    · exact ⟨_, le_rfl, .ins c (.ins y h0)⟩
    · obtain ⟨m, hm, h⟩ := ih c h'
      exact ⟨m + 1, by omega, by rw [← List.cons_append, ← List.append_assoc]; exact .ins y h⟩
  | @sub s t n x y h0 ih =>
    intro a b c h
    rcases append_eq_snoc' h.symm with ⟨rfl, rfl⟩ | ⟨b', rfl, h'⟩
    · exact ⟨_, le_rfl, .ins c (.sub x y h0)⟩
    · obtain ⟨m, hm, h⟩ := ih c h'
      exact ⟨m + if x = y then 0 else 1, by omega, by rw [← List.cons_append, ← List.append_assoc]; exact .sub x y h⟩

theorem align_replace [DecidableEq α] {s t : List α} {n : ℕ} (h : Align s t n) :
    ∀ {a b : List α} {c : α} (d : α), t = a ++ c :: b → ∃ m, m ≤ n + 1 ∧ Align s (a ++ d :: b) m := by
  induction h with
  | nil => intro a b c d h; simp at h
  | del x _ ih =>
    intro a b c d h
    obtain ⟨m, hm, h⟩ := ih d h
    exact ⟨m + 1, by omega, .del x h⟩
  | @ins s t n y h0 ih =>
    intro a b c d h
    rcases append_eq_snoc h.symm with ⟨rfl, rfl, rfl⟩ | ⟨b', rfl, h'⟩
    · exact ⟨n + 1, by omega, .ins d h0⟩
    · obtain ⟨m, hm, h⟩ := ih d h'
      exact ⟨m + 1, by omega, by rw [← List.cons_append, ← List.append_assoc]; exact .ins y h⟩
  | @sub s t n x y h0 ih =>
    intro a b c d h
    rcases append_eq_snoc h.symm with ⟨rfl, rfl, rfl⟩ | ⟨b', rfl, h'⟩
    · refine ⟨_, ?_, Align.sub x d h0⟩
      split <;> omega
    · obtain ⟨m, hm, h⟩ := ih d h'
      exact ⟨m + if x = y then 0 else 1, by omega, by rw [← List.cons_append, ← List.append_assoc]; exact .sub x y h⟩

theorem align_step [DecidableEq α] {s t u : List α} {n : ℕ} (h : Align s t n) (hs : Step t u) :
    ∃ m, m ≤ n + 1 ∧ Align s u m := by
  cases hs with
  | insert a b c => exact align_insert h c rfl
  | delete a b c => exact align_delete h rfl
  | replace a b c d => exact align_replace h d rfl

theorem align_refl [DecidableEq α] (s : List α) : Align s s 0 := by
  induction s using List.reverseRecOn with
  | nil => exact .nil
  | append_singleton s x ih => simpa using Align.sub x x ih

theorem align_of_steps [DecidableEq α] {s t : List α} {n : ℕ} (h : Steps n s t) :
    ∃ m, m ≤ n ∧ Align s t m := by
  induction h with
  | none s => exact ⟨0, le_rfl, align_refl s⟩
  | more _ h ih =>
    obtain ⟨m, hm, ha⟩ := ih
    obtain ⟨k, hk, ha⟩ := align_step ha h
    exact ⟨k, by omega, ha⟩

/-! ## Theorems -/

variable [DecidableEq α]

/-- The computed number is the smallest number of edits (insertions, deletions, replacements of one character anywhere) which
turns one string into the other, whatever the uninitialised matrix contains. -/
theorem C87_minimal (garbage : ℕ → ℕ → ℕ) (s t : List α) :
    IsLeast {n | Steps n s t} (editDistance garbage s t) := by
  rw [editDistance_eq_lev]
  refine ⟨?_, fun n hn => ?_⟩
  · have := align_lev s t s.length t.length le_rfl le_rfl
    rw [List.take_length, List.take_length] at this
    exact steps_of_align this
  · obtain ⟨m, hm, ha⟩ := align_of_steps hn
    exact (lev_le ha _ _ le_rfl le_rfl List.take_length.symm List.take_length.symm).trans hm

omit [DecidableEq α] in
theorem Steps.head {n : ℕ} {s t u : List α} (h : Step s t) (h' : Steps n t u) : Steps (n + 1) s u := by
  induction h' with
  | none _ => exact .more (.none _) h
  | more _ h2 ih => exact .more (ih h) h2

omit [DecidableEq α] in
theorem Step.symm {s t : List α} (h : Step s t) : Step t s := by
  cases h with
  | insert a b c => exact .delete a b c
  | delete a b c => exact .insert a b c
  | replace a b c d => exact .replace a b d c

omit [DecidableEq α] in
theorem Steps.symm {n : ℕ} {s t : List α} (h : Steps n s t) : Steps n t s := by
  induction h with
  | none s => exact .none s
  | more _ h ih => exact ih.head h.symm

omit [DecidableEq α] in
theorem Steps.trans {n m : ℕ} {s t u : List α} (h : Steps n s t) (h' : Steps m t u) : Steps (n + m) s u := by
  induction h' with
  | none _ => exact h
  | more _ h2 ih => exact .more (ih h) h2

/-- It is zero exactly for equal strings. -/
theorem C87_zero_iff (garbage : ℕ → ℕ → ℕ) (s t : List α) : editDistance garbage s t = 0 ↔ s = t := by
  constructor
  · intro h
    have := (C87_minimal garbage s t).1
    rw [h] at this
    cases (this : Steps 0 s t)
    rfl
  · rintro rfl
    exact Nat.le_zero.1 ((C87_minimal garbage s s).2 (Steps.none s))

/-- It is symmetric. -/
theorem C87_symm (garbage garbage' : ℕ → ℕ → ℕ) (s t : List α) :
    editDistance garbage s t = editDistance garbage' t s :=
  le_antisymm ((C87_minimal garbage s t).2 (C87_minimal garbage' t s).1.symm)
    ((C87_minimal garbage' t s).2 (C87_minimal garbage s t).1.symm)

/-- It satisfies the triangle inequality. -/
theorem C87_triangle (garbage : ℕ → ℕ → ℕ) (s t u : List α) :
    editDistance garbage s u ≤ editDistance garbage s t + editDistance garbage t u :=
  (C87_minimal garbage s u).2 ((C87_minimal garbage s t).1.trans (C87_minimal garbage t u).1)

example : editDistance (fun _ _ => 77) "Mesh-One".toList "MeshOne".toList = 1 ∧
    editDistance (fun _ _ => 77) "kitten".toList "sitting".toList = 3 := by decide +kernel

/-! ## Suggestions -/

section Hints
variable [LinearOrder α]

/-- `StringMatch::operator<`, String.hpp:84-91, on pairs of name and distance -/
def matchLess (x y : List α × ℕ) : Prop := if x.2 = y.2 then x.1 < y.1 else x.2 < y.2

/-- the order `std::sort` establishes: no later entry is less than an earlier one -/
def matchLe (x y : List α × ℕ) : Prop := ¬ matchLess y x

instance (x y : List α × ℕ) : Decidable (matchLess x y) := by unfold matchLess; infer_instance
instance : DecidableRel (matchLe (α := α)) := fun x y => by unfold matchLe; infer_instance

/-- `computeMatches`, String.hpp:94-106. `std::sort` is modelled by an insertion sort; entries which compare equal are equal. -/
def computeMatches (garbage : ℕ → ℕ → ℕ) (given : List α) (expected : List (List α)) : List (List α × ℕ) :=
  (expected.map fun c => (c, editDistance garbage given c)).insertionSort matchLe

/-- the kinds of hints -/
inductive Hint (α : Type) where
  | didYouMean (names : List (List α))
  | onlyKnows (name : List α)
  | available (names : List (List α))

/-- ConfigParser.cpp:269-277 and XMLTag.cpp:201-209: unknown tags and attributes -/
def hintForTag (garbage : ℕ → ℕ → ℕ) (given : List α) (expected : List (List α)) : Hint α :=
  match computeMatches garbage given expected with
  | [] => .available expected
  | m :: ms => if m.2 < 3 then .didYouMean (((m :: ms).filter fun m => ¬ m.2 > 2).map (·.1)) else .available expected

/-- `hintForMeshData`, ParticipantState.cpp:483-498, if no mesh of the participant has the data; `localData` are the data of the mesh.
`hintForMesh` (458-468) is alike. `none`: `front()` of an empty vector, which is undefined behaviour. -/
def hintForData (garbage : ℕ → ℕ → ℕ) (given : List α) (localData : List (List α)) : Option (Hint α) :=
  match localData with
  | [d] => some (.onlyKnows d)
  | _ =>
    match computeMatches garbage given localData with
    | [] => none
    | m :: _ => some (if m.2 < 3 then .didYouMean [m.1] else .available localData)

omit [DecidableEq α] in
theorem matchLe_iff (x y : List α × ℕ) : matchLe x y ↔ x.2 < y.2 ∨ x.2 = y.2 ∧ x.1 ≤ y.1 := by
  unfold matchLe matchLess
  by_cases h : y.2 = x.2
  · simp [h]
  · rw [if_neg h]
    constructor
    · intro h'; left; omega
    · rintro (h' | ⟨h', _⟩)
      · omega
      · exact absurd h'.symm h

instance : Std.Total (matchLe (α := α)) where
  total x y := by
    rw [matchLe_iff, matchLe_iff]
    rcases lt_trichotomy x.2 y.2 with h | h | h
    · exact .inl (.inl h)
    · rcases le_total x.1 y.1 with h' | h'
      · exact .inl (.inr ⟨h, h'⟩)
      · exact .inr (.inr ⟨h.symm, h'⟩)
    · exact .inr (.inl h)

instance : IsTrans (List α × ℕ) (matchLe (α := α)) where
  trans x y z h1 h2 := by
    rw [matchLe_iff] at *
    rcases h1 with h1 | ⟨h1, h1'⟩ <;> rcases h2 with h2 | ⟨h2, h2'⟩
    · exact .inl (by omega)
    · exact .inl (by omega)
    · exact .inl (by omega)
    · exact .inr ⟨by omega, h1'.trans h2'⟩

theorem mem_computeMatches {garbage : ℕ → ℕ → ℕ} {given : List α} {expected : List (List α)} {m : List α × ℕ} :
    m ∈ computeMatches garbage given expected ↔ m.1 ∈ expected ∧ m.2 = editDistance garbage given m.1 := by
  rw [computeMatches, List.mem_insertionSort, List.mem_map]
  constructor
  · rintro ⟨c, hc, rfl⟩; exact ⟨hc, rfl⟩
  · rintro ⟨h1, h2⟩; exact ⟨m.1, h1, by rw [← h2]⟩

theorem sorted_computeMatches (garbage : ℕ → ℕ → ℕ) (given : List α) (expected : List (List α)) :
    (computeMatches garbage given expected).Pairwise matchLe :=
  List.pairwise_insertionSort _ _

theorem head_minimal {garbage : ℕ → ℕ → ℕ} {given : List α} {expected : List (List α)} {m : List α × ℕ}
    {ms : List (List α × ℕ)} (h : computeMatches garbage given expected = m :: ms) :
    m.1 ∈ expected ∧ m.2 = editDistance garbage given m.1 ∧
    ∀ c ∈ expected, editDistance garbage given m.1 < editDistance garbage given c ∨
      editDistance garbage given m.1 = editDistance garbage given c ∧ m.1 ≤ c := by
  have hm : m ∈ computeMatches garbage given expected := by rw [h]; simp
  rw [mem_computeMatches] at hm
  refine ⟨hm.1, hm.2, fun c hc => ?_⟩
  have hc' : (c, editDistance garbage given c) ∈ computeMatches garbage given expected :=
    mem_computeMatches.2 ⟨hc, rfl⟩
  have hp := sorted_computeMatches garbage given expected
  rw [h] at hc' hp
  rcases List.mem_cons.1 hc' with e | hc'
  · right
    have : c = m.1 := congrArg Prod.fst e
    rw [this]
    exact ⟨rfl, le_rfl⟩
  · have := (matchLe_iff _ _).1 ((List.pairwise_cons.1 hp).1 _ hc')
    rw [hm.2] at this
    exact this

/-- "Did you mean" hints for tags and attributes list exactly the known names which are at most two edits away, nearest first. -/
theorem C87_tag_hint (garbage : ℕ → ℕ → ℕ) (given : List α) (expected : List (List α)) :
    (∃ names, hintForTag garbage given expected = .didYouMean names ∧ names ≠ [] ∧
      (∀ c, c ∈ names ↔ c ∈ expected ∧ ∃ n ≤ 2, Steps n given c) ∧
      names.Pairwise fun c d => editDistance garbage given c ≤ editDistance garbage given d) ∨
    (hintForTag garbage given expected = .available expected ∧
      ∀ c ∈ expected, ∀ n, Steps n given c → 3 ≤ n) := by
  have near : ∀ c, (∃ n ≤ 2, Steps n given c) ↔ editDistance garbage given c ≤ 2 := fun c =>
    ⟨fun ⟨n, hn, hs⟩ => ((C87_minimal garbage given c).2 hs).trans hn,
      fun h => ⟨_, h, (C87_minimal garbage given c).1⟩⟩
  unfold hintForTag
  cases h : computeMatches garbage given expected with
  | nil =>
    right
    refine ⟨rfl, fun c hc => ?_⟩
    have : (c, editDistance garbage given c) ∈ computeMatches garbage given expected :=
      mem_computeMatches.2 ⟨hc, rfl⟩
    rw [h] at this
    simp at this
  | cons m ms =>
    have hm := head_minimal h
    simp only
    by_cases h3 : m.2 < 3
    · left
      rw [if_pos h3]
      refine ⟨_, rfl, ?_, fun c => ?_, ?_⟩
      · rw [List.filter_cons_of_pos (by simpa using (by omega : m.2 ≤ 2))]; simp
      · rw [near, List.mem_map]
        constructor
        · rintro ⟨x, hx, rfl⟩
          rw [List.mem_filter, ← h, mem_computeMatches] at hx
          have := hx.2
          simp only [gt_iff_lt, not_lt, decide_eq_true_eq] at this
          exact ⟨hx.1.1, by rw [← hx.1.2]; exact this⟩
        · rintro ⟨hc, hd⟩
          refine ⟨(c, editDistance garbage given c), ?_, rfl⟩
          rw [List.mem_filter, ← h, mem_computeMatches]
          exact ⟨⟨hc, rfl⟩, by simpa using hd⟩
      · rw [List.pairwise_map]
        have hp := (sorted_computeMatches garbage given expected).filter fun m => decide ¬ m.2 > 2
        rw [h] at hp
        refine hp.imp_of_mem fun {x y} hx hy hxy => ?_
        rw [List.mem_filter, ← h, mem_computeMatches] at hx hy
        rw [← hx.1.2, ← hy.1.2]
        rcases (matchLe_iff _ _).1 hxy with h' | h'
        · exact h'.le
        · exact h'.1.le
    · right
      rw [if_neg h3]
      refine ⟨rfl, fun c hc n hn => ?_⟩
      have h1 := (C87_minimal garbage given c).2 hn
      have h2 := hm.2.2 c hc
      have h4 := hm.2.1
      omega

/-- The hint for a misspelled data name names a data of the mesh with the fewest edits, if there is one at most two edits away; a mesh with
at least one data is needed. -/
theorem C87_data_hint_partial (garbage : ℕ → ℕ → ℕ) (given : List α) {localData : List (List α)} (hd : localData ≠ []) :
    ∃ hint, hintForData garbage given localData = some hint ∧
      ((∃ d, localData = [d] ∧ hint = .onlyKnows d) ∨
       (∃ d ∈ localData, hint = .didYouMean [d] ∧ editDistance garbage given d ≤ 2 ∧
          ∀ c ∈ localData, ∀ n, Steps n given c → editDistance garbage given d ≤ n) ∨
       (hint = .available localData ∧ ∀ c ∈ localData, ∀ n, Steps n given c → 3 ≤ n)) := by
  unfold hintForData
  split
  · rename_i d
    exact ⟨_, rfl, .inl ⟨d, rfl, rfl⟩⟩
  · cases h : computeMatches garbage given localData with
    | nil =>
      have hl : (computeMatches garbage given localData).length = localData.length := by
        rw [computeMatches, List.length_insertionSort, List.length_map]
      rw [h] at hl
      exact absurd (List.length_eq_zero_iff.1 hl.symm) hd
    | cons m ms =>
      have hm := head_minimal h
      refine ⟨_, rfl, .inr ?_⟩
      by_cases h3 : m.2 < 3
      · rw [if_pos h3]
        refine .inl ⟨m.1, hm.1, rfl, by rw [← hm.2.1]; omega, fun c hc n hn => ?_⟩
        have h1 := (C87_minimal garbage given c).2 hn
        have h2 := hm.2.2 c hc
        omega
      · rw [if_neg h3]
        refine .inr ⟨rfl, fun c hc n hn => ?_⟩
        have h1 := (C87_minimal garbage given c).2 hn
        have h2 := hm.2.2 c hc
        have h4 := hm.2.1
        omega

/-- If the mesh has no data, the hint reads the first element of an empty vector. Data tags are optional in a mesh (MeshConfiguration.cpp:50), so
accessing any data of such a mesh is undefined behaviour instead of an error message. -/
theorem C87_no_data_undefined (garbage : ℕ → ℕ → ℕ) (given : List α) : hintForData garbage given [] = none := rfl

end Hints

/-- characters as their codes -/
def codes (s : String) : List ℕ := s.toList.map Char.toNat

example : (computeMatches (fun _ _ => 0) (codes "reed-data") [codes "write-data", codes "read-data", codes "reed-dat"]) =
    [(codes "read-data", 1), (codes "reed-dat", 1), (codes "write-data", 4)] := by decide +kernel

end Edit
end Verif
