import Verif.Config.MethodSpec
import Mathlib.Data.Nat.Digits.Defs
import Mathlib.Data.List.TakeWhile
import Mathlib.Tactic.FinCases

/-!
Which device the text of `gpu-device-id` names (C126).
-/

set_option autoImplicit false

namespace Verif.Config.MapMethod

/-- The number written by decimal digits. -/
def written (ds : List Char) : ℕ := Nat.ofDigits 10 (ds.reverse.map fun c => c.toNat - '0'.toNat)

/-- The text starts, after white space, with an optional sign and the digits of the number `v`. -/
structure StartsWith (l : List Char) (v : ℤ) (space sign ds rest : List Char) : Prop where
  text : l = space ++ (sign ++ (ds ++ rest))
  space : ∀ c ∈ space, c ∈ [' ', '\t', '\n', '\x0b', '\x0c', '\r']
  nonempty : ds ≠ []
  digits : ∀ c ∈ ds, c.isDigit = true
  rest : ∀ c, rest.head? = some c → c.isDigit = false
  value : (sign = [] ∨ sign = ['+']) ∧ v = written ds ∨ sign = ['-'] ∧ v = -(written ds : ℤ)

/-- The text names device `v`, where -1 stands for the choice of preCICE. -/
def NamesDevice (l : List Char) (v : ℤ) : Prop :=
  l = "auto".toList ∧ v = -1 ∨ l ≠ "auto".toList ∧ 0 ≤ v ∧ v ≤ 2147483647 ∧ ∃ space sign ds rest, StartsWith l v space sign ds rest

theorem isSpace_iff (c : Char) : isSpace c = true ↔ c ∈ [' ', '\t', '\n', '\x0b', '\x0c', '\r'] := by
  simp [isSpace, or_assoc]

theorem digits_append (ds rest : List Char) (hd : ∀ c ∈ ds, c.isDigit = true) (hr : ∀ c, rest.head? = some c → c.isDigit = false) (acc : Option ℕ) :
    digits acc (ds ++ rest) = if ds = [] then acc else some (acc.getD 0 * 10 ^ ds.length + written ds) := by
  induction ds generalizing acc with
  | nil =>
    rw [if_pos rfl, List.nil_append]
    cases rest with
    | nil => rfl
    | cons c r =>
      have := hr c rfl
      rw [digits, if_neg (by simp [this])]
  | cons c ds ih =>
    rw [List.cons_append, digits, if_pos (hd c (by simp)), ih (fun c hc => hd c (by simp [hc])), if_neg (List.cons_ne_nil c ds)]
    have hw : written (c :: ds) = (c.toNat - '0'.toNat) * 10 ^ ds.length + written ds := by
      unfold written
      rw [List.reverse_cons, List.map_append, Nat.ofDigits_append]
      simp [Nat.ofDigits_singleton]
      ring
    rw [hw]
    split
    · next h => subst h; simp [written]
    · simp only [Option.getD_some, List.length_cons]
      congr 1
      ring

/-- The digits at the start of a text. -/
theorem digits_split (l : List Char) : ∃ ds rest, l = ds ++ rest ∧ (∀ c ∈ ds, c.isDigit = true) ∧ ∀ c, rest.head? = some c → c.isDigit = false := by
  refine ⟨l.takeWhile (·.isDigit), l.dropWhile (·.isDigit), List.takeWhile_append_dropWhile.symm, fun c hc => List.mem_takeWhile_imp hc, fun c hc => ?_⟩
  have := List.head?_dropWhile_not (fun c : Char => c.isDigit) l
  rw [hc] at this
  simpa using this

theorem digit_not_sign {c : Char} (h : c.isDigit = true) : c ≠ '-' ∧ c ≠ '+' ∧ isSpace c = false := by
  refine ⟨?_, ?_, ?_⟩
  · rintro rfl; exact absurd h (by decide)
  · rintro rfl; exact absurd h (by decide)
  · cases hs : isSpace c with
    | false => rfl
    | true =>
      rw [isSpace_iff] at hs
      fin_cases hs <;> exact absurd h (by decide)

/-- The number `stoi` finds after the white space. -/
def number (l : List Char) : Option ℤ :=
  match l with
  | '-' :: r => (digits none r).map fun n : ℕ => -(n : ℤ)
  | '+' :: r => (digits none r).map fun n : ℕ => (n : ℤ)
  | r => (digits none r).map fun n : ℕ => (n : ℤ)

theorem stoi_eq (l : List Char) : stoi l = match number (l.dropWhile isSpace) with
    | none => .error .check
    | some v => if -2147483648 ≤ v ∧ v ≤ 2147483647 then .ok v else .error .check := by
  have hm : (match l.dropWhile isSpace with
    | '-' :: r => (digits none r).map fun n => -(n : ℤ)
    | '+' :: r => (digits none r).map fun n => (n : ℤ)
    | r => (digits none r).map fun n => (n : ℤ)) = number (l.dropWhile isSpace) := by
    unfold number
    split
    · generalize digits none _ = o; cases o <;> rfl
    · generalize digits none _ = o; cases o <;> rfl
    · generalize digits none _ = o; cases o <;> rfl
  unfold stoi
  rw [← hm]
  rfl

theorem number_iff (l : List Char) (v : ℤ) : number l = some v ↔ ∃ sign ds rest, l = sign ++ (ds ++ rest) ∧ ds ≠ [] ∧ (∀ c ∈ ds, c.isDigit = true) ∧
    (∀ c, rest.head? = some c → c.isDigit = false) ∧ ((sign = [] ∨ sign = ['+']) ∧ v = written ds ∨ sign = ['-'] ∧ v = -(written ds : ℤ)) := by
  have key : ∀ r (w : ℕ), digits none r = some w ↔ ∃ ds rest, r = ds ++ rest ∧ ds ≠ [] ∧ (∀ c ∈ ds, c.isDigit = true) ∧
      (∀ c, rest.head? = some c → c.isDigit = false) ∧ w = written ds := by
    intro r w
    constructor
    · intro h
      obtain ⟨ds, rest, rfl, hd, hr⟩ := digits_split r
      rw [digits_append ds rest hd hr] at h
      split at h
      · cases h
      · next hne =>
        refine ⟨ds, rest, rfl, hne, hd, hr, ?_⟩
        simpa using h.symm
    · rintro ⟨ds, rest, rfl, hne, hd, hr, rfl⟩
      rw [digits_append ds rest hd hr, if_neg hne]
      simp
  constructor
  · intro h
    unfold number at h
    split at h
    · next r =>
      obtain ⟨w, hw, rfl⟩ := Option.map_eq_some_iff.1 h
      obtain ⟨ds, rest, rfl, hne, hd, hr, rfl⟩ := (key _ _).1 hw
      exact ⟨['-'], ds, rest, rfl, hne, hd, hr, .inr ⟨rfl, rfl⟩⟩
    · next r =>
      obtain ⟨w, hw, rfl⟩ := Option.map_eq_some_iff.1 h
      obtain ⟨ds, rest, rfl, hne, hd, hr, rfl⟩ := (key _ _).1 hw
      exact ⟨['+'], ds, rest, rfl, hne, hd, hr, .inl ⟨.inr rfl, rfl⟩⟩
    · obtain ⟨w, hw, rfl⟩ := Option.map_eq_some_iff.1 h
      obtain ⟨ds, rest, rfl, hne, hd, hr, rfl⟩ := (key _ _).1 hw
      exact ⟨[], ds, rest, rfl, hne, hd, hr, .inl ⟨.inl rfl, rfl⟩⟩
  · rintro ⟨sign, ds, rest, rfl, hne, hd, hr, ⟨rfl | rfl, rfl⟩ | ⟨rfl, rfl⟩⟩
    · have hk := (key (ds ++ rest) _).2 ⟨ds, rest, rfl, hne, hd, hr, rfl⟩
      obtain ⟨c, ds', rfl⟩ := List.exists_cons_of_ne_nil hne
      obtain ⟨h1, h2, -⟩ := digit_not_sign (hd c (by simp))
      unfold number
      simp only [List.nil_append, List.cons_append] at hk ⊢
      split
      · next h => cases h; exact absurd rfl h1
      · next h => cases h; exact absurd rfl h2
      · rw [hk]; rfl
    · have hk := (key (ds ++ rest) _).2 ⟨ds, rest, rfl, hne, hd, hr, rfl⟩
      show (digits none (ds ++ rest)).map _ = _
      rw [hk]; rfl
    · have hk := (key (ds ++ rest) _).2 ⟨ds, rest, rfl, hne, hd, hr, rfl⟩
      show (digits none (ds ++ rest)).map _ = _
      rw [hk]; rfl

theorem dropWhile_space (space l : List Char) (hs : ∀ c ∈ space, isSpace c = true) (hl : ∀ c, l.head? = some c → isSpace c = false) :
    (space ++ l).dropWhile isSpace = l := by
  induction space with
  | nil =>
    cases l with
    | nil => rfl
    | cons c l => simp [hl c rfl]
  | cons c space ih =>
    rw [List.cons_append, List.dropWhile_cons_of_pos (hs c (by simp)), ih fun c hc => hs c (by simp [hc])]

/-- **The device named**: `gpu-device-id` is accepted exactly if it is `auto` or starts with a number that is not negative and fits, and this is the device. -/
theorem C126_device (l : List Char) (v : ℤ) : deviceId l = .ok v ↔ NamesDevice l v := by
  unfold deviceId NamesDevice
  by_cases ha : l = "auto".toList
  · rw [if_pos ha]
    constructor
    · intro h
      cases h
      exact .inl ⟨ha, rfl⟩
    · rintro (⟨-, rfl⟩ | ⟨h, -⟩)
      · rfl
      · exact absurd ha h
  · rw [if_neg ha]
    have hst : (∃ space sign ds rest, StartsWith l v space sign ds rest) ↔ number (l.dropWhile isSpace) = some v := by
      rw [number_iff]
      constructor
      · rintro ⟨space, sign, ds, rest, h⟩
        refine ⟨sign, ds, rest, ?_, h.nonempty, h.digits, h.rest, h.value⟩
        rw [h.text]
        refine dropWhile_space _ _ (fun c hc => (isSpace_iff c).2 (h.space c hc)) fun c hc => ?_
        obtain ⟨d, ds', hds⟩ := List.exists_cons_of_ne_nil h.nonempty
        have hd := (digit_not_sign (h.digits d (by simp [hds]))).2.2
        rcases h.value with ⟨hs | hs, -⟩ | ⟨hs, -⟩
        · rw [hs, hds] at hc
          cases hc
          exact hd
        · rw [hs] at hc
          cases hc
          decide
        · rw [hs] at hc
          cases hc
          decide
      · rintro ⟨sign, ds, rest, h1, h2, h3, h4, h5⟩
        refine ⟨l.takeWhile isSpace, sign, ds, rest, ?_, fun c hc => (isSpace_iff c).1 (List.mem_takeWhile_imp hc), h2, h3, h4, h5⟩
        rw [← h1]
        exact List.takeWhile_append_dropWhile.symm
    rw [hst, stoi_eq]
    constructor
    · intro h
      refine .inr ⟨ha, ?_⟩
      cases hn : number (l.dropWhile isSpace) with
      | none => rw [hn] at h; cases h
      | some w =>
        rw [hn] at h
        simp only at h
        by_cases hw : -2147483648 ≤ w ∧ w ≤ 2147483647
        · rw [if_pos hw] at h
          by_cases h0 : 0 ≤ w
          · simp only [if_pos h0, Except.ok.injEq] at h
            subst h
            exact ⟨h0, hw.2, rfl⟩
          · simp only [if_neg h0] at h
            cases h
        · rw [if_neg hw] at h
          cases h
    · rintro (⟨h, -⟩ | ⟨-, h0, h1, hn⟩)
      · exact absurd h ha
      · rw [hn]
        simp only
        rw [if_pos ⟨by omega, h1⟩]
        simp only [if_pos h0]

/-- Device 12 is named by a number with spaces in front and anything behind it. -/
example : NamesDevice " 12 or so".toList 12 := by
  refine .inr ⟨by decide, by decide, by decide, [' '], [], ['1', '2'], " or so".toList, ?_⟩
  exact ⟨by decide, by decide, by decide, by decide, by decide, .inl ⟨.inl rfl, by decide⟩⟩

/-- Negative devices are refused. -/
example (v : ℤ) : ¬ NamesDevice "-1".toList v := by
  rw [← C126_device]
  have : deviceId "-1".toList = .error .check := by decide +kernel
  rw [this]
  exact fun h => nomatch h

end Verif.Config.MapMethod
