import Verif.Config.Value
import Mathlib.Data.List.TakeWhile

/-!
# Numbers in the configuration are read as written (C106)
-/

set_option autoImplicit false

namespace Verif.Config

/-! ## Specification -/

/-- The character of a digit. -/
def digitChar (d : Fin 10) : Char := Char.ofNat (48 + d)

/-- The number written with the given digits. -/
def numeral : List (Fin 10) → ℕ
  | [] => 0
  | d :: l => d * 10 ^ l.length + numeral l

/-- How a sign is written. -/
def renderSign : Option Bool → List Char
  | none => []
  | some false => ['+']
  | some true => ['-']

/-- The factor for a sign. -/
def signFactor (s : Option Bool) : ℤ := if s = some true then -1 else 1

/-- A decimal number: sign, digits, fraction, exponent with the letter `E` if `upper`. -/
structure Decimal where
  sign : Option Bool
  int : List (Fin 10)
  frac : Option (List (Fin 10))
  exp : Option (Bool × Option Bool × List (Fin 10))

namespace Decimal

/-- How the number is written. -/
def render (x : Decimal) : List Char :=
  renderSign x.sign ++ x.int.map digitChar ++
    (match x.frac with
      | none => []
      | some f => '.' :: f.map digitChar) ++
    match x.exp with
      | none => []
      | some (upper, s, e) => (if upper then 'E' else 'e') :: (renderSign s ++ e.map digitChar)

/-- There are digits before the exponent, and in it. -/
def WellFormed (x : Decimal) : Prop := x.int ++ x.frac.getD [] ≠ [] ∧ ∀ e, x.exp = some e → e.2.2 ≠ []

/-- The number. -/
def value (x : Decimal) : ℚ :=
  signFactor x.sign * (numeral x.int + numeral (x.frac.getD []) / 10 ^ (x.frac.getD []).length) *
    match x.exp with
    | none => 1
    | some (_, s, e) => (10 : ℚ) ^ (signFactor s * numeral e)

end Decimal

/-! ## Lemmas -/

theorem isDigit_digitChar (d : Fin 10) : isDigit (digitChar d) = true := by
  revert d; decide

theorem digitOf_digitChar (d : Fin 10) : digitOf (digitChar d) = d := by
  revert d; decide

theorem digitChar_digitOf {c : Char} (h : isDigit c = true) : ∃ d, c = digitChar d := by
  unfold isDigit at h
  rw [decide_eq_true_eq] at h
  refine ⟨⟨c.toNat - 48, by omega⟩, ?_⟩
  unfold digitChar
  have : 48 + (c.toNat - 48) = c.toNat := by omega
  simp only [this]
  exact (Char.ofNat_toNat c).symm

theorem digits_of_all {l : List Char} (h : ∀ c ∈ l, isDigit c = true) : ∃ ds : List (Fin 10), l = ds.map digitChar := by
  induction l with
  | nil => exact ⟨[], rfl⟩
  | cons c l ih =>
    obtain ⟨d, rfl⟩ := digitChar_digitOf (h c (by simp))
    obtain ⟨ds, rfl⟩ := ih fun x hx => h x (by simp [hx])
    exact ⟨d :: ds, rfl⟩

theorem foldl_digits (ds : List (Fin 10)) (a : ℕ) :
    (ds.map digitChar).foldl (fun a c => 10 * a + digitOf c) a = a * 10 ^ ds.length + numeral ds := by
  induction ds generalizing a with
  | nil => simp [numeral]
  | cons d ds ih =>
    rw [List.map_cons, List.foldl_cons, ih, digitOf_digitChar, numeral, List.length_cons]
    ring

theorem ofDigits_map (ds : List (Fin 10)) : ofDigits (ds.map digitChar) = numeral ds := by
  unfold ofDigits
  rw [foldl_digits]
  simp

theorem numeral_append (a b : List (Fin 10)) : numeral (a ++ b) = numeral a * 10 ^ b.length + numeral b := by
  induction a with
  | nil => simp [numeral]
  | cons d a ih =>
    rw [List.cons_append, numeral, numeral, ih, List.length_append]
    ring

/-- The text does not go on with a digit or a separator. -/
def Stops (l : List Char) : Prop := ∀ c, l.head? = some c → isDigit c = false ∧ c ≠ ','

theorem takeDigits_map (g prev : Bool) (ds : List (Fin 10)) {r : List Char} (hr : Stops r) :
    takeDigits g prev (ds.map digitChar ++ r) = (ds.map digitChar, r) := by
  induction ds generalizing prev with
  | nil =>
    cases r with
    | nil => rfl
    | cons c r =>
      obtain ⟨h1, h2⟩ := hr c rfl
      simp [takeDigits, h1, h2]
  | cons d ds ih => simp [takeDigits, isDigit_digitChar, ih]

theorem takePlain_map (ds : List (Fin 10)) {r : List Char} (hr : Stops r) : takePlain (ds.map digitChar ++ r) = (ds.map digitChar, r) := by
  unfold takePlain
  rw [List.span_eq_takeWhile_dropWhile]
  induction ds with
  | nil =>
    cases r with
    | nil => rfl
    | cons c r => simp [(hr c rfl).1]
  | cons d ds ih =>
    simp only [List.map_cons, List.cons_append, List.takeWhile_cons, List.dropWhile_cons, isDigit_digitChar, if_true] at ih ⊢
    simp only [Prod.mk.injEq] at ih ⊢
    exact ⟨by rw [ih.1], ih.2⟩

/-- The text does not begin with a sign. -/
def NoSign (l : List Char) : Prop := ∀ c, l.head? = some c → c ≠ '-' ∧ c ≠ '+'

theorem takeSign_render (s : Option Bool) {l : List Char} (h : s = none → NoSign l) :
    takeSign (renderSign s ++ l) = (decide (s = some true), l) := by
  match s with
  | some true => rfl
  | some false => rfl
  | none =>
    cases l with
    | nil => rfl
    | cons c l =>
      obtain ⟨h1, h2⟩ := h rfl c rfl
      simp only [renderSign, List.nil_append]
      unfold takeSign
      split
      · simp_all
      · simp_all
      · rfl

theorem digitChar_noSign (d : Fin 10) : digitChar d ≠ '-' ∧ digitChar d ≠ '+' ∧ digitChar d ≠ '/' ∧ digitChar d ≠ '.' ∧ isSpace (digitChar d) = false := by
  revert d; decide

theorem dropWhile_blanks {b s : List Char} (hb : ∀ c ∈ b, isSpace c = true) (hs : ∀ c, s.head? = some c → isSpace c = false) :
    (b ++ s).dropWhile isSpace = s := by
  induction b with
  | nil =>
    cases s with
    | nil => rfl
    | cons c s => simp [hs c rfl]
  | cons c b ih =>
    rw [List.cons_append, List.dropWhile_cons, if_pos (hb c (by simp))]
    exact ih fun x hx => hb x (by simp [hx])

theorem signed (s : Option Bool) (n : ℤ) : (if decide (s = some true) = true then -n else n) = signFactor s * n := by
  unfold signFactor
  match s with
  | some true => simp
  | some false => simp
  | none => simp

theorem signed_rat (s : Option Bool) (n : ℚ) : (if decide (s = some true) = true then -n else n) = signFactor s * n := by
  unfold signFactor
  match s with
  | some true => simp
  | some false => simp
  | none => simp

theorem pow10_eq (e : ℤ) : pow10 e = (10 : ℚ) ^ e := by
  unfold pow10
  split
  · next h =>
    obtain ⟨n, rfl⟩ := Int.eq_ofNat_of_zero_le h
    simp
  · next h =>
    obtain ⟨n, hn⟩ := Int.eq_ofNat_of_zero_le (show 0 ≤ -e by omega)
    have : e = -(n : ℤ) := by omega
    subst this
    simp

/-! ## Integers -/

theorem head_sign_digits (s : Option Bool) (d : Fin 10) (ds : List (Fin 10)) :
    ∃ c l, renderSign s ++ (d :: ds).map digitChar = c :: l ∧ isSpace c = false := by
  match s with
  | some true => exact ⟨_, _, rfl, rfl⟩
  | some false => exact ⟨_, _, rfl, rfl⟩
  | none => exact ⟨_, _, rfl, (digitChar_noSign d).2.2.2.2⟩

/-- **C106, integers.** A literal is read as the number it stands for, if that is an `int`; in all locales, and whatever the variable contained. -/
theorem C106_int (g : Bool) (old : ℤ) {b : List Char} (hb : ∀ c ∈ b, isSpace c = true) (s : Option Bool) {ds : List (Fin 10)} (hd : ds ≠ [])
    (h1 : -2147483648 ≤ signFactor s * numeral ds) (h2 : signFactor s * numeral ds ≤ 2147483647) :
    readInt g (b ++ (renderSign s ++ ds.map digitChar)) old = some (signFactor s * numeral ds) := by
  cases ds with
  | nil => exact absurd rfl hd
  | cons d ds =>
    obtain ⟨c, l, hc, hsp⟩ := head_sign_digits s d ds
    unfold readInt
    rw [dropWhile_blanks hb (by rw [hc]; intro x hx; simp at hx; subst hx; exact hsp)]
    split
    · next h => rw [hc] at h; cases h
    · have hno : s = none → NoSign ((d :: ds).map digitChar) := by
        intro _ x hx
        simp at hx
        subst hx
        exact ⟨(digitChar_noSign d).1, (digitChar_noSign d).2.1⟩
      rw [takeSign_render s hno]
      have := takeDigits_map g false (d :: ds) (r := []) (by intro x hx; cases hx)
      rw [List.append_nil] at this
      simp only [this, ofDigits_map, if_true]
      rw [signed]
      congr 1
      unfold clampInt
      rw [min_eq_left h2, max_eq_right h1]

theorem takeSign_eq (l : List Char) : ∃ s, l = renderSign s ++ (takeSign l).2 ∧ (takeSign l).1 = decide (s = some true) := by
  unfold takeSign
  split
  · exact ⟨some true, rfl, rfl⟩
  · exact ⟨some false, rfl, rfl⟩
  · exact ⟨none, rfl, rfl⟩

theorem takeDigits_plain (prev : Bool) (l : List Char) :
    ∃ ds : List (Fin 10), (takeDigits false prev l).1 = ds.map digitChar ∧ l = ds.map digitChar ++ (takeDigits false prev l).2 := by
  induction l generalizing prev with
  | nil => exact ⟨[], rfl, rfl⟩
  | cons c l ih =>
    unfold takeDigits
    split
    · next h =>
      obtain ⟨d, rfl⟩ := digitChar_digitOf h
      obtain ⟨ds, h1, h2⟩ := ih true
      refine ⟨d :: ds, by simp [h1], ?_⟩
      conv_lhs => rw [h2]
      rfl
    · exact ⟨[], by simp, by simp⟩

/-- The blanks at the front. -/
theorem blanks_split (raw : List Char) : ∃ b, (∀ c ∈ b, isSpace c = true) ∧ raw = b ++ raw.dropWhile isSpace :=
  ⟨raw.takeWhile isSpace, fun c hc => by
    have := List.all_takeWhile (p := isSpace) (l := raw)
    rw [List.all_eq_true] at this
    exact this c hc, (List.takeWhile_append_dropWhile (p := isSpace)).symm⟩

/-- **C106, accepted integers.** Without the locale, everything else is rejected but for three cases: blanks only, which leave the variable as it was; a sign only,
which is read as 0; and numbers out of range, which are read as the closest `int`. -/
theorem C106_int_accepted_partial {raw : List Char} {old n : ℤ} (h : readInt false raw old = some n) :
    ((∀ c ∈ raw, isSpace c = true) ∧ n = old) ∨
      ∃ b s ds, (∀ c ∈ b, isSpace c = true) ∧ raw = b ++ (renderSign s ++ ds.map digitChar) ∧ n = clampInt (signFactor s * numeral ds) := by
  obtain ⟨b, hb, hraw⟩ := blanks_split raw
  unfold readInt at h
  split at h
  · next he =>
    rw [he, List.append_nil] at hraw
    rw [Option.some.injEq] at h
    exact .inl ⟨by rw [hraw]; exact hb, h.symm⟩
  · next s hne =>
    obtain ⟨sg, h1, h2⟩ := takeSign_eq (raw.dropWhile isSpace)
    obtain ⟨ds, h3, h4⟩ := takeDigits_plain false (takeSign (raw.dropWhile isSpace)).2
    simp only [] at h
    split at h
    · next hr =>
      rw [h3, ofDigits_map, h2, signed, Option.some.injEq] at h
      refine .inr ⟨b, sg, ds, hb, ?_, h.symm⟩
      rw [hr, List.append_nil] at h4
      rw [← h4, ← h1]
      exact hraw
    · cases h

/-! ## Doubles -/

theorem takeFrac_some (f : List (Fin 10)) {r : List Char} (hr : Stops r) : takeFrac ('.' :: f.map digitChar ++ r) = (f.map digitChar, r) := by
  rw [List.cons_append]
  simp only [takeFrac]
  exact takePlain_map f hr

theorem takeFrac_none {r : List Char} (hr : r.head? ≠ some '.') : takeFrac r = ([], r) := by
  unfold takeFrac
  split
  · simp at hr
  · rfl

/-- What comes after the fraction. -/
def tailOf : Option (Bool × Option Bool × List (Fin 10)) → List Char
  | none => []
  | some (upper, s, e) => (if upper then 'E' else 'e') :: (renderSign s ++ e.map digitChar)

/-- What comes after the integer digits. -/
def fracOf : Option (List (Fin 10)) → List Char
  | none => []
  | some f => '.' :: f.map digitChar

theorem render_eq (x : Decimal) : x.render = renderSign x.sign ++ (x.int.map digitChar ++ (fracOf x.frac ++ tailOf x.exp)) := by
  unfold Decimal.render fracOf tailOf
  rw [List.append_assoc, List.append_assoc]

theorem tail_stops (e : Option (Bool × Option Bool × List (Fin 10))) : Stops (tailOf e) := by
  intro c hc
  match e with
  | none => cases hc
  | some (true, s, d) => simp [tailOf] at hc; subst hc; decide
  | some (false, s, d) => simp [tailOf] at hc; subst hc; decide

theorem tail_head (e : Option (Bool × Option Bool × List (Fin 10))) : (tailOf e).head? ≠ some '.' := by
  match e with
  | none => simp [tailOf]
  | some (true, s, d) => simp [tailOf]
  | some (false, s, d) => simp [tailOf]

theorem takeFrac_of (f : Option (List (Fin 10))) (e : Option (Bool × Option Bool × List (Fin 10))) :
    takeFrac (fracOf f ++ tailOf e) = ((f.getD []).map digitChar, tailOf e) := by
  match f with
  | none => exact takeFrac_none (tail_head e)
  | some f => exact takeFrac_some f (tail_stops e)

theorem frac_stops (f : Option (List (Fin 10))) (e : Option (Bool × Option Bool × List (Fin 10))) : Stops (fracOf f ++ tailOf e) := by
  match f with
  | none => exact tail_stops e
  | some f =>
    intro c hc
    simp [fracOf] at hc
    subst hc
    decide

theorem takeExp_of (s : Option Bool) {e : List (Fin 10)} (he : e ≠ []) :
    takeExp (renderSign s ++ e.map digitChar) = (signFactor s * numeral e, false, []) := by
  unfold takeExp
  have hno : s = none → NoSign (e.map digitChar) := by
    intro _ x hx
    cases e with
    | nil => exact absurd rfl he
    | cons d e =>
      simp at hx
      subst hx
      exact ⟨(digitChar_noSign d).1, (digitChar_noSign d).2.1⟩
  have := takePlain_map e (r := []) (by intro x hx; cases hx)
  rw [List.append_nil] at this
  rw [takeSign_render s hno]
  simp only [this, ofDigits_map]
  rw [signed]
  cases e with
  | nil => exact absurd rfl he
  | cons d e => rfl

/-- The number without its exponent. -/
def mantissa (x : Decimal) : ℚ := numeral x.int + numeral (x.frac.getD []) / 10 ^ (x.frac.getD []).length

theorem mantissa_eq (x : Decimal) :
    (ofDigits (x.int.map digitChar ++ (x.frac.getD []).map digitChar) : ℚ) / 10 ^ ((x.frac.getD []).map digitChar).length = mantissa x := by
  rw [← List.map_append, ofDigits_map, numeral_append, List.length_map]
  unfold mantissa
  push_cast
  field_simp

theorem head_decimal (x : Decimal) (hx : x.WellFormed) : ∃ c l, x.render = c :: l ∧ isSpace c = false := by
  rw [render_eq]
  match hs : x.sign, hi : x.int, hf : x.frac with
  | some true, _, _ => exact ⟨_, _, rfl, rfl⟩
  | some false, _, _ => exact ⟨_, _, rfl, rfl⟩
  | none, d :: ds, _ => exact ⟨_, _, rfl, (digitChar_noSign d).2.2.2.2⟩
  | none, [], some f => exact ⟨_, _, rfl, rfl⟩
  | none, [], none => exact absurd (by rw [hi, hf]; rfl) hx.1

theorem noSign_decimal (x : Decimal) (hx : x.WellFormed) : NoSign (x.int.map digitChar ++ (fracOf x.frac ++ tailOf x.exp)) := by
  intro c hc
  match hi : x.int, hf : x.frac with
  | d :: ds, _ =>
    rw [hi] at hc
    simp at hc
    subst hc
    exact ⟨(digitChar_noSign d).1, (digitChar_noSign d).2.1⟩
  | [], some f =>
    rw [hi, hf] at hc
    simp [fracOf] at hc
    subst hc
    decide
  | [], none => exact absurd (by rw [hi, hf]; rfl) hx.1

theorem not_isEmpty (x : Decimal) (hx : x.WellFormed) : (x.int.map digitChar ++ (x.frac.getD []).map digitChar).isEmpty = false := by
  rw [← List.map_append]
  cases h : x.int ++ x.frac.getD [] with
  | nil => exact absurd h hx.1
  | cons d l => rfl

theorem parse_decimal (g : Bool) {b : List Char} (hb : ∀ c ∈ b, isSpace c = true) {x : Decimal} (hx : x.WellFormed) :
    parseDouble g (b ++ x.render) = some (.val x.value) := by
  obtain ⟨c, l, hc, hsp⟩ := head_decimal x hx
  unfold parseDouble
  rw [dropWhile_blanks hb (by rw [hc]; intro y hy; simp at hy; subst hy; exact hsp)]
  split
  · next h => rw [hc] at h; cases h
  · rw [render_eq, takeSign_render _ fun _ => noSign_decimal x hx]
    simp only [takeDigits_map g false x.int (frac_stops x.frac x.exp), takeFrac_of, mantissa_eq, not_isEmpty x hx, signed_rat]
    have hv : x.value = signFactor x.sign * mantissa x * match x.exp with
        | none => 1
        | some (_, s, e) => (10 : ℚ) ^ (signFactor s * numeral e) := rfl
    rw [hv]
    match he : x.exp with
    | none => simp [tailOf]
    | some (u, s, e) =>
      have hne : e ≠ [] := hx.2 _ he
      cases u <;> simp [tailOf, takeExp_of s hne, pow10_eq]

/-- No slash in the text. -/
def NoSlash (l : List Char) : Prop := ∀ c ∈ l, c ≠ '/'

theorem splitSlash_none {l : List Char} (h : NoSlash l) : splitSlash l = none := by
  induction l with
  | nil => rfl
  | cons c l ih =>
    rw [splitSlash, if_neg (h c (by simp)), ih fun x hx => h x (by simp [hx])]
    rfl

theorem splitSlash_some {l r : List Char} (h : NoSlash l) : splitSlash (l ++ '/' :: r) = some (l, r) := by
  induction l with
  | nil => rfl
  | cons c l ih =>
    rw [List.cons_append, splitSlash, if_neg (h c (by simp)), ih fun x hx => h x (by simp [hx])]
    rfl

theorem digits_noSlash (ds : List (Fin 10)) : NoSlash (ds.map digitChar) := by
  intro c hc
  rw [List.mem_map] at hc
  obtain ⟨d, _, rfl⟩ := hc
  exact (digitChar_noSign d).2.2.1

theorem sign_noSlash (s : Option Bool) : NoSlash (renderSign s) := by
  match s with
  | none => intro c hc; cases hc
  | some true => intro c hc; simp [renderSign] at hc; subst hc; decide
  | some false => intro c hc; simp [renderSign] at hc; subst hc; decide

theorem NoSlash.append {a b : List Char} (ha : NoSlash a) (hb : NoSlash b) : NoSlash (a ++ b) := by
  intro c hc
  rw [List.mem_append] at hc
  exact hc.elim (ha c) (hb c)

theorem NoSlash.cons {c : Char} {a : List Char} (hc : c ≠ '/') (ha : NoSlash a) : NoSlash (c :: a) := by
  intro x hx
  rw [List.mem_cons] at hx
  rcases hx with rfl | hx
  · exact hc
  · exact ha x hx

theorem nil_noSlash : NoSlash [] := fun _ h => by cases h

theorem render_noSlash (x : Decimal) : NoSlash x.render := by
  rw [render_eq]
  refine (sign_noSlash _).append ((digits_noSlash _).append (.append ?_ ?_))
  · cases x.frac with
    | none => exact nil_noSlash
    | some f => exact .cons (by decide) (digits_noSlash f)
  · match x.exp with
    | none => exact nil_noSlash
    | some (true, s, e) => exact .cons (by decide) ((sign_noSlash s).append (digits_noSlash e))
    | some (false, s, e) => exact .cons (by decide) ((sign_noSlash s).append (digits_noSlash e))

theorem blanks_noSlash {b : List Char} (hb : ∀ c ∈ b, isSpace c = true) : NoSlash b := by
  intro c hc h
  subst h
  exact absurd (hb _ hc) (by decide)

/-- **C106, decimals.** A literal is read as the number it stands for, in all locales. -/
theorem C106_decimal (g : Bool) {b : List Char} (hb : ∀ c ∈ b, isSpace c = true) {x : Decimal} (hx : x.WellFormed) :
    readDouble g (b ++ x.render) = some (.val x.value) := by
  unfold readDouble
  rw [splitSlash_none ((blanks_noSlash hb).append (render_noSlash x))]
  exact parse_decimal g hb hx

/-- **C106, fractions.** A fraction is read as the quotient. -/
theorem C106_fraction (g : Bool) {b b' : List Char} (hb : ∀ c ∈ b, isSpace c = true) (hb' : ∀ c ∈ b', isSpace c = true) {x y : Decimal} (hx : x.WellFormed)
    (hy : y.WellFormed) (h0 : y.value ≠ 0) : readDouble g ((b ++ x.render) ++ '/' :: (b' ++ y.render)) = some (.val (x.value / y.value)) := by
  unfold readDouble
  rw [splitSlash_some ((blanks_noSlash hb).append (render_noSlash x))]
  simp only [parse_decimal g hb hx, parse_decimal g hb' hy, Option.bind_eq_bind, Option.bind_some, Num.div, if_neg h0]

/-- What is taken for a number though it is incomplete: no digits before the exponent, or none in it. -/
def Incomplete (x : Decimal) : Prop := ¬ x.WellFormed

theorem takePlain_eq (l : List Char) : ∃ ds : List (Fin 10), (takePlain l).1 = ds.map digitChar ∧ l = ds.map digitChar ++ (takePlain l).2 := by
  unfold takePlain
  rw [List.span_eq_takeWhile_dropWhile]
  obtain ⟨ds, h⟩ := digits_of_all (l := l.takeWhile isDigit) (by
    have := List.all_takeWhile (p := isDigit) (l := l)
    rw [List.all_eq_true] at this
    exact this)
  refine ⟨ds, h, ?_⟩
  rw [← h]
  exact (List.takeWhile_append_dropWhile (p := isDigit)).symm

theorem takeFrac_eq (l : List Char) : ∃ f : Option (List (Fin 10)), (takeFrac l).1 = (f.getD []).map digitChar ∧ l = fracOf f ++ (takeFrac l).2 := by
  unfold takeFrac
  split
  · next l =>
    obtain ⟨ds, h1, h2⟩ := takePlain_eq l
    refine ⟨some ds, h1, ?_⟩
    conv_lhs => rw [h2]
    rfl
  · exact ⟨none, rfl, rfl⟩

theorem takeExp_eq (l : List Char) : ∃ s ds, l = renderSign s ++ (ds.map digitChar ++ (takeExp l).2.2) ∧ (takeExp l).1 = signFactor s * numeral ds ∧
    (takeExp l).2.1 = ds.isEmpty := by
  obtain ⟨s, h1, h2⟩ := takeSign_eq l
  obtain ⟨ds, h3, h4⟩ := takePlain_eq (takeSign l).2
  refine ⟨s, ds, ?_, ?_, ?_⟩
  · conv_lhs => rw [h1, h4]
    rfl
  · unfold takeExp
    simp only [h2, h3, ofDigits_map]
    exact signed s _
  · unfold takeExp
    simp only [h3]
    cases ds <;> rfl

theorem eE {c : Char} (h : (c == 'e' || c == 'E') = true) : ∃ u : Bool, c = if u then 'E' else 'e' := by
  rw [Bool.or_eq_true, beq_iff_eq, beq_iff_eq] at h
  rcases h with rfl | rfl
  · exact ⟨false, rfl⟩
  · exact ⟨true, rfl⟩

theorem parse_accepted {raw : List Char} {v : Num} (h : parseDouble false raw = some v) :
    ((∀ c ∈ raw, isSpace c = true) ∧ v = .undefined) ∨
      ∃ b x, (∀ c ∈ b, isSpace c = true) ∧ raw = b ++ x.render ∧ (x.WellFormed ∧ v = .val x.value ∨ Incomplete x ∧ v = .val 0) := by
  obtain ⟨b, hb, hraw⟩ := blanks_split raw
  by_cases hnil : raw.dropWhile isSpace = []
  · unfold parseDouble at h
    rw [hnil] at h hraw
    rw [List.append_nil] at hraw
    simp only [Option.some.injEq] at h
    exact .inl ⟨by rw [hraw]; exact hb, h.symm⟩
  right
  obtain ⟨sg, h1, h2⟩ := takeSign_eq (raw.dropWhile isSpace)
  obtain ⟨ds, h3, h4⟩ := takeDigits_plain false (takeSign (raw.dropWhile isSpace)).2
  obtain ⟨f, h5, h6⟩ := takeFrac_eq (takeDigits false false (takeSign (raw.dropWhile isSpace)).2).2
  unfold parseDouble at h
  split at h
  · contradiction
  simp only [] at h
  split at h
  · next hr =>
    rw [Option.some.injEq] at h
    subst h
    let x : Decimal := ⟨sg, ds, f, none⟩
    refine ⟨b, x, hb, ?_, ?_⟩
    · rw [render_eq]
      rw [hr] at h6
      show raw = b ++ (renderSign sg ++ (ds.map digitChar ++ (fracOf f ++ [])))
      rw [← h6, ← h4, ← h1]
      exact hraw
    · rw [h3, h5]
      by_cases hw : ds ++ f.getD [] = []
      · right
        refine ⟨fun hx => hx.1 hw, ?_⟩
        rw [if_pos]
        rw [← List.map_append, hw]
        rfl
      · have hx : x.WellFormed := ⟨hw, by intro e he; cases he⟩
        left
        refine ⟨hx, ?_⟩
        have hne := not_isEmpty x hx
        have hm := mantissa_eq x
        simp only [x] at hne hm
        rw [hne, hm, h2]
        simp only [Bool.false_eq_true, if_false, signed_rat]
        show Num.val _ = Num.val (_ * _ * 1)
        rw [mul_one]
        rfl
  · next c s hr =>
    split at h
    · next hc =>
      rw [Bool.and_eq_true] at hc
      obtain ⟨u, hu⟩ := eE hc.1
      obtain ⟨es, ed, h7, h8, h9⟩ := takeExp_eq s
      split at h
      · next hrest =>
        rw [Option.some.injEq] at h
        subst h
        let x : Decimal := ⟨sg, ds, f, some (u, es, ed)⟩
        have hne0 : ds ++ f.getD [] ≠ [] := by
          intro hw
          have := hc.2
          rw [h3, h5, ← List.map_append, hw] at this
          cases this
        refine ⟨b, x, hb, ?_, ?_⟩
        · rw [render_eq]
          rw [hrest, List.append_nil] at h7
          rw [hr, hu, h7] at h6
          show raw = b ++ (renderSign sg ++ (ds.map digitChar ++ (fracOf f ++ _ :: (renderSign es ++ ed.map digitChar))))
          rw [← h6, ← h4, ← h1]
          exact hraw
        · rw [h9, h8]
          by_cases hw : ed = []
          · right
            refine ⟨fun hx => hx.2 _ rfl hw, ?_⟩
            rw [hw]
            rfl
          · have hx : x.WellFormed := ⟨hne0, by intro e he; cases he; exact hw⟩
            left
            refine ⟨hx, ?_⟩
            have he : ed.isEmpty = false := by cases ed with
              | nil => exact absurd rfl hw
              | cons _ _ => rfl
            have hm := mantissa_eq x
            simp only [x] at hm
            rw [he, h3, h5, hm, h2]
            simp only [Bool.false_eq_true, if_false, signed_rat, pow10_eq]
            rfl
      · cases h
    · cases h

theorem splitSlash_spec {l a r : List Char} (h : splitSlash l = some (a, r)) : l = a ++ '/' :: r := by
  induction l generalizing a with
  | nil => cases h
  | cons c l ih =>
    rw [splitSlash] at h
    split at h
    · next hc =>
      rw [Option.some.injEq, Prod.mk.injEq] at h
      obtain ⟨rfl, rfl⟩ := h
      rw [hc]
      rfl
    · rw [Option.map_eq_some_iff] at h
      obtain ⟨⟨a', b'⟩, h1, h2⟩ := h
      rw [Prod.mk.injEq] at h2
      obtain ⟨rfl, rfl⟩ := h2
      rw [ih h1]
      rfl

/-- A text that is read as a number: a decimal with its value, or an incomplete one with 0. -/
def Reads (raw : List Char) (v : ℚ) : Prop :=
  ∃ b x, (∀ c ∈ b, isSpace c = true) ∧ raw = b ++ x.render ∧ (x.WellFormed ∧ v = x.value ∨ Incomplete x ∧ v = 0)

theorem parse_reads {raw : List Char} {v : Num} (h : parseDouble false raw = some v) (hv : v ≠ .undefined) : ∃ q, v = .val q ∧ Reads raw q := by
  rcases parse_accepted h with ⟨_, h⟩ | ⟨b, x, hb, hr, ⟨hx, h⟩ | ⟨hx, h⟩⟩
  · exact absurd h hv
  · exact ⟨_, h, b, x, hb, hr, .inl ⟨hx, rfl⟩⟩
  · exact ⟨_, h, b, x, hb, hr, .inr ⟨hx, rfl⟩⟩

/-- **C106, accepted decimals.** Without the locale, a value that comes out is the one of the text, or of the two texts around the slash; but an incomplete number, as `-`
or `1e`, counts as 0. -/
theorem C106_decimal_accepted_partial {raw : List Char} {q : ℚ} (h : readDouble false raw = some (.val q)) :
    Reads raw q ∨ ∃ l r a b, raw = l ++ '/' :: r ∧ Reads l a ∧ Reads r b ∧ b ≠ 0 ∧ q = a / b := by
  unfold readDouble at h
  split at h
  · next l r hs =>
    right
    simp only [Option.bind_eq_bind] at h
    rw [Option.bind_eq_some_iff] at h
    obtain ⟨a, ha, h⟩ := h
    rw [Option.bind_eq_some_iff] at h
    obtain ⟨b, hb, h⟩ := h
    rw [Option.some.injEq] at h
    cases a with
    | undefined => cases b <;> cases h
    | nonfinite => cases b <;> cases h
    | val a =>
      cases b with
      | undefined => cases h
      | nonfinite => cases h
      | val b =>
        unfold Num.div at h
        simp only at h
        split at h
        · cases h
        · next hb0 =>
          rw [Num.val.injEq] at h
          obtain ⟨_, h1, h2⟩ := parse_reads ha (by simp)
          obtain ⟨_, h3, h4⟩ := parse_reads hb (by simp)
          rw [Num.val.injEq] at h1 h3
          subst h1 h3
          exact ⟨l, r, _, _, splitSlash_spec hs, h2, h4, hb0, h.symm⟩
  · left
    obtain ⟨q', h1, h2⟩ := parse_reads h (by simp)
    rw [Num.val.injEq] at h1
    subst h1
    exact h2

/-! ## Vectors -/

/-- The entries with semicolons between them. -/
def renderVector : List Decimal → List Char
  | [] => []
  | [x] => x.render
  | x :: y :: l => x.render ++ ';' :: renderVector (y :: l)

/-- No semicolon in the text. -/
def NoSemi (l : List Char) : Prop := ∀ c ∈ l, c ≠ ';'

theorem splitSemi_one {l : List Char} (h : NoSemi l) : splitSemi l = [l] := by
  induction l with
  | nil => rfl
  | cons c l ih => rw [splitSemi, if_neg (h c (by simp)), ih fun x hx => h x (by simp [hx])]

theorem splitSemi_cons {l r : List Char} (h : NoSemi l) (hr : r.head? ≠ some ';') : splitSemi (l ++ ';' :: r) = l :: splitSemi r := by
  induction l with
  | nil => rw [List.nil_append, splitSemi, if_pos rfl, if_neg hr]
  | cons c l ih => rw [List.cons_append, splitSemi, if_neg (h c (by simp)), ih fun x hx => h x (by simp [hx])]

theorem NoSemi.append {a b : List Char} (ha : NoSemi a) (hb : NoSemi b) : NoSemi (a ++ b) := by
  intro c hc
  rw [List.mem_append] at hc
  exact hc.elim (ha c) (hb c)

theorem NoSemi.cons {c : Char} {a : List Char} (hc : c ≠ ';') (ha : NoSemi a) : NoSemi (c :: a) := by
  intro x hx
  rw [List.mem_cons] at hx
  rcases hx with rfl | hx
  · exact hc
  · exact ha x hx

theorem nil_noSemi : NoSemi [] := fun _ h => by cases h

theorem digitChar_noSemi (d : Fin 10) : digitChar d ≠ ';' := by
  revert d; decide

theorem digits_noSemi (ds : List (Fin 10)) : NoSemi (ds.map digitChar) := by
  intro c hc
  rw [List.mem_map] at hc
  obtain ⟨d, _, rfl⟩ := hc
  exact digitChar_noSemi d

theorem sign_noSemi (s : Option Bool) : NoSemi (renderSign s) := by
  match s with
  | none => exact nil_noSemi
  | some true => exact .cons (by decide) nil_noSemi
  | some false => exact .cons (by decide) nil_noSemi

theorem render_noSemi (x : Decimal) : NoSemi x.render := by
  rw [render_eq]
  refine (sign_noSemi _).append ((digits_noSemi _).append (.append ?_ ?_))
  · cases x.frac with
    | none => exact nil_noSemi
    | some f => exact .cons (by decide) (digits_noSemi f)
  · match x.exp with
    | none => exact nil_noSemi
    | some (true, s, e) => exact .cons (by decide) ((sign_noSemi s).append (digits_noSemi e))
    | some (false, s, e) => exact .cons (by decide) ((sign_noSemi s).append (digits_noSemi e))

theorem renderVector_head {x : Decimal} (hx : x.WellFormed) (l : List Decimal) : (renderVector (x :: l)).head? ≠ some ';' := by
  obtain ⟨c, r, h, _⟩ := head_decimal x hx
  have hc : c ≠ ';' := render_noSemi x c (by rw [h]; simp)
  cases l with
  | nil => rw [renderVector, h]; simpa using hc
  | cons y l => rw [renderVector, h]; simpa using hc

theorem split_vector {x : Decimal} {l : List Decimal} (h : ∀ y ∈ l, y.WellFormed) :
    splitSemi (renderVector (x :: l)) = (x :: l).map Decimal.render := by
  induction l generalizing x with
  | nil => exact splitSemi_one (render_noSemi x)
  | cons y l ih =>
    rw [renderVector, splitSemi_cons (render_noSemi x) (renderVector_head (h y (by simp)) l), ih fun z hz => h z (by simp [hz])]
    rfl

/-- **C106, vectors.** Numbers with semicolons between them are read as the vector of their values. -/
theorem C106_vector (g : Bool) {l : List Decimal} (hl : l ≠ []) (h : ∀ x ∈ l, x.WellFormed) :
    readVector g (renderVector l) = some (l.map fun x => .val x.value) := by
  cases l with
  | nil => exact absurd rfl hl
  | cons x l =>
    unfold readVector
    rw [split_vector fun y hy => h y (by simp [hy])]
    generalize x :: l = l at h
    induction l with
    | nil => rfl
    | cons y l ih =>
      have := parse_decimal g (b := []) (by simp) (h y (by simp))
      rw [List.nil_append] at this
      rw [List.map_cons, List.mapM_cons, this, ih fun z hz => h z (by simp [hz])]
      rfl

/-! ## What is taken for a number and should not -/

/-- **C106, no number at all.** If there is only blank space, an integer keeps the value the variable had before, and a decimal is not set. -/
theorem C106_blank (g : Bool) {raw : List Char} (h : ∀ c ∈ raw, isSpace c = true) (old : ℤ) : readInt g raw old = some old ∧ readDouble g raw = some .undefined := by
  have hd : raw.dropWhile isSpace = [] := by
    rw [List.dropWhile_eq_nil_iff]
    exact h
  constructor
  · unfold readInt
    rw [hd]
  · unfold readDouble
    rw [splitSlash_none (blanks_noSlash h)]
    show parseDouble g raw = _
    unfold parseDouble
    rw [hd]

/-- **C106, separators.** In the locale that is asked for, a comma is a thousands separator wherever it is: `0,5` is five and `1,5` is fifteen. -/
theorem C106_comma : readDouble true "0,5".toList = some (.val 5) ∧ readInt true "1,5".toList 0 = some 15 ∧ readDouble false "0,5".toList = none ∧
    readInt false "1,5".toList 0 = none := by
  decide +kernel

/-- **C106, incomplete numbers.** A sign alone or a missing exponent is 0; a number out of range is the closest one; a division by zero is accepted. -/
theorem C106_wrong : readDouble false "-".toList = some (.val 0) ∧ readDouble false "1e".toList = some (.val 0) ∧ readInt false "-".toList 7 = some 0 ∧
    readInt false "3000000000".toList 7 = some 2147483647 ∧ readDouble false "1/0".toList = some .nonfinite ∧ readDouble false "1/".toList = some .undefined := by
  decide +kernel

/-! ## Examples -/

/-- `-1.50e-2` is read. -/
example : readDouble true " -1.50e-2".toList = some (.val (-15 / 1000)) := by decide +kernel

example : (⟨some true, [1], some [5, 0], some (false, some true, [2])⟩ : Decimal).render = "-1.50e-2".toList ∧
    (⟨some true, [1], some [5, 0], some (false, some true, [2])⟩ : Decimal).WellFormed ∧
    (⟨some true, [1], some [5, 0], some (false, some true, [2])⟩ : Decimal).value = -15 / 1000 := by
  refine ⟨by decide, ⟨by decide, by intro e he; cases he; decide⟩, ?_⟩
  have h5 : (((5 : Fin 10) : ℕ) : ℚ) = 5 := rfl
  norm_num [Decimal.value, numeral, signFactor, h5]

/-- `1/3` is read. -/
example : readDouble false "1/3".toList = some (.val (1 / 3)) := by decide +kernel

/-- Trailing characters are rejected. -/
example : readInt false "5 ".toList 0 = none ∧ readDouble false "1.0f".toList = none ∧ readDouble false "inf".toList = none := by decide +kernel

end Verif.Config
