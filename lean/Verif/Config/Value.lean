import Mathlib.Data.Rat.Defs
import Mathlib.Algebra.Order.Ring.Rat
import Mathlib.Algebra.Order.Field.Basic
import Mathlib.Tactic.Linarith
import Mathlib.Tactic.Ring
import Mathlib.Tactic.FieldSimp

/-!
# Numbers in the configuration (C106)

Model of `/repo/src/xml/ValueParser.cpp`.

The code reads numbers with `operator>>` of `std::istringstream`, whose behaviour is that of `std::num_get` (C++ standard, [facet.num.get.virtuals]; where the
standard leaves room, libstdc++: `num_get::_M_extract_int`, `num_get::_M_extract_float`, `__convert_to_v`). The code then looks at `eof()` only and not at `fail()`. The
argument `grouping` says whether the locale `en_US.UTF-8` is installed, whose thousands separator is the comma; if not, the constructor throws and the
classic locale is used. Values are exact; rounding and overflow of doubles are left out.
-/

set_option autoImplicit false

namespace Verif.Config

/-! ## Characters -/

/-- `std::isspace` in both locales -/
def isSpace (c : Char) : Bool := c == ' ' || c == '\t' || c == '\n' || c == '\r' || c == '\x0b' || c == '\x0c'

def isDigit (c : Char) : Bool := decide (48 ≤ c.toNat ∧ c.toNat ≤ 57)

def digitOf (c : Char) : ℕ := c.toNat - 48

/-- The number that a sequence of digits stands for. -/
def ofDigits (l : List Char) : ℕ := l.foldl (fun a c => 10 * a + digitOf c) 0

/-- An optional sign; `true` is minus. -/
def takeSign : List Char → Bool × List Char
  | '-' :: l => (true, l)
  | '+' :: l => (false, l)
  | l => (false, l)

/-- The digits of the integer part without separators, and the rest. With grouping, a separator is dropped if a digit precedes it; whether the groups have the
right sizes only decides about `failbit`. -/
def takeDigits (grouping : Bool) : Bool → List Char → List Char × List Char
  | _, [] => ([], [])
  | prev, c :: l =>
    if isDigit c then
      let (d, r) := takeDigits grouping true l
      (c :: d, r)
    else if grouping && c == ',' && prev then takeDigits grouping false l
    else ([], c :: l)

/-! ## Integers -/

/-- Out of range values become the smallest or largest `int` (with `failbit`). -/
def clampInt (n : ℤ) : ℤ := max (-2147483648) (min n 2147483647)

/-- `readValueSpecific(const std::string &, int &)`, ValueParser.cpp:42-53. `old` is the value of the variable before. If there is nothing but blanks, the sentry of
the stream fails and the variable is not changed. Without digits the value is 0. `none` is the error "Could not fully parse". -/
def readInt (grouping : Bool) (raw : List Char) (old : ℤ) : Option ℤ :=
  match raw.dropWhile isSpace with
  | [] => some old
  | s =>
    let (neg, s) := takeSign s
    let (d, rest) := takeDigits grouping false s
    if rest = [] then some (clampInt (if neg then -(ofDigits d : ℤ) else ofDigits d)) else none

/-! ## Doubles -/

/-- The value of a variable of type `double`. -/
inductive Num where
  | val (q : ℚ)
  /-- the variable was never set -/
  | undefined
  /-- infinite or not a number -/
  | nonfinite
deriving DecidableEq

/-- Digits only. -/
def takePlain (l : List Char) : List Char × List Char := l.span isDigit

/-- `10^e` -/
def pow10 (e : ℤ) : ℚ := if 0 ≤ e then 10 ^ e.toNat else 1 / 10 ^ (-e).toNat

/-- The exponent after `e`: an optional sign and digits. -/
def takeExp (l : List Char) : ℤ × Bool × List Char :=
  let (neg, l) := takeSign l
  let (d, r) := takePlain l
  (if neg then -(ofDigits d : ℤ) else ofDigits d, d.isEmpty, r)

/-- The fraction: a decimal point and digits. -/
def takeFrac : List Char → List Char × List Char
  | '.' :: l => takePlain l
  | l => ([], l)

/-- `parseDouble`, ValueParser.cpp:15-28, with `num_get::_M_extract_float`: sign, digits and separators, decimal point and digits, exponent if there was a digit
before. If `strtod` does not accept what was collected, because there are no digits in the mantissa or in the exponent, the value is 0. -/
def parseDouble (grouping : Bool) (raw : List Char) : Option Num :=
  match raw.dropWhile isSpace with
  | [] => some .undefined
  | s =>
    let (neg, s) := takeSign s
    let (int, s) := takeDigits grouping false s
    let (frac, s) := takeFrac s
    let mantissa : ℚ := ofDigits (int ++ frac) / 10 ^ frac.length
    let signed : ℚ := if neg then -mantissa else mantissa
    match s with
    | [] => some (.val (if (int ++ frac).isEmpty then 0 else signed))
    | c :: s =>
      if (c == 'e' || c == 'E') && !(int ++ frac).isEmpty then
        let (e, noDigits, rest) := takeExp s
        if rest = [] then some (.val (if noDigits then 0 else signed * pow10 e)) else none
      else none

/-- Division of two variables; division by zero gives infinity or not a number. -/
def Num.div : Num → Num → Num
  | .val a, .val b => if b = 0 then .nonfinite else .val (a / b)
  | .undefined, _ => .undefined
  | _, .undefined => .undefined
  | _, _ => .nonfinite

/-- The part before the first slash and the part after it. -/
def splitSlash : List Char → Option (List Char × List Char)
  | [] => none
  | c :: l => if c = '/' then some ([], l) else (splitSlash l).map fun (a, b) => (c :: a, b)

/-- `readValueSpecific(const std::string &, double &)`, ValueParser.cpp:30-40. -/
def readDouble (grouping : Bool) (raw : List Char) : Option Num :=
  match splitSlash raw with
  | some (left, right) => do
    let a ← parseDouble grouping left
    let b ← parseDouble grouping right
    some (a.div b)
  | none => parseDouble grouping raw

/-- `boost::split` at semicolons with `token_compress_on`: consecutive semicolons count as one. -/
def splitSemi : List Char → List (List Char)
  | [] => [[]]
  | c :: l =>
    if c = ';' then
      if l.head? = some ';' then splitSemi l else [] :: splitSemi l
    else
      match splitSemi l with
      | [] => [[c]]
      | a :: r => (c :: a) :: r

/-- `readValueSpecific(const std::string &, Eigen::VectorXd &)`, ValueParser.cpp:55-67. -/
def readVector (grouping : Bool) (raw : List Char) : Option (List Num) := (splitSemi raw).mapM (parseDouble grouping)

end Verif.Config
