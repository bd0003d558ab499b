import Mathlib.Data.List.Basic
import Mathlib.Data.Int.Notation
import Std.Data.String.ToNat

/-!
# Lag suffixes of variable names

Model of `lag_order` and `change_lag_order` (`neml2/es/_helpers.py:50-68`). Names are lists of characters.
Python's `int` is modelled on ASCII text (surrounding blanks, a sign, digits, single underscores between
digits); digits of other scripts, which Python also accepts, are left out.
-/

namespace Verif.Schema

/-- A variable name. -/
abbrev Name := List Char

/-- `s.split(c)`. -/
def splitAt' (c : Char) : Name → List Name
  | [] => [[]]
  | a :: s =>
    if a = c then [] :: splitAt' c s
    else match splitAt' c s with
      | [] => [[a]]
      | w :: ws => (a :: w) :: ws

/-- ASCII blanks. -/
def isBlank (c : Char) : Bool := c = ' ' || c = '\t' || c = '\n' || c = '\r'

/-- Digits with single underscores between them; `prev` tells whether the previous character was a
digit. -/
def digitsOk : Bool → Name → Bool
  | prev, [] => prev
  | prev, c :: s => if c.isDigit then digitsOk true s
    else decide (c = '_') && prev && !s.isEmpty && digitsOk false s

/-- An unsigned numeral. -/
def pyNat (s : Name) : Option ℕ :=
  if digitsOk false s then some (Nat.ofDigitChars 10 (s.filter Char.isDigit) 0) else none

/-- `int(s)`. -/
def pyInt (s : Name) : Option ℤ :=
  let t := ((s.dropWhile isBlank).reverse.dropWhile isBlank).reverse
  match t with
  | '-' :: r => (pyNat r).map fun n : ℕ => -(n : ℤ)
  | '+' :: r => (pyNat r).map fun n : ℕ => (n : ℤ)
  | r => (pyNat r).map fun n : ℕ => (n : ℤ)

/-- `str(k)` as used by the f-string. -/
def pyStr : ℤ → Name
  | .ofNat n => Nat.toDigits 10 n
  | .negSucc n => '-' :: Nat.toDigits 10 (n + 1)

/-- `lag_order`; `none` is the `ValueError`. `es/_helpers.py:50-62`. -/
def lagOrder (var : Name) : Option (Name × ℤ) :=
  match splitAt' '~' var with
  | [b] => some (b, 0)
  | [b, k] => (pyInt k).map fun n => (b, n)
  | _ => none

/-- `change_lag_order`. `es/_helpers.py:65-68`. -/
def changeLagOrder (var : Name) (k : ℤ) : Option Name :=
  (lagOrder var).map fun bl => if k ≠ 0 then bl.1 ++ '~' :: pyStr k else bl.1

end Verif.Schema
