import Verif.Model.Result
/-
The numbers a float64 can hold, and what strconv.ParseFloat is documented to make of a decimal numeral ("the nearest floating-point number, rounded
using IEEE754 unbiased rounding"). Which of two equally near numbers is taken is left open.
-/
namespace Verif.Spec

/-- `r` is a finite float64: an integer of at most 53 bits times a power of two, the least of which is 2^-1074 and the greatest 2^971. -/
def IsFloat (r : Rat) : Prop :=
  ∃ (m : Int) (k : Nat), m.natAbs < 2 ^ 53 ∧ k ≤ 2045 ∧ r * 2 ^ 1074 = ((m * 2 ^ k : Int) : Rat)

def gap (a b : Rat) : Rat := if a ≤ b then b - a else a - b

/-- No float64 is nearer to `q` than `r`. -/
def Nearest (q r : Rat) : Prop := IsFloat r ∧ ∀ r', IsFloat r' → gap q r ≤ gap q r'

/-- The number a string of digits writes. -/
def digitsNat : Bytes → Nat := List.foldl (fun n c => 10 * n + (c.toNat - 48)) 0

/-- The text `s` is a decimal numeral of `n` digits without exponent and stands for `q`: an optional sign, digits, and possibly a dot and digits. -/
def Numeral (s : Bytes) (n : Nat) (q : Rat) : Prop :=
  ∃ (sign whole dot part : Bytes), s = sign ++ whole ++ dot ++ part ∧ (sign = [] ∨ sign = b!"+" ∨ sign = b!"-") ∧
    ((dot = [] ∧ part = []) ∨ dot = b!".") ∧ (∀ c ∈ whole ++ part, 48 ≤ c ∧ c ≤ 57) ∧ (whole ++ part).length = n ∧ n ≠ 0 ∧
    q * 10 ^ part.length = (if sign = b!"-" then -(digitsNat (whole ++ part) : Int) else (digitsNat (whole ++ part) : Int) : Int)

/-- Far from the largest float64. -/
def Moderate (q : Rat) : Prop := -(2 : Rat) ^ 1023 ≤ q ∧ q ≤ (2 : Rat) ^ 1023

/-- `rnd` takes every number up to 2^1023 to a nearest float64. -/
def Rounds (rnd : Rat → Rat) : Prop := ∀ q, Moderate q → Nearest q (rnd q)

/-- What is assumed of ParseFloat: a decimal numeral is read as the number it stands for, rounded. Nothing is assumed about numerals with an exponent
or beyond 2^1023. -/
def ReadsNumerals (pf : Bytes → Option FVal) (rnd : Rat → Rat) : Prop :=
  Rounds rnd ∧ ∀ s n q, Numeral s n q → Moderate q → pf s = some (.fin (rnd q))

/-! A function that satisfies the assumption, so that it is not empty and cases can be computed. -/

/-- The 53 highest bits of the number in units of 2^-1074, rounded to nearest, ties to even. -/
def roundPos (q : Rat) : Rat :=
  let n := (q * 2 ^ 1074).floor.toNat
  let k := n.log2 - 52
  let m := n / 2 ^ k
  let lo : Rat := ((m * 2 ^ k : Nat) : Rat)
  let hi : Rat := (((m + 1) * 2 ^ k : Nat) : Rat)
  let x := q * 2 ^ 1074
  (if x - lo < hi - x ∨ (x - lo = hi - x ∧ m % 2 = 0) then lo else hi) / 2 ^ 1074

def round64 (q : Rat) : Rat := if 0 ≤ q then roundPos q else -roundPos (-q)

/-- The value of the decimal numeral `s`. -/
def numeralValue (s : Bytes) : Option Rat :=
  let neg := s.head? = some c!"-"
  let r := if s.head? = some c!"-" ∨ s.head? = some c!"+" then s.drop 1 else s
  let whole := r.takeWhile (· ≠ c!".")
  let part := (r.drop (whole.length)).drop 1
  if whole ++ part ≠ [] ∧ (∀ c ∈ whole ++ part, 48 ≤ c ∧ c ≤ 57) then
    some ((if neg then -(digitsNat (whole ++ part) : Rat) else (digitsNat (whole ++ part) : Rat)) / 10 ^ part.length)
  else none

def parse64 (s : Bytes) : Option FVal := (numeralValue s).map (fun q => .fin (round64 q))

end Verif.Spec
