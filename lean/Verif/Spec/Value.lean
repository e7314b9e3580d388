import Verif.Spec.Query
/- What accessors of results should say, independently of the code. -/
namespace Verif.Spec

/-- The bytes are the UTF-8 encoding of some text. -/
def Utf8 (s : Bytes) : Prop := ∃ cs : List Char, s = cs.flatMap String.utf8EncodeChar

/-- A string between double quotes, where `"` and `\` are preceded by `\`. -/
def quoted (s : Bytes) : Bytes := b!"\"" ++ s.flatMap (fun c => if c = c!"\"" ∨ c = c!"\\" then [c!"\\", c] else [c]) ++ b!"\""

/-- A list of strings, as `["x","y"]`. -/
def listText (l : List Bytes) : Bytes := b!"[" ++ List.intercalate b!"," (l.map quoted) ++ b!"]"

/-- The text with every byte that is not part of a UTF-8 character replaced by U+FFFD. -/
def wellFormed (s : Bytes) : Bytes := (runes s).flatMap encodeRune

/-- The calls of a callback on a list of values numbered from `i`, each changing a state `s`, until one says stop. -/
def callsOn {σ α : Type} (f : σ → Nat → α → σ × Bool) : σ → Nat → List α → σ
  | s, _, [] => s
  | s, i, a :: as => match f s i a with
    | (s', true) => callsOn f s' (i + 1) as
    | (s', false) => s'

/-- The decimal text of an integer: digits after an optional sign. -/
inductive DecimalInt : Bytes → Int → Prop where
  | plain {s : Bytes} {n : Nat} (h : Decimal s n) : DecimalInt s n
  | plus {s : Bytes} {n : Nat} (h : Decimal s n) : DecimalInt (c!"+" :: s) n
  | minus {s : Bytes} {n : Nat} (h : Decimal s n) : DecimalInt (c!"-" :: s) (-n)

end Verif.Spec
