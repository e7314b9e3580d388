import Verif.Model.Bytes
/- The white space that surrounds a text: the characters Unicode calls White_Space, in UTF-8. -/
namespace Verif.Spec

/-- The characters with the property White_Space (Unicode 15, PropList.txt). -/
def whiteSpace : List Char :=
  ['\t', '\n', '\x0B', '\x0C', '\r', ' ', '\u0085', '\u00A0', '\u1680', '\u2000', '\u2001', '\u2002', '\u2003', '\u2004', '\u2005', '\u2006',
   '\u2007', '\u2008', '\u2009', '\u200A', '\u2028', '\u2029', '\u202F', '\u205F', '\u3000']

/-- A text of white space only. -/
def White (s : Bytes) : Prop := ∃ cs : List Char, (∀ c ∈ cs, c ∈ whiteSpace) ∧ s = cs.flatMap String.utf8EncodeChar

/-- `t` is `s` without the white space at both ends. -/
def Trims (s t : Bytes) : Prop :=
  ∃ a b, s = a ++ t ++ b ∧ White a ∧ White b ∧ ∀ c ∈ whiteSpace, ¬ String.utf8EncodeChar c <+: t ∧ ¬ String.utf8EncodeChar c <:+ t

end Verif.Spec
