import Verif.Model.Bytes
/- Notions about path strings and names, independent of the path parser. -/
namespace Verif.Spec

/-- A name written so that no dot or backslash in it is special. -/
def escapeName : Bytes → Bytes
  | [] => []
  | c :: cs => if c = c!"." || c = c!"\\" then c!"\\" :: c :: escapeName cs else c :: escapeName cs

/-- Names joined with dots. -/
def joinDots : List Bytes → Bytes
  | [] => []
  | [n] => n
  | n :: m :: ns => n ++ c!"." :: joinDots (m :: ns)

/-- The path string for a list of names. -/
def pathOf (names : List Bytes) : Bytes := joinDots (names.map escapeName)

/-- Number of dots that are not preceded by an escaping backslash. -/
def unescapedDots : Bytes → Nat
  | [] => 0
  | [c] => if c = c!"." then 1 else 0
  | c :: d :: r =>
    if c = c!"\\" then unescapedDots r
    else (if c = c!"." then 1 else 0) + unescapedDots (d :: r)

/-- A usable namespace prefix: no colon, at most 256 bytes, no control characters. -/
structure GoodPrefix (p : Bytes) : Prop where
  noColon : c!":" ∉ p
  short : p.length ≤ 256
  printable : ∀ c ∈ p, 0x20 ≤ c ∧ c ≠ 0x7F

/-- Names that are ordinary element names in a path: no modifier bar, none of the special forms. -/
structure PlainName (n : Bytes) : Prop where
  nonempty : n ≠ []
  noBar : c!"|" ∉ n
  noAt : n.head? ≠ some c!"@"
  noHash : n.head? ≠ some c!"#"
  notPct : n ≠ b!"%"
  notStar : n ≠ b!"*"
  notStar2 : n ≠ b!"**"
  notNum : ∃ c ∈ n, ¬ ((48 ≤ c ∧ c ≤ 57) ∨ (c = c!"-" ∧ 2 ≤ n.length))

end Verif.Spec
