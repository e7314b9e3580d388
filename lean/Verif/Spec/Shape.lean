import Verif.Spec.Answer
/- What any answer is made of: C54. -/
namespace Verif.Spec

/-- `t` is what is left of `raw` when everything between `<` and `>` is taken out (up to the end if a `>` is missing), and every other `>`. -/
inductive TextOf : Bytes → Bytes → Prop
  | nil : TextOf [] []
  | byte {c : UInt8} {r t : Bytes} (h1 : c ≠ c!"<") (h2 : c ≠ c!">") (h : TextOf r t) : TextOf (c :: r) (c :: t)
  | gt {r t : Bytes} (h : TextOf r t) : TextOf (c!">" :: r) t
  | tag {w r t : Bytes} (hw : c!">" ∉ w) (h : TextOf r t) : TextOf (b!"<" ++ w ++ b!">" ++ r) t
  | open {w : Bytes} (hw : c!">" ∉ w) : TextOf (b!"<" ++ w) []

/-- The text in `raw`, trimmed and with entity references decoded. -/
def Text (raw s : Bytes) : Prop := ∃ t, TextOf raw t ∧ s = unescapeXML (trimSpace t)

/-- Well-formed content (the grammar of C02 inside an element), and its text. -/
def Content (raw s : Bytes) : Prop := ∃ g : Forest, g.Legal 1 ∧ g.render = raw ∧ s = g.info.textValue

/-- One thing in an answer: an element whose Raw and String() are related by `C`, an attribute, a text, or a count. It has no results of its own. -/
structure ResultItem (C : Bytes → Bytes → Prop) (r : Result) : Prop where
  typ : r.typ = .element ∨ r.typ = .attribute ∨ r.typ = .string ∨ r.typ = .number
  elem : r.typ = .element → C r.raw r.toStr
  attr : r.typ = .attribute → r.toStr = r.raw
  number : r.typ = .number → r.raw = [] ∧ ∃ n : Nat, r.num = .fin n ∧ Decimal r.toStr n
  zero : r.typ ≠ .number → r.num = .fin 0
  results : r.results = []

/-- Nothing, one thing, or a flat Array of things. -/
def Flat (A : Result → Prop) (r : Result) : Prop :=
  (r.typ = .null ∧ r.results = [] ∧ r.raw = [] ∧ r.num = .fin 0) ∨ A r ∨ (r.typ = .array ∧ (r.raw = [] ∧ r.str = [] ∧ r.num = .fin 0) ∧ ∀ x ∈ r.results, A x)

end Verif.Spec
