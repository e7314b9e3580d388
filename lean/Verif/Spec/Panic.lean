import Verif.Spec.Edit
import Verif.Spec.Filter
/- The inputs on which the library panics, and the documents on which modifications cannot. -/
namespace Verif.Spec

/-- A filter condition whose value is a single quote character: `path op '` (with white space anywhere around). -/
def LoneQuote (cond : Bytes) : Prop :=
  ∃ (left : Bytes) (op : FilterOp) (v : Bytes), op ≠ .ex ∧ trimSpace cond = left ++ opText op ++ v ∧ (trimSpace v = b!"'" ∨ trimSpace v = b!"\"")

/-- A part of a path that is such a filter, possibly followed by more text. -/
def LoneQuotePart (part : Bytes) : Prop := ∃ cond more, part = b!"#(" ++ cond ++ b!")" ++ more ∧ LoneQuote cond

/-- The library writes this attribute in no more bytes than it has: there is white space before it and its value is escaped
(which any value without `& < > " '` is). -/
def Attr.Compact (a : Attr) : Prop := a.pre ≠ [] ∧ ∃ v, a.raw = escapeXML v

/-- All attributes are like that. -/
def Forest.Compact : Forest → Prop
  | .nil => True
  | .text _ next => next.Compact
  | .misc _ next => next.Compact
  | .leaf _ as _ next => (∀ a ∈ as, a.Compact) ∧ next.Compact
  | .node _ as _ kids _ next => (∀ a ∈ as, a.Compact) ∧ kids.Compact ∧ next.Compact

/-- All attributes below the top level are like that. -/
def Forest.CompactBelow : Forest → Prop
  | .nil => True
  | .text _ next => next.CompactBelow
  | .misc _ next => next.CompactBelow
  | .leaf _ _ _ next => next.CompactBelow
  | .node _ _ _ kids _ next => kids.Compact ∧ next.CompactBelow

/-- A document on which modifications do not panic: the library reads it as the grammar does, and below the top level all attributes
are compact. -/
def Roomy (f : Forest) : Prop := f.Legal 0 ∧ f.Tame true ∧ f.CompactBelow

end Verif.Spec
