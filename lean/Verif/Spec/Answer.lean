import Verif.Spec.Query
import Verif.Model.Result
/- What it means for a Result to describe an element, its own text, or a list of them. -/
namespace Verif.Spec

/-- The result describes the element: type Element, String() is its text value, Raw is XML saying the same as its content, with its
tags written the usual way and scannable like the document. -/
structure IsElement (r : Result) (nd : Node) : Prop where
  typ : r.typ = .element
  str : r.toStr = nd.kids.textValue
  raw : ∃ f : Draft, f.Loose ∧ f.Tame false ∧ f.Plain ∧ f.render = r.raw ∧ f.info = nd.kids
  results : r.results = []

/-- The result is the element's own text (stated when the content has no raw `>` in text). -/
structure IsOwnText (r : Result) (nd : Node) : Prop where
  typ : r.typ = .string
  str : nd.kids.Quiet → r.toStr = nd.kids.ownValue
  results : r.results = []

/-- One result stands for itself, several for an Array of them. -/
def IsList {α : Type} (Q : Result → α → Prop) (r : Result) (l : List α) : Prop :=
  match l with
  | [a] => Q r a
  | l => r.typ = .array ∧ All2 Q r.results l

/-- An Array of results. -/
def IsArrayOf {α : Type} (Q : Result → α → Prop) (r : Result) (l : List α) : Prop :=
  r.typ = .array ∧ All2 Q r.results l

end Verif.Spec
