import Verif.Spec.Edit
import Verif.Spec.Reading
/- The elements of one name in an element as a list of texts, independently of the code. -/
namespace Verif.Spec

/-- What is done to a list: something is added at the end, or replaced, or removed. -/
inductive ListOp where
  | push (s : Bytes)
  | put (j : Nat) (s : Bytes)
  | drop (j : Nat)

/-- The list afterwards. White space around a text is lost. -/
def ListOp.on : ListOp → List Bytes → List Bytes
  | .push s, l => l ++ [trimSpace s]
  | .put j s, l => l.set j (trimSpace s)
  | .drop j, l => l.eraseIdx j

/-- Only what is there can be replaced, and texts are limited. -/
def ListOp.Fits : ListOp → List Bytes → Prop
  | .push s, _ => storedSize (.str s) ≤ 5242880
  | .put j s, l => j < l.length ∧ storedSize (.str s) ≤ 5242880
  | .drop j, _ => j < 2 ^ 63

/-- How many bytes it can add to the document when the elements are called `x`. -/
def ListOp.cost (x : Bytes) : ListOp → Nat
  | .push s => storedSize (.str s) + 2 * x.length + 5
  | .put _ s => storedSize (.str s)
  | .drop _ => 0

/-- The list after all operations. -/
def ListOp.onAll (ps : List ListOp) (l : List Bytes) : List Bytes := ps.foldl (fun l p => p.on l) l

/-- All of them one after the other. -/
def ListOp.FitAll : List ListOp → List Bytes → Prop
  | [], _ => True
  | p :: ps, l => p.Fits l ∧ FitAll ps (p.on l)

/-- No element matching `x` is written as one tag. -/
def Forest.Full (x : Bytes) : Forest → Prop
  | .nil => True
  | .text _ next => next.Full x
  | .misc _ next => next.Full x
  | .leaf n _ _ next => nameMatches x n = false ∧ next.Full x
  | .node _ _ _ _ _ next => next.Full x

/-- The elements matching `x` in the element that the names lead to have the texts `l`. -/
structure Group (ns : List Bytes) (x : Bytes) (c : Ctx) (e : El) (l : List Bytes) : Prop where
  doc : Editable (c.plug (e.cons .nil))
  there : Leads (firsts ns) c e.name
  full : e.kids.Full x
  list : (e.kids.info.named x).map (fun nd => nd.kids.textValue) = l

/-- Two elements that differ only in the children matching `x`. -/
structure Beside (x : Bytes) (e e' : El) : Prop where
  name : e'.name = e.name
  attrs : attrVal e'.attrs = attrVal e.attrs
  text : e'.kids.info.ownText = e.kids.info.ownText
  others : e'.kids.info.elems.filter (fun nd => !nameMatches x nd.name) = e.kids.info.elems.filter (fun nd => !nameMatches x nd.name)

end Verif.Spec
