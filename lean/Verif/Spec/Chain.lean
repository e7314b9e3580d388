import Verif.Spec.AskBy
/-
What a path means on a result (`Result.Get`): it is followed from the element. The library puts the content of an element with several
children into an element of its own first, which shows in paths that do not start with a step into the content.
-/
namespace Verif.Spec

/-- The name of that element. -/
def wrapName : Bytes := b!"_xmldot_root"

/-- The content of the element in that element. -/
def Node.wrapped (nd : Node) : Info := .elem wrapName (fun _ => none) nd.kids .nil

/-- The element as it is in there: with its content, without its name and attributes. -/
def Node.inWrapper (nd : Node) : Node := ⟨wrapName, fun _ => none, nd.kids⟩

/-- The moves from there: a filter at the start of the path is taken to be about that element. -/
def wrapMoves : List Move → List Move
  | .sat none p :: ms => .sat (some wrapName) p :: ms
  | .satAll none p :: ms => .satAll (some wrapName) p :: ms
  | ms => .name wrapName :: ms

/-- The answer to a path on an element. -/
def chained (nd : Node) (ms : List Move) (g : Goal) : Answer :=
  if nd.kids.elems.length ≤ 1 then ask ms g true nd.kids else ask (wrapMoves ms) g true nd.wrapped

/-- The answer to a path on an element when options are given. -/
noncomputable def chainedBy (cs : Bool) (nd : Node) (ms : List Move) (g : Goal) : Answer :=
  if nd.kids.elems.length ≤ 1 then askBy cs ms g true nd.kids else askBy cs (wrapMoves ms) g true nd.wrapped

/-- The first step is into the content. -/
def StepsIn : List Move → Prop
  | [] => False
  | m :: _ => m.Free

/-- Paths whose meaning does not depend on whether they start at the top of a document: no index, count or `#.` right there. -/
def Anywhere : List Move → Goal → Prop
  | [], _ => True
  | .nth _ _ :: _, _ => False
  | [.name _], g => g ≠ .count ∧ g.isField = false
  | _, _ => True

end Verif.Spec
