import Verif.Spec.SenseBy
import Verif.Spec.Chain
/- What any path without modifiers means on a result (`Result.Get`). -/
namespace Verif.Spec

/-- The answer that the steps give on an element. `R` is how steps are answered in a document: `reply`, or `replyBy` under options. With several children the content is looked at
in an element of its own (Spec/Chain). -/
def replyOn (R : List Role → Info → Answer) (ks : List Role) (nd : Node) : Answer :=
  if nd.kids.elems.length ≤ 1 then R ks nd.kids else R (.name wrapName :: ks) nd.wrapped

/-- The meaning of a path on an element. The step into the element of its own counts as a part of the path, so that a path of 100 parts finds nothing there. -/
inductive SenseOn (pf : Bytes → Option FVal) (R : List Role → Info → Answer) (path : Bytes) : (Node → Answer) → Prop where
  | nowhere (h : NoPath path) : SenseOn pf R path (fun _ => .nothing)
  | path {ss ps : List Bytes} {ks : List Role} (h : PathSteps path ss) (hs : Sense pf (.steps ss ks)) (hp : Parts path ps) (hl : ps.length ≤ 99) : SenseOn pf R path (replyOn R ks)
  | full {ss ps : List Bytes} {ks : List Role} (h : PathSteps path ss) (hs : Sense pf (.steps ss ks)) (hp : Parts path ps) (hl : ps.length = 100) :
      SenseOn pf R path (fun nd => if nd.kids.elems.length ≤ 1 then R ks nd.kids else .nothing)

/-- The path begins with a step into the content: a name or a wildcard. -/
def StepsInto : List Role → Prop
  | .name _ :: _ => True
  | .any :: _ => True
  | .deep :: _ => True
  | _ => False

end Verif.Spec
