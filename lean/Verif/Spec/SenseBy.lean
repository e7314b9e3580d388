import Verif.Spec.Sense
import Verif.Spec.AskBy
/- What any path without modifiers means when options are given (Spec/Sense with Spec/AskBy). The conditions of filters mean the same as without options. -/
namespace Verif.Spec

/-- The answer that the steps give under options. -/
noncomputable def replyBy (cs : Bool) (ks : List Role) (i : Info) : Answer :=
  match plan false ks with
  | some (ms, g) => askBy cs ms g true i
  | none => .nothing

/-- The meaning of a path under options. -/
inductive SenseBy (pf : Bytes → Option FVal) (cs : Bool) (p : Bytes) : (Info → Answer) → Prop where
  | nowhere (h : NoPath p) : SenseBy pf cs p (fun _ => .nothing)
  | path {ss : List Bytes} {ks : List Role} (h : PathSteps p ss) (hs : Sense pf (.steps ss ks)) : SenseBy pf cs p (replyBy cs ks)

end Verif.Spec
