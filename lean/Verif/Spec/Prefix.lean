import Verif.Spec.Edit
/- The part of a document up to an element or a start tag, independently of the code. -/
namespace Verif.Spec

/-- What stands before a place is readable. Nothing is asked of what comes after it: the fields of the context for that are not looked at. -/
def Ctx.Readable (top : Bool) : Ctx → Prop
  | .here b _ => b.Loose ∧ b.Tame top
  | .within b n as ws c _ _ => b.Loose ∧ b.Tame top ∧ TagName n ∧ AttrsLoose as ∧ AttrsFit as ∧ (∀ x ∈ ws, IsWs x) ∧ c.Readable false

/-- An element, from its start tag to its end tag, is readable. -/
def El.Readable (e : El) : Prop := (e.cons .nil).Loose ∧ (e.cons .nil).Tame false

end Verif.Spec
