import Verif.Spec.Edit
import Verif.Model.Builder
/-
Several writes to one document: where each of them goes, and when two of them are independent.
-/
namespace Verif.Spec

/-- The place of the hole as a list of numbers: how many elements are before it on each level, outermost first. -/
def Ctx.addr : Ctx → List Nat
  | .here b _ => [b.info.elems.length]
  | .within b _ _ _ c _ _ => b.info.elems.length :: c.addr

/-- Two places of which neither is inside the other (nor are they the same). -/
def Apart (a b : List Nat) : Prop := ¬ a <+: b ∧ ¬ b <+: a

/-- One write: the path and the value passed, and what it is meant to do: at the place `addr`, to which `steps` lead, the element `old` becomes `new`. -/
structure Job where
  path : Bytes
  value : GoVal
  steps : List Step
  addr : List Nat
  old : El
  new : El

/-- The document has `old` at the place, and the steps lead there. -/
def Job.Fits (j : Job) (f : Forest) : Prop := ∃ c : Ctx, c.addr = j.addr ∧ f = c.plug (j.old.cons .nil) ∧ Leads j.steps c j.old.name

/-- The document has `new` at the place, and the steps lead there. -/
def Job.Done (j : Job) (f : Forest) : Prop := ∃ c : Ctx, c.addr = j.addr ∧ f = c.plug (j.new.cons .nil) ∧ Leads j.steps c j.new.name

/-- At most this much longer the document becomes. -/
def Job.cost (j : Job) : Nat := j.new.render.length

end Verif.Spec
