import Verif.Spec.Commute
import Verif.Spec.Trail
import Verif.Model.Set
/- Several writes with options to one document, at paths of any kind. -/
namespace Verif.Spec

/-- One call of SetWithOptions, and what it is meant to do: at the place `addr`, to which `steps` lead, the element `old` becomes `new`. -/
structure Write where
  path : Bytes
  value : GoVal
  opts : Options
  steps : List Bytes
  addr : List Nat
  old : El
  new : El

/-- The document has `old` at the place, and the steps lead there. -/
def Write.Fits (j : Write) (f : Forest) : Prop := ∃ c : Ctx, c.addr = j.addr ∧ f = c.plug (j.old.cons .nil) ∧ LeadTo j.opts.caseSensitive j.steps c j.old.name

/-- The document has `new` at the place, and the steps lead there. -/
def Write.Done (j : Write) (f : Forest) : Prop := ∃ c : Ctx, c.addr = j.addr ∧ f = c.plug (j.new.cons .nil) ∧ LeadTo j.opts.caseSensitive j.steps c j.new.name

/-- At most this much longer the document becomes. -/
def Write.cost (j : Write) : Nat := j.new.render.length

/-- The writes one after the other, with an order of the maps for each, succeed and lead from the one document to the other. -/
inductive WriteCalls : Bytes → List Write → Bytes → Prop
  | nil (x : Bytes) : WriteCalls x [] x
  | cons {x y z : Bytes} {j : Write} {js : List Write} (h1 : ∀ o : Ord, o.IsPerm → setWithOptions o x j.path j.value (some j.opts) = .ret (y, none)) (h2 : WriteCalls y js z) : WriteCalls x (j :: js) z

end Verif.Spec
