import Verif.Spec.Edit
import Verif.Spec.Raw
/- What is needed to write the content of one element into another. -/
namespace Verif.Spec

/-- How many elements are inside one another at most. -/
def Forest.levels : Forest → Nat
  | .nil => 0
  | .text _ next => next.levels
  | .misc _ next => next.levels
  | .leaf _ _ _ next => max 1 next.levels
  | .node _ _ _ kids _ next => max (kids.levels + 1) next.levels

def Info.levels : Info → Nat
  | .nil => 0
  | .text _ next => next.levels
  | .misc _ next => next.levels
  | .elem _ _ kids next => max (kids.levels + 1) next.levels

end Verif.Spec
