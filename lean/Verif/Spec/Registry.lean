import Verif.Spec.White
import Verif.Spec.Reading
/- Which modifiers a path calls. -/
namespace Verif.Spec

/-- This part of a path calls the modifier `n`: between two bars, or behind the last one, stands `@n`, maybe with white space around it. -/
def Calls (part n : Bytes) : Prop :=
  ∃ a w b, part = a ++ b!"|" ++ w ++ b ∧ c!"|" ∉ w ∧ (b = [] ∨ b.head? = some c!"|") ∧ Trims w (c!"@" :: n)

/-- Some part of the path calls the modifier `n`. -/
def PathCalls (path n : Bytes) : Prop := ∃ ps p, Parts path ps ∧ p ∈ ps ∧ Calls p n

end Verif.Spec
