import Verif.Spec.Slots
import Verif.Spec.Fault
/- Names in which no other markup hides. -/
namespace Verif.Spec

/-- A text that, written between `<` and `>`, can be nothing but a tag without attributes: no white space, `/` or `>`, and neither `!` nor `?` at its start. -/
def TagOnly (n : Bytes) : Prop := (∀ c ∈ n, ¬ IsWs c ∧ c ≠ c!"/" ∧ c ≠ c!">") ∧ n.head? ≠ some c!"!" ∧ n.head? ≠ some c!"?"

end Verif.Spec
