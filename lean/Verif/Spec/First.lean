import Verif.Spec.Trail
import Verif.Spec.SenseBy
/- Paths that Get and Set follow in the same way. -/
namespace Verif.Spec

/-- Steps that lead Get first to where they lead Set: names and `*`; positions only after names, below 1000, and not after the first name. No `**`, which is one level for Set. -/
structure Ahead (ss : List Bytes) : Prop where
  deep : b!"**" ∉ ss
  wild : ∀ pre d post, ss = pre ++ b!"*" :: d :: post → ¬ Position d
  small : ∀ d ∈ ss, Position d → ∀ j, Place d (some j) → j < 1000
  top : ∀ d, ss[1]? = some d → ¬ Position d

end Verif.Spec
