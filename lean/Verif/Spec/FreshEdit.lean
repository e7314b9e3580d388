import Verif.Spec.Tree
import Verif.Model.Set
/- What two runs of Set may differ in: the order of the attributes of one element, opened up to take new content. -/
namespace Verif.Spec

/-- The same document, or one start tag has its attributes in another order. -/
inductive SameBut : Bytes → Bytes → Prop
  | same (x : Bytes) : SameBut x x
  | order (pre n post : Bytes) (as bs : List Attr) (h : as.Perm bs) :
      SameBut (pre ++ b!"<" ++ n ++ as.flatMap Attr.render ++ post) (pre ++ b!"<" ++ n ++ bs.flatMap Attr.render ++ post)

/-- Two calls of Set that end alike: both panic, or both return the same error or none, and documents that differ at most in the order of the
attributes of one start tag. -/
inductive SameEdit : SetRes → SetRes → Prop
  | panic : SameEdit .panic .panic
  | ret {x y : Bytes} (e : Option Err) (h : SameBut x y) : SameEdit (.ret (x, e)) (.ret (y, e))

end Verif.Spec
