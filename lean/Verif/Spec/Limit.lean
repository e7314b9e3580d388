import Verif.Model.Bytes
/- Parts of a path that can have many results. -/
namespace Verif.Spec

/-- `*`, `**`, `#` (as in `#.field`) and `#(...)#`. -/
def multiPart (p : Bytes) : Bool := p = b!"*" || p = b!"**" || p = b!"#" || (b!"#(".isPrefixOf p && b!")#".isSuffixOf p)

end Verif.Spec
