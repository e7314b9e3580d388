import Verif.Model.Bytes
/- How many levels of a document a path can go down. -/
namespace Verif.Spec

/-- `**` goes down 101 levels, any other part at most one. -/
def partLevels (p : Bytes) : Nat := if p = b!"**" then 101 else 1

/-- All parts of a path. -/
def pathLevels (parts : List Bytes) : Nat := (parts.map partLevels).sum

end Verif.Spec
