import Verif.Spec.Tree
import Verif.Model.Path
/-
What queries mean, on the information of a document. Names are compared by `nameMatches`, which C41
characterises.
-/
namespace Verif.Spec

/-- `xml` is a document of the class the query theorems speak about, and `i` is what it says. It need not be one the
validator accepts: see `Forest.Loose` and `Draft`. -/
def Says (xml : Bytes) (i : Info) : Prop :=
  xml.length ≤ 10485760 ∧ ∃ f : Draft, f.Loose ∧ f.Tame true ∧ f.render = xml ∧ f.info = i

/-- The elements of a level whose name matches. -/
def Info.named (i : Info) (n : Bytes) : List Node := i.elems.filter (fun e => nameMatches n e.name)

/-- The contents reached by a list of names, in document order (`[]` is the whole document). -/
def Info.reach : List Bytes → Info → List Info
  | [], i => [i]
  | n :: ns, i => (i.named n).flatMap (fun e => reach ns e.kids)

/-- The elements reached by a list of names followed by one more name, in document order. -/
def Info.select (i : Info) (pre : List Bytes) (n : Bytes) : List Node :=
  (i.reach pre).flatMap (fun k => k.named n)

/-- Which elements of a level an index, a count or a field extraction after name `n` refers to: at the first step of
a path the name must be equal, deeper down it must match. -/
def Info.hits (i : Info) (root : Bool) (n : Bytes) : List Node :=
  if root then i.elems.filter (fun e => e.name = n) else i.named n

/-- The group of such elements below each content reached by `pre`. -/
def Info.groups (i : Info) (pre : List Bytes) (n : Bytes) : List (List Node) :=
  (i.reach pre).map (fun k => k.hits pre.isEmpty n)

/-- `ds` is a decimal numeral (leading zeros allowed) of value `j`. -/
inductive Decimal : Bytes → Nat → Prop where
  | digit (d : UInt8) (h : 48 ≤ d ∧ d ≤ 57) : Decimal [d] (d.toNat - 48)
  | snoc {ds : Bytes} {j : Nat} (h : Decimal ds j) {d : UInt8} (hd : 48 ≤ d ∧ d ≤ 57) : Decimal (ds ++ [d]) (10 * j + (d.toNat - 48))

/-- All elements below, children before their parent (post-order). -/
def Info.descendants : Info → List Node
  | .nil => []
  | .text _ next => next.descendants
  | .misc _ next => next.descendants
  | .elem n a k next => k.descendants ++ ⟨n, a, k⟩ :: next.descendants

/-- The same down to the given depth: `**` looks no deeper than 101 levels. -/
def Info.within : Nat → Info → List Node
  | _, .nil => []
  | d, .text _ next => next.within d
  | d, .misc _ next => next.within d
  | 0, .elem _ _ _ next => next.within 0
  | d + 1, .elem n a k next => k.within d ++ ⟨n, a, k⟩ :: next.within (d + 1)

/-- Depth of element nesting. -/
def Info.depth : Info → Nat
  | .nil => 0
  | .text _ next => next.depth
  | .misc _ next => next.depth
  | .elem _ _ k next => max (k.depth + 1) next.depth

end Verif.Spec

namespace Verif.Spec

/-- Equal up to the case of ASCII letters, as a function. -/
def foldCase (s : Bytes) : Bytes := s.map (fun c => if 65 ≤ c && c ≤ 90 then c + 32 else c)

/-- The elements of a level whose name matches up to case. -/
def Info.namedFold (i : Info) (n : Bytes) : List Node := i.elems.filter (fun e => nameMatches (foldCase n) (foldCase e.name))

/-- The contents reached by a list of names up to case. -/
def Info.reachFold : List Bytes → Info → List Info
  | [], i => [i]
  | n :: ns, i => (i.namedFold n).flatMap (fun e => reachFold ns e.kids)

/-- The elements reached by names followed by one more, up to case. -/
def Info.selectFold (i : Info) (pre : List Bytes) (n : Bytes) : List Node :=
  (i.reachFold pre).flatMap (fun k => k.namedFold n)

end Verif.Spec
