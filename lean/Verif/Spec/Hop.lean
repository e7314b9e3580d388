import Verif.Spec.Options
import Verif.Spec.Reading
/- Where a path of names, wildcards and positions leads, for Set and Delete, independently of the code. -/
namespace Verif.Spec

/-- What a step asks of an element: a name, or nothing at all. -/
inductive Pick where
  | name (n : Bytes)
  | any
deriving DecidableEq

/-- Does the element of the name `x` satisfy it. -/
def Pick.takes (cs : Bool) : Pick → Bytes → Bool
  | .name n, x => agrees cs n x
  | .any, _ => true

/-- How many elements of a level satisfy it. -/
def Info.count (cs : Bool) (i : Info) (k : Pick) : Nat := (i.elems.filter (fun e => k.takes cs e.name)).length

/-- A step down: what is asked for, and which of those elements of a level (from 0). -/
abbrev Hop := Pick × Nat

/-- The steps lead to the element of that name in the context: one level at a time, and on each level to the element that has as many satisfying elements
before it as the step says. There is no difference between `*` and `**`. -/
def Reach (cs : Bool) : List Hop → Ctx → Bytes → Prop
  | [(k, j)], .here b _, x => k.takes cs x = true ∧ b.info.count cs k = j
  | (k, j) :: hs, .within b m _ _ c _ _, x => k.takes cs m = true ∧ b.info.count cs k = j ∧ Reach cs hs c x
  | _, _, _ => False

/-- The element the steps lead to, looked up level by level. -/
def Info.spot (cs : Bool) : List Hop → Info → Option Node
  | [], _ => none
  | [(k, j)], i => (i.elems.filter (fun e => k.takes cs e.name))[j]?
  | (k, j) :: hs, i => (i.elems.filter (fun e => k.takes cs e.name))[j]?.bind (fun e => spot cs hs e.kids)

/-- The part asks for this. Modifiers in it are not looked at. -/
inductive Asks : Bytes → Pick → Prop where
  | name {p : Bytes} (h : NameStep p) : Asks p (.name (beforeBar p))
  | any {p : Bytes} (h : beforeBar p = b!"*" ∨ beforeBar p = b!"**") : Asks p .any

/-- A part that is a position: made of digits and hyphens. -/
def Position (part : Bytes) : Prop := beforeBar part ≠ [] ∧ beforeBar part ≠ b!"-" ∧ ∀ c ∈ beforeBar part, c = c!"-" ∨ (48 ≤ c ∧ c ≤ 57)

/-- How the steps are written: a name, `*` or `**`, with the position in a part of its own, or without it for the first element. -/
inductive HopParts : List Hop → List Bytes → Prop where
  | nil : HopParts [] []
  | first {p : Bytes} {k : Pick} {hs : List Hop} {ps : List Bytes} (hp : Asks p k) (h : HopParts hs ps) : HopParts ((k, 0) :: hs) (p :: ps)
  | nth {p d : Bytes} {k : Pick} {j : Nat} {hs : List Hop} {ps : List Bytes} (hp : Asks p k) (hd : Decimal (beforeBar d) j) (hj : j < 2 ^ 63) (h : HopParts hs ps) :
      HopParts ((k, j) :: hs) (p :: d :: ps)

/-- Steps that no element satisfies: a filter, `%`, `#` and an attribute. -/
def Blind (part : Bytes) : Prop := b!"#(" <+: part ∨ b!"@" <+: part ∨ beforeBar part = b!"%" ∨ beforeBar part = b!"#"

end Verif.Spec
