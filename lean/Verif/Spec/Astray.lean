import Verif.Spec.Hop
/- Steps of a path by what they are, for paths that put them where they mean nothing. -/
namespace Verif.Spec

/-- A step that leads to elements: a name, a position, a filter or a wildcard - not an attribute, `%` or `#`. -/
def MoveStep (part : Bytes) : Prop := ¬ AttrStep part ∧ beforeBar part ≠ b!"%" ∧ beforeBar part ≠ b!"#"

/-- A step that is collected by a `#` before it: a simple name, an attribute with such a name, or `%`. -/
def FieldStep (part : Bytes) : Prop :=
  beforeBar part = b!"%" ∨ (Identifier (beforeBar part) ∧ (beforeBar part).length ≤ 256) ∨ ∃ a, beforeBar part = c!"@" :: a ∧ Identifier a ∧ a.length < 256

/-- The step after which nothing is looked at: own text, a count, or what `#` collects. -/
def Final (pre : List Bytes) (p : Bytes) (rest : List Bytes) : Prop :=
  beforeBar p = b!"%" ∨ (beforeBar p = b!"#" ∧ ∀ q, rest.head? = some q → ¬ FieldStep q) ∨ (FieldStep p ∧ ∃ q, pre.getLast? = some q ∧ beforeBar q = b!"#")

/-- A filter step. -/
def FilterStep (part : Bytes) : Prop := b!"#(" <+: part

/-- `*` or `**`. -/
def WildStep (part : Bytes) : Prop := beforeBar part = b!"*" ∨ beforeBar part = b!"**"

end Verif.Spec
