import Verif.Spec.Group
import Verif.Spec.Trail
import Verif.Model.Set
/- The elements of one name in an element as a list of texts, changed with paths and options of any kind. -/
namespace Verif.Spec

/-- No element matching `x` is written as one tag. -/
def Forest.FullBy (cs : Bool) (x : Bytes) : Forest → Prop
  | .nil => True
  | .text _ next => next.FullBy cs x
  | .misc _ next => next.FullBy cs x
  | .leaf n _ _ next => agrees cs x n = false ∧ next.FullBy cs x
  | .node _ _ _ _ _ next => next.FullBy cs x

/-- The elements matching `x` in the element in this place have the texts `l`. -/
structure GroupBy (cs : Bool) (x : Bytes) (c : Ctx) (e : El) (l : List Bytes) : Prop where
  doc : Editable (c.plug (e.cons .nil))
  full : e.kids.FullBy cs x
  list : (e.kids.info.namedBy cs x).map (fun nd => nd.kids.textValue) = l

/-- Two elements that differ only in the children matching `x` and in text. -/
structure BesideBy (cs : Bool) (x : Bytes) (e e' : El) : Prop where
  name : e'.name = e.name
  attrs : attrVal e'.attrs = attrVal e.attrs
  others : e'.kids.info.elems.filter (fun nd => !agrees cs x nd.name) = e.kids.info.elems.filter (fun nd => !agrees cs x nd.name)

/-- A call with options and a path, meant to be an operation on a list (and the order in which it runs through maps). -/
structure ListCall where
  ord : Ord
  path : Bytes
  opts : Options
  op : ListOp

/-- The call: Set of a string, or Delete. -/
def ListCall.run (q : ListCall) (xml : Bytes) : Outcome (Bytes × Option Err) :=
  match q.op with
  | .push s => setWithOptions q.ord xml q.path (.str s) (some q.opts)
  | .put _ s => setWithOptions q.ord xml q.path (.str s) (some q.opts)
  | .drop _ => deleteWithOptions q.ord xml q.path (some q.opts)

/-- The last step of its path fits the operation: `-1`, or the index. -/
def ListOp.Step : ListOp → Bytes → Prop
  | .push _, y => Negative y 1
  | .put j _, y => Position y ∧ ∃ i, Place (beforeBar y) (some i) ∧ min i (2 ^ 63 - 1) = j
  | .drop j, y => Position y ∧ ∃ i, Place (beforeBar y) (some i) ∧ min i (2 ^ 63 - 1) = j

/-- Its path is one of those that lead to the element in this place (whatever they are), then `x`, then that step. -/
def ListCall.Meant (cs : Bool) (x : Bytes) (c : Ctx) (n : Bytes) (q : ListCall) : Prop :=
  q.ord.IsPerm ∧ q.opts.caseSensitive = cs ∧ c!"<" ∉ q.opts.indent ∧ ∃ ss y, LeadTo cs ss c n ∧ PathSteps q.path (ss ++ [x, y]) ∧ q.op.Step y

/-- How many bytes it can add (the line break and the indentation are no longer than the options say, and a path has at most 100 steps). -/
def ListCall.cost (x : Bytes) (q : ListCall) : Nat :=
  match q.op with
  | .push s => (ListOp.push s).cost x + 1 + 100 * q.opts.indent.length
  | op => op.cost x

/-- The calls one after the other; nothing if one fails or the document gets longer than 10 MiB. -/
def ListCall.runAll (xml : Bytes) : List ListCall → Option Bytes
  | [] => some xml
  | q :: qs => match q.run xml with
    | .ret (r, none) => if r.length ≤ 10485760 then ListCall.runAll r qs else none
    | _ => none

end Verif.Spec
