import Verif.Spec.Labels
import Verif.Spec.Trail
import Verif.Model.Set
/- The attributes of an element as a map, changed with paths and options of any kind. -/
namespace Verif.Spec

open Classical in
/-- The map after an operation whose names are compared in this way: a value is given to all names that match, or to the one asked for if there is none; or all that match are removed. -/
noncomputable def MapOp.onBy (cs : Bool) : MapOp → (Bytes → Option Bytes) → Bytes → Option Bytes
  | .put k s, m => fun j =>
    if sameKey cs j k then
      if ∃ i, sameKey cs i k ∧ m i ≠ none then (if m j = none then none else some s)
      else if j = spelling cs k then some s else none
    else m j
  | .drop k, m => fun j => if sameKey cs j k then none else m j

/-- A call with options and a path, meant to be an operation on attributes (and the order in which it runs through maps). -/
structure LabelCall where
  ord : Ord
  path : Bytes
  opts : Options
  op : MapOp

/-- The call: Set of a string, or Delete. -/
def LabelCall.run (q : LabelCall) (xml : Bytes) : Outcome (Bytes × Option Err) :=
  match q.op with
  | .put _ s => setWithOptions q.ord xml q.path (.str s) (some q.opts)
  | .drop _ => deleteWithOptions q.ord xml q.path (some q.opts)

/-- Its path is one of those that lead to the element in this place (whatever they are), then the name. A new name is one of `ks`. -/
def LabelCall.Meant (ks : List Bytes) (c : Ctx) (n : Bytes) (q : LabelCall) : Prop :=
  q.ord.IsPerm ∧ q.op.Fits ∧ spelling q.opts.caseSensitive q.op.key ∈ ks ∧ ∃ ss, LeadTo q.opts.caseSensitive ss c n ∧ PathSteps q.path (ss ++ [c!"@" :: q.op.key])

/-- The calls one after the other; nothing if one fails or the document gets longer than 10 MiB. -/
def LabelCall.runAll (xml : Bytes) : List LabelCall → Option Bytes
  | [] => some xml
  | q :: qs => match q.run xml with
    | .ret (r, none) => if r.length ≤ 10485760 then LabelCall.runAll r qs else none
    | _ => none

/-- The map after all of them. -/
noncomputable def LabelCall.onAll (qs : List LabelCall) (m : Bytes → Option Bytes) : Bytes → Option Bytes := qs.foldl (fun m q => q.op.onBy q.opts.caseSensitive m) m

/-- The attributes of the element in this place are `m`; their names are among `ks`. -/
structure LabelsAt (ks : List Bytes) (c : Ctx) (e : El) (m : Bytes → Option Bytes) : Prop where
  doc : Editable (c.plug (e.cons .nil))
  once : (e.attrs.map (·.name)).Nodup
  names : ∀ a ∈ e.attrs, a.name ∈ ks
  map : attrVal e.attrs = m

end Verif.Spec
