import Verif.Spec.Edit
/- The attributes of an element as a map from names to values, independently of the code. -/
namespace Verif.Spec

/-- What is done to a map: a value is given to a name, or the name is removed. -/
inductive MapOp where
  | put (k s : Bytes)
  | drop (k : Bytes)

/-- The name it is about. -/
def MapOp.key : MapOp → Bytes
  | .put k _ => k
  | .drop k => k

/-- The map afterwards. -/
def MapOp.on : MapOp → (Bytes → Option Bytes) → Bytes → Option Bytes
  | .put k s, m => fun j => if j = k then some s else m j
  | .drop k, m => fun j => if j = k then none else m j

/-- The map after all operations. -/
def MapOp.onAll (ps : List MapOp) (m : Bytes → Option Bytes) : Bytes → Option Bytes := ps.foldl (fun m p => p.on m) m

/-- Names can be names of attributes, and values are limited to 1 MiB as written. -/
def MapOp.Fits : MapOp → Prop
  | .put k s => IsName k ∧ (escapeXML s).length ≤ 1048576
  | .drop k => c!"|" ∉ k

/-- The attributes of the element that the steps lead to are `m`; their names are among `ks`. -/
structure Labels (ps : List Step) (ks : List Bytes) (c : Ctx) (e : El) (m : Bytes → Option Bytes) : Prop where
  doc : Editable (c.plug (e.cons .nil))
  there : Leads ps c e.name
  once : (e.attrs.map (·.name)).Nodup
  names : ∀ a ∈ e.attrs, a.name ∈ ks
  map : attrVal e.attrs = m

/-- The tag as the library writes it. -/
structure Canonical (e : El) : Prop where
  neat : Neat e.attrs
  sorted : (e.attrs.map (·.name)).Pairwise LexBefore
  ws : e.ws = []

end Verif.Spec
