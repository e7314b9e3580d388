import Verif.Spec.Edit
/- A document as a nested dictionary, independently of the code. -/
namespace Verif.Spec

/-- A dictionary has entries, one after the other. Each has a name, labels (attributes), a text and a dictionary of its own. -/
inductive Dict where
  | nil
  | entry (name : Bytes) (labels : List (Bytes × Bytes)) (text : Bytes) (kids rest : Dict)
deriving DecidableEq, Repr

/-- What an entry says, apart from its name. -/
structure Slot where
  labels : List (Bytes × Bytes) := []
  text : Bytes := []
  kids : Dict := .nil
deriving DecidableEq, Repr

/-- The dictionary as a document. -/
def Dict.render : Dict → Bytes
  | .nil => []
  | .entry n as s k r => b!"<" ++ n ++ as.flatMap (fun a => b!" " ++ a.1 ++ b!"=\"" ++ escapeXML a.2 ++ b!"\"") ++ b!">" ++ escapeXML s ++ k.render ++
      b!"</" ++ n ++ b!">" ++ r.render

/-- The entry of a name. -/
def Dict.get (n : Bytes) : Dict → Option Slot
  | .nil => none
  | .entry m as s k r => if m = n then some ⟨as, s, k⟩ else r.get n

/-- The entry of a name changed, or added at the end, or removed. -/
def Dict.alter (n : Bytes) (f : Option Slot → Option Slot) : Dict → Dict
  | .nil => match f none with
    | none => .nil
    | some x => .entry n x.labels x.text x.kids .nil
  | .entry m as s k r =>
    if m = n then match f (some ⟨as, s, k⟩) with
      | none => r
      | some x => .entry m x.labels x.text x.kids r
    else .entry m as s k (r.alter n f)

/-- The entry at a path of names. -/
def Dict.find : List Bytes → Dict → Option Slot
  | [], _ => none
  | [n], d => d.get n
  | n :: ns, d => (d.get n).bind (fun x => x.kids.find ns)

/-- The entry at a path changed, added or removed. Missing entries on the way are added, unless nothing would be in them. -/
def Dict.change : List Bytes → (Option Slot → Option Slot) → Dict → Dict
  | [], _, d => d
  | [n], f, d => d.alter n f
  | n :: ns, f, d => d.alter n (fun
    | some x => some { x with kids := x.kids.change ns f }
    | none => if Dict.nil.change ns f = .nil then none else some { kids := Dict.nil.change ns f })

/-- A label added to labels in alphabetical order, or changed. -/
def putLabel (k v : Bytes) : List (Bytes × Bytes) → List (Bytes × Bytes)
  | [] => [(k, v)]
  | (j, u) :: l => if j = k then (k, v) :: l else if k < j then (k, v) :: (j, u) :: l else (j, u) :: putLabel k v l

/-- The value of a label. -/
def labelOf? (k : Bytes) (as : List (Bytes × Bytes)) : Option Bytes := (as.find? (fun a => a.1 = k)).map (·.2)

/-- All texts in a dictionary, in order. -/
def Dict.words : Dict → Bytes
  | .nil => []
  | .entry _ _ s k r => s ++ k.words ++ r.words

/-- What is done to a dictionary: an entry gets a text and nothing else, or is removed, or gets a label, or loses one. -/
inductive DictOp where
  | put (ns : List Bytes) (s : Bytes)
  | drop (ns : List Bytes)
  | label (ns : List Bytes) (k s : Bytes)
  | unlabel (ns : List Bytes) (k : Bytes)

/-- The dictionary afterwards. The last entry of the document is not removed. -/
def DictOp.on : DictOp → Dict → Dict
  | .put ns s, d => d.change ns (fun o => some ⟨(o.getD {}).labels, s, .nil⟩)
  | .drop ns, d => if d.change ns (fun _ => none) = .nil then d else d.change ns (fun _ => none)
  | .label ns k s, d => d.change ns (fun o => some { o.getD {} with labels := putLabel k s (o.getD {}).labels })
  | .unlabel ns k, d => d.change ns (fun o => o.map (fun x => { x with labels := x.labels.filter (fun a => a.1 ≠ k) }))

/-- A name without prefix. -/
def Simple (n : Bytes) : Prop := IsName n ∧ c!":" ∉ n

/-- Labels in order, within the limits. -/
structure LabelsFine (as : List (Bytes × Bytes)) : Prop where
  count : as.length ≤ 100
  names : ∀ a ∈ as, IsName a.1
  sizes : ∀ a ∈ as, (escapeXML a.2).length ≤ 1048576
  sorted : (as.map (·.1)).Pairwise (· < ·)

/-- Names are simple and occur once in a dictionary; nesting is limited. -/
def Dict.Fine (d : Nat) : Dict → Prop
  | .nil => True
  | .entry n as _ k r => Simple n ∧ d < 100 ∧ LabelsFine as ∧ k.Fine (d + 1) ∧ r.get n = none ∧ r.Fine d

/-- Paths of simple names, values within the limits, something to remove from, and at most 100 labels in an entry. -/
def DictOp.Fits (d : Dict) : DictOp → Prop
  | .put ns s => ns ≠ [] ∧ ns.length ≤ 100 ∧ (∀ n ∈ ns, Simple n) ∧ (escapeXML s).length ≤ 5242880
  | .drop ns => ns ≠ [] ∧ ns.length ≤ 100 ∧ (∀ n ∈ ns, Simple n) ∧ d ≠ .nil
  | .label ns k s => ns ≠ [] ∧ ns.length ≤ 99 ∧ (∀ n ∈ ns, Simple n) ∧ IsName k ∧ (escapeXML s).length ≤ 1048576 ∧
      (putLabel k s ((d.find ns).getD {}).labels).length ≤ 100
  | .unlabel ns k => ns ≠ [] ∧ ns.length ≤ 99 ∧ (∀ n ∈ ns, Simple n) ∧ IsName k ∧ d ≠ .nil

end Verif.Spec
