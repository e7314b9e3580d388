import Verif.Spec.Dict
/- A document as an ordered tree in which names may repeat, independently of the code. The type of trees is that of nested dictionaries (Spec/Dict); here an entry is reached
by a name and its place among the entries of that name. -/
namespace Verif.Spec

/-- The entries of a name, in order. -/
def Dict.all (n : Bytes) : Dict → List Slot
  | .nil => []
  | .entry m as s k r => if m = n then ⟨as, s, k⟩ :: r.all n else r.all n

/-- The names of all entries, in order. -/
def Dict.names : Dict → List Bytes
  | .nil => []
  | .entry m _ _ _ r => m :: r.names

/-- Entry number `j` of a name changed or removed. -/
def Dict.alterNth (n : Bytes) (f : Slot → Option Slot) : Nat → Dict → Dict
  | _, .nil => .nil
  | j, .entry m as s k r =>
    if m = n then match j with
      | 0 => match f ⟨as, s, k⟩ with
        | none => r
        | some x => .entry m x.labels x.text x.kids r
      | j + 1 => .entry m as s k (r.alterNth n f j)
    else .entry m as s k (r.alterNth n f j)

/-- The entry at a path of steps. -/
def Dict.look : List Step → Dict → Option Slot
  | [], _ => none
  | [(n, j)], d => (d.all n)[j]?
  | (n, j) :: ps, d => (d.all n)[j]?.bind (fun x => x.kids.look ps)

/-- The entry at a path changed or removed; nothing happens if there is none. -/
def Dict.edit (f : Slot → Option Slot) : List Step → Dict → Dict
  | [], d => d
  | [(n, j)], d => d.alterNth n f j
  | (n, j) :: ps, d => d.alterNth n (fun x => some { x with kids := x.kids.edit f ps }) j

/-- What is below a path; the whole tree is below the empty one. -/
def Dict.under : List Step → Dict → Dict
  | [], d => d
  | p :: ps, d => match d.look (p :: ps) with
    | none => .nil
    | some x => x.kids

/-- What is below a path changed. -/
def Dict.into (g : Dict → Dict) : List Step → Dict → Dict
  | [], d => g d
  | p :: ps, d => d.edit (fun x => some { x with kids := g x.kids }) (p :: ps)

/-- An entry added at the end. -/
def Dict.snoc (n : Bytes) (x : Slot) : Dict → Dict
  | .nil => .entry n x.labels x.text x.kids .nil
  | .entry m as s k r => .entry m as s k (r.snoc n x)

/-- An entry added behind the last one of its name, or at the end. -/
def Dict.push (n : Bytes) (x : Slot) : Dict → Dict
  | .nil => .entry n x.labels x.text x.kids .nil
  | .entry m as s k r => if m = n ∧ n ∉ r.names then .entry m as s k (.entry n x.labels x.text x.kids r) else .entry m as s k (r.push n x)

/-- An entry that holds another one, and so on, with a text in the last one. -/
def nest : List Bytes → Bytes → Slot
  | [], s => { text := s }
  | n :: ns, s => { kids := .entry n (nest ns s).labels (nest ns s).text (nest ns s).kids .nil }

/-- What is done to a tree. -/
inductive GroveOp where
  /-- An entry gets a text and loses what is in it. -/
  | put (ps : List Step) (s : Bytes)
  /-- A new entry at the end, with others inside each other in it and a text in the last. -/
  | make (ps : List Step) (n : Bytes) (ns : List Bytes) (s : Bytes)
  /-- A new entry behind the last one of its name. -/
  | push (ps : List Step) (n : Bytes) (s : Bytes)
  | drop (ps : List Step)
  | label (ps : List Step) (k s : Bytes)
  | unlabel (ps : List Step) (k : Bytes)

/-- The tree afterwards. The last entry of the document is not removed. -/
def GroveOp.on : GroveOp → Dict → Dict
  | .put ps s, d => d.edit (fun x => some { x with text := s, kids := .nil }) ps
  | .make ps n ns s, d => d.into (fun k => k.snoc n (nest ns s)) ps
  | .push ps n s, d => d.into (fun k => k.push n { text := s }) ps
  | .drop ps, d => if d.edit (fun _ => none) ps = .nil then d else d.edit (fun _ => none) ps
  | .label ps k s, d => d.edit (fun x => some { x with labels := putLabel k s x.labels }) ps
  | .unlabel ps k, d => d.edit (fun x => some { x with labels := x.labels.filter (fun a => a.1 ≠ k) }) ps

/-- The steps of the operation. -/
def GroveOp.steps : GroveOp → List Step
  | .put ps _ | .make ps _ _ _ | .push ps _ _ | .drop ps | .label ps _ _ | .unlabel ps _ => ps

/-- The path of the operation when its steps are written as `parts`. -/
def GroveOp.parts (parts : List Bytes) : GroveOp → List Bytes
  | .put _ _ | .drop _ => parts
  | .make _ n ns _ => parts ++ n :: ns
  | .push _ n _ => parts ++ [n, b!"-1"]
  | .label _ k _ | .unlabel _ k => parts ++ [c!"@" :: k]

/-- There is something at the path, or the path is empty. -/
def Dict.Has (ps : List Step) (d : Dict) : Prop := ps = [] ∨ d.look ps ≠ none

/-- What the operation needs apart from a path that can be written. -/
def GroveOp.Needs (d : Dict) : GroveOp → Prop
  | .put ps s => d.look ps ≠ none ∧ (escapeXML s).length ≤ 5242880
  | .make ps n ns s => d.Has ps ∧ (∀ m ∈ n :: ns, Simple m) ∧ n ∉ (d.under ps).names ∧ (escapeXML s).length ≤ 5242880
  | .push ps n s => d.Has ps ∧ Simple n ∧ (escapeXML s).length ≤ 5242880
  | .drop ps => ps ≠ [] ∧ d ≠ .nil
  | .label ps k s => IsName k ∧ (escapeXML s).length ≤ 1048576 ∧ ∃ x, d.look ps = some x ∧ (putLabel k s x.labels).length ≤ 100
  | .unlabel ps k => ps ≠ [] ∧ IsName k ∧ d ≠ .nil

/-- The operation can be called: steps of simple names, a path of at most 100 parts, and what it needs. -/
def GroveOp.Fits (d : Dict) (op : GroveOp) : Prop :=
  (∀ p ∈ op.steps, Simple p.1) ∧ (∃ parts, StepsText op.steps parts ∧ (op.parts parts).length ≤ 100) ∧ op.Needs d

/-- Simple names and labels within the limits; nesting is limited. -/
def Dict.Tidy (d : Nat) : Dict → Prop
  | .nil => True
  | .entry n as _ k r => Simple n ∧ d < 100 ∧ LabelsFine as ∧ k.Tidy (d + 1) ∧ r.Tidy d

/-- A tree that `Set` can write. Entries of one name are next to each other (`seen` are the names before, the last one first). The path to every entry has at most 100 parts and at
most 99 if there are labels to be set: one part for the name and one for the index, unless it is the first entry of its name (`b` parts lead to the tree).
Labels are in order and within the limits, texts at most 5 MiB. -/
def Dict.Shaped (b : Nat) (seen : List Bytes) : Dict → Prop
  | .nil => True
  | .entry n as s k r => Simple n ∧ (n ∈ seen → seen.head? = some n) ∧ LabelsFine as ∧ (escapeXML s).length ≤ 5242880 ∧
      b + (if n ∈ seen then 2 else 1) + (if as = [] then 0 else 1) ≤ 100 ∧ k.Shaped (b + (if n ∈ seen then 2 else 1)) [] ∧ r.Shaped b (n :: seen)

/-- The calls that write a tree below a path, entry by entry, when entries of the names `seen` are there already: the entry with its text, then the labels, then what is in it. -/
def Dict.plant (at_ : List Step) (seen : List Bytes) : Dict → List GroveOp
  | .nil => []
  | .entry n as s k r => (if n ∈ seen then .push at_ n s else .make at_ n [] s) ::
      (as.map (fun a => .label (at_ ++ [(n, seen.count n)]) a.1 a.2) ++ (k.plant (at_ ++ [(n, seen.count n)]) [] ++ r.plant at_ (n :: seen)))

end Verif.Spec
