import Verif.Spec.Group
import Verif.Spec.Trail
import Verif.Model.Set
/- All the children of an element as a list, changed with paths and options of any kind. -/
namespace Verif.Spec

/-- What is said about a child: its name and attributes, all the text in it, the elements in it, and whether it has an end tag. -/
structure Child where
  name : Bytes
  attr : Bytes → Option Bytes
  text : Bytes
  kids : List Node
  whole : Bool

def El.child (e : El) : Child := ⟨e.name, attrVal e.attrs, e.node.kids.textValue, e.node.kids.elems, e.body.isSome⟩

/-- The elements on the top level, in their order. -/
def Forest.children : Forest → List Child
  | .nil => []
  | .text _ next => next.children
  | .misc _ next => next.children
  | .leaf n as ws next => El.child ⟨n, as, ws, none⟩ :: next.children
  | .node n as ws k cws next => El.child ⟨n, as, ws, some (k, cws)⟩ :: next.children

/-- What is done to such a list: an entry gets a text, or is removed, or one of a name is added behind the last one of this name, or at the end. -/
inductive ChildOp where
  | put (i : Nat) (s : Bytes)
  | drop (i : Nat)
  | push (x s : Bytes)
  | make (x s : Bytes)

/-- An entry with nothing but a text. White space around it is lost. -/
def newChild (x s : Bytes) : Child := ⟨x, fun _ => none, trimSpace s, [], true⟩

/-- `n` behind the last entry matching `x`, or at the end if there is none. -/
def addBehind (cs : Bool) (x : Bytes) (n : Child) : List Child → List Child
  | [] => [n]
  | d :: l => if agrees cs x d.name && l.all (fun d => !agrees cs x d.name) then d :: n :: l else d :: addBehind cs x n l

/-- The list afterwards. -/
def ChildOp.on (cs : Bool) : ChildOp → List Child → List Child
  | .put i s, l => l.modify i fun d => { d with text := trimSpace s, kids := [] }
  | .drop i, l => l.eraseIdx i
  | .push x s, l => addBehind cs x (newChild (spelling cs x) s) l
  | .make x s, l => l ++ [newChild (spelling cs x) s]

/-- The last steps of a path (a name, `*` or `**`, with a position or without) ask for the entry `i`: it satisfies the step, and as many entries before it do as the position says. -/
def AtChild (cs : Bool) (l : List Child) (zs : List Bytes) (i : Nat) : Prop :=
  ∃ k j d, Trail zs (some [(k, j)]) ∧ l[i]? = some d ∧ k.takes cs d.name = true ∧ ((l.take i).filter fun d => k.takes cs d.name).length = j

/-- The last steps of the path fit the operation. Only entries with an end tag can get a text, and texts are limited. -/
def ChildOp.Step (cs : Bool) (l : List Child) : ChildOp → List Bytes → Prop
  | .put i s, zs => AtChild cs l zs i ∧ (∀ d, l[i]? = some d → d.whole = true) ∧ storedSize (.str s) ≤ 5242880
  | .drop i, zs => AtChild cs l zs i
  | .push x s, zs => (∃ y, zs = [x, y] ∧ Negative y 1) ∧ IsName x ∧ storedSize (.str s) ≤ 5242880
  | .make x s, zs => zs = [x] ∧ IsName x ∧ storedSize (.str s) ≤ 5242880 ∧ ∀ d ∈ l, agrees cs x d.name = false

/-- A call with options and a path, meant to be such an operation (and the order in which it runs through maps). -/
structure ChildCall where
  ord : Ord
  path : Bytes
  opts : Options
  op : ChildOp

/-- The call: Set of a string, or Delete. -/
def ChildCall.run (q : ChildCall) (xml : Bytes) : Outcome (Bytes × Option Err) :=
  match q.op with
  | .drop _ => deleteWithOptions q.ord xml q.path (some q.opts)
  | .put _ s | .push _ s | .make _ s => setWithOptions q.ord xml q.path (.str s) (some q.opts)

/-- What it does to the list. -/
def ChildCall.on (q : ChildCall) (l : List Child) : List Child := q.op.on q.opts.caseSensitive l

/-- Its path is one of those that lead to the element in this place (whatever they are), followed by steps that fit the operation on the list. -/
def ChildCall.Meant (c : Ctx) (n : Bytes) (q : ChildCall) (l : List Child) : Prop :=
  q.ord.IsPerm ∧ c!"<" ∉ q.opts.indent ∧ ∃ ss zs, LeadTo q.opts.caseSensitive ss c n ∧ PathSteps q.path (ss ++ zs) ∧ q.op.Step q.opts.caseSensitive l zs

/-- All of them one after the other. -/
def ChildCall.AllMeant (c : Ctx) (n : Bytes) : List ChildCall → List Child → Prop
  | [], _ => True
  | q :: qs, l => q.Meant c n l ∧ AllMeant c n qs (q.on l)

/-- The list after all of them. -/
def ChildCall.onAll (qs : List ChildCall) (l : List Child) : List Child := qs.foldl (fun l q => q.on l) l

/-- It adds an entry, and white space before it. -/
def ChildCall.Spaces (q : ChildCall) : Prop :=
  match q.op with
  | .put _ _ | .drop _ => False
  | .push _ _ | .make _ _ => q.opts.indent ≠ []

/-- How many bytes it can add. -/
def ChildCall.cost (q : ChildCall) : Nat :=
  match q.op with
  | .put _ s => storedSize (.str s)
  | .drop _ => 0
  | .push x s | .make x s => storedSize (.str s) + 2 * x.length + 6 + 100 * q.opts.indent.length

/-- The calls one after the other; nothing if one fails or the document gets longer than 10 MiB. -/
def ChildCall.runAll (xml : Bytes) : List ChildCall → Option Bytes
  | [] => some xml
  | q :: qs => match q.run xml with
    | .ret (r, none) => if r.length ≤ 10485760 then ChildCall.runAll r qs else none
    | _ => none

end Verif.Spec
