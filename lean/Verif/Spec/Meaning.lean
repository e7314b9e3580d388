import Verif.Spec.LabelsAny
import Verif.Spec.Children
/- Set and Delete as functions on what documents say. -/
namespace Verif.Spec

/-- Every element has an end tag and no attribute twice. -/
def Forest.Regular : Forest → Prop
  | .nil => True
  | .text _ next => next.Regular
  | .misc _ next => next.Regular
  | .leaf _ _ _ _ => False
  | .node _ as _ kids _ next => (as.map (·.name)).Nodup ∧ kids.Regular ∧ next.Regular

/-- The bytes are such a document, and this is what it says. The order of attributes, their quotes, the kinds of blanks between them
and the white space in tags of root elements are no part of what it says. -/
def Doc (xml : Bytes) (i : Info) : Prop := ∃ f : Forest, Editable f ∧ f.Regular ∧ f.render = xml ∧ f.info = i

/-- One level followed by another. -/
def Info.plus : Info → Info → Info
  | .nil, y => y
  | .text b next, y => .text b (next.plus y)
  | .misc m next, y => .misc m (next.plus y)
  | .elem n a k next, y => .elem n a k (next.plus y)

/-- What becomes of an element (its name, attributes and content) and what follows it on its level. -/
abbrev Turn := Bytes → (Bytes → Option Bytes) → Info → Info → Info

/-- The `j`-th element of a level that satisfies `q`, turned; nothing if there is none. -/
def Info.atNth (cs : Bool) (q : Pick) (g : Turn) : Info → Nat → Info
  | .nil, _ => .nil
  | .text b next, j => .text b (next.atNth cs q g j)
  | .misc m next, j => .misc m (next.atNth cs q g j)
  | .elem n a k next, j =>
    if q.takes cs n = true then
      match j with
      | 0 => g n a k next
      | j + 1 => .elem n a k (next.atNth cs q g j)
    else .elem n a k (next.atNth cs q g j)

/-- The element that the steps down lead to, turned. -/
def Info.alter (cs : Bool) (g : Turn) : List Hop → Info → Info
  | [], i => i
  | (q, j) :: hs, i => i.atNth cs q (if hs = [] then g else fun n a k next => .elem n a (k.alter cs g hs) next) j

/-- The same for the content of the element, or the whole document if there are no steps. -/
def Info.inside (cs : Bool) (g : Info → Info) (hs : List Hop) (i : Info) : Info :=
  if hs = [] then g i else i.alter cs (fun n a k next => .elem n a (g k) next) hs

/-- New elements of these names inside each other, around this content. -/
def Info.chain (ind : Bytes) : Nat → List Bytes → Info → Info
  | _, [], w => w
  | d, n :: ns, w => .text (newLine ind d) (.elem n (fun _ => none) (Info.chain ind (d + 1) ns w) .nil)

/-- Content written at the end of these names: from level to level into the first element of the name; where there is none, new elements at the end of the level. -/
def Info.write (cs : Bool) (ind : Bytes) (w : Info) : List Bytes → Info → Info
  | [], _ => w
  | x :: xs, i =>
    if i.count cs (.name x) = 0 then i.plus (Info.chain ind 0 ((x :: xs).map (spelling cs)) w)
    else i.atNth cs (.name x) (fun n a k next => .elem n a (Info.write cs ind w xs k) next) 0

/-- A new element of this name around this content, behind the last element of a level that matches `x`, or at the end of the level if there is none; `nl` comes before it if something else (or `pre`)
does. -/
def Info.add (cs : Bool) (x nl n : Bytes) (w : Info) : Bool → Info → Info
  | pre, .nil => .text (if pre then nl else []) (.elem n (fun _ => none) w .nil)
  | pre, .text b next => .text b (Info.add cs x nl n w (pre || decide (b ≠ [])) next)
  | _, .misc m next => .misc m (Info.add cs x nl n w true next)
  | _, .elem m a k next =>
    if agrees cs x m = true ∧ next.count cs (.name x) = 0 then .elem m a k (.text nl (.elem n (fun _ => none) w next))
    else .elem m a k (Info.add cs x nl n w true next)

/-- What is done to a document: content is written at a path of steps that are there and then names; an element with content is added (on a line of its own, at this depth); an element is removed; an
attribute gets a value or is removed; an element is created with an attribute. -/
inductive DocOp where
  | write (hs : List Hop) (xs : List Bytes) (w : Info)
  | add (hs : List Hop) (d : Nat) (x : Bytes) (w : Info)
  | remove (hs : List Hop)
  | label (hs : List Hop) (op : MapOp)
  | attach (hs : List Hop) (xs : List Bytes) (k s : Bytes)

/-- Is it an operation of Set (and not of Delete). -/
def DocOp.Sets : DocOp → Prop
  | .write _ _ _ | .add _ _ _ _ | .label _ (.put _ _) | .attach _ _ _ _ => True
  | .remove _ | .label _ (.drop _) => False

/-- What the document says then. -/
noncomputable def DocOp.on (cs : Bool) (ind : Bytes) : DocOp → Info → Info
  | .write hs xs w, i => i.inside cs (Info.write cs ind w xs) hs
  | .add hs d x w, i => i.alter cs (fun n a k next => .elem n a (Info.add cs x (newLine ind d) (spelling cs x) w false k) next) hs
  | .remove hs, i => i.alter cs (fun _ _ _ next => next) hs
  | .label hs op, i => i.alter cs (fun n a k next => .elem n (op.onBy cs a) k next) hs
  | .attach hs xs x s, i => (i.inside cs (Info.write cs ind .nil xs) hs).alter cs (fun n a k next => .elem n ((MapOp.put x s).onBy cs a) k next) (hs ++ xs.map fun x => (.name x, 0))

/-- A call with options, a path and a value (and the order in which it runs through maps). -/
structure DocCall where
  ord : Ord
  path : Bytes
  val : GoVal
  opts : Options
  op : DocOp

/-- The call: Set, or Delete. -/
def DocCall.run (q : DocCall) (xml : Bytes) : Outcome (Bytes × Option Err) :=
  match q.op with
  | .write _ _ _ | .add _ _ _ _ | .label _ (.put _ _) | .attach _ _ _ _ => setWithOptions q.ord xml q.path q.val (some q.opts)
  | .remove _ | .label _ (.drop _) => deleteWithOptions q.ord xml q.path (some q.opts)

noncomputable def DocCall.on (q : DocCall) (i : Info) : Info := q.op.on q.opts.caseSensitive q.opts.indent i

/-- The value is stored as this content of an element at this depth: a text, or well-formed markup given as it is. -/
def StoredAs (v : GoVal) (d : Nat) (w : Info) : Prop :=
  ∃ g : Forest, g.info = w ∧ g.Legal d ∧ g.Tame false ∧ g.Even ∧ g.Regular ∧ v ≠ .nil ∧ valueToXML v = some g.render ∧ g.render.length ≤ 5242880

/-- The value is stored as a text, like this string. -/
def StoredText (v : GoVal) (s : Bytes) : Prop := v ≠ .nil ∧ valueToXML v = valueToXML (.str s) ∧ storedSize (.str s) ≤ 5242880

/-- The steps of the path are those of the operation, and the value is stored as it says. A root element is removed only if there is another one. What a Set writes into has to be there, up to the names at
the end; there are at most 100 levels, and 100 names of attributes. -/
def DocOp.Meant (cs : Bool) (i : Info) (ss : List Bytes) (v : GoVal) : DocOp → Prop
  | .write hs xs w => (∃ ps, ss = ps ++ xs ∧ ss ≠ [] ∧ Trail ps (some hs)) ∧ (∀ x ∈ xs, IsName x) ∧ (hs = [] ∨ i.spot cs hs ≠ none) ∧ hs.length + xs.length ≤ 100 ∧ StoredAs v (hs.length + xs.length) w
  | .add hs d x w => (∃ ps y, ss = ps ++ [x, y] ∧ ps.length = d ∧ Trail ps (some hs) ∧ Negative y 1) ∧ IsName x ∧ i.spot cs hs ≠ none ∧ StoredAs v (hs.length + 1) w
  | .remove hs => Trail ss (some hs) ∧ ss ≠ [] ∧ (2 ≤ hs.length ∨ i.spot cs hs = none ∨ 2 ≤ i.elems.length)
  | .label hs op => ∃ ps nd, ss = ps ++ [c!"@" :: op.key] ∧ Trail ps (some hs) ∧ op.Fits ∧ (∀ k s, op = .put k s → StoredText v s) ∧ i.spot cs hs = some nd ∧
      ∃ ks : List Bytes, ks.length ≤ 100 ∧ spelling cs op.key ∈ ks ∧ ∀ j, nd.attr j ≠ none → j ∈ ks
  | .attach hs xs k s => (∃ ps, ss = ps ++ xs ++ [c!"@" :: k] ∧ Trail ps (some hs)) ∧ xs ≠ [] ∧ (∀ x ∈ xs, IsName x) ∧ (hs = [] ∨ i.spot cs hs ≠ none) ∧
      i.spot cs (hs ++ xs.map fun x => (.name x, 0)) = none ∧ hs.length + xs.length ≤ 100 ∧ (MapOp.put k s).Fits ∧ StoredText v s

def DocCall.Meant (q : DocCall) (i : Info) : Prop := q.ord.IsPerm ∧ c!"<" ∉ q.opts.indent ∧ ∃ ss, PathSteps q.path ss ∧ q.op.Meant q.opts.caseSensitive i ss q.val

/-- All of them one after the other. -/
def DocCall.AllMeant : List DocCall → Info → Prop
  | [], _ => True
  | q :: qs, i => q.Meant i ∧ AllMeant qs (q.on i)

noncomputable def DocCall.onAll (qs : List DocCall) (i : Info) : Info := qs.foldl (fun i q => q.on i) i

/-- The calls one after the other; nothing if one fails or the document gets longer than 10 MiB. -/
def DocCall.runAll (xml : Bytes) : List DocCall → Option Bytes
  | [] => some xml
  | q :: qs => match q.run xml with
    | .ret (r, none) => if r.length ≤ 10485760 then DocCall.runAll r qs else none
    | _ => none

end Verif.Spec
