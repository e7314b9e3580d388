import Verif.Spec.Modifier
import Verif.Spec.Filter
import Verif.Spec.Value
import Verif.Model.GoLib
/-
What a whole path means: a sequence of moves from content to elements, and what is wanted of the elements reached at the end.
-/
namespace Verif.Spec

/-- One thing found: an element, the own text of an element, an attribute value or a number of elements. -/
inductive Item where
  | elem (nd : Node)
  | text (nd : Node)
  | attr (v : Bytes)
  | count (n : Nat)

/-- The answer to a question: nothing, one thing, or a list of things (possibly empty, possibly of one). -/
inductive Answer where
  | nothing
  | one (x : Item)
  | many (xs : List Item)

/-- One move. `p` is the condition of a filter; a filter not preceded by a name has `n = none`, and `**` followed by `*` is `deep none`. -/
inductive Move where
  | name (n : Bytes)
  | nth (n : Bytes) (j : Nat)
  | sat (n : Option Bytes) (p : Node → Bool)
  | satAll (n : Option Bytes) (p : Node → Bool)
  | any
  | deep (n : Option Bytes)

/-- What is wanted of the elements at the end. -/
inductive Goal where
  | elem
  | attr (a : Bytes)
  | text
  | count
  | fieldElem (f : Bytes)
  | fieldAttr (a : Bytes)
  | fieldText

/-- The elements of a level a filter chooses from, after a name. -/
def Info.among (i : Info) : Option Bytes → (Node → Bool) → List Node
  | some n, p => ((i.named n).take 1000).filter p
  | none, p => (i.elems.filter p).take 1000

/-- The elements a move leads to, in order. `root`: the move is the first of the path. -/
def Move.nodes (root : Bool) (i : Info) : Move → List Node
  | .name n => i.named n
  | .nth n j => (((i.hits root n).take 1000)[j]?).toList
  | .sat n p => (i.among n p).take 1
  | .satAll n p => i.among n p
  | .any => i.elems.take 1000
  | .deep none => i.within 101
  | .deep (some n) => (i.within 101).filter (fun e => nameMatches n e.name)

/-- Whether fields are collected from the elements a move leads to. -/
def Move.collects : Move → Bool
  | .nth _ _ => false
  | .any => false
  | _ => true

/-- What a goal takes from one element. -/
def Goal.items (nd : Node) : Goal → List Item
  | .elem => [.elem nd]
  | .attr a => (nd.attr a).toList.map .attr
  | .text => [.text nd]
  | .count => []
  | .fieldElem f => (nd.kids.elems.filter (fun x => x.name = f)).map .elem
  | .fieldAttr a => (nd.attr a).toList.map .attr
  | .fieldText => if trimSpace nd.kids.ownText = [] then [] else [.text nd]

def Goal.isField : Goal → Bool
  | .fieldElem _ => true
  | .fieldAttr _ => true
  | .fieldText => true
  | _ => false

def Answer.items : Answer → List Item
  | .nothing => []
  | .one x => [x]
  | .many xs => xs

/-- No thing, one thing, several things. -/
def pack : List Item → Answer
  | [] => .nothing
  | [x] => .one x
  | xs => .many xs

/-- The first answer that is something. -/
def firstAnswer : List Answer → Answer
  | [] => .nothing
  | .nothing :: as => firstAnswer as
  | a :: _ => a

/-- Whole lists one after the other, until there are at least `k` things. -/
def fill {α : Type} : Nat → List (List α) → List α
  | 0, _ => []
  | _ + 1, [] => []
  | k + 1, l :: ls => l ++ fill (k + 1 - l.length) ls

def Answer.isEmptyList : Answer → Bool
  | .many [] => true
  | _ => false

/-- How the answers below the elements of a move are put together. -/
def Move.join (as : List Answer) : Move → Answer
  | .name _ => firstAnswer as
  | .nth _ _ => firstAnswer as
  | .sat _ _ => firstAnswer as
  | .satAll _ _ => pack (as.flatMap Answer.items)
  | .any => if (as.flatMap Answer.items).isEmpty && as.any Answer.isEmptyList then .many [] else pack (as.flatMap Answer.items)
  | .deep _ => pack (fill 1000 (as.map Answer.items))

/-- The answer after `#(…)#`: the elements are an Array even if there is only one. -/
def Goal.listed (nds : List Node) : Goal → Answer
  | .elem => .many (nds.map .elem)
  | g => pack (nds.flatMap (fun nd => g.items nd))

/-- The answer when the goal follows the move. Only a name can be followed by a count; own text is not found below an index inside the path; and
fields are not collected below an index or `*`, where the list stays empty. -/
def Move.last (root : Bool) (i : Info) (m : Move) (g : Goal) : Answer :=
  match m, g with
  | .name n, .count => if (i.hits root n).isEmpty then .nothing else .one (.count (min 1000 (i.hits root n).length))
  | .name n, g =>
    if g.isField then
      if root && (i.hits root n).isEmpty then .nothing else .many ((((i.hits root n).take 1000).flatMap (fun nd => g.items nd)).take 1000)
    else pack (((i.named n).take 1).flatMap (fun nd => g.items nd))
  | .deep n, g => pack (fill 1000 (((Move.deep n).nodes root i).map (fun nd => (g.items nd).take 1000)))
  | m, g =>
    if (m.nodes root i).isEmpty then .nothing
    else if g.isField then .many (if m.collects then ((m.nodes root i).flatMap (fun nd => g.items nd)).take 1000 else [])
    else
      match m, g with
      | .satAll _ _, g => g.listed (m.nodes root i)
      | .nth _ _, .text => if root then pack ((m.nodes root i).flatMap (fun nd => g.items nd)) else .nothing
      | _, _ => pack ((m.nodes root i).flatMap (fun nd => g.items nd))

/-- The answer to a path: moves, then a goal. -/
def ask : List Move → Goal → Bool → Info → Answer
  | [], g, _, _ => if g.isField then .many [] else .nothing
  | [m], g, root, i => m.last root i g
  | m :: n :: ms, g, root, i => m.join ((m.nodes root i).map (fun nd => ask (n :: ms) g false nd.kids))

/-- A filter after a name belongs to the name. -/
def Move.Free : Move → Prop
  | .sat none _ => False
  | .satAll none _ => False
  | _ => True

/-- Sequences of moves that a path can spell. -/
def Proper : List Move → Prop
  | .name _ :: n :: ms => n.Free ∧ Proper (n :: ms)
  | _ :: n :: ms => Proper (n :: ms)
  | _ => True

/-- The result describes the thing. -/
def Is (r : Result) : Item → Prop
  | .elem nd => IsElement r nd
  | .text nd => IsOwnText r nd
  | .attr v => r = .ofAttr v
  | .count n => r = .ofCount n

/-- The result is the answer: Null for nothing, an Array for a list. -/
def Gives (r : Result) : Answer → Prop
  | .nothing => r = .null
  | .one x => Is r x
  | .many xs => r.typ = .array ∧ All2 Is r.results xs

/-- The text of a thing. -/
def Item.str : Item → Bytes
  | .elem nd => nd.kids.textValue
  | .text nd => nd.kids.ownValue
  | .attr v => v
  | .count n => natDec n

/-- The text of an answer: none of nothing, a list in brackets. -/
def Answer.str : Answer → Option Bytes
  | .nothing => none
  | .one x => some x.str
  | .many xs => some (listText (xs.map (fun x => wellFormed x.str)))

/-- How a goal is spelled, as parts of a path. -/
inductive GoalText : List Bytes → Goal → Prop where
  | elem : GoalText [] .elem
  | attr {a : Bytes} (h : c!"|" ∉ a) : GoalText [c!"@" :: a] (.attr a)
  | text : GoalText [b!"%"] .text
  | count : GoalText [b!"#"] .count
  | fieldElem {f : Bytes} (h : Identifier f) (hl : f.length ≤ 256) : GoalText [b!"#", f] (.fieldElem f)
  | fieldAttr {a : Bytes} (h : Identifier a) (hl : a.length < 256) : GoalText [b!"#", c!"@" :: a] (.fieldAttr a)
  | fieldText : GoalText [b!"#", b!"%"] .fieldText

/-- What is spelled: a move or moves by parts of a path, or a test (what of an element a filter compares) by a filter path. -/
inductive Meaning where
  | move (parts : List Bytes) (m : Move)
  | moves (parts : List Bytes) (ms : List Move)
  | test (path : Bytes) (f : Node → Option Bytes)

/-- How moves and tests are spelled. `deep`: `**` may be used. A filter path is itself a path, with filters inside; it cannot end in own text, as `%` is an
operator in a filter. -/
inductive Spells (pf : Bytes → Option FVal) (deep : Bool) : Meaning → Prop where
  | name {n : Bytes} (hn : PlainName n) : Spells pf deep (.move [n] (.name n))
  | nth {n ds : Bytes} {j : Nat} (hn : PlainName n) (hd : Decimal ds j) : Spells pf deep (.move [n, ds] (.nth n j))
  | sat {n expr p v : Bytes} {op : FilterOp} {f : Node → Option Bytes} {q : Node → Bool} (hn : PlainName n) (hc : CondText expr p op v)
      (ht : Spells pf deep (.test p f)) (hq : ∀ nd, q nd = true ↔ Holds pf op v (f nd)) :
      Spells pf deep (.move [n, filterPart expr false] (.sat (some n) q))
  | satF {expr p v : Bytes} {op : FilterOp} {f : Node → Option Bytes} {q : Node → Bool} (hc : CondText expr p op v)
      (ht : Spells pf deep (.test p f)) (hq : ∀ nd, q nd = true ↔ Holds pf op v (f nd)) : Spells pf deep (.move [filterPart expr false] (.sat none q))
  | satAll {n expr p v : Bytes} {op : FilterOp} {f : Node → Option Bytes} {q : Node → Bool} (hn : PlainName n) (hc : CondText expr p op v)
      (ht : Spells pf deep (.test p f)) (hq : ∀ nd, q nd = true ↔ Holds pf op v (f nd)) :
      Spells pf deep (.move [n, filterPart expr true] (.satAll (some n) q))
  | satAllF {expr p v : Bytes} {op : FilterOp} {f : Node → Option Bytes} {q : Node → Bool} (hc : CondText expr p op v)
      (ht : Spells pf deep (.test p f)) (hq : ∀ nd, q nd = true ↔ Holds pf op v (f nd)) : Spells pf deep (.move [filterPart expr true] (.satAll none q))
  | any : Spells pf deep (.move [b!"*"] .any)
  | deep {n : Bytes} (hd : deep = true) (hn : PlainName n) : Spells pf deep (.move [b!"**", n] (.deep (some n)))
  | deepAny {s : Bytes} (hd : deep = true) (hs : s = b!"*" ∨ s = b!"**") : Spells pf deep (.move [b!"**", s] (.deep none))
  | nil : Spells pf deep (.moves [] [])
  | cons {ps qs : List Bytes} {m : Move} {ms : List Move} (h : Spells pf deep (.move ps m)) (hs : Spells pf deep (.moves qs ms)) :
      Spells pf deep (.moves (ps ++ qs) (m :: ms))
  | attr {a : Bytes} : Spells pf deep (.test (c!"@" :: a) (fun nd => nd.attr a))
  | path {ps gs : List Bytes} {ms : List Move} {g : Goal} (h : Spells pf deep (.moves ps ms)) (hg : GoalText gs g) (hne : ms ≠ []) (hp : Proper ms)
      (ht : g ≠ .text ∧ g ≠ .fieldText) (hl : (ps ++ gs).length ≤ 100) :
      Spells pf deep (.test (pathOf (ps ++ gs)) (fun nd => (ask ms g true nd.kids).str))

end Verif.Spec

namespace Verif.Spec

/-- A modifier name: without `|`, ending in a visible ASCII character. -/
def ModName (n : Bytes) : Prop := c!"|" ∉ n ∧ ∀ c, n.getLast? = some c → 0x21 ≤ c ∧ c ≤ 0x7E

/-- Modifiers written on the last part of a path. -/
def withMods (names : List Bytes) : List Bytes → List Bytes
  | [] => []
  | [p] => [p ++ names.flatMap (fun n => b!"|@" ++ n)]
  | p :: q :: r => p :: withMods names (q :: r)

/-- Moves that lead to one element. -/
def Move.single : Move → Bool
  | .name _ => true
  | .nth _ _ => true
  | .sat _ _ => true
  | _ => false

/-- Paths whose modifiers are not applied: an index or a count right below the document, and whatever ends in `**` with a name. -/
def Forgets (ms : List Move) (g : Goal) : Prop :=
  ((∃ n j, ms = [.nth n j]) ∧ (g = .elem ∨ g = .text ∨ ∃ a, g = .attr a)) ∨ ((∃ n, ms = [.name n]) ∧ g = .count) ∨
    ((∃ n, ms.getLast? = some (.deep n)) ∧ g.isField = false)

/-- The modifiers `names` of the registry `mods` do not lose a result: applied to something a query can find - one existing result, or a list of such without a text of its own -
they do not give a missing result. -/
def Keeps (mods : Bytes → Option (Result → Result)) (names : List Bytes) : Prop :=
  ∀ r out : Result, r.array ≠ [] → (∀ x ∈ r.array, x.isArray = false ∧ x.exists? = true) → (r.isArray = true → r.raw = []) → Pipeline mods r names out → out.exists? = true

end Verif.Spec
