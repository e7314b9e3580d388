import Verif.Spec.Ask
import Verif.Spec.Options
import Verif.Spec.Order
/-
What a whole path means when options are given: as in Spec/Ask, with the names of the path compared as `CaseSensitive` says.
-/
namespace Verif.Spec

/-- The value of an attribute whose name is the same as `a`. (If several differ only in case, one of them.) -/
noncomputable def Node.attrBy (cs : Bool) (nd : Node) (a : Bytes) : Option Bytes :=
  open Classical in if h : ∃ v j, sameKey cs j a ∧ nd.attr j = some v then some h.choose else none

/-- The elements that a name leads to before an index or `#`: exactly so named at the top of the document, if names are case-sensitive. -/
def Info.hitsBy (cs root : Bool) (i : Info) (n : Bytes) : List Node := if cs then i.hits root n else i.namedBy cs n

/-- The elements of a level a filter chooses from, after a name. -/
def Info.amongBy (cs : Bool) (i : Info) : Option Bytes → (Node → Bool) → List Node
  | some n, p => ((i.namedBy cs n).take 1000).filter p
  | none, p => (i.elems.filter p).take 1000

/-- The elements a move leads to. -/
def Move.nodesBy (cs root : Bool) (i : Info) : Move → List Node
  | .name n => i.namedBy cs n
  | .nth n j => (((i.hitsBy cs root n).take 1000)[j]?).toList
  | .sat n p => (i.amongBy cs n p).take 1
  | .satAll n p => i.amongBy cs n p
  | .any => i.elems.take 1000
  | .deep none => i.within 101
  | .deep (some n) => (i.within 101).filter (fun e => agrees cs n e.name)

/-- What a goal takes from one element. -/
noncomputable def Goal.itemsBy (cs : Bool) (nd : Node) : Goal → List Item
  | .elem => [.elem nd]
  | .attr a => (nd.attrBy cs a).toList.map .attr
  | .text => [.text nd]
  | .count => []
  | .fieldElem f => (nd.kids.elems.filter (fun x => sameKey cs x.name f)).map .elem
  | .fieldAttr a => (nd.attrBy cs a).toList.map .attr
  | .fieldText => if trimSpace nd.kids.ownText = [] then [] else [.text nd]

/-- How the answers below the elements of a move are put together. Here empty lists below `*` are nothing. -/
def Move.joinBy (as : List Answer) : Move → Answer
  | .any => pack (as.flatMap Answer.items)
  | m => m.join as

/-- The answer after `#(…)#`. -/
noncomputable def Goal.listedBy (cs : Bool) (nds : List Node) : Goal → Answer
  | .elem => .many (nds.map .elem)
  | g => pack (nds.flatMap (fun nd => g.itemsBy cs nd))

/-- The answer when the goal follows the move. Here no fields are found below `*` and `**`, and the Array of fields below an index stays empty. -/
noncomputable def Move.lastBy (cs root : Bool) (i : Info) (m : Move) (g : Goal) : Answer :=
  match m, g with
  | .name n, .count => if (i.hitsBy cs root n).isEmpty then .nothing else .one (.count (min 1000 (i.hitsBy cs root n).length))
  | .name n, g =>
    if g.isField then
      if root && cs && (i.hitsBy cs root n).isEmpty then .nothing
      else .many ((((i.hitsBy cs root n).take 1000).flatMap (fun nd => g.itemsBy cs nd)).take 1000)
    else pack (((i.namedBy cs n).take 1).flatMap (fun nd => g.itemsBy cs nd))
  | .deep n, g => if g.isField then .nothing else pack (fill 1000 (((Move.deep n).nodesBy cs root i).map (fun nd => g.itemsBy cs nd)))
  | .any, g => if g.isField then .nothing else pack (((Move.any).nodesBy cs root i).flatMap (fun nd => g.itemsBy cs nd))
  | .nth n j, g =>
    if ((Move.nth n j).nodesBy cs root i).isEmpty then .nothing
    else if g.isField then .many []
    else
      match g with
      | .text => if root && cs then pack (((Move.nth n j).nodesBy cs root i).flatMap (fun nd => g.itemsBy cs nd)) else .nothing
      | _ => pack (((Move.nth n j).nodesBy cs root i).flatMap (fun nd => g.itemsBy cs nd))
  | m, g =>
    if (m.nodesBy cs root i).isEmpty then .nothing
    else if g.isField then .many (((m.nodesBy cs root i).flatMap (fun nd => g.itemsBy cs nd)).take 1000)
    else
      match m, g with
      | .satAll _ _, g => g.listedBy cs (m.nodesBy cs root i)
      | _, _ => pack ((m.nodesBy cs root i).flatMap (fun nd => g.itemsBy cs nd))

/-- The answer to a path: moves, then a goal. -/
noncomputable def askBy (cs : Bool) : List Move → Goal → Bool → Info → Answer
  | [], g, _, _ => if g.isField then .many [] else .nothing
  | [m], g, root, i => m.lastBy cs root i g
  | m :: n :: ms, g, root, i => m.joinBy ((m.nodesBy cs root i).map (fun nd => askBy cs (n :: ms) g false nd.kids))

/-- Goals that look for attributes. -/
def Goal.isAttr : Goal → Bool
  | .attr _ => true
  | .fieldAttr _ => true
  | _ => false

end Verif.Spec
