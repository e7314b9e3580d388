import Verif.Spec.Edit
import Verif.Spec.Trail
import Verif.Spec.Options
import Verif.Model.FreshEdit
/- Vocabulary for series of edits. -/
namespace Verif.Spec
open Verif

/-- No root element is written as `<x/>`. -/
def RootsOpen : Forest → Prop
  | .nil => True
  | .text _ r => RootsOpen r
  | .misc _ r => RootsOpen r
  | .leaf _ _ _ _ => False
  | .node _ _ _ _ _ r => RootsOpen r

/-- The element at the path has room for the attribute `k`: it has it already, or has fewer than 100. -/
def Room (cs : Bool) (xml : Bytes) (ps : List Step) (k : Bytes) : Prop :=
  ∀ c e, xml = (c.plug (El.cons e .nil)).render → Editable (c.plug (El.cons e .nil)) → LeadsBy cs ps c e.name → (∃ j, sameKey cs j k ∧ attrVal e.attrs j ≠ none) ∨ e.attrs.length < 100

/-- Text or markup that may stand inside elements at that depth, in the layout in which the library writes (C20, C44). -/
def Fitting (d : Nat) (w : Bytes) : Prop := ∃ x : Forest, x.render = w ∧ x.Legal d ∧ x.Tame false ∧ x.Even

/-- One call of Set or Delete, with or without success, `os` giving the order at every iteration of a map: Set of an element at a path of names, of a further element of that name (`-1`), of an element that is there at any path, each with a value that
may stand there, or of an attribute at a path of names or of an element that is there at any path, with a value without markup; all with any options with an indent without `<`; Delete at any path. -/
inductive EditCall (xml xml' : Bytes) : Prop where
  | set (os : Visits) (ho : ∀ l, (os l).IsPerm) (ns : List Bytes) (n : Bytes) (hn : ∀ m ∈ ns ++ [n], IsName m) (hl : ns.length < 100) (v : GoVal) (w : Bytes) (hv0 : v ≠ .nil) (hv : valueToXML v = some w) (hw : w.length ≤ 5242880)
      (hf : Fitting (ns.length + 1) w) (opts : Options) (hi : c!"<" ∉ opts.indent) (err : Option Err) (h : setWithOptionsF os xml (pathOf (ns ++ [n])) v (some opts) = .ret (xml', err))
  | append (os : Visits) (ho : ∀ l, (os l).IsPerm) (ns : List Bytes) (n : Bytes) (hn : ∀ m ∈ ns ++ [n], IsName m) (hl : ns.length ≤ 98) (v : GoVal) (w : Bytes) (hv0 : v ≠ .nil) (hv : valueToXML v = some w) (hw : w.length ≤ 5242880)
      (hf : Fitting (ns.length + 1) w) (opts : Options) (hi : c!"<" ∉ opts.indent) (err : Option Err) (h : setWithOptionsF os xml (pathOf (ns ++ [n, b!"-1"])) v (some opts) = .ret (xml', err))
  | there (os : Visits) (ho : ∀ l, (os l).IsPerm) (p : Bytes) (ss : List Bytes) (hp : PathSteps p ss) (hat : c!"@" ∉ p) (opts : Options) (v : GoVal) (w : Bytes) (hv0 : v ≠ .nil) (hv : valueToXML v = some w) (hw : w.length ≤ 5242880)
      (c : Ctx) (e : El) (hx : xml = (c.plug (El.cons e .nil)).render) (hed : Editable (c.plug (El.cons e .nil))) (hro : RootsOpen (c.plug (El.cons e .nil))) (hlead : LeadTo opts.caseSensitive ss c e.name)
      (hf : Fitting (c.depth + 1) w) (err : Option Err) (h : setWithOptionsF os xml p v (some opts) = .ret (xml', err))
  | attr (os : Visits) (ho : ∀ l, (os l).IsPerm) (ns : List Bytes) (n : Bytes) (hn : ∀ m ∈ ns ++ [n], IsName m) (hl : ns.length < 99) (k : Bytes) (hk : IsName k) (v : GoVal) (s : Bytes) (hv0 : v ≠ .nil) (hv : valueToXML v = some (escapeXML s))
      (hs : (escapeXML s).length ≤ 1048576) (opts : Options) (hi : c!"<" ∉ opts.indent) (hr : Room opts.caseSensitive xml (firsts (ns ++ [n])) k) (err : Option Err)
      (h : setWithOptionsF os xml (pathOf (ns ++ [n] ++ [c!"@" :: k])) v (some opts) = .ret (xml', err))
  | attrThere (os : Visits) (ho : ∀ l, (os l).IsPerm) (p : Bytes) (qs : List Bytes) (x : Bytes) (hp : PathSteps p (qs ++ [x])) (hx : AttrStep x) (hk : IsName ((beforeBar x).drop 1)) (opts : Options) (v : GoVal) (s : Bytes) (hv0 : v ≠ .nil)
      (hv : valueToXML v = some (escapeXML s)) (hs : (escapeXML s).length ≤ 1048576)
      (c : Ctx) (e : El) (hx : xml = (c.plug (El.cons e .nil)).render) (hed : Editable (c.plug (El.cons e .nil))) (hro : RootsOpen (c.plug (El.cons e .nil))) (hlead : LeadTo opts.caseSensitive qs c e.name)
      (hr : (∃ j, sameKey opts.caseSensitive j ((beforeBar x).drop 1) ∧ attrVal e.attrs j ≠ none) ∨ e.attrs.length < 100) (err : Option Err) (h : setWithOptionsF os xml p v (some opts) = .ret (xml', err))
  | delete (os : Visits) (ho : ∀ l, (os l).IsPerm) (p : Bytes) (opts : Options) (err : Option Err) (h : deleteWithOptionsF os xml p (some opts) = .ret (xml', err))

/-- Any number of calls, each with the result of the one before. -/
inductive EditCalls (xml : Bytes) : Bytes → Prop where
  | none : EditCalls xml xml
  | more {a b : Bytes} (h : EditCalls xml a) (g : EditCall a b) : EditCalls xml b

end Verif.Spec
