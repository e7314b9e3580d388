import Verif.Spec.Query
import Verif.Spec.Path
import Verif.Spec.Modifier
/-
What modifications mean: an element of a document and the rest of the document around it, and which
element a path leads to. Written on the document as text (`Forest`), so every byte is accounted for.
-/
namespace Verif.Spec

/-- An element as written: `body` is `none` for a self-closing tag, otherwise the content and the white
space in the closing tag. -/
structure El where
  name : Bytes
  attrs : List Attr
  ws : Bytes
  body : Option (Forest × Bytes)
deriving DecidableEq, Repr

/-- The element followed by `next`. -/
def El.cons (e : El) (next : Forest) : Forest :=
  match e.body with
  | none => .leaf e.name e.attrs e.ws next
  | some (kids, cws) => .node e.name e.attrs e.ws kids cws next

/-- The start tag as written. -/
def El.start (e : El) : Bytes :=
  openTag e.name e.attrs e.ws ++ (if e.body.isNone then b!"/>" else b!">")

/-- The content as written. -/
def El.inner (e : El) : Bytes := match e.body with | none => [] | some (kids, _) => kids.render

/-- The end tag as written. -/
def El.stop (e : El) : Bytes := match e.body with | none => [] | some (_, cws) => closeTag e.name cws

/-- The element as written. -/
def El.render (e : El) : Bytes := e.start ++ e.inner ++ e.stop

/-- The element as a node. -/
def El.node (e : El) : Node :=
  ⟨e.name, attrVal e.attrs, match e.body with | none => .nil | some (kids, _) => kids.info⟩

/-- The document around an element: what is before and after it on its level, and so on outwards. -/
inductive Ctx where
  | here (before after : Forest)
  | within (before : Forest) (name : Bytes) (attrs : List Attr) (ws : Bytes) (inside : Ctx) (cws : Bytes) (after : Forest)
deriving DecidableEq, Repr

/-- The document with `x` in the place of the hole. -/
def Ctx.plug : Ctx → Forest → Forest
  | .here b a, x => b.append (x.append a)
  | .within b n as ws c cws a, x => b.append (.node n as ws (c.plug x) cws a)

/-- All bytes before the hole. -/
def Ctx.before : Ctx → Bytes
  | .here b _ => b.render
  | .within b n as ws c _ _ => b.render ++ (openTag n as ws ++ b!">") ++ c.before

/-- All bytes after the hole. -/
def Ctx.after : Ctx → Bytes
  | .here _ a => a.render
  | .within _ n _ _ c cws a => c.after ++ closeTag n cws ++ a.render

/-- Number of elements around the hole. -/
def Ctx.depth : Ctx → Nat
  | .here _ _ => 0
  | .within _ _ _ _ c _ _ => c.depth + 1

/-- The names of the elements around the hole, outermost first. -/
def Ctx.names : Ctx → List Bytes
  | .here _ _ => []
  | .within _ n _ _ c _ _ => n :: c.names

/-- The query by the names `q` does not go through elements of the names `ns`: somewhere on the way the names do not match. -/
def Misses (q ns : List Bytes) : Prop := ∃ (i : Nat) (a b : Bytes), q[i]? = some a ∧ ns[i]? = some b ∧ nameMatches a b = false

/-- A step of a path: a name and which of the matching elements of a level (from 0). -/
abbrev Step := Bytes × Nat

/-- The path leads to the element of that name in the context: on each level, the element has a matching name and
exactly as many matching elements are before it as the step says. -/
def Leads : List Step → Ctx → Bytes → Prop
  | [(n, j)], .here b _, x => nameMatches n x = true ∧ (b.info.named n).length = j
  | (n, j) :: ps, .within b m _ _ c _ _, x => nameMatches n m = true ∧ (b.info.named n).length = j ∧ Leads ps c x
  | _, _, _ => False

/-- The element the steps lead to, looked up level by level: there is no return to other elements of an earlier level. -/
def Info.follow : List Step → Info → Option Node
  | [], _ => none
  | [(n, j)], i => (i.named n)[j]?
  | (n, j) :: ps, i => (i.named n)[j]?.bind (fun e => follow ps e.kids)

/-- The steps of a path of names: always the first match. -/
def firsts (ns : List Bytes) : List Step := ns.map (fun n => (n, 0))

/-- Elements of these names inside each other, around `x`. -/
def chain : List Bytes → Forest → Forest
  | [], x => x
  | n :: ns, x => .node n [] [] (chain ns x) [] .nil

/-- The content of an element. -/
def El.kids (e : El) : Forest := match e.body with | none => .nil | some (kids, _) => kids

/-- Attributes in the layout in which the library writes tags: one blank, double quotes, values escaped, no name twice. -/
def Neat (as : List Attr) : Prop :=
  (∀ a ∈ as, a.pre = b!" " ∧ a.mid1 = [] ∧ a.mid2 = [] ∧ a.quote = c!"\"" ∧ ∃ v, a.raw = escapeXML v) ∧ (as.map (·.name)).Nodup

/-- The start tag of `e` when it gets content: only a self-closing tag is written anew, with the same attribute values. -/
structure Opened (e : El) (as : List Attr) (ws : Bytes) : Prop where
  kept : e.body ≠ none → as = e.attrs ∧ ws = e.ws
  anew : e.body = none → Neat as ∧ ws = [] ∧ attrVal as = attrVal e.attrs ∧ AttrsLegal as ∧ AttrsFit as

/-- The element with that start tag and content. -/
def El.refill (e : El) (as : List Attr) (ws : Bytes) (k : Forest) : El := ⟨e.name, as, ws, some (k, [])⟩

/-- The element with `w` as its only content, all else unchanged. -/
def El.fill (e : El) (w : Bytes) : El := ⟨e.name, e.attrs, e.ws, e.body.map (fun q => (.text w .nil, q.2))⟩

/-- The attributes of `e` written anew: in ascending order of their names, `k` with the value `x` (`none`: without it), all others as they were. -/
structure Retag (e : El) (k : Bytes) (x : Option Bytes) (as : List Attr) : Prop where
  neat : Neat as
  sorted : (as.map (·.name)).Pairwise LexBefore
  this : attrVal as k = x
  others : ∀ j, j ≠ k → attrVal as j = attrVal e.attrs j

/-- The element with these attributes, all else unchanged. -/
def El.retag (e : El) (as : List Attr) : El := ⟨e.name, as, [], e.body⟩

/-- `k1` followed by `k2`: the place behind the last element with a name matching `x`, or the end when there is none. -/
def AfterLast (x : Bytes) (k1 k2 : Forest) : Prop :=
  (∃ (b : Forest) (e : El), k1 = b.append (e.cons .nil) ∧ nameMatches x e.name = true ∧ k2.info.named x = []) ∨ (k1.info.named x = [] ∧ k2 = .nil)

/-- `<x>w</x>` without attributes. -/
def plainEl (x w : Bytes) : El := ⟨x, [], [], some (.text w .nil, [])⟩

/-- The parts of a path that write the steps: a name, with an index or (for the first one) without. -/
inductive StepsText : List Step → List Bytes → Prop where
  | nil : StepsText [] []
  | name {n : Bytes} {ps : List Step} {parts : List Bytes} (hn : PlainName n) (h : StepsText ps parts) : StepsText ((n, 0) :: ps) (n :: parts)
  | index {n ds : Bytes} {j : Nat} {ps : List Step} {parts : List Bytes} (hn : PlainName n) (hd : Decimal ds j) (hj : j < 2 ^ 63) (h : StepsText ps parts) :
      StepsText ((n, j) :: ps) (n :: ds :: parts)

/-- All tags in that layout. -/
def Forest.Neat : Forest → Prop
  | .nil => True
  | .text _ next => next.Neat
  | .misc _ next => next.Neat
  | .leaf _ as ws next => Spec.Neat as ∧ ws = [] ∧ next.Neat
  | .node _ as ws kids cws next => Spec.Neat as ∧ ws = [] ∧ cws = [] ∧ kids.Neat ∧ next.Neat

/-- The attribute as the library writes it. -/
def Attr.rewritten (a : Attr) : Attr := ⟨b!" ", a.name, [], [], c!"\"", escapeXML (unescapeXML a.raw)⟩

/-- Of several attributes of the same name the last one counts. -/
def lastOnly : List Attr → List Attr
  | [] => []
  | a :: as => if a.name ∈ as.map (·.name) then lastOnly as else a :: lastOnly as

/-- The attributes of a tag as the library writes them (in some order). -/
def redoAttrs (as : List Attr) : List Attr := (lastOnly as).map Attr.rewritten

/-- The forest with all tags as the library writes them. -/
def Forest.redo : Forest → Forest
  | .nil => .nil
  | .text b next => .text b next.redo
  | .misc m next => .misc m next.redo
  | .leaf n as _ next => .leaf n (redoAttrs as) [] next.redo
  | .node n as _ kids _ next => .node n (redoAttrs as) [] kids.redo [] next.redo

/-- Attributes (and the blanks behind them) that the library writes with as many bytes, whichever quotes and whichever single blanks they have. -/
def Even (as : List Attr) (ws : Bytes) : Prop := (as.flatMap Attr.render ++ ws).length = ((redoAttrs as).flatMap Attr.render).length

/-- All tags are as long as the library writes them. -/
def Forest.Even : Forest → Prop
  | .nil => True
  | .text _ next => next.Even
  | .misc _ next => next.Even
  | .leaf _ as ws next => Spec.Even as ws ∧ next.Even
  | .node _ as ws kids cws next => Spec.Even as ws ∧ cws = [] ∧ kids.Even ∧ next.Even

/-- All tags below the top level are as long as the library writes them, and the end tags of the top level contain no white space. -/
def Forest.Stable : Forest → Prop
  | .nil => True
  | .text _ next => next.Stable
  | .misc _ next => next.Stable
  | .leaf _ _ _ next => next.Stable
  | .node _ _ _ kids cws next => cws = [] ∧ kids.Even ∧ next.Stable

/-- A document the modification theorems speak about. -/
def Editable (f : Forest) : Prop := f.render.length ≤ 10485760 ∧ f.Legal 0 ∧ f.Tame true ∧ f.HasElem ∧ f.Stable

end Verif.Spec
