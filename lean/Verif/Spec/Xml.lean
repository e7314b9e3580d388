import Verif.Model.Bytes
/-
A grammar of XML documents, independent of the code: a document is the rendering of a `Forest`.
-/
namespace Verif.Spec

/-- XML white space. -/
def IsWs (c : UInt8) : Prop := c = 0x20 ∨ c = 0x09 ∨ c = 0x0A ∨ c = 0x0D

/-- A letter. -/
def Letter (c : UInt8) : Prop := (0x41 ≤ c ∧ c ≤ 0x5A) ∨ (0x61 ≤ c ∧ c ≤ 0x7A)

/-- A byte that can start a name: a letter, `_` or `:`. -/
def NameStart (c : UInt8) : Prop := Letter c ∨ c = c!"_" ∨ c = c!":"

/-- A byte of a name: also digits, `.` and `-`. -/
def NameChar (c : UInt8) : Prop := NameStart c ∨ (0x30 ≤ c ∧ c ≤ 0x39) ∨ c = c!"." ∨ c = c!"-"

/-- A name, of at most 1 MiB. -/
def IsName (n : Bytes) : Prop :=
  (∃ c cs, n = c :: cs ∧ NameStart c) ∧ (∀ c ∈ n, NameChar c) ∧ n.length ≤ 1048576

/-- One attribute as written: `pre name mid1 = mid2 quote raw quote`. -/
structure Attr where
  pre : Bytes
  name : Bytes
  mid1 : Bytes
  mid2 : Bytes
  quote : UInt8
  raw : Bytes
deriving DecidableEq, Repr

def Attr.render (a : Attr) : Bytes :=
  a.pre ++ a.name ++ a.mid1 ++ b!"=" ++ a.mid2 ++ [a.quote] ++ a.raw ++ [a.quote]

/-- Markup that is not an element. -/
inductive Misc where
  | comment (b : Bytes)   -- <!--b-->
  | pi (b : Bytes)        -- <?b>
  | cdata (b : Bytes)     -- <![CDATA[b]]>
  | doctype (b : Bytes)   -- <!b> with b starting with DOCTYPE or doctype
  | decl (b : Bytes)      -- <!b>, any other declaration
  | mark (b : Bytes)      -- <!b, the beginning of such markup, as of a CDATA section that is not read as one
deriving DecidableEq, Repr

def Misc.render : Misc → Bytes
  | .comment b => b!"<!--" ++ b ++ b!"-->"
  | .pi b => b!"<?" ++ b ++ b!">"
  | .cdata b => b!"<![CDATA[" ++ b ++ b!"]]>"
  | .doctype b => b!"<!" ++ b ++ b!">"
  | .decl b => b!"<!" ++ b ++ b!">"
  | .mark b => b!"<!" ++ b

/-- A sequence of text, markup and elements; `next` is what follows. -/
inductive Forest where
  | nil
  | text (b : Bytes) (next : Forest)
  | misc (m : Misc) (next : Forest)
  | leaf (name : Bytes) (attrs : List Attr) (ws : Bytes) (next : Forest)
  | node (name : Bytes) (attrs : List Attr) (ws : Bytes) (kids : Forest) (cws : Bytes) (next : Forest)
deriving DecidableEq, Repr

/-- `<name attrs ws` -/
def openTag (name : Bytes) (attrs : List Attr) (ws : Bytes) : Bytes :=
  b!"<" ++ name ++ attrs.flatMap Attr.render ++ ws

/-- `</name ws>` -/
def closeTag (name ws : Bytes) : Bytes := b!"</" ++ name ++ ws ++ b!">"

def Forest.render : Forest → Bytes
  | .nil => []
  | .text b next => b ++ next.render
  | .misc m next => m.render ++ next.render
  | .leaf n as ws next => openTag n as ws ++ b!"/>" ++ next.render
  | .node n as ws kids cws next => openTag n as ws ++ b!">" ++ kids.render ++ closeTag n cws ++ next.render

/-- Concatenation. -/
def Forest.append : Forest → Forest → Forest
  | .nil, g => g
  | .text b next, g => .text b (next.append g)
  | .misc m next, g => .misc m (next.append g)
  | .leaf n as ws next, g => .leaf n as ws (next.append g)
  | .node n as ws kids cws next, g => .node n as ws kids cws (next.append g)

def Attr.Legal (a : Attr) : Prop :=
  (∀ c ∈ a.pre, IsWs c) ∧ IsName a.name ∧ (∀ c ∈ a.mid1, IsWs c) ∧ (∀ c ∈ a.mid2, IsWs c) ∧
  (a.quote = c!"\"" ∨ a.quote = c!"'") ∧ a.quote ∉ a.raw ∧ a.raw.length ≤ 1048576

/-- At most 100 attributes, the first one separated from the name. (White space between two attributes is not required.) -/
def AttrsLegal (as : List Attr) : Prop :=
  as.length ≤ 100 ∧ (∀ a ∈ as, a.Legal) ∧ (∀ a, as.head? = some a → a.pre ≠ [])

/-- Opening minus closing square brackets. -/
def brackets (b : Bytes) : Int := (b.count c!"[" : Int) - (b.count c!"]" : Int)

def Misc.Legal : Misc → Prop
  | .comment b => ¬ b!"--" <:+: b ++ b!"-"
  | .pi b => c!">" ∉ b ∧ b.length ≤ 1048576
  | .cdata b => ¬ b!"]]>" <:+: b
  | .doctype b => (b!"DOCTYPE" <+: b ∨ b!"doctype" <+: b) ∧ brackets b = 0 ∧
      ∀ p, p ++ b!">" <+: b → brackets p ≠ 0
  | .decl b => c!">" ∉ b ∧ b.length ≤ 1048576 ∧ ¬ b!"DOCTYPE" <+: b ∧ ¬ b!"doctype" <+: b ∧
      ¬ b!"--" <+: b ∧ ¬ b!"[CDATA[" <+: b
  | .mark _ => False

/-- Legal content inside `d` open elements. -/
def Forest.Legal (d : Nat) : Forest → Prop
  | .nil => True
  | .text b next => c!"<" ∉ b ∧ (d = 0 → ∀ c ∈ b, IsWs c) ∧ next.Legal d
  | .misc m next => m.Legal ∧ next.Legal d
  | .leaf n as ws next => IsName n ∧ AttrsLegal as ∧ (∀ c ∈ ws, IsWs c) ∧ d < 100 ∧ next.Legal d
  | .node n as ws kids cws next => IsName n ∧ AttrsLegal as ∧ (∀ c ∈ ws, IsWs c) ∧ d < 100 ∧
      kids.Legal (d + 1) ∧ (∀ c ∈ cws, IsWs c) ∧ next.Legal d

/-- At least one element at the top. -/
def Forest.HasElem : Forest → Prop
  | .nil => False
  | .text _ next => next.HasElem
  | .misc _ next => next.HasElem
  | .leaf _ _ _ _ => True
  | .node _ _ _ _ _ _ => True

/-- The documents of the grammar. -/
def Document (xml : Bytes) : Prop :=
  xml.length ≤ 10485760 ∧ ∃ f : Forest, f.Legal 0 ∧ f.HasElem ∧ f.render = xml

end Verif.Spec
