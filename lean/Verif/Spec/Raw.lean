import Verif.Spec.Xml
/-
How SetRaw reads a fragment: as a sequence of tokens, and when these are balanced. The tokens are coarser than
those of XML (a tag ends at the first `>`, also within quotes).
-/
namespace Verif.Spec

/-- `p` occurs in `b` at the end and nowhere else. -/
def OnlyAtEnd (p b : Bytes) : Prop := p <:+ b ∧ ∀ a c, a ++ p ++ c = b → c = []

/-- Tokens of a fragment. -/
inductive RawTok where
  | text (b : Bytes)
  | start (name rest : Bytes)    -- <name rest>
  | empty (name rest : Bytes)    -- <name rest/>
  | stop (name rest : Bytes)     -- </name rest>
  | misc (b : Bytes)             -- comment, CDATA section, other markup
deriving DecidableEq, Repr

def RawTok.render : RawTok → Bytes
  | .text b => b
  | .start n r => b!"<" ++ n ++ r ++ b!">"
  | .empty n r => b!"<" ++ n ++ r ++ b!"/>"
  | .stop n r => b!"</" ++ n ++ r ++ b!">"
  | .misc b => b

/-- The fragment consisting of the tokens. -/
def rawText (ts : List RawTok) : Bytes := ts.flatMap RawTok.render

/-- Markup that is skipped. A DOCTYPE or ENTITY declaration is not. -/
inductive RawMisc : Bytes → Prop where
  | comment {b : Bytes} (h : b!"<!-" <+: b ∨ b!"<?-" <+: b) (he : OnlyAtEnd b!"-->" b) : RawMisc b
  | cdata {x : Bytes} (he : OnlyAtEnd b!"]]>" (x ++ b!"]]>")) (hn : ¬ b!"<![CDATA[" <:+: x) : RawMisc (b!"<![CDATA[" ++ x ++ b!"]]>")
  | other {b : Bytes} (h : b!"<!" <+: b ∨ b!"<?" <+: b) (hd : b[2]? ≠ some c!"-") (hc : ¬ b!"<![CDATA[" <+: b) (h1 : ¬ b!"<!DOCTYPE" <+: b)
      (h2 : ¬ b!"<!ENTITY" <+: b) (he : OnlyAtEnd b!">" b) : RawMisc b

/-- The name of a start tag as it is read: up to the first space, slash or `>`, not beginning like an end tag or other markup. -/
def RawName (n : Bytes) : Prop :=
  (∀ c ∈ n, c ≠ c!">" ∧ c ≠ c!" " ∧ c ≠ c!"/") ∧ n ≠ [] ∧ n.head? ≠ some c!"!" ∧ n.head? ≠ some c!"?"

def RawTok.Legal : RawTok → Prop
  | .text b => c!"<" ∉ b
  | .start n r => RawName n ∧ c!">" ∉ r ∧ (r = [] ∨ r.head? = some c!" " ∨ r.head? = some c!"/") ∧ r.getLast? ≠ some c!"/"
  | .empty n r => RawName n ∧ c!">" ∉ r ∧ (r = [] ∨ r.head? = some c!" " ∨ r.head? = some c!"/")
  | .stop n r => (∀ c ∈ n, c ≠ c!">" ∧ c ≠ c!" ") ∧ c!">" ∉ r ∧ (r = [] ∨ r.head? = some c!" ")
  | .misc b => RawMisc b

/-- The open elements (innermost first) after the tokens; none when an end tag does not fit. -/
def openAfter : List Bytes → List RawTok → Option (List Bytes)
  | st, [] => some st
  | st, .text _ :: ts => openAfter st ts
  | st, .start n _ :: ts => openAfter (n :: st) ts
  | st, .empty _ _ :: ts => openAfter st ts
  | st, .misc _ :: ts => openAfter st ts
  | [], .stop _ _ :: _ => none
  | o :: st, .stop n _ :: ts => if o = n then openAfter st ts else none

/-- All elements are closed, in the right order. -/
def Balanced (ts : List RawTok) : Prop := openAfter [] ts = some []

/-- XML content all tags of which SetRaw reads as an XML reader does. -/
def Forest.RawPlain : Forest → Prop
  | .nil => True
  | .text _ next => next.RawPlain
  | .misc m next => RawMisc m.render ∧ next.RawPlain
  | .leaf _ as ws next => (∀ a ∈ as, c!">" ∉ a.raw) ∧ (as.flatMap Attr.render ++ ws = [] ∨ (as.flatMap Attr.render ++ ws).head? = some c!" ") ∧ next.RawPlain
  | .node _ as ws kids cws next => (∀ a ∈ as, c!">" ∉ a.raw) ∧ (as.flatMap Attr.render ++ ws = [] ∨ (as.flatMap Attr.render ++ ws).head? = some c!" ") ∧
      (cws = [] ∨ cws.head? = some c!" ") ∧ kids.RawPlain ∧ next.RawPlain

/-- No declaration or processing instruction that SetRaw refuses or takes for a comment. -/
def Forest.NoEntity : Forest → Prop
  | .nil => True
  | .text _ next => next.NoEntity
  | .misc (.decl b) next => ¬ b!"ENTITY" <+: b ∧ b.head? ≠ some c!"-" ∧ next.NoEntity
  | .misc (.pi b) next => b.head? ≠ some c!"-" ∧ next.NoEntity
  | .misc _ next => next.NoEntity
  | .leaf _ _ _ next => next.NoEntity
  | .node _ _ _ kids _ next => kids.NoEntity ∧ next.NoEntity

end Verif.Spec
