import Verif.Spec.Xml
import Verif.Model.Parser
/-
The information a document carries, independently of how it is written: names, attribute values,
text and nesting. Queries are specified on it. Entity references are decoded by `unescapeXML`, which C01
shows to be `Spec.Decodes`.
-/
namespace Verif.Spec

/-- Value of the attribute `k`: that of the last attribute written with this name, decoded. -/
def attrVal (as : List Attr) (k : Bytes) : Option Bytes :=
  ((as.filter (fun a => a.name = k)).getLast?).map (fun a => unescapeXML a.raw)

/-- A sequence of text, other markup and elements, with attributes as a mapping. -/
inductive Info where
  | nil
  | text (b : Bytes) (next : Info)
  | misc (m : Misc) (next : Info)
  | elem (name : Bytes) (attr : Bytes → Option Bytes) (kids : Info) (next : Info)

/-- What a forest says. A self-closing element says the same as an empty one. -/
def Forest.info : Forest → Info
  | .nil => .nil
  | .text b next => .text b next.info
  | .misc m next => .misc m next.info
  | .leaf n as _ next => .elem n (attrVal as) .nil next.info
  | .node n as _ kids _ next => .elem n (attrVal as) kids.info next.info

/-- An element with its attributes and content. -/
structure Node where
  name : Bytes
  attr : Bytes → Option Bytes
  kids : Info

/-- The elements of one level, in document order. -/
def Info.elems : Info → List Node
  | .nil => []
  | .text _ next => next.elems
  | .misc _ next => next.elems
  | .elem n a k next => ⟨n, a, k⟩ :: next.elems

/-- Case-insensitively `doctype`. -/
def DoctypeLike (b : Bytes) : Prop :=
  (b.take 7).map (fun c => if 65 ≤ c && c ≤ 90 then c + 32 else c) = b!"doctype"

instance (b : Bytes) : Decidable (DoctypeLike b) := inferInstanceAs (Decidable (_ = _))

/-! ### names and attributes a reader can take from a tag -/

/-- A name a reader can take from a tag: any bytes but angle brackets, `/` and white space, not starting with `!` or `?`,
without Unicode white space at its ends, of at most 1 MiB. (The names of `IsName`, but also `größe` or `1a`.) -/
def TagName (n : Bytes) : Prop :=
  n ≠ [] ∧ (∀ c ∈ n, ¬ IsWs c ∧ c ≠ c!"/" ∧ c ≠ c!">" ∧ c ≠ c!"<") ∧ n.head? ≠ some c!"!" ∧ n.head? ≠ some c!"?" ∧
  trimSpace n = n ∧ n.length ≤ 1048576

/-- The name of an attribute: not `=` either. -/
def AttrName (n : Bytes) : Prop :=
  n ≠ [] ∧ (∀ c ∈ n, ¬ IsWs c ∧ c ≠ c!"/" ∧ c ≠ c!">" ∧ c ≠ c!"<" ∧ c ≠ c!"=") ∧ n.length ≤ 1048576

def Attr.Loose (a : Attr) : Prop :=
  (∀ c ∈ a.pre, IsWs c) ∧ AttrName a.name ∧ (∀ c ∈ a.mid1, IsWs c) ∧ (∀ c ∈ a.mid2, IsWs c) ∧
  (a.quote = c!"\"" ∨ a.quote = c!"'") ∧ a.quote ∉ a.raw ∧ a.raw.length ≤ 1048576

def AttrsLoose (as : List Attr) : Prop :=
  as.length ≤ 100 ∧ (∀ a ∈ as, a.Loose) ∧ (∀ a, as.head? = some a → a.pre ≠ [])

/-- An attribute in the layout the code writes. -/
def Attr.Written (a : Attr) : Prop := a = ⟨b!" ", a.name, [], [], c!"\"", escapeXML (unescapeXML a.raw)⟩

/-- What may be in a comment inside an element: text, and elements that are properly nested, written as the code writes them and
with at most one attribute per tag (tags in comments are read and written back). -/
def Forest.Shut : Forest → Prop
  | .nil => True
  | .text b next => c!"<" ∉ b ∧ next.Shut
  | .misc _ _ => False
  | .leaf n as ws next => TagName n ∧ AttrsLoose as ∧ (∀ a ∈ as, a.Written) ∧ as.length ≤ 1 ∧ ws = [] ∧ next.Shut
  | .node n as ws kids cws next => TagName n ∧ AttrsLoose as ∧ (∀ a ∈ as, a.Written) ∧ as.length ≤ 1 ∧ ws = [] ∧ cws = [] ∧ kids.Shut ∧ next.Shut

/-- Non-element markup inside an element that cannot be mistaken for an element of it: no `<` inside but in comments with elements in
them (`Shut`); a processing instruction is one word without `/`, like `<?page-break?>` (it is read and written back as if it were a
tag, so that of `<?a b c?>` only `<?ac?>` is left). A comment does not begin with `>` or `->`: `<!-->` and `<!--->` are not comments. -/
def Misc.Inner : Misc → Prop
  | .comment b => (∃ f : Forest, f.Shut ∧ b = f.render) ∧ ¬ b!">" <+: b ∧ ¬ b!"->" <+: b
  | .cdata b => c!"<" ∉ b
  | .decl b => c!"<" ∉ b ∧ ¬ DoctypeLike b
  | .pi b => (∀ c ∈ b, ¬ IsWs c ∧ c ≠ c!"/" ∧ c ≠ c!">" ∧ c ≠ c!"<") ∧ b.length + 2 ≤ 1048576
  | .doctype _ => False
  | .mark _ => True

/-- Non-element markup outside the root element that a reader skips as a whole. -/
def Misc.Outer : Misc → Prop
  | .comment b => ¬ b!">" <+: b ∧ ¬ b!"->" <+: b
  | .cdata b => c!"<" ∉ b
  | .decl b => c!"<" ∉ b ∧ ¬ DoctypeLike b
  | .pi b => b.length + 2 ≤ 1048576
  | .doctype _ => True
  | .mark _ => True

/-- Attribute values stay within the token limit of 1 MiB when written back escaped. -/
def AttrsFit (as : List Attr) : Prop :=
  ∀ a ∈ as, (escapeXML (unescapeXML a.raw)).length ≤ 1048576

/-- Documents on which scanning for tags is unambiguous: see `Misc.Inner` and `Misc.Outer`; and no
token is longer than 1 MiB. -/
def Forest.Tame (top : Bool) : Forest → Prop
  | .nil => True
  | .text _ next => next.Tame top
  | .misc m next => (if top then m.Outer else m.Inner) ∧ next.Tame top
  | .leaf _ as _ next => AttrsFit as ∧ next.Tame top
  | .node n as _ kids cws next => AttrsFit as ∧ n.length + cws.length ≤ 1048576 ∧ kids.Tame false ∧ next.Tame top

/-! ### what a reader that does not validate can still understand -/

/-- What may stand behind the name in a closing tag: nothing, or white space and then anything up to `>`. -/
def EndTail (w : Bytes) : Prop := c!">" ∉ w ∧ ∀ c, w.head? = some c → IsWs c

/-- What begins with `<`. -/
def Forest.Sharp : Forest → Prop
  | .nil => False
  | .text _ _ => False
  | _ => True

/-- What a reader takes though the grammar of documents does not have it. A comment with `--` inside. And `<!` and more: not a comment, not a DOCTYPE, and the next angle bracket is `>` or begins what is next. The markers of a CDATA section with tags inside
are such pieces: to the reader `<![CDATA[a<b>c</b>]]>` is `<![CDATA[a`, an element and the text `]]>`. -/
def Misc.Opens : Misc → Forest → Prop
  | .mark b, next => c!"<" ∉ b ∧ ¬ DoctypeLike b ∧ ¬ b!"--" <+: b ∧ (c!">" ∈ b ∨ next.Sharp)
  | .comment b, _ => ¬ b!"-->" <:+: b!"--" ++ b ++ b!"--"
  | _, _ => False

/-- Content a reader understands: looser than `Legal` in the names, in the text outside the root element, in the closing tags,
without a bound on the depth, with `--` in comments, and with tags in CDATA sections as long as they are properly nested. -/
def Forest.Loose : Forest → Prop
  | .nil => True
  | .text b next => c!"<" ∉ b ∧ next.Loose
  | .misc m next => (m.Legal ∨ m.Opens next) ∧ next.Loose
  | .leaf n as ws next => TagName n ∧ AttrsLoose as ∧ (∀ c ∈ ws, IsWs c) ∧ next.Loose
  | .node n as ws kids cws next => TagName n ∧ AttrsLoose as ∧ (∀ c ∈ ws, IsWs c) ∧ kids.Loose ∧ EndTail cws ∧ next.Loose

/-- A document that may end inside elements: `more f n as ws rest` is `f`, an opening tag that is never closed, and `rest`. -/
inductive Draft where
  | done (f : Forest)
  | more (f : Forest) (name : Bytes) (attrs : List Attr) (ws : Bytes) (rest : Draft)
deriving DecidableEq, Repr

def Draft.render : Draft → Bytes
  | .done f => f.render
  | .more f n as ws rest => f.render ++ (openTag n as ws ++ c!">" :: rest.render)

/-- The missing closing tags added. -/
def Draft.close : Draft → Forest
  | .done f => f
  | .more f n as ws rest => f.append (.node n as ws rest.close [] .nil)

/-- What a draft says: the same as with the closing tags. -/
def Draft.info (f : Draft) : Info := f.close.info

/-- Readable pieces. (`_xmldot_root` is the name the library gives to a wrapper of its own around content that is read again.) -/
def Draft.Loose : Draft → Prop
  | .done f => f.Loose
  | .more f n as ws rest => f.Loose ∧ (TagName n ∧ n ≠ b!"_xmldot_root") ∧ AttrsLoose as ∧ (∀ c ∈ ws, IsWs c) ∧ rest.Loose

def Draft.Tame (top : Bool) : Draft → Prop
  | .done f => f.Tame top
  | .more f _ as _ rest => f.Tame top ∧ AttrsFit as ∧ rest.Tame false

/-- Attributes written the usual way: a blank, the name, `=` and the escaped value in double quotes; no name twice. -/
def PlainAttrs (as : List Attr) : Prop :=
  ∃ m : List (Bytes × Bytes), (m.map Prod.fst).Nodup ∧ as = m.map (fun p => ⟨b!" ", p.1, [], [], c!"\"", escapeXML p.2⟩)

/-- Tags written the usual way, without white space at their ends. -/
def Forest.Plain : Forest → Prop
  | .nil => True
  | .text _ next => next.Plain
  | .misc _ next => next.Plain
  | .leaf _ as ws next => PlainAttrs as ∧ ws = [] ∧ next.Plain
  | .node _ as ws kids cws next => PlainAttrs as ∧ ws = [] ∧ cws = [] ∧ kids.Plain ∧ next.Plain

def Draft.Plain : Draft → Prop
  | .done f => f.Plain
  | .more f _ as ws rest => f.Plain ∧ PlainAttrs as ∧ ws = [] ∧ rest.Plain

end Verif.Spec
namespace Verif.Spec

/-- The pieces between the bytes `<`. -/
def cutLt : Bytes → List Bytes
  | [] => [[]]
  | c :: cs => if c = c!"<" then [] :: cutLt cs else (cutLt cs).modifyHead (c :: ·)

/-- What a reader of text takes for text in a comment, CDATA section or declaration: behind every `<` inside, what is behind the next `>`,
without the bytes `>` (see DESIGN.md section 6). Nothing, when there is no angle bracket inside. -/
def Misc.leak (m : Misc) : Bytes := (cutLt m.render).flatMap (fun p => (p.dropWhile (· ≠ c!">")).filter (· ≠ c!">"))

/-- All text at any depth, in document order, without the bytes `>` (the code loses them; see DESIGN.md section 6). -/
def Info.allText : Info → Bytes
  | .nil => []
  | .text b next => b.filter (· ≠ c!">") ++ next.allText
  | .misc m next => m.leak ++ next.allText
  | .elem _ _ k next => k.allText ++ next.allText

/-- The text directly at this level, without the bytes `>` again. -/
def Info.ownText : Info → Bytes
  | .nil => []
  | .text b next => b.filter (· ≠ c!">") ++ next.ownText
  | .misc m next => m.leak ++ next.ownText
  | .elem _ _ _ next => next.ownText

/-- No `<` inside and no `/>`, and with a `>`. -/
def Misc.Quiet (m : Misc) : Prop := c!"<" ∉ m.render.drop 1 ∧ ¬ b!"/>" <:+: m.render ∧ c!">" ∈ m.render

/-- No comment or other such markup, at any depth, with `<` or `/>` inside. -/
def Info.Calm : Info → Prop
  | .nil => True
  | .text _ next => next.Calm
  | .misc m next => m.Quiet ∧ next.Calm
  | .elem _ _ k next => k.Calm ∧ next.Calm

/-- Moreover no text containing `/>` or beginning with `>` (a writer that escapes text never leaves a `>` at all). -/
def Info.Quiet : Info → Prop
  | .nil => True
  | .text b next => ¬ b!"/>" <:+: c!"/" :: b ∧ next.Quiet
  | .misc m next => m.Quiet ∧ next.Quiet
  | .elem _ _ k next => k.Quiet ∧ next.Quiet

/-- The text value of content: all text, trimmed, decoded. -/
def Info.textValue (i : Info) : Bytes := unescapeXML (trimSpace i.allText)

/-- The direct text value of content. -/
def Info.ownValue (i : Info) : Bytes := unescapeXML (trimSpace i.ownText)

end Verif.Spec

namespace Verif

/-- Pointwise agreement of two lists. -/
inductive All2 {α β : Type} (R : α → β → Prop) : List α → List β → Prop
  | nil : All2 R [] []
  | cons {a b as bs} : R a b → All2 R as bs → All2 R (a :: as) (b :: bs)

end Verif
