import Verif.Spec.Xml
import Verif.Spec.Position
/-
Where and why a text stops being a document, independently of the code: what a correct beginning is, and what can be
wrong with what follows it. Texts are cut into the part before a place and the part after it.
-/
namespace Verif.Spec

/-- The decimal digits of a number. -/
def decimal (n : Nat) : Bytes := (Nat.toDigits 10 n).map fun c => UInt8.ofNat c.toNat

/-- The line of the place after `pre`, counted from 1. -/
def lineAt (pre : Bytes) : Nat := 1 + pre.count 10

/-- The column of the place after `pre`, in bytes from the start of its line. -/
def colAt (pre : Bytes) : Nat := (lastLine pre).length

/-- `Begun s b p`: the text `p` is a correct beginning of a document. The elements `s` are open, innermost first, each
with the text before its `<`; `b` says whether there was an element at all. -/
inductive Begun : List (Bytes × Bytes) → Bool → Bytes → Prop
  | start : Begun [] false []
  | misc {s b p} {m : Misc} (h : Begun s b p) (hm : m.Legal) : Begun s b (p ++ m.render)
  | leaf {s b p n as ws} (h : Begun s b p) (hn : IsName n) (ha : AttrsLegal as) (hw : ∀ c ∈ ws, IsWs c)
      (hd : s.length < 100) : Begun s true (p ++ (openTag n as ws ++ b!"/>"))
  | node {s b p n as ws} (h : Begun s b p) (hn : IsName n) (ha : AttrsLegal as) (hw : ∀ c ∈ ws, IsWs c)
      (hd : s.length < 100) : Begun ((n, p) :: s) true (p ++ (openTag n as ws ++ b!">"))
  | close {s b p n q ws} (h : Begun ((n, q) :: s) b p) (hw : ∀ c ∈ ws, IsWs c) : Begun s true (p ++ closeTag n ws)
  | text {s b p c} (h : Begun s b p) (hc : c ≠ c!"<") (h0 : s = [] → IsWs c) : Begun s b (p ++ [c])

/-- The run of name bytes before `t` is `n`, and it is not too long. The length is checked only while there are bytes
left, so that a run that ends the text may have one byte more. -/
def Word (n t : Bytes) : Prop :=
  (∀ c ∈ n, NameChar c) ∧ (∀ c u, t = c :: u → ¬ NameChar c) ∧ (n.length ≤ 1048576 ∨ t = [] ∧ n.length = 1048577)

/-- A run of name bytes that is too long. -/
def TooLong (r : Bytes) : Prop := ∃ w c t, r = w ++ c :: t ∧ w.length = 1048577 ∧ ∀ c ∈ w, NameChar c

/-- The text does not start with white space. -/
def NoWs (t : Bytes) : Prop := ∀ c u, t = c :: u → ¬ IsWs c

/-- The name starts as a name should. -/
def GoodStart (n : Bytes) : Prop := ∃ c cs, n = c :: cs ∧ NameStart c

/-- What is wrong with the first byte of a run of name bytes. -/
inductive BadStart : Bytes → Bytes → Prop
  | digit {c cs} (h : 0x30 ≤ c ∧ c ≤ 0x39) : BadStart (c :: cs) b!"name cannot start with a digit"
  | other {c cs} (h : c = c!"." ∨ c = c!"-") : BadStart (c :: cs) (b!"invalid first character '" ++ [c] ++ b!"'")

/-- `Unended d r u m`: in `r` there is no `d` where one is needed. The message `m` is for the place after `u`. -/
inductive Unended (d : UInt8) : Bytes → Bytes → Bytes → Prop
  | ending {r} (h : d ∉ r) (hl : r.length ≤ 1048577) :
      Unended d r r (b!"unexpected end of document (expected '" ++ [d] ++ b!"')")
  | large {w c t} (h : d ∉ w) (hl : w.length = 1048577) : Unended d (w ++ c :: t) w b!"token exceeds maximum size"

/-- What follows `<!--` is not the rest of a comment. An unfinished comment is reported two bytes before the end. -/
inductive CommentFault : Bytes → Bytes → Bytes → Prop
  | dashes {w c t} (h : ¬ b!"--" <:+: w ++ b!"-") (hc : c ≠ c!">") :
      CommentFault (w ++ b!"--" ++ c :: t) (w ++ b!"--") b!"'--' not allowed in comment"
  | short {r} (h : r.length < 2) : CommentFault r [] b!"unclosed comment"
  | ending {w x y} (h : ¬ b!"--" <:+: w ++ [x]) : CommentFault (w ++ [x, y]) w b!"unclosed comment"

/-- What follows `<![CDATA[` is not the rest of a CDATA section. -/
inductive CDataFault : Bytes → Bytes → Bytes → Prop
  | short {r} (h : r.length < 2) : CDataFault r [] b!"unclosed CDATA section"
  | ending {w x y} (h : ¬ b!"]]>" <:+: w ++ [x, y]) : CDataFault (w ++ [x, y]) w b!"unclosed CDATA section"

/-- What is wrong where an attribute or the end of the tag should start, after `k` attributes. -/
inductive AttrFault (k : Nat) : Bytes → Bytes → Bytes → Prop
  | ending : AttrFault k [] [] b!"unexpected end of document in tag"
  | many {c t} (hk : k = 100) (h1 : c ≠ c!">") (h2 : c ≠ c!"/") :
      AttrFault k (c :: t) [] b!"too many attributes (maximum 100)"
  | noName {c t} (hk : k < 100) (h1 : c ≠ c!">") (h2 : c ≠ c!"/") (h : ¬ NameChar c) :
      AttrFault k (c :: t) [] b!"invalid attribute name"
  | long {r} (hk : k < 100) (h : TooLong r) : AttrFault k r [] b!"invalid attribute name"
  | start {n t why} (hk : k < 100) (h : Word n t) (hs : BadStart n why) :
      AttrFault k (n ++ t) [] (b!"invalid attribute name '" ++ n ++ b!"': " ++ why)
  | equals {n w t} (hk : k < 100) (h : Word n (w ++ t)) (hs : GoodStart n) (hw : ∀ c ∈ w, IsWs c) (ht : NoWs t)
      (he : ∀ u, t ≠ c!"=" :: u) : AttrFault k (n ++ w ++ t) (n ++ w) b!"expected '=' after attribute name"
  | quote {n w v t} (hk : k < 100) (h : IsName n) (hw : ∀ c ∈ w, IsWs c) (hv : ∀ c ∈ v, IsWs c) (ht : NoWs t)
      (hq : ∀ u, t ≠ c!"\"" :: u ∧ t ≠ c!"'" :: u) :
      AttrFault k (n ++ w ++ b!"=" ++ v ++ t) (n ++ w ++ b!"=" ++ v) b!"attribute value must be quoted"
  | value {n w v q t u m} (hk : k < 100) (h : IsName n) (hw : ∀ c ∈ w, IsWs c) (hv : ∀ c ∈ v, IsWs c)
      (hq : q = c!"\"" ∨ q = c!"'") (ht : Unended q t u m) :
      AttrFault k (n ++ w ++ b!"=" ++ v ++ [q] ++ t) (n ++ w ++ b!"=" ++ v ++ [q] ++ u) m

/-- `TagFault s r u m`: `r` starts with `<`, but not with a construct that may follow when the elements `s` are open. The
message `m` is for the place after `u`. -/
inductive TagFault (s : List (Bytes × Bytes)) : Bytes → Bytes → Bytes → Prop
  | lone : TagFault s b!"<" [] b!"unexpected end of document in tag"
  | pi {t u m} (h : Unended c!">" t u m) : TagFault s (b!"<?" ++ t) (b!"<?" ++ u) m
  | doctype {t} (hd : b!"DOCTYPE" <+: t ∨ b!"doctype" <+: t) (h : ∀ p, p ++ b!">" <+: t → brackets p ≠ 0) :
      TagFault s (b!"<!" ++ t) (b!"<!" ++ t) b!"unclosed DOCTYPE declaration"
  | comment {t u m} (h : CommentFault t u m) : TagFault s (b!"<!--" ++ t) (b!"<!--" ++ u) m
  | cdata {t u m} (h : CDataFault t u m) : TagFault s (b!"<![CDATA[" ++ t) (b!"<![CDATA[" ++ u) m
  | decl {t u m} (h1 : ¬ b!"DOCTYPE" <+: t) (h2 : ¬ b!"doctype" <+: t) (h3 : ¬ b!"--" <+: t) (h4 : ¬ b!"[CDATA[" <+: t)
      (h : Unended c!">" t u m) : TagFault s (b!"<!" ++ t) (b!"<!" ++ u) m
  | closeNoName {t} (h : ∀ c u, t = c :: u → ¬ NameChar c) : TagFault s (b!"</" ++ t) b!"</" b!"empty closing tag name"
  | closeLong {t} (h : TooLong t) : TagFault s (b!"</" ++ t) b!"</" b!"empty closing tag name"
  | closeEnd {n w t} (h : Word n (w ++ t)) (hn : n ≠ []) (hw : ∀ c ∈ w, IsWs c) (ht : NoWs t) (hg : ∀ u, t ≠ c!">" :: u) :
      TagFault s (b!"</" ++ n ++ w ++ t) (b!"</" ++ n ++ w) b!"expected '>' to close tag"
  | closeNothing {n w t} (hs : s = []) (h : ∀ c ∈ n, NameChar c) (hn : n ≠ []) (hl : n.length ≤ 1048576)
      (hw : ∀ c ∈ w, IsWs c) :
      TagFault s (closeTag n w ++ t) [] (b!"closing tag '" ++ n ++ b!"' without matching opening tag")
  | closeOther {n w t o q s'} (hs : s = (o, q) :: s') (ho : o ≠ n) (h : ∀ c ∈ n, NameChar c) (hn : n ≠ [])
      (hl : n.length ≤ 1048576) (hw : ∀ c ∈ w, IsWs c) :
      TagFault s (closeTag n w ++ t) [] (b!"mismatched closing tag '" ++ n ++ b!"' (expected '" ++ o ++
        b!"' opened at line " ++ decimal (lineAt q) ++ b!", column " ++ decimal (colAt q) ++ b!")")
  | noName {c t} (h : ¬ NameChar c) (h1 : c ≠ c!"?") (h2 : c ≠ c!"!") (h3 : c ≠ c!"/") :
      TagFault s (b!"<" ++ c :: t) b!"<" b!"empty element name"
  | long {t} (h : TooLong t) : TagFault s (b!"<" ++ t) b!"<" b!"element name exceeds maximum token size"
  | start {n t why} (h : Word n t) (hs : BadStart n why) :
      TagFault s (b!"<" ++ n ++ t) b!"<" (b!"invalid element name '" ++ n ++ b!"': " ++ why)
  | deep {n t} (h : Word n t) (hs : GoodStart n) (hd : 100 ≤ s.length) :
      TagFault s (b!"<" ++ n ++ t) [] b!"nesting depth exceeds maximum of 100"
  | attr {n as w t u m} (hd : s.length < 100) (h : Word n (as.flatMap Attr.render ++ w ++ t)) (hs : GoodStart n)
      (ha : ∀ a ∈ as, a.Legal) (hl : as.length ≤ 100) (hw : ∀ c ∈ w, IsWs c) (ht : NoWs t)
      (hf : AttrFault as.length t u m) : TagFault s (openTag n as w ++ t) (openTag n as w ++ u) m
  | slash {n as w t} (hd : s.length < 100) (hn : IsName n) (ha : AttrsLegal as) (hw : ∀ c ∈ w, IsWs c)
      (ht : ∀ u, t ≠ c!">" :: u) :
      TagFault s (openTag n as w ++ b!"/" ++ t) (openTag n as w ++ b!"/") b!"expected '>' to close tag"

/-- `Fault s b p r q m`: after the correct beginning `p` comes `r`, which is wrong, and `m` says why at the place after
`q`. -/
inductive Fault (s : List (Bytes × Bytes)) (b : Bool) (p : Bytes) : Bytes → Bytes → Bytes → Prop
  | unclosed {n q s'} (h : s = (n, q) :: s') : Fault s b p [] q (b!"unclosed tag '" ++ n ++ b!"'")
  | noRoot (h : s = []) (hb : b = false) : Fault s b p [] [] b!"no root element found"
  | stray {c t} (h : s = []) (hc : c ≠ c!"<") (hw : ¬ IsWs c) :
      Fault s b p (c :: t) p b!"content not allowed outside root element"
  | tag {r u m} (h : TagFault s r u m) : Fault s b p r (p ++ u) m

end Verif.Spec
