import Verif.Model.Modifier
/- Model of prettyModifier in /repo/modifier.go. The decoder and the encoder of encoding/xml are parameters (`XmlCodec`); what the modifier does between
them is modelled. -/
namespace Verif

/-- encoding/xml `Name` -/
structure XName where
  space : Bytes
  loc : Bytes
  deriving DecidableEq, Repr

/-- encoding/xml `Attr` -/
structure XAttr where
  name : XName
  value : Bytes
  deriving DecidableEq, Repr

/-- encoding/xml `Token`: a StartElement, an EndElement, or another token (character data, comment, processing instruction, directive), which the
modifier passes on as it is. -/
inductive XToken
  | start (name : XName) (attrs : List XAttr)
  | stop (name : XName)
  | other (kind : Nat) (data : Bytes)
  deriving DecidableEq, Repr

/-- What the modifier uses of encoding/xml. -/
structure XmlCodec where
  /-- The tokens `Decoder.Token` returns for a text until its first error, and whether the text of that error is `EOF`. -/
  decode : Bytes → List XToken × Bool
  /-- The state of an `Encoder` with `Indent("", "  ")` and of its buffer. -/
  State : Type
  init : State
  /-- `EncodeToken`: `none` for an error. -/
  encode : State → XToken → Option State
  /-- `Flush`, and then the contents of the buffer: `none` for an error. -/
  flush : State → Option Bytes

/-- modifier.go:446-460: the key of an attribute -/
def xmlnsKey (a : XAttr) : Bytes :=
  if a.name.loc = b!"xmlns" && a.name.space.isEmpty then b!"xmlns=" ++ a.value
  else if a.name.space = b!"xmlns" then b!"xmlns:" ++ a.name.loc ++ b!"=" ++ a.value
  else if !a.name.space.isEmpty then a.name.space ++ b!":" ++ a.name.loc
  else a.name.loc

/-- modifier.go:438-468: the loop of deduplicateXmlnsAttrs -/
def dedupLoop (seen : List Bytes) : List XAttr → List XAttr
  | [] => []
  | a :: as => if seen.contains (xmlnsKey a) then dedupLoop seen as else a :: dedupLoop (xmlnsKey a :: seen) as

/-- modifier.go:433-469 deduplicateXmlnsAttrs -/
def deduplicateXmlnsAttrs (as : List XAttr) : List XAttr :=
  if as.length ≤ 1 then as else dedupLoop [] as

/-- modifier.go:389-411: the token given to the encoder -/
def prettyToken : XToken → XToken
  | .start n as => .start ⟨[], n.loc⟩ (deduplicateXmlnsAttrs as)
  | .stop n => .stop ⟨[], n.loc⟩
  | t => t

/-- modifier.go:374-416: the copying loop on the tokens of the decoder and its last error; `none` for `return r`. -/
def prettyLoop (c : XmlCodec) (s : c.State) : List XToken → Bool → Option c.State
  | [], eof => if eof then some s else none
  | t :: ts, eof =>
    match c.encode s (prettyToken t) with
    | none => none
    | some s' => prettyLoop c s' ts eof

/-- modifier.go:361-429 prettyModifier.Apply -/
def prettyMod (c : XmlCodec) (r : Result) : Result :=
  if r.raw.isEmpty then r
  else
    match prettyLoop c c.init (c.decode r.raw).1 (c.decode r.raw).2 with
    | none => r
    | some s =>
      match c.flush s with
      | none => r
      | some out => .mk r.typ out r.str r.num []

end Verif
