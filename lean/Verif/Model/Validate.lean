import Verif.Model.Path
/- Model of /repo/validate.go, with line/column tracking. The parser state is the remaining
suffix plus line and column. -/
namespace Verif

/-- validate.go:21-28 position part of validatingParser -/
structure VPos where
  rest : Bytes
  line : Nat
  col : Nat
deriving DecidableEq, Repr

/-- A line and a column, as remembered for an open tag (validate.go:31-35 tagInfo). -/
structure VLoc where
  line : Nat
  col : Nat
deriving DecidableEq, Repr

/-- validate.go:9-13 ValidateError -/
structure VErr where
  line : Nat
  col : Nat
  msg : Bytes
deriving DecidableEq, Repr

/-- validate.go:15-17 Error -/
def VErr.text (e : VErr) : Bytes :=
  b!"XML validation error at line " ++ natDec e.line ++ b!", column " ++ natDec e.col ++ b!": " ++ e.msg

def VLoc.err (l : VLoc) (msg : Bytes) : VErr := ⟨l.line, l.col, msg⟩

namespace VPos

/-- validate.go:52-68 advance (the returned byte is never used) -/
def adv (p : VPos) : VPos :=
  match p.rest with
  | [] => p
  | c :: cs => if c = 10 then ⟨cs, p.line + 1, 0⟩ else ⟨cs, p.line, p.col + 1⟩

/-- The current position. -/
def loc (p : VPos) : VLoc := ⟨p.line, p.col⟩

/-- An error at the current position. -/
def err (p : VPos) (msg : Bytes) : VErr := ⟨p.line, p.col, msg⟩

theorem adv_rest (p : VPos) : p.adv.rest = p.rest.drop 1 := by
  unfold adv
  cases h : p.rest with
  | nil => simp [h]
  | cons c cs => simp only; split <;> simp

/-- `advance()` n times -/
def advN : Nat → VPos → VPos
  | 0, p => p
  | n + 1, p => advN n p.adv

/-- validate.go:155-159 skipWhitespaceTracked -/
def skipWsT (p : VPos) : VPos :=
  match _h : p.rest with
  | [] => p
  | c :: _ => if isWs c then skipWsT p.adv else p
termination_by p.rest.length
decreasing_by simp [adv_rest, _h]

/-- validate.go:467-470 name characters -/
def isNameChar (c : UInt8) : Bool :=
  isAlpha c || isDigit c || c = c!"." || c = c!"-" || c = c!"_" || c = c!":"

/-- validate.go:456-478 readNameTracked: `k` bytes read so far; `none` is the too-large exit. -/
def readNameT (k : Nat) (p : VPos) : Option Bytes × VPos :=
  match _h : p.rest with
  | [] => (some [], p)
  | c :: _ =>
    if k > maxTokenSize then (none, p)
    else if isNameChar c then
      let q := readNameT (k + 1) p.adv
      (q.1.map (c :: ·), q.2)
    else (some [], p)
termination_by p.rest.length
decreasing_by simp [adv_rest, _h]

/-- validate.go:481-505 skipUntilTracked. `%c` writes the delimiter as a character; it is always ASCII. -/
def skipUntilT (d : UInt8) (k : Nat) (p : VPos) : Except VErr VPos :=
  match _h : p.rest with
  | [] => .error (p.err (b!"unexpected end of document (expected '" ++ [d] ++ b!"')"))
  | c :: _ =>
    if k > maxTokenSize then .error (p.err b!"token exceeds maximum size")
    else if c = d then .ok p.adv
    else skipUntilT d (k + 1) p.adv
termination_by p.rest.length
decreasing_by simp [adv_rest, _h]

/-- validate.go:508-531 skipComment -/
def skipCommentT (p : VPos) : Except VErr VPos :=
  match _h : p.rest with
  | a :: b :: _ :: _ =>
    if a = c!"-" && b = c!"-" then
      if p.adv.adv.rest.head? = some c!">" then .ok p.adv.adv.adv
      else .error (p.adv.adv.err b!"'--' not allowed in comment")
    else skipCommentT p.adv
  | _ => .error (p.err b!"unclosed comment")
termination_by p.rest.length
decreasing_by simp [adv_rest, _h]

/-- validate.go:534-550 skipCDATA -/
def skipCDATAT (p : VPos) : Except VErr VPos :=
  match _h : p.rest with
  | a :: b :: c :: _ =>
    if a = c!"]" && b = c!"]" && c = c!">" then .ok p.adv.adv.adv else skipCDATAT p.adv
  | _ => .error (p.err b!"unclosed CDATA section")
termination_by p.rest.length
decreasing_by simp [adv_rest, _h]

/-- validate.go:553-573 skipDOCTYPE -/
def skipDoctypeT (depth : Int) (p : VPos) : Except VErr VPos :=
  match _h : p.rest with
  | [] => .error (p.err b!"unclosed DOCTYPE declaration")
  | c :: _ =>
    if c = c!"[" then skipDoctypeT (depth + 1) p.adv
    else if c = c!"]" then skipDoctypeT (depth - 1) p.adv
    else if c = c!">" && depth == 0 then .ok p.adv
    else skipDoctypeT depth p.adv
termination_by p.rest.length
decreasing_by all_goals simp [adv_rest, _h]

end VPos

/-- validate.go:576-601 validateName -/
def validName (n : Bytes) : Bool :=
  match n with
  | [] => false
  | c :: cs => (isAlpha c || c = c!"_" || c = c!":") && cs.all VPos.isNameChar

/-- The text of the error of validateName (validate.go:576-601) for a name that `readNameTracked` has returned: not
empty, and only name characters. Then only the first character can be wrong, so the text for a wrong later character
(line 597) is not modelled, and the first character that `%c` writes is `.` or `-`. -/
def nameReason (n : Bytes) : Bytes :=
  match n with
  | [] => b!"empty name"
  | c :: _ => if isDigit c then b!"name cannot start with a digit" else b!"invalid first character '" ++ [c] ++ b!"'"

/-- validate.go:234-259 the texts for a bad element name. `none` is the too-large exit of readNameTracked, which has
moved past the start of the name (line 236). -/
def elemNameMsg (nm : Option Bytes) : Bytes :=
  match nm with
  | none => b!"element name exceeds maximum token size"
  | some [] => b!"empty element name"
  | some n => b!"invalid element name '" ++ n ++ b!"': " ++ nameReason n

/-- validate.go:401-417 the texts for a bad attribute name -/
def attrNameMsg (nm : Option Bytes) : Bytes :=
  match nm with
  | none => b!"invalid attribute name"
  | some [] => b!"invalid attribute name"
  | some n => b!"invalid attribute name '" ++ n ++ b!"': " ++ nameReason n

/-- validate.go:370-453 parseAttributesValidating: `n` attributes still allowed. At `n = 0` only the end of
the tag is accepted. -/
def attrsT (n : Nat) (p : VPos) : Except VErr VPos :=
  let p1 := p.skipWsT
  match p1.rest with
  | [] => .error (p1.err b!"unexpected end of document in tag")
  | c :: _ =>
    if c = c!">" || c = c!"/" then .ok p1
    else
      match n with
      | 0 => .error (p1.err (b!"too many attributes (maximum " ++ natDec maxAttributes ++ b!")"))
      | n + 1 =>
        let (nm, p2) := p1.readNameT 0
        if !validName (nm.getD []) then .error (p1.err (attrNameMsg nm))
        else
          let p3 := p2.skipWsT
          if p3.rest.head? ≠ some c!"=" then .error (p3.err b!"expected '=' after attribute name")
          else
            let p4 := p3.adv.skipWsT
            match p4.rest with
            | [] => .error (p4.err b!"attribute value must be quoted")
            | q :: _ =>
              if q ≠ c!"\"" && q ≠ c!"'" then .error (p4.err b!"attribute value must be quoted")
              else
                match p4.adv.skipUntilT q 0 with
                | .error e => .error e
                | .ok p5 => attrsT n p5

/-- validate.go:21-28 the parser state: position, open tags (innermost first, with their
positions), rootFound, rootClosed. -/
structure VState where
  pos : VPos
  stack : List (Bytes × VLoc)
  rootFound : Bool
  rootClosed : Bool

/-- validate.go:227-311 parseOpeningTag; `tagAt` is the position of `<`. -/
def openTagT (tagAt : VLoc) (st : VState) : Except VErr VState :=
  let (nm, p1) := st.pos.readNameT 0
  let name := nm.getD []
  if !validName name then .error (st.pos.err (elemNameMsg nm))
  else if st.stack.length ≥ maxNestingDepth then
    .error (tagAt.err (b!"nesting depth exceeds maximum of " ++ natDec maxNestingDepth))
  else
    match attrsT maxAttributes p1 with
    | .error e => .error e
    | .ok p2 =>
      let p3 := p2.skipWsT
      let sc := p3.rest.head? = some c!"/"
      let p4 := if sc then p3.adv else p3
      if p4.rest.head? ≠ some c!">" then .error (p4.err b!"expected '>' to close tag")
      else
        let closed1 := if st.rootFound && st.stack.isEmpty && st.rootClosed then false else st.rootClosed
        if sc then
          .ok ⟨p4.adv, st.stack, true, if st.stack.isEmpty then true else closed1⟩
        else .ok ⟨p4.adv, (name, tagAt) :: st.stack, true, closed1⟩

/-- validate.go:314-367 parseClosingTag -/
def closeTagT (tagAt : VLoc) (st : VState) : Except VErr VState :=
  let (nm, p1) := st.pos.readNameT 0
  let name := nm.getD []
  if name.isEmpty then .error (st.pos.err b!"empty closing tag name")
  else
    let p2 := p1.skipWsT
    if p2.rest.head? ≠ some c!">" then .error (p2.err b!"expected '>' to close tag")
    else
      match st.stack with
      | [] => .error (tagAt.err (b!"closing tag '" ++ name ++ b!"' without matching opening tag"))
      | (t, l) :: ts =>
        if t ≠ name then
          .error (tagAt.err (b!"mismatched closing tag '" ++ name ++ b!"' (expected '" ++ t ++ b!"' opened at line " ++
            natDec l.line ++ b!", column " ++ natDec l.col ++ b!")"))
        else .ok ⟨p2.adv, ts, st.rootFound, if ts.isEmpty then true else st.rootClosed⟩

/-- Keep the rest of the state, with a new position. -/
def VState.at (st : VState) (r : Except VErr VPos) : Except VErr VState :=
  match r with
  | .error e => .error e
  | .ok p => .ok { st with pos := p }

/-- validate.go:162-224 parseTag -/
def tagT (st : VState) : Except VErr VState :=
  let tagAt := st.pos.loc
  let p := st.pos.adv
  match p.rest with
  | [] => .error (tagAt.err b!"unexpected end of document in tag")
  | c :: _ =>
    if c = c!"?" then st.at (p.adv.skipUntilT c!">" 0)
    else if c = c!"!" then
      let q := p.adv
      if q.rest.take 7 = b!"DOCTYPE" || q.rest.take 7 = b!"doctype" then st.at (q.skipDoctypeT 0)
      else if b!"--".isPrefixOf q.rest then st.at (q.adv.adv.skipCommentT)
      else if q.rest.take 7 = b!"[CDATA[" then st.at ((VPos.advN 7 q).skipCDATAT)
      else st.at (q.skipUntilT c!">" 0)
    else if c = c!"/" then closeTagT tagAt { st with pos := p.adv }
    else openTagT tagAt { st with pos := p }

/-- validate.go:106-129 one round of the main loop after skipping white space, at a byte `c`. -/
def stepT (c : UInt8) (st : VState) : Except VErr VState :=
  if c = c!"<" then tagT st
  else if !st.rootFound || st.rootClosed then
    if !isWs c then .error (st.pos.err b!"content not allowed outside root element") else .ok { st with pos := st.pos.adv }
  else .ok { st with pos := st.pos.adv }

/-- validate.go:99-151: main loop and final checks. `fuel` bounds the number of rounds; each round
consumes a byte, so the document length is enough (`validateLoop_fuel` in Lemmas). -/
def validateLoop : Nat → VState → Option VErr
  | 0, st => some (st.pos.err [])
  | n + 1, st =>
    let st1 := { st with pos := st.pos.skipWsT }
    match st1.pos.rest with
    | [] =>
      match st1.stack with
      | (n, l) :: _ => some (l.err (b!"unclosed tag '" ++ n ++ b!"'"))
      | [] => if st1.rootFound then none else some ⟨1, 0, b!"no root element found"⟩
    | c :: _ =>
      match stepT c st1 with
      | .error e => some e
      | .ok st2 => validateLoop n st2

/-- validate.go:79-152 validate; also ValidateWithError and ValidateBytesWithError (616, 622). -/
def validate (xml : Bytes) : Option VErr :=
  if xml.length > maxDocumentSize then
    some ⟨1, 0, b!"document exceeds maximum size of " ++ natDec maxDocumentSize ++ b!" bytes"⟩
  else if xml.isEmpty then some ⟨1, 0, b!"empty document"⟩
  else validateLoop (xml.length + 1) ⟨⟨xml, 1, 0⟩, [], false, false⟩

/-- validate.go:605-613 Valid, ValidBytes -/
def valid (xml : Bytes) : Bool := (validate xml).isNone

end Verif
