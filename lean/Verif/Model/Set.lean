import Verif.Model.Builder
import Verif.Model.Validate
/- Model of /repo/set.go. Every operation returns the document and the error (`none` = nil). The
string and byte-slice variants of each function differ only by conversions. -/
namespace Verif

/-- What an exported function of set.go returns, or a panic. -/
abbrev SetRes := Outcome (Bytes × Option Err)

/-- set.go:483-487, 514-518: the builder's outcome as the function's result. -/
def finish (xml : Bytes) : BRes → SetRes
  | .panic => .panic
  | .err e => .ret (xml, some e)
  | .ok r => .ret (getResult xml r, none)

/-- The options in force (builder.go:36-46, get.go:890-893): nil means default. -/
def effOpts (opts : Option Options) : Options := opts.getD defaultOptions

/-- set.go:492-519 DeleteBytesWithOptions -/
def deleteWithOptions (o : Ord) (xml path : Bytes) (opts : Option Options) : SetRes :=
  if xml.length > maxDocumentSize then .ret (xml, some .malformed)
  else if !valid xml then .ret (xml, some .malformed)
  else
    match parsePathWithOptions path (effOpts opts).caseSensitive with
    | .panic => .panic
    | .err => .ret (xml, some .invalidPath)
    | .ok [] => .ret (xml, some .invalidPath)
    | .ok ss => finish xml (deleteElement o (effOpts opts).caseSensitive xml ss)

/-- set.go:438-488 SetWithOptions and SetBytesWithOptions on a non-nil slice -/
def setWithOptions (o : Ord) (xml path : Bytes) (value : GoVal) (opts : Option Options) : SetRes :=
  if xml.length > maxDocumentSize then .ret (xml, some .malformed)
  else if !xml.isEmpty && !valid xml then .ret (xml, some .malformed)
  else if value = .nil then deleteWithOptions o xml path opts
  else
    match parsePathWithOptions path (effOpts opts).caseSensitive with
    | .panic => .panic
    | .err => .ret (xml, some .invalidPath)
    | .ok [] => .ret (xml, some .invalidPath)
    | .ok ss => finish xml (setElement o (effOpts opts).caseSensitive (effOpts opts).indent xml ss value)

/-- set.go:449-453: SetBytesWithOptions, where `none` is a nil slice. -/
def setBytesWithOptions (o : Ord) (xml : Option Bytes) (path : Bytes) (value : GoVal) (opts : Option Options) : SetRes :=
  match xml with
  | none => .ret ([], some .malformed)
  | some x => setWithOptions o x path value opts

/-- set.go:70-81 Set, SetBytes -/
def set (o : Ord) (xml path : Bytes) (value : GoVal) : SetRes := setWithOptions o xml path value (some defaultOptions)

/-- set.go:332-343 Delete, DeleteBytes -/
def delete (o : Ord) (xml path : Bytes) : SetRes := deleteWithOptions o xml path (some defaultOptions)

/-- set.go:302-309: the loop of SetManyBytes; `orig` is returned on error. -/
def setManyLoop (o : Ord) (orig : Bytes) : Bytes → List (Bytes × GoVal) → SetRes
  | cur, [] => .ret (cur, none)
  | cur, (p, v) :: r =>
    match set o cur p v with
    | .panic => .panic
    | .ret (_, some e) => .ret (orig, some e)
    | .ret (next, none) => setManyLoop o orig next r

/-- set.go:271-310 SetMany, SetManyBytes -/
def setMany (o : Ord) (xml : Bytes) (paths : List Bytes) (values : List GoVal) : SetRes :=
  if xml.length > maxDocumentSize then .ret (xml, some .malformed)
  else if paths.length ≠ values.length then .ret (xml, some .invalidPath)
  else setManyLoop o xml xml (paths.zip values)

/-- set.go:394-401: duplicates removed, first occurrences kept in order. -/
def dedup (seen : List Bytes) : List Bytes → List Bytes
  | [] => []
  | p :: ps => if seen.contains p then dedup seen ps else p :: dedup (p :: seen) ps

/-- set.go:407-417: the loop of DeleteManyBytes. -/
def deleteManyLoop (o : Ord) (orig : Bytes) : Bytes → List Bytes → SetRes
  | cur, [] => .ret (cur, none)
  | cur, p :: r =>
    match delete o cur p with
    | .panic => .panic
    | .ret (_, some e) => .ret (orig, some e)
    | .ret (next, none) => deleteManyLoop o orig next r

/-- set.go:373-418 DeleteMany, DeleteManyBytes -/
def deleteMany (o : Ord) (xml : Bytes) (paths : List Bytes) : SetRes :=
  if xml.length > maxDocumentSize then .ret (xml, some .malformed)
  else deleteManyLoop o xml xml (dedup [] paths)

/-- The rest after the first byte `>` (set.go:148-153). -/
def afterGt : Bytes → Bytes
  | [] => []
  | c :: cs => if c = c!">" then cs else afterGt cs

/-- set.go:212-223: end of an opening tag: self-closing flag and the rest. -/
def rawTagEnd : Bytes → Bool × Bytes
  | [] => (false, [])
  | c :: cs =>
    if c = c!"/" && cs.head? = some c!">" then (true, cs.drop 1)
    else if c = c!">" then (false, cs)
    else rawTagEnd cs

theorem afterGt_length (r : Bytes) : (afterGt r).length ≤ r.length := by
  induction r with
  | nil => simp [afterGt]
  | cons c cs ih => simp only [afterGt]; split <;> simp <;> omega

theorem rawTagEnd_length (r : Bytes) : (rawTagEnd r).2.length ≤ r.length := by
  induction r with
  | nil => simp [rawTagEnd]
  | cons c cs ih => simp only [rawTagEnd]; repeat' split
                    all_goals simp <;> omega

/-- set.go:129 characters of a closing tag name -/
def rawCloseChar (c : UInt8) : Bool := c ≠ c!">" && c ≠ c!" "
/-- set.go:202 characters of an opening tag name -/
def rawOpenChar (c : UInt8) : Bool := c ≠ c!">" && c ≠ c!" " && c ≠ c!"/"

/-- set.go:116-237: loop of validateRawXML; the stack has the innermost tag first. -/
def rawLoop (stack : List Bytes) (r : Bytes) : Bool :=
  match r with
  | [] => stack.isEmpty
  | c :: cs =>
    if c = c!"<" then
      match cs with
      | [] => false
      | d :: ds =>
        if d = c!"/" then
          match stack with
          | [] => false
          | t :: ts =>
            if t = ds.takeWhile rawCloseChar then rawLoop ts (afterGt (ds.dropWhile rawCloseChar)) else false
        else if d = c!"!" || d = c!"?" then
          if ds.head? = some c!"-" then
            match indexOf b!"-->" (c :: d :: ds) with
            | none => false
            | some n => rawLoop stack ((d :: ds).drop (n + 2))
          else if b!"<![CDATA[".isPrefixOf (c :: d :: ds) then
            match indexOf b!"]]>" (ds.drop 7) with
            | none => false
            | some n =>
              if (indexOf b!"<![CDATA[" ((ds.drop 7).take n)).isSome then false
              else rawLoop stack (ds.drop (7 + n + 3))
          else if b!"<!DOCTYPE".isPrefixOf (c :: d :: ds) then false
          else if b!"<!ENTITY".isPrefixOf (c :: d :: ds) then false
          else
            match indexOf b!">" (c :: d :: ds) with
            | none => false
            | some n => rawLoop stack ((d :: ds).drop n)
        else if ((d :: ds).takeWhile rawOpenChar).isEmpty then false
        else
          rawLoop
            (if (rawTagEnd ((d :: ds).dropWhile rawOpenChar)).1 then stack
             else (d :: ds).takeWhile rawOpenChar :: stack)
            (rawTagEnd ((d :: ds).dropWhile rawOpenChar)).2
    else rawLoop stack cs
termination_by r.length
decreasing_by
  · have h1 := afterGt_length (ds.dropWhile rawCloseChar)
    have h2 := (List.dropWhile_suffix rawCloseChar (l := ds)).length_le
    simp only [List.length_cons]; omega
  · simp only [List.length_drop, List.length_cons]; omega
  · simp only [List.length_drop, List.length_cons]; omega
  · simp only [List.length_drop, List.length_cons]; omega
  · have h1 := rawTagEnd_length ((d :: ds).dropWhile rawOpenChar)
    have h2 := (List.dropWhile_suffix rawOpenChar (l := d :: ds)).length_le
    simp only [List.length_cons] at *; omega
  · simp

/-- set.go:111-240 validateRawXML: true when no error. -/
def validateRawXML (raw : Bytes) : Bool := rawLoop [] raw

/-- set.go:100-108 SetRaw -/
def setRaw (o : Ord) (xml path raw : Bytes) : SetRes :=
  if validateRawXML raw then set o xml path (.raw raw) else .ret (xml, some .invalidValue)

end Verif
