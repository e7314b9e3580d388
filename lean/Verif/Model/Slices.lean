import Verif.Model.Set
/- The byte-slice functions of /repo/set.go with the difference between a nil slice and an empty one, and the string
functions as the calls of them that they are. Model/Set.lean has one definition for both, on the bytes alone; here
they are written out as in the Go code. A document is `none` for nil. -/
namespace Verif

/-- A Go `[]byte`: `none` is nil. -/
abbrev Slice := Option Bytes

/-- What a byte-slice function of set.go returns. -/
abbrev SliceRes := Outcome (Slice × Option Err)

/-- The bytes of a slice; nil has none. -/
def Slice.bytes (s : Slice) : Bytes := s.getD []

/-- set.go:483-487, 514-518: `return xml, err`, or the new document, which `[]byte(...)` never makes nil. -/
def finishSl (xml : Slice) : BRes → SliceRes
  | .panic => .panic
  | .err e => .ret (xml, some e)
  | .ok r => .ret (some (getResult (Slice.bytes xml) r), none)

/-- set.go:492-519 DeleteBytesWithOptions -/
def deleteBytesSl (o : Ord) (xml : Slice) (path : Bytes) (opts : Option Options) : SliceRes :=
  if (Slice.bytes xml).length > maxDocumentSize then .ret (xml, some .malformed)
  else if !valid (Slice.bytes xml) then .ret (xml, some .malformed)
  else
    match parsePathWithOptions path (effOpts opts).caseSensitive with
    | .panic => .panic
    | .err => .ret (xml, some .invalidPath)
    | .ok [] => .ret (xml, some .invalidPath)
    | .ok ss => finishSl xml (deleteElement o (effOpts opts).caseSensitive (Slice.bytes xml) ss)

/-- set.go:449-488 SetBytesWithOptions -/
def setBytesSl (o : Ord) (xml : Slice) (path : Bytes) (value : GoVal) (opts : Option Options) : SliceRes :=
  if xml = none then .ret (xml, some .malformed)
  else if (Slice.bytes xml).length > maxDocumentSize then .ret (xml, some .malformed)
  else if (Slice.bytes xml).length > 0 && !valid (Slice.bytes xml) then .ret (xml, some .malformed)
  else if value = .nil then deleteBytesSl o xml path opts
  else
    match parsePathWithOptions path (effOpts opts).caseSensitive with
    | .panic => .panic
    | .err => .ret (xml, some .invalidPath)
    | .ok [] => .ret (xml, some .invalidPath)
    | .ok ss => finishSl xml (setElement o (effOpts opts).caseSensitive (effOpts opts).indent (Slice.bytes xml) ss value)

/-- set.go:302-309: the loop of SetManyBytes -/
def setManyLoopSl (o : Ord) (xml : Slice) : Slice → List (Bytes × GoVal) → SliceRes
  | cur, [] => .ret (cur, none)
  | cur, (p, v) :: r =>
    match setBytesSl o cur p v (some defaultOptions) with
    | .panic => .panic
    | .ret (_, some e) => .ret (xml, some e)
    | .ret (next, none) => setManyLoopSl o xml next r

/-- set.go:280-310 SetManyBytes -/
def setManySl (o : Ord) (xml : Slice) (paths : List Bytes) (values : List GoVal) : SliceRes :=
  if (Slice.bytes xml).length > maxDocumentSize then .ret (xml, some .malformed)
  else if paths.length ≠ values.length then .ret (xml, some .invalidPath)
  else if paths.length = 0 then .ret (xml, none)
  else setManyLoopSl o xml xml (paths.zip values)

/-- set.go:410-417: the loop of DeleteManyBytes -/
def deleteManyLoopSl (o : Ord) (xml : Slice) : Slice → List Bytes → SliceRes
  | cur, [] => .ret (cur, none)
  | cur, p :: r =>
    match deleteBytesSl o cur p (some defaultOptions) with
    | .panic => .panic
    | .ret (_, some e) => .ret (xml, some e)
    | .ret (next, none) => deleteManyLoopSl o xml next r

/-- set.go:382-418 DeleteManyBytes -/
def deleteManySl (o : Ord) (xml : Slice) (paths : List Bytes) : SliceRes :=
  if (Slice.bytes xml).length > maxDocumentSize then .ret (xml, some .malformed)
  else if paths.length = 0 then .ret (xml, none)
  else deleteManyLoopSl o xml xml (dedup [] paths)

/-- set.go:71-75, 272-276, 333-337, 374-378, 439-443: a string function returns its argument with an error, and else
`string(result)`. -/
def asString (xml : Bytes) : SliceRes → SetRes
  | .panic => .panic
  | .ret (_, some e) => .ret (xml, some e)
  | .ret (r, none) => .ret (Slice.bytes r, none)

/-- set.go:438-444 SetWithOptions; `[]byte(xml)` is never nil. -/
def setStr (o : Ord) (xml path : Bytes) (value : GoVal) (opts : Option Options) : SetRes :=
  asString xml (setBytesSl o (some xml) path value opts)

/-- set.go:332-338 Delete -/
def deleteStr (o : Ord) (xml path : Bytes) : SetRes := asString xml (deleteBytesSl o (some xml) path (some defaultOptions))

/-- set.go:271-277 SetMany -/
def setManyStr (o : Ord) (xml : Bytes) (paths : List Bytes) (values : List GoVal) : SetRes :=
  asString xml (setManySl o (some xml) paths values)

/-- set.go:373-379 DeleteMany -/
def deleteManyStr (o : Ord) (xml : Bytes) (paths : List Bytes) : SetRes := asString xml (deleteManySl o (some xml) paths)

end Verif
