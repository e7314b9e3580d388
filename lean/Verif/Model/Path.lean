import Verif.Model.Parser
/- Model of /repo/path.go (without the cache, see Model/Cache.lean), of the filter
expression parser in /repo/filter.go and of parseModifiers in /repo/modifier.go. -/
namespace Verif

/-- path.go:15 -/
def maxPathSegments : Nat := 100
/-- path.go:19 -/
def maxFieldNameLength : Nat := 256
/-- filter.go:17 -/
def maxFilterExpressionLength : Nat := 256
/-- filter.go:21 -/
def maxFilterDepth : Nat := 10
/-- filter.go:26 -/
def maxPatternIterations : Int := 10000

/-- filter.go:30-51 FilterOp -/
inductive FilterOp where
  | eq | ne | lt | gt | le | ge | pat | npat | ex
deriving DecidableEq, Repr

/-- path.go:103-110 Filter -/
structure Filter where
  path : Bytes
  op : FilterOp
  value : Bytes
deriving DecidableEq, Repr

/-- path.go:30-49 and the fields of path.go:76-100 that each segment type uses. The Go struct has
all fields in every segment; unused ones keep their zero value. `Intent` is never stored. -/
inductive SegKind where
  | elem (value : Bytes)
  | attr (value : Bytes)
  | index (i : Int)
  | wild (recursive : Bool)
  | filter (f : Filter) (all : Bool)
  | text
  | count
  | field (name : Bytes)
deriving DecidableEq, Repr

/-- path.go:76-100 PathSegment -/
structure Seg where
  kind : SegKind
  mods : List Bytes
deriving DecidableEq, Repr

/-- path.go:322-348: loop of splitPath; `escaped` is the flag. The first element of the result
is the part being built. -/
def splitPathAux (escaped : Bool) : Bytes → Bytes × List Bytes
  | [] => ([], [])
  | c :: cs =>
    if escaped then
      let p := splitPathAux false cs
      (c :: p.1, p.2)
    else if c = c!"\\" then splitPathAux true cs
    else if c = c!"." then
      let p := splitPathAux false cs
      ([], p.1 :: p.2)
    else
      let p := splitPathAux false cs
      (c :: p.1, p.2)

/-- path.go:313-349 splitPath -/
def splitPath (path : Bytes) : List Bytes :=
  if path.isEmpty then [] else (splitPathAux false path).1 :: (splitPathAux false path).2

/-- path.go:352-366 isNumeric (a non-ASCII rune fails like its first byte does) -/
def isNumeric (s : Bytes) : Bool :=
  !s.isEmpty && s.all (fun c => isDigit c || (c = c!"-" && s.length > 1))

/-- ASCII letter. -/
def isAlpha (c : UInt8) : Bool := (97 ≤ c && c ≤ 122) || (65 ≤ c && c ≤ 90)

/-- path.go:397-418 isValidIdentifier -/
def isValidIdentifier (s : Bytes) : Bool :=
  match s with
  | [] => false
  | c :: cs =>
    (isAlpha c || c = c!"_") &&
      cs.all (fun c => isAlpha c || isDigit c || c = c!"-" || c = c!"_" || c = c!":")

/-- path.go:370-392 isValidFieldName -/
def isValidFieldName (s : Bytes) : Bool :=
  match s with
  | [] => false
  | c :: cs =>
    if c :: cs = b!"%" then true
    else if c = c!"@" then (if cs.isEmpty then false else isValidIdentifier cs)
    else isValidIdentifier (c :: cs)

/-- modifier.go:212-225 parseModifiers -/
def parseModifiers (part : Bytes) : Bytes × List Bytes :=
  match splitOn c!"|" part with
  | [] => ([], [])
  | p :: ps =>
    (p, ps.filterMap fun m =>
      match trimSpace m with
      | [] => none
      | c :: cs => if c = c!"@" then some cs else none)

/-- Go `strings.ContainsAny(s, set)` for an ASCII set. -/
def containsAny (s set : Bytes) : Bool := s.any (fun c => set.contains c)

/-- filter.go:141-169: first two-character operator: (offset, operator). -/
def findOp2 : Bytes → Option (Nat × FilterOp)
  | c :: d :: r =>
    if c = c!"=" && d = c!"=" then some (0, .eq)
    else if c = c!"<" && d = c!"=" then some (0, .le)
    else if c = c!">" && d = c!"=" then some (0, .ge)
    else if c = c!"!" && d = c!"=" then some (0, .ne)
    else if c = c!"!" && d = c!"%" then some (0, .npat)
    else (findOp2 (d :: r)).map (fun p => (p.1 + 1, p.2))
  | _ => none

/-- filter.go:173-193: first one-character operator. -/
def findOp1 : Bytes → Option (Nat × FilterOp)
  | [] => none
  | c :: r =>
    if c = c!"<" then some (0, .lt)
    else if c = c!">" then some (0, .gt)
    else if c = c!"%" then some (0, .pat)
    else (findOp1 r).map (fun p => (p.1 + 1, p.2))

/-- filter.go:136-197: (offset, length, operator). -/
def findOp (expr : Bytes) : Option (Nat × Nat × FilterOp) :=
  match findOp2 expr with
  | some (i, op) => some (i, 2, op)
  | none =>
    match findOp1 expr with
    | some (i, op) => some (i, 1, op)
    | none => none

/-- Outcome of parsing: a runtime panic, an error, or a value. -/
inductive Parse (α : Type) where
  | panic
  | err
  | ok (a : α)
deriving DecidableEq, Repr

/-- filter.go:221-224: remove a pair of quotes. `value[1:len(value)-1]` panics when the value is a
single quote character: it is both prefix and suffix, and the slice bounds are [1:0]. -/
def stripQuotes (value : Bytes) : Parse Bytes :=
  if (hasPrefix value b!"'" && hasSuffix value b!"'") ||
      (hasPrefix value b!"\"" && hasSuffix value b!"\"") then
    if value.length < 2 then .panic else .ok ((value.drop 1).dropLast)
  else .ok value

/-- filter.go:105-239 parseFilterCondition -/
def parseFilterCondition (expr0 : Bytes) : Parse Filter :=
  if expr0.length > maxFilterExpressionLength then .err
  else if expr0.contains 0 then .err
  else
    let expr := trimSpace expr0
    if expr.isEmpty then .err
    else if !containsAny expr b!"=!<>%" then .ok ⟨expr, .ex, []⟩
    else
      match findOp expr with
      | none => .err
      | some (i, n, op) =>
        let pathRaw := expr.take i
        let valueRaw := expr.drop (i + n)
        if containsAny pathRaw [0, 10, 13, 9] then .err
        else
          let path := trimSpace pathRaw
          let value := trimSpace valueRaw
          if path.isEmpty || value.isEmpty then .err
          else if containsAny path b!"=!<>%" then .err
          else
            match stripQuotes value with
            | .panic => .panic
            | .err => .err
            | .ok v => if containsAny v [0, 10, 13, 9] then .err else .ok ⟨path, op, v⟩

/-- filter.go:69-88 parseFilter: the legacy syntax with brackets. Nothing in the library calls it any more, only tests do. -/
def parseFilter (expr0 : Bytes) : Parse Filter :=
  if expr0.length > maxFilterExpressionLength then .err
  else if expr0.contains 0 then .err
  else
    let expr := trimSpace expr0
    let inner := if hasPrefix expr b!"[" && hasSuffix expr b!"]" then (expr.drop 1).dropLast else expr
    parseFilterCondition (trimSpace inner)

/-- Effect of one dot-separated part in path.go:172-266. -/
inductive PartRes where
  | panic            -- runtime panic
  | reject           -- `return nil`
  | skip             -- `continue` without a segment
  | seg (s : Seg)
deriving DecidableEq, Repr

/-- path.go:185-231: a part starting with `#(`. -/
def parseFilterPart (p : Bytes) (mods : List Bytes) : PartRes :=
  let go (all : Bool) (endIdx : Nat) : PartRes :=
    if endIdx ≤ 2 then .skip
    else
      match parseFilterCondition ((p.take endIdx).drop 2) with
      | .panic => .panic
      | .err => .reject
      | .ok f => .seg ⟨.filter f all, mods⟩
  if hasSuffix p b!")#" then go true (p.length - 2)
  else if hasSuffix p b!")" then go false (p.length - 1)
  else .skip

/-- path.go:173-265: one part. -/
def parsePart (part : Bytes) : PartRes :=
  if part.isEmpty then .skip
  else
    let p := (parseModifiers part).1
    let mods := (parseModifiers part).2
    if hasPrefix p b!"#(" then parseFilterPart p mods
    else if hasPrefix p b!"@" then .seg ⟨.attr (p.drop 1), mods⟩
    else if p = b!"%" then .seg ⟨.text, mods⟩
    else if p = b!"#" then .seg ⟨.count, mods⟩
    else if p = b!"*" then .seg ⟨.wild false, mods⟩
    else if p = b!"**" then .seg ⟨.wild true, mods⟩
    else if isNumeric p then .seg ⟨.index (atoi p), mods⟩
    else .seg ⟨.elem p, mods⟩

/-- path.go:172-266: all parts, in order. -/
def parseParts : List Bytes → Parse (List Seg)
  | [] => .ok []
  | p :: ps =>
    match parsePart p with
    | .panic => .panic
    | .reject => .err
    | .skip => parseParts ps
    | .seg s =>
      match parseParts ps with
      | .panic => .panic
      | .err => .err
      | .ok ss => .ok (s :: ss)

/-- path.go:279-294: the field named by the segment after `#`. -/
def fieldOf : SegKind → Option Bytes
  | .elem v => some v
  | .attr v => some (c!"@" :: v)
  | .text => some b!"%"
  | _ => none

/-- path.go:270-307: `#` followed by a field becomes a field extraction. -/
def fuseFields : List Seg → List Seg
  | [] => []
  | [s] => [s]
  | s :: t :: r =>
    if s.kind = .count then
      match fieldOf t.kind with
      | some f =>
        if isValidFieldName f && f.length ≤ maxFieldNameLength then ⟨.field f, t.mods⟩ :: fuseFields r
        else s :: fuseFields (t :: r)
      | none => s :: fuseFields (t :: r)
    else s :: fuseFields (t :: r)

/-- path.go:162-310 parsePathInternal; `.err` is the nil slice. -/
def parsePathInternal (path : Bytes) : Parse (List Seg) :=
  if (splitPath path).length > maxPathSegments then .err
  else
    match parseParts (splitPath path) with
    | .panic => .panic
    | .err => .err
    | .ok ss => .ok (fuseFields ss)

/-- path.go:124-158 parsePath without the cache (Model/Cache.lean proves it transparent). -/
def parsePath (path : Bytes) : Parse (List Seg) :=
  if path.isEmpty then .err else parsePathInternal path

/-- path.go:489-512 toLowerASCII -/
def toLowerASCII (s : Bytes) : Bytes := s.map lowerByte

/-- path.go:572-598 splitNamespace: (prefix, local name). -/
def splitNamespace (name : Bytes) : Bytes × Bytes :=
  match name.idxOf? c!":" with
  | none => ([], name)
  | some idx =>
    if idx > maxNamespacePrefixLength then ([], name)
    else if (name.take idx).any (fun c => c < 0x20 || c = 0x7F) then ([], name)
    else (name.take idx, name.drop (idx + 1))

/-- path.go:424-437: element segment value against element name. -/
def nameMatches (value elemName : Bytes) : Bool :=
  let p := splitNamespace value
  let e := splitNamespace elemName
  if p.1 ≠ [] then p.1 = e.1 && p.2 = e.2 else p.2 = e.2

/-- path.go:422-444 matches -/
def Seg.matches (s : Seg) (elemName : Bytes) : Bool :=
  match s.kind with
  | .elem v => nameMatches v elemName
  | .wild _ => true
  | _ => false

/-- options.go:16-35 Options. `Namespaces` only matters through being nil or not. -/
structure Options where
  caseSensitive : Bool
  indent : Bytes
  preserveWhitespace : Bool
  namespaces : Option (List (Bytes × Bytes))
deriving DecidableEq, Repr

/-- options.go:51-58 DefaultOptions -/
def defaultOptions : Options := ⟨true, [], false, none⟩

/-- options.go:63-71 isDefaultOptions; `none` is a nil pointer. -/
def isDefaultOptions : Option Options → Bool
  | none => true
  | some o => o.caseSensitive && o.indent.isEmpty && !o.preserveWhitespace && o.namespaces.isNone

/-- path.go:457-478, the case-insensitive branch included. -/
def nameMatchesOpt (cs : Bool) (value elemName : Bytes) : Bool :=
  let lo : Bytes → Bytes := fun s => if cs then s else toLowerASCII s
  let p := splitNamespace value
  let e := splitNamespace elemName
  if lo p.1 ≠ [] then lo p.1 = lo e.1 && lo p.2 = lo e.2 else lo p.2 = lo e.2

/-- path.go:450-485 matchesWithOptions; only `CaseSensitive` is read. -/
def Seg.matchesOpt (s : Seg) (elemName : Bytes) (cs : Bool) : Bool :=
  match s.kind with
  | .elem v => nameMatchesOpt cs v elemName
  | .wild _ => true
  | _ => false

/-- get.go:901-909: lower-case the names of a parsed path. -/
def lowerSeg (s : Seg) : Seg :=
  match s.kind with
  | .elem v => { s with kind := .elem (toLowerASCII v) }
  | .attr v => { s with kind := .attr (toLowerASCII v) }
  | _ => s

/-- get.go:890-912 parsePathWithOptions -/
def parsePathWithOptions (path : Bytes) (cs : Bool) : Parse (List Seg) :=
  match parsePath path with
  | .ok ss => if cs then .ok ss else .ok (ss.map lowerSeg)
  | .err => .err
  | .panic => .panic

end Verif
