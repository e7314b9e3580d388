import Verif.Model.Get
import Verif.Model.Modifier
/- Model of /repo/builder.go. Positions are `Int`s into `b.data`. A builder run is a function from
the data to the final content of `b.result` (each exported path resets and fills it once). -/
namespace Verif

/-- errors.go:10-21; wrapped errors (`%w`) are identified with what they wrap. -/
inductive Err where
  | invalidPath | malformed | invalidValue
deriving DecidableEq, Repr

/-- builder.go:15 -/
def maxPositionOffset : Int := 2 ^ 30 - 1

/-- Outcome of a builder method: panic, error, or content of `b.result`. -/
inductive BRes where
  | panic
  | err (e : Err)
  | ok (result : Bytes)
deriving DecidableEq, Repr

/-- The dynamic types of `value interface{}` that builder.go:50-79 tells apart. `int` stands for int and
int64; `float` for float64 and float32 and carries the text `fmt.Sprintf("%g")` gives; `raw` is []byte;
`other` any other type. -/
inductive GoVal where
  | nil
  | str (s : Bytes)
  | int (i : Int)
  | float (text : Bytes)
  | bool (b : Bool)
  | raw (s : Bytes)
  | other
deriving DecidableEq, Repr

/-- builder.go:50-79 valueToXML; `none` is the error. The flag isRaw is never used (builder.go:990-994
does the same in both branches) and is left out. -/
def valueToXML : GoVal → Option Bytes
  | .nil => some []
  | .str s => some (escapeXML s)
  | .int i => some (intDec i)
  | .float t => some t
  | .bool true => some b!"true"
  | .bool false => some b!"false"
  | .raw s => some s
  | .other => none

/-- `d[:i]`; `none` is a panic. (Go compares with the capacity of the slice; a slice with spare
capacity would yield bytes past the end instead. The model takes capacity = length; `Model/Spare` is the general case.) -/
def sliceTo (d : Bytes) (i : Int) : Option Bytes :=
  if 0 ≤ i ∧ i ≤ d.length then some (d.take i.toNat) else none

/-- `d[i:]` -/
def sliceFrom (d : Bytes) (i : Int) : Option Bytes :=
  if 0 ≤ i ∧ i ≤ d.length then some (d.drop i.toNat) else none

/-- `d[i:j]` -/
def slice (d : Bytes) (i j : Int) : Option Bytes :=
  if 0 ≤ i ∧ i ≤ j ∧ j ≤ d.length then some ((d.take j.toNat).drop i.toNat) else none

/-- The write pattern of all builder methods: `d[:i]`, new bytes, `d[j:]`. -/
def splice (d : Bytes) (i j : Int) (mid : Bytes) : BRes :=
  match sliceTo d i, sliceFrom d j with
  | some a, some b => .ok (a ++ mid ++ b)
  | _, _ => .panic

/-- builder.go:169-177 elementLocation -/
structure Loc where
  startPos : Int
  endTagPos : Int
  contentStart : Int
  contentEnd : Int
  name : Bytes
  attrs : Attrs
  selfClosing : Bool
deriving DecidableEq, Repr

/-- builder.go:220-239, 270-292: the location of element `e` of the text `data`, which starts at `base`. -/
def locOf (data : Bytes) (base : Int) (e : Elem) : Loc :=
  let cs : Int := (data.length : Int) - e.openLen
  let ce : Int := if e.selfClosing then cs else (data.length : Int) - e.endLen - e.name.length - 3
  ⟨(data.length : Int) - e.startLen + base, ce + base, cs + base, ce + base, e.name, e.attrs, e.selfClosing⟩

/-- builder.go:252-257, 306-311: is the offset of the content of `e` acceptable. -/
def offsetOk (data : Bytes) (base : Int) (e : Elem) : Bool :=
  !((base + ((data.length : Int) - e.openLen) < base) || (base + ((data.length : Int) - e.openLen) > maxPositionOffset))

/-- builder.go:181-315 findElementLocation. `cs` is opts.CaseSensitive. The first matching
element is final: there is no return to later siblings. The search inside an element runs
over the re-serialised content returned by parseElementContent. -/
def findLoc (o : Ord) (cs : Bool) : List Seg → Bytes → Int → Option Loc
  | [], _, _ => none
  | cur :: rest, data, base =>
    if base > maxPositionOffset then none
    else
      let ms := (topElems o data).filter (fun e => cur.matchesOpt e.name cs)
      match rest with
      | [] => ms.head?.map (locOf data base)
      | nxt :: rest2 =>
        match nxt.kind with
        | .index i =>
          if i < 0 then none
          else
            match ms[i.toNat]? with
            | none => none
            | some e =>
              if rest2.isEmpty then some (locOf data base e)
              else if offsetOk data base e then
                findLoc o cs rest2 e.content (base + ((data.length : Int) - e.openLen))
              else none
        | _ =>
          match ms.head? with
          | none => none
          | some e =>
            if offsetOk data base e then
              findLoc o cs (nxt :: rest2) e.content (base + ((data.length : Int) - e.openLen))
            else none

/-- builder.go:318-338 replaceElement (the attribute case at 320 is never reached from setElement) -/
def replaceElement (data : Bytes) (l : Loc) (v : Bytes) : BRes := splice data l.contentStart l.contentEnd v

/-- Go `sort.Strings`: insertion into a sorted list. -/
def insertName (n : Bytes) : List Bytes → List Bytes
  | [] => [n]
  | m :: ms => if bytesLt m n then m :: insertName n ms else n :: m :: ms

/-- Go `sort.Strings` (bytewise ascending). Equal strings are indistinguishable, so the result is
determined. -/
def sortNames : List Bytes → List Bytes
  | [] => []
  | n :: ns => insertName n (sortNames ns)

/-- builder.go:361-376, 391-395, 1110-1121: is `name` the attribute `attrName`. -/
def sameAttr (cs : Bool) (name attrName : Bytes) : Bool :=
  if cs then name = attrName else toLowerASCII name = toLowerASCII attrName

/-- builder.go:384-403: the attributes in sorted order, the modified one with the raw new value. -/
def writeSorted (cs : Bool) (attrs : Attrs) (attrName v : Bytes) : List Bytes → Bytes
  | [] => []
  | n :: ns =>
    b!" " ++ n ++ b!"=\"" ++
      (if sameAttr cs n attrName then v else escapeXML ((Attrs.get? n attrs).getD [])) ++ b!"\"" ++
      writeSorted cs attrs attrName v ns

/-- builder.go:352-381: sorted attribute names with the new one added if it is not there. -/
def attrNamesWith (cs : Bool) (attrs : Attrs) (attrName : Bytes) : List Bytes :=
  let ns := attrs.map (·.1)
  sortNames (if ns.any (fun n => sameAttr cs n attrName) then ns else ns ++ [attrName])

/-- `/>` or `>` (builder.go:406-414) -/
def tagClose (sc : Bool) : Bytes := if sc then b!"/>" else b!">"

/-- builder.go:341-417 replaceAttribute -/
def replaceAttribute (cs : Bool) (data : Bytes) (l : Loc) (attrName v : Bytes) : BRes :=
  splice data l.startPos l.contentStart
    (b!"<" ++ l.name ++ writeSorted cs l.attrs attrName v (attrNamesWith cs l.attrs attrName) ++
      tagClose l.selfClosing)

/-- `PathSegment.Value`: only element and attribute segments have one (path.go:240, 262). -/
def Seg.value (s : Seg) : Bytes :=
  match s.kind with
  | .elem v => v
  | .attr v => v
  | _ => []

/-- Is it an attribute segment. -/
def Seg.isAttr (s : Seg) : Bool :=
  match s.kind with
  | .attr _ => true
  | _ => false

/-- `n` times the indentation string. -/
def repeatB (n : Nat) (s : Bytes) : Bytes := (List.replicate n s).flatten

/-- builder.go:976-982: line break and indentation before an element of the chain. -/
def indentAt (indent : Bytes) (depth : Nat) : Bytes :=
  if indent.isEmpty then [] else 10 :: repeatB depth indent

/-- builder.go:970-1006: the chain from position `i` of the path on. The opening tags are written
first, the closing tags in reverse, so the chain nests. -/
def buildPathFrom (indent v : Bytes) (i : Nat) : List Seg → Bytes
  | [] => []
  | s :: rest =>
    let inner := (if rest.isEmpty then v else []) ++ buildPathFrom indent v (i + 1) rest
    if s.isAttr then buildPathFrom indent v (i + 1) rest
    else indentAt indent i ++ b!"<" ++ s.value ++ b!">" ++ inner ++ b!"</" ++ s.value ++ b!">"

/-- builder.go:961-1015 buildElementPath (baseDepth is always 0, so 1009-1014 never run). -/
def buildElementPath (indent : Bytes) (path : List Seg) (v : Bytes) : Bytes := buildPathFrom indent v 0 path

/-- builder.go:545-571 shouldCreateSiblingRoot on non-empty data -/
def shouldCreateSiblingRoot (o : Ord) (data target : Bytes) : Bool :=
  !data.isEmpty && (topElems o data).all (fun e => e.name ≠ target)

/-- builder.go:491-512, 603-625: a self-closing element opened up around new content. -/
def expanded (name ordered content : Bytes) : Bytes :=
  b!"<" ++ name ++ ordered ++ b!">" ++ content ++ b!"</" ++ name ++ b!">"

/-- builder.go:454-532 createInRoot -/
def createInRoot (o : Ord) (indent data : Bytes) (path : List Seg) (v : Bytes) : BRes :=
  let sibling : Bool :=
    match path with
    | [] => false
    | s :: _ =>
      match s.kind with
      | .elem t => shouldCreateSiblingRoot o data t
      | _ => false
  if sibling then .ok (data ++ buildElementPath indent path v)
  else
    match topElems o data with
    | [] => .err .malformed
    | e :: _ =>
      let toCreate : List Seg :=
        match path with
        | [] => []
        | s :: rest => if s.kind = .elem e.name then rest else s :: rest
      if toCreate.isEmpty then .ok []
      else
        let l := locOf data 0 e
        if e.selfClosing then
          splice data l.startPos l.contentStart
            (expanded e.name (writeAttrs (o (data.drop l.contentStart.toNat) e.attrs)) (buildElementPath indent toCreate v))
        else splice data l.contentEnd l.contentEnd (buildElementPath indent toCreate v)

/-- builder.go:594-640 createInParent -/
def createInParent (o : Ord) (indent data : Bytes) (l : Loc) (rest : List Seg) (v : Bytes) : BRes :=
  if l.selfClosing then
    splice data l.startPos l.contentEnd
      (expanded l.name (writeAttrs (o (data.drop l.contentStart.toNat) l.attrs)) (buildElementPath indent rest v))
  else splice data l.contentEnd l.contentEnd (buildElementPath indent rest v)

/-- builder.go:432-441: the longest proper prefix `path[0:i]`, `i ≥ 1`, that exists. -/
def deepestParent (o : Ord) (cs : Bool) (data : Bytes) (path : List Seg) : Nat → Option (Nat × Loc)
  | 0 => none
  | i + 1 =>
    match findLoc o cs (path.take (i + 1)) data 0 with
    | some l => some (i + 1, l)
    | none => deepestParent o cs data path i

/-- builder.go:420-451 createElement -/
def createElement (o : Ord) (cs : Bool) (indent data : Bytes) (path : List Seg) (v : Bytes) : BRes :=
  if data.isEmpty then .ok (data ++ buildElementPath indent path v)
  else
    match deepestParent o cs data path (path.length - 1) with
    | none => createInRoot o indent data path v
    | some (i, l) => createInParent o indent data l (path.drop i) v

/-- builder.go:1147-1152 getResult -/
def getResult (data result : Bytes) : Bytes := if result.isEmpty then data else result

/-- builder.go:659-693 createElementForAttribute -/
def createElementForAttribute (o : Ord) (cs : Bool) (indent data : Bytes) (path : List Seg) (attrName v : Bytes) : BRes :=
  match createElement o cs indent data path [] with
  | .panic => .panic
  | .err e => .err e
  | .ok r =>
    let mid := getResult data r
    if mid.length > maxDocumentSize then .err .malformed
    else
      match findLoc o cs path mid 0 with
      | none => .err .invalidPath
      | some l => replaceAttribute cs mid l attrName v

/-- `<name>v</name>` (builder.go:792-798, 833-840, 901-907) -/
def wrapElem (name v : Bytes) : Bytes := b!"<" ++ name ++ b!">" ++ v ++ b!"</" ++ name ++ b!">"

/-- builder.go:846-850, 911-915: final size check. -/
def sizeChecked : BRes → BRes
  | .ok r => if r.length > maxDocumentSize then .err .invalidValue else .ok r
  | x => x

/-- builder.go:860-916 appendRootElement -/
def appendRootElement (o : Ord) (cs : Bool) (data : Bytes) (seg : Seg) (v : Bytes) : BRes :=
  if data.isEmpty then .ok (wrapElem seg.value v)
  else
    let pos : Int :=
      match ((topElems o data).filter (fun e => seg.matchesOpt e.name cs)).getLast? with
      | some e => (data.length : Int) - e.endLen
      | none => data.length
    sizeChecked (splice data pos pos (wrapElem seg.value v))

/-- builder.go:923-958 findLastMatchPosition (parent not self-closing); `none` is a panic. -/
def findLastMatch (o : Ord) (cs : Bool) (data : Bytes) (l : Loc) (seg : Seg) : Option Int :=
  match slice data l.contentStart l.contentEnd with
  | none => none
  | some content =>
    match ((topElems o content).filter (fun e => seg.matchesOpt e.name cs)).getLast? with
    | some e => some (l.contentStart + ((content.length : Int) - e.endLen))
    | none => some l.contentEnd

/-- builder.go:780-787: attributes in sorted order. -/
def writeAttrsSorted (attrs : Attrs) : Bytes :=
  writeAttrs ((sortNames (attrs.map (·.1))).map fun n => (n, (Attrs.get? n attrs).getD []))

/-- builder.go:710-851 appendElement, after the value checks; `path` without the final `-1`. -/
def appendElement (o : Ord) (cs : Bool) (indent data : Bytes) (path : List Seg) (v : Bytes) : BRes :=
  match path.getLast? with
  | none => .err .invalidPath
  | some seg =>
    match seg.kind with
    | .elem name =>
      if path.dropLast.isEmpty then appendRootElement o cs data seg v
      else
        match findLoc o cs path.dropLast data 0 with
        | none => createElement o cs indent data path v
        | some l =>
          if l.selfClosing then
            splice data l.startPos l.contentEnd (expanded l.name (writeAttrsSorted l.attrs) (wrapElem name v))
          else
            match findLastMatch o cs data l seg with
            | none => .panic
            | some pos =>
              let ind := if pos > l.contentStart then indentAt indent path.dropLast.length else []
              sizeChecked (splice data pos pos (ind ++ wrapElem name v))
    | _ => .err .invalidPath

/-- What the index segments of a path ask for (builder.go:109-130 with path.go:615-647): `none` is
an ordinary path, `some true` an append, `some false` an error. -/
def indexIntent : List Seg → Option Bool
  | [] => none
  | s :: rest =>
    match s.kind with
    | .index i =>
      if 0 ≤ i then indexIntent rest
      else if i = -1 then (if rest.isEmpty then some true else some false)
      else some false
    | _ => indexIntent rest

/-- builder.go:82-166 setElement -/
def setElement (o : Ord) (cs : Bool) (indent data : Bytes) (path : List Seg) (value : GoVal) : BRes :=
  match path.getLast? with
  | none => .err .invalidPath
  | some last =>
    match valueToXML value with
    | none => .err .invalidValue
    | some v =>
      if v.length > maxValueSize then .err .invalidValue
      else if data.length > maxDocumentSize then .err .malformed
      else
        match indexIntent path with
        | some false => .err .invalidPath
        | some true => appendElement o cs indent data path.dropLast v
        | none =>
          match last.kind with
          | .attr a =>
            match findLoc o cs path.dropLast data 0 with
            | none => createElementForAttribute o cs indent data path.dropLast a v
            | some l => replaceAttribute cs data l a v
          | _ =>
            match findLoc o cs path data 0 with
            | some l => replaceElement data l v
            | none => createElement o cs indent data path v

/-- builder.go:1109-1132: remaining attributes, sorted. -/
def attrsWithout (cs : Bool) (attrs : Attrs) (attrName : Bytes) : Attrs :=
  (sortNames ((attrs.map (·.1)).filter (fun n => !sameAttr cs n attrName))).map
    fun n => (n, (Attrs.get? n attrs).getD [])

/-- builder.go:1077-1144 deleteAttribute -/
def deleteAttribute (cs : Bool) (data : Bytes) (l : Loc) (attrName : Bytes) : BRes :=
  if (l.attrs.map (·.1)).any (fun n => sameAttr cs n attrName) then
    splice data l.startPos l.contentStart
      (b!"<" ++ l.name ++ writeAttrs (attrsWithout cs l.attrs attrName) ++ tagClose l.selfClosing)
  else .ok data

/-- builder.go:1018-1074 deleteElement -/
def deleteElement (o : Ord) (cs : Bool) (data : Bytes) (path : List Seg) : BRes :=
  match path.getLast? with
  | none => .err .invalidPath
  | some last =>
    if data.length > maxDocumentSize then .err .malformed
    else
      match last.kind with
      | .attr a =>
        if path.length < 2 then .err .invalidPath
        else
          match findLoc o cs path.dropLast data 0 with
          | none => .ok data
          | some l => deleteAttribute cs data l a
      | _ =>
        match findLoc o cs path data 0 with
        | none => .ok data
        | some l =>
          if l.selfClosing then splice data l.startPos l.contentStart []
          else splice data l.startPos (l.endTagPos + l.name.length + 3) []

end Verif
