import Verif.Model.Fresh
import Verif.Model.Set
/- Set and Delete of /repo/builder.go and /repo/set.go once more, with a new iteration order of maps at every visit, as `Model/Fresh` has the query engine.
The functions are those of `Model/Builder` and `Model/Set`, line for line; `C75_same_set` and `C75_same_delete` state that with one order for all visits
they are the same functions. -/
namespace Verif

/-- The orders of the `t`-th step of a computation. -/
def Visits.at (os : Visits) (t : Nat) : Visits := fun l => os (t :: l)

/-- builder.go:181-315 findElementLocation -/
def findLocF (cs : Bool) : List Seg → Visits → Bytes → Int → Option Loc
  | [], _, _, _ => none
  | cur :: rest, os, data, base =>
    if base > maxPositionOffset then none
    else
      let ms := (topElems os.here data).filter (fun e => cur.matchesOpt e.name cs)
      match rest with
      | [] => ms.head?.map (locOf data base)
      | nxt :: rest2 =>
        match nxt.kind with
        | .index i =>
          if i < 0 then none
          else
            match ms[i.toNat]? with
            | none => none
            | some e =>
              if rest2.isEmpty then some (locOf data base e)
              else if offsetOk data base e then
                findLocF cs rest2 (os.sub 0 e) e.content (base + ((data.length : Int) - e.openLen))
              else none
        | _ =>
          match ms.head? with
          | none => none
          | some e =>
            if offsetOk data base e then
              findLocF cs (nxt :: rest2) (os.sub 0 e) e.content (base + ((data.length : Int) - e.openLen))
            else none

/-- builder.go:454-532 createInRoot: two scans and one loop over attributes -/
def createInRootF (os : Visits) (indent data : Bytes) (path : List Seg) (v : Bytes) : BRes :=
  let sibling : Bool :=
    match path with
    | [] => false
    | s :: _ =>
      match s.kind with
      | .elem t => shouldCreateSiblingRoot (os.at 0).here data t
      | _ => false
  if sibling then .ok (data ++ buildElementPath indent path v)
  else
    match topElems (os.at 1).here data with
    | [] => .err .malformed
    | e :: _ =>
      let toCreate : List Seg :=
        match path with
        | [] => []
        | s :: rest => if s.kind = .elem e.name then rest else s :: rest
      if toCreate.isEmpty then .ok []
      else
        let l := locOf data 0 e
        if e.selfClosing then
          splice data l.startPos l.contentStart
            (expanded e.name (writeAttrs ((os.at 2).here (data.drop l.contentStart.toNat) e.attrs)) (buildElementPath indent toCreate v))
        else splice data l.contentEnd l.contentEnd (buildElementPath indent toCreate v)

/-- builder.go:432-441: every prefix is searched anew -/
def deepestParentF (os : Visits) (cs : Bool) (data : Bytes) (path : List Seg) : Nat → Option (Nat × Loc)
  | 0 => none
  | i + 1 =>
    match findLocF cs (path.take (i + 1)) (os.at i) data 0 with
    | some l => some (i + 1, l)
    | none => deepestParentF os cs data path i

/-- builder.go:420-451 createElement -/
def createElementF (os : Visits) (cs : Bool) (indent data : Bytes) (path : List Seg) (v : Bytes) : BRes :=
  if data.isEmpty then .ok (data ++ buildElementPath indent path v)
  else
    match deepestParentF (os.at 0) cs data path (path.length - 1) with
    | none => createInRootF (os.at 1) indent data path v
    | some (i, l) => createInParent (os.at 2).here indent data l (path.drop i) v

/-- builder.go:659-693 createElementForAttribute: the document with the new element is scanned anew -/
def createElementForAttributeF (os : Visits) (cs : Bool) (indent data : Bytes) (path : List Seg) (attrName v : Bytes) : BRes :=
  match createElementF (os.at 0) cs indent data path [] with
  | .panic => .panic
  | .err e => .err e
  | .ok r =>
    let mid := getResult data r
    if mid.length > maxDocumentSize then .err .malformed
    else
      match findLocF cs path (os.at 1) mid 0 with
      | none => .err .invalidPath
      | some l => replaceAttribute cs mid l attrName v

/-- builder.go:710-851 appendElement -/
def appendElementF (os : Visits) (cs : Bool) (indent data : Bytes) (path : List Seg) (v : Bytes) : BRes :=
  match path.getLast? with
  | none => .err .invalidPath
  | some seg =>
    match seg.kind with
    | .elem name =>
      if path.dropLast.isEmpty then appendRootElement (os.at 0).here cs data seg v
      else
        match findLocF cs path.dropLast (os.at 1) data 0 with
        | none => createElementF (os.at 2) cs indent data path v
        | some l =>
          if l.selfClosing then
            splice data l.startPos l.contentEnd (expanded l.name (writeAttrsSorted l.attrs) (wrapElem name v))
          else
            match findLastMatch (os.at 3).here cs data l seg with
            | none => .panic
            | some pos =>
              let ind := if pos > l.contentStart then indentAt indent path.dropLast.length else []
              sizeChecked (splice data pos pos (ind ++ wrapElem name v))
    | _ => .err .invalidPath

/-- builder.go:82-166 setElement -/
def setElementF (os : Visits) (cs : Bool) (indent data : Bytes) (path : List Seg) (value : GoVal) : BRes :=
  match path.getLast? with
  | none => .err .invalidPath
  | some last =>
    match valueToXML value with
    | none => .err .invalidValue
    | some v =>
      if v.length > maxValueSize then .err .invalidValue
      else if data.length > maxDocumentSize then .err .malformed
      else
        match indexIntent path with
        | some false => .err .invalidPath
        | some true => appendElementF (os.at 0) cs indent data path.dropLast v
        | none =>
          match last.kind with
          | .attr a =>
            match findLocF cs path.dropLast (os.at 1) data 0 with
            | none => createElementForAttributeF (os.at 2) cs indent data path.dropLast a v
            | some l => replaceAttribute cs data l a v
          | _ =>
            match findLocF cs path (os.at 1) data 0 with
            | some l => replaceElement data l v
            | none => createElementF (os.at 2) cs indent data path v

/-- builder.go:1018-1074 deleteElement -/
def deleteElementF (os : Visits) (cs : Bool) (data : Bytes) (path : List Seg) : BRes :=
  match path.getLast? with
  | none => .err .invalidPath
  | some last =>
    if data.length > maxDocumentSize then .err .malformed
    else
      match last.kind with
      | .attr a =>
        if path.length < 2 then .err .invalidPath
        else
          match findLocF cs path.dropLast os data 0 with
          | none => .ok data
          | some l => deleteAttribute cs data l a
      | _ =>
        match findLocF cs path os data 0 with
        | none => .ok data
        | some l =>
          if l.selfClosing then splice data l.startPos l.contentStart []
          else splice data l.startPos (l.endTagPos + l.name.length + 3) []

/-- set.go:492-519 DeleteBytesWithOptions -/
def deleteWithOptionsF (os : Visits) (xml path : Bytes) (opts : Option Options) : SetRes :=
  if xml.length > maxDocumentSize then .ret (xml, some .malformed)
  else if !valid xml then .ret (xml, some .malformed)
  else
    match parsePathWithOptions path (effOpts opts).caseSensitive with
    | .panic => .panic
    | .err => .ret (xml, some .invalidPath)
    | .ok [] => .ret (xml, some .invalidPath)
    | .ok ss => finish xml (deleteElementF os (effOpts opts).caseSensitive xml ss)

/-- set.go:438-488 SetWithOptions -/
def setWithOptionsF (os : Visits) (xml path : Bytes) (value : GoVal) (opts : Option Options) : SetRes :=
  if xml.length > maxDocumentSize then .ret (xml, some .malformed)
  else if !xml.isEmpty && !valid xml then .ret (xml, some .malformed)
  else if value = .nil then deleteWithOptionsF os xml path opts
  else
    match parsePathWithOptions path (effOpts opts).caseSensitive with
    | .panic => .panic
    | .err => .ret (xml, some .invalidPath)
    | .ok [] => .ret (xml, some .invalidPath)
    | .ok ss => finish xml (setElementF os (effOpts opts).caseSensitive (effOpts opts).indent xml ss value)

/-- set.go:407-417: the loop of DeleteManyBytes; the `i`-th Delete visits its maps as `oss i` says. -/
def deleteManyLoopF (oss : Nat → Visits) (orig : Bytes) : Nat → Bytes → List Bytes → SetRes
  | _, cur, [] => .ret (cur, none)
  | i, cur, p :: r =>
    match deleteWithOptionsF (oss i) cur p (some defaultOptions) with
    | .panic => .panic
    | .ret (_, some e) => .ret (orig, some e)
    | .ret (next, none) => deleteManyLoopF oss orig (i + 1) next r

/-- set.go:373-418 DeleteMany, DeleteManyBytes -/
def deleteManyF (oss : Nat → Visits) (xml : Bytes) (paths : List Bytes) : SetRes :=
  if xml.length > maxDocumentSize then .ret (xml, some .malformed)
  else deleteManyLoopF oss xml 0 xml (dedup [] paths)

/-- set.go:302-309: the loop of SetManyBytes; the `i`-th Set visits its maps as `oss i` says. -/
def setManyLoopF (oss : Nat → Visits) (orig : Bytes) : Nat → Bytes → List (Bytes × GoVal) → SetRes
  | _, cur, [] => .ret (cur, none)
  | i, cur, (p, v) :: r =>
    match setWithOptionsF (oss i) cur p v (some defaultOptions) with
    | .panic => .panic
    | .ret (_, some e) => .ret (orig, some e)
    | .ret (next, none) => setManyLoopF oss orig (i + 1) next r

/-- set.go:271-310 SetMany, SetManyBytes -/
def setManyF (oss : Nat → Visits) (xml : Bytes) (paths : List Bytes) (values : List GoVal) : SetRes :=
  if xml.length > maxDocumentSize then .ret (xml, some .malformed)
  else if paths.length ≠ values.length then .ret (xml, some .invalidPath)
  else setManyLoopF oss xml 0 xml (paths.zip values)

/-- set.go:97-108 SetRaw -/
def setRawF (os : Visits) (xml path raw : Bytes) : SetRes :=
  if validateRawXML raw then setWithOptionsF os xml path (.raw raw) (some defaultOptions) else .ret (xml, some .invalidValue)

end Verif
