import Verif.Model.Set
/- The builder functions of /repo/builder.go once more, on slices with spare capacity: in Go the upper bound of `d[:i]` and `d[i:j]` may be up to the capacity of
`d`, and the bytes behind the end of `d` are then read. `sp` are these bytes (for the document, and for the intermediate document of builder.go:676). In
`d[i:]` the upper bound is the length, so `i` must not exceed it. Everything else is as in `Model/Builder`. -/
namespace Verif

/-- `d[:i]` of a slice with `sp` behind its end -/
def sliceToS (sp d : Bytes) (i : Int) : Option Bytes :=
  if 0 ≤ i ∧ i ≤ d.length + sp.length then some ((d ++ sp).take i.toNat) else none

/-- `d[i:j]` -/
def sliceS (sp d : Bytes) (i j : Int) : Option Bytes :=
  if 0 ≤ i ∧ i ≤ j ∧ j ≤ d.length + sp.length then some (((d ++ sp).take j.toNat).drop i.toNat) else none

/-- `d[:i]`, new bytes, `d[j:]` -/
def spliceS (sp d : Bytes) (i j : Int) (mid : Bytes) : BRes :=
  match sliceToS sp d i, sliceFrom d j with
  | some a, some b => .ok (a ++ mid ++ b)
  | _, _ => .panic

/-- builder.go:318-338 replaceElement (the attribute case at 320 is never reached from setElement) -/
def replaceElementS (sp : Bytes) (data : Bytes) (l : Loc) (v : Bytes) : BRes := spliceS sp data l.contentStart l.contentEnd v

/-- builder.go:341-417 replaceAttribute -/
def replaceAttributeS (sp : Bytes) (cs : Bool) (data : Bytes) (l : Loc) (attrName v : Bytes) : BRes :=
  spliceS sp data l.startPos l.contentStart
    (b!"<" ++ l.name ++ writeSorted cs l.attrs attrName v (attrNamesWith cs l.attrs attrName) ++
      tagClose l.selfClosing)

/-- builder.go:454-532 createInRoot -/
def createInRootS (sp : Bytes) (o : Ord) (indent data : Bytes) (path : List Seg) (v : Bytes) : BRes :=
  let sibling : Bool :=
    match path with
    | [] => false
    | s :: _ =>
      match s.kind with
      | .elem t => shouldCreateSiblingRoot o data t
      | _ => false
  if sibling then .ok (data ++ buildElementPath indent path v)
  else
    match topElems o data with
    | [] => .err .malformed
    | e :: _ =>
      let toCreate : List Seg :=
        match path with
        | [] => []
        | s :: rest => if s.kind = .elem e.name then rest else s :: rest
      if toCreate.isEmpty then .ok []
      else
        let l := locOf data 0 e
        if e.selfClosing then
          spliceS sp data l.startPos l.contentStart
            (expanded e.name (writeAttrs (o (data.drop l.contentStart.toNat) e.attrs)) (buildElementPath indent toCreate v))
        else spliceS sp data l.contentEnd l.contentEnd (buildElementPath indent toCreate v)

/-- builder.go:594-640 createInParent -/
def createInParentS (sp : Bytes) (o : Ord) (indent data : Bytes) (l : Loc) (rest : List Seg) (v : Bytes) : BRes :=
  if l.selfClosing then
    spliceS sp data l.startPos l.contentEnd
      (expanded l.name (writeAttrs (o (data.drop l.contentStart.toNat) l.attrs)) (buildElementPath indent rest v))
  else spliceS sp data l.contentEnd l.contentEnd (buildElementPath indent rest v)

/-- builder.go:420-451 createElement -/
def createElementS (sp : Bytes) (o : Ord) (cs : Bool) (indent data : Bytes) (path : List Seg) (v : Bytes) : BRes :=
  if data.isEmpty then .ok (data ++ buildElementPath indent path v)
  else
    match deepestParent o cs data path (path.length - 1) with
    | none => createInRootS sp o indent data path v
    | some (i, l) => createInParentS sp o indent data l (path.drop i) v

/-- builder.go:659-693 createElementForAttribute -/
def createElementForAttributeS (sp sp2 : Bytes) (o : Ord) (cs : Bool) (indent data : Bytes) (path : List Seg) (attrName v : Bytes) : BRes :=
  match createElementS sp o cs indent data path [] with
  | .panic => .panic
  | .err e => .err e
  | .ok r =>
    let mid := getResult data r
    if mid.length > maxDocumentSize then .err .malformed
    else
      match findLoc o cs path mid 0 with
      | none => .err .invalidPath
      | some l => replaceAttributeS sp2 cs mid l attrName v

/-- builder.go:860-916 appendRootElement -/
def appendRootElementS (sp : Bytes) (o : Ord) (cs : Bool) (data : Bytes) (seg : Seg) (v : Bytes) : BRes :=
  if data.isEmpty then .ok (wrapElem seg.value v)
  else
    let pos : Int :=
      match ((topElems o data).filter (fun e => seg.matchesOpt e.name cs)).getLast? with
      | some e => (data.length : Int) - e.endLen
      | none => data.length
    sizeChecked (spliceS sp data pos pos (wrapElem seg.value v))

/-- builder.go:923-958 findLastMatchPosition (parent not self-closing); `none` is a panic. -/
def findLastMatchS (sp : Bytes) (o : Ord) (cs : Bool) (data : Bytes) (l : Loc) (seg : Seg) : Option Int :=
  match sliceS sp data l.contentStart l.contentEnd with
  | none => none
  | some content =>
    match ((topElems o content).filter (fun e => seg.matchesOpt e.name cs)).getLast? with
    | some e => some (l.contentStart + ((content.length : Int) - e.endLen))
    | none => some l.contentEnd

/-- builder.go:710-851 appendElement, after the value checks; `path` without the final `-1`. -/
def appendElementS (sp : Bytes) (o : Ord) (cs : Bool) (indent data : Bytes) (path : List Seg) (v : Bytes) : BRes :=
  match path.getLast? with
  | none => .err .invalidPath
  | some seg =>
    match seg.kind with
    | .elem name =>
      if path.dropLast.isEmpty then appendRootElementS sp o cs data seg v
      else
        match findLoc o cs path.dropLast data 0 with
        | none => createElementS sp o cs indent data path v
        | some l =>
          if l.selfClosing then
            spliceS sp data l.startPos l.contentEnd (expanded l.name (writeAttrsSorted l.attrs) (wrapElem name v))
          else
            match findLastMatchS sp o cs data l seg with
            | none => .panic
            | some pos =>
              let ind := if pos > l.contentStart then indentAt indent path.dropLast.length else []
              sizeChecked (spliceS sp data pos pos (ind ++ wrapElem name v))
    | _ => .err .invalidPath

/-- builder.go:82-166 setElement -/
def setElementS (sp sp2 : Bytes) (o : Ord) (cs : Bool) (indent data : Bytes) (path : List Seg) (value : GoVal) : BRes :=
  match path.getLast? with
  | none => .err .invalidPath
  | some last =>
    match valueToXML value with
    | none => .err .invalidValue
    | some v =>
      if v.length > maxValueSize then .err .invalidValue
      else if data.length > maxDocumentSize then .err .malformed
      else
        match indexIntent path with
        | some false => .err .invalidPath
        | some true => appendElementS sp o cs indent data path.dropLast v
        | none =>
          match last.kind with
          | .attr a =>
            match findLoc o cs path.dropLast data 0 with
            | none => createElementForAttributeS sp sp2 o cs indent data path.dropLast a v
            | some l => replaceAttributeS sp cs data l a v
          | _ =>
            match findLoc o cs path data 0 with
            | some l => replaceElementS sp data l v
            | none => createElementS sp o cs indent data path v

/-- builder.go:1077-1144 deleteAttribute -/
def deleteAttributeS (sp : Bytes) (cs : Bool) (data : Bytes) (l : Loc) (attrName : Bytes) : BRes :=
  if (l.attrs.map (·.1)).any (fun n => sameAttr cs n attrName) then
    spliceS sp data l.startPos l.contentStart
      (b!"<" ++ l.name ++ writeAttrs (attrsWithout cs l.attrs attrName) ++ tagClose l.selfClosing)
  else .ok data

/-- builder.go:1018-1074 deleteElement -/
def deleteElementS (sp : Bytes) (o : Ord) (cs : Bool) (data : Bytes) (path : List Seg) : BRes :=
  match path.getLast? with
  | none => .err .invalidPath
  | some last =>
    if data.length > maxDocumentSize then .err .malformed
    else
      match last.kind with
      | .attr a =>
        if path.length < 2 then .err .invalidPath
        else
          match findLoc o cs path.dropLast data 0 with
          | none => .ok data
          | some l => deleteAttributeS sp cs data l a
      | _ =>
        match findLoc o cs path data 0 with
        | none => .ok data
        | some l =>
          if l.selfClosing then spliceS sp data l.startPos l.contentStart []
          else spliceS sp data l.startPos (l.endTagPos + l.name.length + 3) []

/-- set.go:492-519 DeleteBytesWithOptions -/
def deleteWithOptionsS (sp : Bytes) (o : Ord) (xml path : Bytes) (opts : Option Options) : SetRes :=
  if xml.length > maxDocumentSize then .ret (xml, some .malformed)
  else if !valid xml then .ret (xml, some .malformed)
  else
    match parsePathWithOptions path (effOpts opts).caseSensitive with
    | .panic => .panic
    | .err => .ret (xml, some .invalidPath)
    | .ok [] => .ret (xml, some .invalidPath)
    | .ok ss => finish xml (deleteElementS sp o (effOpts opts).caseSensitive xml ss)

/-- set.go:438-488 SetWithOptions and SetBytesWithOptions on a non-nil slice -/
def setWithOptionsS (sp sp2 : Bytes) (o : Ord) (xml path : Bytes) (value : GoVal) (opts : Option Options) : SetRes :=
  if xml.length > maxDocumentSize then .ret (xml, some .malformed)
  else if !xml.isEmpty && !valid xml then .ret (xml, some .malformed)
  else if value = .nil then deleteWithOptionsS sp o xml path opts
  else
    match parsePathWithOptions path (effOpts opts).caseSensitive with
    | .panic => .panic
    | .err => .ret (xml, some .invalidPath)
    | .ok [] => .ret (xml, some .invalidPath)
    | .ok ss => finish xml (setElementS sp sp2 o (effOpts opts).caseSensitive (effOpts opts).indent xml ss value)

/-- set.go:302-309: the loop of SetManyBytes; each call has slices of its own (`sps i` in the i-th call). -/
def setManyLoopS (sps : Nat → Bytes × Bytes) (o : Ord) (orig : Bytes) : Nat → Bytes → List (Bytes × GoVal) → SetRes
  | _, cur, [] => .ret (cur, none)
  | i, cur, (p, v) :: r =>
    match setWithOptionsS (sps i).1 (sps i).2 o cur p v (some defaultOptions) with
    | .panic => .panic
    | .ret (_, some e) => .ret (orig, some e)
    | .ret (next, none) => setManyLoopS sps o orig (i + 1) next r

/-- set.go:271-310 SetMany, SetManyBytes -/
def setManyS (sps : Nat → Bytes × Bytes) (o : Ord) (xml : Bytes) (paths : List Bytes) (values : List GoVal) : SetRes :=
  if xml.length > maxDocumentSize then .ret (xml, some .malformed)
  else if paths.length ≠ values.length then .ret (xml, some .invalidPath)
  else setManyLoopS sps o xml 0 xml (paths.zip values)

/-- set.go:407-417: the loop of DeleteManyBytes. -/
def deleteManyLoopS (sps : Nat → Bytes) (o : Ord) (orig : Bytes) : Nat → Bytes → List Bytes → SetRes
  | _, cur, [] => .ret (cur, none)
  | i, cur, p :: r =>
    match deleteWithOptionsS (sps i) o cur p (some defaultOptions) with
    | .panic => .panic
    | .ret (_, some e) => .ret (orig, some e)
    | .ret (next, none) => deleteManyLoopS sps o orig (i + 1) next r

/-- set.go:373-418 DeleteMany, DeleteManyBytes -/
def deleteManyS (sps : Nat → Bytes) (o : Ord) (xml : Bytes) (paths : List Bytes) : SetRes :=
  if xml.length > maxDocumentSize then .ret (xml, some .malformed)
  else deleteManyLoopS sps o xml 0 xml (dedup [] paths)

/-- set.go:100-108 SetRaw -/
def setRawS (sp sp2 : Bytes) (o : Ord) (xml path raw : Bytes) : SetRes :=
  if validateRawXML raw then setWithOptionsS sp sp2 o xml path (.raw raw) (some defaultOptions) else .ret (xml, some .invalidValue)

end Verif
