import Verif.Model.GetOpt
/- The query engine of /repo/get.go once more, with a new iteration order of maps at every visit. `Model/Get` and `Model/GetOpt` take the order as a
function of the remaining input, so that two readings of the same bytes iterate a map alike. Go chooses an order anew for every loop. Here each reading
of a text and each loop over the attributes of a match has its own order, named by the way the engine got there. The functions are those of `Model/Get`
and `Model/GetOpt`, line for line, with these orders added; `C32_fresh_same` and `C32_fresh_same_options` state that with one order for all visits they are the
same functions. -/
namespace Verif

/-- The order at every visit. A visit is named by the path of calls that led to it: the tag of the call and the place of the element it is made for. -/
abbrev Visits := List Nat → Ord

/-- The orders below a call: `tag` says which call, `m` for which element (its place in the text being read is `startLen`). -/
def Visits.sub (os : Visits) (tag : Nat) (m : Elem) : Visits := fun l => os (tag :: m.startLen :: l)

/-- The order of the visit itself. -/
def Visits.here (os : Visits) : Ord := os []

/-- get.go:1500-1601 executeFieldExtraction: the content of every match is read on its own (tag 0). -/
def fieldExtractionF (mods : Bytes → Option (Result → Result)) (os : Visits) (ms : List Elem) (field : Bytes) (names : List Bytes) : Result :=
  if field.isEmpty then .null
  else
    let rs := (ms.flatMap fun m => fieldValues (os.sub 0 m).here field m).take maxWildcardResults
    if rs.isEmpty then .ofArray [] else applyModifiers mods (.ofArray rs) names

/-- get.go:566-678 handleWildcardMatches; `k` is executeQuery on the content of a match. -/
def handleWildcardF (mods : Bytes → Option (Result → Result)) (ms : List Elem) (rest : List Seg) (k : Elem → Result) : Result :=
  match rest with
  | [] => packResults (ms.map fun m => .ofContent m.content)
  | nxt :: rest2 =>
    let all := ms.flatMap fun m =>
      match nxt.kind with
      | .attr a =>
        match Attrs.get? a m.attrs with
        | some v => if rest2.isEmpty then [.ofAttr v] else []
        | none => []
      | .text => [.ofText m.content]
      | _ => asList (k m)
    let hasField := ms.any fun m =>
      match nxt.kind with
      | .attr _ => false
      | .text => false
      | _ => (k m).typ = .array && (k m).results.isEmpty
    if all.isEmpty then (if hasField then .ofArray [] else .null)
    else applyModifiers mods (packResults all) nxt.mods

/-- get.go:761-806 -/
def recEmitF (mods : Bytes → Option (Result → Result)) (rest : List Seg) (k : Visits → Elem → Result) (os : Visits) (e : Elem) : List Result :=
  match rest with
  | [] => [.ofContent e.content]
  | nxt :: rest2 =>
    match nxt.kind with
    | .attr a =>
      match Attrs.get? a e.attrs with
      | some v => if rest2.isEmpty then [.ofAttr v] else []
      | none => []
    | .text => [.ofText e.content]
    | .field f =>
      let r := fieldExtractionF mods os [e] f nxt.mods
      if r.typ = .array then r.results else []
    | _ => asList (k os e)

/-- get.go:721-808 -/
def recLoopF (inner : Elem → SearchSt → SearchSt) (tgt : Elem → Bool) (emit : Elem → List Result) : List Elem → SearchSt → SearchSt
  | [], st => st
  | e :: es, st =>
    let st1 := if !e.selfClosing && !e.content.isEmpty then inner e st else st
    if st1.ops ≥ maxRecursiveOperations then st1
    else if tgt e then
      if st1.res.length ≥ maxWildcardResults then st1
      else recLoopF inner tgt emit es { st1 with res := st1.res ++ emit e }
    else recLoopF inner tgt emit es st1

/-- get.go:711-809 and 1404-1497: the inner searches are visits of their own (tag 1). -/
def recSearchF (tgt : Elem → Bool) (emit : Visits → Elem → List Result) : Nat → Visits → Bytes → SearchSt → SearchSt
  | 0, _, _, st => { st with ops := st.ops + 1 }
  | n + 1, os, xml, st =>
    if st.res.length ≥ maxWildcardResults || st.ops + 1 ≥ maxRecursiveOperations then
      { st with ops := st.ops + 1 }
    else recLoopF (fun e => recSearchF tgt emit n (os.sub 1 e) e.content) tgt (emit os) (topElems os.here xml) { st with ops := st.ops + 1 }

/-- get.go:682-707 handleRecursiveWildcard -/
def handleRecursiveF (mods : Bytes → Option (Result → Result)) (os : Visits) (rest : List Seg) (k : Visits → Elem → Result) (xml : Bytes) : Result :=
  match rest with
  | [] => .null
  | tgt :: rest2 =>
    let st := recSearchF (fun e => tgt.matches e.name) (recEmitF mods rest2 k) (maxNestingDepth + 1) os xml ⟨0, []⟩
    match st.res with
    | [] => .null
    | rs => packResults rs

/-- get.go:1785-1846 processFirstMatch -/
def processFirstF (mods : Bytes → Option (Result → Result)) (os : Visits) (m : Elem) (seg : Seg) (rest : List Seg) (k : Elem → Result) : Result :=
  match rest with
  | [] => applyModifiers mods (.ofContent m.content) seg.mods
  | nxt :: _ =>
    match nxt.kind with
    | .attr a =>
      match Attrs.get? a m.attrs with
      | some v => applyModifiers mods (.ofAttr v) nxt.mods
      | none => .null
    | .text => applyModifiers mods (.ofText m.content) nxt.mods
    | .field f => fieldExtractionF mods os [m] f nxt.mods
    | _ => k m

/-- get.go:1849-1949 processAllMatches -/
def processAllF (mods : Bytes → Option (Result → Result)) (os : Visits) (ms : List Elem) (seg : Seg) (rest : List Seg) (k : Elem → Result) : Result :=
  match rest with
  | [] => applyModifiers mods (.ofArray (ms.map fun m => .ofContent m.content)) seg.mods
  | nxt :: _ =>
    match nxt.kind with
    | .field f => fieldExtractionF mods os ms f nxt.mods
    | kind =>
      let all := ms.flatMap fun m =>
        match kind with
        | .attr a =>
          match Attrs.get? a m.attrs with
          | some v => [.ofAttr v]
          | none => []
        | .text => [.ofText m.content]
        | _ => asList (k m)
      if all.isEmpty then .null else applyModifiers mods (packResults all) nxt.mods

/-- get.go:1768-1781, 1969-1976 -/
def routeFilterF (mods : Bytes → Option (Result → Result)) (os : Visits) (ms : List Elem) (seg : Seg) (all : Bool) (rest : List Seg) (k : Elem → Result) : Result :=
  match ms with
  | [] => .null
  | m :: _ => if all then processAllF mods os ms seg rest k else processFirstF mods os m seg rest k

/-- get.go:187-240 -/
def fragmentRootsF (mods : Bytes → Option (Result → Result)) (os : Visits) (ms : List Elem) (nxt : Seg) (rest2 : List Seg) (k2 : Elem → Result) : Result :=
  if ms.isEmpty then .null
  else
    match nxt.kind with
    | .field f => fieldExtractionF mods os ms f nxt.mods
    | .index i =>
      if i < 0 then .null
      else
        match ms[i.toNat]? with
        | none => .null
        | some m =>
          match rest2 with
          | [] => .ofContent m.content
          | s :: _ =>
            match s.kind with
            | .attr a =>
              match Attrs.get? a m.attrs with
              | some v => .ofAttr v
              | none => .null
            | .text => .ofText m.content
            | _ => k2 m
    | .count => .ofCount ms.length
    | _ => .null

/-- get.go:500-557 -/
def arrayOpF (mods : Bytes → Option (Result → Result)) (ms : List Elem) (nxt : Seg) (rest2 : List Seg) (k2 : Elem → Result) : Result :=
  if ms.isEmpty then .null
  else
    match nxt.kind with
    | .index i =>
      if i < 0 then .null
      else
        match ms[i.toNat]? with
        | none => .null
        | some m =>
          match rest2 with
          | [] => applyModifiers mods (.ofContent m.content) nxt.mods
          | s :: rest3 =>
            match s.kind with
            | .attr a =>
              match Attrs.get? a m.attrs with
              | some v => if rest3.isEmpty then applyModifiers mods (.ofAttr v) s.mods else .ofAttr v
              | none => .null
            | _ => k2 m
    | .count => applyModifiers mods (.ofCount ms.length) nxt.mods
    | _ => .null

/-- get.go:433-488 -/
def firstMatchF (mods : Bytes → Option (Result → Result)) (cur : Seg) (rest : List Seg) (k : Elem → Result) : List Elem → Result
  | [] => .null
  | m :: ms =>
    match rest with
    | [] => applyModifiers mods (.ofContent m.content) cur.mods
    | nxt :: rest2 =>
      match nxt.kind with
      | .attr a =>
        match Attrs.get? a m.attrs with
        | some v => if rest2.isEmpty then applyModifiers mods (.ofAttr v) nxt.mods else .null
        | none => .null
      | .text => applyModifiers mods (.ofText m.content) nxt.mods
      | _ => if (k m).typ = .null then firstMatchF mods cur rest k ms else k m

/-- get.go:306-341, 382-563; the evaluation of a filter on a match is a visit of its own (tag 2). -/
def execElemF (mods : Bytes → Option (Result → Result)) (os : Visits) (ev : Visits → Filter → Elem → Bool) (cur : Seg) (rest : List Seg)
    (k1 k2 : Elem → Result) (xml : Bytes) : Result :=
  let ms := (topElems os.here xml).filter (fun e => cur.matches e.name)
  match rest with
  | [] => firstMatchF mods cur rest k1 ms
  | nxt :: rest2 =>
    match nxt.kind with
    | .field f => fieldExtractionF mods os (ms.take maxWildcardResults) f nxt.mods
    | .filter f all => routeFilterF mods os ((ms.take maxWildcardResults).filter (fun e => ev (os.sub 2 e) f e)) nxt all rest2 k2
    | .index _ => arrayOpF mods (ms.take maxWildcardResults) nxt rest2 k2
    | .count => arrayOpF mods (ms.take maxWildcardResults) nxt rest2 k2
    | _ => firstMatchF mods cur rest k1 ms

/-- get.go:165-563 executeQuery at one segment; `k1`, `k2` are executeQuery at `segIndex+1`, `segIndex+2` on the content of an element, below the
given orders (tags 3 and 4). -/
def execBodyF (mods : Bytes → Option (Result → Result)) (os : Visits) (ev : Visits → Filter → Elem → Bool) (root : Bool) (cur : Seg) (rest : List Seg)
    (k1 k2 : Visits → Elem → Result) (xml : Bytes) : Result :=
  let q1 : Elem → Result := fun e => k1 (os.sub 3 e) e
  let q2 : Elem → Result := fun e => k2 (os.sub 4 e) e
  match cur.kind with
  | .elem v =>
    if isFragmentQuery root rest then
      match rest with
      | [] => .null
      | nxt :: rest2 =>
        fragmentRootsF mods os (((topElems os.here xml).filter (fun e => e.name = v)).take maxWildcardResults)
          nxt rest2 q2
    else execElemF mods os ev cur rest q1 q2 xml
  | .filter f all =>
    routeFilterF mods os (((topElems os.here xml).filter (fun e => ev (os.sub 2 e) f e)).take maxWildcardResults) cur all rest q1
  | .field _ => .ofArray []
  | .index _ => .null
  | .count => .null
  | .text => .null
  | .attr _ => .null
  | .wild true => handleRecursiveF mods os rest (fun os e => k2 (os.sub 4 e) e) xml
  | .wild false =>
    let ms := (topElems os.here xml).take maxWildcardResults
    if ms.isEmpty then .null
    else if rest.isEmpty then applyModifiers mods (handleWildcardF mods ms rest q1) cur.mods
    else handleWildcardF mods ms rest q1

/-- get.go:165-563 executeQuery -/
def execQF (mods : Bytes → Option (Result → Result)) (ev : Visits → Filter → Elem → Bool) : List Seg → Bool → Visits → Bytes → Result
  | [], _, _, _ => .null
  | [cur], root, os, xml => execBodyF mods os ev root cur [] (fun _ _ => .null) (fun _ _ => .null) xml
  | cur :: nxt :: rest, root, os, xml =>
    execBodyF mods os ev root cur (nxt :: rest) (fun os e => execQF mods ev (nxt :: rest) false os e.content)
      (fun os e => execQF mods ev rest false os e.content) xml

/-- filter.go:243-363 evaluateFilterWithDepth -/
def evalFilterNF (mods : Bytes → Option (Result → Result)) (pf : Bytes → Option FVal) : Nat → Visits → Filter → Elem → Bool
  | 0, _, _, _ => false
  | n + 1, os, f, m =>
    let actual : Option Bytes :=
      if hasPrefix f.path b!"@" then Attrs.get? (f.path.drop 1) m.attrs
      else
        match parsePath f.path with
        | .ok ss =>
          let r := execQF mods (evalFilterNF mods pf n) ss true os m.content
          if r.exists? then some r.toStr else none
        | _ => none
    compareFilter pf f actual

/-- filter.go:360-363 evaluateFilterOnMatch -/
def evalFilterF (mods : Bytes → Option (Result → Result)) (pf : Bytes → Option FVal) (os : Visits) (f : Filter) (m : Elem) : Bool :=
  evalFilterNF mods pf (f.path.length + 1) os f m

/-- get.go:165 executeQuery from segment 0 -/
def executeQueryF (mods : Bytes → Option (Result → Result)) (pf : Bytes → Option FVal) (os : Visits) (ss : List Seg) (xml : Bytes) : Result :=
  execQF mods (evalFilterF mods pf) ss true os xml

/-- get.go:78-95 GetBytes, with a new order at every visit -/
def getF (os : Visits) (mods : Bytes → Option (Result → Result)) (pf : Bytes → Option FVal) (xml path : Bytes) : Outcome Result :=
  if xml.length > maxDocumentSize then .ret .null
  else
    match parsePath path with
    | .panic => .panic
    | .err => .ret .null
    | .ok [] => .ret .null
    | .ok ss => .ret (executeQueryF mods pf os ss xml)

/-! ### with options -/

/-- get.go:1607-1729 executeFieldExtractionWithOptions -/
def fieldExtractionOptF (mods : Bytes → Option (Result → Result)) (os : Visits) (cs : Bool) (ms : List Elem) (field : Bytes) (names : List Bytes) : Result :=
  if field.isEmpty then .null
  else
    let rs := (ms.flatMap fun m => fieldValuesOpt (os.sub 0 m).here cs field m).take maxWildcardResults
    if rs.isEmpty then .ofArray [] else applyModifiers mods (.ofArray rs) names

/-- get.go:1276-1376 handleWildcardMatchesWithOptions; the loops over the attributes of a match are visits of their own (tag 5). -/
def handleWildcardOptF (mods : Bytes → Option (Result → Result)) (os : Visits) (cs : Bool) (ms : List Elem) (rest : List Seg) (k : Elem → Result) : Result :=
  match rest with
  | [] => packResults (ms.map fun m => .ofContent m.content)
  | nxt :: rest2 =>
    let all := ms.flatMap fun m =>
      match nxt.kind with
      | .attr a => if rest2.isEmpty then (attrsOpt (os.sub 5 m).here cs a m).map .ofAttr else []
      | .text => [.ofText m.content]
      | _ => asList (k m)
    if all.isEmpty then .null else applyModifiers mods (packResults all) nxt.mods

/-- get.go:1438-1495 -/
def recEmitOptF (cs : Bool) (rest : List Seg) (k : Visits → Elem → Result) (os : Visits) (e : Elem) : List Result :=
  match rest with
  | [] => [.ofContent e.content]
  | nxt :: rest2 =>
    match nxt.kind with
    | .attr a => if rest2.isEmpty then (attrsOpt (os.sub 5 e).here cs a e).map .ofAttr else []
    | .text => [.ofText e.content]
    | _ => asList (k os e)

/-- get.go:1379-1401 handleRecursiveWildcardWithOptions -/
def handleRecursiveOptF (os : Visits) (cs : Bool) (rest : List Seg) (k : Visits → Elem → Result) (xml : Bytes) : Result :=
  match rest with
  | [] => .null
  | tgt :: rest2 =>
    let st := recSearchF (fun e => tgt.matchesOpt e.name cs) (recEmitOptF cs rest2 k) (maxNestingDepth + 1) os xml ⟨0, []⟩
    match st.res with
    | [] => .null
    | rs => packResults rs

/-- get.go:2051-2125 processFirstMatchWithOptions -/
def processFirstOptF (mods : Bytes → Option (Result → Result)) (os : Visits) (cs : Bool) (m : Elem) (seg : Seg) (rest : List Seg) (k : Elem → Result) : Result :=
  match rest with
  | [] => applyModifiers mods (.ofContent m.content) seg.mods
  | nxt :: _ =>
    match nxt.kind with
    | .attr a =>
      match attrsOpt (os.sub 5 m).here cs a m with
      | v :: _ => applyModifiers mods (.ofAttr v) nxt.mods
      | [] => .null
    | .text => applyModifiers mods (.ofText m.content) nxt.mods
    | .field f => fieldExtractionOptF mods os cs [m] f nxt.mods
    | _ => k m

/-- get.go:2128-2253 processAllMatchesWithOptions -/
def processAllOptF (mods : Bytes → Option (Result → Result)) (os : Visits) (cs : Bool) (ms : List Elem) (seg : Seg) (rest : List Seg) (k : Elem → Result) : Result :=
  match rest with
  | [] => applyModifiers mods (.ofArray (ms.map fun m => .ofContent m.content)) seg.mods
  | nxt :: _ =>
    match nxt.kind with
    | .field f => fieldExtractionOptF mods os cs ms f nxt.mods
    | kind =>
      let all := ms.flatMap fun m =>
        match kind with
        | .attr a => (attrsOpt (os.sub 5 m).here cs a m).map .ofAttr
        | .text => [.ofText m.content]
        | _ => asList (k m)
      if all.isEmpty then .null else applyModifiers mods (packResults all) nxt.mods

/-- get.go:2016-2029, 2041-2048 -/
def routeFilterOptF (mods : Bytes → Option (Result → Result)) (os : Visits) (cs : Bool) (ms : List Elem) (seg : Seg) (all : Bool) (rest : List Seg)
    (k : Elem → Result) : Result :=
  match ms with
  | [] => .null
  | m :: _ => if all then processAllOptF mods os cs ms seg rest k else processFirstOptF mods os cs m seg rest k

/-- get.go:929-987 -/
def fragmentRootsOptF (mods : Bytes → Option (Result → Result)) (os : Visits) (ms : List Elem) (nxt : Seg) (rest2 : List Seg) (k2 : Elem → Result) : Result :=
  if ms.isEmpty then .null
  else
    match nxt.kind with
    | .field f => fieldExtractionOptF mods os true ms f nxt.mods
    | .index i =>
      if i < 0 then .null
      else
        match ms[i.toNat]? with
        | none => .null
        | some m =>
          match rest2 with
          | [] => .ofContent m.content
          | s :: _ =>
            match s.kind with
            | .attr a =>
              match Attrs.get? a m.attrs with
              | some v => .ofAttr v
              | none => .null
            | .text => .ofText m.content
            | _ => k2 m
    | .count => .ofCount ms.length
    | _ => .null

/-- get.go:1217-1270 -/
def arrayOpOptF (os : Visits) (cs : Bool) (ms : List Elem) (nxt : Seg) (rest2 : List Seg) (k2 : Elem → Result) : Result :=
  if ms.isEmpty then .null
  else
    match nxt.kind with
    | .index i =>
      if i < 0 then .null
      else
        match ms[i.toNat]? with
        | none => .null
        | some m =>
          match rest2 with
          | [] => .ofContent m.content
          | s :: _ =>
            match s.kind with
            | .attr a =>
              match attrsOpt (os.sub 5 m).here cs a m with
              | v :: _ => .ofAttr v
              | [] => .null
            | _ => k2 m
    | .count => .ofCount ms.length
    | _ => .null

/-- get.go:1151-1208 -/
def firstMatchOptF (os : Visits) (cs : Bool) (rest : List Seg) (k : Elem → Result) : List Elem → Result
  | [] => .null
  | m :: ms =>
    match rest with
    | [] => .ofContent m.content
    | nxt :: rest2 =>
      match nxt.kind with
      | .attr a =>
        match attrsOpt (os.sub 5 m).here cs a m with
        | v :: _ => if rest2.isEmpty then .ofAttr v else .null
        | [] => .null
      | .text => .ofText m.content
      | _ => if (k m).typ = .null then firstMatchOptF os cs rest k ms else k m

/-- get.go:999-1072, 1098-1272 -/
def execElemOptF (mods : Bytes → Option (Result → Result)) (os : Visits) (ev : Visits → Filter → Elem → Bool) (cs : Bool) (cur : Seg) (rest : List Seg)
    (k1 k2 : Elem → Result) (xml : Bytes) : Result :=
  let ms := (topElems os.here xml).filter (fun e => cur.matchesOpt e.name cs)
  match rest with
  | [] => firstMatchOptF os cs rest k1 ms
  | nxt :: rest2 =>
    match nxt.kind with
    | .field f => fieldExtractionOptF mods os cs (ms.take maxWildcardResults) f nxt.mods
    | .filter f all => routeFilterOptF mods os cs ((ms.take maxWildcardResults).filter (fun e => ev (os.sub 2 e) f e)) nxt all rest2 k2
    | .index _ => arrayOpOptF os cs (ms.take maxWildcardResults) nxt rest2 k2
    | .count => arrayOpOptF os cs (ms.take maxWildcardResults) nxt rest2 k2
    | _ => firstMatchOptF os cs rest k1 ms

/-- get.go:915-1273 executeQueryWithOptions at one segment -/
def execBodyOptF (mods : Bytes → Option (Result → Result)) (os : Visits) (ev : Visits → Filter → Elem → Bool) (cs root : Bool) (cur : Seg) (rest : List Seg)
    (k1 k2 : Visits → Elem → Result) (xml : Bytes) : Result :=
  let q1 : Elem → Result := fun e => k1 (os.sub 3 e) e
  let q2 : Elem → Result := fun e => k2 (os.sub 4 e) e
  match cur.kind with
  | .elem v =>
    if isFragmentQuery root rest && cs then
      match rest with
      | [] => .null
      | nxt :: rest2 =>
        fragmentRootsOptF mods os (((topElems os.here xml).filter (fun e => e.name = v)).take maxWildcardResults)
          nxt rest2 q2
    else execElemOptF mods os ev cs cur rest q1 q2 xml
  | .filter f all =>
    routeFilterOptF mods os cs (((topElems os.here xml).filter (fun e => ev (os.sub 2 e) f e)).take maxWildcardResults) cur all rest q1
  | .field _ => .ofArray []
  | .index _ => .null
  | .count => .null
  | .text => .null
  | .attr _ => .null
  | .wild true => handleRecursiveOptF os cs rest (fun os e => k2 (os.sub 4 e) e) xml
  | .wild false =>
    let ms := (topElems os.here xml).take maxWildcardResults
    if ms.isEmpty then .null else handleWildcardOptF mods os cs ms rest q1

/-- get.go:915-1273 executeQueryWithOptions -/
def execQOptF (mods : Bytes → Option (Result → Result)) (ev : Visits → Filter → Elem → Bool) (cs : Bool) : List Seg → Bool → Visits → Bytes → Result
  | [], _, _, _ => .null
  | [cur], root, os, xml => execBodyOptF mods os ev cs root cur [] (fun _ _ => .null) (fun _ _ => .null) xml
  | cur :: nxt :: rest, root, os, xml =>
    execBodyOptF mods os ev cs root cur (nxt :: rest) (fun os e => execQOptF mods ev cs (nxt :: rest) false os e.content)
      (fun os e => execQOptF mods ev cs rest false os e.content) xml

/-- get.go:858-886 GetBytesWithOptions, with a new order at every visit -/
def getWithOptionsF (os : Visits) (mods : Bytes → Option (Result → Result)) (pf : Bytes → Option FVal) (xml path : Bytes) (opts : Option Options) : Outcome Result :=
  if xml.length > maxDocumentSize then .ret .null
  else if isDefaultOptions opts then
    match parsePath path with
    | .panic => .panic
    | .err => .ret .null
    | .ok [] => .ret .null
    | .ok ss => .ret (executeQueryF mods pf os ss xml)
  else
    let cs := (opts.getD defaultOptions).caseSensitive
    match parsePathWithOptions path cs with
    | .panic => .panic
    | .err => .ret .null
    | .ok [] => .ret .null
    | .ok ss => .ret (execQOptF mods (evalFilterF mods pf) cs ss true os xml)

end Verif
