import Verif.Model.Get
/- Model of the second copy of the query engine, the ...WithOptions functions of /repo/get.go.
Of the options only `CaseSensitive` (`cs`) is read. Filter evaluation is shared with the first copy
(it is always case-sensitive). -/
namespace Verif

/-- get.go:1155-1170 and others: all attributes of that name. Case-insensitively: every
attribute whose lower-cased name is `a` (already lower-cased), in map iteration order. -/
def attrsOpt (o : Ord) (cs : Bool) (a : Bytes) (m : Elem) : List Bytes :=
  if cs then (Attrs.get? a m.attrs).toList
  else ((o m.content m.attrs).filter (fun kv => toLowerASCII kv.1 = a)).map (·.2)

/-- get.go:1621-1657: as fieldValues, case-aware; only the first matching attribute counts. -/
def fieldValuesOpt (o : Ord) (cs : Bool) (field : Bytes) (m : Elem) : List Result :=
  if hasPrefix field b!"@" then
    ((attrsOpt o cs (if cs then field.drop 1 else toLowerASCII (field.drop 1)) m).take 1).map .ofAttr
  else if field = b!"%" then
    let t := extractDirectTextOnly m.content
    if t.isEmpty then [] else [.mk .string t (unescapeXML t) (.fin 0) []]
  else
    ((topElems o m.content).filter (fun e =>
      if cs then e.name = field else toLowerASCII e.name = toLowerASCII field)).map
      (fun e => .ofContent e.content)

/-- get.go:1607-1729 executeFieldExtractionWithOptions -/
def fieldExtractionOpt (env : Env) (cs : Bool) (ms : List Elem) (field : Bytes) (mods : List Bytes) : Result :=
  if field.isEmpty then .null
  else
    let rs := (ms.flatMap (fieldValuesOpt env.ord cs field)).take maxWildcardResults
    if rs.isEmpty then .ofArray [] else applyModifiers env.mods (.ofArray rs) mods

/-- get.go:1276-1376 handleWildcardMatchesWithOptions (no "field extraction seen" flag here) -/
def handleWildcardOpt (env : Env) (cs : Bool) (ms : List Elem) (rest : List Seg) (k : Bytes → Result) : Result :=
  match rest with
  | [] => packResults (ms.map fun m => .ofContent m.content)
  | nxt :: rest2 =>
    let all := ms.flatMap fun m =>
      match nxt.kind with
      | .attr a => if rest2.isEmpty then (attrsOpt env.ord cs a m).map .ofAttr else []
      | .text => [.ofText m.content]
      | _ => asList (k m.content)
    if all.isEmpty then .null else applyModifiers env.mods (packResults all) nxt.mods

/-- get.go:1438-1495 (there is no case for field extraction here) -/
def recEmitOpt (env : Env) (cs : Bool) (rest : List Seg) (k : Bytes → Result) (e : Elem) : List Result :=
  match rest with
  | [] => [.ofContent e.content]
  | nxt :: rest2 =>
    match nxt.kind with
    | .attr a => if rest2.isEmpty then (attrsOpt env.ord cs a e).map .ofAttr else []
    | .text => [.ofText e.content]
    | _ => asList (k e.content)

/-- get.go:1379-1401 handleRecursiveWildcardWithOptions; the search itself (1404-1497) is the same
as recursiveSearchWithContext up to matching and emission. -/
def handleRecursiveOpt (env : Env) (cs : Bool) (rest : List Seg) (k : Bytes → Result) (xml : Bytes) : Result :=
  match rest with
  | [] => .null
  | tgt :: rest2 =>
    let st := recSearch env.ord (fun e => tgt.matchesOpt e.name cs) (recEmitOpt env cs rest2 k)
      (maxNestingDepth + 1) xml ⟨0, []⟩
    match st.res with
    | [] => .null
    | rs => packResults rs

/-- get.go:2051-2125 processFirstMatchWithOptions -/
def processFirstOpt (env : Env) (cs : Bool) (m : Elem) (seg : Seg) (rest : List Seg) (k : Bytes → Result) : Result :=
  match rest with
  | [] => applyModifiers env.mods (.ofContent m.content) seg.mods
  | nxt :: _ =>
    match nxt.kind with
    | .attr a =>
      match attrsOpt env.ord cs a m with
      | v :: _ => applyModifiers env.mods (.ofAttr v) nxt.mods
      | [] => .null
    | .text => applyModifiers env.mods (.ofText m.content) nxt.mods
    | .field f => fieldExtractionOpt env cs [m] f nxt.mods
    | _ => k m.content

/-- get.go:2128-2253 processAllMatchesWithOptions -/
def processAllOpt (env : Env) (cs : Bool) (ms : List Elem) (seg : Seg) (rest : List Seg) (k : Bytes → Result) : Result :=
  match rest with
  | [] => applyModifiers env.mods (.ofArray (ms.map fun m => .ofContent m.content)) seg.mods
  | nxt :: _ =>
    match nxt.kind with
    | .field f => fieldExtractionOpt env cs ms f nxt.mods
    | kind =>
      let all := ms.flatMap fun m =>
        match kind with
        | .attr a => (attrsOpt env.ord cs a m).map .ofAttr
        | .text => [.ofText m.content]
        | _ => asList (k m.content)
      if all.isEmpty then .null else applyModifiers env.mods (packResults all) nxt.mods

/-- get.go:2016-2029, 2041-2048 -/
def routeFilterOpt (env : Env) (cs : Bool) (ms : List Elem) (seg : Seg) (all : Bool) (rest : List Seg)
    (k : Bytes → Result) : Result :=
  match ms with
  | [] => .null
  | m :: _ => if all then processAllOpt env cs ms seg rest k else processFirstOpt env cs m seg rest k

/-- get.go:929-987: only reached when case-sensitive. -/
def fragmentRootsOpt (env : Env) (ms : List Elem) (nxt : Seg) (rest2 : List Seg) (k2 : Bytes → Result) : Result :=
  if ms.isEmpty then .null
  else
    match nxt.kind with
    | .field f => fieldExtractionOpt env true ms f nxt.mods
    | .index i =>
      if i < 0 then .null
      else
        match ms[i.toNat]? with
        | none => .null
        | some m =>
          match rest2 with
          | [] => .ofContent m.content
          | s :: _ =>
            match s.kind with
            | .attr a =>
              match Attrs.get? a m.attrs with
              | some v => .ofAttr v
              | none => .null
            | .text => .ofText m.content
            | _ => k2 m.content
    | .count => .ofCount ms.length
    | _ => .null

/-- get.go:1217-1270: no modifiers are applied here. -/
def arrayOpOpt (env : Env) (cs : Bool) (ms : List Elem) (nxt : Seg) (rest2 : List Seg) (k2 : Bytes → Result) : Result :=
  if ms.isEmpty then .null
  else
    match nxt.kind with
    | .index i =>
      if i < 0 then .null
      else
        match ms[i.toNat]? with
        | none => .null
        | some m =>
          match rest2 with
          | [] => .ofContent m.content
          | s :: _ =>
            match s.kind with
            | .attr a =>
              match attrsOpt env.ord cs a m with
              | v :: _ => .ofAttr v
              | [] => .null
            | _ => k2 m.content
    | .count => .ofCount ms.length
    | _ => .null

/-- get.go:1151-1208: no modifiers are applied here. -/
def firstMatchOpt (env : Env) (cs : Bool) (rest : List Seg) (k : Bytes → Result) : List Elem → Result
  | [] => .null
  | m :: ms =>
    match rest with
    | [] => .ofContent m.content
    | nxt :: rest2 =>
      match nxt.kind with
      | .attr a =>
        match attrsOpt env.ord cs a m with
        | v :: _ => if rest2.isEmpty then .ofAttr v else .null
        | [] => .null
      | .text => .ofText m.content
      | _ => if (k m.content).typ = .null then firstMatchOpt env cs rest k ms else k m.content

/-- get.go:999-1072, 1098-1272 for an element segment. -/
def execElemOpt (env : Env) (ev : Filter → Elem → Bool) (cs : Bool) (cur : Seg) (rest : List Seg)
    (k1 k2 : Bytes → Result) (xml : Bytes) : Result :=
  let ms := (topElems env.ord xml).filter (fun e => cur.matchesOpt e.name cs)
  match rest with
  | [] => firstMatchOpt env cs rest k1 ms
  | nxt :: rest2 =>
    match nxt.kind with
    | .field f => fieldExtractionOpt env cs (ms.take maxWildcardResults) f nxt.mods
    | .filter f all => routeFilterOpt env cs ((ms.take maxWildcardResults).filter (ev f)) nxt all rest2 k2
    | .index _ => arrayOpOpt env cs (ms.take maxWildcardResults) nxt rest2 k2
    | .count => arrayOpOpt env cs (ms.take maxWildcardResults) nxt rest2 k2
    | _ => firstMatchOpt env cs rest k1 ms

/-- get.go:915-1273 executeQueryWithOptions at one segment -/
def execBodyOpt (env : Env) (ev : Filter → Elem → Bool) (cs root : Bool) (cur : Seg) (rest : List Seg)
    (k1 k2 : Bytes → Result) (xml : Bytes) : Result :=
  match cur.kind with
  | .elem v =>
    if isFragmentQuery root rest && cs then
      match rest with
      | [] => .null
      | nxt :: rest2 =>
        fragmentRootsOpt env (((topElems env.ord xml).filter (fun e => e.name = v)).take maxWildcardResults)
          nxt rest2 k2
    else execElemOpt env ev cs cur rest k1 k2 xml
  | .filter f all =>
    routeFilterOpt env cs (((topElems env.ord xml).filter (ev f)).take maxWildcardResults) cur all rest k1
  | .field _ => .ofArray []
  | .index _ => .null
  | .count => .null
  | .text => .null
  | .attr _ => .null
  | .wild true => handleRecursiveOpt env cs rest k2 xml
  | .wild false =>
    let ms := (topElems env.ord xml).take maxWildcardResults
    if ms.isEmpty then .null else handleWildcardOpt env cs ms rest k1

/-- get.go:915-1273 executeQueryWithOptions -/
def execQOpt (env : Env) (ev : Filter → Elem → Bool) (cs : Bool) : List Seg → Bool → Bytes → Result
  | [], _, _ => .null
  | [cur], root, xml => execBodyOpt env ev cs root cur [] (fun _ => .null) (fun _ => .null) xml
  | cur :: nxt :: rest, root, xml =>
    execBodyOpt env ev cs root cur (nxt :: rest) (execQOpt env ev cs (nxt :: rest) false)
      (execQOpt env ev cs rest false) xml

/-- get.go:858-886 GetBytesWithOptions; get.go:844-846 GetWithOptions and get.go:851-853 GetStringWithOptions pass the same bytes on; `none` is a nil options pointer. -/
def getWithOptions (env : Env) (xml path : Bytes) (opts : Option Options) : Outcome Result :=
  if xml.length > maxDocumentSize then .ret .null
  else if isDefaultOptions opts then
    match parsePath path with
    | .panic => .panic
    | .err => .ret .null
    | .ok [] => .ret .null
    | .ok ss => .ret (executeQuery env ss xml)
  else
    let cs := (opts.getD defaultOptions).caseSensitive
    match parsePathWithOptions path cs with
    | .panic => .panic
    | .err => .ret .null
    | .ok [] => .ret .null
    | .ok ss => .ret (execQOpt env (evalFilter env) cs ss true xml)

end Verif
