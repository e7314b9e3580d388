import Verif.Model.Path
import Verif.Model.Result
import Verif.Model.Pattern
/- Model of /repo/get.go, of filter evaluation in /repo/filter.go and of applyModifiers in
/repo/modifier.go. -/
namespace Verif

/-- get.go:100 -/
def maxWildcardResults : Nat := 1000
/-- get.go:104 -/
def maxRecursiveOperations : Nat := 10000
/-- modifier.go MaxModifierChainDepth -/
def maxModifierChainDepth : Nat := 20

/-- What a query depends on besides its arguments: the iteration order of Go maps, the
modifier registry (as it is during the query) and `strconv.ParseFloat`. -/
structure Env where
  ord : Ord
  mods : Bytes → Option (Result → Result)
  parseFloat : Bytes → Option FVal

/-- get.go:108-113 elementMatch, with the positions the builder uses, each given as the length
of the suffix remaining at that point: at `<`, after the opening tag, after the whole element. -/
structure Elem where
  name : Bytes
  attrs : Attrs
  content : Bytes
  selfClosing : Bool
  startLen : Nat
  openLen : Nat
  endLen : Nat
deriving DecidableEq, Repr

/-- The element whose `<` is at the head of the suffix: `next()`, parseElementName and, unless
self-closing, parseElementContent (the common body of all element loops, e.g. get.go:349-371). -/
def elemAt (o : Ord) (s : Bytes) : Elem × Bytes :=
  let t := parseTag (s.drop 1)
  if t.1.selfClosing then
    (⟨t.1.name, t.1.attrs, [], true, s.length, t.2.length, t.2.length⟩, t.2)
  else
    let p := parseElementContent o t.1.name t.2
    (⟨t.1.name, t.1.attrs, p.1, false, s.length, t.2.length, p.2.length⟩, p.2)

theorem elemAt_length (o : Ord) (s : Bytes) : (elemAt o s).2.length ≤ (s.drop 1).length := by
  have h1 := parseTag_length (s.drop 1)
  have h2 := contentLoop_length o (parseTag (s.drop 1)).1.name 1 (parseTag (s.drop 1)).2
  unfold elemAt parseElementContent
  simp only
  split <;> simp only <;> omega

theorem skipToNext_ne_nil (r s : Bytes) (h : skipToNext r = some s) : s ≠ [] := by
  fun_induction skipToNext r with
  | case3 => simp at h; subst h; simp
  | case1 => simp at h
  | case2 => simp at h
  | case4 => rename_i ih; exact ih h
  | case5 => rename_i ih; exact ih h
  | case6 => rename_i ih; exact ih h
  | case7 => rename_i ih; exact ih h
  | case8 => rename_i ih; exact ih h

/-- All elements met by the loop `for parser.skipToNextElement() {...}` when every element is
consumed (both branches of every such loop consume the content). -/
def topElems (o : Ord) (r : Bytes) : List Elem :=
  match _h : skipToNext r with
  | none => []
  | some s => (elemAt o s).1 :: topElems o (elemAt o s).2
termination_by r.length
decreasing_by
  have h1 := skipToNext_length r s _h
  have h2 := elemAt_length o s
  have h3 := skipToNext_ne_nil r s _h
  have h4 : 0 < s.length := List.length_pos_iff.mpr h3
  simp only [List.length_drop] at h2
  omega

/-- modifier.go:190-205: apply the chain, stopping at the first Null. A modifier is the function that modifier.go:65-67 Apply calls
(modifier.go:60-62 NewModifierFunc stores it with a name, modifier.go:70-72 Name returns that). -/
def runMods (mods : Bytes → Option (Result → Result)) (r : Result) : List Bytes → Result
  | [] => r
  | n :: ns =>
    match mods n with
    | none => .null
    | some m => if (m r).typ = .null then m r else runMods mods (m r) ns

/-- modifier.go:182-208 applyModifiers. Callers guard with `len(Modifiers) > 0`; an empty chain
is the identity, so the guard is dropped. -/
def applyModifiers (mods : Bytes → Option (Result → Result)) (r : Result) (names : List Bytes) : Result :=
  if names.length > maxModifierChainDepth then .null else runMods mods r names

/-- get.go:1512-1577: the values one match contributes to `#.field`. -/
def fieldValues (o : Ord) (field : Bytes) (m : Elem) : List Result :=
  if hasPrefix field b!"@" then
    match Attrs.get? (field.drop 1) m.attrs with
    | some v => [.ofAttr v]
    | none => []
  else if field = b!"%" then
    let t := extractDirectTextOnly m.content
    if t.isEmpty then [] else [.mk .string t (unescapeXML t) (.fin 0) []]
  else
    ((topElems o m.content).filter (fun e => e.name = field)).map (fun e => .ofContent e.content)

/-- get.go:1500-1601 executeFieldExtraction. The running limit `totalExtracted` is the prefix of
the first 1000 values. -/
def fieldExtraction (env : Env) (ms : List Elem) (field : Bytes) (mods : List Bytes) : Result :=
  if field.isEmpty then .null
  else
    let rs := (ms.flatMap (fieldValues env.ord field)).take maxWildcardResults
    if rs.isEmpty then .ofArray [] else applyModifiers env.mods (.ofArray rs) mods

/-- Flatten a result into the list it is appended as (get.go:1899-1909 and others): nothing for
Null, the elements of an Array, itself otherwise. -/
def asList (r : Result) : List Result :=
  if r.typ = .null then [] else if r.typ = .array then r.results else [r]

/-- get.go:661-670 and others: one result alone, several as an Array. -/
def packResults (rs : List Result) : Result :=
  match rs with
  | [r] => r
  | rs => .ofArray rs

/-- get.go:566-678 handleWildcardMatches; `rest` are the segments after the wildcard and `k` is
executeQuery on them. -/
def handleWildcard (env : Env) (ms : List Elem) (rest : List Seg) (k : Bytes → Result) : Result :=
  match rest with
  | [] => packResults (ms.map fun m => .ofContent m.content)
  | nxt :: rest2 =>
    let all := ms.flatMap fun m =>
      match nxt.kind with
      | .attr a =>
        match Attrs.get? a m.attrs with
        | some v => if rest2.isEmpty then [.ofAttr v] else []
        | none => []
      | .text => [.ofText m.content]
      | _ => asList (k m.content)
    let hasField := ms.any fun m =>
      match nxt.kind with
      | .attr _ => false
      | .text => false
      | _ => (k m.content).typ = .array && (k m.content).results.isEmpty
    if all.isEmpty then (if hasField then .ofArray [] else .null)
    else applyModifiers env.mods (packResults all) nxt.mods

/-- get.go:116-119 searchContext -/
structure SearchSt where
  ops : Nat
  res : List Result

/-- get.go:761-806: what one element matching the target after `**` contributes. `rest` are the
segments after the target, `k` is executeQuery on them. -/
def recEmit (env : Env) (rest : List Seg) (k : Bytes → Result) (e : Elem) : List Result :=
  match rest with
  | [] => [.ofContent e.content]
  | nxt :: rest2 =>
    match nxt.kind with
    | .attr a =>
      match Attrs.get? a e.attrs with
      | some v => if rest2.isEmpty then [.ofAttr v] else []
      | none => []
    | .text => [.ofText e.content]
    | .field f =>
      let r := fieldExtraction env [e] f nxt.mods
      if r.typ = .array then r.results else []
    | _ => asList (k e.content)

/-- get.go:721-808: loop over the elements of one level; `inner` is the recursive call. -/
def recLoop (inner : Bytes → SearchSt → SearchSt) (tgt : Elem → Bool) (emit : Elem → List Result) :
    List Elem → SearchSt → SearchSt
  | [], st => st
  | e :: es, st =>
    let st1 := if !e.selfClosing && !e.content.isEmpty then inner e.content st else st
    if st1.ops ≥ maxRecursiveOperations then st1
    else if tgt e then
      if st1.res.length ≥ maxWildcardResults then st1
      else recLoop inner tgt emit es { st1 with res := st1.res ++ emit e }
    else recLoop inner tgt emit es st1

/-- get.go:711-809 recursiveSearchWithContext; the first argument is `MaxNestingDepth + 1 - depth`. -/
def recSearch (o : Ord) (tgt : Elem → Bool) (emit : Elem → List Result) : Nat → Bytes → SearchSt → SearchSt
  | 0, _, st => { st with ops := st.ops + 1 }
  | n + 1, xml, st =>
    if st.res.length ≥ maxWildcardResults || st.ops + 1 ≥ maxRecursiveOperations then
      { st with ops := st.ops + 1 }
    else recLoop (recSearch o tgt emit n) tgt emit (topElems o xml) { st with ops := st.ops + 1 }

/-- get.go:682-707 handleRecursiveWildcard; `k` is executeQuery on the segments after the target. -/
def handleRecursive (env : Env) (rest : List Seg) (k : Bytes → Result) (xml : Bytes) : Result :=
  match rest with
  | [] => .null
  | tgt :: rest2 =>
    let st := recSearch env.ord (fun e => tgt.matches e.name) (recEmit env rest2 k)
      (maxNestingDepth + 1) xml ⟨0, []⟩
    match st.res with
    | [] => .null
    | rs => packResults rs

/-- get.go:1785-1846 processFirstMatch; `seg` is the filter segment, `rest` what follows, `k`
executeQuery on `rest`. -/
def processFirst (env : Env) (m : Elem) (seg : Seg) (rest : List Seg) (k : Bytes → Result) : Result :=
  match rest with
  | [] => applyModifiers env.mods (.ofContent m.content) seg.mods
  | nxt :: _ =>
    match nxt.kind with
    | .attr a =>
      match Attrs.get? a m.attrs with
      | some v => applyModifiers env.mods (.ofAttr v) nxt.mods
      | none => .null
    | .text => applyModifiers env.mods (.ofText m.content) nxt.mods
    | .field f => fieldExtraction env [m] f nxt.mods
    | _ => k m.content

/-- get.go:1849-1949 processAllMatches -/
def processAll (env : Env) (ms : List Elem) (seg : Seg) (rest : List Seg) (k : Bytes → Result) : Result :=
  match rest with
  | [] => applyModifiers env.mods (.ofArray (ms.map fun m => .ofContent m.content)) seg.mods
  | nxt :: _ =>
    match nxt.kind with
    | .field f => fieldExtraction env ms f nxt.mods
    | kind =>
      let all := ms.flatMap fun m =>
        match kind with
        | .attr a =>
          match Attrs.get? a m.attrs with
          | some v => [.ofAttr v]
          | none => []
        | .text => [.ofText m.content]
        | _ => asList (k m.content)
      if all.isEmpty then .null else applyModifiers env.mods (packResults all) nxt.mods

/-- get.go:1768-1781, 1969-1976: no match, all matches, or the first match. -/
def routeFilter (env : Env) (ms : List Elem) (seg : Seg) (all : Bool) (rest : List Seg) (k : Bytes → Result) : Result :=
  match ms with
  | [] => .null
  | m :: _ => if all then processAll env ms seg rest k else processFirst env m seg rest k

/-- get.go:187-240: index, count or field extraction on the roots of a fragment. `rest` starts
with that segment; `k2` is executeQuery on what follows it. -/
def fragmentRoots (env : Env) (ms : List Elem) (nxt : Seg) (rest2 : List Seg) (k2 : Bytes → Result) : Result :=
  if ms.isEmpty then .null
  else
    match nxt.kind with
    | .field f => fieldExtraction env ms f nxt.mods
    | .index i =>
      if i < 0 then .null
      else
        match ms[i.toNat]? with
        | none => .null
        | some m =>
          match rest2 with
          | [] => .ofContent m.content
          | s :: _ =>
            match s.kind with
            | .attr a =>
              match Attrs.get? a m.attrs with
              | some v => .ofAttr v
              | none => .null
            | .text => .ofText m.content
            | _ => k2 m.content
    | .count => .ofCount ms.length
    | _ => .null

/-- get.go:500-557: index or count on the collected matches. -/
def arrayOp (env : Env) (ms : List Elem) (nxt : Seg) (rest2 : List Seg) (k2 : Bytes → Result) : Result :=
  if ms.isEmpty then .null
  else
    match nxt.kind with
    | .index i =>
      if i < 0 then .null
      else
        match ms[i.toNat]? with
        | none => .null
        | some m =>
          match rest2 with
          | [] => applyModifiers env.mods (.ofContent m.content) nxt.mods
          | s :: rest3 =>
            match s.kind with
            | .attr a =>
              match Attrs.get? a m.attrs with
              | some v => if rest3.isEmpty then applyModifiers env.mods (.ofAttr v) s.mods else .ofAttr v
              | none => .null
            | _ => k2 m.content
    | .count => applyModifiers env.mods (.ofCount ms.length) nxt.mods
    | _ => .null

/-- get.go:433-488: elements tried one after the other when no array operation follows. -/
def firstMatch (env : Env) (cur : Seg) (rest : List Seg) (k : Bytes → Result) : List Elem → Result
  | [] => .null
  | m :: ms =>
    match rest with
    | [] => applyModifiers env.mods (.ofContent m.content) cur.mods
    | nxt :: rest2 =>
      match nxt.kind with
      | .attr a =>
        match Attrs.get? a m.attrs with
        | some v => if rest2.isEmpty then applyModifiers env.mods (.ofAttr v) nxt.mods else .null
        | none => .null
      | .text => applyModifiers env.mods (.ofText m.content) nxt.mods
      | _ => if (k m.content).typ = .null then firstMatch env cur rest k ms else k m.content

/-- get.go:180: index, count or field extraction. -/
def SegKind.isRootOp : SegKind → Bool
  | .index _ => true
  | .count => true
  | .field _ => true
  | _ => false

/-- get.go:306-341, 382-563 for an element segment not handled as a fragment root. -/
def execElem (env : Env) (ev : Filter → Elem → Bool) (cur : Seg) (rest : List Seg)
    (k1 k2 : Bytes → Result) (xml : Bytes) : Result :=
  let ms := (topElems env.ord xml).filter (fun e => cur.matches e.name)
  match rest with
  | [] => firstMatch env cur rest k1 ms
  | nxt :: rest2 =>
    match nxt.kind with
    | .field f => fieldExtraction env (ms.take maxWildcardResults) f nxt.mods
    | .filter f all => routeFilter env ((ms.take maxWildcardResults).filter (ev f)) nxt all rest2 k2
    | .index _ => arrayOp env (ms.take maxWildcardResults) nxt rest2 k2
    | .count => arrayOp env (ms.take maxWildcardResults) nxt rest2 k2
    | _ => firstMatch env cur rest k1 ms

/-- get.go:173-175: should the first segment be treated as the roots of a fragment. -/
def isFragmentQuery (root : Bool) (rest : List Seg) : Bool :=
  root && match rest with
    | [] => false
    | nxt :: _ => nxt.kind.isRootOp

/-- get.go:165-563 executeQuery at one segment. `root` is `segIndex == 0`; `k1`, `k2` are
executeQuery at `segIndex+1`, `segIndex+2`; `ev` evaluates a filter on a match. -/
def execBody (env : Env) (ev : Filter → Elem → Bool) (root : Bool) (cur : Seg) (rest : List Seg)
    (k1 k2 : Bytes → Result) (xml : Bytes) : Result :=
  match cur.kind with
  | .elem v =>
    if isFragmentQuery root rest then
      match rest with
      | [] => .null
      | nxt :: rest2 =>
        fragmentRoots env (((topElems env.ord xml).filter (fun e => e.name = v)).take maxWildcardResults)
          nxt rest2 k2
    else execElem env ev cur rest k1 k2 xml
  | .filter f all =>
    routeFilter env (((topElems env.ord xml).filter (ev f)).take maxWildcardResults) cur all rest k1
  | .field _ => .ofArray []
  | .index _ => .null
  | .count => .null
  | .text => .null
  | .attr _ => .null
  | .wild true => handleRecursive env rest k2 xml
  | .wild false =>
    let ms := (topElems env.ord xml).take maxWildcardResults
    if ms.isEmpty then .null
    else if rest.isEmpty then applyModifiers env.mods (handleWildcard env ms rest k1) cur.mods
    else handleWildcard env ms rest k1

/-- get.go:165-563 executeQuery -/
def execQ (env : Env) (ev : Filter → Elem → Bool) : List Seg → Bool → Bytes → Result
  | [], _, _ => .null
  | [cur], root, xml => execBody env ev root cur [] (fun _ => .null) (fun _ => .null) xml
  | cur :: nxt :: rest, root, xml =>
    execBody env ev root cur (nxt :: rest) (execQ env ev (nxt :: rest) false) (execQ env ev rest false) xml

/-- filter.go:366-393 isNumericValue: `i` is whether we are at index 0. -/
def isNumericAux (first hasDigit hasDot : Bool) : Bytes → Bool
  | [] => hasDigit
  | c :: cs =>
    if isDigit c then isNumericAux false true hasDot cs
    else if c = c!"." then (if hasDot then false else isNumericAux false hasDigit true cs)
    else if c = c!"-" || c = c!"+" then (if first then isNumericAux false hasDigit hasDot cs else false)
    else if c = c!"e" || c = c!"E" then hasDigit
    else false

/-- filter.go:366-393 isNumericValue (the empty string gives false either way) -/
def isNumericValue (s : Bytes) : Bool := isNumericAux true false false s

/-- filter.go:304-313: comparison of two finite floats. -/
def cmpOp (op : FilterOp) (a b : Rat) : Bool :=
  match op with
  | .lt => a < b
  | .gt => b < a
  | .le => a ≤ b
  | .ge => b ≤ a
  | _ => false

/-- filter.go:286-319: numeric operators. -/
def compareNumeric (pf : Bytes → Option FVal) (op : FilterOp) (actual value : Bytes) : Bool :=
  if !isNumericValue actual || !isNumericValue value then false
  else
    match pf actual, pf value with
    | some (.fin a), some (.fin b) => cmpOp op a b
    | _, _ => false

/-- filter.go:321-353: pattern operators. -/
def comparePattern (op : FilterOp) (actual value : Bytes) : Bool :=
  if !containsAny value b!"*?\\" then
    if op = .pat then actual = value else actual ≠ value
  else
    let r := patternMatch actual value maxPatternIterations
    if r.2 then false else if op = .pat then r.1 else !r.1

/-- filter.go:267-356: the comparison, once the tested value is known (`none`: does not exist). -/
def compareFilter (pf : Bytes → Option FVal) (f : Filter) (actual : Option Bytes) : Bool :=
  match f.op, actual with
  | .ex, a => a.isSome
  | _, none => false
  | .eq, some a => a = f.value
  | .ne, some a => a ≠ f.value
  | .pat, some a => comparePattern f.op a f.value
  | .npat, some a => comparePattern f.op a f.value
  | _, some a => compareNumeric pf f.op a f.value

/-- filter.go:243-363 evaluateFilterWithDepth / evaluateFilterOnMatch (the `depth` argument is 0 at
every call, so the depth limit never applies). The number bounds the nesting of filters inside filter paths;
a filter path is shorter than the expression it comes from, so `path.length + 1` is enough
(`evalFilterN_stable` in Lemmas). -/
def evalFilterN (env : Env) : Nat → Filter → Elem → Bool
  | 0, _, _ => false
  | n + 1, f, m =>
    let actual : Option Bytes :=
      if hasPrefix f.path b!"@" then Attrs.get? (f.path.drop 1) m.attrs
      else
        match parsePath f.path with
        | .ok ss =>
          let r := execQ env (evalFilterN env n) ss true m.content
          if r.exists? then some r.toStr else none
        | _ => none
    compareFilter env.parseFloat f actual

/-- filter.go:360-363 evaluateFilterOnMatch -/
def evalFilter (env : Env) (f : Filter) (m : Elem) : Bool := evalFilterN env (f.path.length + 1) f m

/-- get.go:165 executeQuery from segment 0 -/
def executeQuery (env : Env) (ss : List Seg) (xml : Bytes) : Result := execQ env (evalFilter env) ss true xml

/-- A call either returns or panics. -/
inductive Outcome (α : Type) where
  | panic
  | ret (a : α)
deriving DecidableEq, Repr

/-- get.go:78-95 GetBytes; get.go:61-63 Get and get.go:71-73 GetString pass the same bytes on (get.go:2269-2271 stringToBytes). -/
def get (env : Env) (xml path : Bytes) : Outcome Result :=
  if xml.length > maxDocumentSize then .ret .null
  else
    match parsePath path with
    | .panic => .panic
    | .err => .ret .null
    | .ok [] => .ret .null
    | .ok ss => .ret (executeQuery env ss xml)

/-- Evaluate calls in order; the first panic ends the computation. -/
def allOutcomes {α : Type} : List (Outcome α) → Outcome (List α)
  | [] => .ret []
  | .panic :: _ => .panic
  | .ret a :: r =>
    match allOutcomes r with
    | .panic => .panic
    | .ret as => .ret (a :: as)

/-- get.go:817-823 GetMany -/
def getMany (env : Env) (xml : Bytes) (paths : List Bytes) : Outcome (List Result) :=
  allOutcomes (paths.map (get env xml))

end Verif
