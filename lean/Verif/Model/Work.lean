import Verif.Model.Get
/-
How much work a query is: the number of calls of executeQuery (get.go:165) and of recursiveSearchWithContext (get.go:711) that `Get` makes. The functions follow those of Model/Get
and ask these for the results that decide whether the code goes on. Reading a level of the document, comparing names and building results are not counted.
-/
namespace Verif

/-- The sum over a list. -/
def sumBy {α : Type} (f : α → Nat) : List α → Nat
  | [] => 0
  | a :: l => f a + sumBy f l

/-- get.go:601-648: one query for every match, unless an attribute or text follows. -/
def wildcardW (ms : List Elem) (rest : List Seg) (kw : Bytes → Nat) : Nat :=
  match rest with
  | [] => 0
  | nxt :: _ =>
    match nxt.kind with
    | .attr _ => 0
    | .text => 0
    | _ => sumBy (fun m => kw m.content) ms

/-- get.go:758-806: a match of the step after `**`. -/
def recEmitW (rest : List Seg) (kw : Bytes → Nat) (e : Elem) : Nat :=
  match rest with
  | [] => 0
  | nxt :: _ =>
    match nxt.kind with
    | .attr _ => 0
    | .text => 0
    | .field _ => 0
    | _ => kw e.content

/-- get.go:721-808: the loop over the elements of one level, see `recLoop`. -/
def recLoopW (inner : Bytes → SearchSt → SearchSt) (innerW : Bytes → SearchSt → Nat) (tgt : Elem → Bool) (emit : Elem → List Result) (emitW : Elem → Nat) :
    List Elem → SearchSt → Nat
  | [], _ => 0
  | e :: es, st =>
    let go := !e.selfClosing && !e.content.isEmpty
    let st1 := if go then inner e.content st else st
    (if go then innerW e.content st else 0) +
      (if st1.ops ≥ maxRecursiveOperations then 0
       else if tgt e then
         if st1.res.length ≥ maxWildcardResults then 0
         else emitW e + recLoopW inner innerW tgt emit emitW es { st1 with res := st1.res ++ emit e }
       else recLoopW inner innerW tgt emit emitW es st1)

/-- get.go:711-809 recursiveSearchWithContext, see `recSearch`: this call, and those it leads to. -/
def recSearchW (o : Ord) (tgt : Elem → Bool) (emit : Elem → List Result) (emitW : Elem → Nat) : Nat → Bytes → SearchSt → Nat
  | 0, _, _ => 1
  | n + 1, xml, st =>
    if st.res.length ≥ maxWildcardResults || st.ops + 1 ≥ maxRecursiveOperations then 1
    else 1 + recLoopW (recSearch o tgt emit n) (recSearchW o tgt emit emitW n) tgt emit emitW (topElems o xml) { st with ops := st.ops + 1 }

/-- get.go:682-707 handleRecursiveWildcard -/
def recursiveW (env : Env) (rest : List Seg) (k : Bytes → Result) (kw : Bytes → Nat) (xml : Bytes) : Nat :=
  match rest with
  | [] => 0
  | tgt :: rest2 => recSearchW env.ord (fun e => tgt.matches e.name) (recEmit env rest2 k) (recEmitW rest2 kw) (maxNestingDepth + 1) xml ⟨0, []⟩

/-- get.go:1785-1846 processFirstMatch -/
def processFirstW (m : Elem) (rest : List Seg) (kw : Bytes → Nat) : Nat :=
  match rest with
  | [] => 0
  | nxt :: _ =>
    match nxt.kind with
    | .attr _ => 0
    | .text => 0
    | .field _ => 0
    | _ => kw m.content

/-- get.go:1849-1949 processAllMatches -/
def processAllW (ms : List Elem) (rest : List Seg) (kw : Bytes → Nat) : Nat :=
  sumBy (fun m => processFirstW m rest kw) ms

/-- get.go:1768-1781, 1963-1976 -/
def routeFilterW (ms : List Elem) (all : Bool) (rest : List Seg) (kw : Bytes → Nat) : Nat :=
  match ms with
  | [] => 0
  | m :: _ => if all then processAllW ms rest kw else processFirstW m rest kw

/-- get.go:1738-1766: the conditions evaluated until enough matches are found. -/
def testedW (ev : Elem → Bool) (evw : Elem → Nat) : Nat → List Elem → Nat
  | 0, _ => 0
  | _, [] => 0
  | n + 1, e :: es => evw e + testedW ev evw (if ev e then n else n + 1) es

/-- get.go:187-240 and 500-557: a position is followed by one query. -/
def indexW (ms : List Elem) (nxt : Seg) (rest2 : List Seg) (textToo : Bool) (kw2 : Bytes → Nat) : Nat :=
  match nxt.kind with
  | .index i =>
    if i < 0 then 0
    else
      match ms[i.toNat]? with
      | none => 0
      | some m =>
        match rest2 with
        | [] => 0
        | s :: _ =>
          match s.kind with
          | .attr _ => 0
          | .text => if textToo then kw2 m.content else 0
          | _ => kw2 m.content
  | _ => 0

/-- get.go:433-488: elements tried one after the other. -/
def firstMatchW (rest : List Seg) (k : Bytes → Result) (kw : Bytes → Nat) : List Elem → Nat
  | [] => 0
  | m :: ms =>
    match rest with
    | [] => 0
    | nxt :: _ =>
      match nxt.kind with
      | .attr _ => 0
      | .text => 0
      | _ => kw m.content + if (k m.content).typ = .null then firstMatchW rest k kw ms else 0

/-- get.go:306-341, 382-563, see `execElem`. -/
def execElemW (env : Env) (ev : Filter → Elem → Bool) (evw : Filter → Elem → Nat) (cur : Seg) (rest : List Seg) (k1 : Bytes → Result) (kw1 kw2 : Bytes → Nat) (xml : Bytes) : Nat :=
  let ms := (topElems env.ord xml).filter (fun e => cur.matches e.name)
  match rest with
  | [] => 0
  | nxt :: rest2 =>
    match nxt.kind with
    | .field _ => 0
    | .filter f all => sumBy (evw f) (ms.take maxWildcardResults) + routeFilterW ((ms.take maxWildcardResults).filter (ev f)) all rest2 kw2
    | .index _ => indexW (ms.take maxWildcardResults) nxt rest2 true kw2
    | .count => 0
    | _ => firstMatchW rest k1 kw1 ms

/-- get.go:165-563 executeQuery at one segment, see `execBody`; `k1`, `k2` are the results and `kw1`, `kw2` the work of executeQuery at `segIndex+1`, `segIndex+2`. -/
def execBodyW (env : Env) (ev : Filter → Elem → Bool) (evw : Filter → Elem → Nat) (root : Bool) (cur : Seg) (rest : List Seg)
    (k1 k2 : Bytes → Result) (kw1 kw2 : Bytes → Nat) (xml : Bytes) : Nat :=
  match cur.kind with
  | .elem v =>
    if isFragmentQuery root rest then
      match rest with
      | [] => 0
      | nxt :: rest2 => indexW (((topElems env.ord xml).filter (fun e => e.name = v)).take maxWildcardResults) nxt rest2 false kw2
    else execElemW env ev evw cur rest k1 kw1 kw2 xml
  | .filter f all =>
    testedW (ev f) (evw f) maxWildcardResults (topElems env.ord xml) +
      routeFilterW (((topElems env.ord xml).filter (ev f)).take maxWildcardResults) all rest kw1
  | .wild true => recursiveW env rest k2 kw2 xml
  | .wild false => wildcardW ((topElems env.ord xml).take maxWildcardResults) rest kw1
  | _ => 0

/-- get.go:165-563 executeQuery: this call, and those it leads to. -/
def execQW (env : Env) (ev : Filter → Elem → Bool) (evw : Filter → Elem → Nat) : List Seg → Bool → Bytes → Nat
  | [], _, _ => 1
  | [cur], root, xml => 1 + execBodyW env ev evw root cur [] (fun _ => .null) (fun _ => .null) (fun _ => 1) (fun _ => 1) xml
  | cur :: nxt :: rest, root, xml =>
    1 + execBodyW env ev evw root cur (nxt :: rest) (execQ env ev (nxt :: rest) false) (execQ env ev rest false)
      (execQW env ev evw (nxt :: rest) false) (execQW env ev evw rest false) xml

/-- filter.go:243-363 evaluateFilterWithDepth, see `evalFilterN`. -/
def evalFilterW (env : Env) : Nat → Filter → Elem → Nat
  | 0, _, _ => 0
  | n + 1, f, m =>
    if hasPrefix f.path b!"@" then 0
    else
      match parsePath f.path with
      | .ok ss => execQW env (evalFilterN env n) (evalFilterW env n) ss true m.content
      | _ => 1

/-- get.go:78-95 GetBytes -/
def getW (env : Env) (xml path : Bytes) : Nat :=
  if xml.length > maxDocumentSize then 0
  else
    match parsePath path with
    | .ok (s :: ss) => execQW env (evalFilter env) (fun f => evalFilterW env (f.path.length + 1) f) (s :: ss) true xml
    | _ => 0

end Verif
