import Verif.Model.Work
import Verif.Model.GetOpt
/- Calls of executeQueryWithOptions (get.go:915) and of its recursive search (get.go:1404), counted as in Model/Work. -/
namespace Verif

/-- get.go:1438-1495: as recEmitW, without the case for field extraction. -/
def recEmitWO (rest : List Seg) (kw : Bytes → Nat) (e : Elem) : Nat :=
  match rest with
  | [] => 0
  | nxt :: _ =>
    match nxt.kind with
    | .attr _ => 0
    | .text => 0
    | _ => kw e.content

/-- get.go:1379-1401 handleRecursiveWildcardWithOptions -/
def recursiveWO (env : Env) (cs : Bool) (rest : List Seg) (k : Bytes → Result) (kw : Bytes → Nat) (xml : Bytes) : Nat :=
  match rest with
  | [] => 0
  | tgt :: rest2 => recSearchW env.ord (fun e => tgt.matchesOpt e.name cs) (recEmitOpt env cs rest2 k) (recEmitWO rest2 kw) (maxNestingDepth + 1) xml ⟨0, []⟩

/-- get.go:999-1072, 1098-1272, see `execElemOpt`. -/
def execElemWO (env : Env) (ev : Filter → Elem → Bool) (evw : Filter → Elem → Nat) (cs : Bool) (cur : Seg) (rest : List Seg) (k1 : Bytes → Result) (kw1 kw2 : Bytes → Nat) (xml : Bytes) : Nat :=
  let ms := (topElems env.ord xml).filter (fun e => cur.matchesOpt e.name cs)
  match rest with
  | [] => 0
  | nxt :: rest2 =>
    match nxt.kind with
    | .field _ => 0
    | .filter f all => sumBy (evw f) (ms.take maxWildcardResults) + routeFilterW ((ms.take maxWildcardResults).filter (ev f)) all rest2 kw2
    | .index _ => indexW (ms.take maxWildcardResults) nxt rest2 true kw2
    | .count => 0
    | _ => firstMatchW rest k1 kw1 ms

/-- get.go:915-1273 executeQueryWithOptions at one segment, see `execBodyOpt`. -/
def execBodyWO (env : Env) (ev : Filter → Elem → Bool) (evw : Filter → Elem → Nat) (cs root : Bool) (cur : Seg) (rest : List Seg)
    (k1 k2 : Bytes → Result) (kw1 kw2 : Bytes → Nat) (xml : Bytes) : Nat :=
  match cur.kind with
  | .elem v =>
    if isFragmentQuery root rest && cs then
      match rest with
      | [] => 0
      | nxt :: rest2 => indexW (((topElems env.ord xml).filter (fun e => e.name = v)).take maxWildcardResults) nxt rest2 false kw2
    else execElemWO env ev evw cs cur rest k1 kw1 kw2 xml
  | .filter f all =>
    testedW (ev f) (evw f) maxWildcardResults (topElems env.ord xml) +
      routeFilterW (((topElems env.ord xml).filter (ev f)).take maxWildcardResults) all rest kw1
  | .wild true => recursiveWO env cs rest k2 kw2 xml
  | .wild false => wildcardW ((topElems env.ord xml).take maxWildcardResults) rest kw1
  | _ => 0

/-- get.go:915-1273 executeQueryWithOptions: this call, and those it leads to. -/
def execQWO (env : Env) (ev : Filter → Elem → Bool) (evw : Filter → Elem → Nat) (cs : Bool) : List Seg → Bool → Bytes → Nat
  | [], _, _ => 1
  | [cur], root, xml => 1 + execBodyWO env ev evw cs root cur [] (fun _ => .null) (fun _ => .null) (fun _ => 1) (fun _ => 1) xml
  | cur :: nxt :: rest, root, xml =>
    1 + execBodyWO env ev evw cs root cur (nxt :: rest) (execQOpt env ev cs (nxt :: rest) false) (execQOpt env ev cs rest false)
      (execQWO env ev evw cs (nxt :: rest) false) (execQWO env ev evw cs rest false) xml

/-- get.go:858-886 GetBytesWithOptions -/
def getWithOptionsW (env : Env) (xml path : Bytes) (opts : Option Options) : Nat :=
  if xml.length > maxDocumentSize then 0
  else if isDefaultOptions opts then getW env xml path
  else
    let cs := (opts.getD defaultOptions).caseSensitive
    match parsePathWithOptions path cs with
    | .ok (s :: ss) => execQWO env (evalFilter env) (fun f => evalFilterW env (f.path.length + 1) f) cs (s :: ss) true xml
    | _ => 0

end Verif
