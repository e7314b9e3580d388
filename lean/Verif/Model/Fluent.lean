import Verif.Model.GetOpt
/- Model of the fluent part of /repo/result.go: Result.Get, GetMany, GetWithOptions, Map. -/
namespace Verif

/-- State of the scan in result.go:722-786. -/
structure FragSt where
  roots : Nat
  depth : Int
  inTag : Bool
  selfClosing : Bool
deriving DecidableEq, Repr

/-- result.go:737-783: `prev` is `xml[i-1]`. -/
def multiRootLoop (st : FragSt) (prev : Option UInt8) : Bytes → Bool
  | [] => false
  | c :: cs =>
    if !st.inTag then
      if c = c!"<" then
        match cs with
        | [] => false
        | d :: _ =>
          if d = c!"/" || d = c!"!" || d = c!"?" then
            multiRootLoop { st with inTag := true, selfClosing := false } (some c) cs
          else if st.depth = 0 then
            if st.roots + 1 > 1 then true
            else multiRootLoop ⟨st.roots + 1, st.depth + 1, true, false⟩ (some c) cs
          else multiRootLoop { st with depth := st.depth + 1, inTag := true, selfClosing := false } (some c) cs
      else multiRootLoop st (some c) cs
    else
      let st1 :=
        if c = c!"/" && cs.head? = some c!">" then { st with selfClosing := true }
        else if c = c!">" then
          { st with inTag := false, depth := if st.selfClosing then st.depth - 1 else st.depth, selfClosing := false }
        else st
      let st2 := if c = c!"/" && prev = some c!"<" then { st1 with depth := st1.depth - 1 } else st1
      multiRootLoop st2 (some c) cs

/-- result.go:722-786 isMultiRootFragment -/
def isMultiRootFragment (xml : Bytes) : Bool := multiRootLoop ⟨0, 0, false, false⟩ none xml

/-- result.go:289-302: query on the raw content of an element. -/
def getFromRaw (env : Env) (raw path : Bytes) : Outcome Result :=
  if isMultiRootFragment raw then
    get env (b!"<_xmldot_root>" ++ raw ++ b!"</_xmldot_root>") (b!"_xmldot_root." ++ path)
  else get env raw path

/-- result.go:270-302 Result.Get -/
def Result.get (env : Env) (path : Bytes) : Result → Outcome Result
  | .mk t raw _ _ l =>
    if t = .array then
      match l with
      | [] => .ret .null
      | r :: _ => Result.get env path r
    else if t = .element then getFromRaw env raw path
    else .ret .null

/-- result.go:323-337 Result.GetMany -/
def Result.getMany (env : Env) (r : Result) (paths : List Bytes) : Outcome (List Result) :=
  if r.typ = .element ∨ r.typ = .array then allOutcomes (paths.map fun p => r.get env p)
  else .ret (paths.map fun _ => .null)

/-- result.go:392-404 -/
def getFromRawOpt (env : Env) (raw path : Bytes) (opts : Option Options) : Outcome Result :=
  if isMultiRootFragment raw then
    getWithOptions env (b!"<_xmldot_root>" ++ raw ++ b!"</_xmldot_root>") (b!"_xmldot_root." ++ path) opts
  else getWithOptions env raw path opts

/-- result.go:364-405 Result.GetWithOptions -/
def Result.getWithOptions (env : Env) (path : Bytes) (opts : Option Options) : Result → Outcome Result
  | .mk t raw s n l =>
    if t ≠ .element ∧ t ≠ .array then .ret .null
    else if isDefaultOptions opts then Result.get env path (.mk t raw s n l)
    else if t = .array then
      match l with
      | [] => .ret .null
      | r :: _ => Result.getWithOptions env path opts r
    else getFromRawOpt env raw path opts

/-- A Go `map[string]Result` as an association list without duplicate keys. -/
abbrev ResMap := List (Bytes × Result)

/-- Lookup in a result map. -/
def ResMap.get? (k : Bytes) : ResMap → Option Result
  | [] => none
  | (k', v) :: r => if k' = k then some v else ResMap.get? k r

/-- `m[k] = v` -/
def ResMap.set (k : Bytes) (v : Result) : ResMap → ResMap
  | [] => [(k, v)]
  | (k', v') :: r => if k' = k then (k, v) :: r else (k', v') :: ResMap.set k v r

/-- result.go:686-709 addChildToMap -/
def addChildToMap (m : ResMap) (name : Bytes) (child : Result) : ResMap :=
  match m.get? name with
  | none => m.set name child
  | some ex =>
    if ex.typ = .array then m.set name (.ofArray (ex.results ++ [child]))
    else m.set name (.ofArray [ex, child])

/-- result.go:562-568, 628-634: the "%" entry. -/
def textEntry (xml : Bytes) : ResMap :=
  let t := extractDirectTextOnly xml
  if t.isEmpty then [] else [(b!"%", .mk .string t (unescapeXML t) (.fin 0) [])]

/-- result.go:543-606 parseMapChildren and 609-681 parseMapChildrenWithOptions; `key` normalises the
names (identity, or `strings.ToLower`, which is a parameter of the model). -/
def parseMapChildren (o : Ord) (key : Bytes → Bytes) (xml : Bytes) : ResMap :=
  if xml.length > maxDocumentSize then []
  else if xml.isEmpty then []
  else
    ((topElems o xml).take maxWildcardResults).foldl
      (fun m e => addChildToMap m (key e.name) (.ofContent e.content)) (textEntry xml)

/-- result.go:475-493 Map -/
def Result.map (o : Ord) : Result → ResMap
  | .mk t raw _ _ l =>
    if t = .array then
      match l with
      | [] => []
      | r :: _ => Result.map o r
    else if t = .element then parseMapChildren o id raw
    else []

/-- result.go:517-538 MapWithOptions; `lower` is `strings.ToLower`. -/
def Result.mapWithOptions (o : Ord) (lower : Bytes → Bytes) (opts : Option Options) : Result → ResMap
  | .mk t raw s n l =>
    if isDefaultOptions opts then Result.map o (.mk t raw s n l)
    else if t = .array then
      match l with
      | [] => []
      | r :: _ => Result.mapWithOptions o lower opts r
    else if t = .element then
      parseMapChildren o (if (opts.getD defaultOptions).caseSensitive then id else lower) raw
    else []

end Verif
