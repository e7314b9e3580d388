import Verif.Model.Get
/- Model of the built-in modifiers and of the registry in /repo/modifier.go.
@pretty (modifier.go:361-469) is a parameter here and modelled in Model/Pretty. -/
namespace Verif

/-- modifier.go:233-247 reverseModifier -/
def reverseMod (r : Result) : Result :=
  if r.typ ≠ .array || r.results.isEmpty then r else .ofArray r.results.reverse

/-- modifier.go:311-316 firstModifier -/
def firstMod (r : Result) : Result :=
  if r.typ = .array then
    match r.results with
    | [] => r
    | x :: _ => x
  else r

/-- modifier.go:323-328 lastModifier -/
def lastMod (r : Result) : Result :=
  if r.typ = .array then
    match r.results.getLast? with
    | none => r
    | some x => x
  else r

/-- modifier.go:335-354 flattenModifier -/
def flattenMod (r : Result) : Result :=
  if r.typ ≠ .array then r
  else
    let l := r.results.flatMap fun x => if x.typ = .array then x.results else [x]
    if l.isEmpty then .null else .ofArray l

/-- modifier.go:263-278: the number an element sorts by, `none` if it is not numeric. -/
def sortNum (pf : Bytes → Option FVal) (r : Result) : Option FVal :=
  match r.typ with
  | .number => some r.num
  | .string | .element | .attribute => pf r.str
  | _ => none

/-- Go `<` on float64 (false if either side is NaN). -/
def FVal.lt : FVal → FVal → Bool
  | .fin a, .fin b => a < b
  | .fin _, .inf neg => !neg
  | .inf neg, .fin _ => neg
  | .inf a, .inf b => a && !b
  | _, _ => false

/-- Go `<` on strings: bytewise lexicographic. -/
def bytesLt : Bytes → Bytes → Bool
  | _, [] => false
  | [], _ :: _ => true
  | a :: as, b :: bs => if a < b then true else if b < a then false else bytesLt as bs

/-- modifier.go:280-301: the "less" function given to sort.Slice. -/
def sortLess (pf : Bytes → Option FVal) (l : List Result) : Result → Result → Bool :=
  if l.all (fun r => (sortNum pf r).isSome) then
    fun a b => match sortNum pf a, sortNum pf b with
      | some x, some y => x.lt y
      | _, _ => false
  else fun a b => bytesLt a.toStr b.toStr

/-- `sort.Slice(l, less)`: a function of the list and the comparison. Its contract is `SortContract`. -/
abbrev Sorter := (Result → Result → Bool) → List Result → List Result

/-- modifier.go:254-304 sortModifier -/
def sortMod (srt : Sorter) (pf : Bytes → Option FVal) (r : Result) : Result :=
  if r.typ ≠ .array || r.results.length ≤ 1 then r
  else .ofArray (srt (sortLess pf r.results) r.results)

/-- modifier.go:502-542: loop of compactXML. -/
def compactLoop (inTag inCDATA : Bool) (s : Bytes) : Bytes :=
  match s with
  | [] => []
  | c :: cs =>
    if !inTag && b!"<![CDATA[".isPrefixOf (c :: cs) then
      b!"<![CDATA[" ++ compactLoop inTag true (cs.drop 8)
    else if inCDATA && b!"]]>".isPrefixOf (c :: cs) then
      b!"]]>" ++ compactLoop inTag false (cs.drop 2)
    else if inCDATA then c :: compactLoop inTag inCDATA cs
    else if c = c!"<" then c :: compactLoop true inCDATA cs
    else if c = c!">" then c :: compactLoop false inCDATA cs
    else if inTag then c :: compactLoop inTag inCDATA cs
    else if !isWs c then c :: compactLoop inTag inCDATA cs
    else compactLoop inTag inCDATA cs
termination_by s.length
decreasing_by all_goals simp only [List.length_drop, List.length_cons]; omega

/-- modifier.go:495-545 compactXML -/
def compactXML (s : Bytes) : Bytes := compactLoop false false s

/-- modifier.go:476-490 uglyModifier -/
def uglyMod (r : Result) : Result :=
  if r.raw.isEmpty then r else .mk r.typ (compactXML r.raw) r.str r.num []

/-- modifier.go:135 the built-in names -/
def builtinNames : List Bytes :=
  [b!"reverse", b!"sort", b!"first", b!"last", b!"flatten", b!"pretty", b!"ugly"]

/-- modifier.go:134-142 isBuiltinModifier -/
def isBuiltin (n : Bytes) : Bool := builtinNames.contains n

/-- modifier.go:548-558 init: the registry before any call. `pretty` and `srt` are parameters. -/
def builtinMods (srt : Sorter) (pf : Bytes → Option FVal) (pretty : Result → Result) (n : Bytes) :
    Option (Result → Result) :=
  if n = b!"reverse" then some reverseMod
  else if n = b!"sort" then some (sortMod srt pf)
  else if n = b!"first" then some firstMod
  else if n = b!"last" then some lastMod
  else if n = b!"flatten" then some flattenMod
  else if n = b!"pretty" then some pretty
  else if n = b!"ugly" then some uglyMod
  else none

/-- The registry `map[string]Modifier`; a bound name may be bound to a nil Modifier (`some none`). -/
abbrev Registry (M : Type) := Bytes → Option (Option M)

/-- modifier.go:94-108 RegisterModifier: new registry and whether an error is returned. -/
def registerModifier {M : Type} (reg : Registry M) (name : Bytes) (m : Option M) : Registry M × Bool :=
  if name.isEmpty then (reg, true)
  else if (reg name).isSome then (reg, true)
  else ((fun n => if n = name then some m else reg n), false)

/-- modifier.go:120-131 UnregisterModifier -/
def unregisterModifier {M : Type} (reg : Registry M) (name : Bytes) : Registry M × Bool :=
  if isBuiltin name then (reg, true)
  else ((fun n => if n = name then none else reg n), false)

/-- modifier.go:112-116 GetModifier -/
def getModifier {M : Type} (reg : Registry M) (name : Bytes) : Option M := (reg name).join

end Verif
