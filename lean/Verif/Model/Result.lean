import Verif.Model.Parser
/- Result values and accessors of /repo/result.go (1-200). -/
namespace Verif

/-- A float64 as far as the code observes it: `strconv.ParseFloat` results are compared with
`<`, `>`, `<=`, `>=` after excluding infinities and NaN. Finite floats are rationals. -/
inductive FVal where
  | fin (q : Rat)
  | inf (neg : Bool)
  | nan
deriving DecidableEq

/-- result.go:14-31 Type -/
inductive RType where
  | null | string | number | true | false | element | attribute | array
deriving DecidableEq, Repr

/-- result.go:36-49 Result. The field `Index` is never set by the code and left out. -/
inductive Result where
  | mk (typ : RType) (raw str : Bytes) (num : FVal) (results : List Result)

mutual
/-- Equality of results is decidable (used for concrete examples only). -/
def Result.decEq : (a b : Result) → Decidable (a = b)
  | .mk t r s n l, .mk t' r' s' n' l' =>
    match (inferInstance : Decidable ((t, r, s, n) = (t', r', s', n'))), Result.decEqL l l' with
    | isTrue h, isTrue h2 => isTrue (by simp only [Prod.mk.injEq] at h; obtain ⟨a, b, c, d⟩ := h; rw [a, b, c, d, h2])
    | isFalse h, _ => isFalse (by intro e; cases e; exact h rfl)
    | _, isFalse h => isFalse (by intro e; cases e; exact h rfl)
/-- Equality of lists of results. -/
def Result.decEqL : (a b : List Result) → Decidable (a = b)
  | [], [] => isTrue rfl
  | [], _ :: _ => isFalse (by simp)
  | _ :: _, [] => isFalse (by simp)
  | a :: as, b :: bs =>
    match Result.decEq a b, Result.decEqL as bs with
    | isTrue h, isTrue h2 => isTrue (by rw [h, h2])
    | isFalse h, _ => isFalse (by intro e; cases e; exact h rfl)
    | _, isFalse h => isFalse (by intro e; cases e; exact h rfl)
end
instance : DecidableEq Result := Result.decEq

namespace Result
/-- result.go:38 -/
def typ : Result → RType | mk t _ _ _ _ => t
/-- result.go:40 -/
def raw : Result → Bytes | mk _ r _ _ _ => r
/-- result.go:42 -/
def str : Result → Bytes | mk _ _ s _ _ => s
/-- result.go:46 -/
def num : Result → FVal | mk _ _ _ n _ => n
/-- result.go:48 -/
def results : Result → List Result | mk _ _ _ _ l => l

/-- `Result{Type: Null}` -/
def null : Result := mk .null [] [] (.fin 0) []
/-- `Result{Type: Element, Str: unescapeXML(extractTextContent(content)), Raw: content}` -/
def ofContent (content : Bytes) : Result :=
  mk .element content (unescapeXML (extractTextContent content)) (.fin 0) []
/-- `Result{Type: Attribute, Str: v, Raw: v}` -/
def ofAttr (v : Bytes) : Result := mk .attribute v v (.fin 0) []
/-- `Result{Type: String, Str: unescapeXML(extractDirectTextOnly(content)), Raw: content}` -/
def ofText (content : Bytes) : Result :=
  mk .string content (unescapeXML (extractDirectTextOnly content)) (.fin 0) []
/-- `Result{Type: Number, Num: float64(n), Str: itoa(n)}` (result.go:215-217 itoa) -/
def ofCount (n : Nat) : Result := mk .number [] (natDec n) (.fin n) []
/-- `Result{Type: Array, Results: rs}` -/
def ofArray (rs : List Result) : Result := mk .array [] [] (.fin 0) rs

/-- result.go:51-53 Exists -/
def exists? (r : Result) : Bool := r.typ ≠ .null

/-- result.go:171-173 IsArray -/
def isArray (r : Result) : Bool := r.typ = .array

/-- result.go:177-185 Array -/
def array (r : Result) : List Result :=
  if r.typ = .array then r.results
  else if r.typ = .null then []
  else [r]

/-- result.go:74-83: JSON-like escaping of one item, rune by rune (invalid UTF-8 becomes U+FFFD). -/
def quoteItem (s : Bytes) : Bytes :=
  (runes s).flatMap fun ch =>
    if ch = 34 then b!"\\\"" else if ch = 92 then b!"\\\\" else encodeRune ch

/-- `sb.WriteString(",")` between the items (result.go:69-86). -/
def joinItems : List Bytes → Bytes
  | [] => []
  | [s] => b!"\"" ++ quoteItem s ++ b!"\""
  | s :: t :: r => b!"\"" ++ quoteItem s ++ b!"\"," ++ joinItems (t :: r)

/-- result.go:59-93 String. (For an empty array the Go code returns "[]" early; the general
formula gives the same.) -/
def toStr : Result → Bytes
  | mk t _ s _ l =>
    if t = .null then []
    else if t = .array then b!"[" ++ joinItems (l.attach.map fun ⟨r, _⟩ => r.toStr) ++ b!"]"
    else s
termination_by r => sizeOf r
decreasing_by simp; have := List.sizeOf_lt_of_mem ‹_›; omega

/-- Go `strconv.ParseInt(s, 10, 64)`: `none` is an error. -/
def parseInt64 (s : Bytes) : Option Int :=
  let (neg, ds) : Bool × Bytes :=
    match s with
    | [] => (false, [])
    | c :: cs => if c = c!"-" then (true, cs) else if c = c!"+" then (false, cs) else (false, c :: cs)
  if ds.isEmpty || !ds.all isDigit then none
  else
    let n := digitsVal ds
    if neg then (if n > 2 ^ 63 then none else some (-(n : Int)))
    else (if n ≥ 2 ^ 63 then none else some (n : Int))

/-- `int64(f)`: truncation; out of range and non-finite values are implementation-defined in Go
and given as 0 here. -/
def truncInt64 : FVal → Int
  | .fin q =>
    let t := if 0 ≤ q then q.floor else q.ceil
    if -(2 ^ 63) ≤ t ∧ t < 2 ^ 63 then t else 0
  | _ => 0

/-- result.go:97-112 Int -/
def toInt (r : Result) : Int :=
  match r.typ with
  | .number => truncInt64 r.num
  | .string | .element | .attribute => (parseInt64 r.str).getD 0
  | .true => 1
  | _ => 0

/-- result.go:116-131 Float, over the ParseFloat parameter -/
def toFloat (pf : Bytes → Option FVal) (r : Result) : FVal :=
  match r.typ with
  | .number => r.num
  | .string | .element | .attribute => (pf r.str).getD (.fin 0)
  | .true => .fin 1
  | _ => .fin 0

/-- result.go:135-148 Bool -/
def toBool (r : Result) : Bool :=
  match r.typ with
  | .true => Bool.true
  | .number => r.num ≠ .fin 0
  | .string | .element | .attribute =>
    [b!"true", b!"1", b!"yes", b!"True", b!"YES", b!"t", b!"T"].contains r.str
  | _ => Bool.false

/-- The values `interface{}` takes in `Value`. -/
inductive GoAny where
  | nil
  | bool (b : Bool)
  | float (f : FVal)
  | str (s : Bytes)
  | results (l : List Result)

/-- result.go:151-168 Value -/
def value (r : Result) : GoAny :=
  match r.typ with
  | .null => .nil
  | .true => .bool Bool.true
  | .false => .bool Bool.false
  | .number => .float r.num
  | .string | .element | .attribute => .str r.str
  | .array => .results r.results

/-- result.go:190-200 ForEach with a callback acting on a state: the state after the calls. -/
def forEachL {σ : Type} (f : σ → Nat → Result → σ × Bool) (s : σ) (i : Nat) : List Result → σ
  | [] => s
  | r :: rs => if (f s i r).2 then forEachL f (f s i r).1 (i + 1) rs else (f s i r).1

/-- result.go:190-200 ForEach -/
def forEach {σ : Type} (r : Result) (f : σ → Nat → Result → σ × Bool) (s : σ) : σ :=
  if r.typ = .array then forEachL f s 0 r.results
  else if r.typ ≠ .null then (f s 0 r).1
  else s

end Result
end Verif
