import Verif.Spec.Filter
import Verif.Model.Builder
/- How any text is read as a path, and which values can be stored, independently of the code. -/
namespace Verif.Spec

/-- The parts between the dots that are not escaped. A backslash makes the next byte an ordinary one and is itself dropped; at the end of the text it is dropped as well. -/
inductive Parts : Bytes → List Bytes → Prop where
  | done : Parts [] [[]]
  | lone : Parts b!"\\" [[]]
  | dot {r : Bytes} {ps : List Bytes} (h : Parts r ps) : Parts (c!"." :: r) ([] :: ps)
  | esc (c : UInt8) {r p : Bytes} {ps : List Bytes} (h : Parts r (p :: ps)) : Parts (c!"\\" :: c :: r) ((c :: p) :: ps)
  | plain (c : UInt8) {r p : Bytes} {ps : List Bytes} (h1 : c ≠ c!".") (h2 : c ≠ c!"\\") (h : Parts r (p :: ps)) : Parts (c :: r) ((c :: p) :: ps)

/-- What comes before the modifiers of a part. -/
def beforeBar (part : Bytes) : Bytes := part.takeWhile (· ≠ c!"|")

/-- The part is a filter with this text between the parentheses. -/
def FilterBody (part expr : Bytes) : Prop := ∃ all, beforeBar part = filterPart expr all

/-- A filter whose text is not a condition. -/
def Rejected (part : Bytes) : Prop := ∃ expr, expr ≠ [] ∧ FilterBody part expr ∧ (∀ p op v, ¬ Condition expr p op v) ∧ ¬ BadQuote expr

/-- A filter that compares with a single quote character. -/
def StrayQuote (part : Bytes) : Prop := ∃ expr, FilterBody part expr ∧ BadQuote expr

/-- Parts that mean nothing: empty ones, and those that begin like a filter but are not closed or have nothing between the parentheses. -/
def Idle (part : Bytes) : Prop := part = [] ∨ (b!"#(" <+: part ∧ ¬ ∃ expr, expr ≠ [] ∧ FilterBody part expr)

/-- The parts without the idle ones. -/
inductive Busy : List Bytes → List Bytes → Prop where
  | nil : Busy [] []
  | idle {p : Bytes} {ps ss : List Bytes} (hp : Idle p) (h : Busy ps ss) : Busy (p :: ps) ss
  | busy {p : Bytes} {ps ss : List Bytes} (hp : ¬ Idle p) (h : Busy ps ss) : Busy (p :: ps) (p :: ss)

/-- The text is a path of these steps (idle parts left out). -/
def PathSteps (path : Bytes) (ss : List Bytes) : Prop :=
  ∃ parts, Parts path parts ∧ parts.length ≤ 100 ∧ (∀ p ∈ parts, ¬ Rejected p ∧ ¬ StrayQuote p) ∧ Busy parts ss

/-- The text is no path: it has more than 100 parts, or the first part that is not acceptable is a filter without a condition. -/
def NoPath (path : Bytes) : Prop :=
  ∃ parts, Parts path parts ∧ (100 < parts.length ∨ ∃ pre p post, parts = pre ++ p :: post ∧ (∀ q ∈ pre, ¬ Rejected q ∧ ¬ StrayQuote q) ∧ Rejected p)

/-- The text makes the path parser panic. -/
def BadPath (path : Bytes) : Prop :=
  ∃ parts, Parts path parts ∧ parts.length ≤ 100 ∧ ∃ pre p post, parts = pre ++ p :: post ∧ (∀ q ∈ pre, ¬ Rejected q ∧ ¬ StrayQuote q) ∧ StrayQuote p

/-- An attribute step. -/
def AttrStep (part : Bytes) : Prop := b!"@" <+: part

/-- A negative position; `n` is its absolute value. What follows digits that exceed 64 bits is not looked at, as long as it is made of digits and hyphens. -/
def Negative (part : Bytes) (n : Nat) : Prop :=
  ∃ ds rest, beforeBar part = c!"-" :: ds ++ rest ∧ Decimal ds n ∧ 0 < n ∧ (rest = [] ∨ (2 ^ 64 ≤ n ∧ ∀ c ∈ rest, c = c!"-" ∨ (48 ≤ c ∧ c ≤ 57)))

/-- The path uses a negative position otherwise than as a final -1. -/
def BadPosition (ss : List Bytes) : Prop := ∃ pre p post n, ss = pre ++ p :: post ∧ Negative p n ∧ ¬ (post = [] ∧ n = 1)

/-- The path ends in -1, which asks for a new element. -/
def Appends (ss pre : List Bytes) : Prop := ∃ p, ss = pre ++ [p] ∧ Negative p 1

/-- A step by name: not a filter, attribute, `%`, `#`, wildcard or position. -/
def NameStep (part : Bytes) : Prop :=
  part ≠ [] ∧ ¬ b!"#(" <+: part ∧ ¬ b!"@" <+: part ∧ beforeBar part ∉ [b!"%", b!"#", b!"*", b!"**"] ∧
    ¬ (beforeBar part ≠ [] ∧ beforeBar part ≠ b!"-" ∧ ∀ c ∈ beforeBar part, c = c!"-" ∨ (48 ≤ c ∧ c ≤ 57))

/-- The last step is a name, and not one that is collected by a `#` before it. -/
def EndsInName (ss : List Bytes) : Prop :=
  ∃ pre p, ss = pre ++ [p] ∧ NameStep p ∧ ¬ (Identifier (beforeBar p) ∧ (beforeBar p).length ≤ 256 ∧ ∃ q, pre.getLast? = some q ∧ beforeBar q = b!"#")

/-- The number of bytes an escaped byte takes. -/
def escapedSize (c : UInt8) : Nat :=
  if c = c!"<" ∨ c = c!">" then 4 else if c = c!"&" then 5 else if c = c!"\"" ∨ c = c!"'" then 6 else 1

/-- The length of the text of a value. -/
def storedSize : GoVal → Nat
  | .str s => (s.map escapedSize).sum
  | .raw s => s.length
  | .float t => t.length
  | .int i => (intDec i).length
  | .bool true => 4
  | .bool false => 5
  | _ => 0

/-- Values that cannot be stored: of a type that is not supported, or with a text above 5 MiB. -/
def Unstorable (v : GoVal) : Prop := v = .other ∨ 5242880 < storedSize v

end Verif.Spec
