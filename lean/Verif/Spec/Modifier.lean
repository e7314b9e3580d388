import Verif.Model.Result
/- Specifications for modifiers: sorting, compaction, pipelines, registries. -/
namespace Verif.Spec

/-- A strict weak order on the members of `l`: irreflexive, transitive, incomparability transitive. -/
structure StrictWeakOn {α : Type} (less : α → α → Bool) (l : List α) : Prop where
  irrefl : ∀ a ∈ l, less a a = false
  trans : ∀ a ∈ l, ∀ b ∈ l, ∀ c ∈ l, less a b = true → less b c = true → less a c = true
  incomp : ∀ a ∈ l, ∀ b ∈ l, ∀ c ∈ l, less a b = false → less b a = false → less b c = false → less c b = false →
    less a c = false ∧ less c a = false

/-- The documented contract of `sort.Slice`. -/
def SortContract {α : Type} (srt : (α → α → Bool) → List α → List α) : Prop :=
  ∀ less l, (srt less l).Perm l ∧
    (StrictWeakOn less l → (srt less l).Pairwise (fun a b => less b a = false))

/-- The number a result stands for, if it is a Number or its text is one. -/
def numberOf (pf : Bytes → Option FVal) (r : Result) : Option FVal :=
  if r.typ = .number then some r.num
  else if r.typ = .string ∨ r.typ = .element ∨ r.typ = .attribute then pf r.str
  else none

/-- `x` is below `y` as numbers (infinities are the extremes). -/
inductive Below : FVal → FVal → Prop
  | fin {a b : Rat} : a < b → Below (.fin a) (.fin b)
  | negFin {b : Rat} : Below (.inf true) (.fin b)
  | finPos {a : Rat} : Below (.fin a) (.inf false)
  | negPos : Below (.inf true) (.inf false)

/-- `a` is before `b` in bytewise lexicographic order. -/
inductive LexBefore : Bytes → Bytes → Prop
  | nil (y : UInt8) (ys : Bytes) : LexBefore [] (y :: ys)
  | head {x y : UInt8} (xs ys : Bytes) : x < y → LexBefore (x :: xs) (y :: ys)
  | tail (x : UInt8) {xs ys : Bytes} : LexBefore xs ys → LexBefore (x :: xs) (x :: ys)

/-- A piece of XML text for the compacting modifier. -/
inductive Piece where
  | text (b : Bytes)    -- outside tags: no `<`
  | tag (b : Bytes)     -- the bytes between `<` and `>`
  | cdata (b : Bytes)   -- the bytes between `<![CDATA[` and `]]>`

/-- The bytes of a piece. -/
def Piece.bytes : Piece → Bytes
  | .text b => b
  | .tag b => b!"<" ++ b ++ b!">"
  | .cdata b => b!"<![CDATA[" ++ b ++ b!"]]>"

/-- What must remain of a piece: only text loses its white space. -/
def Piece.squeezed : Piece → Bytes
  | .text b => b.filter (fun c => !(c = c!" " || c = 9 || c = 10 || c = 13))
  | .tag b => b!"<" ++ b ++ b!">"
  | .cdata b => b!"<![CDATA[" ++ b ++ b!"]]>"

/-- A piece is what it claims to be. -/
def Piece.Ok : Piece → Prop
  | .text b => c!"<" ∉ b
  | .tag b => c!">" ∉ b ∧ ¬ b!"![CDATA[" <+: b
  | .cdata b => ¬ b!"]]>" <:+: b

/-- What follows the last piece: nothing, or a tag or CDATA section that is never closed. -/
inductive Tail where
  | none
  | tag (b : Bytes)
  | cdata (b : Bytes)

def Tail.bytes : Tail → Bytes
  | .none => []
  | .tag b => b!"<" ++ b
  | .cdata b => b!"<![CDATA[" ++ b

def Tail.Ok : Tail → Prop
  | .none => True
  | .tag b => c!">" ∉ b ∧ ¬ b!"![CDATA[" <+: b
  | .cdata b => ¬ b!"]]>" <:+: b

/-- `Pipeline mods r names out`: applying the named modifiers left to right to `r` gives `out`, stopping
at the first result that does not exist; an unknown name gives a non-existing result. -/
inductive Pipeline (mods : Bytes → Option (Result → Result)) : Result → List Bytes → Result → Prop
  | done (r : Result) : Pipeline mods r [] r
  | unknown (r : Result) (n : Bytes) (ns : List Bytes) : mods n = none → Pipeline mods r (n :: ns) .null
  | stop (r : Result) (n : Bytes) (ns : List Bytes) (m : Result → Result) : mods n = some m →
      (m r).exists? = false → Pipeline mods r (n :: ns) (m r)
  | next (r out : Result) (n : Bytes) (ns : List Bytes) (m : Result → Result) : mods n = some m →
      (m r).exists? = true → Pipeline mods (m r) ns out → Pipeline mods r (n :: ns) out

/-- Calls on the modifier registry. -/
inductive RegOp (M : Type) where
  | register (name : Bytes) (m : Option M)
  | unregister (name : Bytes)

/-- In the history `h`, `name` is left registered as `m`: `m` is the registration of `name` that comes first after the
last time `name` was unregistered. -/
def LeftRegistered {M : Type} (h : List (RegOp M)) (name : Bytes) (m : Option M) : Prop :=
  ∃ h1 h2, h = h1 ++ RegOp.register name m :: h2 ∧ (∀ op ∈ h2, op ≠ .unregister name) ∧
    ∀ k1 k2 m', h1 = k1 ++ RegOp.register name m' :: k2 → ∃ op ∈ k2, op = .unregister name

end Verif.Spec
