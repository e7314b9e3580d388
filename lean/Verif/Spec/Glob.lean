import Verif.Model.Bytes
/- Language of glob patterns over runes, independently of the table algorithm. -/
namespace Verif.Spec

/-- What one position of a pattern admits. -/
inductive Tok where
  | star | any | lit (r : Nat)
deriving DecidableEq, Repr

/-- Reading of a pattern: backslash makes the next rune literal (a trailing backslash is itself),
`*` and `?` are wildcards, everything else is literal. -/
def tokens : List Nat → List Tok
  | [] => []
  | [c] => [if c = 42 then .star else if c = 63 then .any else .lit c]
  | c :: d :: r =>
    if c = 92 then .lit d :: tokens r
    else (if c = 42 then .star else if c = 63 then .any else .lit c) :: tokens (d :: r)

/-- The strings a position stands for. -/
def Tok.Admits : Tok → List Nat → Prop
  | .star, _ => True
  | .any, u => u.length = 1
  | .lit r, u => u = [r]

/-- One admitted piece per position. -/
inductive Fits : List Tok → List (List Nat) → Prop
  | nil : Fits [] []
  | cons {t ts u us} : t.Admits u → Fits ts us → Fits (t :: ts) (u :: us)

/-- `s` is in the language of `ts`: it can be cut into consecutive pieces, one per position, each admitted. -/
def InLang (ts : List Tok) (s : List Nat) : Prop :=
  ∃ pieces : List (List Nat), Fits ts pieces ∧ pieces.flatten = s

end Verif.Spec
