import Verif.Model.GoLib
/- Model of /repo/internal/pattern/match.go. -/
namespace Verif

/-- A pattern rune with its "escaped" flag (match.go:114-132 keeps two parallel slices). -/
structure PChar where
  rune : Nat
  escaped : Bool
deriving DecidableEq, Repr

/-- match.go:83 `pChar == '*' && !escaped` -/
def PChar.isStar (c : PChar) : Bool := c.rune == 42 && !c.escaped
/-- match.go:88 `pChar == '?' && !escaped` -/
def PChar.isQuery (c : PChar) : Bool := c.rune == 63 && !c.escaped

/-- match.go:114-132 processEscapes -/
def processEscapes : List Nat → List PChar
  | [] => []
  | [c] => [⟨c, false⟩]
  | c :: d :: r => if c = 92 then ⟨d, true⟩ :: processEscapes r else ⟨c, false⟩ :: processEscapes (d :: r)

/-- match.go:59-67: row 0 from column 1 on; `left` is `dp[0][j-1]`. -/
def dpRow0 (left : Bool) : List PChar → List Bool
  | [] => []
  | c :: cs => (c.isStar && left) :: dpRow0 (c.isStar && left) cs

/-- match.go:83-95: value of a cell from its left, diagonal and upper neighbours. -/
def dpCell (c : PChar) (ch : Nat) (left diag up : Bool) : Bool :=
  if c.isStar then left || up
  else if c.isQuery then diag
  else if c.rune = ch then diag
  else false

/-- match.go:73-96: columns 1.. of one row. `above` is row i-1 from column j-1 on, `left` is
`dp[i][j-1]`, `it` the iteration counter. `none` is the "stopped" exit. The Go code indexes a
two-dimensional slice; here the rows are walked as lists. -/
def dpRow (max : Int) (ch : Nat) (it : Nat) (left : Bool) : List PChar → List Bool → Option (List Bool × Nat)
  | c :: cs, diag :: up :: above =>
    if (it : Int) + 1 > max then none
    else
      match dpRow max ch (it + 1) (dpCell c ch left diag up) cs (up :: above) with
      | none => none
      | some (row, it') => some (dpCell c ch left diag up :: row, it')
  | _, _ => some ([], it)

/-- match.go:72-97: rows 1..sLen. -/
def dpRows (max : Int) (p : List PChar) (it : Nat) (above : List Bool) : List Nat → Option (List Bool)
  | [] => some above
  | ch :: s =>
    match dpRow max ch it false p above with
    | none => none
    | some (row, it') => dpRows max p it' (false :: row) s

/-- match.go:41-100 Match: (matched, stopped). -/
def patternMatch (str pat : Bytes) (max : Int) : Bool × Bool :=
  let p := processEscapes (runes pat)
  match dpRows max p 0 (true :: dpRow0 true p) (runes str) with
  | none => (false, true)
  | some row => (row.getLastD false, false)

end Verif
