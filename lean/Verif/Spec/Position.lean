import Verif.Model.Bytes
/- Lines and columns of a text, independent of the code. -/
namespace Verif.Spec

/-- The part of `pre` after its last newline. -/
def lastLine (pre : Bytes) : Bytes := (pre.reverse.takeWhile (· ≠ 10)).reverse

/-- `(line, col)` is the position of some offset of `xml`: `line` is one plus the number of newlines before
the offset, `col` the number of bytes between the preceding newline (or the start) and the offset. -/
def IsPosition (xml : Bytes) (line col : Nat) : Prop :=
  ∃ pre suf, xml = pre ++ suf ∧ line = 1 + pre.count 10 ∧ col = (lastLine pre).length

end Verif.Spec
