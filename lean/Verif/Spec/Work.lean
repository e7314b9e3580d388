import Verif.Spec.Path
import Verif.Spec.Tree
/-
A document and a path for which a search below a search below a search … is much work.
-/
namespace Verif.Spec

/-- In how many ways `k` of `n` things can be chosen. -/
def choose : Nat → Nat → Nat
  | _, 0 => 1
  | 0, _ + 1 => 0
  | n + 1, k + 1 => choose n (k + 1) + choose n k

/-- `n` elements `a` inside each other: `<a><a>…</a></a>`. -/
def nested : Nat → Forest
  | 0 => .nil
  | n + 1 => .node b!"a" [] [] (nested n) [] .nil

/-- The parts of the path `**.a.**.a. … .z` with `k` times `**`. -/
def digging : Nat → List Bytes
  | 0 => [b!"z"]
  | k + 1 => b!"**" :: b!"a" :: digging k

/-- How many bytes of a path are `*` or `(`. -/
def marks (path : Bytes) : Nat := path.countP (fun c => c = c!"*" || c = c!"(")

/-- A text inside `n` elements `a`: `<a><a>…x…</a></a>`. -/
def buried (n : Nat) (t : Bytes) : Forest :=
  match n with
  | 0 => .text t .nil
  | n + 1 => .node b!"a" [] [] (buried n t) [] .nil

/-- A path that is a filter in a filter in a filter …: `#(#(a))`. -/
def tested : Nat → Bytes
  | 0 => b!"a"
  | k + 1 => b!"#(" ++ tested k ++ b!")"

end Verif.Spec
