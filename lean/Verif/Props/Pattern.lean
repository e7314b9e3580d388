import Verif.Lemmas.Pattern
/- C13: pattern matching implements glob semantics within its budget. -/
namespace Verif.Props
open Spec

/-- C13: Match stops early exactly when the table would need more cells than the budget allows. -/
theorem C13_stopped (str pat : Bytes) (max : Int) :
    (patternMatch str pat max).2 = true ↔
      0 < (tokens (runes pat)).length * (runes str).length ∧
      (((tokens (runes pat)).length * (runes str).length : Nat) : Int) > max :=
  (patternMatch_spec str pat max).1

/-- C13: otherwise `matched` is membership in the language of the pattern. -/
theorem C13_matched (str pat : Bytes) (max : Int) (h : (patternMatch str pat max).2 = false) :
    (patternMatch str pat max).1 = true ↔ InLang (tokens (runes pat)) (runes str) :=
  (patternMatch_spec str pat max).2.1 h

/-- C13: a stopped match never reports success. -/
theorem C13_stopped_not_matched (str pat : Bytes) (max : Int) (h : (patternMatch str pat max).2 = true) :
    (patternMatch str pat max).1 = false :=
  (patternMatch_spec str pat max).2.2 h

/-- Matching, non-matching and stopped instances. -/
example : patternMatch b!"file*.txt" b!"f*\\*.t?t" 10000 = (true, false) := by decide +kernel
example : patternMatch b!"file.txt" b!"f*\\*.t?t" 10000 = (false, false) := by decide +kernel
example : patternMatch b!"aaaaaaaaaa" b!"*a*a*a" 30 = (false, true) := by decide +kernel

end Verif.Props
