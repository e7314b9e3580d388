import Verif.Spec.Reading
import Verif.Spec.Ask
/- Vocabulary for comparing the documented path syntax with the code. -/
namespace Verif.Spec

/-- A step that leads from one element to at most one result: no modifiers, no wildcard, no filter for all matches. -/
def OneStep (part : Bytes) : Prop := c!"|" ∉ part ∧ part ≠ b!"*" ∧ part ≠ b!"**" ∧ ∀ expr, part ≠ filterPart expr true

/-- All steps are of this kind, and `#` is at most the last one. -/
def OneResult (ss : List Bytes) : Prop := (∀ p ∈ ss, OneStep p) ∧ b!"#" ∉ ss.dropLast

/-- The modifiers that work on lists (docs/path-syntax.md, Built-in Modifiers). -/
def listModifiers : List Bytes := [b!"reverse", b!"sort", b!"first", b!"last", b!"flatten"]


end Verif.Spec
