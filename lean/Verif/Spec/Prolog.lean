import Verif.Spec.Tree
/- What may stand in front of a document without being part of its content. -/
namespace Verif.Spec

/-- One item of a prolog: white space (or a byte order mark, or any text), a comment up to its first `-->`, a processing instruction, or a
document type declaration in any case, with an internal subset in square brackets. -/
inductive PrologItem : Bytes → Prop
  | text (b : Bytes) : c!"<" ∉ b → PrologItem b
  | comment (b : Bytes) : ¬ b!"-->" <:+: b!"--" ++ b ++ b!"--" → PrologItem (b!"<!--" ++ b ++ b!"-->")
  | pi (b : Bytes) : c!">" ∉ b → b.length + 2 ≤ 1048576 → PrologItem (b!"<?" ++ b ++ b!">")
  | doctype (b : Bytes) : DoctypeLike b → brackets b = 0 → (∀ p, p ++ b!">" <+: b → brackets p ≠ 0) → PrologItem (b!"<!" ++ b ++ b!">")

/-- A sequence of such items. -/
inductive Prolog : Bytes → Prop
  | nil : Prolog []
  | cons {a b : Bytes} : PrologItem a → Prolog b → Prolog (a ++ b)

end Verif.Spec
