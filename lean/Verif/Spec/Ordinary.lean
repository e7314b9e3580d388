import Verif.Spec.Query
import Verif.Spec.Place
import Verif.Spec.Edit
/- Documents without anything unusual, told by their bytes. -/
namespace Verif.Spec

/-- No tag has begun: each `<` is followed by `?` or `!`. -/
def Early (a : Bytes) : Prop := ∀ p c q, a = p ++ c!"<" :: c :: q → c = c!"?" ∨ c = c!"!"

/-- Processing instructions and DOCTYPE come before the first tag, comments, CDATA sections and other declarations contain no `<`, and no attribute value, closing tag or
processing instruction is very long. -/
structure Ordinary (xml : Bytes) : Prop where
  quoted : ∀ q b, (q = c!"\"" ∨ q = c!"'") → q ∉ b → [q] ++ b ++ [q] <:+: xml → b.length ≤ 174762
  closing : ∀ b, c!">" ∉ b → b!"</" ++ b ++ b!">" <:+: xml → b.length ≤ 1048576
  pi : ∀ a b, xml = a ++ b!"<?" ++ b → Early a
  piLen : ∀ b, c!">" ∉ b → b!"<?" ++ b ++ b!">" <:+: xml → b.length + 2 ≤ 1048576
  doctype : ∀ a b, xml = a ++ b!"<!DOCTYPE" ++ b ∨ xml = a ++ b!"<!doctype" ++ b → Early a
  comment : ∀ b, ¬ b!"--" <:+: b ++ b!"-" → b!"<!--" ++ b ++ b!"-->" <:+: xml → c!"<" ∉ b ∧ ¬ b!">" <+: b ∧ ¬ b!"->" <+: b
  cdata : ∀ b, ¬ b!"]]>" <:+: b → b!"<![CDATA[" ++ b ++ b!"]]>" <:+: xml → c!"<" ∉ b
  decl : ∀ b, c!">" ∉ b → ¬ b!"DOCTYPE" <+: b → ¬ b!"doctype" <+: b → ¬ b!"--" <+: b → ¬ b!"[CDATA[" <+: b → b!"<!" ++ b ++ b!">" <:+: xml → c!"<" ∉ b ∧ ¬ DoctypeLike b

/-- One blank before each attribute and no other white space in tags; attribute values without special characters; no attribute twice. (Text that looks like such is not allowed either.) -/
structure NeatTags (xml : Bytes) : Prop where
  before : ∀ w, IsWs w → ¬ [w, c!"="] <:+: xml
  behind : ∀ w, IsWs w → ¬ [c!"=", w] <:+: xml
  close : ∀ w, IsWs w → ¬ [w, c!">"] <:+: xml ∧ ¬ [w, c!"/", c!">"] <:+: xml
  single : ∀ v w n, IsWs v → IsWs w → IsName n → ¬ [v, w] ++ n ++ b!"=" <:+: xml
  apart : ∀ q n, (q = c!"\"" ∨ q = c!"'") → IsName n → ¬ [q] ++ n ++ b!"=" <:+: xml
  value : ∀ q b, (q = c!"\"" ∨ q = c!"'") → q ∉ b → b!"=" ++ [q] ++ b ++ [q] <:+: xml → ∀ c ∈ b, c ≠ c!"<" ∧ c ≠ c!">" ∧ c ≠ c!"&" ∧ c ≠ c!"\"" ∧ c ≠ c!"'"
  once : ∀ v w n x, IsWs v → IsWs w → IsName n → c!"<" ∉ x → ¬ [v] ++ n ++ b!"=" ++ x ++ [w] ++ n ++ b!"=" <:+: xml

end Verif.Spec
