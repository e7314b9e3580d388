import Verif.Lemmas.Escape
/- C01: escaping is lossless and inert. -/
namespace Verif.Props

/-- C01: what is stored for a string is inert text. -/
theorem C01_escape_inert (s : Bytes) : Spec.Inert (escapeXML s) where
  noLt := fun h => (escapeXML_mem h).1 rfl
  noGt := fun h => (escapeXML_mem h).2.1 rfl
  noQuot := fun h => (escapeXML_mem h).2.2.1 rfl
  noApos := fun h => (escapeXML_mem h).2.2.2 rfl
  amp := fun pre suf h => escapeXML_amp s pre suf h

/-- C01: reading back gives exactly the original string. -/
theorem C01_unescape_escape (s : Bytes) : unescapeXML (escapeXML s) = s := unescape_escape s

/-- C01: reading back is entity decoding, and nothing else: on every byte string, stored by this
library or not. -/
theorem C01_unescape_decodes (s t : Bytes) : unescapeXML s = t ↔ Spec.Decodes s t :=
  ⟨fun h => h ▸ decodes_unescape s, unescape_of_decodes⟩

/-- C01: hence the stored text decodes to the original string. -/
theorem C01_escape_decodes (s : Bytes) : Spec.Decodes (escapeXML s) s :=
  (C01_unescape_decodes _ _).mp (unescape_escape s)

/-- A string with markup, a complete entity and partial entities. -/
example : escapeXML b!"<a b='c'>&lt;&am" = b!"&lt;a b=&apos;c&apos;&gt;&amp;lt;&amp;am" := by decide
example : unescapeXML b!"&lt;a b=&apos;c&apos;&gt;&amp;lt;&amp;am" = b!"<a b='c'>&lt;&am" := by
  decide +kernel
/-- Reading is one pass: the output is not decoded again. -/
example : unescapeXML b!"&amp;lt;" = b!"&lt;" := by decide +kernel

end Verif.Props
