import Verif.Model.Bytes
/- What "escaped text" means, independently of how the code escapes. -/
namespace Verif.Spec

/-- The five predefined entities, without the leading `&`. -/
def entities : List Bytes := [b!"lt;", b!"gt;", b!"amp;", b!"quot;", b!"apos;"]

/-- Text that cannot open or close markup or an attribute value: no `<`, `>`, quotes, and every `&`
starts one of the five predefined entities. -/
structure Inert (s : Bytes) : Prop where
  noLt : c!"<" ∉ s
  noGt : c!">" ∉ s
  noQuot : c!"\"" ∉ s
  noApos : c!"'" ∉ s
  amp : ∀ pre suf, s = pre ++ c!"&" :: suf → ∃ e ∈ entities, e <+: suf

/-- `Decodes s t`: reading `s` left to right, replacing each predefined entity by the character it
stands for and keeping every other byte, gives `t`. An `&` that starts no entity is kept. -/
inductive Decodes : Bytes → Bytes → Prop
  | nil : Decodes [] []
  | lt {s t} : Decodes s t → Decodes (b!"&lt;" ++ s) (c!"<" :: t)
  | gt {s t} : Decodes s t → Decodes (b!"&gt;" ++ s) (c!">" :: t)
  | amp {s t} : Decodes s t → Decodes (b!"&amp;" ++ s) (c!"&" :: t)
  | quot {s t} : Decodes s t → Decodes (b!"&quot;" ++ s) (c!"\"" :: t)
  | apos {s t} : Decodes s t → Decodes (b!"&apos;" ++ s) (c!"'" :: t)
  | char {s t} (c : UInt8) : c ≠ c!"&" → Decodes s t → Decodes (c :: s) (c :: t)
  | bareAmp {s t} : (∀ e ∈ entities, ¬ e <+: s) → Decodes s t → Decodes (c!"&" :: s) (c!"&" :: t)

end Verif.Spec
