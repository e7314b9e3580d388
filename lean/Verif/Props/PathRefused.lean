import Verif.Props.Entry
/- C15 for every entry point: Get with options, Set on the empty document, Delete, SetRaw. -/
namespace Verif

/-- Too many parts, or nothing but dots. -/
def Refused (path : Bytes) : Prop := 100 ≤ Spec.unescapedDots path ∨ ∃ n, path = List.replicate n c!"."

theorem refused_parse {path : Bytes} (h : Refused path) : parsePath path = .err ∨ parsePath path = .ok [] := by
  rcases h with h | ⟨n, rfl⟩
  · exact .inl (parsePath_too_long path h)
  · exact parsePath_dots n

end Verif

namespace Verif.Props
open Spec

/-- C15: Get with any options finds nothing. -/
theorem C15_get_options (env : Env) (xml path : Bytes) (opts : Option Options) (h : Refused path) : getWithOptions env xml path opts = .ret .null := by
  unfold getWithOptions parsePathWithOptions
  split
  · rfl
  · split
    · rcases refused_parse h with h | h <;> rw [h]
    · rcases refused_parse h with h | h <;> rw [h]
      cases (opts.getD defaultOptions).caseSensitive <;> rfl

/-- C15: nor does any of the paths of GetMany that is refused; the others are not affected. -/
theorem C15_get_many (env : Env) (xml : Bytes) (paths : List Bytes) (rs : List Result) (hr : getMany env xml paths = .ret rs) (i : Nat) (path : Bytes) (hp : paths[i]? = some path) (h : Refused path) :
    rs[i]? = some .null := by
  have h0 := congrArg (·[i]?) ((C43_getMany env xml paths rs).mp hr)
  simp only [List.getElem?_map, hp, Option.map_some] at h0
  have hg : get env xml path = .ret .null := by
    unfold get
    split
    · rfl
    · rcases refused_parse h with h | h <;> rw [h]
  rw [hg] at h0
  cases hi : rs[i]? with
  | none => rw [hi] at h0; simp at h0
  | some r => rw [hi] at h0; simp at h0; rw [← h0]

/-- C15: Delete with any options refuses it. -/
theorem C15_delete (o : Ord) (xml path : Bytes) (opts : Option Options) (h : Refused path) (hx : xml.length ≤ 10485760) (hv : valid xml = true) :
    deleteWithOptions o xml path opts = .ret (xml, some .invalidPath) := by
  have hd : maxDocumentSize = 10485760 := rfl
  unfold deleteWithOptions parsePathWithOptions
  rcases refused_parse h with h | h <;> rw [h] <;> simp [hv, hd, Nat.not_lt.mpr hx]

/-- C15: so does Set of a value on the empty document. -/
theorem C15_set_empty (o : Ord) (path : Bytes) (v : GoVal) (hv : v ≠ .nil) (opts : Option Options) (h : Refused path) : setWithOptions o [] path v opts = .ret ([], some .invalidPath) := by
  unfold setWithOptions parsePathWithOptions
  rcases refused_parse h with h | h <;> rw [h] <;> simp [hv, maxDocumentSize]

/-- C15: and SetRaw of content it accepts. -/
theorem C15_raw (o : Ord) (xml path raw : Bytes) (h : Refused path) (hx : xml.length ≤ 10485760) (hv : xml = [] ∨ valid xml = true) (hr : validateRawXML raw = true) :
    setRaw o xml path raw = .ret (xml, some .invalidPath) := by
  have hd : maxDocumentSize = 10485760 := rfl
  unfold setRaw
  rw [if_pos hr]
  unfold set
  rcases hv with rfl | hv
  · exact C15_set_empty o path _ (by simp) _ h
  · unfold setWithOptions parsePathWithOptions
    rcases refused_parse h with h | h <;> rw [h] <;> simp [hv, hd, Nat.not_lt.mpr hx]

/-- C15: 100 parts are accepted, 101 are not. -/
theorem C15_sharp : parsePath (b!"a" ++ (List.replicate 99 b!".a").flatten) = .ok (List.replicate 100 ⟨.elem b!"a", []⟩) ∧ Refused (b!"a" ++ (List.replicate 100 b!".a").flatten) :=
  ⟨by decide +kernel, .inl (by decide +kernel)⟩

example : Refused b!"..." := .inr ⟨3, rfl⟩
example : ¬ Refused b!"a." := by
  rintro (h | ⟨n, h⟩)
  · revert h; decide
  · have : c!"a" ∈ List.replicate n c!"." := by rw [← h]; decide
    simp at this
example : validateRawXML b!"<a/>" = true := by decide +kernel

end Verif.Props
