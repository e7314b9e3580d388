import Verif.Props.Condition
import Verif.Props.Errors
/- A bar inside a condition (C57, continued). -/
namespace Verif.Props
open Verif Verif.Spec

theorem parsePart_bar {part : Bytes} (h1 : b!"#(" <+: part) (h2 : ¬ b!")" <:+ beforeBar part) (h3 : ¬ b!")#" <:+ beforeBar part) : parsePart part = .skip := by
  have hne : part ≠ [] := by rintro rfl; simp at h1
  unfold parsePart
  rw [if_neg (by simpa using hne)]
  simp only [beforeBar_eq]
  rw [if_pos (by rw [hasPrefix, List.isPrefixOf_iff_prefix]; exact (prefix_beforeBar (by decide)).mp h1)]
  unfold parseFilterPart
  simp only
  rw [if_neg (by rw [hasSuffix, List.isSuffixOf_iff_suffix]; exact h3), if_neg (by rw [hasSuffix, List.isSuffixOf_iff_suffix]; exact h2)]

/-- C57: a filter with a bar in its condition, quoted or not, is ignored: the path finds what it finds without the filter. (What is before the bar must not itself end
like a filter.) -/
theorem C57_bar (env : Env) (xml : Bytes) (pre post : List Bytes) (hp : ∀ q ∈ pre, NoFilter q) (hl : pre.length + 1 + post.length ≤ 100) (hn : pre ++ post ≠ [[]])
    (x y : Bytes) (all : Bool) (hx : c!"|" ∉ x) (h2 : ¬ b!")" <:+ x) (h3 : ¬ b!")#" <:+ x) :
    get env xml (pathOf (pre ++ filterPart (x ++ c!"|" :: y) all :: post)) = get env xml (pathOf (pre ++ post)) := by
  have hpart : ∃ z, filterPart (x ++ c!"|" :: y) all = b!"#(" ++ x ++ c!"|" :: z := by
    cases all
    · exact ⟨y ++ b!")", by simp [filterPart]⟩
    · exact ⟨y ++ b!")#", by simp [filterPart]⟩
  obtain ⟨z, hz⟩ := hpart
  have hbb : beforeBar (b!"#(" ++ x ++ c!"|" :: z) = b!"#(" ++ x := by
    unfold beforeBar
    rw [List.takeWhile_append_of_pos (by intro c hc; rcases List.mem_append.mp hc with h | h; · simp only [List.mem_cons, List.not_mem_nil, or_false] at h; rcases h with rfl | rfl <;> decide
                                         · simp; rintro rfl; exact hx h)]
    simp
  have hs2 : ¬ b!")" <:+ b!"#(" ++ x := by
    intro h
    rcases x.eq_nil_or_concat with rfl | ⟨x', c, rfl⟩
    · revert h; decide
    rw [List.concat_eq_append] at *
    · obtain ⟨t, ht⟩ := h
      rw [← List.append_assoc] at ht
      have := (List.append_inj' ht rfl).2
      exact h2 ⟨x', by rw [this]⟩
  have hs3 : ¬ b!")#" <:+ b!"#(" ++ x := by
    intro h
    rcases x.eq_nil_or_concat with rfl | ⟨x', c, rfl⟩
    · revert h; decide
    rw [List.concat_eq_append] at *
    · rcases x'.eq_nil_or_concat with rfl | ⟨x'', d, rfl⟩
      · obtain ⟨t, ht⟩ := h
        have := (List.append_inj' (t₁ := b!")#") (t₂ := [c!"(", c]) (s₂ := b!"#") (by simpa using ht) rfl).2
        simp at this
      rw [List.concat_eq_append] at *
      · obtain ⟨t, ht⟩ := h
        have := (List.append_inj' (t₁ := b!")#") (t₂ := [d, c]) (s₂ := b!"#(" ++ x'') (by simpa using ht) rfl).2
        exact h3 ⟨x'', by rw [this]; simp⟩
  rw [hz]
  have hskip := parsePart_bar (part := b!"#(" ++ x ++ c!"|" :: z) ⟨x ++ c!"|" :: z, by simp⟩ (by rw [hbb]; exact hs2) (by rw [hbb]; exact hs3)
  have hne : b!"#(" ++ x ++ c!"|" :: z ≠ [] := by simp
  generalize b!"#(" ++ x ++ c!"|" :: z = part at hskip hne ⊢
  have e : parsePath (pathOf (pre ++ part :: post)) = parsePath (pathOf (pre ++ post)) ∨ (pre ++ post = [] ∧ parsePath (pathOf (pre ++ part :: post)) = .ok []) := by
    rw [parsePath_with hne hl, (parseParts_at hp _ post).2.2 hskip]
    by_cases h0 : pre ++ post = []
    · right; rw [h0]; exact ⟨rfl, rfl⟩
    · left
      have h3 := splitPath_pathOf _ hn
      have h4 : pathOf (pre ++ post) ≠ [] := by intro h4; rw [h4] at h3; exact h0 (h3.symm.trans (by simp [splitPath]))
      unfold parsePath parsePathInternal
      rw [if_neg (by simpa using h4), h3, if_neg (by simp [maxPathSegments]; omega)]
      rfl
  rcases e with e | ⟨h0, e⟩
  · unfold get; rw [e]
  · unfold get; rw [e, h0]; rfl

/-- C57: so a filter for the text `a|b` finds what it should not. -/
theorem C57_bar_witness : get exEnv b!"<r><i><n>x</n></i><i><n>a|b</n></i></r>" b!"r.i.#(n=='a|b').n" = .ret (.ofContent b!"x") ∧
    get exEnv b!"<r><i><n>x</n></i><i><n>ab</n></i></r>" b!"r.i.#(n=='ab').n" = .ret (.ofContent b!"ab") := by decide +kernel

/-- The same by the theorem, in any document. -/
example (env : Env) (xml : Bytes) : get env xml b!"r.i.#(n=='a|b')#.n" = get env xml b!"r.i.n" :=
  C57_bar env xml [b!"r", b!"i"] [b!"n"] (by simp [NoFilter]) (by simp) (by simp) b!"n=='a" b!"b'" true (by simp) (by simp [List.suffix_cons_iff]) (by simp [List.suffix_cons_iff])

end Verif.Props
