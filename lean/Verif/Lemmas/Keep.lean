import Verif.Lemmas.Trail
import Verif.Lemmas.Attr
import Verif.Lemmas.AttrOpt
/- What Delete leaves is again a document of the same kind, or has no element. -/
namespace Verif
open Spec

theorem loopR_bare (g : Forest) : ∀ n, g.Legal 0 → ¬ g.HasElem → loopR n (vst [] false g.render) = false := by
  induction g with
  | nil =>
    intro n _ _
    cases n with
    | zero => rfl
    | succ n => rfl
  | text t next ih =>
    intro n hl hn
    have := ih n hl.2.2 hn
    cases n with
    | zero => rfl
    | succ n =>
      unfold loopR at this ⊢
      rw [show (vst [] false (Forest.text t next).render).rest = t ++ next.render from rfl, skipWs_ws (hl.2.1 rfl)]
      exact this
  | misc m next ih =>
    intro n hl hn
    cases n with
    | zero => rfl
    | succ n =>
      have hs : GStep [] false (m.render ++ next.render) [] false next.render := .misc hl.1
      have hne := hs.nonempty
      show loopR (n + 1) (vst [] false (m.render ++ next.render)) = false
      have hc : ∃ cs, m.render = c!"<" :: cs := by cases m <;> first | exact ⟨_, rfl⟩ | exact absurd hl.1 (by simp [Misc.Legal])
      obtain ⟨cs, hc⟩ := hc
      rw [hc] at hs ⊢
      unfold loopR
      rw [show (vst [] false (c!"<" :: cs ++ next.render)).rest = c!"<" :: (cs ++ next.render) from rfl, skipWs_cons lt_not_ws]
      simp only
      rw [show ({vst [] false (c!"<" :: cs ++ next.render) with rest := c!"<" :: (cs ++ next.render)} : RSt) = vst [] false (c!"<" :: (cs ++ next.render)) from rfl,
        show stepR c!"<" (cs ++ next.render) (vst [] false (c!"<" :: (cs ++ next.render))) = some (vst [] false next.render) from stepR_of hs]
      exact ih n hl.2 hn
  | leaf => intro n _ hn; exact absurd trivial hn
  | node => intro n _ hn; exact absurd trivial hn

/-- Without an element a document is not valid. -/
theorem bare_invalid {g : Forest} (h : g.Legal 0) (hn : ¬ g.HasElem) : valid g.render = false := by
  unfold valid validate
  split
  · rfl
  · split
    · rfl
    · rw [validateLoop_pure, show (VState.pure ⟨⟨g.render, 1, 0⟩, [], false, false⟩) = vst [] false g.render from rfl]
      exact loopR_bare g _ h hn

theorem attrVal_mem {as : List Attr} {k v : Bytes} (h : attrVal as k = some v) : ∃ a ∈ as, a.name = k ∧ unescapeXML a.raw = v := by
  unfold attrVal at h
  rw [Option.map_eq_some_iff] at h
  obtain ⟨a, h1, h2⟩ := h
  have := List.mem_of_getLast? h1
  simp only [List.mem_filter, decide_eq_true_eq] at this
  exact ⟨a, this.1, this.2, h2⟩

theorem attrVal_nodup {as : List Attr} (h : (as.map (·.name)).Nodup) {a : Attr} (ha : a ∈ as) : attrVal as a.name = some (unescapeXML a.raw) := by
  unfold attrVal
  have : as.filter (fun x => x.name = a.name) = [a] := by
    induction as with
    | nil => cases ha
    | cons x l ih =>
      simp only [List.map_cons, List.nodup_cons] at h
      rcases List.mem_cons.mp ha with rfl | ha
      · rw [List.filter_cons, if_pos (by simp)]
        congr 1
        rw [List.filter_eq_nil_iff]
        intro y hy
        simp only [decide_eq_true_eq]
        intro e
        exact h.1 (List.mem_map.mpr ⟨y, hy, e⟩)
      · have hx : x.name ≠ a.name := fun e => h.1 (e ▸ List.mem_map.mpr ⟨a, ha, rfl⟩)
        rw [List.filter_cons, if_neg (by simp [hx])]
        exact ih h.2 ha
  rw [this]; rfl

theorem nodup_length {α : Type} [DecidableEq α] {l m : List α} (h : l.Nodup) (hs : ∀ x ∈ l, x ∈ m) : l.length ≤ m.length := by
  induction l generalizing m with
  | nil => simp
  | cons x l ih =>
    rw [List.nodup_cons] at h
    have := ih (m := m.erase x) h.2 (fun y hy => (List.mem_erase_of_ne (fun e => h.1 (by rw [← e]; exact hy))).mpr (hs y (List.mem_cons_of_mem _ hy)))
    have hx := hs x List.mem_cons_self
    rw [List.length_erase_of_mem hx] at this
    have := List.length_pos_of_mem hx
    simp only [List.length_cons]; omega

/-- The tag that is left when an attribute is deleted. -/
theorem retag_less {cs : Bool} {e : El} {k : Bytes} {as : List Attr} (h : RetagBy cs e k none as) (hl : AttrsLegal e.attrs) (hf : AttrsFit e.attrs) : AttrsLegal as ∧ AttrsFit as := by
  have key : ∀ a ∈ as, ∃ b ∈ e.attrs, b.name = a.name ∧ unescapeXML b.raw = unescapeXML a.raw := by
    intro a ha
    have hv := attrVal_nodup h.neat.2 ha
    by_cases hk : sameKey cs a.name k
    · exfalso
      by_cases h1 : attrVal e.attrs a.name = none
      · by_cases h2 : ∃ j', sameKey cs j' k ∧ attrVal e.attrs j' ≠ none
        · rw [h.no _ hk h2 h1] at hv; cases hv
        · have := h.new (fun j hj => Classical.byContradiction fun hh => h2 ⟨j, hj, hh⟩) _ hk
          rw [this] at hv; split at hv <;> cases hv
      · rw [h.this _ hk h1] at hv; cases hv
    · rw [h.others _ hk] at hv
      obtain ⟨b, h1, h2, h3⟩ := attrVal_mem hv
      exact ⟨b, h1, h2, h3⟩
  have hfit : AttrsFit as := by
    intro a ha
    obtain ⟨b, h1, -, h3⟩ := key a ha
    rw [← h3]; exact hf b h1
  refine ⟨⟨?_, ?_, ?_⟩, hfit⟩
  · have : as.length ≤ e.attrs.length := by
      have h1 : (as.map (·.name)).length ≤ (e.attrs.map (·.name)).length := by
        refine nodup_length h.neat.2 ?_
        intro x hx
        obtain ⟨a, ha, rfl⟩ := List.mem_map.mp hx
        obtain ⟨b, h1, h2, -⟩ := key a ha
        exact List.mem_map.mpr ⟨b, h1, h2⟩
      simpa using h1
    have := hl.1; omega
  · intro a ha
    obtain ⟨n1, n2, n3, n4, v, n5⟩ := h.neat.1 a ha
    obtain ⟨b, h1, h2, h3⟩ := key a ha
    have hfa := hfit a ha
    rw [n5, unescape_escape] at hfa
    refine ⟨by rw [n1]; decide +kernel, h2 ▸ (hl.2.1 b h1).2.1, by simp [n2], by simp [n3], .inl n4, ?_, by rw [n5]; exact hfa⟩
    rw [n4, n5]
    intro hq
    have := escapeXML_mem hq
    simp at this
  · intro a ha
    rw [(h.neat.1 a (List.mem_of_head? ha)).1]; decide

end Verif
