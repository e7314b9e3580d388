import Verif.Lemmas.Shape
import Verif.Lemmas.Options
import Verif.Lemmas.Text
import Verif.Lemmas.Fluent
import Verif.Spec.Modifier
import Verif.Model.Modifier
/- The shape of answers, continued: paths without modifiers, texts, well-formed contents, built-in modifiers. -/
namespace Verif
open Spec

/-! ## Paths without `|` name no modifiers -/

theorem splitPathAux_without (e : Bool) (s : Bytes) (x : UInt8) (h : x ∉ s) : x ∉ (splitPathAux e s).1 ∧ ∀ p ∈ (splitPathAux e s).2, x ∉ p := by
  induction s generalizing e with
  | nil => simp [splitPathAux]
  | cons c cs ih =>
    simp only [List.mem_cons, not_or] at h
    have ih := fun e => ih e h.2
    simp only [splitPathAux]
    split
    · exact ⟨by simp only [List.mem_cons, not_or]; exact ⟨h.1, (ih _).1⟩, (ih _).2⟩
    · split
      · exact ih _
      · split
        · refine ⟨by simp, ?_⟩
          intro p hp
          rcases List.mem_cons.mp hp with rfl | hp
          · exact (ih _).1
          · exact (ih _).2 p hp
        · exact ⟨by simp only [List.mem_cons, not_or]; exact ⟨h.1, (ih _).1⟩, (ih _).2⟩

theorem parsePath_nobar {path : Bytes} (h : c!"|" ∉ path) {ss : List Seg} (hs : parsePath path = .ok ss) : ∀ s ∈ ss, s.mods = [] := by
  unfold parsePath at hs
  split at hs
  · simp at hs
  · rename_i hne
    have hp : ∀ p ∈ splitPath path, c!"|" ∉ p := by
      have := splitPathAux_without false path _ h
      rw [splitPath, if_neg hne]
      intro p hp
      rcases List.mem_cons.mp hp with rfl | hp
      · exact this.1
      · exact this.2 p hp
    unfold parsePathInternal at hs
    split at hs
    · simp at hs
    · cases hq : parseParts (splitPath path) with
      | panic => rw [hq] at hs; simp at hs
      | err => rw [hq] at hs; simp at hs
      | ok ss0 =>
        rw [hq] at hs
        simp only [Parse.ok.injEq] at hs
        subst hs
        have h0 := parseParts_forall (P := fun s => s.mods = []) (fun p h' s hs => (parsePart_nobar (hp p h') hs).1) hq
        exact fuseFields_forall h0 fun s _ _ t ht f => h0 t ht

theorem lowerSeg_mods (s : Seg) : (lowerSeg s).mods = s.mods := by
  unfold lowerSeg; repeat' split
  all_goals rfl

theorem parsePathWithOptions_nobar {path : Bytes} (h : c!"|" ∉ path) {cs : Bool} {ss : List Seg} (hs : parsePathWithOptions path cs = .ok ss) : ∀ s ∈ ss, s.mods = [] := by
  unfold parsePathWithOptions at hs
  split at hs
  · rename_i hq
    split at hs
    · simp only [Parse.ok.injEq] at hs; subst hs; exact parsePath_nobar h hq
    · simp only [Parse.ok.injEq] at hs; subst hs
      intro s hs
      obtain ⟨t, ht, rfl⟩ := List.mem_map.mp hs
      rw [lowerSeg_mods]; exact parsePath_nobar h hq t ht
  · simp at hs
  · simp at hs

/-! ## Texts -/

theorem stripTags_open {w : Bytes} (h : c!">" ∉ w) : stripTags true w = [] := by
  induction w with
  | nil => rfl
  | cons c cs ih =>
    simp only [List.mem_cons, not_or] at h
    have := ih h.2
    simp only [stripTags, this, if_neg (Ne.symm h.1)]
    simp

theorem mem_cut {x : UInt8} {s : Bytes} (h : x ∈ s) : ∃ w r, s = w ++ x :: r ∧ x ∉ w := by
  induction s with
  | nil => simp at h
  | cons c cs ih =>
    by_cases hc : x = c
    · subst hc; exact ⟨[], cs, rfl, by simp⟩
    · obtain ⟨w, r, rfl, hw⟩ := ih (by simpa [hc] using h)
      exact ⟨c :: w, r, rfl, by simp [hc, hw]⟩

theorem textOf_stripTags (n : Nat) (raw : Bytes) (hn : raw.length ≤ n) : TextOf raw (stripTags false raw) := by
  induction n generalizing raw with
  | zero => obtain rfl := List.length_eq_zero_iff.mp (Nat.le_zero.mp hn); exact .nil
  | succ n ih =>
    cases raw with
    | nil => exact .nil
    | cons c cs =>
      simp only [List.length_cons] at hn
      by_cases h1 : c = c!"<"
      · subst h1
        by_cases h2 : c!">" ∈ cs
        · obtain ⟨w, r, rfl, hw⟩ := mem_cut h2
          rw [stripTags_markup hw]
          have := TextOf.tag hw (ih r (by simp at hn; omega))
          simpa using this
        · have e : stripTags false (c!"<" :: cs) = [] := by rw [stripTags, if_pos rfl, stripTags_open h2]
          rw [e]; exact .open h2
      · by_cases h2 : c = c!">"
        · subst h2
          have e : stripTags false (c!">" :: cs) = stripTags false cs := by simp [stripTags]
          rw [e]; exact .gt (ih cs (by omega))
        · have e : stripTags false (c :: cs) = c :: stripTags false cs := by simp [stripTags, h1, h2]
          rw [e]; exact .byte h1 h2 (ih cs (by omega))

theorem text_content (c : Bytes) : Text c (unescapeXML (extractTextContent c)) := ⟨_, textOf_stripTags _ c (Nat.le_refl _), rfl⟩

/-! ## Well-formed contents -/

/-- Well-formed content as the parser writes it. -/
def CanonContent (c : Bytes) : Prop := ∃ g : Forest, CanonF g ∧ g.Legal 1 ∧ g.Tame false ∧ g.render = c

theorem topElems_legal {o : Ord} (ho : o.IsPerm) {f : Forest} {d : Nat} {top : Bool} (hl : f.Legal d) (ht : f.Tame top) : ∀ e ∈ topElems o f.render, CanonContent e.content := by
  induction f with
  | nil => rw [Forest.render, topElems_empty]; simp
  | text b next ih =>
    obtain ⟨hb, -, hl⟩ := hl
    rw [Forest.render, topElems_skip (skipToNext_text hb _)]
    exact ih hl ht
  | misc m next ih =>
    obtain ⟨hm, hl⟩ := hl
    obtain ⟨hi, ht⟩ := ht
    have hout : m.Outer := by
      cases top
      · exact Misc.inner_outer (by simpa using hi)
      · simpa using hi
    rw [Forest.render, topElems_skip (skipToNext_outer hm hout _)]
    exact ih hl ht
  | leaf n as ws next ih =>
    have hlo := Forest.Legal.loose hl
    obtain ⟨hn, ha, hws, -⟩ := hlo
    obtain ⟨-, ht⟩ := ht
    have e : (Forest.leaf n as ws next).render = openTag n as ws ++ c!"/" :: c!">" :: next.render := by simp [Forest.render]
    rw [e, topElems_some (skipToNext_open hn as ws _), elemAt_self hn ha hws]
    intro x hx
    rcases List.mem_cons.mp hx with rfl | hx
    · exact ⟨.nil, trivial, trivial, trivial, rfl⟩
    · exact ih hl.2.2.2.2 ht x hx
  | node n as ws kids cws next ihk ihn =>
    have hlo := Forest.Legal.loose hl
    obtain ⟨hn, ha, hws, hlk, hcws, -⟩ := hlo
    obtain ⟨-, hlen, htk, ht⟩ := ht
    obtain ⟨g, h1, h2, h3, h4, -, h5⟩ := elemAt_open ho (r := next.render) hn ha hws hlk htk hcws hlen
    have e : (Forest.node n as ws kids cws next).render = openTag n as ws ++ c!">" :: (kids.render ++ (closeTag n cws ++ next.render)) := by simp [Forest.render]
    rw [e, topElems_some (skipToNext_open hn as ws _), h5]
    intro x hx
    rcases List.mem_cons.mp hx with rfl | hx
    · refine ⟨g, h1, legal_lower (d := 0) (k := d) ?_, h3, rfl⟩
      have := h2.2 (d + 1) hl.2.2.2.2.1
      rw [show 0 + d + 1 = d + 1 by omega]; exact this
    · exact ihn hl.2.2.2.2.2.2 ht x hx

theorem closed_legal {o : Ord} (ho : o.IsPerm) : Closed o (fun x => ∃ (f : Forest) (d : Nat) (top : Bool), f.Legal d ∧ f.Tame top ∧ f.render = x) CanonContent where
  step := by rintro x ⟨f, d, top, hl, ht, rfl⟩; exact topElems_legal ho hl ht
  again := by rintro x ⟨g, -, hl, ht, rfl⟩; exact ⟨g, 1, false, hl, ht, rfl⟩

theorem canonContent_content {c : Bytes} (h : CanonContent c) : Content c (unescapeXML (extractTextContent c)) := by
  obtain ⟨g, hc, hl, ht, rfl⟩ := h
  refine ⟨g, hl, rfl, ?_⟩
  have := stripTags_canon hc (Forest.Legal.loose hl) ht []
  simp only [List.append_nil, stripTags] at this
  rw [extractTextContent, this]; rfl

/-! ## The built-in list modifiers -/

variable {A : Result → Prop}

theorem flat_of_array (ha : ∀ r, A r → r.typ ≠ .array) {r : Result} (h : Flat A r) (ht : r.typ = .array) : ∀ x ∈ r.results, A x := by
  rcases h with ⟨h, -⟩ | h | ⟨-, h⟩
  · rw [ht] at h; simp at h
  · exact absurd ht (ha r h)
  · exact h.2

theorem keeps_reverse (ha : ∀ r, A r → r.typ ≠ .array) {r : Result} (h : Flat A r) : Flat A (reverseMod r) := by
  unfold reverseMod
  split
  · exact h
  · rename_i hn
    simp only [ne_eq, Bool.or_eq_true, decide_eq_true_eq, not_or, Decidable.not_not] at hn
    exact shape_array (by simpa using flat_of_array ha h hn.1)

theorem keeps_sort (ha : ∀ r, A r → r.typ ≠ .array) (srt : Sorter) (hs : SortContract srt) (pf : Bytes → Option FVal) {r : Result} (h : Flat A r) : Flat A (sortMod srt pf r) := by
  unfold sortMod
  split
  · exact h
  · rename_i hn
    simp only [ne_eq, Bool.or_eq_true, decide_eq_true_eq, not_or, Decidable.not_not] at hn
    exact shape_array fun x hx => flat_of_array ha h hn.1 x ((hs _ _).1.mem_iff.mp hx)

theorem keeps_first (ha : ∀ r, A r → r.typ ≠ .array) {r : Result} (h : Flat A r) : Flat A (firstMod r) := by
  unfold firstMod
  split
  · rename_i ht
    have := flat_of_array ha h ht
    split
    · exact h
    · rename_i hr; rw [hr] at this; exact shape_atom (this _ (by simp))
  · exact h

theorem keeps_last (ha : ∀ r, A r → r.typ ≠ .array) {r : Result} (h : Flat A r) : Flat A (lastMod r) := by
  unfold lastMod
  split
  · rename_i ht
    have := flat_of_array ha h ht
    split
    · exact h
    · rename_i hr; exact shape_atom (this _ (List.mem_of_getLast? hr))
  · exact h

theorem keeps_flatten (ha : ∀ r, A r → r.typ ≠ .array) {r : Result} (h : Flat A r) : Flat A (flattenMod r) := by
  unfold flattenMod
  split
  · exact h
  · rename_i ht
    have hx := flat_of_array ha h (by simpa using ht)
    have key : ∀ x ∈ r.results.flatMap (fun x => if x.typ = .array then x.results else [x]), A x := by
      intro x h'
      obtain ⟨y, hy, h'⟩ := List.mem_flatMap.mp h'
      rw [if_neg (ha y (hx y hy)), List.mem_singleton] at h'
      subst h'; exact hx x hy
    simp only
    repeat' split
    all_goals first | exact h | exact shape_array key | exact shape_array (by simp) | exact shape_null

end Verif
