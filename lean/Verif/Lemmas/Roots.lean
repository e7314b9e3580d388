import Verif.Lemmas.Order
import Verif.Lemmas.Fluent
import Verif.Lemmas.Spell
import Verif.Lemmas.AskBy
/- How Result.Get reads the content of an element: whether it is wrapped, and what is asked of it then. -/
namespace Verif
open Spec

/-! ### counting the roots -/

/-- Outside of tags the byte before does not matter. -/
theorem roots_prev (k : Nat) (d : Int) (sc : Bool) (p : Option UInt8) (s : Bytes) :
    multiRootLoop ⟨k, d, false, sc⟩ p s = multiRootLoop ⟨k, d, false, sc⟩ none s := by
  cases s with
  | nil => rfl
  | cons c cs => simp only [multiRootLoop, Bool.not_false, if_true]

theorem roots_out (k : Nat) (d : Int) (sc : Bool) (p : Option UInt8) {c : UInt8} (h : c ≠ c!"<") (cs : Bytes) :
    multiRootLoop ⟨k, d, false, sc⟩ p (c :: cs) = multiRootLoop ⟨k, d, false, sc⟩ (some c) cs := by
  rw [multiRootLoop.eq_def]
  simp only [Bool.not_false, if_true]
  rw [if_neg h]

theorem roots_text {b : Bytes} (h : c!"<" ∉ b) (k : Nat) (d : Int) (sc : Bool) (p : Option UInt8) (r : Bytes) :
    multiRootLoop ⟨k, d, false, sc⟩ p (b ++ r) = multiRootLoop ⟨k, d, false, sc⟩ none r := by
  induction b generalizing p with
  | nil => exact roots_prev ..
  | cons c cs ih =>
    simp only [List.mem_cons, not_or] at h
    rw [List.cons_append, roots_out _ _ _ _ (fun e => h.1 e.symm), ih h.2]

/-- A byte of a tag that neither ends it nor says how it ends. -/
theorem roots_pass (k : Nat) (d : Int) (sc : Bool) (p : Option UInt8) {c : UInt8} {cs : Bytes} (h1 : c = c!"/" → cs.head? ≠ some c!">") (h2 : c ≠ c!">")
    (h3 : c = c!"/" → p ≠ some c!"<") : multiRootLoop ⟨k, d, true, sc⟩ p (c :: cs) = multiRootLoop ⟨k, d, true, sc⟩ (some c) cs := by
  rw [multiRootLoop.eq_def]
  by_cases hs : c = c!"/"
  · simp [hs, h1 hs, h3 hs]
  · simp [hs, h2]

theorem roots_end (k : Nat) (d : Int) (sc : Bool) (p : Option UInt8) (cs : Bytes) :
    multiRootLoop ⟨k, d, true, sc⟩ p (c!">" :: cs) = multiRootLoop ⟨k, if sc then d - 1 else d, false, false⟩ none cs := by
  rw [← roots_prev _ _ _ (some c!">"), multiRootLoop.eq_def]
  simp

theorem roots_slash (k : Nat) (d : Int) (p : Option UInt8) (h : p ≠ some c!"<") (cs : Bytes) :
    multiRootLoop ⟨k, d, true, false⟩ p (c!"/" :: c!">" :: cs) = multiRootLoop ⟨k, d - 1, false, false⟩ none cs := by
  rw [multiRootLoop.eq_def]
  simp [h, roots_end]

/-- To the end of a tag. -/
theorem roots_tag {w : Bytes} (h1 : c!"<" ∉ w) (h2 : c!">" ∉ w) (k : Nat) (d : Int) (p : UInt8) (hp : p = c!"<" → w.head? ≠ some c!"/") (r : Bytes) :
    multiRootLoop ⟨k, d, true, false⟩ (some p) (w ++ c!">" :: r) =
      multiRootLoop ⟨k, if w.getLast? = some c!"/" then d - 1 else d, false, false⟩ none r := by
  induction w generalizing p with
  | nil => rw [List.nil_append, roots_end]; rfl
  | cons c cs ih =>
    simp only [List.mem_cons, not_or] at h1 h2
    have hc1 : c ≠ c!">" := fun e => h2.1 e.symm
    have hps : c = c!"/" → some p ≠ some c!"<" := fun e1 e2 => hp (Option.some.inj e2) (by rw [e1]; rfl)
    cases cs with
    | nil =>
      by_cases hs : c = c!"/"
      · subst hs
        exact (roots_slash _ _ _ (hps rfl) _).trans (by simp)
      · rw [List.cons_append, roots_pass _ _ _ _ (fun e => absurd e hs) hc1 hps, List.nil_append, roots_end]
        simp [hs]
    | cons x xs =>
      have hx : x ≠ c!">" := fun e => h2.2 (by simp [e])
      rw [List.getLast?_cons_cons, List.cons_append, roots_pass _ _ _ _ (fun _ => by simpa using hx) hc1 hps]
      exact ih h1.2 h2.2 c (fun e => absurd e.symm h1.1)

theorem roots_open {n : Bytes} (hn : TagName n) (k : Nat) (d : Int) (p : Option UInt8) (t : Bytes) :
    multiRootLoop ⟨k, d, false, false⟩ p (c!"<" :: (n ++ t)) =
      if d = 0 then (if k + 1 > 1 then true else multiRootLoop ⟨k + 1, d + 1, true, false⟩ (some c!"<") (n ++ t))
      else multiRootLoop ⟨k, d + 1, true, false⟩ (some c!"<") (n ++ t) := by
  obtain ⟨x, xs, rfl⟩ := List.exists_cons_of_ne_nil hn.1
  have hs := TagName.not_special hn
  rw [List.cons_append, multiRootLoop]
  simp only [Bool.not_false, if_true]
  rw [if_neg (by simp [hs])]

theorem roots_close {n : Bytes} (hn : TagName n) (k : Nat) (d : Int) (p : Option UInt8) (r : Bytes) :
    multiRootLoop ⟨k, d, false, false⟩ p (c!"<" :: c!"/" :: (n ++ c!">" :: r)) = multiRootLoop ⟨k, d - 1, false, false⟩ none r := by
  obtain ⟨x, xs, rfl⟩ := List.exists_cons_of_ne_nil hn.1
  have hx := hn.2.1 x (by simp)
  rw [multiRootLoop]
  simp only [Bool.not_false, if_true]
  rw [if_pos (by simp), multiRootLoop.eq_def]
  simp only [List.cons_append, List.head?_cons, Bool.not_true, Bool.false_eq_true, if_false, Option.some.injEq, hx.2.2.1, decide_false, Bool.and_false,
    decide_true, Bool.and_self, if_true]
  rw [if_neg (by decide), ← List.cons_append, roots_tag (fun h => (hn.2.1 _ h).2.2.2 rfl) (fun h => (hn.2.1 _ h).2.2.1 rfl) _ _ _ (by simp), if_neg]
  intro h
  exact name_last hn 0 (by rw [List.getLast?_cons, h]; rfl)

theorem roots_bang {x : UInt8} (hx : x = c!"!" ∨ x = c!"?") (k : Nat) (d : Int) (p : Option UInt8) (t : Bytes) :
    multiRootLoop ⟨k, d, false, false⟩ p (c!"<" :: x :: t) = multiRootLoop ⟨k, d, true, false⟩ (some c!"<") (x :: t) := by
  rw [multiRootLoop]; rcases hx with rfl | rfl <;> simp

theorem roots_misc {m : Misc} (h : m.Inner) (hq : m.Quiet) (k : Nat) (d : Int) (p : Option UInt8) (r : Bytes) :
    multiRootLoop ⟨k, d, false, false⟩ p (m.render ++ r) = multiRootLoop ⟨k, d, false, false⟩ none r := by
  obtain ⟨x, w, l, hx, hw, hlt, hgt, hlast, hl, -, -⟩ := inner_markup h hq
  have hx' : c!"<" ≠ x ∧ c!">" ≠ x ∧ x ≠ c!"/" := by rcases hx with rfl | rfl <;> decide
  have e : m.render ++ r = c!"<" :: x :: (w ++ c!">" :: (l ++ r)) := by simp [hw]
  rw [e, roots_bang hx, ← List.cons_append, roots_tag (by simp [hlt, hx'.1]) (by simp [hgt, hx'.2.1]) _ _ _ (by simp [hx'.2.2]), if_neg hlast, roots_text hl]

theorem openTag_head {n : Bytes} (hn : TagName n) (t : Bytes) : (n ++ t).head? ≠ some c!"/" := by
  obtain ⟨x, xs, rfl⟩ := List.exists_cons_of_ne_nil hn.1
  have := (hn.2.1 x (by simp)).2.1
  simpa using this

theorem tag_last' {n : Bytes} (hn : TagName n) {as : List Attr} (hc : CanonAttrs as) : (n ++ as.flatMap Attr.render).getLast? ≠ some c!"/" := by
  intro h
  exact tag_last hn hc 0 (by rw [List.getLast?_cons, h]; rfl)

/-- Below an element nothing is counted. -/
theorem roots_inside {g : Forest} (hc : CanonF g) (hl : g.Loose) (ht : g.Tame false) (hq : g.info.Calm) (k : Nat) (d : Int) (hd : 0 < d) (p : Option UInt8) (r : Bytes) :
    multiRootLoop ⟨k, d, false, false⟩ p (g.render ++ r) = multiRootLoop ⟨k, d, false, false⟩ none r := by
  induction g generalizing d p r with
  | nil => exact roots_prev ..
  | text b next ih => rw [Forest.render, List.append_assoc, roots_text hl.1, ih hc hl.2 ht hq d hd]
  | misc m next ih => rw [Forest.render, List.append_assoc, roots_misc (by simpa using ht.1) hq.1, ih hc hl.2 ht.2 hq.2 d hd]
  | leaf n as ws next ih =>
    obtain ⟨hn, ha, hws, hl⟩ := hl
    obtain ⟨-, ht⟩ := ht
    obtain ⟨hca, rfl, hc⟩ := hc
    have e : (Forest.leaf n as [] next).render ++ r = c!"<" :: (n ++ (as.flatMap Attr.render ++ b!"/" ++ c!">" :: (next.render ++ r))) := by simp [Forest.render, openTag]
    have e2 : n ++ (as.flatMap Attr.render ++ b!"/" ++ c!">" :: (next.render ++ r)) = (n ++ as.flatMap Attr.render ++ b!"/") ++ c!">" :: (next.render ++ r) := by simp
    have hcl := canon_tag_clean hn hca ha
    rw [e, roots_open hn, if_neg (by omega), e2, roots_tag, if_pos (by simp), show d + 1 - 1 = d by omega, ih hc hl ht hq.2 d hd]
    · intro h; rcases List.mem_append.mp h with h | h
      · exact (hcl _ h).1 rfl
      · exact absurd h (by decide)
    · intro h; rcases List.mem_append.mp h with h | h
      · exact (hcl _ h).2 rfl
      · exact absurd h (by decide)
    · intro _; rw [List.append_assoc]; exact openTag_head hn _
  | node n as ws kids cws next ihk ih =>
    obtain ⟨hn, ha, hws, hlk, -, hl⟩ := hl
    obtain ⟨-, -, htk, ht⟩ := ht
    obtain ⟨hca, rfl, rfl, hck, hc⟩ := hc
    have e : (Forest.node n as [] kids [] next).render ++ r =
        c!"<" :: (n ++ (as.flatMap Attr.render ++ c!">" :: (kids.render ++ (c!"<" :: c!"/" :: (n ++ c!">" :: (next.render ++ r)))))) := by simp [Forest.render, openTag, closeTag]
    have e2 : ∀ t, n ++ (as.flatMap Attr.render ++ c!">" :: t) = (n ++ as.flatMap Attr.render) ++ c!">" :: t := by intro t; simp
    have hcl := canon_tag_clean hn hca ha
    rw [e, roots_open hn, if_neg (by omega), e2, roots_tag (fun h => (hcl _ h).1 rfl) (fun h => (hcl _ h).2 rfl) _ _ _ (fun _ => openTag_head hn _),
      if_neg (tag_last' hn hca), ihk hck hlk htk hq.1 (d + 1) (by omega), roots_close hn, show d + 1 - 1 = d by omega, ih hc hl ht hq.2 d hd]

/-- At the top the elements are counted, up to two. -/
theorem roots_top {g : Forest} (hc : CanonF g) (hl : g.Loose) (ht : g.Tame false) (hq : g.info.Calm) (k : Nat) (hk : k ≤ 1) (p : Option UInt8) (r : Bytes) :
    multiRootLoop ⟨k, 0, false, false⟩ p (g.render ++ r) =
      if k + g.info.elems.length ≥ 2 then true else multiRootLoop ⟨k + g.info.elems.length, 0, false, false⟩ none r := by
  induction g generalizing k p r with
  | nil => rw [if_neg (by simp [Forest.info, Info.elems]; omega)]; exact roots_prev ..
  | text b next ih => rw [Forest.render, List.append_assoc, roots_text hl.1, ih hc hl.2 ht hq k hk]; rfl
  | misc m next ih => rw [Forest.render, List.append_assoc, roots_misc (by simpa using ht.1) hq.1, ih hc hl.2 ht.2 hq.2 k hk]; rfl
  | leaf n as ws next ih =>
    obtain ⟨hn, ha, hws, hl⟩ := hl
    obtain ⟨-, ht⟩ := ht
    obtain ⟨hca, rfl, hc⟩ := hc
    have e : (Forest.leaf n as [] next).render ++ r = c!"<" :: (n ++ (as.flatMap Attr.render ++ b!"/" ++ c!">" :: (next.render ++ r))) := by simp [Forest.render, openTag]
    have e2 : n ++ (as.flatMap Attr.render ++ b!"/" ++ c!">" :: (next.render ++ r)) = (n ++ as.flatMap Attr.render ++ b!"/") ++ c!">" :: (next.render ++ r) := by simp
    have hcl := canon_tag_clean hn hca ha
    have hlen : (Forest.leaf n as [] next).info.elems.length = next.info.elems.length + 1 := by simp [Forest.info, Info.elems]
    rw [e, roots_open hn, if_pos rfl, hlen]
    by_cases h1 : k = 0
    · subst h1
      rw [if_neg (by omega), e2, roots_tag, if_pos (by simp), show (0 : Int) + 1 - 1 = 0 by omega, ih hc hl ht hq.2 1 (by omega)]
      · simp only [Nat.zero_add, Nat.add_comm 1]
      · intro h; rcases List.mem_append.mp h with h | h
        · exact (hcl _ h).1 rfl
        · exact absurd h (by decide)
      · intro h; rcases List.mem_append.mp h with h | h
        · exact (hcl _ h).2 rfl
        · exact absurd h (by decide)
      · intro _; rw [List.append_assoc]; exact openTag_head hn _
    · rw [if_pos (by omega), if_pos (by omega)]
  | node n as ws kids cws next ihk ih =>
    obtain ⟨hn, ha, hws, hlk, -, hl⟩ := hl
    obtain ⟨-, -, htk, ht⟩ := ht
    obtain ⟨hca, rfl, rfl, hck, hc⟩ := hc
    have e : (Forest.node n as [] kids [] next).render ++ r =
        c!"<" :: (n ++ (as.flatMap Attr.render ++ c!">" :: (kids.render ++ (c!"<" :: c!"/" :: (n ++ c!">" :: (next.render ++ r)))))) := by simp [Forest.render, openTag, closeTag]
    have e2 : ∀ t, n ++ (as.flatMap Attr.render ++ c!">" :: t) = (n ++ as.flatMap Attr.render) ++ c!">" :: t := by intro t; simp
    have hcl := canon_tag_clean hn hca ha
    have hlen : (Forest.node n as [] kids [] next).info.elems.length = next.info.elems.length + 1 := by simp [Forest.info, Info.elems]
    rw [e, roots_open hn, if_pos rfl, hlen]
    by_cases h1 : k = 0
    · subst h1
      rw [if_neg (by omega), e2, roots_tag (fun h => (hcl _ h).1 rfl) (fun h => (hcl _ h).2 rfl) _ _ _ (fun _ => openTag_head hn _),
        if_neg (tag_last' hn hca), roots_inside hck hlk htk hq.1 _ _ (by omega), roots_close hn, show (0 : Int) + 1 - 1 = 0 by omega, ih hc hl ht hq.2 1 (by omega)]
      simp only [Nat.zero_add, Nat.add_comm 1]
    · rw [if_pos (by omega), if_pos (by omega)]

theorem Spec.Info.calm_append {i j : Info} : (i.append j).Calm ↔ i.Calm ∧ j.Calm := by
  induction i with
  | nil => simp [Info.append, Info.Calm]
  | text b next ih => exact ih
  | misc m next ih => simp [Info.append, Info.Calm, ih, and_assoc]
  | elem n a k next _ ih => simp [Info.append, Info.Calm, ih, and_assoc]

theorem Spec.Info.Quiet.calm {i : Info} (h : i.Quiet) : i.Calm := by
  induction i with
  | nil => trivial
  | text b next ih => exact ih h.2
  | misc m next ih => exact ⟨h.1, ih h.2⟩
  | elem n a k next ihk ih => exact ⟨ihk h.1, ih h.2⟩

theorem roots_draft_inside {g : Draft} (hc : CanonD g) (hl : g.Loose) (ht : g.Tame false) (hq : g.info.Calm) (k : Nat) (d : Int) (hd : 0 < d) (p : Option UInt8) :
    multiRootLoop ⟨k, d, false, false⟩ p g.render = false := by
  induction g generalizing d p with
  | done f =>
    have := roots_inside hc hl ht hq k d hd p []
    rw [List.append_nil] at this
    rw [Draft.render, this]; rfl
  | more f n as ws rest ih =>
    obtain ⟨hf, ⟨hn, -⟩, ha, hws, hr⟩ := hl
    obtain ⟨htf, hfit, htr⟩ := ht
    obtain ⟨hcf, hca, rfl, hcr⟩ := hc
    have e : openTag n as [] ++ c!">" :: rest.render = c!"<" :: (n ++ (as.flatMap Attr.render ++ c!">" :: rest.render)) := by simp [openTag]
    have e2 : ∀ t, n ++ (as.flatMap Attr.render ++ c!">" :: t) = (n ++ as.flatMap Attr.render) ++ c!">" :: t := by intro t; simp
    have hcl := canon_tag_clean hn hca ha
    rw [Draft.info_more, Info.calm_append] at hq
    rw [Draft.render, roots_inside hcf hf htf hq.1 k d hd, e, roots_open hn, if_neg (by omega), e2,
      roots_tag (fun h => (hcl _ h).1 rfl) (fun h => (hcl _ h).2 rfl) _ _ _ (fun _ => openTag_head hn _), if_neg (tag_last' hn hca), ih hcr hr htr hq.2.1 (d + 1) (by omega)]

/-- The content of an element is wrapped if it has two children. -/
theorem roots_writes {c : Bytes} {i : Info} (h : Writes c i) (hq : i.Calm) : isMultiRootFragment c = decide (2 ≤ i.elems.length) := by
  obtain ⟨g, hc, hl, ht, rfl, rfl⟩ := h
  unfold isMultiRootFragment
  cases g with
  | done f =>
    have := roots_top hc hl ht hq 0 (by omega) none []
    rw [List.append_nil] at this
    rw [Draft.render, this, Draft.info_done]
    by_cases h2 : 2 ≤ f.info.elems.length
    · rw [if_pos (by omega), decide_eq_true h2]
    · rw [if_neg (by omega), decide_eq_false h2]; rfl
  | more f n as ws rest =>
    obtain ⟨hf, ⟨hn, -⟩, ha, hws, hr⟩ := hl
    obtain ⟨htf, hfit, htr⟩ := ht
    obtain ⟨hcf, hca, rfl, hcr⟩ := hc
    have e : openTag n as [] ++ c!">" :: rest.render = c!"<" :: (n ++ (as.flatMap Attr.render ++ c!">" :: rest.render)) := by simp [openTag]
    have e2 : ∀ t, n ++ (as.flatMap Attr.render ++ c!">" :: t) = (n ++ as.flatMap Attr.render) ++ c!">" :: t := by intro t; simp
    have hcl := canon_tag_clean hn hca ha
    have hq' := hq
    rw [Draft.info_more, Info.calm_append] at hq'
    rw [Draft.render, roots_top hcf hf htf hq'.1 0 (by omega), Draft.info_more, Info.elems_append]
    simp only [Info.elems, List.length_append, List.length_cons, List.length_nil, Nat.zero_add]
    by_cases h2 : 2 ≤ f.info.elems.length
    · rw [if_pos h2, decide_eq_true (by omega)]
    · rw [if_neg h2, e, roots_open hn, if_pos rfl]
      by_cases h1 : f.info.elems.length + 1 > 1
      · rw [if_pos h1, decide_eq_true (by omega)]
      · rw [if_neg h1, e2, roots_tag (fun h => (hcl _ h).1 rfl) (fun h => (hcl _ h).2 rfl) _ _ _ (fun _ => openTag_head hn _), if_neg (tag_last' hn hca),
          roots_draft_inside hcr hr htr hq'.2.1 _ _ (by omega), decide_eq_false (by omega)]

end Verif
