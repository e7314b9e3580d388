import Verif.Lemmas.Raw
import Verif.Lemmas.Create
/- XML content is accepted by validateRawXML. -/
namespace Verif
open Spec

theorem isName_raw {n : Bytes} (h : IsName n) : RawName n := by
  obtain ⟨⟨c, cs, rfl, hs⟩, hall, -⟩ := h
  have hn := fun d hd => hall d hd
  refine ⟨fun d hd => ⟨?_, ?_, ?_⟩, by simp, ?_, ?_⟩
  · rintro rfl; exact gt_not_name (hn _ hd)
  · rintro rfl
    have := hn _ hd
    rw [← isNameChar_iff] at this; revert this; decide
  · rintro rfl; exact slash_not_name (hn _ hd)
  · simp only [List.head?_cons, ne_eq, Option.some.injEq]
    rintro rfl
    have := hn c!"!" (by simp)
    rw [← isNameChar_iff] at this; revert this; decide
  · simp only [List.head?_cons, ne_eq, Option.some.injEq]
    rintro rfl
    have := hn c!"?" (by simp)
    rw [← isNameChar_iff] at this; revert this; decide

theorem ws_ne {c : UInt8} (h : IsWs c) : c ≠ c!">" ∧ c ≠ c!"/" := by
  rcases h with rfl | rfl | rfl | rfl <;> decide

theorem attr_noGt {a : Attr} (h : a.Legal) (hr : c!">" ∉ a.raw) : c!">" ∉ a.render := by
  obtain ⟨h1, h2, h3, h4, h5, -⟩ := h
  simp only [Attr.render, List.mem_append, List.mem_singleton, not_or]
  refine ⟨⟨⟨⟨⟨⟨⟨?_, ?_⟩, ?_⟩, by decide⟩, ?_⟩, ?_⟩, hr⟩, ?_⟩
  · exact fun hm => (ws_ne (h1 _ hm)).1 rfl
  · exact fun hm => gt_not_name (h2.2.1 _ hm)
  · exact fun hm => (ws_ne (h3 _ hm)).1 rfl
  · exact fun hm => (ws_ne (h4 _ hm)).1 rfl
  · rcases h5 with h | h <;> rw [h] <;> decide
  · rcases h5 with h | h <;> rw [h] <;> decide

theorem tag_rest {as : List Attr} {ws : Bytes} (ha : AttrsLegal as) (hws : ∀ c ∈ ws, IsWs c) (hr : ∀ a ∈ as, c!">" ∉ a.raw) :
    c!">" ∉ as.flatMap Attr.render ++ ws ∧ (as.flatMap Attr.render ++ ws).getLast? ≠ some c!"/" := by
  constructor
  · simp only [List.mem_append, List.mem_flatMap, not_or, not_exists, not_and]
    exact ⟨fun a ham => attr_noGt (ha.2.1 a ham) (hr a ham), fun hm => (ws_ne (hws _ hm)).1 rfl⟩
  · intro h
    rw [List.getLast?_append] at h
    cases hw : ws.getLast? with
    | some c =>
      rw [hw] at h
      have h : c = c!"/" := by simpa using h
      exact (ws_ne (hws c (List.mem_of_getLast? hw))).2 h
    | none =>
      rw [hw] at h
      simp only [Option.none_or] at h
      rcases List.eq_nil_or_concat as with rfl | ⟨as', a, rfl⟩
      · simp at h
      · simp only [List.concat_eq_append, List.flatMap_append, List.flatMap_cons, List.flatMap_nil, List.append_nil, Attr.render] at h
        rw [List.getLast?_append] at h
        simp only [List.getLast?_append, List.getLast?_singleton, Option.some_or, Option.some.injEq] at h
        have := (ha.2.1 a (by simp)).2.2.2.2.1
        rcases this with e | e <;> rw [e] at h <;> revert h <;> decide

theorem rawLoop_forest {f : Forest} {d : Nat} (hl : f.Legal d) (hp : f.RawPlain) (st : List Bytes) (r : Bytes) :
    rawLoop st (f.render ++ r) = rawLoop st r := by
  induction f generalizing d st r with
  | nil => rfl
  | text b next ih =>
    rw [Forest.render, List.append_assoc, rawLoop_text hl.1, ih hl.2.2 hp]
  | misc m next ih =>
    rw [Forest.render, List.append_assoc, rawLoop_misc hp.1, ih hl.2 hp.2]
  | leaf n as ws next ih =>
    obtain ⟨hn, ha, hws, -, hl⟩ := hl
    obtain ⟨h1, h2, h3⟩ := hp
    obtain ⟨q1, q2⟩ := tag_rest ha hws h1
    have e : (Forest.leaf n as ws next).render ++ r = c!"<" :: (n ++ ((as.flatMap Attr.render ++ ws) ++ c!"/" :: c!">" :: (next.render ++ r))) := by
      simp [Forest.render, openTag]
    rw [e, rawLoop_open (isName_raw hn) (rest_stop (h2.imp id Or.inl) (by decide)), rawTagEnd_self q1]
    exact ih hl h3 st r
  | node n as ws kids cws next ihk ihn =>
    obtain ⟨hn, ha, hws, -, hlk, hcws, hl⟩ := hl
    obtain ⟨h1, h2, h3, h4, h5⟩ := hp
    obtain ⟨q1, q2⟩ := tag_rest ha hws h1
    have e : (Forest.node n as ws kids cws next).render ++ r =
        c!"<" :: (n ++ ((as.flatMap Attr.render ++ ws) ++ c!">" :: (kids.render ++ (c!"<" :: c!"/" :: (n ++ (cws ++ c!">" :: (next.render ++ r))))))) := by
      simp [Forest.render, openTag, closeTag]
    rw [e, rawLoop_open (isName_raw hn) (rest_stop (h2.imp id Or.inl) (by decide)), rawTagEnd_open q1 q2]
    simp only [Bool.false_eq_true, if_false]
    rw [ihk hlk h4, rawLoop_close (fun c hc => ⟨((isName_raw hn).1 c hc).1, ((isName_raw hn).1 c hc).2.1⟩), afterGt_skip (fun hm => (ws_ne (hcws _ hm)).1 rfl)]
    · simp only [if_true]
      exact ihn hl h5 st r
    · intro c hc
      cases cws with
      | nil => simp at hc; subst hc; decide
      | cons x cws => simp at hc h3; subst hc; subst h3; decide

theorem onlyAtEnd_gt {p b : Bytes} (hp : ∃ p', p = p' ++ b!">") (h : p <:+ b) (hb : ∃ b', b = b' ++ b!">" ∧ c!">" ∉ b') : OnlyAtEnd p b := by
  refine ⟨h, fun a c hc => ?_⟩
  obtain ⟨p', rfl⟩ := hp
  obtain ⟨b', rfl, hb⟩ := hb
  rcases List.eq_nil_or_concat c with rfl | ⟨c', x, rfl⟩
  · rfl
  · exfalso
    rw [List.concat_eq_append, ← List.append_assoc] at hc
    have := (List.append_inj' hc rfl).1
    exact hb (this ▸ by simp)

theorem end_or {a b t : Bytes} {x : UInt8} (h : a ++ t = b ++ [x]) : t = [] ∨ ∃ t', t = t' ++ [x] ∧ a ++ t' = b := by
  rcases List.eq_nil_or_concat t with rfl | ⟨t', y, rfl⟩
  · exact Or.inl rfl
  · rw [List.concat_eq_append, ← List.append_assoc] at h
    have := List.append_inj' h rfl
    exact Or.inr ⟨t', by simpa using this.2, this.1⟩

theorem onlyAtEnd_comment {b : Bytes} (hl : (Misc.comment b).Legal) (h1 : ¬ b!">" <+: b) (h2 : ¬ b!"->" <+: b) : OnlyAtEnd b!"-->" (Misc.comment b).render := by
  refine ⟨⟨b!"<!--" ++ b, rfl⟩, fun a c hc => ?_⟩
  rcases end_or (b := b!"<!--" ++ b ++ b!"--") (x := c!">") (by rw [hc]; simp [Misc.render]) with rfl | ⟨c, rfl, e⟩
  · rfl
  exfalso
  rcases end_or (b := b!"<!--" ++ b ++ b!"-") (x := c!"-") (by rw [e]; simp) with rfl | ⟨c, rfl, e2⟩
  · have := congrArg List.getLast? e
    simp [List.getLast?_append] at this
    rw [List.getLast?_cons, List.getLast?_append] at this
    simp at this
  clear e hc
  match a, e2 with
  | [], e => simp at e
  | [_], e => simp at e
  | [_, _], e =>
    simp only [List.cons_append, List.nil_append, List.cons.injEq, true_and] at e
    cases b with
    | nil => simp at e
    | cons x b => simp only [List.cons_append, List.cons.injEq] at e; exact h1 ⟨b, by simp [e.2.2.1]⟩
  | [_, _, _], e =>
    simp only [List.cons_append, List.nil_append, List.cons.injEq, true_and] at e
    match b, e with
    | [], e => simp at e
    | [x], e => simp at e
    | x :: y :: b, e =>
      simp only [List.cons_append, List.cons.injEq] at e
      exact h2 ⟨b, by simp [e.2.2.2.1, e.2.2.2.2.1]⟩
  | _ :: _ :: _ :: _ :: a, e =>
    simp only [List.cons_append, List.nil_append, List.cons.injEq] at e
    exact hl ⟨a, c!">" :: c, by rw [← e.2.2.2.2]; simp⟩

theorem onlyAtEnd_cdata {b : Bytes} (hl : (Misc.cdata b).Legal) : OnlyAtEnd b!"]]>" (b ++ b!"]]>") := by
  refine ⟨⟨b, rfl⟩, fun a c hc => ?_⟩
  rcases end_or (b := b ++ b!"]]") (x := c!">") (by rw [hc]; simp) with rfl | ⟨c, rfl, e⟩
  · rfl
  exfalso
  rcases end_or (b := b ++ b!"]") (x := c!"]") (by rw [e]; simp) with rfl | ⟨c, rfl, e2⟩
  · have := congrArg List.getLast? e
    simp at this
  rcases end_or (b := b) (x := c!"]") e2 with rfl | ⟨c, rfl, e3⟩
  · have := congrArg List.getLast? e2
    simp at this
  exact hl ⟨a, c, e3⟩

theorem rawMisc_inner {m : Misc} (hl : m.Legal) (hi : m.Inner) (he : ∀ b, m = .decl b → ¬ b!"ENTITY" <+: b ∧ b.head? ≠ some c!"-")
    (hp : ∀ b, m = .pi b → b.head? ≠ some c!"-") : RawMisc m.render := by
  cases m with
  | pi b =>
    have e : (Misc.pi b).render = c!"<" :: c!"?" :: (b ++ b!">") := by simp [Misc.render]
    refine .other (Or.inr ⟨b ++ b!">", by simp [Misc.render]⟩) ?_ ?_ ?_ ?_
      (onlyAtEnd_gt ⟨[], rfl⟩ ⟨b!"<?" ++ b, rfl⟩ ⟨b!"<?" ++ b, rfl, by simp [hl.1]⟩)
    · rw [e]
      cases b with
      | nil => simp
      | cons x b => simpa using hp _ rfl
    all_goals rw [e]; simp [List.cons_prefix_cons]
  | doctype b => exact hi.elim
  | mark b => exact hl.elim
  | comment b =>
    exact .comment (Or.inl ⟨c!"-" :: b ++ b!"-->", rfl⟩) (onlyAtEnd_comment hl hi.2.1 hi.2.2)
  | cdata b =>
    refine .cdata (onlyAtEnd_cdata hl) ?_
    · exact fun h => hi (h.subset (by simp))
  | decl b =>
    obtain ⟨h1, h2, h3, h4, h5, h6⟩ := hl
    obtain ⟨e1, e2⟩ := he b rfl
    have hpre : ∀ p : Bytes, c!">" ∉ p → p <+: b ++ b!">" → p <+: b := by
      intro p hp ⟨t, ht⟩
      rcases List.eq_nil_or_concat t with rfl | ⟨t', x, rfl⟩
      · rw [List.append_nil] at ht
        exact absurd (ht ▸ by simp) hp
      · rw [List.concat_eq_append, ← List.append_assoc] at ht
        exact ⟨t', (List.append_inj' ht rfl).1⟩
    have e : (Misc.decl b).render = c!"<" :: c!"!" :: (b ++ b!">") := by simp [Misc.render]
    have hstrip : ∀ p : Bytes, c!">" ∉ p → c!"<" :: c!"!" :: p <+: (Misc.decl b).render → p <+: b := by
      intro p hp h
      rw [e, List.cons_prefix_cons, List.cons_prefix_cons] at h
      exact hpre p hp h.2.2
    refine .other (Or.inl ⟨b ++ b!">", by simp [Misc.render]⟩) ?_ ?_ ?_ ?_ (onlyAtEnd_gt ⟨[], rfl⟩ ⟨b!"<!" ++ b, rfl⟩ ⟨b!"<!" ++ b, rfl, by simp [h1]⟩)
    · rw [e]
      cases b with
      | nil => simp
      | cons x b => simpa using e2
    · exact fun h => h6 (hstrip _ (by decide) h)
    · exact fun h => h3 (hstrip _ (by decide) h)
    · exact fun h => e1 (hstrip _ (by decide) h)

theorem neat_rawPlain {f : Forest} {d : Nat} (hl : f.Legal d) (ht : f.Tame false) (hn : f.Neat) (he : f.NoEntity) : f.RawPlain := by
  have hattrs : ∀ as : List Attr, Spec.Neat as → (∀ a ∈ as, c!">" ∉ a.raw) ∧ (as.flatMap Attr.render ++ [] = [] ∨ (as.flatMap Attr.render ++ []).head? = some c!" ") := by
    intro as h
    constructor
    · intro a ha
      obtain ⟨-, -, -, -, v, hv⟩ := h.1 a ha
      rw [hv]
      exact fun hm => (escapeXML_mem hm).2.1 rfl
    · cases as with
      | nil => exact Or.inl rfl
      | cons a as =>
        have := (h.1 a (by simp)).1
        exact Or.inr (by simp [Attr.render, this])
  induction f generalizing d with
  | nil => trivial
  | text b next ih => exact ih hl.2.2 ht hn he
  | misc m next ih =>
    have h1 : (Forest.misc m next).NoEntity → next.NoEntity ∧ (∀ b, m = .decl b → ¬ b!"ENTITY" <+: b ∧ b.head? ≠ some c!"-") ∧
        ∀ b, m = .pi b → b.head? ≠ some c!"-" := by
      intro h
      cases m with
      | decl b => exact ⟨h.2.2, fun b' hb => (by cases hb; exact ⟨h.1, h.2.1⟩), fun b hb => by cases hb⟩
      | pi b => exact ⟨h.2, fun b hb => (by cases hb), fun b' hb => by cases hb; exact h.1⟩
      | _ => exact ⟨h, fun b hb => (by cases hb), fun b hb => by cases hb⟩
    obtain ⟨h2, h3, h4⟩ := h1 he
    exact ⟨rawMisc_inner hl.1 (by simpa using ht.1) h3 h4, ih hl.2 ht.2 hn h2⟩
  | leaf n as ws next ih =>
    obtain ⟨-, -, -, -, hl⟩ := hl
    obtain ⟨n1, rfl, n3⟩ := hn
    exact ⟨(hattrs as n1).1, (hattrs as n1).2, ih hl ht.2 n3 he⟩
  | node n as ws kids cws next ihk ihn =>
    obtain ⟨-, -, -, -, hlk, -, hl⟩ := hl
    obtain ⟨n1, rfl, rfl, n4, n5⟩ := hn
    exact ⟨(hattrs as n1).1, (hattrs as n1).2, Or.inl rfl, ihk hlk ht.2.2.1 n4 he.1, ihn hl ht.2.2.2 n5 he.2⟩

end Verif
