import Verif.Lemmas.Top
/- extractTextContent and extractDirectTextOnly on content written back by the parser. -/
namespace Verif
open Spec

theorem stripTags_tag {w : Bytes} (h : c!">" ∉ w) (r : Bytes) : stripTags true (w ++ c!">" :: r) = stripTags false r := by
  induction w with
  | nil => simp [stripTags]
  | cons c cs ih =>
    simp only [List.mem_cons, not_or] at h
    have hc : c ≠ c!">" := fun e => h.1 e.symm
    rw [List.cons_append, stripTags]
    split
    · exact ih h.2
    · rw [if_pos rfl]; exact ih h.2

theorem stripTags_markup {w : Bytes} (h : c!">" ∉ w) (r : Bytes) :
    stripTags false (c!"<" :: (w ++ c!">" :: r)) = stripTags false r := by
  rw [stripTags, if_pos rfl]; exact stripTags_tag h r

theorem stripTags_text {b : Bytes} (h : c!"<" ∉ b) (r : Bytes) :
    stripTags false (b ++ r) = b.filter (· ≠ c!">") ++ stripTags false r := by
  induction b with
  | nil => rfl
  | cons c cs ih =>
    simp only [List.mem_cons, not_or] at h
    rw [List.cons_append, stripTags, if_neg (fun e => h.1 e.symm)]
    by_cases hc : c = c!">"
    · rw [if_pos hc, ih h.2]; simp [hc]
    · rw [if_neg hc]; simp [hc, ih h.2]

theorem canon_attr_clean {as : List Attr} (hc : CanonAttrs as) (hl : AttrsLoose as) :
    ∀ x ∈ as.flatMap Attr.render, x ≠ c!"<" ∧ x ≠ c!">" := by
  obtain ⟨m, -, rfl⟩ := hc
  intro x hx
  obtain ⟨a, ha, hx'⟩ := List.mem_flatMap.mp hx
  clear hx
  have hx := hx'
  have hn := (hl.2.1 a ha).2.1
  obtain ⟨p, -, rfl⟩ := List.mem_map.mp ha
  simp only [canonAttr, Attr.render, List.mem_append, List.mem_cons, List.not_mem_nil, or_false] at hx
  rcases hx with ((((hx | hx) | hx) | hx) | hx) | hx
  · rw [hx]; decide
  · have h2 := hn.2.1 x hx
    exact ⟨h2.2.2.2.1, h2.2.2.1⟩
  · rw [hx]; decide
  · rw [hx]; decide
  · exact ⟨(escapeXML_mem hx).1, (escapeXML_mem hx).2.1⟩
  · rw [hx]; decide

theorem lt_not_name : ¬ NameChar c!"<" := by rw [← isNameChar_iff]; decide

theorem canon_tag_clean {n : Bytes} (hn : TagName n) {as : List Attr} (hc : CanonAttrs as) (hl : AttrsLoose as) :
    ∀ x ∈ n ++ as.flatMap Attr.render, x ≠ c!"<" ∧ x ≠ c!">" := by
  intro x hx
  rcases List.mem_append.mp hx with hx | hx
  · have h2 := hn.2.1 x hx
    exact ⟨h2.2.2.2, h2.2.2.1⟩
  · exact canon_attr_clean hc hl x hx

theorem cut_gt {r : Bytes} (h : c!">" ∈ r) : ∃ w l, r = w ++ c!">" :: l ∧ c!">" ∉ w ∧ (r.dropWhile (· ≠ c!">")).filter (· ≠ c!">") = l.filter (· ≠ c!">") := by
  induction r with
  | nil => simp at h
  | cons c cs ih =>
    by_cases hc : c = c!">"
    · subst hc
      exact ⟨[], cs, rfl, by simp, by simp⟩
    · have hc' : ¬ c!">" = c := fun e => hc e.symm
      obtain ⟨w, l, h1, h2, h3⟩ := ih (by simpa [hc'] using h)
      refine ⟨c :: w, l, by simp [h1], by simp [h2, hc'], ?_⟩
      rw [← h3]
      simp [List.dropWhile_cons, hc]

theorem cutLt_none {b : Bytes} (h : c!"<" ∉ b) : cutLt b = [b] := by
  induction b with
  | nil => rfl
  | cons c cs ih =>
    simp only [List.mem_cons, not_or] at h
    rw [cutLt, if_neg (fun e => h.1 e.symm), ih h.2]; rfl

theorem inner_bang {m : Misc} (h : m.Inner) : ∃ x v, (x = c!"!" ∨ x = c!"?") ∧ m.render = c!"<" :: x :: v := by
  cases m with
  | comment b => exact ⟨_, b!"--" ++ b ++ b!"-->", .inl rfl, by simp [Misc.render]⟩
  | cdata b => exact ⟨_, b!"[CDATA[" ++ b ++ b!"]]>", .inl rfl, by simp [Misc.render]⟩
  | decl b => exact ⟨_, b ++ b!">", .inl rfl, by simp [Misc.render]⟩
  | pi b => exact ⟨_, b ++ b!">", .inr rfl, by simp [Misc.render]⟩
  | doctype _ => exact absurd h id
  | mark b => exact ⟨_, b, .inl rfl, by simp [Misc.render]⟩

theorem inner_closed {m : Misc} (h : m.Inner) : (∃ w, m.render = w ++ b!">") ∨ ∃ b, m = .mark b := by
  cases m with
  | comment b => exact .inl ⟨b!"<!--" ++ b ++ b!"--", by simp [Misc.render]⟩
  | cdata b => exact .inl ⟨b!"<![CDATA[" ++ b ++ b!"]]", by simp [Misc.render]⟩
  | decl b => exact .inl ⟨b!"<!" ++ b, by simp [Misc.render]⟩
  | pi b => exact .inl ⟨b!"<?" ++ b, by simp [Misc.render]⟩
  | doctype _ => exact absurd h id
  | mark b => exact .inr ⟨b, rfl⟩

/-- A quiet piece of inner markup: up to its first `>`, and the rest, which leaks into the text. -/
theorem inner_markup {m : Misc} (h : m.Inner) (hq : m.Quiet) : ∃ x w l, (x = c!"!" ∨ x = c!"?") ∧ m.render = c!"<" :: x :: (w ++ c!">" :: l) ∧ c!"<" ∉ w ∧ c!">" ∉ w ∧
    (x :: w).getLast? ≠ some c!"/" ∧ c!"<" ∉ l ∧ ¬ b!"/>" <:+: l ∧ m.leak = l.filter (· ≠ c!">") := by
  obtain ⟨x, v, hx, hv⟩ := inner_bang h
  have hx' : c!"<" ≠ x ∧ x ≠ c!">" := by rcases hx with rfl | rfl <;> decide
  obtain ⟨q1, q2, q3⟩ := hq
  obtain ⟨w, l, hwl, h2, h3⟩ := cut_gt (r := v) (by
    rw [hv] at q3
    simpa [hx'.2.symm] using q3)
  rw [hwl] at hv h3
  rw [hv] at q1 q2
  simp only [List.drop_succ_cons, List.drop_zero] at q1
  refine ⟨x, w, l, hx, hv, fun e => q1 (by simp [e]), h2, ?_, fun e => q1 (by simp [e]), ?_, ?_⟩
  · intro e
    obtain ⟨u, hu⟩ : ∃ u, x :: w = u ++ [c!"/"] := List.getLast?_eq_some_iff.mp e
    exact q2 ⟨c!"<" :: u, l, by rw [← List.cons_append (bs := c!">" :: l), hu]; simp⟩
  · rintro ⟨s, t, e⟩
    exact q2 ⟨c!"<" :: x :: w ++ c!">" :: s, t, by rw [← e]; simp⟩
  · rw [Misc.leak, hv, cutLt, if_pos rfl, cutLt_none q1, ← h3]
    simp [List.dropWhile_cons, hx'.2]

theorem stripTags_cut (b : Bytes) : ∃ p ps, cutLt b = p :: ps ∧
    stripTags true b = (p :: ps).flatMap (fun p => (p.dropWhile (· ≠ c!">")).filter (· ≠ c!">")) ∧
    stripTags false b = p.filter (· ≠ c!">") ++ ps.flatMap (fun p => (p.dropWhile (· ≠ c!">")).filter (· ≠ c!">")) := by
  induction b with
  | nil => exact ⟨[], [], rfl, rfl, rfl⟩
  | cons c cs ih =>
    obtain ⟨p, ps, h1, h2, h3⟩ := ih
    by_cases hc : c = c!"<"
    · refine ⟨[], p :: ps, by rw [cutLt, if_pos hc, h1], ?_, ?_⟩
      · rw [stripTags, if_pos hc, h2]; simp
      · rw [stripTags, if_pos hc, h2]; simp
    · refine ⟨c :: p, ps, by rw [cutLt, if_neg hc, h1]; rfl, ?_, ?_⟩
      · rw [stripTags, if_neg hc]
        by_cases hg : c = c!">"
        · rw [if_pos hg, h3]; simp [hg]
        · rw [if_neg hg, if_pos rfl, h2]; simp [List.dropWhile_cons, hg]
      · rw [stripTags, if_neg hc]
        by_cases hg : c = c!">"
        · rw [if_pos hg, h3]; simp [hg]
        · rw [if_neg hg, if_neg (by simp), h3]; simp [hg]

theorem stripTags_gt (t : Bool) (w R : Bytes) : stripTags t (w ++ c!">" :: R) = stripTags t (w ++ b!">") ++ stripTags false R := by
  induction w generalizing t with
  | nil => simp [stripTags]
  | cons c cs ih =>
    rw [List.cons_append, List.cons_append, stripTags, stripTags]
    split
    · exact ih _
    split
    · exact ih _
    split
    · exact ih _
    · rw [ih]; rfl

/-- Behind any comment or the like: what leaks, and the rest. -/
theorem stripTags_misc {m : Misc} (h : m.Inner) {R : Bytes} (hr : ReadBefore m R) : stripTags false (m.render ++ R) = m.leak ++ stripTags false R := by
  obtain ⟨x, v, hx, hv⟩ := inner_bang h
  have e : stripTags false (m.render ++ R) = stripTags false m.render ++ stripTags false R := by
    rcases inner_closed h with ⟨w, hw⟩ | ⟨b, rfl⟩
    · rw [hw, List.append_assoc]; exact stripTags_gt _ _ _
    · rcases hr with hr | ⟨b', he, -⟩ | ⟨b', he, h1, -, -, h2⟩
      · exact hr.elim
      · cases he
      cases he
      rcases h2 with h2 | h2
      · obtain ⟨u, v, rfl⟩ := List.append_of_mem h2
        have e : (Misc.mark (u ++ c!">" :: v)).render = (b!"<!" ++ u) ++ c!">" :: v := by simp [Misc.render]
        have hv : c!"<" ∉ v := fun hm => h1 (by simp [hm])
        rw [e, List.append_assoc, List.cons_append (bs := R), stripTags_gt _ _ (v ++ R), stripTags_gt _ _ v, stripTags_text hv]
        have := stripTags_text hv []
        rw [List.append_nil] at this
        rw [this]
        simp [stripTags]
      · rw [Misc.render]
        have key : ∀ (t : Bool) (w : Bytes), c!"<" ∉ w → stripTags t (w ++ R) = stripTags t w ++ stripTags false R := by
          intro t w hw
          induction w generalizing t with
          | nil =>
            cases R with
            | nil => simp at h2
            | cons y R =>
              simp only [List.head?_cons, Option.some.injEq] at h2
              simp [stripTags, h2]
          | cons c cs ih =>
            simp only [List.mem_cons, not_or] at hw
            rw [List.cons_append, stripTags, stripTags]
            split
            · exact ih _ hw.2
            split
            · exact ih _ hw.2
            split
            · exact ih _ hw.2
            · rw [ih _ hw.2]; rfl
        have e1 : b!"<!" ++ b ++ R = c!"<" :: ((c!"!" :: b) ++ R) := by simp
        have e2 : b!"<!" ++ b = c!"<" :: (c!"!" :: b) := by simp
        rw [e1, e2, stripTags, if_pos rfl, key true _ (by simp [h1]), stripTags.eq_def _ (c!"<" :: _)]
        simp
  rw [e]
  obtain ⟨p, ps, h1, -, h3⟩ := stripTags_cut m.render
  rw [h3, Misc.leak, h1]
  have : p = [] := by
    rw [hv, cutLt, if_pos rfl] at h1
    exact (List.cons.inj h1).1.symm
  simp [this]

theorem stripTags_canon {g : Forest} (hc : CanonF g) (hl : g.Loose) (ht : g.Tame false) (R : Bytes) :
    stripTags false (g.render ++ R) = g.info.allText ++ stripTags false R := by
  induction g generalizing R with
  | nil => rfl
  | text b next ih =>
    obtain ⟨hb, hl⟩ := hl
    rw [Forest.render, List.append_assoc, stripTags_text hb, ih hc hl ht]
    simp [Forest.info, Info.allText]
  | misc m next ih =>
    obtain ⟨hm, hl⟩ := hl
    obtain ⟨hi, ht⟩ := ht
    rw [Forest.render, List.append_assoc, stripTags_misc (m := m) (by simpa using hi) (readBefore hm R), ih hc hl ht]
    simp [Forest.info, Info.allText]
  | leaf n as ws next ih =>
    obtain ⟨hn, ha, hws, hl⟩ := hl
    obtain ⟨-, ht⟩ := ht
    obtain ⟨hca, rfl, hc⟩ := hc
    have e : (Forest.leaf n as [] next).render ++ R =
        c!"<" :: ((n ++ as.flatMap Attr.render ++ b!"/") ++ c!">" :: (next.render ++ R)) := by
      simp [Forest.render, openTag]
    rw [e, stripTags_markup _, ih hc hl ht]
    · rfl
    · intro hm
      rcases List.mem_append.mp hm with hm | hm
      · exact (canon_tag_clean hn hca ha _ hm).2 rfl
      · exact absurd hm (by decide)
  | node n as ws kids cws next ihk ihn =>
    obtain ⟨hn, ha, hws, hlk, -, hl⟩ := hl
    obtain ⟨-, -, htk, ht⟩ := ht
    obtain ⟨hca, rfl, rfl, hck, hc⟩ := hc
    have e : (Forest.node n as [] kids [] next).render ++ R =
        c!"<" :: ((n ++ as.flatMap Attr.render) ++ c!">" :: (kids.render ++ (c!"<" :: ((c!"/" :: n) ++ c!">" :: (next.render ++ R))))) := by
      simp [Forest.render, openTag, closeTag]
    rw [e, stripTags_markup (fun hm => (canon_tag_clean hn hca ha _ hm).2 rfl), ihk hck hlk htk,
      stripTags_markup _, ihn hc hl ht]
    · simp [Forest.info, Info.allText]
    · simp only [List.mem_cons, not_or]
      exact ⟨by decide, fun hm => (hn.2.1 _ hm).2.2.1 rfl⟩

theorem Spec.Info.allText_append (i j : Info) : (i.append j).allText = i.allText ++ j.allText := by
  induction i with
  | nil => rfl
  | text b next ih => simp [Info.append, Info.allText, ih]
  | misc m next ih => simp [Info.append, Info.allText, ih]
  | elem n a k next _ ih => simp [Info.append, Info.allText, ih]

theorem stripTags_draft {g : Draft} (hc : CanonD g) (hl : g.Loose) (ht : g.Tame false) : stripTags false g.render = g.info.allText := by
  induction g with
  | done f =>
    have := stripTags_canon hc hl ht []
    simp only [List.append_nil, stripTags] at this
    exact this
  | more f n as ws rest ih =>
    obtain ⟨hf, ⟨hn, -⟩, ha, hws, hr⟩ := hl
    obtain ⟨htf, hfit, htr⟩ := ht
    obtain ⟨hcf, hca, rfl, hcr⟩ := hc
    have e : openTag n as [] ++ c!">" :: rest.render = c!"<" :: ((n ++ as.flatMap Attr.render) ++ c!">" :: rest.render) := by simp [openTag]
    rw [Draft.render, stripTags_canon hcf hf htf, e, stripTags_markup (fun hm => (canon_tag_clean hn hca ha _ hm).2 rfl), ih hcr hr htr,
      Draft.info_more, Info.allText_append]
    simp [Info.allText]

theorem writes_text {content : Bytes} {i : Info} (h : Writes content i) :
    unescapeXML (extractTextContent content) = i.textValue := by
  obtain ⟨g, hc, hl, ht, rfl, rfl⟩ := h
  have := stripTags_draft hc hl ht
  rw [extractTextContent, this]; rfl

/-! ### direct text -/

theorem directText_tag {w : Bytes} (h1 : c!"<" ∉ w) (h2 : c!">" ∉ w) (p : UInt8) (k : Int) (r : Bytes) :
    directText (some p) true k (w ++ c!">" :: r) =
      directText (some c!">") false (if (p :: w).getLast? = some c!"/" then k - 1 else k) r := by
  induction w generalizing p with
  | nil => simp [directText]
  | cons c cs ih =>
    simp only [List.mem_cons, not_or] at h1 h2
    rw [List.cons_append, directText.eq_def]; simp only; rw [if_neg (fun e => h1.1 e.symm), if_neg (fun e => h2.1 e.symm), if_neg (by simp), ih h1.2 h2.2]
    simp [List.getLast?_cons]

theorem directText_text {b : Bytes} (h1 : c!"<" ∉ b) (p : Option UInt8) (h2 : ¬ b!"/>" <:+: p.toList ++ b) (k : Int) (r : Bytes) :
    ∃ q, directText p false k (b ++ r) = (if k = 0 then b.filter (· ≠ c!">") else []) ++ directText q false k r := by
  induction b generalizing p with
  | nil => exact ⟨p, by simp⟩
  | cons c cs ih =>
    simp only [List.mem_cons, not_or] at h1
    obtain ⟨q, hq⟩ := ih h1.2 (some c) (fun h => h2 (h.trans (List.suffix_append _ _).isInfix))
    refine ⟨q, ?_⟩
    rw [List.cons_append, directText.eq_def]; simp only; rw [if_neg (fun e => h1.1 e.symm)]
    by_cases hc : c = c!">"
    · rw [if_pos hc, if_neg, hq]
      · simp [hc]
      · rintro rfl
        exact h2 ⟨[], cs, by simp [hc]⟩
    rw [if_neg hc]
    by_cases hk : k = 0
    · rw [if_pos (by simp [hk]), hq]; simp [hk, hc]
    · rw [if_neg (by simp [hk]), hq]; simp [hk]

/-- A text neither containing `/>` nor beginning with `>` can stand behind anything. -/
theorem slash_any {b : Bytes} (h : ¬ b!"/>" <:+: c!"/" :: b) (p : Option UInt8) : ¬ b!"/>" <:+: p.toList ++ b := by
  cases p with
  | none => exact fun e => h (e.trans (List.suffix_cons _ _).isInfix)
  | some x =>
    rintro ⟨s, t, e⟩
    cases s with
    | nil =>
      simp only [List.nil_append, List.cons_append, Option.toList_some, List.cons.injEq] at e
      exact h ⟨[], t, by simp [← e.2]⟩
    | cons y s =>
      simp only [List.cons_append, Option.toList_some, List.nil_append, List.cons.injEq] at e
      exact h ⟨c!"/" :: s, t, by simp [← e.2]⟩

theorem not_infix_gt {l : Bytes} (h : ¬ b!"/>" <:+: l) : ¬ b!"/>" <:+: (some c!">").toList ++ l := by
  rintro ⟨s, t, e⟩
  cases s with
  | nil => simp at e
  | cons y s =>
    simp only [List.cons_append, Option.toList_some, List.nil_append, List.cons.injEq] at e
    exact h ⟨s, t, e.2⟩

theorem name_last {n : Bytes} (hn : TagName n) (x : UInt8) : (x :: n).getLast? ≠ some c!"/" := by
  rw [List.getLast?_cons]
  have hne := hn.1
  rw [List.getLast?_eq_some_getLast hne]
  simp only [Option.getD_some, ne_eq, Option.some.injEq]
  intro h
  exact (hn.2.1 _ (List.getLast_mem hne)).2.1 h

theorem tag_last {n : Bytes} (hn : TagName n) {as : List Attr} (hc : CanonAttrs as) (x : UInt8) :
    (x :: (n ++ as.flatMap Attr.render)).getLast? ≠ some c!"/" := by
  obtain ⟨m, -, rfl⟩ := hc
  rcases List.eq_nil_or_concat m with rfl | ⟨m', p, rfl⟩
  · simpa using name_last hn x
  · simp only [List.concat_eq_append, List.map_append, List.map_cons, List.map_nil, List.flatMap_append, List.flatMap_cons, List.flatMap_nil, List.append_nil,
      Attr.render, canonAttr]
    rw [List.getLast?_cons, List.getLast?_append, List.getLast?_append, List.getLast?_append]
    simp

theorem directText_open {n : Bytes} (hn : TagName n) (p : Option UInt8) (k : Int) (t : Bytes) :
    directText p false k (c!"<" :: (n ++ t)) = directText (some c!"<") true (k + 1) (n ++ t) := by
  obtain ⟨x, xs, rfl⟩ := List.exists_cons_of_ne_nil hn.1
  have := TagName.not_special hn
  rw [List.cons_append, directText, if_pos rfl]
  simp [this]

theorem directText_close (p : Option UInt8) (k : Int) (t : Bytes) :
    directText p false k (c!"<" :: c!"/" :: t) = directText (some c!"<") true (k - 1) (c!"/" :: t) := by
  rw [directText, if_pos rfl]; simp

theorem directText_bang {x : UInt8} (hx : x = c!"!" ∨ x = c!"?") (p : Option UInt8) (k : Int) (t : Bytes) :
    directText p false k (c!"<" :: x :: t) = directText (some c!"<") true k (x :: t) := by
  rw [directText, if_pos rfl]; rcases hx with rfl | rfl <;> simp

theorem directText_canon {g : Forest} (hc : CanonF g) (hl : g.Loose) (ht : g.Tame false) (hg : g.info.Quiet)
    (p : Option UInt8) (k : Int) (hk : 0 ≤ k) (R : Bytes) :
    ∃ q, directText p false k (g.render ++ R) = (if k = 0 then g.info.ownText else []) ++ directText q false k R := by
  induction g generalizing p k R with
  | nil => exact ⟨p, by simp [Forest.render, Forest.info, Info.ownText]⟩
  | text b next ih =>
    obtain ⟨hb, hl⟩ := hl
    obtain ⟨q, hq⟩ := directText_text hb p (slash_any hg.1 p) k (next.render ++ R)
    obtain ⟨q', hq'⟩ := ih hc hl ht hg.2 q k hk R
    refine ⟨q', ?_⟩
    rw [Forest.render, List.append_assoc, hq, hq']
    simp only [Forest.info, Info.ownText]
    split <;> simp
  | misc m next ih =>
    obtain ⟨hm, hl⟩ := hl
    obtain ⟨hi, ht⟩ := ht
    obtain ⟨x, w, l, hx, hw, hlt, hgt, hlast, hl1, hl2, hleak⟩ := inner_markup (m := m) (by simpa using hi) hg.1
    have hx' : c!"<" ≠ x ∧ c!">" ≠ x := by rcases hx with rfl | rfl <;> decide
    have e : (Forest.misc m next).render ++ R = c!"<" :: x :: (w ++ c!">" :: (l ++ (next.render ++ R))) := by
      simp [Forest.render, hw]
    obtain ⟨q, hq⟩ := directText_text hl1 (some c!">") (not_infix_gt hl2) k (next.render ++ R)
    obtain ⟨q', hq'⟩ := ih hc hl ht hg.2 q k hk R
    refine ⟨q', ?_⟩
    rw [e, directText_bang hx, ← List.cons_append, directText_tag (by simp [hlt, hx'.1]) (by simp [hgt, hx'.2]), if_neg (by rw [List.getLast?_cons_cons]; exact hlast), hq, hq']
    simp only [Forest.info, Info.ownText, hleak]
    split <;> simp
  | leaf n as ws next ih =>
    obtain ⟨hn, ha, hws, hl⟩ := hl
    obtain ⟨-, ht⟩ := ht
    obtain ⟨hca, rfl, hc⟩ := hc
    have e : (Forest.leaf n as [] next).render ++ R =
        c!"<" :: (n ++ (as.flatMap Attr.render ++ b!"/" ++ c!">" :: (next.render ++ R))) := by
      simp [Forest.render, openTag]
    have hcl := canon_tag_clean hn hca ha
    obtain ⟨q', hq'⟩ := ih hc hl ht hg.2 (some c!">") k hk R
    refine ⟨q', ?_⟩
    have e2 : n ++ (as.flatMap Attr.render ++ b!"/" ++ c!">" :: (next.render ++ R)) =
        (n ++ as.flatMap Attr.render ++ b!"/") ++ c!">" :: (next.render ++ R) := by simp
    rw [e, directText_open hn, e2, directText_tag, if_pos]
    · rw [show k + 1 - 1 = k by omega, hq']; rfl
    · simp [List.getLast?_cons, List.getLast?_append]
    · simp only [List.mem_append, not_or] at hcl ⊢
      refine ⟨⟨fun h => (hcl _ (.inl h)).1 rfl, fun h => (hcl _ (.inr h)).1 rfl⟩, by decide⟩
    · simp only [List.mem_append, not_or] at hcl ⊢
      refine ⟨⟨fun h => (hcl _ (.inl h)).2 rfl, fun h => (hcl _ (.inr h)).2 rfl⟩, by decide⟩
  | node n as ws kids cws next ihk ihn =>
    obtain ⟨hn, ha, hws, hlk, -, hl⟩ := hl
    obtain ⟨-, -, htk, ht⟩ := ht
    obtain ⟨hca, rfl, rfl, hck, hc⟩ := hc
    have e : (Forest.node n as [] kids [] next).render ++ R =
        c!"<" :: (n ++ (as.flatMap Attr.render ++ c!">" :: (kids.render ++ (c!"<" :: c!"/" :: (n ++ c!">" :: (next.render ++ R)))))) := by
      simp [Forest.render, openTag, closeTag]
    have e2 : ∀ t, n ++ (as.flatMap Attr.render ++ c!">" :: t) = (n ++ as.flatMap Attr.render) ++ c!">" :: t := by intro t; simp
    have hcl := canon_tag_clean hn hca ha
    obtain ⟨q, hq⟩ := ihk hck hlk htk hg.1 (some c!">") (k + 1) (by omega) (c!"<" :: c!"/" :: (n ++ c!">" :: (next.render ++ R)))
    obtain ⟨q', hq'⟩ := ihn hc hl ht hg.2 (some c!">") k hk R
    refine ⟨q', ?_⟩
    rw [e, directText_open hn, e2, directText_tag (fun h => (hcl _ h).1 rfl) (fun h => (hcl _ h).2 rfl),
      if_neg (tag_last hn hca _), hq, if_neg (by omega), List.nil_append, directText_close, ← List.cons_append, directText_tag, if_neg]
    · rw [show k + 1 - 1 = k by omega, hq']; rfl
    · rw [List.getLast?_cons_cons]; exact name_last hn _
    · simp only [List.mem_cons, not_or]; exact ⟨by decide, fun hm => (hn.2.1 _ hm).2.2.2 rfl⟩
    · simp only [List.mem_cons, not_or]; exact ⟨by decide, fun hm => (hn.2.1 _ hm).2.2.1 rfl⟩

theorem Spec.Info.ownText_append (i j : Info) : (i.append j).ownText = i.ownText ++ j.ownText := by
  induction i with
  | nil => rfl
  | text b next ih => simp [Info.append, Info.ownText, ih]
  | misc m next ih => simp [Info.append, Info.ownText, ih]
  | elem n a k next _ ih => simp [Info.append, Info.ownText, ih]

theorem Spec.Info.quiet_append {i j : Info} : (i.append j).Quiet ↔ i.Quiet ∧ j.Quiet := by
  induction i with
  | nil => simp [Info.append, Info.Quiet]
  | text b next ih => simp [Info.append, Info.Quiet, ih, and_assoc]
  | misc m next ih => simp [Info.append, Info.Quiet, ih, and_assoc]
  | elem n a k next _ ih => simp [Info.append, Info.Quiet, ih, and_assoc]

theorem directText_draft {g : Draft} (hc : CanonD g) (hl : g.Loose) (ht : g.Tame false) (hg : g.info.Quiet)
    (p : Option UInt8) (k : Int) (hk : 0 ≤ k) : directText p false k g.render = if k = 0 then g.info.ownText else [] := by
  induction g generalizing p k with
  | done f =>
    obtain ⟨q, hq⟩ := directText_canon hc hl ht hg p k hk []
    simp only [List.append_nil, directText] at hq
    exact hq
  | more f n as ws rest ih =>
    obtain ⟨hf, ⟨hn, -⟩, ha, hws, hr⟩ := hl
    obtain ⟨htf, hfit, htr⟩ := ht
    obtain ⟨hcf, hca, rfl, hcr⟩ := hc
    rw [Draft.info_more, Info.quiet_append] at hg
    have hcl := canon_tag_clean hn hca ha
    have e : openTag n as [] ++ c!">" :: rest.render = c!"<" :: (n ++ (as.flatMap Attr.render ++ c!">" :: rest.render)) := by simp [openTag]
    have e2 : n ++ (as.flatMap Attr.render ++ c!">" :: rest.render) = (n ++ as.flatMap Attr.render) ++ c!">" :: rest.render := by simp
    obtain ⟨q, hq⟩ := directText_canon hcf hf htf hg.1 p k hk (openTag n as [] ++ c!">" :: rest.render)
    rw [Draft.render, hq, e, directText_open hn, e2, directText_tag (fun h => (hcl _ h).1 rfl) (fun h => (hcl _ h).2 rfl),
      if_neg (tag_last hn hca _), ih hcr hr htr hg.2.1 (some c!">") (k + 1) (by omega), if_neg (by omega : ¬ k + 1 = 0), Draft.info_more, Info.ownText_append]
    simp [Info.ownText]

theorem writes_direct {content : Bytes} {i : Info} (h : Writes content i) (hg : i.Quiet) :
    unescapeXML (extractDirectTextOnly content) = i.ownValue := by
  obtain ⟨g, hc, hl, ht, rfl, rfl⟩ := h
  have hq := directText_draft hc hl ht hg none 0 (by omega)
  simp only [if_true] at hq
  rw [extractDirectTextOnly, hq]; rfl

end Verif
