import Verif.Lemmas.Content
import Verif.Model.Get
/- The elements of one level, as the element loops of the code meet them, are those of the document. -/
namespace Verif
open Spec

theorem skipToNext_text {b : Bytes} (h : c!"<" ∉ b) (r : Bytes) : skipToNext (b ++ r) = skipToNext r := by
  induction b with
  | nil => rfl
  | cons c cs ih =>
    simp only [List.mem_cons, not_or] at h
    rw [List.cons_append, skipToNext.eq_def]
    simp only
    rw [if_neg (fun e => h.1 e.symm), ih h.2]

theorem skipDoctype_of {d : Int} {r r' : Bytes} (h : doctypeR d r = some r') : skipDoctype d r = r' := by
  induction r generalizing d with
  | nil => simp [doctypeR] at h
  | cons c cs ih =>
    simp only [doctypeR] at h
    simp only [skipDoctype]
    split at h
    · rename_i h1; rw [if_pos h1]; exact ih h
    · rename_i h1
      rw [if_neg h1]
      split at h
      · rename_i h2; rw [if_pos h2]; exact ih h
      · rename_i h2
        rw [if_neg h2]
        split at h
        · rename_i h3; rw [if_pos h3]; simpa using h
        · rename_i h3; rw [if_neg h3]; exact ih h

theorem skipCommentP_of {r r' : Bytes} (h : commentR r = some r') : skipCommentP r = r' := by
  fun_induction commentR r with
  | case1 =>
    rename_i hab
    simp only [Option.some.injEq] at h
    simp only [Bool.and_eq_true, decide_eq_true_eq] at hab
    rw [skipCommentP, if_pos (by simp [hab])]; exact h
  | case2 => simp at h
  | case3 a b c r hab ih =>
    simp only [Bool.and_eq_true, decide_eq_true_eq, not_and] at hab
    rw [skipCommentP, if_neg (by simp only [Bool.and_eq_true, decide_eq_true_eq]; intro h2; exact hab h2.1.1 h2.1.2)]
    exact ih h
  | case4 => simp at h

theorem skipCommentP_dashes {b : Bytes} (h : ¬ b!"--" <:+: b ++ b!"-") (h1 : ¬ b!">" <+: b) (h2 : ¬ b!"->" <+: b) (r : Bytes) :
    skipCommentP (b!"--" ++ (b ++ b!"-->" ++ r)) = r := by
  have h0 := skipCommentP_of (commentR_of h r)
  cases b with
  | nil => simp [skipCommentP]
  | cons x xs =>
    have hx : x ≠ c!">" := by rintro rfl; exact h1 ⟨xs, rfl⟩
    cases xs with
    | nil =>
      simp only [List.cons_append, List.nil_append] at h0 ⊢
      rw [skipCommentP, if_neg (by simp [hx]), skipCommentP, if_neg (by simp)]
      exact h0
    | cons y ys =>
      simp only [List.cons_append, List.nil_append] at h0 ⊢
      have hy : ¬ (x = c!"-" ∧ y = c!">") := by rintro ⟨rfl, rfl⟩; exact h2 ⟨ys, rfl⟩
      rw [skipCommentP, if_neg (by simp [hx]), skipCommentP,
        if_neg (by simp only [Bool.and_eq_true, decide_eq_true_eq]; intro hh; exact hy ⟨hh.1.2, hh.2⟩)]
      exact h0

theorem doctypeLike_iff (b : Bytes) : DoctypeLike b ↔ (b.take 7).map lowerByte = b!"doctype" := Iff.rfl

theorem isDoctype_iff (ds : Bytes) : isDoctype (c!"<" :: c!"!" :: ds) = true ↔ DoctypeLike ds := by
  rw [doctypeLike_iff]
  simp only [isDoctype, equalFoldASCII, List.take_succ_cons, List.map_cons, beq_iff_eq]
  constructor
  · intro h
    simp only [List.map_nil, List.cons.injEq] at h
    rw [h.2.2]; decide
  · intro h
    rw [h]; decide

theorem lowerByte_gt : lowerByte c!">" = c!">" := by decide

theorem doctypeLike_gt {b r : Bytes} (h : DoctypeLike (b ++ c!">" :: r)) : DoctypeLike b := by
  rw [doctypeLike_iff] at *
  by_cases hl : 7 ≤ b.length
  · rwa [List.take_append_of_le_length hl] at h
  · exfalso
    rw [List.take_append, List.map_append] at h
    have : c!">" ∈ (b!"doctype" : Bytes) := by
      rw [← h]
      obtain ⟨k, hk⟩ : ∃ k, 7 - b.length = k + 1 := ⟨6 - b.length, by omega⟩
      rw [hk, List.take_succ_cons, List.map_cons, lowerByte_gt]
      simp
    exact absurd this (by decide)

theorem skipToNext_outer {m : Misc} (hl : m.Legal) (h : m.Outer) (r : Bytes) : skipToNext (m.render ++ r) = skipToNext r := by
  cases m with
  | comment b =>
    have e : (Misc.comment b).render ++ r = c!"<" :: c!"!" :: (b!"--" ++ (b ++ b!"-->" ++ r)) := by simp [Misc.render]
    rw [e, skipToNext.eq_def]
    simp only
    rw [if_pos trivial, if_neg (by decide), if_pos trivial, if_neg, if_pos (by simp [List.isPrefixOf]), skipCommentP_dashes hl h.1 h.2]
    rw [isDoctype_iff, doctypeLike_iff]
    simp only [List.cons_append, List.take_succ_cons, List.map_cons, List.cons.injEq]
    intro hh; exact absurd hh.1 (by decide)
  | cdata b =>
    have e : (Misc.cdata b).render ++ r = c!"<" :: c!"!" :: (b!"[CDATA[" ++ b ++ b!"]]>" ++ r) := by simp [Misc.render]
    rw [e, skipToNext.eq_def]
    simp only
    rw [if_pos trivial, if_neg (by decide), if_pos trivial, if_neg, if_neg (by simp [List.isPrefixOf]), skipToNext_text]
    · simp only [List.mem_append]; rintro ((h1 | h1) | h1)
      · exact absurd h1 (by decide)
      · exact h h1
      · exact absurd h1 (by decide)
    · rw [isDoctype_iff, doctypeLike_iff]
      simp only [List.cons_append, List.take_succ_cons, List.map_cons, List.cons.injEq]
      intro hh; exact absurd hh.1 (by decide)
  | decl b =>
    have e : (Misc.decl b).render ++ r = c!"<" :: c!"!" :: (b ++ b!">" ++ r) := by simp [Misc.render]
    have e2 : b ++ b!">" ++ r = b ++ c!">" :: r := by simp
    rw [e, skipToNext.eq_def]
    simp only
    rw [if_pos trivial, if_neg (by decide), if_pos trivial, if_neg, if_neg, skipToNext_text]
    · simp only [List.mem_append]; rintro (h1 | h1)
      · exact h.1 h1
      · exact absurd h1 (by decide)
    · rw [e2]
      intro hp
      refine hl.2.2.2.2.1 ?_
      rw [List.isPrefixOf_iff_prefix] at hp
      match b, hp with
      | [], ⟨t, ht⟩ => simp at ht
      | [x], ⟨t, ht⟩ => simp at ht
      | x :: y :: z, ⟨t, ht⟩ => simp at ht; exact ⟨z, by rw [← ht.1, ← ht.2.1]; rfl⟩
    · rw [isDoctype_iff, e2]
      exact fun hd => h.2 (doctypeLike_gt hd)
  | pi b =>
    have e : (Misc.pi b).render ++ r = c!"<" :: c!"?" :: (b ++ b!">" ++ r) := by simp [Misc.render]
    have e2 : c!"<" :: c!"?" :: (b ++ b!">" ++ r) = (c!"<" :: c!"?" :: b) ++ c!">" :: r := by simp
    rw [e, skipToNext.eq_def]
    simp only
    rw [if_pos trivial, if_neg (by decide), if_neg (by decide), e2,
      readUntil_of (by simp [hl.1]) (by simpa [Misc.Outer] using h)]
    rfl
  | mark b => exact hl.elim
  | doctype b =>
    have hd : doctypeR 0 (b ++ c!">" :: r) = some r := doctypeR_of (by simpa using hl.2.1) (by simpa using hl.2.2) r
    have e : (Misc.doctype b).render ++ r = c!"<" :: c!"!" :: (b ++ c!">" :: r) := by simp [Misc.render]
    rw [e, skipToNext.eq_def]
    simp only
    rw [if_pos trivial, if_neg (by decide), if_pos trivial]
    rcases hl.1 with ⟨t, rfl⟩ | ⟨t, rfl⟩
    · rw [if_pos]
      · simp [doctypeR] at hd
        simp only [List.cons_append, List.drop_succ_cons, List.drop_zero, List.nil_append]
        rw [skipDoctype_of hd]
      · rw [isDoctype_iff, doctypeLike_iff]; simp; decide
    · rw [if_pos]
      · simp [doctypeR] at hd
        simp only [List.cons_append, List.drop_succ_cons, List.drop_zero, List.nil_append]
        rw [skipDoctype_of hd]
      · rw [isDoctype_iff, doctypeLike_iff]; simp; decide

theorem doctypeLike_lt {b r : Bytes} (hr : r.head? = some c!"<") (h : DoctypeLike (b ++ r)) : DoctypeLike b := by
  rw [doctypeLike_iff] at *
  by_cases hl : 7 ≤ b.length
  · rwa [List.take_append_of_le_length hl] at h
  · exfalso
    cases r with
    | nil => simp at hr
    | cons x r =>
      simp only [List.head?_cons, Option.some.injEq] at hr
      subst hr
      rw [List.take_append, List.map_append] at h
      have : c!"<" ∈ (b!"doctype" : Bytes) := by
        rw [← h]
        obtain ⟨k, hk⟩ : ∃ k, 7 - b.length = k + 1 := ⟨6 - b.length, by omega⟩
        rw [hk, List.take_succ_cons, List.map_cons, show lowerByte c!"<" = c!"<" by decide]
        simp
      exact absurd this (by decide)

theorem skipCommentP_first {w : Bytes} (h : ¬ b!"-->" <:+: w ++ b!"--") (r : Bytes) : skipCommentP (w ++ b!"-->" ++ r) = r := by
  induction w with
  | nil => simp [skipCommentP]
  | cons a w ih =>
    have ih := ih (fun hh => h (hh.trans (List.suffix_cons a _).isInfix))
    have hlen : 2 ≤ (w ++ b!"--").length := by simp
    obtain ⟨x, y, t, e⟩ : ∃ x y t, w ++ b!"--" = x :: y :: t := by
      match hq : w ++ b!"--", hlen with
      | x :: y :: t, _ => exact ⟨x, y, t, rfl⟩
    have e2 : w ++ b!"-->" ++ r = x :: y :: (t ++ c!">" :: r) := by
      have : w ++ b!"-->" ++ r = (w ++ b!"--") ++ c!">" :: r := by simp
      rw [this, e]; rfl
    rw [e2] at ih
    rw [List.cons_append, List.cons_append, e2, skipCommentP, if_neg, ih]
    intro hh
    simp only [Bool.and_eq_true, decide_eq_true_eq] at hh
    refine h ⟨[], t, ?_⟩
    rw [List.cons_append, e, hh.1.1, hh.1.2, hh.2]; rfl

theorem skipToNext_read {m : Misc} {r : Bytes} (hl : ReadBefore m r) (h : m.Outer) : skipToNext (m.render ++ r) = skipToNext r := by
  rcases hl with hl | ⟨b, rfl, hb⟩ | ⟨b, rfl, h1, h2, h3, h4⟩
  · exact skipToNext_outer hl h r
  · have e : (Misc.comment b).render ++ r = c!"<" :: c!"!" :: ((b!"--" ++ b) ++ b!"-->" ++ r) := by simp [Misc.render]
    rw [e, skipToNext.eq_def]
    simp only
    rw [if_pos trivial, if_neg (by decide), if_pos trivial, if_neg, if_pos (by simp [List.isPrefixOf]), skipCommentP_first hb]
    rw [isDoctype_iff, doctypeLike_iff]
    simp only [List.cons_append, List.take_succ_cons, List.map_cons, List.cons.injEq]
    intro hh; exact absurd hh.1 (by decide)
  have e : (Misc.mark b).render ++ r = c!"<" :: c!"!" :: (b ++ r) := by simp [Misc.render]
  rw [e, skipToNext.eq_def]
  simp only
  rw [if_pos trivial, if_neg (by decide), if_pos trivial, if_neg, if_neg, skipToNext_text h1]
  · rw [List.isPrefixOf_iff_prefix]
    intro hp
    match b, hp with
    | [], ⟨t, ht⟩ =>
      rcases h4 with h4 | h4
      · simp at h4
      · rw [List.nil_append] at ht; rw [← ht] at h4; simp at h4
    | [x], ⟨t, ht⟩ =>
      simp only [List.cons_append, List.nil_append, List.cons.injEq] at ht
      rcases h4 with h4 | h4
      · rw [← ht.1] at h4; simp at h4
      · rw [← ht.2] at h4; simp at h4
    | x :: y :: z, ⟨t, ht⟩ => simp at ht; exact h3 ⟨z, by rw [← ht.1, ← ht.2.1]; rfl⟩
  · rw [isDoctype_iff]
    intro hd
    rcases h4 with h4 | h4
    · obtain ⟨u, v, rfl⟩ := List.append_of_mem h4
      have := doctypeLike_gt (b := u) (r := v ++ r) (by simpa using hd)
      refine h2 ?_
      rw [doctypeLike_iff] at this ⊢
      have hl : 7 ≤ u.length := by
        have := congrArg List.length this
        simp at this; omega
      rwa [List.take_append_of_le_length hl]
    · exact h2 (doctypeLike_lt h4 hd)

theorem Misc.inner_outer {m : Misc} (h : m.Inner) : m.Outer := by
  cases m with
  | comment b =>
    exact h.2
  | cdata b => exact h
  | decl b => exact h
  | pi b => exact h.2
  | doctype b => trivial
  | mark b => trivial

theorem skipToNext_open {n : Bytes} (hn : TagName n) (as : List Attr) (ws r : Bytes) :
    skipToNext (openTag n as ws ++ r) = some (openTag n as ws ++ r) := by
  obtain ⟨x, xs, rfl⟩ := List.exists_cons_of_ne_nil hn.1
  have e : openTag (x :: xs) as ws ++ r = c!"<" :: x :: (xs ++ as.flatMap Attr.render ++ ws ++ r) := by simp [openTag]
  rw [e, skipToNext.eq_def]
  simp [TagName.not_special hn]

theorem topElems_none {o : Ord} {r : Bytes} (h : skipToNext r = none) : topElems o r = [] := by
  rw [topElems]; split
  · rfl
  · rename_i h2; rw [h] at h2; simp at h2

theorem topElems_some {o : Ord} {r s : Bytes} (h : skipToNext r = some s) :
    topElems o r = (elemAt o s).1 :: topElems o (elemAt o s).2 := by
  rw [topElems]; split
  · rename_i h2; rw [h] at h2; simp at h2
  · rename_i h2; rw [h] at h2; simp only [Option.some.injEq] at h2; subst h2; rfl

theorem topElems_skip {o : Ord} {r r' : Bytes} (h : skipToNext r = skipToNext r') : topElems o r = topElems o r' := by
  cases h2 : skipToNext r' with
  | none => rw [topElems_none (h.trans h2), topElems_none h2]
  | some s => rw [topElems_some (h.trans h2), topElems_some h2]

/-- `content` is a way of writing `i`, as the parser writes content back. -/
def Writes (content : Bytes) (i : Info) : Prop :=
  ∃ g : Draft, CanonD g ∧ g.Loose ∧ g.Tame false ∧ g.info = i ∧ content = g.render

theorem Writes.nil : Writes [] .nil := ⟨.done .nil, trivial, trivial, trivial, rfl, rfl⟩

/-- What the code holds about an element agrees with the element. -/
structure Rep (e : Elem) (nd : Node) : Prop where
  name : e.name = nd.name
  attr : ∀ k, Attrs.get? k e.attrs = nd.attr k
  content : Writes e.content nd.kids
  self : e.selfClosing = true → e.content = []
  uniq : e.attrs.Uniq

theorem elemAt_self {o : Ord} {n : Bytes} {as : List Attr} {ws r : Bytes} (hn : TagName n) (ha : AttrsLoose as)
    (hws : ∀ c ∈ ws, IsWs c) :
    elemAt o (openTag n as ws ++ c!"/" :: c!">" :: r) =
      (⟨n, attrMap as, [], true, (openTag n as ws ++ c!"/" :: c!">" :: r).length, r.length, r.length⟩, r) := by
  have e : (openTag n as ws ++ c!"/" :: c!">" :: r).drop 1 = n ++ as.flatMap Attr.render ++ ws ++ c!"/" :: c!">" :: r := by
    simp [openTag]
  unfold elemAt
  rw [e, parseTag_self hn ha hws]
  simp

theorem elemAt_open {o : Ord} (ho : o.IsPerm) {n : Bytes} {as : List Attr} {ws cws r : Bytes} {kids : Forest} (hn : TagName n)
    (ha : AttrsLoose as) (hws : ∀ c ∈ ws, IsWs c) (hk : kids.Loose) (hkt : kids.Tame false)
    (hcws : EndTail cws) (hlen : n.length + cws.length ≤ 1048576) :
    ∃ g : Forest, CanonF g ∧ (g.Loose ∧ ∀ d, kids.Legal d → g.Legal d) ∧ g.Tame false ∧ g.info = kids.info ∧ Twin kids.redo g ∧
    elemAt o (openTag n as ws ++ c!">" :: (kids.render ++ (closeTag n cws ++ r))) =
      (⟨n, attrMap as, g.render, false, (openTag n as ws ++ c!">" :: (kids.render ++ (closeTag n cws ++ r))).length,
        (kids.render ++ (closeTag n cws ++ r)).length, r.length⟩, r) := by
  obtain ⟨g, h1, h2, h3, h4, h6, h5⟩ := parseElementContent_forest ho hn hk hkt hcws hlen r
  refine ⟨g, h1, h2, h3, h4, h6, ?_⟩
  have e : (openTag n as ws ++ c!">" :: (kids.render ++ (closeTag n cws ++ r))).drop 1 =
      n ++ as.flatMap Attr.render ++ ws ++ c!">" :: (kids.render ++ (closeTag n cws ++ r)) := by
    simp [openTag]
  unfold elemAt
  rw [e, parseTag_open hn ha hws]
  simp only [Bool.false_eq_true, if_false]
  rw [h5]

/-- Content that is not closed reaches to the end. -/
theorem contentLoop_draft {o : Ord} (ho : o.IsPerm) {name : Bytes} (hq : name.head? ≠ some c!"?") {f : Draft} (hl : f.Loose) (ht : f.Tame false) (d : Nat) (hd : 1 ≤ d) :
    ∃ g : Draft, CanonD g ∧ g.Loose ∧ g.Tame false ∧ g.info = f.info ∧ contentLoop o name d f.render = (g.render, []) := by
  induction f generalizing d with
  | done f =>
    obtain ⟨g, h1, h2, h3, h4, -, h5⟩ := contentLoop_forest ho hq hl ht d hd []
    refine ⟨.done g, h1, h2.1, h3, h4, ?_⟩
    rw [List.append_nil, contentLoop.eq_def o name d []] at h5
    simpa [prepend, Draft.render] using h5
  | more f n as ws rest ih =>
    obtain ⟨hf, hn, ha, hws, hr⟩ := hl
    obtain ⟨htf, hfit, htr⟩ := ht
    obtain ⟨g, h1, h2, h3, h4, -, h5⟩ := contentLoop_forest ho hq hf htf d hd (openTag n as ws ++ c!">" :: rest.render)
    obtain ⟨G, k1, k2, k3, k4, k5⟩ := ih hr htr (if n = name then d + 1 else d) (by split <;> omega)
    obtain ⟨c1, -, c2, c3, c4⟩ := canon_legal ho ha hfit rest.render
    refine ⟨.more g n ((o rest.render (attrMap as)).map canonAttr) [] G, ⟨h1, c3, rfl, k1⟩, ⟨h2.1, hn, c1, by simp, k2⟩, ⟨h3, c2, k3⟩,
      by simp only [Draft.info_more, h4, k4, c4], ?_⟩
    rw [Draft.render, h5, contentLoop_open o name d hn.1 ha hws, k5]
    simp [prepend, Draft.render]

/-- Content that is not closed, inside the library's own wrapper: the closing tag of the wrapper is found. -/
theorem contentLoop_wrap {o : Ord} (ho : o.IsPerm) {f : Draft} (hl : f.Loose) (ht : f.Tame false) (hw : TagName b!"_xmldot_root") (R : Bytes) :
    ∃ g : Draft, CanonD g ∧ g.Loose ∧ g.Tame false ∧ g.info = f.info ∧
      contentLoop o b!"_xmldot_root" 1 (f.render ++ (closeTag b!"_xmldot_root" [] ++ R)) = (g.render, R) := by
  induction f with
  | done f =>
    obtain ⟨g, h1, h2, h3, h4, -, h5⟩ := parseElementContent_forest ho hw hl ht (cws := []) ⟨by simp, by simp⟩ (by simp) R
    exact ⟨.done g, h1, h2.1, h3, h4, h5⟩
  | more f n as ws rest ih =>
    obtain ⟨hf, hn, ha, hws, hr⟩ := hl
    obtain ⟨htf, hfit, htr⟩ := ht
    obtain ⟨g, h1, h2, h3, h4, -, h5⟩ := contentLoop_forest ho (name := b!"_xmldot_root") (by decide) hf htf 1 (by omega) (openTag n as ws ++ c!">" :: (rest.render ++ (closeTag b!"_xmldot_root" [] ++ R)))
    obtain ⟨G, k1, k2, k3, k4, k5⟩ := ih hr htr
    obtain ⟨c1, -, c2, c3, c4⟩ := canon_legal ho ha hfit (rest.render ++ (closeTag b!"_xmldot_root" [] ++ R))
    refine ⟨.more g n ((o (rest.render ++ (closeTag b!"_xmldot_root" [] ++ R)) (attrMap as)).map canonAttr) [] G, ⟨h1, c3, rfl, k1⟩, ⟨h2.1, hn, c1, by simp, k2⟩, ⟨h3, c2, k3⟩,
      by simp only [Draft.info_more, h4, k4, c4], ?_⟩
    have e : (Draft.more f n as ws rest).render ++ (closeTag b!"_xmldot_root" [] ++ R) =
      f.render ++ (openTag n as ws ++ c!">" :: (rest.render ++ (closeTag b!"_xmldot_root" [] ++ R))) := by simp [Draft.render]
    rw [e, h5, contentLoop_open o _ 1 hn.1 ha hws, if_neg hn.2, k5]
    simp [prepend, Draft.render]

theorem elemAt_whole {o : Ord} {n : Bytes} {as : List Attr} {ws B c : Bytes} (hn : TagName n) (ha : AttrsLoose as)
    (hws : ∀ c ∈ ws, IsWs c) (h : contentLoop o n 1 B = (c, [])) :
    ∃ x y z, elemAt o (openTag n as ws ++ c!">" :: B) = (⟨n, attrMap as, c, false, x, y, z⟩, []) := by
  have e : (openTag n as ws ++ c!">" :: B).drop 1 = n ++ as.flatMap Attr.render ++ ws ++ c!">" :: B := by
    simp [openTag]
  unfold elemAt
  rw [e, parseTag_open hn ha hws]
  simp only [Bool.false_eq_true, if_false]
  unfold parseElementContent
  rw [h]
  exact ⟨_, _, _, rfl⟩

theorem elemAt_stub {o : Ord} (ho : o.IsPerm) {n : Bytes} {as : List Attr} {ws : Bytes} {rest : Draft} (hn : TagName n)
    (ha : AttrsLoose as) (hws : ∀ c ∈ ws, IsWs c) (hk : rest.Loose) (hkt : rest.Tame false) :
    ∃ g : Draft, CanonD g ∧ g.Loose ∧ g.Tame false ∧ g.info = rest.info ∧
    elemAt o (openTag n as ws ++ c!">" :: rest.render) =
      (⟨n, attrMap as, g.render, false, (openTag n as ws ++ c!">" :: rest.render).length, rest.render.length, 0⟩, []) := by
  obtain ⟨g, h1, h2, h3, h4, h5⟩ := contentLoop_draft ho hn.2.2.2.1 hk hkt 1 (by omega)
  refine ⟨g, h1, h2, h3, h4, ?_⟩
  have e : (openTag n as ws ++ c!">" :: rest.render).drop 1 = n ++ as.flatMap Attr.render ++ ws ++ c!">" :: rest.render := by
    simp [openTag]
  unfold elemAt
  rw [e, parseTag_open hn ha hws]
  simp only [Bool.false_eq_true, if_false]
  unfold parseElementContent
  rw [h5]; rfl

/-- The loop over one level meets exactly the elements of the level, in order. -/
theorem topElems_forest_go {o : Ord} (ho : o.IsPerm) {f : Forest} {top : Bool} (hl : f.Loose) (ht : f.Tame top) (R : Bytes) :
    ∃ es, topElems o (f.render ++ R) = es ++ topElems o R ∧ All2 Rep es f.info.elems := by
  induction f with
  | nil => exact ⟨[], rfl, .nil⟩
  | text b next ih =>
    obtain ⟨hb, hl⟩ := hl
    rw [Forest.render, List.append_assoc, topElems_skip (skipToNext_text hb _)]
    exact ih hl ht
  | misc m next ih =>
    obtain ⟨hm, hl⟩ := hl
    obtain ⟨hi, ht⟩ := ht
    have hout : m.Outer := by
      cases top
      · exact Misc.inner_outer (by simpa using hi)
      · simpa using hi
    rw [Forest.render, List.append_assoc, topElems_skip (skipToNext_read (readBefore hm _) hout)]
    exact ih hl ht
  | leaf n as ws next ih =>
    obtain ⟨hn, ha, hws, hl⟩ := hl
    obtain ⟨-, ht⟩ := ht
    have e : (Forest.leaf n as ws next).render ++ R = openTag n as ws ++ c!"/" :: c!">" :: (next.render ++ R) := by simp [Forest.render]
    obtain ⟨es, h1, h2⟩ := ih hl ht
    rw [e, topElems_some (skipToNext_open hn as ws _), elemAt_self hn ha hws]
    simp only
    rw [h1]
    exact ⟨_ :: es, rfl, .cons ⟨rfl, fun k => attrMap_get as k, Writes.nil, fun _ => rfl, attrMap_uniq as⟩ h2⟩
  | node n as ws kids cws next ihk ihn =>
    obtain ⟨hn, ha, hws, hlk, hcws, hl⟩ := hl
    obtain ⟨-, hlen, htk, ht⟩ := ht
    obtain ⟨g, h1, h2, h3, h4, -, h5⟩ := elemAt_open ho (r := next.render ++ R) hn ha hws hlk htk hcws hlen
    have e : (Forest.node n as ws kids cws next).render ++ R =
        openTag n as ws ++ c!">" :: (kids.render ++ (closeTag n cws ++ (next.render ++ R))) := by simp [Forest.render]
    obtain ⟨es, k1, k2⟩ := ihn hl ht
    rw [e, topElems_some (skipToNext_open hn as ws _), h5]
    simp only
    rw [k1]
    exact ⟨_ :: es, rfl, .cons ⟨rfl, fun k => attrMap_get as k, ⟨.done g, h1, h2.1, h3, h4, rfl⟩, fun h => by simp at h, attrMap_uniq as⟩ k2⟩

theorem topElems_empty (o : Ord) : topElems o [] = [] := topElems_none (by simp [skipToNext])

theorem topElems_forest {o : Ord} (ho : o.IsPerm) {f : Forest} {top : Bool} (hl : f.Loose) (ht : f.Tame top) :
    All2 Rep (topElems o f.render) f.info.elems := by
  obtain ⟨es, h1, h2⟩ := topElems_forest_go ho hl ht []
  rw [List.append_nil, topElems_empty, List.append_nil] at h1
  rw [h1]; exact h2

theorem Spec.Info.elems_append (i j : Info) : (i.append j).elems = i.elems ++ j.elems := by
  induction i with
  | nil => rfl
  | text b next ih => exact ih
  | misc m next ih => exact ih
  | elem n a k next _ ih => simp [Info.append, Info.elems, ih]

theorem All2.join {α β : Type} {R : α → β → Prop} {as as' : List α} {bs bs' : List β}
    (h : All2 R as bs) (h' : All2 R as' bs') : All2 R (as ++ as') (bs ++ bs') := by
  induction h with
  | nil => exact h'
  | cons hab _ ih => exact .cons hab ih

theorem topElems_draft {o : Ord} (ho : o.IsPerm) {f : Draft} {top : Bool} (hl : f.Loose) (ht : f.Tame top) :
    All2 Rep (topElems o f.render) f.info.elems := by
  cases f with
  | done f => exact topElems_forest ho hl ht
  | more f n as ws rest =>
    obtain ⟨hf, hn, ha, hws, hr⟩ := hl
    obtain ⟨htf, hfit, htr⟩ := ht
    obtain ⟨es, h1, h2⟩ := topElems_forest_go ho hf htf (openTag n as ws ++ c!">" :: rest.render)
    obtain ⟨g, k1, k2, k3, k4, k5⟩ := elemAt_stub ho hn.1 ha hws hr htr
    rw [Draft.render, h1, topElems_some (skipToNext_open hn.1 as ws _), k5, topElems_empty, Draft.info_more, Info.elems_append]
    exact h2.join (.cons ⟨rfl, fun k => attrMap_get as k, ⟨g, k1, k2, k3, k4, rfl⟩, fun h => by simp at h, attrMap_uniq as⟩ .nil)

theorem topElems_writes {o : Ord} (ho : o.IsPerm) {content : Bytes} {i : Info} (h : Writes content i) :
    All2 Rep (topElems o content) i.elems := by
  obtain ⟨g, -, hl, ht, hi, rfl⟩ := h
  rw [← hi]; exact topElems_draft ho hl ht

end Verif
