import Verif.Lemmas.HopsNone
import Verif.Props.Errors
import Verif.Props.Set
/- C68: Set and Delete through wildcards, positions, modifiers and any other way of writing a path. -/
namespace Verif.Props
open Verif Verif.Spec

theorem reach_ne {cs : Bool} {hs : List Hop} {c : Ctx} {x : Bytes} (h : Reach cs hs c x) : hs ≠ [] := by
  rintro rfl; simp [Reach] at h

theorem set_parsed {o : Ord} {xml path : Bytes} {v : GoVal} {opts : Options} (hx : valid xml = true) (hn : v ≠ .nil) {ss : List Seg} (h : parsePathWithOptions path opts.caseSensitive = .ok ss) (h0 : ss ≠ []) :
    setWithOptions o xml path v (some opts) = finish xml (setElement o opts.caseSensitive opts.indent xml ss v) := by
  rw [set_accepted (.inr hx) hn]
  simp only [effOpts, Option.getD_some]
  rw [h]
  cases ss with
  | nil => exact absurd rfl h0
  | cons => rfl

theorem delete_parsed {o : Ord} {xml path : Bytes} {opts : Options} (hx : valid xml = true) {ss : List Seg} (h : parsePathWithOptions path opts.caseSensitive = .ok ss) (h0 : ss ≠ []) :
    deleteWithOptions o xml path (some opts) = finish xml (deleteElement o opts.caseSensitive xml ss) := by
  rw [delete_valid hx]
  simp only [effOpts, Option.getD_some]
  rw [h]
  cases ss with
  | nil => exact absurd rfl h0
  | cons => rfl

/-- C68: What Delete does depends only on the element that the beginning of the path leads to and on what follows, not on how the way to the element is written. -/
theorem C68_delete {o : Ord} (ho : o.IsPerm) (opts : Options) {c : Ctx} {e : El} (h : Sound (c.plug (e.cons .nil))) {hs ht : List Hop} {ps qs rest : List Bytes} {p q : Bytes}
    (hp : PathSteps p (ps ++ rest)) (hq : PathSteps q (qs ++ rest)) (h1 : HopParts hs ps) (h2 : HopParts ht qs) (r1 : Reach opts.caseSensitive hs c e.name)
    (r2 : Reach opts.caseSensitive ht c e.name) (hr : ∀ x, rest.head? = some x → ¬ Position x) :
    deleteWithOptions o (c.plug (e.cons .nil)).render p (some opts) = deleteWithOptions o (c.plug (e.cons .nil)).render q (some opts) := by
  obtain ⟨ss, rs, a1, _, a2, a3⟩ := parse_hops hp h1 (reach_ne r1) opts.caseSensitive
  obtain ⟨tt, rs', b1, _, b2, b3⟩ := parse_hops hq h2 (reach_ne r2) opts.caseSensitive
  have := all2_fun a2 b2
  subst this
  rw [delete_parsed (sound_valid h) a3 (by simp [hopSegs_ne a1 (reach_ne r1)]), delete_parsed (sound_valid h) b3 (by simp [hopSegs_ne b1 (reach_ne r2)]),
    deleteElement_same (hops_same ho h a1 b1 r1 r2) (hopSegs_plainly a1 (reach_ne r1)) (hopSegs_plainly b1 (reach_ne r2)) (fuse_fresh a2 hr)]

/-- C68: And so for Set. (Indentation counts the parts of a path. An attribute of an element that is missing is not covered.) -/
theorem C68_set {o : Ord} (ho : o.IsPerm) (opts : Options) {c : Ctx} {e : El} (h : Sound (c.plug (e.cons .nil))) {hs ht : List Hop} {ps qs rest : List Bytes} {p q : Bytes}
    (hp : PathSteps p (ps ++ rest)) (hq : PathSteps q (qs ++ rest)) (h1 : HopParts hs ps) (h2 : HopParts ht qs) (r1 : Reach opts.caseSensitive hs c e.name)
    (r2 : Reach opts.caseSensitive ht c e.name) (hr : ∀ x, rest.head? = some x → ¬ Position x) (hi : opts.indent = [] ∨ ps.length = qs.length)
    (ha : ∀ x, rest.getLast? = some x → AttrStep x → rest = [x]) (v : GoVal) :
    setWithOptions o (c.plug (e.cons .nil)).render p v (some opts) = setWithOptions o (c.plug (e.cons .nil)).render q v (some opts) := by
  by_cases hv : v = .nil
  · subst hv
    rw [C62_set_nil, C62_set_nil]
    exact C68_delete ho opts h hp hq h1 h2 r1 r2 hr
  obtain ⟨ss, rs, a1, a0, a2, a3⟩ := parse_hops hp h1 (reach_ne r1) opts.caseSensitive
  obtain ⟨tt, rs', b1, b0, b2, b3⟩ := parse_hops hq h2 (reach_ne r2) opts.caseSensitive
  have := all2_fun a2 b2
  subst this
  rw [set_parsed (sound_valid h) hv a3 (by simp [hopSegs_ne a1 (reach_ne r1)]), set_parsed (sound_valid h) hv b3 (by simp [hopSegs_ne b1 (reach_ne r2)]),
    setElement_same (hops_same ho h a1 b1 r1 r2) (hopSegs_plainly a1 (reach_ne r1)) (hopSegs_plainly b1 (reach_ne r2)) (fuse_fresh a2 hr) (by rw [a0, b0]; exact hi)]
  intro s a hs hk
  rw [List.getLast?_map] at hs
  cases hl : (fuseFields rs).getLast? with
  | none => rw [hl] at hs; cases hs
  | some t =>
    rw [hl] at hs; simp at hs; subst hs
    obtain ⟨a', ha'⟩ := (lowIf_kind opts.caseSensitive t).1.mp ⟨a, hk⟩
    have hl2 := fuse_last hl ha'
    obtain ⟨rs1, rfl⟩ := List.getLast?_eq_some_iff.mp hl2
    have hlen := all2_length a2
    cases hx : rest.getLast? with
    | none => have := List.getLast?_eq_none_iff.mp hx; subst this; simp at hlen
    | some x =>
      obtain ⟨rest1, rfl⟩ := List.getLast?_eq_some_iff.mp hx
      obtain ⟨bs', b, e1, _, e2⟩ := all2_snoc_inv a2
      have := List.append_inj' e1 rfl
      obtain ⟨rfl, e3⟩ := this
      injection e3 with e3
      subst e3
      have := ha x hx ((isSeg_kind e2).1.mpr ⟨a', ha'⟩)
      rw [this] at a2
      have h3 := all2_length a2
      simp only [List.length_cons, List.length_nil, List.length_append] at h3
      have : rs1 = [] := List.eq_nil_of_length_eq_zero (by omega)
      subst this
      rfl

/-- C68: Set at the element the steps lead to replaces its content and nothing else, however the steps are written. (A self-closing element has no content: the value goes behind its tag.) -/
theorem C68_set_value {o : Ord} (ho : o.IsPerm) (opts : Options) {c : Ctx} {e : El} (h : Editable (c.plug (e.cons .nil))) {hs : List Hop} {ps : List Bytes} {p : Bytes}
    (hp : PathSteps p ps) (h1 : HopParts hs ps) (r1 : Reach opts.caseSensitive hs c e.name) {v : GoVal} {w : Bytes} (hv0 : v ≠ .nil) (hv : valueToXML v = some w) (hw : w.length ≤ 5242880) :
    setWithOptions o (c.plug (e.cons .nil)).render p v (some opts) = .ret (c.before ++ e.start ++ w ++ e.stop ++ c.after, none) := by
  have hsnd := editable_sound h
  rw [← List.append_nil ps] at hp
  obtain ⟨ss, rs, a1, a0, a2, a3⟩ := parse_hops hp h1 (reach_ne r1) opts.caseSensitive
  cases a2
  simp only [fuseFields, List.map_nil, List.append_nil] at a3
  have hpl := hopSegs_plainly a1 (reach_ne r1)
  obtain ⟨l, hl, hok⟩ := sound_goto ho hsnd opts.caseSensitive
  have hf := findLoc_goto a1 r1 (sound_along ho hsnd) fresh_nil 0
  rw [List.append_nil, hl] at hf
  rw [set_parsed (sound_valid hsnd) hv0 a3 hpl.ne]
  have he : setElement o opts.caseSensitive opts.indent (c.plug (e.cons .nil)).render ss v = replaceElement (c.plug (e.cons .nil)).render l w := by
    unfold setElement
    have hin := hpl.intent []
    rw [List.append_nil] at hin
    cases e1 : ss.getLast? with
    | none => exact absurd (List.getLast?_eq_none_iff.mp e1) hpl.ne
    | some s =>
      have hk := hpl.last s
      have hd := docMax
      simp only [hv, hin, indexIntent]
      rw [if_neg (by simp [maxValueSize]; omega), if_neg (by have := h.1; omega), hf]
      cases hk1 : s.kind with
      | attr a => exact absurd hk1 (hk a e1)
      | _ => rfl
  rw [he, replaceElement]
  obtain ⟨p1, p2, p3, p4⟩ := editable_place h
  rw [plug_el_render]
  have e1 : c.before ++ e.start ++ e.inner ++ e.stop ++ c.after = (c.before ++ e.start) ++ e.inner ++ (e.stop ++ c.after) := by simp
  rw [e1, splice_at (by rw [hok.cstart, p1, p2]; simp) (by rw [hok.cend, p1, p2, p3, p4]; simp), finish_ok (by simp [el_start_ne])]
  simp

/-- C68: And Delete removes it, and nothing else. (If nothing would be left, the document is returned.) -/
theorem C68_delete_value {o : Ord} (ho : o.IsPerm) (opts : Options) {c : Ctx} {e : El} (h : Editable (c.plug (e.cons .nil))) {hs : List Hop} {ps : List Bytes} {p : Bytes}
    (hp : PathSteps p ps) (h1 : HopParts hs ps) (r1 : Reach opts.caseSensitive hs c e.name) :
    deleteWithOptions o (c.plug (e.cons .nil)).render p (some opts) = .ret (if c.before ++ c.after = [] then (c.plug (e.cons .nil)).render else c.before ++ c.after, none) := by
  have hsnd := editable_sound h
  rw [← List.append_nil ps] at hp
  obtain ⟨ss, rs, a1, a0, a2, a3⟩ := parse_hops hp h1 (reach_ne r1) opts.caseSensitive
  cases a2
  simp only [fuseFields, List.map_nil, List.append_nil] at a3
  have hpl := hopSegs_plainly a1 (reach_ne r1)
  obtain ⟨l, hl, hok⟩ := sound_goto ho hsnd opts.caseSensitive
  have hf := findLoc_goto a1 r1 (sound_along ho hsnd) fresh_nil 0
  rw [List.append_nil, hl] at hf
  rw [delete_parsed (sound_valid hsnd) a3 hpl.ne]
  obtain ⟨p1, p2, p3, p4⟩ := editable_place h
  have he : deleteElement o opts.caseSensitive (c.plug (e.cons .nil)).render ss = .ok (c.before ++ [] ++ c.after) := by
    unfold deleteElement
    cases e1 : ss.getLast? with
    | none => exact absurd (List.getLast?_eq_none_iff.mp e1) hpl.ne
    | some s =>
      have hk := hpl.last s
      have hd := docMax
      have key : (if l.selfClosing then splice (c.plug (e.cons .nil)).render l.startPos l.contentStart []
            else splice (c.plug (e.cons .nil)).render l.startPos (l.endTagPos + l.name.length + 3) []) = .ok (c.before ++ [] ++ c.after) := by
        have hr : (c.plug (e.cons .nil)).render = c.before ++ e.render ++ c.after := by rw [plug_el_render]; simp [El.render]
        have hsn := seenEl_none c e
        have hself := hok.self
        rw [hsn] at hself
        rw [hr]
        cases hbd : e.body with
        | none =>
          rw [if_pos (by rw [hself, hbd]; rfl)]
          refine splice_at (by rw [hok.start, p1]) ?_
          rw [hok.cstart, p1, p2]; simp [El.render, El.inner, El.stop, hbd]
        | some q =>
          obtain ⟨k, cws⟩ := q
          rw [if_neg (by rw [hself, hbd]; simp)]
          refine splice_at (by rw [hok.start, p1]) ?_
          have hc : cws = [] := by
            have h5 := (editable_el h)
            have := h.2.2.2.2
            have h6 := (plug_stable this).1
            obtain ⟨n, as, ws, body⟩ := e
            simp only at hbd; subst hbd
            exact h6.1
          rw [hok.tend, hok.name, seenEl_name, p1, p2, p3, p4]; simp [El.render, El.stop, hbd, closeTag, hc]; omega
      simp only
      rw [if_neg (by have := h.1; omega), hf]
      cases hk1 : s.kind with
      | attr a => exact absurd hk1 (hk a e1)
      | _ => exact key
  rw [he]
  simp only [finish, getResult, List.append_nil]
  split <;> simp_all

/-- C68: Where steps lead nowhere, Delete changes nothing, whatever follows. -/
theorem C68_delete_nowhere {o : Ord} (ho : o.IsPerm) (opts : Options) {xml : Bytes} {i : Info} (h : Says xml i) (hv : valid xml = true) {hs : List Hop} {ps rest : List Bytes} {p : Bytes}
    (hp : PathSteps p (ps ++ rest)) (h1 : HopParts hs ps) (h0 : hs ≠ []) (hr : ∀ x, rest.head? = some x → ¬ Position x) (hn : i.spot opts.caseSensitive hs = none) :
    deleteWithOptions o xml p (some opts) = .ret (xml, none) := by
  obtain ⟨ss, rs, a1, a0, a2, a3⟩ := parse_hops hp h1 h0 opts.caseSensitive
  have hpl := hopSegs_plainly a1 h0
  have hfr := fuse_fresh (cs := opts.caseSensitive) a2 hr
  have hread := says_reads ho h
  rw [delete_parsed hv a3 (by simp [hpl.ne])]
  generalize hrr : (fuseFields rs).map (lowIf opts.caseSensitive) = r at hfr ⊢
  have hx : xml ≠ [] := by rintro rfl; exact absurd hv (by decide +kernel)
  have he : deleteElement o opts.caseSensitive xml (ss ++ r) = .ok xml := by
    have hd := docMax
    have hf := fun r hr => findLoc_reach ho a1 h0 hread (r := r) hr (.inl hn) 0
    unfold deleteElement
    cases e1 : (ss ++ r).getLast? with
    | none => exact absurd (List.getLast?_eq_none_iff.mp e1) (by simp [hpl.ne])
    | some s =>
      simp only
      rw [if_neg (by have := h.1; omega), hf r hfr]
      by_cases hr0 : r = []
      · subst hr0
        rw [List.append_nil] at e1
        cases hk : s.kind with
        | attr a => exact absurd hk (hpl.last s a e1)
        | _ => rfl
      · rw [List.dropLast_append_of_ne_nil hr0, hf _ (fresh_dropLast hfr)]
        have hlen : ¬ (ss ++ r).length < 2 := by
          have h3 : ss.length ≠ 0 := by simpa using hpl.ne
          have h4 : r.length ≠ 0 := by simpa using hr0
          rw [List.length_append]; omega
        cases hk : s.kind with
        | attr a => simp only [hlen, if_false]
        | _ => rfl
  rw [he]
  exact finish_ok hx

/-- C68: No element satisfies a filter, `%`, `#` or an attribute within a path: Delete changes nothing, whatever the document. -/
theorem C68_delete_blind {o : Ord} (opts : Options) {xml : Bytes} (hv : valid xml = true) {pre post : List Bytes} {x p : Bytes} (hp : PathSteps p (pre ++ x :: post)) (hb : Blind x)
    (hx : AttrStep x → post ≠ []) : deleteWithOptions o xml p (some opts) = .ret (xml, none) := by
  obtain ⟨segs, h1, h2⟩ := parseOpt_reads hp (by simp) opts.caseSensitive
  obtain ⟨sa, sb, rfl, h3, h4⟩ := all2_split h2
  cases h4 with
  | @cons _ s _ sb h4 h5 =>
    have hxx : xml ≠ [] := by rintro rfl; exact absurd hv (by decide +kernel)
    have hnv := (isSeg_blind (cs := opts.caseSensitive) h4 hb)
    have never_low : ∀ t : Seg, Never opts.caseSensitive t → Never opts.caseSensitive (lowIf opts.caseSensitive t) := by
      intro t ht
      obtain ⟨k, m⟩ := t
      have := never_kind.mp ht
      simp only at this
      cases k with
      | elem n => exact absurd rfl (this.1 n)
      | wild b => exact absurd rfl (this.2.1 b)
      | index i => exact absurd rfl (this.2.2 i)
      | _ => cases opts.caseSensitive <;> exact never_kind.mpr (by simp [lowIf, lowerSeg])
    obtain ⟨a', s', b', e1, e2, -, e3⟩ := fuse_never (a := sa) (b := sb) hnv.2
    rw [e1, List.map_append, List.map_cons] at h1
    rw [delete_parsed hv h1 (by simp)]
    have hd := docMax
    have he : deleteElement o opts.caseSensitive xml (a'.map (lowIf opts.caseSensitive) ++ lowIf opts.caseSensitive s' :: b'.map (lowIf opts.caseSensitive)) = .ok xml := by
      unfold deleteElement
      rw [findLoc_never (never_low s' e2)]
      cases hl : (a'.map (lowIf opts.caseSensitive) ++ lowIf opts.caseSensitive s' :: b'.map (lowIf opts.caseSensitive)).getLast? with
      | none => simp at hl
      | some t =>
        simp only
        rw [if_neg (by have := valid_small hv; omega)]
        cases hk : t.kind with
        | attr a =>
          simp only
          have hb' : b' ≠ [] := by
            rintro rfl
            have ht : lowIf opts.caseSensitive s' = t := by simpa using hl
            rw [← ht] at hk
            obtain ⟨y, hy⟩ := (lowIf_kind opts.caseSensitive s').1.mp ⟨a, hk⟩
            have hlast := fuse_last (l := sa ++ s :: sb) (s := s') (by rw [e1]; simp) hy
            rcases e3 rfl with rfl | ⟨f, hf⟩
            · cases h5
              simp at hlast
              subst hlast
              exact hx ((isSeg_kind h4).1.mpr ⟨y, hy⟩) rfl
            · rw [hf] at hy; cases hy
          have hlen : ¬ (a'.map (lowIf opts.caseSensitive) ++ lowIf opts.caseSensitive s' :: b'.map (lowIf opts.caseSensitive)).length < 2 := by
            have : b'.length ≠ 0 := by simpa using hb'
            simp; omega
          rw [if_neg hlen, List.dropLast_append_of_ne_nil (by simp), List.dropLast_cons_of_ne_nil (by simpa using hb'), findLoc_never (never_low s' e2)]
        | _ => rfl
    rw [he]
    exact finish_ok hxx

/-- C68: Steps lead to an element, or nowhere. -/
theorem C68_somewhere (cs : Bool) (hs : List Hop) (f : Forest) : (∃ c e, f = c.plug (El.cons e .nil) ∧ Reach cs hs c e.name) ↔ f.info.spot cs hs ≠ none := by
  constructor
  · rintro ⟨c, e, rfl, h⟩; rw [reach_spot h]; simp
  · intro h
    cases hn : f.info.spot cs hs with
    | none => exact absurd hn h
    | some nd => obtain ⟨c, e, h1, h2, _⟩ := spot_reach hn; exact ⟨c, e, h1, h2⟩

/-! ### examples -/

theorem name_step {p : Bytes} (h : p ≠ [] ∧ ¬ b!"#(" <+: p ∧ ¬ b!"@" <+: p ∧ beforeBar p ∉ [b!"%", b!"#", b!"*", b!"**"] ∧ (beforeBar p = [] ∨ ∃ c ∈ beforeBar p, c ≠ c!"-" ∧ ¬ (48 ≤ c ∧ c ≤ 57))) : NameStep p := by
  refine ⟨h.1, h.2.1, h.2.2.1, h.2.2.2.1, ?_⟩
  rintro ⟨h1, _, h3⟩
  rcases h.2.2.2.2 with h | ⟨c, hc, h4, h5⟩
  · exact h1 h
  · rcases h3 c hc with h | h
    · exact h4 h
    · exact h5 h

theorem exPath : PathSteps b!"*.**|@raw.1" [b!"*", b!"**|@raw", b!"1"] := pathSteps_by (by decide) (by decide) (by decide +kernel) (by decide +kernel)
theorem exHops : HopParts [(.any, 0), (.any, 1)] [b!"*", b!"**|@raw", b!"1"] := .first (.any (by decide)) (.nth (.any (by decide)) (.digit 49 (by decide)) (by decide) .nil)
theorem exReach (cs : Bool) : Reach cs [(.any, 0), (.any, 1)] exCtx exEl.name := ⟨rfl, by cases cs <;> decide +kernel, rfl, by cases cs <;> decide +kernel⟩

/-- The second element in `r`, of whatever name. A modifier in the path is ignored, and `**` does not look deeper than `*`. -/
example : setWithOptions exEnv.ord b!"<!--x--><r v='1' ><a k=\"&lt;\">x</a> <a><b>y</b></a><c j=\"1\"/></r>" b!"*.**|@raw.1" (.str b!"z") (some defaultOptions) =
    .ret (b!"<!--x--><r v='1' ><a k=\"&lt;\">x</a> <a>z</a><c j=\"1\"/></r>", none) := by
  have := C68_set_value (o := exEnv.ord) exEnv_perm defaultOptions exEdit exPath exHops (exReach _) (v := .str b!"z") (w := b!"z") (by simp) rfl (by decide)
  rw [exEdit_render] at this
  exact this.trans (by decide +kernel)
example : deleteWithOptions exEnv.ord b!"<!--x--><r v='1' ><a k=\"&lt;\">x</a> <a><b>y</b></a><c j=\"1\"/></r>" b!"*.**|@raw.1" (some defaultOptions) =
    .ret (b!"<!--x--><r v='1' ><a k=\"&lt;\">x</a> <c j=\"1\"/></r>", none) := by
  have := C68_delete_value (o := exEnv.ord) exEnv_perm defaultOptions exEdit exPath exHops (exReach _)
  rw [exEdit_render] at this
  exact this.trans (by decide +kernel)

/-- Whatever value is set at a new element in it, the path is as good as the one with names. -/
example (v : GoVal) : setWithOptions exEnv.ord b!"<!--x--><r v='1' ><a k=\"&lt;\">x</a> <a><b>y</b></a><c j=\"1\"/></r>" b!"*.**|@raw.1.new.q" v (some defaultOptions) =
    setWithOptions exEnv.ord b!"<!--x--><r v='1' ><a k=\"&lt;\">x</a> <a><b>y</b></a><c j=\"1\"/></r>" b!"r.a.1.new.q" v (some defaultOptions) := by
  have := C68_set (o := exEnv.ord) exEnv_perm defaultOptions (editable_sound exEdit) (hs := [(.any, 0), (.any, 1)]) (ht := [(.name b!"r", 0), (.name b!"a", 1)])
    (ps := [b!"*", b!"**|@raw", b!"1"]) (qs := [b!"r", b!"a", b!"1"]) (rest := [b!"new", b!"q"]) (p := b!"*.**|@raw.1.new.q") (q := b!"r.a.1.new.q")
    (pathSteps_by (by decide) (by decide) (by decide +kernel) (by decide +kernel)) (pathSteps_by (by decide) (by decide) (by decide +kernel) (by decide +kernel)) exHops
    (.first (.name (name_step (by decide))) (.nth (.name (name_step (by decide))) (.digit 49 (by decide)) (by decide) .nil)) (exReach _) ⟨by decide +kernel, by decide +kernel, by decide +kernel, by decide +kernel⟩
    (by intro x hx; injection hx with hx; subst hx; exact fun h => absurd (h.2.2 110 (by decide)) (by decide)) (.inl rfl)
    (by intro x hx ha; simp at hx; subst hx; exact absurd ha (by unfold AttrStep; decide)) v
  rw [exEdit_render] at this
  exact this

/-- `<r><a/><b>1</b></r>`: there is no third element in `r`. -/
example (o : Ord) (ho : o.IsPerm) : deleteWithOptions o b!"<r><a/><b>1</b></r>" b!"r.*.2.@k" (some defaultOptions) = .ret (b!"<r><a/><b>1</b></r>", none) :=
  C68_delete_nowhere ho defaultOptions (says_of (f := .node b!"r" [] [] (.leaf b!"a" [] [] (.node b!"b" [] [] (.text b!"1" .nil) [] .nil)) [] .nil) (by decide +kernel)) (by decide +kernel)
    (hs := [(.name b!"r", 0), (.any, 2)]) (ps := [b!"r", b!"*", b!"2"]) (rest := [b!"@k"]) (pathSteps_by (by decide) (by decide) (by decide +kernel) (by decide +kernel))
    (.first (.name (name_step (by decide))) (.nth (.any (by decide)) (.digit 50 (by decide)) (by decide) .nil)) (by simp)
    (by intro x hx; injection hx with hx; subst hx; exact fun h => absurd (h.2.2 64 (by decide)) (by decide)) (by decide +kernel)

/-- A filter matches for Get and not for Delete. -/
theorem C68_filter_witness (o : Ord) : deleteWithOptions o b!"<r><b k=\"1\">1</b></r>" b!"r.b.#(@k==1).@k" (some defaultOptions) = .ret (b!"<r><b k=\"1\">1</b></r>", none) ∧
    get exEnv b!"<r><b k=\"1\">1</b></r>" b!"r.b.#(@k==1).@k" = .ret (.ofAttr b!"1") := by
  refine ⟨C68_delete_blind defaultOptions (by decide +kernel) (pre := [b!"r", b!"b"]) (x := b!"#(@k==1)") (post := [b!"@k"]) (pathSteps_by (by decide) (by decide) (by decide +kernel) (by decide +kernel)) (.inl (by decide)) (by simp),
    by decide +kernel⟩

end Verif.Props
