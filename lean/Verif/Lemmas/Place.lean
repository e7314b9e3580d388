import Verif.Lemmas.Attr
import Verif.Lemmas.Size
import Verif.Spec.Place
/- Where findElementLocation points in documents of any layout. -/
namespace Verif
open Spec

/-! ### rewriting -/

theorem redo_attrVal (as : List Attr) : attrVal (redoAttrs as) = attrVal as := by
  funext k
  rw [← attrMap_get, ← attrMap_get, Attrs.get?_perm (attrMap_redo_perm as) (attrMap_uniq _)]

theorem redo_info (f : Forest) : f.redo.info = f.info := by
  induction f <;> simp [Forest.redo, Forest.info, redo_attrVal, *]

theorem redo_append (f g : Forest) : (f.append g).redo = f.redo.append g.redo := by
  induction f <;> simp [Forest.append, Forest.redo, *]

theorem redo_cons (e : El) (a : Forest) : (e.cons a).redo = e.redo.cons a.redo := by
  obtain ⟨n, as, ws, body⟩ := e
  rcases body with _ | ⟨k, cws⟩ <;> rfl

theorem redo_plug (c : Ctx) (x : Forest) : (c.plug x).redo = c.redo.plug x.redo := by
  induction c with
  | here b a => simp [Ctx.plug, Ctx.redo, redo_append]
  | within b n as ws c cws a ih => simp [Ctx.plug, Ctx.redo, redo_append, Forest.redo, ih]

theorem redo_leads {ps : List Step} {c : Ctx} {x : Bytes} (h : Leads ps c x) : Leads ps c.redo x := by
  induction c generalizing ps with
  | here b a =>
    match ps, h with
    | [(n, j)], h => simpa [Leads, Ctx.redo, redo_info] using h
  | within b m as ws c cws a ih =>
    match ps, h with
    | (n, j) :: ps, h =>
      cases ps with
      | nil =>
        simp only [Leads] at h
        exact h.2.2.elim
      | cons =>
        simp only [Leads, Ctx.redo, redo_info] at h ⊢
        exact ⟨h.1, h.2.1, ih h.2.2⟩

/-! ### the size -/

theorem wt_six (x : Bytes) : (escapeXML (unescapeXML x)).length ≤ 6 * x.length := by
  have h : ∀ x : Bytes, (escapeXML x).length ≤ 6 * x.length := by
    intro x
    induction x with
    | nil => simp [escapeXML]
    | cons c cs ih =>
      have : (escByte c).length ≤ 6 := by unfold escByte; split <;> (try split) <;> (try split) <;> (try split) <;> (try split) <;> simp
      simp only [escapeXML, List.length_append, List.length_cons]; omega
  exact Nat.le_trans (h _) (by have := unescape_len x; omega)

theorem redoAttrs_length (as : List Attr) : ((redoAttrs as).flatMap Attr.render).length ≤ 6 * (as.flatMap Attr.render).length := by
  have h1 : ∀ a : Attr, a.rewritten.render.length ≤ 6 * a.render.length := by
    intro a
    have := wt_six a.raw
    simp [Attr.rewritten, Attr.render]; omega
  induction as with
  | nil => simp [redoAttrs, lastOnly]
  | cons a as ih =>
    have := h1 a
    simp only [redoAttrs, lastOnly] at ih ⊢
    split <;> simp only [List.map_cons, List.flatMap_cons, List.length_append] <;> omega

theorem redo_length (f : Forest) : f.redo.render.length ≤ 6 * f.render.length := by
  induction f with
  | nil => simp [Forest.redo, Forest.render]
  | text b next ih => simp only [Forest.redo, Forest.render, List.length_append]; omega
  | misc m next ih => simp only [Forest.redo, Forest.render, List.length_append]; omega
  | leaf n as ws next ih =>
    have := redoAttrs_length as
    simp only [Forest.redo, Forest.render, openTag, List.length_append, List.length_nil]; omega
  | node n as ws k cws next ihk ih =>
    have := redoAttrs_length as
    simp only [Forest.redo, Forest.render, openTag, closeTag, List.length_append, List.length_nil]; omega

/-! ### the top level as written -/

/-- The scanned element `e` is the element `t.2.1` of the top level; its content is read rewritten. -/
structure PlacedT (e : Elem) (t : Forest × El × Forest) : Prop where
  name : e.name = t.2.1.name
  attrs : e.attrs.Perm (attrMap t.2.1.attrs)
  self : e.selfClosing = t.2.1.body.isNone
  start : e.startLen = t.2.1.render.length + t.2.2.render.length
  opn : e.openLen = t.2.1.inner.length + t.2.1.stop.length + t.2.2.render.length
  fin : e.endLen = t.2.2.render.length
  none : t.2.1.body = none → e.content = []
  some : ∀ k cws, t.2.1.body = some (k, cws) → ∃ k' d, Twin k.redo k' ∧ k'.Legal d ∧ k'.Tame false ∧ e.content = k'.render

theorem placedT_push (k : Forest → Forest) {es : List Elem} {l : List (Forest × El × Forest)} (h : All2 PlacedT es l) :
    All2 PlacedT es (l.map (fun t => (k t.1, t.2))) := by
  induction h with
  | nil => exact .nil
  | cons h _ ih => exact .cons ⟨h.1, h.2, h.3, h.4, h.5, h.6, h.7, h.8⟩ ih

theorem topElems_placedT {o : Ord} (ho : o.IsPerm) {g : Forest} {d : Nat} {top : Bool} (hl : g.Legal d) (ht : g.Tame top) :
    All2 PlacedT (topElems o g.render) (tops g) := by
  induction g with
  | nil => rw [Forest.render, topElems_none (by simp [skipToNext])]; exact .nil
  | text b next ih =>
    obtain ⟨hb, -, hl⟩ := hl
    rw [Forest.render, topElems_skip (skipToNext_text hb _)]
    exact placedT_push _ (ih hl ht)
  | misc m next ih =>
    obtain ⟨hm, hl⟩ := hl
    obtain ⟨hi, ht⟩ := ht
    have hout : m.Outer := by
      cases top
      · exact Misc.inner_outer (by simpa using hi)
      · simpa using hi
    rw [Forest.render, topElems_skip (skipToNext_outer hm hout _)]
    exact placedT_push _ (ih hl ht)
  | leaf n as ws g ih =>
    obtain ⟨hn, ha, hws, -, hl⟩ := hl
    obtain ⟨-, ht⟩ := ht
    have e : (Forest.leaf n as ws g).render = openTag n as ws ++ c!"/" :: c!">" :: g.render := by simp [Forest.render]
    rw [e, topElems_some (skipToNext_open hn.tag as ws _), elemAt_self hn.tag ha.loose hws]
    refine .cons ⟨rfl, List.Perm.refl _, rfl, ?_, ?_, rfl, fun _ => rfl, fun k cws h => by simp at h⟩ (placedT_push _ (ih hl ht))
    · simp [El.render, El.start, El.inner, El.stop]; omega
    · simp [El.inner, El.stop]
  | node n as ws k cws g _ ih =>
    obtain ⟨hn, ha, hws, -, hlk, hcws, hl⟩ := hl
    obtain ⟨-, hlen2, htk, ht⟩ := ht
    obtain ⟨g2, h1, h2, h3, h4, h6, h5⟩ := elemAt_open ho (r := g.render) hn.tag ha.loose hws hlk.loose htk (EndTail.ws hcws) hlen2
    have e : (Forest.node n as ws k cws g).render =
        openTag n as ws ++ c!">" :: (k.render ++ (closeTag n cws ++ g.render)) := by simp [Forest.render]
    rw [e, topElems_some (skipToNext_open hn.tag as ws _), h5]
    refine .cons ⟨rfl, List.Perm.refl _, rfl, ?_, ?_, rfl, fun h => by simp at h, fun k1 cws h => ?_⟩ (placedT_push _ (ih hl ht))
    · simp [El.render, El.start, El.inner, El.stop]; omega
    · simp [El.inner, El.stop]; omega
    · simp only [Option.some.injEq, Prod.mk.injEq] at h
      obtain ⟨rfl, rfl⟩ := h
      exact ⟨g2, _, h6, h2.2 _ hlk, h3, rfl⟩

theorem placedT_filter {es : List Elem} {l : List (Forest × El × Forest)} (h : All2 PlacedT es l) (n : Bytes) :
    All2 PlacedT (es.filter (fun e => nameMatches n e.name)) (l.filter (fun t => nameMatches n t.2.1.name)) :=
  h.filter (fun _ _ hr => by rw [hr.name])

/-! ### the location -/

/-- The location points at the element `e` with `b` bytes before it; its content is taken to reach into the white space of its end tag. -/
structure LocAt (l : Loc) (b : Int) (e : El) : Prop where
  start : l.startPos = b
  cstart : l.contentStart = b + e.start.length
  cend : l.contentEnd = b + e.start.length + e.inner.length + e.endWs.length
  tend : l.endTagPos = b + e.start.length + e.inner.length + e.endWs.length
  name : l.name = e.name
  attrs : l.attrs.Perm (attrMap e.attrs)
  self : l.selfClosing = e.body.isNone

theorem LocOK.locAt {l : Loc} {b : Int} {e : El} (h : LocOK l b e) (he : e.endWs = []) : LocAt l b e :=
  ⟨h.start, h.cstart, by rw [h.cend, he]; simp, by rw [h.tend, he]; simp, h.name, h.attrs, h.self⟩

theorem locOf_at {data : Bytes} {e : Elem} {t : Forest × El × Forest} (h : PlacedT e t)
    (hd : data.length = t.1.render.length + t.2.1.render.length + t.2.2.render.length) :
    LocAt (locOf data 0 e) t.1.render.length t.2.1 := by
  have h1 := h.start
  have h2 := h.opn
  have h3 := h.fin
  have h4 := h.self
  have h5 := El.render_length t.2.1
  have h6 : t.2.1.body.isNone = false → t.2.1.stop.length = e.name.length + 3 + t.2.1.endWs.length := by
    intro hb
    cases hbd : t.2.1.body with
    | none => rw [hbd] at hb; simp at hb
    | some p =>
      obtain ⟨k, cws⟩ := p
      rw [h.name]; simp [El.stop, El.endWs, hbd, closeTag]; omega
  have h7 : t.2.1.body.isNone = true → t.2.1.stop.length = 0 ∧ t.2.1.inner.length = 0 ∧ t.2.1.endWs.length = 0 := by
    intro hb
    cases hbd : t.2.1.body with
    | none => simp [El.stop, El.inner, El.endWs, hbd]
    | some p => rw [hbd] at hb; simp at hb
  constructor
  · simp only [locOf]; omega
  · simp only [locOf]; omega
  · simp only [locOf]
    cases hs : e.selfClosing with
    | true => have := h7 (h4.symm.trans hs); simp only [if_true]; omega
    | false => have := h6 (h4.symm.trans hs); simp only [Bool.false_eq_true, if_false]; omega
  · simp only [locOf]
    cases hs : e.selfClosing with
    | true => have := h7 (h4.symm.trans hs); simp only [if_true]; omega
    | false => have := h6 (h4.symm.trans hs); simp only [Bool.false_eq_true, if_false]; omega
  · exact h.name
  · exact h.attrs
  · exact h4

theorem redo_endWs (e : El) : e.redo.endWs = [] := by
  obtain ⟨n, as, ws, body⟩ := e
  rcases body with _ | ⟨k, cws⟩ <;> rfl

/-- The location found in a document of any layout. -/
theorem findLoc_place {o : Ord} (ho : o.IsPerm) {ps : List Step} {ss : List Seg} (hss : StepSegs ps ss) {c : Ctx} {e : El}
    (hL : Leads ps c e.name) (h : Sound (c.plug (e.cons .nil))) :
    ∃ l, findLoc o true ss (c.plug (e.cons .nil)).render 0 = some l ∧ LocAt l c.placeOf (c.seenEl e) := by
  cases ps with
  | nil => simp [Leads] at hL
  | cons p ps =>
    obtain ⟨n, j⟩ := p
    obtain ⟨ss', hss', hstep⟩ := findLoc_step o hss
    rw [hstep _ 0 (by rw [maxPos]; omega)]
    have hpl := placedT_filter (topElems_placedT ho h.2.1 h.2.2.1) n
    cases c with
    | here b a =>
      cases ps with
      | cons => simp [Leads] at hL
      | nil =>
        obtain ⟨hn, rfl⟩ := hL
        have hf' : (Ctx.here b a).plug (e.cons .nil) = b.append (e.cons a) := by rw [Ctx.plug, cons_append]; rfl
        have := tops_get b e a hn
        rw [← hf'] at this
        obtain ⟨m, hm, hP⟩ := hpl.get_some this
        rw [hm]
        exact ⟨_, rfl, locOf_at hP (by rw [hf', append_render, cons_render]; simp; omega)⟩
    | within b nm as ws c cws a =>
      cases ps with
      | nil => simp [Leads] at hL
      | cons p2 ps =>
        obtain ⟨hn, rfl, hL⟩ := hL
        have hf' : (Ctx.within b nm as ws c cws a).plug (e.cons .nil) = b.append ((⟨nm, as, ws, some (c.plug (e.cons .nil), cws)⟩ : El).cons a) := by rw [Ctx.plug]; rfl
        have := tops_get b ⟨nm, as, ws, some (c.plug (e.cons .nil), cws)⟩ a hn
        rw [← hf'] at this
        obtain ⟨m, hm, hP⟩ := hpl.get_some this
        rw [hm]
        obtain ⟨k', d', htw, hl', ht', hcont⟩ := hP.some _ _ rfl
        have hopen := hP.opn
        simp only [El.inner, El.stop] at hopen
        have h1 := h.1
        have hsub : (c.plug (e.cons .nil)).render.length + b.render.length + (openTag nm as ws).length + 1 ≤ ((Ctx.within b nm as ws c cws a).plug (e.cons .nil)).render.length := by
          rw [hf', append_render, cons_render]; simp [El.render, El.start, El.inner, El.stop]; omega
        have hlen : ((Ctx.within b nm as ws c cws a).plug (e.cons .nil)).render.length = b.render.length + (openTag nm as ws).length + 1 + m.openLen := by
          rw [hf', append_render, cons_render, hopen]
          simp [El.render, El.start, El.inner, El.stop]; omega
        simp only [reduceCtorEq, if_false]
        have hbase : (0 : Int) + ((((Ctx.within b nm as ws c cws a).plug (e.cons .nil)).render.length : Int) - m.openLen) = (b.render.length + (openTag nm as ws).length + 1) := by omega
        have hred := redo_length (c.plug (e.cons .nil))
        have hm2 := maxPos
        rw [if_pos, hcont, hbase]
        · rw [redo_plug, redo_cons] at htw hred
          obtain ⟨l, hl1, hl2⟩ := findLoc_leads (base := b.render.length + (openTag nm as ws).length + 1) ho hss' (redo_leads (x := e.redo.name) hL) rfl htw.sim hl' ht'
            (by omega) (by simp only [Forest.redo] at hred ⊢; omega)
          refine ⟨l, hl1, ?_⟩
          have e2 : ((Ctx.within b nm as ws c cws a).placeOf : Int) = b.render.length + (openTag nm as ws).length + 1 + c.redo.before.length := by
            simp [Ctx.placeOf, Ctx.seen, Ctx.before]; omega
          rw [e2]; exact hl2.locAt (redo_endWs e)
        · simp only [offsetOk, Bool.not_eq_true', Bool.or_eq_false_iff, decide_eq_false_iff_not]
          omega

/-! ### Set and Delete -/

theorem sound_valid {f : Forest} (h : Sound f) : valid f.render = true := (valid_iff_document _).mpr ⟨h.1, f, h.2.1, h.2.2.2, rfl⟩

theorem set_entryS {o : Ord} {f : Forest} (h : Sound f) {path : Bytes} {ss : List Seg} (hp : parsePath path = .ok ss) (hne : ss ≠ []) (v : GoVal) (hv : v ≠ .nil) :
    set o f.render path v = finish f.render (setElement o true [] f.render ss v) := by
  have h1 := h.1
  have hd := docMax
  unfold set setWithOptions
  rw [if_neg (by omega), if_neg (by rw [sound_valid h]; simp), if_neg hv]
  have e : (effOpts (some defaultOptions)).caseSensitive = true := rfl
  have e2 : (effOpts (some defaultOptions)).indent = [] := rfl
  rw [e, e2, parseOpt_true hp]
  cases ss with
  | nil => exact absurd rfl hne
  | cons => rfl

theorem delete_entryS {o : Ord} {f : Forest} (h : Sound f) {path : Bytes} {ss : List Seg} (hp : parsePath path = .ok ss) (hne : ss ≠ []) :
    delete o f.render path = finish f.render (deleteElement o true f.render ss) := by
  have h1 := h.1
  have hd := docMax
  unfold delete deleteWithOptions
  rw [if_neg (by omega), if_neg (by rw [sound_valid h]; simp)]
  have e : (effOpts (some defaultOptions)).caseSensitive = true := rfl
  rw [e, parseOpt_true hp]
  cases ss with
  | nil => exact absurd rfl hne
  | cons => rfl

theorem splice_nat {d mid : Bytes} {x y : Int} {i j : Nat} (hx : x = i) (hy : y = j) (hij : i ≤ j) :
    splice d x y mid = if j ≤ d.length then .ok (replaced d i j mid) else .panic := by
  subst hx hy
  unfold splice sliceTo sliceFrom replaced
  by_cases h : j ≤ d.length
  · rw [if_pos h, if_pos (by omega), if_pos (by omega)]; simp
  · rw [if_neg h]
    rw [if_neg (c := (0 : Int) ≤ (j : Int) ∧ (j : Int) ≤ d.length) (by omega)]
    split <;> simp_all

/-- Set on an existing element in a document of any layout. -/
theorem set_placed {o : Ord} (ho : o.IsPerm) {ps : List Step} {parts : List Bytes} (hps : StepsText ps parts) (hpl : parts.length ≤ 100) {c : Ctx} {e : El}
    (hL : Leads ps c e.name) (h : Sound (c.plug (e.cons .nil))) {v : GoVal} {w : Bytes} (hv0 : v ≠ .nil) (hv : valueToXML v = some w) (hw : w.length ≤ 5242880)
    {i j : Nat} (hi : i = c.placeOf + (c.seenEl e).start.length) (hj : j = i + (c.seenEl e).inner.length + (c.seenEl e).endWs.length) :
    set o (c.plug (e.cons .nil)).render (pathOf parts) v =
      if j ≤ (c.plug (e.cons .nil)).render.length then .ret (replaced (c.plug (e.cons .nil)).render i j w, none) else .panic := by
  have hne := leads_ne hL
  obtain ⟨ss, hss, hp⟩ := parsePath_steps hps hne [] [] rfl (by simpa using hpl)
  simp only [List.append_nil, fuseFields] at hp
  obtain ⟨l, hl, hok⟩ := findLoc_place ho hss hL h
  rw [set_entryS h hp (stepSegs_ne hss hne) v hv0, setElement_steps hss hne hv hw h.1, hl]
  simp only [replaceElement]
  rw [splice_nat (i := i) (j := j) (by rw [hok.cstart]; omega) (by rw [hok.cend]; omega) (by omega)]
  split
  · rename_i hle
    refine finish_ok ?_
    have hs : 0 < (c.seenEl e).start.length := List.length_pos_iff.mpr (el_start_ne _)
    intro hz
    have := congrArg List.length hz
    simp only [replaced, List.length_append, List.length_take, List.length_nil] at this
    omega
  · rfl

/-- Delete of an existing element in a document of any layout. -/
theorem delete_placed {o : Ord} (ho : o.IsPerm) {ps : List Step} {parts : List Bytes} (hps : StepsText ps parts) (hpl : parts.length ≤ 100) {c : Ctx} {e : El}
    (hL : Leads ps c e.name) (h : Sound (c.plug (e.cons .nil))) {i j : Nat} (hi : i = c.placeOf) (hj : j = i + (c.seenEl e).render.length) :
    delete o (c.plug (e.cons .nil)).render (pathOf parts) =
      if j ≤ (c.plug (e.cons .nil)).render.length then
        .ret (if replaced (c.plug (e.cons .nil)).render i j [] = [] then (c.plug (e.cons .nil)).render else replaced (c.plug (e.cons .nil)).render i j [], none)
      else .panic := by
  have hne := leads_ne hL
  obtain ⟨ss, hss, hp⟩ := parsePath_steps hps hne [] [] rfl (by simpa using hpl)
  simp only [List.append_nil, fuseFields] at hp
  obtain ⟨l, hl, hok⟩ := findLoc_place ho hss hL h
  rw [delete_entryS h hp (stepSegs_ne hss hne), deleteElement_steps hss hne h.1, hl]
  simp only
  have key : (if l.selfClosing then splice (c.plug (e.cons .nil)).render l.startPos l.contentStart []
        else splice (c.plug (e.cons .nil)).render l.startPos (l.endTagPos + l.name.length + 3) []) =
      if j ≤ (c.plug (e.cons .nil)).render.length then .ok (replaced (c.plug (e.cons .nil)).render i j []) else .panic := by
    have hlen := El.render_length (c.seenEl e)
    cases hbd : (c.seenEl e).body with
    | none =>
      have hs : l.selfClosing = true := by rw [hok.self, hbd]; rfl
      rw [if_pos hs, splice_nat (i := i) (j := j) (by rw [hok.start]; omega) _ (by omega)]
      rw [hok.cstart, hj, hlen]; simp [El.inner, El.stop, hbd]; omega
    | some q =>
      obtain ⟨k, cws⟩ := q
      have hs : ¬ l.selfClosing = true := by rw [hok.self, hbd]; simp
      rw [if_neg hs, splice_nat (i := i) (j := j) (by rw [hok.start]; omega) _ (by omega)]
      rw [hok.tend, hok.name, hj, hlen]; simp [El.stop, El.endWs, hbd, closeTag]; omega
  rw [key]
  split
  · simp only [finish, getResult]
    split <;> simp_all
  · rfl

/-! ### attributes -/

theorem seenEl_name (c : Ctx) (e : El) : (c.seenEl e).name = e.name := by cases c <;> rfl

theorem seenEl_attrVal (c : Ctx) (e : El) : attrVal (c.seenEl e).attrs = attrVal e.attrs := by
  cases c
  · rfl
  · exact redo_attrVal e.attrs

theorem seenEl_none (c : Ctx) (e : El) : (c.seenEl e).body.isNone = e.body.isNone := by
  cases c
  · rfl
  · simp [Ctx.seenEl, El.redo]

theorem retag_start (e : El) (as : List Attr) : (e.retag as).start = b!"<" ++ e.name ++ as.flatMap Attr.render ++ tagClose e.body.isNone := by
  obtain ⟨n, as0, ws, body⟩ := e
  rcases body with _ | ⟨k, cws⟩ <;> simp [El.retag, El.start, openTag, tagClose]

theorem Spec.Retag.of_seen {c : Ctx} {e : El} {k : Bytes} {x : Option Bytes} {as : List Attr} (h : Retag (c.seenEl e) k x as) : Retag e k x as :=
  ⟨h.neat, h.sorted, h.this, fun j hj => by rw [h.others j hj, seenEl_attrVal]⟩

/-- Set on an attribute of an existing element in a document of any layout. -/
theorem set_attr_placed {o : Ord} (ho : o.IsPerm) {ps : List Step} {parts : List Bytes} (hps : StepsText ps parts) (hpl : parts.length < 100) {c : Ctx} {e : El}
    (hL : Leads ps c e.name) (h : Sound (c.plug (e.cons .nil))) {k : Bytes} (hk : c!"|" ∉ k) {v : GoVal} {s : Bytes} (hv0 : v ≠ .nil)
    (hv : valueToXML v = some (escapeXML s)) (hw : (escapeXML s).length ≤ 5242880) {i j : Nat} (hi : i = c.placeOf) (hj : j = i + (c.seenEl e).start.length) :
    ∃ as, Retag e k (some s) as ∧
      set o (c.plug (e.cons .nil)).render (pathOf (parts ++ [c!"@" :: k])) v =
        if j ≤ (c.plug (e.cons .nil)).render.length then .ret (replaced (c.plug (e.cons .nil)).render i j (e.retag as).start, none) else .panic := by
  have hne := leads_ne hL
  obtain ⟨ss, hss, hp⟩ := parsePath_steps hps hne [c!"@" :: k] _ (parseParts_attr hk) (by simp; omega)
  simp only [fuseFields] at hp
  obtain ⟨l, hl, hok⟩ := findLoc_place ho hss hL h
  obtain ⟨as, h1, h2, -⟩ := retag_set hok.attrs k s
  refine ⟨as, h1.of_seen, ?_⟩
  rw [set_entryS h hp (by simp) v hv0, setElement_attr hss hv hw h.1, hl]
  simp only [replaceAttribute]
  rw [h2, splice_nat (i := i) (j := j) (by rw [hok.start]; omega) (by rw [hok.cstart]; omega) (by omega), hok.name, hok.self, seenEl_name, seenEl_none, retag_start]
  split
  · exact finish_ok (by simp [replaced])
  · rfl

/-- Delete on an attribute of an existing element in a document of any layout. -/
theorem delete_attr_placed {o : Ord} (ho : o.IsPerm) {ps : List Step} {parts : List Bytes} (hps : StepsText ps parts) (hpl : parts.length < 100) {c : Ctx} {e : El}
    (hL : Leads ps c e.name) (h : Sound (c.plug (e.cons .nil))) {k : Bytes} (hk : c!"|" ∉ k) {i j : Nat} (hi : i = c.placeOf) (hj : j = i + (c.seenEl e).start.length) :
    (attrVal e.attrs k = none → delete o (c.plug (e.cons .nil)).render (pathOf (parts ++ [c!"@" :: k])) = .ret ((c.plug (e.cons .nil)).render, none)) ∧
    (attrVal e.attrs k ≠ none → ∃ as, Retag e k none as ∧
      delete o (c.plug (e.cons .nil)).render (pathOf (parts ++ [c!"@" :: k])) =
        if j ≤ (c.plug (e.cons .nil)).render.length then .ret (replaced (c.plug (e.cons .nil)).render i j (e.retag as).start, none) else .panic) := by
  have hne := leads_ne hL
  obtain ⟨ss, hss, hp⟩ := parsePath_steps hps hne [c!"@" :: k] _ (parseParts_attr hk) (by simp; omega)
  simp only [fuseFields] at hp
  obtain ⟨l, hl, hok⟩ := findLoc_place ho hss hL h
  have hany : (l.attrs.map (·.1)).any (fun n => sameAttr true n k) = true ↔ attrVal e.attrs k ≠ none := by
    rw [← seenEl_attrVal c e, ← get?_map hok.attrs, ne_eq, get?_none_iff, Classical.not_not]
    simp only [sameAttr, if_true, List.any_eq_true, decide_eq_true_eq]
    exact ⟨fun ⟨x, h1, h2⟩ => h2 ▸ h1, fun h => ⟨k, h, rfl⟩⟩
  have hdel := deleteElement_attr (o := o) (k := k) (stepSegs_ne hss hne) h.1
  rw [hl] at hdel
  simp only [deleteAttribute] at hdel
  rw [delete_entryS h hp (by simp), hdel]
  refine ⟨fun hn => ?_, fun hn => ?_⟩
  · rw [if_neg (fun hh => hany.mp hh hn)]
    exact finish_ok (render_ne h.2.2.2)
  · rw [if_pos (hany.mpr hn)]
    obtain ⟨as, h1, h2, -⟩ := retag_delete hok.attrs k
    refine ⟨as, h1.of_seen, ?_⟩
    rw [h2, splice_nat (i := i) (j := j) (by rw [hok.start]; omega) (by rw [hok.cstart]; omega) (by omega), hok.name, hok.self, seenEl_name, seenEl_none, retag_start]
    split
    · exact finish_ok (by simp [replaced])
    · rfl

/-! ### creation -/

theorem editable_sound {f : Forest} (h : Editable f) : Sound f := ⟨h.1, h.2.1, h.2.2.1, h.2.2.2.1⟩

theorem sound_says {f : Forest} (h : Sound f) : Says f.render f.info := ⟨h.1, .done f, h.2.1.loose, h.2.2.1, rfl, rfl⟩

theorem findLoc_missingS {o : Ord} (ho : o.IsPerm) {ps : List Step} {ss : List Seg} (hss : StepSegs ps ss) {c : Ctx} {e : El}
    (hL : Leads ps c e.name) (h : Sound (c.plug (e.cons .nil))) {m : Bytes} {ns : List Bytes} (hm : e.kids.info.named m = []) :
    findLoc o true (ss ++ (m :: ns).map nameSeg) (c.plug (e.cons .nil)).render 0 = none := by
  refine findLoc_follow_none ho (stepSegs_append hss (stepSegs_names (m :: ns))) (says_reads ho (sound_says h)) 0 ?_
  cases hf : (c.plug (e.cons .nil)).info.follow (ps ++ firsts (m :: ns)) with
  | none => rfl
  | some nd =>
    exfalso
    obtain ⟨c', e', hf, hL', -⟩ := follow_leads hf
    obtain ⟨k, cws, c2, hb, hk, hL2⟩ := leads_through hL hL' (by simp [firsts]) hf
    have hkk : e.kids = k := by simp [El.kids, hb]
    rw [hkk] at hm
    have := leads_follow hL2
    rw [← hk] at this
    cases ns with
    | nil => simp [firsts, Info.follow, hm] at this
    | cons m2 ns =>
      rw [firsts, List.map_cons, follow_cons _ _ _ (by simp), hm] at this
      simp at this

theorem findLoc_noRootS {o : Ord} (ho : o.IsPerm) {f : Forest} (h : Sound f) {m : Bytes} {ns : List Bytes} (hm : f.info.named m = []) :
    findLoc o true ((m :: ns).map nameSeg) f.render 0 = none := by
  refine findLoc_follow_none ho (stepSegs_names (m :: ns)) (says_reads ho (sound_says h)) 0 ?_
  cases ns with
  | nil => simp [firsts, Info.follow, hm]
  | cons m2 ns => rw [firsts, List.map_cons, follow_cons _ _ _ (by simp), hm]; rfl

/-- The place at which a missing chain is inserted, and what replaces an empty tag. -/
theorem createInParent_placed {o : Ord} (ho : o.IsPerm) {c : Ctx} {e : El} (h : Sound (c.plug (e.cons .nil))) {l : Loc} (hl : LocAt l c.placeOf (c.seenEl e))
    {i j k : Nat} (hi : i = c.placeOf) (hj : j = i + (c.seenEl e).start.length) (hk : k = j + (c.seenEl e).inner.length + (c.seenEl e).endWs.length) :
    ∃ as ws, Opened e as ws ∧ ∀ (ns : List Bytes) (_ : ns ≠ []) (w : Bytes),
      createInParent o [] (c.plug (e.cons .nil)).render l (ns.map nameSeg) w =
        if k ≤ (c.plug (e.cons .nil)).render.length then
          .ok (if e.body = none then replaced (c.plug (e.cons .nil)).render i j (e.refill as ws (chain ns (.text w .nil))).render
            else replaced (c.plug (e.cons .nil)).render k k (chain ns (.text w .nil)).render)
        else .panic := by
  have hleg : (e.cons .nil).Legal c.depth := by have := (plug_legal h.2.1).1; rwa [Nat.zero_add] at this
  have htame := (plug_tame h.2.2.1).1
  obtain ⟨ha, hfit⟩ := el_attrs hleg htame
  unfold createInParent
  cases hb : e.body with
  | none =>
    have hsn : (c.seenEl e).body = none := by have := seenEl_none c e; rw [hb] at this; simpa using this
    have hkj : k = j := by rw [hk]; simp [El.inner, El.endWs, hsn]
    simp only [show l.selfClosing = true by rw [hl.self, hsn]; rfl, if_true]
    generalize hdd : List.drop l.contentStart.toNat _ = dd
    have hp : (o dd l.attrs).Perm (attrMap e.attrs) := by
      refine ((ho dd l.attrs).trans hl.attrs).trans ?_
      cases c
      · exact List.Perm.refl _
      · exact attrMap_redo_perm e.attrs
    obtain ⟨p1, p2, p3, p4⟩ := perm_legal hp ha hfit
    refine ⟨(o dd l.attrs).map canonAttr, [], ⟨fun hh => absurd hb hh, fun _ => ⟨p3, rfl, p4, p1, p2⟩⟩, fun ns hne w => ?_⟩
    rw [buildElement_names ns hne, splice_nat (i := i) (j := j) (by rw [hl.start]; omega) (by rw [hl.cend]; omega) (by omega), writeAttrs_eq, hl.name, hkj, seenEl_name]
    simp [expanded, El.refill, El.render, El.start, El.inner, El.stop, openTag, closeTag]
  | some q =>
    have hsn : (c.seenEl e).body.isNone = false := by rw [seenEl_none, hb]; rfl
    simp only [show l.selfClosing = false by rw [hl.self, hsn], Bool.false_eq_true, if_false, reduceCtorEq]
    refine ⟨e.attrs, e.ws, ⟨fun _ => ⟨rfl, rfl⟩, fun hh => by rw [hb] at hh; simp at hh⟩, fun ns hne w => ?_⟩
    rw [buildElement_names ns hne, splice_nat (i := k) (j := k) (by rw [hl.cend]; omega) (by rw [hl.cend]; omega) (by omega)]

/-- Set on a missing chain in a document of any layout. -/
theorem set_missing_placed {o : Ord} (ho : o.IsPerm) {ps : List Step} {parts : List Bytes} (hps : StepsText ps parts) {c : Ctx} {e : El}
    (hL : Leads ps c e.name) (h : Sound (c.plug (e.cons .nil)))
    {i j k : Nat} (hi : i = c.placeOf) (hj : j = i + (c.seenEl e).start.length) (hk : k = j + (c.seenEl e).inner.length + (c.seenEl e).endWs.length) :
    ∃ as ws, Opened e as ws ∧ ∀ (m : Bytes) (ns : List Bytes) (_ : ∀ n ∈ m :: ns, PlainName n) (_ : parts.length + (m :: ns).length ≤ 100)
      (_ : e.kids.info.named m = []) (v : GoVal) (w : Bytes) (_ : v ≠ .nil) (_ : valueToXML v = some w) (_ : w.length ≤ 5242880),
      set o (c.plug (e.cons .nil)).render (pathOf (parts ++ m :: ns)) v =
        if k ≤ (c.plug (e.cons .nil)).render.length then
          .ret (if e.body = none then replaced (c.plug (e.cons .nil)).render i j (e.refill as ws (chain (m :: ns) (.text w .nil))).render
            else replaced (c.plug (e.cons .nil)).render k k (chain (m :: ns) (.text w .nil)).render, none)
        else .panic := by
  have hne := leads_ne hL
  obtain ⟨ss0, hss0, -⟩ := parseParts_steps hps [] [] rfl
  obtain ⟨l, hl, hok⟩ := findLoc_place ho hss0 hL h
  obtain ⟨as, ws, hopen, hc⟩ := createInParent_placed ho h hok hi hj hk
  refine ⟨as, ws, hopen, fun m ns hns hpl hm v w hv0 hv hw => ?_⟩
  have hpp : parseParts (m :: ns) = .ok ((m :: ns).map nameSeg) := by simpa using parseParts_names (m :: ns) [] hns [] rfl
  obtain ⟨ss, hss, hp⟩ := parsePath_steps hps hne (m :: ns) ((m :: ns).map nameSeg) hpp hpl
  have hl : findLoc o true ss (c.plug (e.cons .nil)).render 0 = some l := by
    rw [findLoc_segs o hss hss0]; exact hl
  rw [show fuseFields ((m :: ns).map nameSeg) = (m :: ns).map nameSeg by simpa [fuseFields] using fuseFields_names (m :: ns) []] at hp
  have hss2 := stepSegs_append hss (stepSegs_names (m :: ns))
  rw [set_entryS h hp (by simp) v hv0, setElement_steps hss2 (by simp [hne]) hv hw h.1, findLoc_missingS ho hss hL h hm]
  simp only
  have hnem := render_ne h.2.2.2
  have hss0 : 0 < ss.length := by have := stepSegs_ne hss hne; exact List.length_pos_iff.mpr this
  unfold createElement
  rw [if_neg (by simpa using hnem), deepestParent_at (j := ss.length) (l := l) hss0 (by simp)]
  · simp only [List.drop_left]
    rw [hc _ (by simp)]
    split
    · refine finish_ok ?_
      split <;> simp [replaced, El.refill, El.render, El.start, chain, Forest.render, openTag]
    · rfl
  · rw [List.take_left]; exact hl
  · intro i h1 h2
    obtain ⟨t, rfl⟩ : ∃ t, i = ss.length + (t + 1) := ⟨i - ss.length - 1, by omega⟩
    rw [List.take_length_add_append, List.map_cons, List.take_succ_cons, ← List.map_take, ← List.map_cons]
    exact findLoc_missingS ho hss hL h hm

/-- Set where no top-level element matches the first name. -/
theorem set_newRootS {o : Ord} (ho : o.IsPerm) {f : Forest} (h : Sound f) {m : Bytes} {ns : List Bytes} (hns : ∀ n ∈ m :: ns, PlainName n)
    (hpl : (m :: ns).length ≤ 100) (hm : f.info.named m = []) {v : GoVal} {w : Bytes} (hv0 : v ≠ .nil)
    (hv : valueToXML v = some w) (hw : w.length ≤ 5242880) :
    set o f.render (pathOf (m :: ns)) v = .ret (f.render ++ (chain (m :: ns) (.text w .nil)).render, none) := by
  have hp := parsePath_names (m :: ns) [] hns (by simp) (by simpa using hpl) [] rfl
  simp only [List.append_nil, fuseFields] at hp
  have hss2 := stepSegs_names (m :: ns)
  have hnem := render_ne h.2.2.2
  rw [set_entryS h hp (by simp) v hv0, setElement_steps hss2 (by simp [firsts]) hv hw h.1, findLoc_noRootS ho h hm]
  simp only
  unfold createElement
  rw [if_neg (by simpa using hnem), deepestParent_none]
  · simp only
    unfold createInRoot
    have hsib : shouldCreateSiblingRoot o f.render m = true := by
      simp only [shouldCreateSiblingRoot, Bool.and_eq_true, Bool.not_eq_true', List.isEmpty_eq_false_iff, List.all_eq_true, decide_eq_true_eq]
      refine ⟨hnem, fun x hx hxm => ?_⟩
      have := namedE_rep (n := m) (says_reads ho (sound_says h))
      rw [hm] at this
      have hmem : x ∈ namedE o m f.render := by
        rw [namedE, List.mem_filter]; exact ⟨hx, by rw [hxm]; exact nameMatches_self m⟩
      cases hz : namedE o m f.render with
      | nil => rw [hz] at hmem; simp at hmem
      | cons => rw [hz] at this; cases this
    simp only [List.map_cons, nameSeg]
    rw [hsib, if_pos rfl]
    have := buildElement_names (m :: ns) (by simp) w
    simp only [List.map_cons, nameSeg] at this
    rw [this, finish_ok (by simp [hnem])]
  · intro i h1 h2
    obtain ⟨t, rfl⟩ : ∃ t, i = t + 1 := ⟨i - 1, by omega⟩
    rw [List.map_cons, List.take_succ_cons, ← List.map_take, ← List.map_cons]
    exact findLoc_noRootS ho h hm

/-! ### when it is right -/

theorem replaced_at (a m z mid : Bytes) {i j : Nat} (hi : i = a.length) (hj : j = a.length + m.length) : replaced (a ++ m ++ z) i j mid = a ++ mid ++ z := by
  subst hi hj
  have e2 : a.length + m.length = (a ++ m).length := by simp
  rw [replaced, e2, List.drop_left, List.append_assoc a m z, List.take_left]

theorem even_openTag {as : List Attr} {ws : Bytes} (h : Even as ws) (n : Bytes) : (openTag n (redoAttrs as) []).length = (openTag n as ws).length := by
  simp only [Even, List.length_append] at h
  simp only [openTag, List.length_append, List.length_nil]
  omega

theorem even_redo {f : Forest} (h : f.Even) : f.redo.render.length = f.render.length := by
  induction f with
  | nil => rfl
  | text b next ih => simp only [Forest.redo, Forest.render, List.length_append, ih h]
  | misc m next ih => simp only [Forest.redo, Forest.render, List.length_append, ih h]
  | leaf n as ws next ih =>
    simp only [Forest.redo, Forest.render, List.length_append, ih h.2, even_openTag h.1]
  | node n as ws k cws next ihk ih =>
    obtain ⟨h1, rfl, h3, h4⟩ := h
    simp only [Forest.redo, Forest.render, List.length_append, ih h4, ihk h3, even_openTag h1]

theorem even_before {c : Ctx} {x : Forest} (h : (c.plug x).Even) : c.redo.before.length = c.before.length := by
  induction c with
  | here b a =>
    rw [Ctx.plug, append_even] at h
    exact even_redo h.1
  | within b n as ws c cws a ih =>
    rw [Ctx.plug, append_even] at h
    simp only [Ctx.redo, Ctx.before, List.length_append, even_redo h.1, even_openTag h.2.1, ih h.2.2.2.1]

theorem even_el {e : El} (h : (e.cons .nil).Even) : e.redo.start.length = e.start.length ∧ e.redo.inner.length = e.inner.length := by
  obtain ⟨n, as, ws, body⟩ := e
  rcases body with _ | ⟨k, cws⟩
  · have : (openTag n (redoAttrs as) []).length = (openTag n as ws).length := even_openTag h.1 n
    simp only [El.redo, El.start, El.inner, Option.map_none, List.length_append, this]
    exact ⟨rfl, trivial⟩
  · have : (openTag n (redoAttrs as) []).length = (openTag n as ws).length := even_openTag h.1 n
    have h2 := even_redo h.2.2.1
    simp only [El.redo, El.start, El.inner, Option.map_some, List.length_append, this]
    exact ⟨rfl, h2⟩

theorem editable_place {c : Ctx} {e : El} (h : Editable (c.plug (e.cons .nil))) :
    c.placeOf = c.before.length ∧ (c.seenEl e).start.length = e.start.length ∧ (c.seenEl e).inner.length = e.inner.length ∧ (c.seenEl e).endWs = [] := by
  have h5 := h.2.2.2.2
  cases c with
  | here b a =>
    refine ⟨rfl, rfl, rfl, ?_⟩
    have := (plug_stable h5).1
    obtain ⟨n, as, ws, body⟩ := e
    rcases body with _ | ⟨k, cws⟩
    · rfl
    · exact this.1
  | within b n as ws c cws a =>
    have he := (plug_stable h5).2.1 (by simp [Ctx.depth])
    rw [Ctx.plug, append_stable] at h5
    have hb := even_before h5.2.2.1
    refine ⟨?_, (even_el he).1, (even_el he).2, redo_endWs e⟩
    simp only [Ctx.placeOf, Ctx.seen, Ctx.before, List.length_append, hb]

end Verif
