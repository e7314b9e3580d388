import Verif.Lemmas.PlaceOpt
import Verif.Lemmas.EditOpt
/- Appending with options: as Lemmas/Append. -/
namespace Verif
open Spec

theorem parseParts_stepsLen {ps : List Step} {parts : List Bytes} (h : StepsText ps parts) (more : List Bytes) (ms : List Seg) (hm : parseParts more = .ok ms) :
    ∃ ss, StepSegs ps ss ∧ ss.length = parts.length ∧ parseParts (parts ++ more) = .ok (ss ++ ms) := by
  induction h with
  | nil => exact ⟨[], .nil, rfl, hm⟩
  | name hn _ ih =>
    obtain ⟨ss, h1, h3, h2⟩ := ih
    exact ⟨_, .name h1, by simp [h3], parseParts_cons_ok (parsePart_plain _ hn) h2⟩
  | index hn hd hj _ ih =>
    obtain ⟨ss, h1, h3, h2⟩ := ih
    refine ⟨_, .index h1, by simp [h3], parseParts_cons_ok (parsePart_plain _ hn) (parseParts_cons_ok ?_ h2)⟩
    rw [parsePart_decimal hd, if_neg (by omega)]

theorem lowSegs_length (cs : Bool) (ss : List Seg) : (lowSegs cs ss).length = ss.length := by cases cs <;> simp [lowSegs]

theorem parseOpt_stepsLen (cs : Bool) {ps : List Step} {parts : List Bytes} (h : StepsText ps parts) (hne : ps ≠ []) (more : List Bytes) (ms : List Seg)
    (hm : parseParts more = .ok ms) (hl : parts.length + more.length ≤ 100) :
    ∃ ss, StepSegs (lowSteps cs ps) ss ∧ ss.length = parts.length ∧ parsePathWithOptions (pathOf (parts ++ more)) cs = .ok (ss ++ lowSegs cs (fuseFields ms)) := by
  obtain ⟨ss, h1, h3, h2⟩ := parseParts_stepsLen h more ms hm
  obtain ⟨e1, e2⟩ := stepsText_head h hne more
  refine ⟨_, stepSegs_low h1, by rw [lowSegs_length, h3], ?_⟩
  have hp : parsePath (pathOf (parts ++ more)) = .ok (ss ++ fuseFields ms) := by
    rw [parsePath_parts _ e1 e2 (by simpa using hl), h2]
    simp only
    rw [fuseFields_steps h1]
  rw [parseOpt_low cs hp, lowSegs_append]

theorem lowSegs_append_new (cs : Bool) (x : Bytes) : lowSegs cs [nameSeg x, ⟨.index (-1), []⟩] = [nameSeg (spelling cs x), ⟨.index (-1), []⟩] := by
  cases cs <;> rfl

theorem afterLast_spelling {cs : Bool} {x : Bytes} {k1 k2 : Forest} (h : AfterLastBy cs x k1 k2) : AfterLastBy cs (spelling cs x) k1 k2 := by
  simpa only [AfterLastBy, agrees_spelling, namedBy_spelling] using h

/-- There always is such a place. -/
theorem afterLast_existsB (x : Bytes) (k : Forest) : ∃ k1 k2, k = k1.append k2 ∧ AfterLastBy cs x k1 k2 := by
  cases hl : ((tops k).filter (fun t => agrees cs x t.2.1.name)).getLast? with
  | none =>
    refine ⟨k, .nil, (append_nil k).symm, .inr ⟨?_, rfl⟩⟩
    rw [List.getLast?_eq_none_iff] at hl
    rw [named_topsB, hl]; rfl
  | some t =>
    obtain ⟨hm1, hm2⟩ := List.mem_filter.mp (List.mem_of_getLast? hl)
    have hk := tops_mem hm1
    refine ⟨t.1.append (t.2.1.cons .nil), t.2.2, ?_, .inl ⟨t.1, t.2.1, rfl, hm2, ?_⟩⟩
    · rw [append_assoc, cons_append]; exact hk
    · rw [List.getLast?_eq_getElem?] at hl
      have hc := tops_countB hl
      have hlen : ((tops k).filter (fun t => agrees cs x t.2.1.name)).length = (k.info.namedBy cs x).length := by rw [named_topsB, List.length_map]
      rw [hlen] at hc
      have h1 := congrArg (fun f => (Forest.info f).namedBy cs x) hk
      simp only [append_namedBy] at h1
      rw [show (t.2.1.cons t.2.2).info.namedBy cs x = t.2.1.node :: t.2.2.info.namedBy cs x by
        rw [Info.namedBy, cons_elems, List.filter_cons, if_pos (by exact hm2)]; rfl] at h1
      have h2 := congrArg List.length h1
      rw [List.length_append, List.length_cons] at h2
      exact List.length_eq_zero_iff.mp (by omega)

theorem afterLast_topsB {x : Bytes} {b : Forest} {e : El} {a : Forest} (hm : agrees cs x e.name = true) (ha : a.info.namedBy cs x = []) :
    ((tops (b.append (e.cons a))).filter (fun t => agrees cs x t.2.1.name)).getLast? = some (b, e, a) := by
  have h0 : (tops a).filter (fun t => agrees cs x t.2.1.name) = [] := by
    have := named_topsB (cs := cs) a x
    rw [ha] at this
    exact List.map_eq_nil_iff.mp this.symm
  rw [tops_append, List.filter_append, tops_cons]
  simp [hm, List.filter_map, Function.comp_def, h0, append_nil]

/-- Where a new element goes in the text of the content. -/
theorem last_placeB {o : Ord} (ho : o.IsPerm) {k1 k2 : Forest} {x : Bytes} {d : Nat} {t : Bool} (hl : (k1.append k2).Legal d) (ht : (k1.append k2).Tame t)
    (hp : AfterLastBy cs x k1 k2) :
    (match ((topElems o (k1.append k2).render).filter (fun e => agrees cs x e.name)).getLast? with
      | some e => ((k1.append k2).render.length : Int) - e.endLen
      | none => ((k1.append k2).render.length : Int)) = (k1.render.length : Int) := by
  have hpl := (placedT_filterB (cs := cs) (topElems_placedT ho hl ht) x).getLast
  have hlen : (k1.append k2).render.length = k1.render.length + k2.render.length := by rw [append_render, List.length_append]
  rcases hp with ⟨b, e, rfl, hm, ha⟩ | ⟨hn, rfl⟩
  · have hlast := afterLast_topsB (b := b) hm ha
    have hf : (b.append (e.cons .nil)).append k2 = b.append (e.cons k2) := by rw [append_assoc, cons_append]; rfl
    rw [← hf] at hlast
    rcases hpl with ⟨-, h2⟩ | ⟨y, z, h1, h2, h3⟩
    · rw [hlast] at h2; simp at h2
    · rw [hlast, Option.some.injEq] at h2
      subst h2
      rw [h1]
      have := h3.fin
      simp only at this ⊢
      omega
  · rw [append_nil] at hpl ⊢
    have h0 : (tops k1).filter (fun t => agrees cs x t.2.1.name) = [] := by
      have := named_topsB (cs := cs) k1 x
      rw [hn] at this
      exact List.map_eq_nil_iff.mp this.symm
    rw [h0] at hpl
    rcases hpl with ⟨h1, -⟩ | ⟨y, z, -, h2, -⟩
    · rw [h1]
    · simp at h2

/-- setElement on a path ending with an append. -/
theorem setElement_appendB {cs : Bool} {ind : Bytes} {o : Ord} {data : Bytes} {ps : List Step} {ss : List Seg} (h : StepSegs ps ss) (x : Bytes) {v : GoVal} {w : Bytes}
    (hv : valueToXML v = some w) (hw : w.length ≤ 5242880) (hd : data.length ≤ 10485760) :
    setElement o cs ind data (ss ++ [nameSeg x, ⟨.index (-1), []⟩]) v =
      if ss.isEmpty then appendRootElement o cs data (nameSeg x) w
      else
        match findLoc o cs ss data 0 with
        | none => createElement o cs ind data (ss ++ [nameSeg x]) w
        | some l =>
          if l.selfClosing then
            splice data l.startPos l.contentEnd (expanded l.name (writeAttrsSorted l.attrs) (wrapElem x w))
          else
            match findLastMatch o cs data l (nameSeg x) with
            | none => .panic
            | some pos => sizeChecked (splice data pos pos ((if pos > l.contentStart then newLine ind ss.length else []) ++ wrapElem x w)) := by
  have hd2 := docMax
  have hv2 := valMax
  have e1 : (ss ++ [nameSeg x, ⟨.index (-1), []⟩]).getLast? = some ⟨.index (-1), []⟩ := by simp
  have e2 : (ss ++ [nameSeg x, ⟨.index (-1), []⟩]).dropLast = ss ++ [nameSeg x] := by
    rw [show ss ++ [nameSeg x, (⟨.index (-1), []⟩ : Seg)] = (ss ++ [nameSeg x]) ++ [⟨.index (-1), []⟩] by simp, List.dropLast_concat]
  have e3 : (ss ++ [nameSeg x]).getLast? = some (nameSeg x) := by simp
  have e4 : (ss ++ [nameSeg x]).dropLast = ss := List.dropLast_concat
  unfold setElement
  rw [e1]
  simp only [hv]
  rw [if_neg (by omega), if_neg (by omega), intent_append h, e2]
  simp only
  unfold appendElement
  rw [e3, e4]
  simp only [nameSeg]
  split
  · rfl
  · cases findLoc o cs ss data 0 with
    | none => rfl
    | some l =>
      simp only
      split
      · rfl
      · cases findLastMatch o cs data l ⟨.elem x, []⟩ with
        | none => rfl
        | some pos => simp only [indentAt_line]

/-- Appending below an element the library finds at its place. -/
theorem set_append_placedB {opts : Options} {o : Ord} (ho : o.IsPerm) {ps : List Step} {parts : List Bytes} (hps : StepsText ps parts) (hpl : parts.length ≤ 98) {c : Ctx} {e : El}
    (hL : LeadsBy opts.caseSensitive ps c e.name) (h : Sound (c.plug (e.cons .nil))) (hi : c.placeOf = c.before.length)
    (hj : (c.seenEl e).start.length = e.start.length) (hk : (c.seenEl e).inner.length = e.inner.length) (hws : (c.seenEl e).endWs = []) :
    ∃ as, Opened e as (if e.body = none then [] else e.ws) ∧ ∀ (x : Bytes) (_ : PlainName x) (k1 k2 : Forest) (_ : e.kids = k1.append k2) (_ : AfterLastBy opts.caseSensitive x k1 k2)
      (v : GoVal) (w : Bytes) (_ : v ≠ .nil) (_ : valueToXML v = some w) (_ : w.length ≤ 5242880) (r : Bytes)
      (_ : r = c.before ++ (openTag e.name as (if e.body = none then [] else e.ws) ++ b!">" ++ k1.render ++ (if k1.render = [] then [] else newLine opts.indent parts.length) ++
          wrapElem (spelling opts.caseSensitive x) w ++ k2.render ++ (if e.body = none then closeTag e.name [] else e.stop)) ++ c.after),
      setWithOptions o (c.plug (e.cons .nil)).render (pathOf (parts ++ [x, b!"-1"])) v (some opts) =
        if e.body ≠ none ∧ r.length > 10485760 then .ret ((c.plug (e.cons .nil)).render, some .invalidValue) else .ret (r, none) := by
  have hne := leads_neB hL
  have hleg : (e.cons .nil).Legal c.depth := by have := (plug_legal h.2.1).1; rwa [Nat.zero_add] at this
  have htame := (plug_tame h.2.2.1).1
  obtain ⟨ha, hfit⟩ := el_attrs hleg htame
  have hparse : ∀ x, PlainName x → parseParts [x, b!"-1"] = .ok [nameSeg x, ⟨.index (-1), []⟩] := fun x hx =>
    parseParts_cons_ok (parsePart_plain _ hx) parse_append
  obtain ⟨ss0, hss0, -⟩ := parseParts_steps hps [] [] rfl
  have hss0 := stepSegs_low (cs := opts.caseSensitive) hss0
  have hL := leadsBy_low hL
  obtain ⟨l, hl, hok⟩ := findLoc_placeB ho hss0 hL h
  have hattrs : l.attrs.Perm (attrMap e.attrs) := by
    refine hok.attrs.trans ?_
    cases c
    · exact List.Perm.refl _
    · exact attrMap_redo_perm e.attrs
  have hself : l.selfClosing = e.body.isNone := by rw [hok.self, seenEl_none]
  have hname : l.name = e.name := by rw [hok.name, seenEl_name]
  have hstart : l.startPos = c.before.length := by rw [hok.start, hi]
  have hcs : l.contentStart = (c.before ++ e.start).length := by rw [hok.cstart, hi, hj, List.length_append]; rfl
  have hce : l.contentEnd = (c.before ++ e.start).length + e.inner.length := by rw [hok.cend, hi, hj, hk, hws]; simp
  have main : ∀ (x : Bytes) (_ : PlainName x) (v : GoVal) (w : Bytes) (_ : v ≠ .nil) (_ : valueToXML v = some w) (_ : w.length ≤ 5242880),
      setWithOptions o (c.plug (e.cons .nil)).render (pathOf (parts ++ [x, b!"-1"])) v (some opts) = finish (c.plug (e.cons .nil)).render
        (if l.selfClosing then
            splice (c.plug (e.cons .nil)).render l.startPos l.contentEnd (expanded l.name (writeAttrsSorted l.attrs) (wrapElem (spelling opts.caseSensitive x) w))
          else
            match findLastMatch o opts.caseSensitive (c.plug (e.cons .nil)).render l (nameSeg (spelling opts.caseSensitive x)) with
            | none => .panic
            | some pos => sizeChecked (splice (c.plug (e.cons .nil)).render pos pos ((if pos > l.contentStart then newLine opts.indent parts.length else []) ++ wrapElem (spelling opts.caseSensitive x) w))) := by
    intro x hx v w hv0 hv hw
    obtain ⟨ss, hss, hlen, hp⟩ := parseOpt_stepsLen opts.caseSensitive hps hne [x, b!"-1"] _ (hparse x hx) (by simp; omega)
    have hl : findLoc o opts.caseSensitive ss (c.plug (e.cons .nil)).render 0 = some l := by rw [findLoc_segsB o hss hss0]; exact hl
    rw [show fuseFields [nameSeg x, (⟨.index (-1), []⟩ : Seg)] = [nameSeg x, ⟨.index (-1), []⟩] from rfl, lowSegs_append_new] at hp
    rw [set_entrySB h hp (by simp) v hv0, setElement_appendB hss _ hv hw h.1, if_neg (by simpa using stepSegs_ne hss (lowSteps_ne hne)), hl, hlen]
  cases hb : e.body with
  | none =>
    obtain ⟨as, a1, a2, a3, a4, a5⟩ := sorted_attrs hattrs ha hfit
    simp only [if_true]
    refine ⟨as, ⟨fun hh => absurd hb hh, fun _ => ⟨a1, rfl, a2, a3, a4⟩⟩, fun x hx k1 k2 hk hal v w hv0 hv hw r hr => ?_⟩
    subst hr
    rw [main x hx v w hv0 hv hw]
    simp only [show l.selfClosing = true by rw [hself, hb]; rfl, if_true]
    rw [if_neg (by simp)]
    rw [plug_el_render]
    have e1 : c.before ++ e.start ++ e.inner ++ e.stop ++ c.after = c.before ++ e.start ++ c.after := by simp [El.inner, El.stop, hb]
    have hk0 : k1 = .nil ∧ k2 = .nil := by
      rw [El.kids, hb] at hk
      cases k1 <;> simp_all [Forest.append]
    obtain ⟨rfl, rfl⟩ := hk0
    rw [e1, splice_at hstart (by rw [hce]; simp [El.inner, hb]), a5, hname, finish_ok (by simp [expanded])]
    simp [expanded, openTag, closeTag, Forest.render]
  | some q =>
    obtain ⟨k, cws⟩ := q
    simp only [reduceCtorEq, if_false]
    refine ⟨e.attrs, ⟨fun _ => ⟨rfl, rfl⟩, fun hh => by rw [hb] at hh; simp at hh⟩, fun x hx k1 k2 hk hal v w hv0 hv hw r hr => ?_⟩
    subst hr
    rw [main x hx v w hv0 hv hw]
    have hal := afterLast_spelling hal
    revert hal
    generalize spelling opts.caseSensitive x = x
    intro hal
    simp only [show l.selfClosing = false by rw [hself, hb]; rfl, Bool.false_eq_true, if_false]
    have hkk : e.kids = k := by rw [El.kids, hb]
    have hin : e.inner = k1.render ++ k2.render := by rw [← append_render, ← hk, hkk, El.inner, hb]
    obtain ⟨g1, g2⟩ : k.Legal (c.depth + 1) ∧ k.Tame false := by
      rw [El.cons, hb] at hleg htame
      obtain ⟨-, -, -, -, hlk, -, -⟩ := hleg
      obtain ⟨-, -, htk, -⟩ := htame
      exact ⟨hlk, htk⟩
    have hsl : slice (c.plug (e.cons .nil)).render l.contentStart l.contentEnd = some (k1.append k2).render := by
      rw [plug_el_render, append_render, ← hin]
      have e1 : c.before ++ e.start ++ e.inner ++ e.stop ++ c.after = c.before ++ e.start ++ e.inner ++ (e.stop ++ c.after) := by simp
      rw [e1, slice_at hcs hce]
    have hpos : findLastMatch o opts.caseSensitive (c.plug (e.cons .nil)).render l (nameSeg x) = some ((c.before ++ e.start ++ k1.render).length : Int) := by
      rw [← hkk, hk] at g1 g2
      have := last_placeB ho g1 g2 hal
      unfold findLastMatch
      rw [hsl]
      simp only
      have hm : (fun e : Elem => (nameSeg x).matchesOpt e.name opts.caseSensitive) = (fun e => agrees opts.caseSensitive x e.name) := by
        funext e; exact matchesOpt_agrees _ _ _
      rw [hm]
      revert this
      cases ((topElems o (k1.append k2).render).filter (fun e => agrees opts.caseSensitive x e.name)).getLast? with
      | none =>
        intro this; simp only at this ⊢
        rw [hce, hin, ← append_render, this]; simp only [List.length_append]; congr 1
      | some y => intro this; simp only at this ⊢; rw [hcs, this]; simp only [List.length_append]; congr 1
    rw [hpos]
    simp only
    have e1 : c.before ++ e.start ++ e.inner ++ e.stop ++ c.after = (c.before ++ e.start ++ k1.render) ++ [] ++ (k2.render ++ e.stop ++ c.after) := by rw [hin]; simp
    have hif : (if ((c.before ++ e.start ++ k1.render).length : Int) > l.contentStart then newLine opts.indent parts.length else []) =
        (if k1.render = [] then [] else newLine opts.indent parts.length) := by
      rw [hcs]
      by_cases hz : k1.render = []
      · rw [if_pos hz, if_neg (by rw [hz]; simp)]
      · have := List.length_pos_iff.mpr hz
        rw [if_neg hz, if_pos (by simp; omega)]
    rw [hif]
    generalize (if k1.render = [] then ([] : Bytes) else newLine opts.indent parts.length) = nl
    have e2 : c.before ++ (openTag e.name e.attrs e.ws ++ b!">" ++ k1.render ++ nl ++ wrapElem x w ++ k2.render ++ e.stop) ++ c.after =
        c.before ++ e.start ++ k1.render ++ (nl ++ wrapElem x w) ++ (k2.render ++ e.stop ++ c.after) := by
      simp [El.start, El.stop, hb]
    rw [plug_el_render, e1, splice_at rfl (by simp), sizeChecked, e2, docMax]
    simp only [ne_eq, reduceCtorEq, not_false_eq_true, true_and]
    split
    · rfl
    · rw [finish_ok (by simp [wrapElem])]
/-- Appending below an existing element. -/
theorem set_appendB {opts : Options} {o : Ord} (ho : o.IsPerm) {ps : List Step} {parts : List Bytes} (hps : StepsText ps parts) (hpl : parts.length ≤ 98) {c : Ctx} {e : El}
    (hL : LeadsBy opts.caseSensitive ps c e.name) (h : Editable (c.plug (e.cons .nil))) :
    ∃ as ws, Opened e as ws ∧ ∀ (x : Bytes) (_ : PlainName x) (k1 k2 : Forest) (_ : e.kids = k1.append k2) (_ : AfterLastBy opts.caseSensitive x k1 k2)
      (v : GoVal) (w : Bytes) (_ : v ≠ .nil) (_ : valueToXML v = some w) (_ : w.length ≤ 5242880),
      setWithOptions o (c.plug (e.cons .nil)).render (pathOf (parts ++ [x, b!"-1"])) v (some opts) =
        if e.body ≠ none ∧ (c.before ++ (openTag e.name as ws ++ b!">" ++ k1.render ++ (if k1.render = [] then [] else newLine opts.indent parts.length) ++ wrapElem (spelling opts.caseSensitive x) w ++ k2.render ++ closeTag e.name []) ++ c.after).length > 10485760
        then .ret ((c.plug (e.cons .nil)).render, some .invalidValue)
        else .ret (c.before ++ (openTag e.name as ws ++ b!">" ++ k1.render ++ (if k1.render = [] then [] else newLine opts.indent parts.length) ++ wrapElem (spelling opts.caseSensitive x) w ++ k2.render ++ closeTag e.name []) ++ c.after, none) := by
  obtain ⟨q1, q2, q3, q4⟩ := editable_place h
  obtain ⟨as, h1, h2⟩ := set_append_placedB ho hps hpl hL (editable_sound h) q1 q2 q3 q4
  refine ⟨as, _, h1, fun x hx k1 k2 hk hal v w hv0 hv hw => ?_⟩
  have hstop : (if e.body = none then closeTag e.name [] else e.stop) = closeTag e.name [] := by
    split
    · rfl
    · obtain ⟨n, as0, ws, body⟩ := e
      rcases body with _ | ⟨k, cws⟩
      · simp_all
      · have hg := (editable_el h).stable
        have hcws : cws = [] := hg.1
        simp [El.stop, hcws]
  have := h2 x hx k1 k2 hk hal v w hv0 hv hw _ rfl
  rw [hstop] at this
  exact this

/-- Appending at the top level. -/
theorem set_append_rootB {opts : Options} {o : Ord} (ho : o.IsPerm) {k1 k2 : Forest} (h : Sound (k1.append k2)) {x : Bytes} (hx : PlainName x) (hal : AfterLastBy opts.caseSensitive x k1 k2)
    {v : GoVal} {w : Bytes} (hv0 : v ≠ .nil) (hv : valueToXML v = some w) (hw : w.length ≤ 5242880) :
    setWithOptions o (k1.append k2).render (pathOf [x, b!"-1"]) v (some opts) =
      if (k1.render ++ wrapElem (spelling opts.caseSensitive x) w ++ k2.render).length > 10485760 then .ret ((k1.append k2).render, some .invalidValue)
      else .ret (k1.render ++ wrapElem (spelling opts.caseSensitive x) w ++ k2.render, none) := by
  have hp : parsePath (pathOf [x, b!"-1"]) = .ok [nameSeg x, ⟨.index (-1), []⟩] := by
    have := parsePath_names [x] [b!"-1"] (by simpa using hx) (by simp) (by simp) _ parse_append
    simpa [fuseFields] using this
  have hp := parseOpt_low opts.caseSensitive hp
  rw [lowSegs_append_new] at hp
  have hal := afterLast_spelling hal
  revert hal hp
  generalize spelling opts.caseSensitive x = y
  intro hp hal
  have hnem := render_ne h.2.2.2
  have he := setElement_appendB (o := o) (cs := opts.caseSensitive) (ind := opts.indent) (data := (k1.append k2).render) StepSegs.nil y hv hw h.1
  rw [List.nil_append] at he
  rw [set_entrySB h hp (by simp) v hv0, he]
  simp only [List.isEmpty_nil, if_true]
  unfold appendRootElement
  rw [if_neg (by simpa using hnem)]
  have := last_placeB ho h.2.1 h.2.2.1 hal
  have hm : (fun e : Elem => (nameSeg y).matchesOpt e.name opts.caseSensitive) = (fun e => agrees opts.caseSensitive y e.name) := by
    funext e; exact matchesOpt_agrees _ _ _
  rw [hm]
  have final : ∀ pos : Int, pos = k1.render.length →
      finish (k1.append k2).render (sizeChecked (splice (k1.append k2).render pos pos (wrapElem (nameSeg y).value w))) =
      if (k1.render ++ wrapElem y w ++ k2.render).length > 10485760 then .ret ((k1.append k2).render, some .invalidValue)
      else .ret (k1.render ++ wrapElem y w ++ k2.render, none) := by
    rintro pos rfl
    have e1 : (k1.append k2).render = k1.render ++ [] ++ k2.render := by rw [append_render]; simp
    rw [show (nameSeg y).value = y from rfl, e1, splice_at rfl (by simp), sizeChecked, docMax]
    split
    · rfl
    · rw [finish_ok (by simp [wrapElem])]
  revert this
  cases ((topElems o (k1.append k2).render).filter (fun e => agrees opts.caseSensitive y e.name)).getLast? <;> exact final _

end Verif
