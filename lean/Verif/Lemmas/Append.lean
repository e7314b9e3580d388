import Verif.Lemmas.Place
/- Appending elements with the index -1. -/
namespace Verif
open Spec

theorem All2.getLast {α β : Type} {R : α → β → Prop} {xs : List α} {ys : List β} (h : All2 R xs ys) :
    (xs.getLast? = none ∧ ys.getLast? = none) ∨ ∃ x y, xs.getLast? = some x ∧ ys.getLast? = some y ∧ R x y := by
  induction h with
  | nil => exact .inl ⟨rfl, rfl⟩
  | @cons a b as bs hr h ih =>
    rcases ih with ⟨h1, h2⟩ | ⟨x, y, h1, h2, h3⟩
    · rw [List.getLast?_eq_none_iff] at h1 h2
      subst h1 h2
      exact .inr ⟨a, b, rfl, rfl, hr⟩
    · refine .inr ⟨x, y, ?_, ?_, h3⟩
      · rw [List.getLast?_cons, h1]; rfl
      · rw [List.getLast?_cons, h2]; rfl

/-- There always is such a place. -/
theorem afterLast_exists (x : Bytes) (k : Forest) : ∃ k1 k2, k = k1.append k2 ∧ AfterLast x k1 k2 := by
  cases hl : ((tops k).filter (fun t => nameMatches x t.2.1.name)).getLast? with
  | none =>
    refine ⟨k, .nil, (append_nil k).symm, .inr ⟨?_, rfl⟩⟩
    rw [List.getLast?_eq_none_iff] at hl
    rw [named_tops, hl]; rfl
  | some t =>
    obtain ⟨hm1, hm2⟩ := List.mem_filter.mp (List.mem_of_getLast? hl)
    have hk := tops_mem hm1
    refine ⟨t.1.append (t.2.1.cons .nil), t.2.2, ?_, .inl ⟨t.1, t.2.1, rfl, hm2, ?_⟩⟩
    · rw [append_assoc, cons_append]; exact hk
    · rw [List.getLast?_eq_getElem?] at hl
      have hc := tops_count hl
      have hlen : ((tops k).filter (fun t => nameMatches x t.2.1.name)).length = (k.info.named x).length := by rw [named_tops, List.length_map]
      rw [hlen] at hc
      have h1 := congrArg (fun f => (Forest.info f).named x) hk
      simp only [append_named] at h1
      rw [show (t.2.1.cons t.2.2).info.named x = t.2.1.node :: t.2.2.info.named x by
        rw [Info.named, cons_elems, List.filter_cons, if_pos (by exact hm2)]; rfl] at h1
      have h2 := congrArg List.length h1
      rw [List.length_append, List.length_cons] at h2
      exact List.length_eq_zero_iff.mp (by omega)

theorem afterLast_tops {x : Bytes} {b : Forest} {e : El} {a : Forest} (hm : nameMatches x e.name = true) (ha : a.info.named x = []) :
    ((tops (b.append (e.cons a))).filter (fun t => nameMatches x t.2.1.name)).getLast? = some (b, e, a) := by
  have h0 : (tops a).filter (fun t => nameMatches x t.2.1.name) = [] := by
    have := named_tops a x
    rw [ha] at this
    exact List.map_eq_nil_iff.mp this.symm
  rw [tops_append, List.filter_append, tops_cons]
  simp [hm, List.filter_map, Function.comp_def, h0, append_nil]

/-- Where a new element goes in the text of the content. -/
theorem last_place {o : Ord} (ho : o.IsPerm) {k1 k2 : Forest} {x : Bytes} {d : Nat} {t : Bool} (hl : (k1.append k2).Legal d) (ht : (k1.append k2).Tame t)
    (hp : AfterLast x k1 k2) :
    (match ((topElems o (k1.append k2).render).filter (fun e => nameMatches x e.name)).getLast? with
      | some e => ((k1.append k2).render.length : Int) - e.endLen
      | none => ((k1.append k2).render.length : Int)) = (k1.render.length : Int) := by
  have hpl := (placedT_filter (topElems_placedT ho hl ht) x).getLast
  have hlen : (k1.append k2).render.length = k1.render.length + k2.render.length := by rw [append_render, List.length_append]
  rcases hp with ⟨b, e, rfl, hm, ha⟩ | ⟨hn, rfl⟩
  · have hlast := afterLast_tops (b := b) hm ha
    have hf : (b.append (e.cons .nil)).append k2 = b.append (e.cons k2) := by rw [append_assoc, cons_append]; rfl
    rw [← hf] at hlast
    rcases hpl with ⟨-, h2⟩ | ⟨y, z, h1, h2, h3⟩
    · rw [hlast] at h2; simp at h2
    · rw [hlast, Option.some.injEq] at h2
      subst h2
      rw [h1]
      have := h3.fin
      simp only at this ⊢
      omega
  · rw [append_nil] at hpl ⊢
    have h0 : (tops k1).filter (fun t => nameMatches x t.2.1.name) = [] := by
      have := named_tops k1 x
      rw [hn] at this
      exact List.map_eq_nil_iff.mp this.symm
    rw [h0] at hpl
    rcases hpl with ⟨h1, -⟩ | ⟨y, z, -, h2, -⟩
    · rw [h1]
    · simp at h2

theorem parse_append : parseParts [b!"-1"] = .ok [⟨.index (-1), []⟩] := by decide +kernel

theorem intent_append {ps : List Step} {ss : List Seg} (h : StepSegs ps ss) (x : Bytes) : indexIntent (ss ++ [nameSeg x, ⟨.index (-1), []⟩]) = some true := by
  rw [indexIntent_steps h]; rfl

/-- setElement on a path ending with an append. -/
theorem setElement_append {o : Ord} {data : Bytes} {ps : List Step} {ss : List Seg} (h : StepSegs ps ss) (x : Bytes) {v : GoVal} {w : Bytes}
    (hv : valueToXML v = some w) (hw : w.length ≤ 5242880) (hd : data.length ≤ 10485760) :
    setElement o true [] data (ss ++ [nameSeg x, ⟨.index (-1), []⟩]) v =
      if ss.isEmpty then appendRootElement o true data (nameSeg x) w
      else
        match findLoc o true ss data 0 with
        | none => createElement o true [] data (ss ++ [nameSeg x]) w
        | some l =>
          if l.selfClosing then
            splice data l.startPos l.contentEnd (expanded l.name (writeAttrsSorted l.attrs) (wrapElem x w))
          else
            match findLastMatch o true data l (nameSeg x) with
            | none => .panic
            | some pos => sizeChecked (splice data pos pos (wrapElem x w)) := by
  have hd2 := docMax
  have hv2 := valMax
  have e1 : (ss ++ [nameSeg x, ⟨.index (-1), []⟩]).getLast? = some ⟨.index (-1), []⟩ := by simp
  have e2 : (ss ++ [nameSeg x, ⟨.index (-1), []⟩]).dropLast = ss ++ [nameSeg x] := by
    rw [show ss ++ [nameSeg x, (⟨.index (-1), []⟩ : Seg)] = (ss ++ [nameSeg x]) ++ [⟨.index (-1), []⟩] by simp, List.dropLast_concat]
  have e3 : (ss ++ [nameSeg x]).getLast? = some (nameSeg x) := by simp
  have e4 : (ss ++ [nameSeg x]).dropLast = ss := List.dropLast_concat
  unfold setElement
  rw [e1]
  simp only [hv]
  rw [if_neg (by omega), if_neg (by omega), intent_append h, e2]
  simp only
  unfold appendElement
  rw [e3, e4]
  simp only [nameSeg]
  split
  · rfl
  · cases findLoc o true ss data 0 with
    | none => rfl
    | some l =>
      simp only
      split
      · rfl
      · cases findLastMatch o true data l ⟨.elem x, []⟩ with
        | none => rfl
        | some pos => simp [indentAt]

theorem slice_at {a m z : Bytes} {i j : Int} (hi : i = a.length) (hj : j = a.length + m.length) : slice (a ++ m ++ z) i j = some m := by
  unfold slice
  rw [if_pos (by simp; omega)]
  have e1 : i.toNat = a.length := by omega
  have e2 : j.toNat = (a ++ m).length := by simp; omega
  rw [e1, e2, List.take_left, List.drop_left]

theorem wrapElem_render (x w : Bytes) : wrapElem x w = (plainEl x w).render := by
  simp [wrapElem, plainEl, El.render, El.start, El.inner, El.stop, openTag, closeTag, Forest.render]

/-- Sorted attributes as a rewritten tag. -/
theorem sorted_attrs {e : El} {m : Attrs} (hm : m.Perm (attrMap e.attrs)) (ha : AttrsLegal e.attrs) (hf : AttrsFit e.attrs) :
    ∃ as, Neat as ∧ attrVal as = attrVal e.attrs ∧ AttrsLegal as ∧ AttrsFit as ∧ writeAttrsSorted m = as.flatMap Attr.render := by
  have hu := uniq_perm hm (attrMap_uniq e.attrs)
  have hnd2 : (sortNames (m.map (·.1))).Nodup := (sortNames_perm _).nodup_iff.mpr hu
  refine ⟨_, neat_names hnd2 _, ?_, ?_, ?_, by rw [writeAttrsSorted, writeAttrs_eq]⟩
  · funext j
    rw [attrVal_names hnd2, ← get?_map hm]
    simp only [(sortNames_perm _).mem_iff]
    cases hg : Attrs.get? j m with
    | none => rw [if_neg ((get?_none_iff m j).mp hg)]
    | some x =>
      rw [if_pos]
      · rfl
      · apply Classical.byContradiction
        intro hh
        rw [(get?_none_iff m j).mpr hh] at hg; simp at hg
  all_goals
    have := legal_names (names := sortNames (m.map (·.1))) (g := fun n => (Attrs.get? n m).getD []) ?_ ?_ ?_
    first | exact this.1 | exact this.2
    · rw [(sortNames_perm _).length_eq, List.length_map]; have := map_length hm; have := ha.1; omega
    · intro n hn
      obtain ⟨a, h1, rfl, -⟩ := mem_attrMap hm ((sortNames_perm _).mem_iff.mp hn)
      exact (ha.2.1 a h1).2.1
    · intro n hn
      obtain ⟨-, -, -, -, b, h1, h2⟩ := mem_attrMap hm ((sortNames_perm _).mem_iff.mp hn)
      show (escapeXML ((Attrs.get? n m).getD [])).length ≤ _
      rw [h2]; exact hf b h1

/-- Appending below an existing element. -/
theorem set_append {o : Ord} (ho : o.IsPerm) {ps : List Step} {parts : List Bytes} (hps : StepsText ps parts) (hpl : parts.length ≤ 98) {c : Ctx} {e : El}
    (hL : Leads ps c e.name) (h : Editable (c.plug (e.cons .nil))) :
    ∃ as ws, Opened e as ws ∧ ∀ (x : Bytes) (_ : PlainName x) (k1 k2 : Forest) (_ : e.kids = k1.append k2) (_ : AfterLast x k1 k2)
      (v : GoVal) (w : Bytes) (_ : v ≠ .nil) (_ : valueToXML v = some w) (_ : w.length ≤ 5242880),
      set o (c.plug (e.cons .nil)).render (pathOf (parts ++ [x, b!"-1"])) v =
        if e.body ≠ none ∧ (c.before ++ (e.refill as ws (k1.append ((plainEl x w).cons k2))).render ++ c.after).length > 10485760
        then .ret ((c.plug (e.cons .nil)).render, some .invalidValue)
        else .ret (c.before ++ (e.refill as ws (k1.append ((plainEl x w).cons k2))).render ++ c.after, none) := by
  have hne := leads_ne hL
  have hg := editable_el h
  obtain ⟨ha, hfit⟩ := el_attrs hg.legal hg.tame
  obtain ⟨g1, g2, g3, -⟩ := el_kids_good hg
  have hparse : ∀ x, PlainName x → parseParts [x, b!"-1"] = .ok [nameSeg x, ⟨.index (-1), []⟩] := fun x hx =>
    parseParts_cons_ok (parsePart_plain _ hx) parse_append
  obtain ⟨ss0, hss0, -⟩ := parseParts_steps hps [] [] rfl
  obtain ⟨l, hl, hok⟩ := editable_findLoc ho hss0 hL h
  have main : ∀ (x : Bytes) (_ : PlainName x) (v : GoVal) (w : Bytes) (_ : v ≠ .nil) (_ : valueToXML v = some w) (_ : w.length ≤ 5242880),
      set o (c.plug (e.cons .nil)).render (pathOf (parts ++ [x, b!"-1"])) v = finish (c.plug (e.cons .nil)).render
        (if l.selfClosing then
            splice (c.plug (e.cons .nil)).render l.startPos l.contentEnd (expanded l.name (writeAttrsSorted l.attrs) (wrapElem x w))
          else
            match findLastMatch o true (c.plug (e.cons .nil)).render l (nameSeg x) with
            | none => .panic
            | some pos => sizeChecked (splice (c.plug (e.cons .nil)).render pos pos (wrapElem x w))) := by
    intro x hx v w hv0 hv hw
    obtain ⟨ss, hss, hp⟩ := parsePath_steps hps hne [x, b!"-1"] _ (hparse x hx) (by simp; omega)
    have hl : findLoc o true ss (c.plug (e.cons .nil)).render 0 = some l := by rw [findLoc_segs o hss hss0]; exact hl
    rw [show fuseFields [nameSeg x, (⟨.index (-1), []⟩ : Seg)] = [nameSeg x, ⟨.index (-1), []⟩] from rfl] at hp
    rw [set_entry h hp (by simp) v hv0, setElement_append hss x hv hw h.1, if_neg (by simpa using stepSegs_ne hss hne), hl]
  cases hb : e.body with
  | none =>
    obtain ⟨as, a1, a2, a3, a4, a5⟩ := sorted_attrs hok.attrs ha hfit
    refine ⟨as, [], ⟨fun hh => absurd hb hh, fun _ => ⟨a1, rfl, a2, a3, a4⟩⟩, fun x hx k1 k2 hk hal v w hv0 hv hw => ?_⟩
    rw [main x hx v w hv0 hv hw]
    simp only [show l.selfClosing = true by rw [hok.self, hb]; rfl, if_true]
    rw [if_neg (by simp)]
    rw [plug_el_render]
    have e1 : c.before ++ e.start ++ e.inner ++ e.stop ++ c.after = c.before ++ e.start ++ c.after := by simp [El.inner, El.stop, hb]
    have hk0 : k1 = .nil ∧ k2 = .nil := by
      rw [El.kids, hb] at hk
      cases k1 <;> simp_all [Forest.append]
    obtain ⟨rfl, rfl⟩ := hk0
    rw [e1, splice_at hok.start (by rw [hok.cend]; simp [El.inner, hb]), a5, hok.name, finish_ok (by simp [expanded]), wrapElem_render]
    simp [expanded, El.refill, El.render, El.start, El.inner, El.stop, openTag, closeTag, Forest.append, cons_render, Forest.render]
  | some q =>
    obtain ⟨k, cws⟩ := q
    have hcws : cws = [] := by
      have := hg.stable
      rw [El.cons, hb] at this
      exact this.1
    subst hcws
    refine ⟨e.attrs, e.ws, ⟨fun _ => ⟨rfl, rfl⟩, fun hh => by rw [hb] at hh; simp at hh⟩, fun x hx k1 k2 hk hal v w hv0 hv hw => ?_⟩
    rw [main x hx v w hv0 hv hw]
    simp only [show l.selfClosing = false by rw [hok.self, hb]; rfl, Bool.false_eq_true, if_false]
    have hkk : e.kids = k := by rw [El.kids, hb]
    have hin : e.inner = k1.render ++ k2.render := by rw [← append_render, ← hk, hkk, El.inner, hb]
    have hsl : slice (c.plug (e.cons .nil)).render l.contentStart l.contentEnd = some (k1.append k2).render := by
      rw [plug_el_render, append_render, ← hin]
      have e1 : c.before ++ e.start ++ e.inner ++ e.stop ++ c.after = c.before ++ e.start ++ e.inner ++ (e.stop ++ c.after) := by simp
      rw [e1, slice_at (by rw [hok.cstart]; simp) (by rw [hok.cend]; simp)]
    have hpos : findLastMatch o true (c.plug (e.cons .nil)).render l (nameSeg x) = some ((c.before ++ e.start ++ k1.render).length : Int) := by
      rw [hk] at g1 g2 g3
      have := last_place ho g1 g2 hal
      unfold findLastMatch
      rw [hsl]
      simp only
      have hm : (fun e : Elem => (nameSeg x).matchesOpt e.name true) = (fun e => nameMatches x e.name) := by
        funext e; rfl
      rw [hm]
      revert this
      cases ((topElems o (k1.append k2).render).filter (fun e => nameMatches x e.name)).getLast? with
      | none => intro this; simp only at this ⊢; rw [hok.cend, hin, List.length_append, ← List.length_append, ← append_render]; simp only [List.length_append]; congr 1; omega
      | some y => intro this; simp only at this ⊢; rw [hok.cstart, this]; simp only [List.length_append]; congr 1
    rw [hpos]
    simp only
    have e1 : c.before ++ e.start ++ e.inner ++ e.stop ++ c.after = (c.before ++ e.start ++ k1.render) ++ [] ++ (k2.render ++ e.stop ++ c.after) := by rw [hin]; simp
    have e2 : c.before ++ (e.refill e.attrs e.ws (k1.append ((plainEl x w).cons k2))).render ++ c.after =
        c.before ++ e.start ++ k1.render ++ wrapElem x w ++ (k2.render ++ e.stop ++ c.after) := by
      rw [wrapElem_render]
      simp [El.refill, El.render, El.start, El.inner, El.stop, hb, append_render, cons_render]
    rw [plug_el_render, e1, splice_at rfl (by simp), sizeChecked, e2, docMax]
    simp only [ne_eq, reduceCtorEq, not_false_eq_true, true_and]
    split
    · rfl
    · rw [finish_ok (by simp [wrapElem])]

theorem parseParts_append {a b : List Bytes} {s t : List Seg} (h1 : parseParts a = .ok s) (h2 : parseParts b = .ok t) : parseParts (a ++ b) = .ok (s ++ t) := by
  induction a generalizing s with
  | nil => simp only [parseParts, Parse.ok.injEq] at h1; subst h1; exact h2
  | cons p a ih =>
    rw [parseParts] at h1
    rw [List.cons_append, parseParts]
    cases hp : parsePart p with
    | seg x =>
      rw [hp] at h1
      cases ha : parseParts a with
      | ok r => rw [ha] at h1; simp only [Parse.ok.injEq] at h1; subst h1; rw [ih ha]; rfl
      | err => rw [ha] at h1; simp at h1
      | panic => rw [ha] at h1; simp at h1
    | panic => rw [hp] at h1; simp at h1
    | reject => rw [hp] at h1; simp at h1
    | skip => rw [hp] at h1; simp only at h1 ⊢; exact ih h1

theorem follow_none_append {ps : List Step} {qs : List Step} {i : Info} (h : i.follow ps = none) (hne : ps ≠ []) : i.follow (ps ++ qs) = none := by
  induction ps generalizing i with
  | nil => exact absurd rfl hne
  | cons p ps ih =>
    obtain ⟨n, j⟩ := p
    by_cases hp : ps = []
    · subst hp
      rw [Info.follow] at h
      by_cases hq : qs = []
      · subst hq; exact h
      · rw [List.cons_append, follow_cons _ _ _ (by simpa using hq), h]; rfl
    · rw [follow_cons _ _ _ hp] at h
      rw [List.cons_append, follow_cons _ _ _ (by simp [hp])]
      cases hn : (i.named n)[j]? with
      | none => rfl
      | some e => rw [hn] at h; exact ih h hp

/-- Appending when the parent is missing is setting without the index. -/
theorem set_append_missing {o : Ord} (ho : o.IsPerm) {f : Forest} (h : Sound f) {ps : List Step} {parts : List Bytes} (hps : StepsText ps parts) (hne : ps ≠ [])
    (hpl : parts.length ≤ 98) (hn : f.info.follow ps = none) {x : Bytes} (hx : PlainName x) {v : GoVal} {w : Bytes} (hv0 : v ≠ .nil)
    (hv : valueToXML v = some w) (hw : w.length ≤ 5242880) :
    set o f.render (pathOf (parts ++ [x, b!"-1"])) v = set o f.render (pathOf (parts ++ [x])) v := by
  obtain ⟨ss, hss, hp0⟩ := parseParts_steps hps [] [] rfl
  rw [List.append_nil, List.append_nil] at hp0
  have hparse : ∀ more ms, parseParts more = .ok ms → more.length ≤ 2 → parsePath (pathOf (parts ++ more)) = .ok (ss ++ fuseFields ms) := by
    intro more ms hm hml
    obtain ⟨e1, e2⟩ := stepsText_head hps hne more
    rw [parsePath_parts _ e1 e2 (by simp; omega), parseParts_append hp0 hm]
    simp only
    rw [fuseFields_steps hss]
  have h1 := hparse [x, b!"-1"] [nameSeg x, ⟨.index (-1), []⟩] (parseParts_cons_ok (parsePart_plain _ hx) parse_append) (by simp)
  have h2 := hparse [x] [nameSeg x] (parseParts_cons_ok (parsePart_plain _ hx) rfl) (by simp)
  rw [show fuseFields [nameSeg x, (⟨.index (-1), []⟩ : Seg)] = [nameSeg x, ⟨.index (-1), []⟩] from rfl] at h1
  rw [show fuseFields [nameSeg x] = [nameSeg x] from rfl] at h2
  have hloc : findLoc o true ss f.render 0 = none := findLoc_follow_none ho hss (says_reads ho (sound_says h)) 0 hn
  have hss2 : StepSegs (ps ++ [(x, 0)]) (ss ++ [nameSeg x]) := stepSegs_append hss (.name .nil)
  have hn2 : f.info.follow (ps ++ [(x, 0)]) = none := follow_none_append hn hne
  have hloc2 : findLoc o true (ss ++ [nameSeg x]) f.render 0 = none := findLoc_follow_none ho hss2 (says_reads ho (sound_says h)) 0 hn2
  rw [set_entryS h h1 (by simp) v hv0, set_entryS h h2 (by simp) v hv0, setElement_append hss x hv hw h.1, setElement_steps hss2 (by simp) hv hw h.1,
    if_neg (by simpa using stepSegs_ne hss hne), hloc, hloc2]

/-- Appending at the top level. -/
theorem set_append_root {o : Ord} (ho : o.IsPerm) {k1 k2 : Forest} (h : Sound (k1.append k2)) {x : Bytes} (hx : PlainName x) (hal : AfterLast x k1 k2)
    {v : GoVal} {w : Bytes} (hv0 : v ≠ .nil) (hv : valueToXML v = some w) (hw : w.length ≤ 5242880) :
    set o (k1.append k2).render (pathOf [x, b!"-1"]) v =
      if (k1.append ((plainEl x w).cons k2)).render.length > 10485760 then .ret ((k1.append k2).render, some .invalidValue)
      else .ret ((k1.append ((plainEl x w).cons k2)).render, none) := by
  have hp : parsePath (pathOf [x, b!"-1"]) = .ok [nameSeg x, ⟨.index (-1), []⟩] := by
    have := parsePath_names [x] [b!"-1"] (by simpa using hx) (by simp) (by simp) _ parse_append
    simpa [fuseFields] using this
  have hnem := render_ne h.2.2.2
  have he := setElement_append (o := o) (data := (k1.append k2).render) StepSegs.nil x hv hw h.1
  rw [List.nil_append] at he
  rw [set_entryS h hp (by simp) v hv0, he]
  simp only [List.isEmpty_nil, if_true]
  unfold appendRootElement
  rw [if_neg (by simpa using hnem)]
  have := last_place ho h.2.1 h.2.2.1 hal
  have hm : (fun e : Elem => (nameSeg x).matchesOpt e.name true) = (fun e => nameMatches x e.name) := by
    funext e; rfl
  rw [hm]
  have final : ∀ pos : Int, pos = k1.render.length →
      finish (k1.append k2).render (sizeChecked (splice (k1.append k2).render pos pos (wrapElem (nameSeg x).value w))) =
      if (k1.append ((plainEl x w).cons k2)).render.length > 10485760 then .ret ((k1.append k2).render, some .invalidValue)
      else .ret ((k1.append ((plainEl x w).cons k2)).render, none) := by
    rintro pos rfl
    have e1 : (k1.append k2).render = k1.render ++ [] ++ k2.render := by rw [append_render]; simp
    have e2 : (k1.append ((plainEl x w).cons k2)).render = k1.render ++ wrapElem x w ++ k2.render := by
      rw [append_render, cons_render, wrapElem_render]; simp
    rw [show (nameSeg x).value = x from rfl, e2, e1, splice_at rfl (by simp), sizeChecked, docMax]
    split
    · rfl
    · rw [finish_ok (by simp [wrapElem])]
  revert this
  cases ((topElems o (k1.append k2).render).filter (fun e => nameMatches x e.name)).getLast? <;> exact final _

/-- Appending to the empty document. -/
theorem set_append_empty (o : Ord) {x : Bytes} (hx : PlainName x) {v : GoVal} {w : Bytes} (hv0 : v ≠ .nil) (hv : valueToXML v = some w) (hw : w.length ≤ 5242880) :
    set o [] (pathOf [x, b!"-1"]) v = .ret ((plainEl x w).render, none) := by
  have hp : parsePath (pathOf [x, b!"-1"]) = .ok [nameSeg x, ⟨.index (-1), []⟩] := by
    have := parsePath_names [x] [b!"-1"] (by simpa using hx) (by simp) (by simp) _ parse_append
    simpa [fuseFields] using this
  unfold set setWithOptions
  rw [if_neg (by simp [docMax]), if_neg (by simp), if_neg hv0]
  have e : (effOpts (some defaultOptions)).caseSensitive = true := rfl
  have e2 : (effOpts (some defaultOptions)).indent = [] := rfl
  have he := setElement_append (o := o) (data := []) StepSegs.nil x hv hw (by simp)
  rw [List.nil_append] at he
  rw [e, parseOpt_true hp]
  simp only [e2]
  rw [he]
  simp only [List.isEmpty_nil, if_true, appendRootElement]
  rw [finish_ok (by simp [wrapElem]), wrapElem_render]; rfl

/-! ### reading back -/

theorem reach_snoc (pre : List Bytes) (n : Bytes) (i : Info) : i.reach (pre ++ [n]) = (i.select pre n).map (·.kids) := by
  induction pre generalizing i with
  | nil =>
    simp only [List.nil_append, Info.reach, Info.select, List.flatMap_cons, List.flatMap_nil, List.append_nil]
    induction i.named n with
    | nil => rfl
    | cons a as ih => simp only [List.flatMap_cons, List.map_cons, ih]; rfl
  | cons m pre ih =>
    rw [List.cons_append, Info.reach, Info.select, Info.reach, List.flatMap_assoc, List.map_flatMap]
    congr 1; funext e
    rw [ih, Info.select]

theorem leads_reach {ns : List Bytes} {c : Ctx} {e : El} (hL : Leads (firsts ns) c e.name) : ∃ ks, (c.plug (e.cons .nil)).info.reach ns = e.kids.info :: ks := by
  have hf := leads_follow hL
  rcases List.eq_nil_or_concat ns with rfl | ⟨pre, n, rfl⟩
  · simp [firsts, Leads] at hL
  · rw [List.concat_eq_append] at hf ⊢
    have hs := follow_select hf
    rw [reach_snoc]
    cases hsel : (c.plug (e.cons .nil)).info.select pre n with
    | nil => rw [hsel] at hs; simp at hs
    | cons a as =>
      rw [hsel] at hs
      simp only [List.head?_cons, Option.some.injEq] at hs
      subst hs
      refine ⟨as.map (·.kids), ?_⟩
      rw [List.map_cons]
      congr 1
      obtain ⟨nm, as0, ws, body⟩ := e
      rcases body with _ | ⟨k, cws⟩ <;> rfl

theorem plainEl_good {x w : Bytes} {d : Nat} (hx : IsName x) (hw : c!"<" ∉ w) (hd : d < 100) (t : Bool) :
    ((plainEl x w).cons .nil).Legal d ∧ ((plainEl x w).cons .nil).Tame t ∧ ((plainEl x w).cons .nil).Even := by
  obtain ⟨t1, t2, t3⟩ := plain_text (d := d + 1) hw (by omega)
  have := chain_good (ns := [x]) (x := .text w .nil) (d := d) (t := t) (by simp) (by simpa using hx) (by simp; omega) t1 t2 t3
  exact this

theorem appended_good {k1 k2 : Forest} {x w : Bytes} {d : Nat} {t : Bool} (hx : IsName x) (hw : c!"<" ∉ w) (hd : d < 100)
    (hl : (k1.append k2).Legal d) (ht : (k1.append k2).Tame t) :
    (k1.append ((plainEl x w).cons k2)).Legal d ∧ (k1.append ((plainEl x w).cons k2)).Tame t ∧
    ((k1.append k2).Stable → (k1.append ((plainEl x w).cons k2)).Stable) ∧ ((k1.append k2).Even → (k1.append ((plainEl x w).cons k2)).Even) := by
  obtain ⟨p1, p2, p3⟩ := plainEl_good hx hw hd t
  have e : (plainEl x w).cons k2 = ((plainEl x w).cons .nil).append k2 := by rw [cons_append]; rfl
  rw [append_legal] at hl
  rw [append_tame] at ht
  rw [e, append_legal, append_legal, append_tame, append_tame, append_stable, append_stable, append_stable, append_even, append_even, append_even]
  exact ⟨⟨hl.1, p1, hl.2⟩, ⟨ht.1, p2, ht.2⟩, fun h => ⟨h.1, even_stable p3, h.2⟩, fun h => ⟨h.1, p3, h.2⟩⟩

theorem appended_named {x w : Bytes} {k1 k2 : Forest} (h : AfterLast x k1 k2) :
    (k1.append ((plainEl x w).cons k2)).info.named x = (k1.append k2).info.named x ++ [(plainEl x w).node] := by
  have h2 : k2.info.named x = [] := by
    rcases h with ⟨-, -, -, -, h⟩ | ⟨-, rfl⟩
    · exact h
    · rfl
  rw [append_named, append_named, h2, List.append_nil]
  congr 1
  rw [Info.named, cons_elems, List.filter_cons, if_pos (by exact nameMatches_self x)]
  congr 1

end Verif
