import Verif.Lemmas.SeriesMore
import Verif.Props.TripOptions
/- C88 for attributes, with options. -/
namespace Verif.Props
open Verif Verif.Spec

theorem escape_no_quote (v : Bytes) : c!"\"" ∉ escapeXML v := fun hq => (escapeXML_mem hq).2.2.1 rfl

/-- The attributes written anew fit if there is room for the new one. -/
theorem retagBy_fits {cs : Bool} {e : El} {k s : Bytes} {as : List Attr} (h : RetagBy cs e k (some s) as) (hl : AttrsLegal e.attrs) (hf : AttrsFit e.attrs) (hk : IsName k)
    (hs : (escapeXML s).length ≤ 1048576) (hroom : (∃ j, sameKey cs j k ∧ Spec.attrVal e.attrs j ≠ none) ∨ e.attrs.length < 100) : AttrsLegal as ∧ AttrsFit as := by
  have hmem : ∀ a ∈ as, (a.name ∈ e.attrs.map (·.name) ∨ (∀ j, sameKey cs j k → Spec.attrVal e.attrs j = none) ∧ a.name = spelling cs k) ∧ (escapeXML (unescapeXML a.raw)).length ≤ 1048576 := by
    intro a ha
    have hv := attrVal_nodup h.neat.2 ha
    by_cases hkk : sameKey cs a.name k
    · by_cases hn : Spec.attrVal e.attrs a.name = none
      · by_cases hx : ∃ j', sameKey cs j' k ∧ Spec.attrVal e.attrs j' ≠ none
        · rw [h.no _ hkk hx hn] at hv; cases hv
        · have hall : ∀ j, sameKey cs j k → Spec.attrVal e.attrs j = none := fun j hj => Classical.byContradiction fun hh => hx ⟨j, hj, hh⟩
          rw [h.new hall _ hkk] at hv
          split at hv
          · rename_i hh
            simp only [Option.some.injEq] at hv
            rw [← hv]
            exact ⟨.inr ⟨hall, hh⟩, hs⟩
          · cases hv
      · rw [h.this _ hkk hn] at hv
        simp only [Option.some.injEq] at hv
        rw [← hv]
        obtain ⟨v, hv'⟩ := Option.ne_none_iff_exists'.mp hn
        obtain ⟨b, hb, hb2, -⟩ := attrVal_mem hv'
        exact ⟨.inl (List.mem_map.mpr ⟨b, hb, hb2⟩), hs⟩
    · rw [h.others _ hkk] at hv
      obtain ⟨b, hb, hb2, hb3⟩ := attrVal_mem hv
      exact ⟨.inl (List.mem_map.mpr ⟨b, hb, hb2⟩), by rw [← hb3]; exact hf b hb⟩
  refine ⟨⟨?_, fun a ha => ?_, fun a ha => ?_⟩, fun a ha => (hmem a ha).2⟩
  · rcases hroom with hr | hr
    · have : (as.map (·.name)).length ≤ (e.attrs.map (·.name)).length := by
        refine nodup_length h.neat.2 fun x hx => ?_
        obtain ⟨a, ha, rfl⟩ := List.mem_map.mp hx
        rcases (hmem a ha).1 with h1 | ⟨h1, -⟩
        · exact h1
        · obtain ⟨j, hj, hj2⟩ := hr
          exact absurd (h1 j hj) hj2
      simp only [List.length_map] at this
      have := hl.1; omega
    · have : (as.map (·.name)).length ≤ (spelling cs k :: e.attrs.map (·.name)).length := by
        refine nodup_length h.neat.2 fun x hx => ?_
        obtain ⟨a, ha, rfl⟩ := List.mem_map.mp hx
        rcases (hmem a ha).1 with h1 | ⟨-, h1⟩
        · exact List.mem_cons_of_mem _ h1
        · rw [h1]; exact List.mem_cons_self
      simp only [List.length_map, List.length_cons] at this
      omega
  · obtain ⟨n1, n2, n3, n4, v, n5⟩ := h.neat.1 a ha
    have hv := (hmem a ha).2
    rw [n5, unescape_escape, ← n5] at hv
    refine ⟨by rw [n1]; decide, ?_, by rw [n2]; simp, by rw [n3]; simp, .inl n4, by rw [n4, n5]; exact escape_no_quote v, hv⟩
    rcases (hmem a ha).1 with h1 | ⟨-, h1⟩
    · obtain ⟨b, hb, hb2⟩ := List.mem_map.mp h1
      rw [← hb2]; exact (hl.2.1 b hb).2.1
    · rw [h1]; exact spelling_name hk
  · rw [(h.neat.1 a (List.mem_of_mem_head? (by simp [ha]))).1]; simp

/-- An attribute of an element that is there. -/
theorem retag_kept {cs : Bool} {c : Ctx} {e : El} (h : Editable (c.plug (e.cons .nil))) (hro : RootsOpen (c.plug (e.cons .nil))) {k s : Bytes} {as : List Attr} (hr : RetagBy cs e k (some s) as) (hk : IsName k)
    (hs : (escapeXML s).length ≤ 1048576) (hroom : (∃ j, sameKey cs j k ∧ Spec.attrVal e.attrs j ≠ none) ∨ e.attrs.length < 100) :
    ∃ g : Forest, g.render = c.before ++ (e.retag as).render ++ c.after ∧ Kept g ∧ g.HasElem := by
  have he := editable_el h
  obtain ⟨l1, l2⟩ := el_attrs he.legal he.tame
  obtain ⟨l3, l4⟩ := retagBy_fits hr l1 l2 hk hs hroom
  have hE : (c.plug ((e.retag as).cons .nil)).HasElem := plug_hasElem_of (cons_hasElem _ _)
  refine ⟨_, by rw [plug_render, el_render], ⟨left_mk hE fun hz => editable_retag h l3 l4 hr.neat hz, ?_⟩, hE⟩
  by_cases hb : e.body = none
  · exact plug_open hro (.inr (open_inside hro hb))
  · exact plug_open hro (.inl ((cons_open _).mpr hb))

theorem attr_keptB {o : Ord} (ho : o.IsPerm) {opts : Options} {ns : List Bytes} {n : Bytes} (hn : ∀ m ∈ ns ++ [n], IsName m) (hl : ns.length < 99) {c : Ctx} {e : El} (hL : LeadsBy opts.caseSensitive (firsts (ns ++ [n])) c e.name)
    (h : Editable (c.plug (e.cons .nil))) (hro : RootsOpen (c.plug (e.cons .nil))) {k : Bytes} (hk : IsName k) {v : GoVal} {s : Bytes} (hv0 : v ≠ .nil) (hv : valueToXML v = some (escapeXML s)) (hs : (escapeXML s).length ≤ 1048576)
    (hroom : (∃ j, sameKey opts.caseSensitive j k ∧ Spec.attrVal e.attrs j ≠ none) ∨ e.attrs.length < 100) :
    ∃ g, setWithOptions o (c.plug (e.cons .nil)).render (pathOf (ns ++ [n] ++ [c!"@" :: k])) v (some opts) = .ret (g.render, none) ∧ Kept g ∧ g.HasElem := by
  obtain ⟨as, h1, h2⟩ := set_attrB (opts := opts) ho (stepsText_names (fun m hm => name_plain (hn m hm))) (by simp; omega) hL h (name_bar hk) hv0 hv (by omega)
  obtain ⟨g, g1, g2⟩ := retag_kept h hro h1 hk hs hroom
  exact ⟨g, by rw [g1]; exact h2, g2⟩

/-- Creating the element a path of names should lead to, empty. -/
theorem set_createdB {o : Ord} (ho : o.IsPerm) {opts : Options} (hi : c!"<" ∉ opts.indent) {f : Forest} (h : Editable f ∨ f = .nil) {ns : List Bytes} {n : Bytes} (hn : ∀ m ∈ ns ++ [n], IsName m) (hl : ns.length < 100)
    (hmiss : f.info.followBy opts.caseSensitive (firsts (ns ++ [n])) = none) :
    ∃ c : Ctx, LeadsBy opts.caseSensitive (firsts (ns ++ [n])) c (spelling opts.caseSensitive n) ∧
        setWithOptions o f.render (pathOf (ns ++ [n])) (.str []) (some opts) = .ret ((c.plug ((tip (spelling opts.caseSensitive n) []).cons .nil)).render, none) ∧
        ((c.plug ((tip (spelling opts.caseSensitive n) []).cons .nil)).render.length ≤ 10485760 → Editable (c.plug ((tip (spelling opts.caseSensitive n) []).cons .nil))) ∧
        (RootsOpen f → RootsOpen (c.plug ((tip (spelling opts.caseSensitive n) []).cons .nil))) := by
  have hpn : ∀ m ∈ ns ++ [n], PlainName m := fun m hm => name_plain (hn m hm)
  rcases locate_splitB opts.caseSensitive f ns n with ⟨c, e, rfl, hL⟩ | ⟨as, bs, c, e, h0, rfl, rfl, hL, hm⟩ | hm
  · rw [leads_followB hL] at hmiss; cases hmiss
  · have h : Editable (c.plug (e.cons .nil)) := by
      rcases h with h | h
      · exact h
      · have : (c.plug (e.cons .nil)).HasElem := plug_hasElem_of (cons_hasElem _ _)
        rw [h] at this; exact absurd this (by simp [Forest.HasElem])
    obtain ⟨at', ws', hop, hset⟩ := set_missingB ho (stepsText_names (ns := as) (fun m hm => hpn m (by simp [hm]))) hL h
    have hd : c.depth + 1 = as.length := by have := leads_depthB hL; simp [firsts] at this; omega
    obtain ⟨m, ms, e1⟩ : ∃ m ms, bs ++ [n] = m :: ms := by cases bs <;> simp
    have hplug : (down c e.name at' ws' [] (chainFCtx opts.indent 0 e.kids ((bs ++ [n]).map (spelling opts.caseSensitive)))).plug ((tip (spelling opts.caseSensitive n) []).cons .nil) =
        c.plug ((e.refill at' ws' (e.kids.append (chainF opts.indent 0 ((bs ++ [n]).map (spelling opts.caseSensitive)) (.text [] .nil)))).cons .nil) := by
      rw [down_plug, tip, List.map_append, List.map_cons, List.map_nil, chainFCtx_plug, El.cons]; rfl
    have hmem : ∀ k ∈ bs ++ [n], k ∈ as ++ bs ++ [n] := by intro k hk; simp at hk ⊢; right; exact hk
    refine ⟨down c e.name at' ws' [] (chainFCtx opts.indent 0 e.kids ((bs ++ [n]).map (spelling opts.caseSensitive))), ?_, ?_, fun hsz => ?_, fun hro => ?_⟩
    · rw [List.append_assoc, firsts, List.map_append]; exact leads_downB hL (chainFCtx_leads _ opts.indent 0 hm)
    · have := hset m ms (fun k hk => hpn k (hmem k (by rw [e1]; exact hk))) (by rw [← e1]; simp at hl ⊢; omega) (by simpa only [e1, List.head_cons] using hm) (.str []) [] (by simp) rfl (by decide)
      have hin : e.inner = e.kids.render := by obtain ⟨nm, as, ws, body⟩ := e; cases body <;> rfl
      rw [List.append_assoc, e1, this, ← e1, hplug, plug_render, cons_render, hin]
      simp [El.refill, El.render, El.start, El.inner, El.stop, append_render, chainF_render, Forest.render]
    · rw [hplug] at hsz ⊢
      refine editable_createdB hi h (by simp) ?_ (by simp at hl ⊢; omega) (by simp) hop ?_
      · intro k hk
        obtain ⟨y, hy, rfl⟩ := List.mem_map.mp hk
        exact spelling_name (hn y (hmem y hy))
      · rw [plug_render, cons_render] at hsz
        simpa [Forest.render] using hsz
    · rw [hplug]
      exact plug_open hro (.inl ((cons_open _).mpr (by simp [El.refill])))
  · obtain ⟨m, ms, e1⟩ : ∃ m ms, ns ++ [n] = m :: ms := by cases ns <;> simp
    have hplug : (chainFCtx opts.indent 0 f ((ns ++ [n]).map (spelling opts.caseSensitive))).plug ((tip (spelling opts.caseSensitive n) []).cons .nil) =
        f.append (chainF opts.indent 0 ((ns ++ [n]).map (spelling opts.caseSensitive)) (.text [] .nil)) := by
      rw [tip, List.map_append, List.map_cons, List.map_nil, chainFCtx_plug]
    have hnm : ∀ k ∈ (ns ++ [n]).map (spelling opts.caseSensitive), IsName k := by
      intro k hk
      obtain ⟨y, hy, rfl⟩ := List.mem_map.mp hk
      exact spelling_name (hn y hy)
    refine ⟨_, chainFCtx_leads _ opts.indent 0 hm, ?_, fun hsz => ?_, fun hro => ?_⟩
    · rw [hplug, append_render, chainF_render]
      rcases h with h | rfl
      · rw [e1, set_newRootSB ho (editable_sound h) (by rw [← e1]; exact hpn) (by rw [← e1]; simp; omega) (by simpa only [e1, List.head_cons] using hm) (v := .str []) (w := []) (by simp) rfl (by decide)]
      · rw [e1]; exact set_emptyB o (by rw [← e1]; exact hpn) (by rw [← e1]; simp; omega) (by simp) rfl (by decide)
    · rw [hplug] at hsz ⊢
      rcases h with h | rfl
      · exact editable_newRootB hi h (by simp) hnm (by simp; omega) (by simp) (by rw [← append_render]; exact hsz)
      · obtain ⟨t1, t2, t3⟩ := plain_text (w := []) (d := 0 + ((ns ++ [n]).map (spelling opts.caseSensitive)).length) (by simp) (by simp)
        obtain ⟨c1, c2, c3⟩ := chainF_good (d := 0) (k := 0) (t := true) hi (by omega) (by simp) hnm (by simp; omega) t1 t2 t3
        exact ⟨hsz, c1, c2, chainF_hasElem (by simp) _, even_stable c3⟩
    · rw [hplug, append_open]
      exact ⟨hro, chainF_open (by simp) _⟩

/-- On the empty document the element is created first, too. -/
theorem create_attr_empty {o : Ord} (ho : o.IsPerm) {opts : Options} (hi : c!"<" ∉ opts.indent) {ns : List Bytes} {n : Bytes} (hn : ∀ m ∈ ns ++ [n], IsName m)
    (hl : ns.length < 99) {k : Bytes} (hk : c!"|" ∉ k) {v : GoVal} {w : Bytes} (hv0 : v ≠ .nil) (hv : valueToXML v = some w) (hw : w.length ≤ 5242880) {r : Bytes}
    (h1 : setWithOptions o [] (pathOf (ns ++ [n])) (.str []) (some opts) = .ret (r, none)) :
    setWithOptions o [] (pathOf (ns ++ [n] ++ [c!"@" :: k])) v (some opts) =
      if r.length ≤ 10485760 then setWithOptions o r (pathOf (ns ++ [n] ++ [c!"@" :: k])) v (some opts) else .ret ([], some .malformed) := by
  obtain ⟨c, hL, h1', h2, -⟩ := set_createdB (f := .nil) ho hi (.inr rfl) hn (by omega) (by cases ns with | nil => rfl | cons m ms => cases ms <;> rfl)
  rw [show (Forest.nil).render = [] from rfl, h1] at h1'
  simp only [Outcome.ret.injEq, Prod.mk.injEq, and_true] at h1'
  have hne : firsts (ns ++ [n]) ≠ [] := by simp [firsts]
  have hp := parseOpt_low opts.caseSensitive (parsePath_names (ns ++ [n]) [c!"@" :: k] (fun m hm => name_plain (hn m hm)) (by simp) (by simp; omega) _ (parseParts_attr hk))
  have hp0 := parseOpt_low opts.caseSensitive (parsePath_names (ns ++ [n]) [] (fun m hm => name_plain (hn m hm)) (by simp) (by simp; omega) [] rfl)
  have hss := stepSegs_low (cs := opts.caseSensitive) (stepSegs_names (ns ++ [n]))
  rw [lowSegs_append] at hp hp0
  revert hp hp0 hss
  generalize lowSegs opts.caseSensitive ((ns ++ [n]).map nameSeg) = ss
  intro hp hp0 hss
  simp only [fuseFields, List.append_nil, lowSegs_nil, lowSegs_attr] at hp hp0
  rw [set_entry_empty o hp0 (stepSegs_ne hss (lowSteps_ne hne)) _ (by simp), setElement_stepsB hss (lowSteps_ne hne) (v := .str []) (w := []) rfl (by decide) (by simp), findLoc_empty] at h1
  rw [set_entry_empty o hp (by simp) v hv0, setElement_attrB hss hv hw (by simp), findLoc_empty]
  simp only at h1 ⊢
  unfold createElementForAttribute
  cases hc : createElement o opts.caseSensitive opts.indent [] ss [] with
  | panic => rw [hc] at h1; simp [finish] at h1
  | err er => rw [hc] at h1; simp [finish] at h1
  | ok r' =>
    rw [hc] at h1
    simp only [finish, Outcome.ret.injEq, Prod.mk.injEq, and_true] at h1
    simp only [h1]
    have := docMax
    by_cases hsz : r.length ≤ 10485760
    · subst h1'
      have hed := h2 hsz
      obtain ⟨l, hl2, hok⟩ := editable_findLocB ho hss (leadsBy_low hL) hed
      rw [if_neg (by omega), if_pos hsz, hl2, set_entryB hed hp (by simp) v hv0, setElement_attrB hss hv hw hed.1, hl2]
      simp only
      unfold replaceAttribute
      rw [plug_el_render]
      generalize tip (spelling opts.caseSensitive n) [] = e at hok ⊢
      have e1 : ∀ z, c.before ++ e.start ++ e.inner ++ e.stop ++ z = c.before ++ e.start ++ (e.inner ++ e.stop ++ z) := by simp
      rw [e1, splice_at hok.start hok.cstart, finish_ok (by simp), finish_ok (by simp)]
    · rw [if_pos (by omega), if_neg hsz]
      rfl

/-- Set of an attribute at a path of names, in any case. -/
theorem setAttr_keptB {o : Ord} (ho : o.IsPerm) {opts : Options} (hi : c!"<" ∉ opts.indent) {f : Forest} (h : Editable f ∨ f = .nil) (hro : RootsOpen f) {ns : List Bytes} {n : Bytes} (hn : ∀ m ∈ ns ++ [n], IsName m) (hl : ns.length < 99)
    {k : Bytes} (hk : IsName k) {v : GoVal} {s : Bytes} (hv0 : v ≠ .nil) (hv : valueToXML v = some (escapeXML s)) (hs : (escapeXML s).length ≤ 1048576)
    (hroom : ∀ c e, f = c.plug (El.cons e .nil) → LeadsBy opts.caseSensitive (firsts (ns ++ [n])) c e.name → (∃ j, sameKey opts.caseSensitive j k ∧ Spec.attrVal e.attrs j ≠ none) ∨ e.attrs.length < 100) :
    ∃ g err, setWithOptions o f.render (pathOf (ns ++ [n] ++ [c!"@" :: k])) v (some opts) = .ret (g.render, err) ∧ (err = none ∨ err = some .malformed ∧ g = f) ∧ Kept g ∧ (f.HasElem → g.HasElem) := by
  cases hf : f.info.followBy opts.caseSensitive (firsts (ns ++ [n])) with
  | some nd =>
    obtain ⟨c, e, rfl, hL, -⟩ := follow_leadsB hf
    have h : Editable (c.plug (e.cons .nil)) := by
      rcases h with h | h
      · exact h
      · have : (c.plug (e.cons .nil)).HasElem := plug_hasElem_of (cons_hasElem _ _)
        rw [h] at this; exact absurd this (by simp [Forest.HasElem])
    obtain ⟨g, g1, g2, g3⟩ := attr_keptB ho hn hl hL h hro hk hv0 hv hs (hroom c e rfl hL)
    exact ⟨g, none, g1, .inl rfl, g2, fun _ => g3⟩
  | none =>
    obtain ⟨c, hL, h1, h2, h3⟩ := set_createdB ho hi h hn (by omega) hf
    have hrun : setWithOptions o f.render (pathOf (ns ++ [n] ++ [c!"@" :: k])) v (some opts) =
        if (c.plug ((tip (spelling opts.caseSensitive n) []).cons .nil)).render.length ≤ 10485760 then
          setWithOptions o (c.plug ((tip (spelling opts.caseSensitive n) []).cons .nil)).render (pathOf (ns ++ [n] ++ [c!"@" :: k])) v (some opts) else .ret (f.render, some .malformed) := by
      rcases h with h | rfl
      · obtain ⟨r, r1, r2⟩ := C49_create_attr opts hi o ho f h ns n hn hl hf k (name_bar hk) v _ hv0 hv (by omega)
        rw [r1] at h1
        simp only [Outcome.ret.injEq, Prod.mk.injEq, and_true] at h1
        rw [← h1]; exact r2
      · exact create_attr_empty ho hi hn hl (name_bar hk) hv0 hv (by omega) h1
    rw [hrun]
    split
    · rename_i hz
      obtain ⟨g, g1, g2, g3⟩ := attr_keptB ho (e := tip (spelling opts.caseSensitive n) []) hn hl hL (h2 hz) (h3 hro) hk hv0 hv hs (.inr (by simp [tip]))
      exact ⟨g, none, g1, .inl rfl, g2, fun _ => g3⟩
    · refine ⟨f, _, rfl, .inr ⟨rfl, rfl⟩, ⟨?_, hro⟩, id⟩
      rcases h with h | rfl
      · exact left_of h
      · exact ⟨fun hh => absurd hh (by simp [Forest.HasElem]), fun _ => by decide⟩

/-- C75: on the empty document every run of Set of an attribute at a path of names is the same, too. -/
theorem C75_set_attr_empty (os1 os2 : Visits) (p1 : os1.IsPerm) (p2 : os2.IsPerm) (ns : List Bytes) (n : Bytes) (hn : ∀ m ∈ ns ++ [n], IsName m) (hl : ns.length < 99)
    (k : Bytes) (hk : c!"|" ∉ k) (value : GoVal) (opts : Options) (hi : c!"<" ∉ opts.indent) :
    setWithOptionsF os1 [] (pathOf (ns ++ [n] ++ [c!"@" :: k])) value (some opts) = setWithOptionsF os2 [] (pathOf (ns ++ [n] ++ [c!"@" :: k])) value (some opts) := by
  have hp := parseOpt_low opts.caseSensitive (parsePath_names (ns ++ [n]) [c!"@" :: k] (fun m hm => name_plain (hn m hm)) (by simp) (by simp; omega) _ (parseParts_attr hk))
  rw [lowSegs_append, lowSegs_names] at hp
  have hss := stepSegs_names ((ns ++ [n]).map (spelling opts.caseSensitive))
  have hb : buildElementPath opts.indent (((ns ++ [n]).map (spelling opts.caseSensitive)).map nameSeg) [] = (chainF opts.indent 0 ((ns ++ [n]).map (spelling opts.caseSensitive)) (.text [] .nil)).render := by
    rw [buildElement_lines _ _ (by simp), chainF_render]
  have hE : (chainF opts.indent 0 ((ns ++ [n]).map (spelling opts.caseSensitive)) (.text [] .nil)).render.length ≤ 10485760 → Editable (chainF opts.indent 0 ((ns ++ [n]).map (spelling opts.caseSensitive)) (.text [] .nil)) := by
    intro hz
    have hnm : ∀ k ∈ (ns ++ [n]).map (spelling opts.caseSensitive), IsName k := by
      intro k hk
      obtain ⟨y, hy, rfl⟩ := List.mem_map.mp hk
      exact spelling_name (hn y hy)
    obtain ⟨t1, t2, t3⟩ := plain_text (w := []) (d := 0 + ((ns ++ [n]).map (spelling opts.caseSensitive)).length) (by simp) (by simp)
    obtain ⟨c1, c2, c3⟩ := chainF_good (d := 0) (k := 0) (t := true) hi (by omega) (by simp) hnm (by simp; omega) t1 t2 t3
    exact ⟨hz, c1, c2, chainF_hasElem (by simp) _, even_stable c3⟩
  rw [← hb] at hE
  revert hp hss hb hE
  generalize ((ns ++ [n]).map (spelling opts.caseSensitive)).map nameSeg = ss
  intro hp hss hb hE
  simp only [fuseFields, lowSegs_attr] at hp
  have hdel : ∀ os : Visits, deleteWithOptionsF os [] (pathOf (ns ++ [n] ++ [c!"@" :: k])) (some opts) = .ret ([], some .malformed) := by
    intro os
    unfold deleteWithOptionsF
    rw [show valid [] = false by decide]; rfl
  revert hp
  generalize spelling opts.caseSensitive k = k'
  intro hp
  have key : setElementF os1 opts.caseSensitive opts.indent [] (ss ++ [⟨.attr k', []⟩]) value = setElementF os2 opts.caseSensitive opts.indent [] (ss ++ [⟨.attr k', []⟩]) value := by
    have hind : indexIntent (ss ++ [⟨.attr k', []⟩]) = none := by rw [indexIntent_steps hss]; rfl
    unfold setElementF
    simp only [List.getLast?_concat, hind, findLocF_empty, List.dropLast_concat, createElementForAttributeF, createElementF, List.isEmpty_nil, if_true, List.nil_append]
    have hg : getResult [] (buildElementPath opts.indent ss []) = buildElementPath opts.indent ss [] := by
      unfold getResult
      split
      · rename_i hh; simp at hh; exact hh.symm
      · rfl
    rw [hg]
    by_cases hz : (buildElementPath opts.indent ss []).length > maxDocumentSize
    · simp only [if_pos hz]
    · have hed := hE (by have : maxDocumentSize = 10485760 := rfl; omega)
      have hA := findLocF_sound (⟨p1.at 2 |>.at 1, p2.at 2 |>.at 1⟩ : Wides _ _) (editable_sound hed) opts.caseSensitive ss 0
      rw [← hb] at hA
      simp only [if_neg hz]
      generalize findLocF opts.caseSensitive ss ((os1.at 2).at 1) (buildElementPath opts.indent ss []) 0 = x at hA ⊢
      generalize findLocF opts.caseSensitive ss ((os2.at 2).at 1) (buildElementPath opts.indent ss []) 0 = y at hA ⊢
      cases hA with
      | none => rfl
      | some h => simp only [replaceAttribute_same h]
  unfold setWithOptionsF
  rw [hdel, hdel]
  simp only [effOpts, Option.getD_some]
  rw [hp]
  cases ss with
  | nil => simp only [List.nil_append] at key ⊢; rw [key]
  | cons s ss => simp only [List.cons_append] at key ⊢; rw [key]

theorem kept_setAttrB {os : Visits} (hp : os.IsPerm) {g : Forest} (hg : Kept g) {ns : List Bytes} {n : Bytes} (hn : ∀ m ∈ ns ++ [n], IsName m) (hl : ns.length < 99) {k : Bytes} (hk : IsName k) (v : GoVal)
    (opts : Options) (hi : c!"<" ∉ opts.indent) :
    ∃ o : Ord, o.IsPerm ∧ setWithOptionsF os g.render (pathOf (ns ++ [n] ++ [c!"@" :: k])) v (some opts) = setWithOptions o g.render (pathOf (ns ++ [n] ++ [c!"@" :: k])) v (some opts) := by
  by_cases hE : Editable g
  · exact C75_set_attr os hp g hE ns n hn hl k (name_bar hk) v opts hi
  · refine ⟨_, noOrd_perm, ?_⟩
    by_cases h0 : g.render = []
    · rw [h0, C75_set_attr_empty os (fun _ => fun _ as => as) hp (fun _ => noOrd_perm) ns n hn hl k (name_bar hk) v opts hi, C75_same_set]
    · rw [setF_refused h0 (kept_not hg hE)]; exact (set_refused h0 (kept_not hg hE)).symm

/-- C75: every run of Set of an attribute of an element that is there, at any path, is a run with one order. -/
theorem C75_set_attr_there {os : Visits} (hos : os.IsPerm) (opts : Options) {c : Ctx} {e : El} (h : Editable (c.plug (e.cons .nil))) {qs : List Bytes} {x p : Bytes} (hp : PathSteps p (qs ++ [x])) (hx : AttrStep x)
    (hl : LeadTo opts.caseSensitive qs c e.name) (v : GoVal) :
    ∃ o : Ord, o.IsPerm ∧ setWithOptionsF os (c.plug (e.cons .nil)).render p v (some opts) = setWithOptions o (c.plug (e.cons .nil)).render p v (some opts) := by
  obtain ⟨segs, h1, h2⟩ := parseOpt_reads hp (by simp) opts.caseSensitive
  obtain ⟨hs, ht, hr⟩ := hl
  obtain ⟨sa, rs, k1, k2, rfl, k3, k4⟩ := trail_split (cs := opts.caseSensitive) ht h2
  cases k2 with | @cons _ t _ rs k2 k5 =>
  cases k5
  have hk := isSeg_attr (cs := opts.caseSensitive) k2 hx
  simp only [fuseFields, List.map_cons, List.map_nil] at k4
  rw [k4] at h1
  have hpl := hopSegs_plainly k3 (reach_ne hr)
  have hin := hpl.intent [lowIf opts.caseSensitive t]
  have hin2 : indexIntent [lowIf opts.caseSensitive t] = none := by simp [indexIntent, hk]
  obtain ⟨o, ho, he⟩ := setElementF_attr (editable_sound h) opts.caseSensitive opts.indent (sa.map (lowIf opts.caseSensitive) ++ [lowIf opts.caseSensitive t]) v (List.getLast?_concat ..) hk (by rw [hin, hin2])
    (fun o ho hloc => by
      obtain ⟨l, hf, -⟩ := leadTo_found ho h k3 hr
      rw [List.dropLast_concat, hf] at hloc
      cases hloc) hos
  refine ⟨o, ho, ?_⟩
  rw [← C75_same_set]
  unfold setWithOptionsF
  rw [C75_delete os _ hos (fun _ => ho) _ (editable_sound h)]
  simp only [effOpts, Option.getD_some]
  rw [h1]
  cases hq : sa.map (lowIf opts.caseSensitive) ++ [lowIf opts.caseSensitive t] with
  | nil => rfl
  | cons s q => rw [hq] at he; simp only [he]; rfl

end Verif.Props
