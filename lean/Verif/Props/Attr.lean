import Verif.Lemmas.Attr
import Verif.Props.Set
/- Properties of Set and Delete on attributes: C29. -/
namespace Verif.Props
open Spec

/-! ## C29 attributes -/

/-- C29: when the path leads to an element, Set at `path.@k` writes its start tag anew: one blank before each attribute, double quotes, values escaped, names in ascending order; `k` has
the value, all other attributes keep theirs. All bytes outside the start tag are kept. -/
theorem C29_set (o : Ord) (ho : o.IsPerm) (ps : List Step) (parts : List Bytes) (hps : StepsText ps parts) (hpl : parts.length < 100)
    (c : Ctx) (e : El) (hL : Leads ps c e.name) (h : Editable (c.plug (e.cons .nil))) (k : Bytes) (hk : c!"|" ∉ k)
    (v : GoVal) (s : Bytes) (hv0 : v ≠ .nil) (hv : valueToXML v = some (escapeXML s)) (hw : (escapeXML s).length ≤ 5242880) :
    (c.plug (e.cons .nil)).render = c.before ++ e.start ++ (e.inner ++ e.stop) ++ c.after ∧
    ∃ as, Retag e k (some s) as ∧
      set o (c.plug (e.cons .nil)).render (pathOf (parts ++ [c!"@" :: k])) v =
        .ret (c.before ++ (openTag e.name as [] ++ (if e.body.isNone then b!"/>" else b!">")) ++ (e.inner ++ e.stop) ++ c.after, none) := by
  obtain ⟨as, h1, h2, -⟩ := set_attr ho hps hpl hL h hk hv0 hv hw
  refine ⟨by rw [plug_el_render]; simp, as, h1, ?_⟩
  rw [h2]
  simp [El.retag, El.render, El.start, El.inner, El.stop]

/-- C29: the same for Delete, if the element has the attribute; otherwise nothing changes. -/
theorem C29_delete (o : Ord) (ho : o.IsPerm) (ps : List Step) (parts : List Bytes) (hps : StepsText ps parts) (hpl : parts.length < 100)
    (c : Ctx) (e : El) (hL : Leads ps c e.name) (h : Editable (c.plug (e.cons .nil))) (k : Bytes) (hk : c!"|" ∉ k) :
    (attrVal e.attrs k = none → delete o (c.plug (e.cons .nil)).render (pathOf (parts ++ [c!"@" :: k])) = .ret ((c.plug (e.cons .nil)).render, none)) ∧
    (attrVal e.attrs k ≠ none → ∃ as, Retag e k none as ∧
      delete o (c.plug (e.cons .nil)).render (pathOf (parts ++ [c!"@" :: k])) =
        .ret (c.before ++ (openTag e.name as [] ++ (if e.body.isNone then b!"/>" else b!">")) ++ (e.inner ++ e.stop) ++ c.after, none)) := by
  obtain ⟨h1, h2⟩ := delete_attr ho hps hpl hL h hk
  refine ⟨h1, fun hn => ?_⟩
  obtain ⟨as, g1, -, -, g2⟩ := h2 hn
  refine ⟨as, g1, ?_⟩
  rw [g2]
  simp [El.retag, El.render, El.start, El.inner, El.stop]

/-- What later queries see, when the attributes of the element a path of names leads to are rewritten. -/
theorem retag_reads (env : Env) (ho : env.ord.IsPerm) (ns : List Bytes) (n : Bytes) (hn : ∀ m ∈ ns ++ [n], PlainName m) (hl : ns.length < 99)
    (c : Ctx) (e : El) (hL : Leads (firsts (ns ++ [n])) c e.name) (h : Editable (c.plug (e.cons .nil))) (k : Bytes) (hk : c!"|" ∉ k)
    (x : Option Bytes) (as : List Attr) (hr : Retag e k x as) (he : Editable (c.plug ((e.retag as).cons .nil))) :
    (∀ s, x = some s → get env (c.plug ((e.retag as).cons .nil)).render (pathOf (ns ++ [n] ++ [c!"@" :: k])) = .ret (.ofAttr s)) ∧
    (x = none → ((c.plug (e.cons .nil)).info.reach ns).length = 1 → get env (c.plug ((e.retag as).cons .nil)).render (pathOf (ns ++ [n] ++ [c!"@" :: k])) = .ret .null) ∧
    (∀ pre m, (∀ q ∈ pre ++ [m], PlainName q) → pre.length < 99 → ∀ j, j ≠ k → c!"|" ∉ j →
      get env (c.plug ((e.retag as).cons .nil)).render (pathOf (pre ++ [m] ++ [c!"@" :: j])) = get env (c.plug (e.cons .nil)).render (pathOf (pre ++ [m] ++ [c!"@" :: j]))) ∧
    (∀ pre m, (∀ q ∈ pre ++ [m], PlainName q) → pre.length < 99 → ∃ a b,
      get env (c.plug ((e.retag as).cons .nil)).render (pathOf (pre ++ [m])) = .ret a ∧ get env (c.plug (e.cons .nil)).render (pathOf (pre ++ [m])) = .ret b ∧
      a.typ = b.typ ∧ a.toStr = b.toStr) := by
  have hL2 : Leads (firsts (ns ++ [n])) c (e.retag as).name := hL
  have hf := leads_follow hL2
  obtain ⟨k0, ks, hk0, hk1⟩ := follow_reach hf
  have hval : ((k0.named n).head?.bind (·.attr k)) = x := by rw [hk1]; exact hr.this
  refine ⟨fun s hs => ?_, fun hx h1 => ?_, fun pre m hp hl' j hj hj' => ?_, fun pre m hp hl' => ?_⟩
  · rw [C05_get_attribute env ho _ _ (editable_says he) ns n k hn hk hl, hk0, List.findSome?_cons, hval, hs]
  · have hlen : ((c.plug ((e.retag as).cons .nil)).info.reach ns).length = ((c.plug (e.cons .nil)).info.reach ns).length := by
      have hex : ∃ j, j ≠ k := ⟨c!"x" :: k, fun hh => by have := congrArg List.length hh; simp at this⟩
      obtain ⟨j, hj⟩ := hex
      have := congrArg List.length (retag_other c e as j (hr.others j hj) ns n)
      simpa [firstAttrs] using this
    rw [h1, hk0] at hlen
    have hks : ks = [] := List.length_eq_zero_iff.mp (by simpa using hlen)
    rw [C05_get_attribute env ho _ _ (editable_says he) ns n k hn hk hl, hk0, hks, List.findSome?_cons, hval, hx]
    rfl
  · rw [C05_get_attribute env ho _ _ (editable_says he) pre m j hp hj' hl', C05_get_attribute env ho _ _ (editable_says h) pre m j hp hj' hl']
    have e1 : ∀ i : Info, (i.reach pre).findSome? (fun k => (k.named m).head?.bind (·.attr j)) = (firstAttrs i pre m j).findSome? id := by
      intro i; rw [firstAttrs, List.findSome?_map]; rfl
    rw [e1, e1, retag_other c e as j (hr.others j hj)]
  · have g1 := C04_get_element env ho _ _ (editable_says he) pre m hp (by omega)
    have g2 := C04_get_element env ho _ _ (editable_says h) pre m hp (by omega)
    have ht := congrArg List.head? (retag_text c e as pre m)
    rw [List.head?_map, List.head?_map] at ht
    cases hx : ((c.plug (e.cons .nil)).info.select pre m).head? with
    | none =>
      rw [hx] at g2 ht
      cases hy : ((c.plug ((e.retag as).cons .nil)).info.select pre m).head? with
      | some y => rw [hy] at ht; simp at ht
      | none => rw [hy] at g1; exact ⟨_, _, g1, g2, rfl, rfl⟩
    | some z =>
      rw [hx] at g2 ht
      cases hy : ((c.plug ((e.retag as).cons .nil)).info.select pre m).head? with
      | none => rw [hy] at ht; simp at ht
      | some y =>
        rw [hy] at g1 ht
        obtain ⟨a, a1, a2⟩ := g1
        obtain ⟨b, b1, b2⟩ := g2
        refine ⟨a, b, a1, b1, by rw [a2.typ, b2.typ], ?_⟩
        rw [a2.str, b2.str]
        simpa using ht

/-- C29: after Set at an attribute of an existing element, Get gives exactly the string, every other attribute anywhere reads as before, and so does every element. -/
theorem C29_set_get (env : Env) (ho : env.ord.IsPerm) (ns : List Bytes) (n : Bytes) (hn : ∀ m ∈ ns ++ [n], PlainName m) (hl : ns.length < 99)
    (c : Ctx) (e : El) (hL : Leads (firsts (ns ++ [n])) c e.name) (h : Editable (c.plug (e.cons .nil))) (k : Bytes) (hk : IsName k)
    (s : Bytes) (hw : (escapeXML s).length ≤ 1048576) (hcount : attrVal e.attrs k ≠ none ∨ e.attrs.length < 100) :
    ∃ r, set env.ord (c.plug (e.cons .nil)).render (pathOf (ns ++ [n] ++ [c!"@" :: k])) (.str s) = .ret (r, none) ∧ (r.length ≤ 10485760 →
      valid r = true ∧
      get env r (pathOf (ns ++ [n] ++ [c!"@" :: k])) = .ret (.ofAttr s) ∧
      (∀ pre m, (∀ q ∈ pre ++ [m], PlainName q) → pre.length < 99 → ∀ j, j ≠ k → c!"|" ∉ j →
        get env r (pathOf (pre ++ [m] ++ [c!"@" :: j])) = get env (c.plug (e.cons .nil)).render (pathOf (pre ++ [m] ++ [c!"@" :: j]))) ∧
      (∀ pre m, (∀ q ∈ pre ++ [m], PlainName q) → pre.length < 99 → ∃ a b,
        get env r (pathOf (pre ++ [m])) = .ret a ∧ get env (c.plug (e.cons .nil)).render (pathOf (pre ++ [m])) = .ret b ∧ a.typ = b.typ ∧ a.toStr = b.toStr)) := by
  have hk' : c!"|" ∉ k := by
    intro hh
    have := hk.2.1 _ hh
    revert this; decide
  obtain ⟨as, h1, h2, h3⟩ := set_attr ho (stepsText_names hn) (by simp; omega) hL h hk' (v := .str s) (by simp) rfl (by omega)
  refine ⟨_, h2, fun hsz => ?_⟩
  have hg := editable_el h
  obtain ⟨ha, hf⟩ := el_attrs hg.legal hg.tame
  obtain ⟨h4, h5⟩ := h3 ha hf hk hw hcount
  have hr : c.before ++ (e.retag as).render ++ c.after = (c.plug ((e.retag as).cons .nil)).render := by
    rw [plug_el_render]; simp [El.render]
  rw [hr] at hsz ⊢
  have he := editable_retag h h4 h5 h1.neat hsz
  obtain ⟨r1, -, r3, r4⟩ := retag_reads env ho ns n hn hl c e hL h k hk' _ as h1 he
  exact ⟨editable_valid he, r1 s rfl, r3, r4⟩

/-- C29: after Delete of an attribute, the document is valid, every other attribute anywhere reads as before, and so does every element; and when only one parent is reached by the path, the attribute does not exist. -/
theorem C29_delete_get (env : Env) (ho : env.ord.IsPerm) (ns : List Bytes) (n : Bytes) (hn : ∀ m ∈ ns ++ [n], PlainName m) (hl : ns.length < 99)
    (c : Ctx) (e : El) (hL : Leads (firsts (ns ++ [n])) c e.name) (h : Editable (c.plug (e.cons .nil))) (k : Bytes) (hk : c!"|" ∉ k) (hx : attrVal e.attrs k ≠ none) :
    ∃ r, delete env.ord (c.plug (e.cons .nil)).render (pathOf (ns ++ [n] ++ [c!"@" :: k])) = .ret (r, none) ∧ (r.length ≤ 10485760 →
      valid r = true ∧
      (((c.plug (e.cons .nil)).info.reach ns).length = 1 → get env r (pathOf (ns ++ [n] ++ [c!"@" :: k])) = .ret .null) ∧
      (∀ pre m, (∀ q ∈ pre ++ [m], PlainName q) → pre.length < 99 → ∀ j, j ≠ k → c!"|" ∉ j →
        get env r (pathOf (pre ++ [m] ++ [c!"@" :: j])) = get env (c.plug (e.cons .nil)).render (pathOf (pre ++ [m] ++ [c!"@" :: j]))) ∧
      (∀ pre m, (∀ q ∈ pre ++ [m], PlainName q) → pre.length < 99 → ∃ a b,
        get env r (pathOf (pre ++ [m])) = .ret a ∧ get env (c.plug (e.cons .nil)).render (pathOf (pre ++ [m])) = .ret b ∧ a.typ = b.typ ∧ a.toStr = b.toStr)) := by
  obtain ⟨as, h1, h4, h5, h2⟩ := (delete_attr ho (stepsText_names hn) (by simp; omega) hL h hk).2 hx
  refine ⟨_, h2, fun hsz => ?_⟩
  have hr : c.before ++ (e.retag as).render ++ c.after = (c.plug ((e.retag as).cons .nil)).render := by
    rw [plug_el_render]; simp [El.render]
  rw [hr] at hsz ⊢
  have he := editable_retag h h4 h5 h1.neat hsz
  obtain ⟨-, r2, r3, r4⟩ := retag_reads env ho ns n hn hl c e hL h k hk _ as h1 he
  exact ⟨editable_valid he, r2 rfl, r3, r4⟩

/-- C29: Set at an attribute of an element that is missing first creates the element, empty, as Set with the empty string does. -/
theorem C29_create (o : Ord) (ho : o.IsPerm) (f : Forest) (h : Editable f) (ns : List Bytes) (n : Bytes) (hn : ∀ m ∈ ns ++ [n], IsName m) (hl : ns.length < 99)
    (hmiss : f.info.follow (firsts (ns ++ [n])) = none) (k : Bytes) (hk : c!"|" ∉ k)
    (v : GoVal) (w : Bytes) (hv0 : v ≠ .nil) (hv : valueToXML v = some w) (hw : w.length ≤ 5242880) :
    ∃ r, set o f.render (pathOf (ns ++ [n])) (.str []) = .ret (r, none) ∧ (r.length ≤ 10485760 →
      set o f.render (pathOf (ns ++ [n] ++ [c!"@" :: k])) v = set o r (pathOf (ns ++ [n] ++ [c!"@" :: k])) v) := by
  obtain ⟨c, x, e, hL, he, hset⟩ := set_names o ho f h ns n hn (by omega) (by
    rintro c e rfl hL
    rw [leads_follow hL] at hmiss
    simp at hmiss)
  obtain ⟨h1, h2⟩ := hset (.str []) [] (by simp) rfl (by decide)
  refine ⟨_, h1, fun hsz => ?_⟩
  have hed := h2 (by simp) hsz
  have hps : StepsText (firsts (ns ++ [n])) (ns ++ [n]) := stepsText_names (fun m hm => name_plain (hn m hm))
  have hne : firsts (ns ++ [n]) ≠ [] := by simp [firsts]
  have hp := parsePath_names (ns ++ [n]) [c!"@" :: k] (fun m hm => name_plain (hn m hm)) (by simp) (by simp; omega) _ (parseParts_attr hk)
  have hp0 := parsePath_names (ns ++ [n]) [] (fun m hm => name_plain (hn m hm)) (by simp) (by simp; omega) [] rfl
  have hss := stepSegs_names (ns ++ [n])
  revert hp hp0 hss
  generalize (ns ++ [n]).map nameSeg = ss
  intro hp hp0 hss
  simp only [fuseFields, List.append_nil] at hp hp0
  have hloc : findLoc o true ss f.render 0 = none := findLoc_follow_none ho hss (says_reads ho (editable_says h)) 0 hmiss
  obtain ⟨l, hl2, hok⟩ := editable_findLoc ho hss (by rw [(he []).1]; exact hL) hed
  rw [set_entry h hp0 (stepSegs_ne hss hne) _ (by simp), setElement_steps hss hne (v := .str []) (w := []) rfl (by decide) h.1, hloc] at h1
  rw [set_entry h hp (by simp) v hv0, set_entry hed hp (by simp) v hv0, setElement_attr hss hv hw h.1, setElement_attr hss hv hw hed.1, hloc, hl2]
  simp only at h1 ⊢
  unfold createElementForAttribute
  cases hc : createElement o true [] f.render ss [] with
  | panic => rw [hc] at h1; simp [finish] at h1
  | err er => rw [hc] at h1; simp [finish] at h1
  | ok r =>
    rw [hc] at h1
    simp only [finish, Outcome.ret.injEq, Prod.mk.injEq, and_true] at h1
    simp only [h1]
    have := docMax
    rw [if_neg (by omega), hl2]
    simp only
    unfold replaceAttribute
    rw [plug_el_render]
    have e1 : ∀ z, c.before ++ (e []).start ++ (e []).inner ++ (e []).stop ++ z = c.before ++ (e []).start ++ ((e []).inner ++ (e []).stop ++ z) := by simp
    rw [e1, splice_at hok.start hok.cstart, finish_ok (by simp), finish_ok (by simp)]

/-- C29: when the document with the created element would exceed 10 MiB, the whole Set is refused. -/
theorem C29_create_large (o : Ord) (ho : o.IsPerm) (f : Forest) (h : Editable f) (ns : List Bytes) (n : Bytes) (hn : ∀ m ∈ ns ++ [n], IsName m) (hl : ns.length < 99)
    (hmiss : f.info.follow (firsts (ns ++ [n])) = none) (k : Bytes) (hk : c!"|" ∉ k)
    (v : GoVal) (w : Bytes) (hv0 : v ≠ .nil) (hv : valueToXML v = some w) (hw : w.length ≤ 5242880)
    (r : Bytes) (hr : set o f.render (pathOf (ns ++ [n])) (.str []) = .ret (r, none)) (hbig : r.length > 10485760) :
    set o f.render (pathOf (ns ++ [n] ++ [c!"@" :: k])) v = .ret (f.render, some .malformed) := by
  have hne : firsts (ns ++ [n]) ≠ [] := by simp [firsts]
  have hp := parsePath_names (ns ++ [n]) [c!"@" :: k] (fun m hm => name_plain (hn m hm)) (by simp) (by simp; omega) _ (parseParts_attr hk)
  have hp0 := parsePath_names (ns ++ [n]) [] (fun m hm => name_plain (hn m hm)) (by simp) (by simp; omega) [] rfl
  have hss := stepSegs_names (ns ++ [n])
  revert hp hp0 hss
  generalize (ns ++ [n]).map nameSeg = ss
  intro hp hp0 hss
  simp only [fuseFields, List.append_nil] at hp hp0
  have hloc : findLoc o true ss f.render 0 = none := findLoc_follow_none ho hss (says_reads ho (editable_says h)) 0 hmiss
  rw [set_entry h hp0 (stepSegs_ne hss hne) _ (by simp), setElement_steps hss hne (v := .str []) (w := []) rfl (by decide) h.1, hloc] at hr
  rw [set_entry h hp (by simp) v hv0, setElement_attr hss hv hw h.1, hloc]
  simp only at hr ⊢
  unfold createElementForAttribute
  cases hc : createElement o true [] f.render ss [] with
  | panic => rw [hc] at hr; simp [finish] at hr
  | err er => rw [hc] at hr; simp [finish] at hr
  | ok r' =>
    rw [hc] at hr
    simp only [finish, Outcome.ret.injEq, Prod.mk.injEq, and_true] at hr
    simp only [hr]
    have := docMax
    rw [if_pos (by omega)]
    rfl

/-- C29: deleting an attribute of an element that is missing changes nothing, in every document of the query class. -/
theorem C29_delete_missing (o : Ord) (ho : o.IsPerm) (xml : Bytes) (i : Info) (h : Says xml i) (hv : valid xml = true) (ps : List Step) (parts : List Bytes)
    (hps : StepsText ps parts) (hne : ps ≠ []) (hpl : parts.length < 100) (hn : i.follow ps = none) (k : Bytes) (hk : c!"|" ∉ k) :
    delete o xml (pathOf (parts ++ [c!"@" :: k])) = .ret (xml, none) := delete_attr_missing ho h hv hps hne hpl hn hk

example : set exEnv.ord b!"<!--x--><r v='1' ><a k=\"&lt;\">x</a> <a><b>y</b></a><c j=\"1\"/></r>" b!"r.a.1.@k" (.str b!"\"<") =
    .ret (b!"<!--x--><r v='1' ><a k=\"&lt;\">x</a> <a k=\"&quot;&lt;\"><b>y</b></a><c j=\"1\"/></r>", none) := by
  obtain ⟨-, as, h1, h2⟩ := C29_set exEnv.ord exEnv_perm _ _ exSteps (by decide) exCtx exEl exLeads exEdit b!"k" (by decide) (.str b!"\"<") _ (by simp) rfl (by decide +kernel)
  rw [exEdit_render] at h2
  have : as = [⟨b!" ", b!"k", [], [], c!"\"", b!"&quot;&lt;"⟩] := by
    have hnone : ∀ j, attrVal exEl.attrs j = none := fun j => rfl
    have hname : ∀ a ∈ as, a.name = b!"k" := by
      intro a ha
      apply Classical.byContradiction
      intro hne
      have h3 := h1.others _ hne
      rw [hnone, attrVal, Option.map_eq_none_iff, List.getLast?_eq_none_iff, List.filter_eq_nil_iff] at h3
      exact h3 a ha (by simp)
    match as, h1, hname with
    | [], h1, _ => have := h1.this; simp [attrVal] at this
    | [a], h1, hname =>
      obtain ⟨p1, p2, p3, p4, v, p5⟩ := h1.neat.1 a (by simp)
      have hn := hname a (by simp)
      have hv := h1.this
      rw [← hn, show [a] = [] ++ [a] from rfl, C05_attrVal_last, p5, unescape_escape, Option.some.injEq] at hv
      obtain ⟨_, _, _, _, _, _⟩ := a
      simp only at p1 p2 p3 p4 p5 hn
      subst p1 p2 p3 p4 p5 hn hv
      decide +kernel
    | a :: b :: _, h1, hname =>
      have hd := h1.neat.2
      rw [List.map_cons, List.map_cons, hname a (by simp), hname b (by simp)] at hd
      simp at hd
  subst this
  exact h2
example : set exEnv.ord b!"<r z='1'  b = \"&amp;\" />" b!"r.@m" (.str b!"x") = .ret (b!"<r b=\"&amp;\" m=\"x\" z=\"1\"/>", none) := by decide +kernel
example : delete exEnv.ord b!"<r z='1'  b = \"&amp;\" >x</r>" b!"r.@z" = .ret (b!"<r b=\"&amp;\">x</r>", none) := by decide +kernel
example : set exEnv.ord b!"<r/>" b!"r.a.b.@m" (.str b!"x") = .ret (b!"<r><a><b m=\"x\"></b></a></r>", none) := by decide +kernel

/-- C29: after Delete the attribute can still be found, on a later element. -/
theorem C29_later_remains : delete exEnv.ord b!"<r><a><b k=\"1\"/></a><a><b k=\"2\"/></a></r>" b!"r.a.b.@k" = .ret (b!"<r><a><b/></a><a><b k=\"2\"/></a></r>", none) ∧
    get exEnv b!"<r><a><b/></a><a><b k=\"2\"/></a></r>" b!"r.a.b.@k" = .ret (.ofAttr b!"2") := by decide +kernel

/-- C29: values given as raw bytes are written unescaped, so they can add attributes. -/
theorem C29_raw : set exEnv.ord b!"<a/>" b!"a.@k" (.raw b!"1\" x=\"2") = .ret (b!"<a k=\"1\" x=\"2\"/>", none) ∧
    get exEnv b!"<a k=\"1\" x=\"2\"/>" b!"a.@x" = .ret (.ofAttr b!"2") := by decide +kernel

/-- C29: names of attributes are written unchecked. -/
theorem C29_names_unchecked : set exEnv.ord b!"<a/>" b!"a.@k><b" (.str b!"v") = .ret (b!"<a k><b=\"v\"/>", none) ∧ valid b!"<a k><b=\"v\"/>" = false := by decide +kernel

/-- C29: a path that is only an attribute leads to no element: Delete refuses it, in every valid document. -/
theorem C29_attr_alone_delete (o : Ord) (xml : Bytes) (hv : valid xml = true) (hsz : xml.length ≤ 10485760) (k : Bytes) (hk : c!"|" ∉ k) :
    delete o xml (pathOf [c!"@" :: k]) = .ret (xml, some .invalidPath) := by
  have hp : parsePath (pathOf [c!"@" :: k]) = .ok [⟨.attr k, []⟩] := by
    rw [parsePath_parts _ (by simp) (by simp) (by simp), parseParts_attr hk]; rfl
  have hd := docMax
  have hp2 : parsePathWithOptions (pathOf [c!"@" :: k]) (effOpts (some defaultOptions)).caseSensitive = .ok [⟨.attr k, []⟩] := by
    unfold parsePathWithOptions; rw [hp]; rfl
  unfold delete deleteWithOptions
  rw [if_neg (by omega), if_neg (by simp [hv]), hp2]
  simp only [deleteElement, List.getLast?_singleton]
  rw [if_neg (by omega)]
  rfl

/-- C29: and Set never succeeds with it. -/
theorem C29_attr_alone_set (o : Ord) (xml : Bytes) (k : Bytes) (hk : c!"|" ∉ k) (v : GoVal) (hv : v ≠ .nil) (r : Bytes) :
    set o xml (pathOf [c!"@" :: k]) v ≠ .ret (r, none) := by
  have hp : parsePath (pathOf [c!"@" :: k]) = .ok [⟨.attr k, []⟩] := by
    rw [parsePath_parts _ (by simp) (by simp) (by simp), parseParts_attr hk]; rfl
  have hp2 : parsePathWithOptions (pathOf [c!"@" :: k]) (effOpts (some defaultOptions)).caseSensitive = .ok [⟨.attr k, []⟩] := by
    unfold parsePathWithOptions; rw [hp]; rfl
  unfold set setWithOptions
  split
  · simp
  split
  · simp
  rw [hp2]
  simp only [setElement, List.getLast?_singleton, List.dropLast_singleton, indexIntent, findLoc, createElementForAttribute]
  intro h
  repeat' split at h
  all_goals first | (simp [finish] at h; done) | skip

example : delete exEnv.ord b!"<a x=\"1\"/>" b!"@x" = .ret (b!"<a x=\"1\"/>", some .invalidPath) :=
  C29_attr_alone_delete exEnv.ord _ (by decide +kernel) (by decide) b!"x" (by decide)
example : set exEnv.ord b!"<a x=\"1\"/>" b!"@x" (.str b!"2") = .ret (b!"<a x=\"1\"/>", some .invalidPath) := by decide +kernel

end Verif.Props
