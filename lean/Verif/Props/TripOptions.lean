import Verif.Lemmas.TripOpt
import Verif.Props.EditOptions
/-
C49: what SetWithOptions writes, GetWithOptions with the same options reads.
-/
namespace Verif.Props
open Verif.Spec

/-- C49: a path of legal names and a value without markup give a valid document again (if it is not too long), unless the target is self-closing.
The indentation must not contain `<`. -/
theorem C49_set_valid (opts : Options) (hi : c!"<" ∉ opts.indent) (o : Ord) (ho : o.IsPerm) (f : Forest) (h : Editable f) (ns : List Bytes) (n : Bytes) (hn : ∀ m ∈ ns ++ [n], IsName m)
    (hl : ns.length < 100) (hsc : ∀ c e, f = c.plug (El.cons e .nil) → LeadsBy opts.caseSensitive (firsts (ns ++ [n])) c e.name → e.body ≠ none)
    (v : GoVal) (w : Bytes) (hv0 : v ≠ .nil) (hv : valueToXML v = some w) (hw : w.length ≤ 5242880) (hlt : c!"<" ∉ w) :
    ∃ r, setWithOptions o f.render (pathOf (ns ++ [n])) v (some opts) = .ret (r, none) ∧ (r.length ≤ 10485760 → valid r = true) := by
  obtain ⟨c, x, e, -, -, hset⟩ := set_namesB opts hi o ho f h ns n hn hl hsc
  obtain ⟨h1, h2⟩ := hset v w hv0 hv hw
  exact ⟨_, h1, fun hsz => editable_valid (h2 hlt hsz)⟩

/-- The value read by String() at a place holding the text `w`. -/
theorem getOpt_at (env : Env) (ho : env.ord.IsPerm) (opts : Options) (c : Ctx) (e : El) (w : Bytes) (ns : List Bytes) (n : Bytes) (hn : ∀ m ∈ ns ++ [n], PlainName m)
    (hnw : ∀ m ∈ ns ++ [n], m ≠ b!"*" ∧ m ≠ b!"**") (hnb : ∀ m ∈ ns ++ [n], c!"|" ∉ m)
    (hl : ns.length < 100) (hL : LeadsBy opts.caseSensitive (firsts (ns ++ [n])) c e.name) (hb : e.body = some (.text w .nil, [])) (h : Editable (c.plug (e.cons .nil))) (hgt : c!">" ∉ w) :
    ∃ a, getWithOptions env (c.plug (e.cons .nil)).render (pathOf (ns ++ [n])) (some opts) = .ret a ∧ a.typ = .element ∧ a.toStr = unescapeXML (trimSpace w) := by
  cases hc : opts.caseSensitive with
  | true =>
    rw [hc] at hL
    rw [C30_get_cs env _ (ns ++ [n]) hnb (.inl hnw) opts hc]
    exact get_at env ho c e w ns n hn hl (leadsBy_true.mp hL) hb h hgt
  | false =>
    rw [hc] at hL
    have hs := follow_selectFold (leads_followB hL)
    have := C31_get_element env ho _ _ (editable_says h) ns n hn hl opts hc
    rw [hs] at this
    obtain ⟨a, h1, h2⟩ := this
    refine ⟨a, h1, h2.typ, ?_⟩
    have hf : w.filter (fun c => c ≠ c!">") = w := List.filter_eq_self.mpr (fun c hc => by simp; intro hh; exact hgt (hh ▸ hc))
    rw [h2.str, El.node, hb]
    simp only [Info.textValue, Forest.info, Info.allText, hf, List.append_nil]

/-- C49: after SetWithOptions with a string at a path of names, GetWithOptions with the same path and options gives the string without leading and
trailing white space, unless the target was self-closing. -/
theorem C49_set_get (opts : Options) (hi : c!"<" ∉ opts.indent) (env : Env) (ho : env.ord.IsPerm) (f : Forest) (h : Editable f) (ns : List Bytes) (n : Bytes) (hn : ∀ m ∈ ns ++ [n], IsName m)
    (hl : ns.length < 100) (hsc : ∀ c e, f = c.plug (El.cons e .nil) → LeadsBy opts.caseSensitive (firsts (ns ++ [n])) c e.name → e.body ≠ none)
    (s : Bytes) (hw : (escapeXML s).length ≤ 5242880) :
    ∃ r, setWithOptions env.ord f.render (pathOf (ns ++ [n])) (.str s) (some opts) = .ret (r, none) ∧
      (r.length ≤ 10485760 → ∃ a, getWithOptions env r (pathOf (ns ++ [n])) (some opts) = .ret a ∧ a.typ = .element ∧ a.toStr = trimSpace s) := by
  obtain ⟨c, x, e, hL, he, hset⟩ := set_namesB opts hi env.ord ho f h ns n hn hl hsc
  obtain ⟨h1, h2⟩ := hset (.str s) _ (by simp) rfl hw
  refine ⟨_, h1, fun hsz => ?_⟩
  obtain ⟨e1, e2, -⟩ := he (escapeXML s)
  have hchar : ∀ m ∈ ns ++ [n], c!"*" ∉ m ∧ c!"|" ∉ m := fun m hm => ⟨fun hh => absurd ((hn m hm).2.1 _ hh) (by decide), fun hh => absurd ((hn m hm).2.1 _ hh) (by decide)⟩
  obtain ⟨a, g1, g2, g3⟩ := getOpt_at env ho opts c (e (escapeXML s)) _ ns n (fun m hm => name_plain (hn m hm))
    (fun m hm => ⟨fun hh => (hchar m hm).1 (by rw [hh]; decide), fun hh => (hchar m hm).1 (by rw [hh]; decide)⟩) (fun m hm => (hchar m hm).2)
    hl (by rw [e1]; exact hL) e2 (h2 (C20_no_markup s) hsz)
    (fun hh => (escapeXML_mem hh).2.1 rfl)
  exact ⟨a, g1, g2, by rw [g3, trim_escape, unescape_escape]⟩

example : ∃ r, setWithOptions exEnv.ord (exCtx.plug (exEl.cons .nil)).render b!"R.Q.x" (.str b!" <&> ") (some inOpts) = .ret (r, none) ∧
    (r.length ≤ 10485760 → ∃ a, getWithOptions exEnv r b!"R.Q.x" (some inOpts) = .ret a ∧ a.typ = .element ∧ a.toStr = b!"<&>") := by
  have := C49_set_get inOpts (by decide) exEnv exEnv_perm _ exEdit [b!"R", b!"Q"] b!"x" (by decide) (by decide) (by
    intro c e h1 h2
    have h3 := leads_followB h2
    rw [← h1] at h3
    have h4 : ((exCtx.plug (exEl.cons .nil)).info.followBy inOpts.caseSensitive (firsts [b!"R", b!"Q", b!"x"])).isNone = true := by decide +kernel
    have h5 : firsts ([b!"R", b!"Q"] ++ [b!"x"]) = firsts [b!"R", b!"Q", b!"x"] := rfl
    rw [h5] at h3
    rw [h3] at h4; simp at h4) b!" <&> " (by decide)
  rw [show trimSpace b!" <&> " = b!"<&>" from by decide +kernel] at this
  exact this

/-- C49: an attribute of a missing element: the element is created first, empty, as with the empty string; if the document then is too long, the whole Set is refused. -/
theorem C49_create_attr (opts : Options) (hi : c!"<" ∉ opts.indent) (o : Ord) (ho : o.IsPerm) (f : Forest) (h : Editable f) (ns : List Bytes) (n : Bytes) (hn : ∀ m ∈ ns ++ [n], IsName m)
    (hl : ns.length < 99) (hmiss : f.info.followBy opts.caseSensitive (firsts (ns ++ [n])) = none) (k : Bytes) (hk : c!"|" ∉ k)
    (v : GoVal) (w : Bytes) (hv0 : v ≠ .nil) (hv : valueToXML v = some w) (hw : w.length ≤ 5242880) :
    ∃ r, setWithOptions o f.render (pathOf (ns ++ [n])) (.str []) (some opts) = .ret (r, none) ∧
      setWithOptions o f.render (pathOf (ns ++ [n] ++ [c!"@" :: k])) v (some opts) =
        if r.length ≤ 10485760 then setWithOptions o r (pathOf (ns ++ [n] ++ [c!"@" :: k])) v (some opts) else .ret (f.render, some .malformed) := by
  obtain ⟨c, x, e, hL, he, hset⟩ := set_namesB opts hi o ho f h ns n hn (by omega) (by
    rintro c e rfl hL
    rw [leads_followB hL] at hmiss
    simp at hmiss)
  obtain ⟨h1, h2⟩ := hset (.str []) [] (by simp) rfl (by decide)
  refine ⟨_, h1, ?_⟩
  have hps : StepsText (firsts (ns ++ [n])) (ns ++ [n]) := stepsText_names (fun m hm => name_plain (hn m hm))
  have hne : firsts (ns ++ [n]) ≠ [] := by simp [firsts]
  have hp := parseOpt_low opts.caseSensitive (parsePath_names (ns ++ [n]) [c!"@" :: k] (fun m hm => name_plain (hn m hm)) (by simp) (by simp; omega) _ (parseParts_attr hk))
  have hp0 := parseOpt_low opts.caseSensitive (parsePath_names (ns ++ [n]) [] (fun m hm => name_plain (hn m hm)) (by simp) (by simp; omega) [] rfl)
  have hss := stepSegs_low (cs := opts.caseSensitive) (stepSegs_names (ns ++ [n]))
  rw [lowSegs_append] at hp hp0
  revert hp hp0 hss
  generalize lowSegs opts.caseSensitive ((ns ++ [n]).map nameSeg) = ss
  intro hp hp0 hss
  simp only [fuseFields, List.append_nil, lowSegs_nil, lowSegs_attr] at hp hp0
  have hloc : findLoc o opts.caseSensitive ss f.render 0 = none := findLoc_follow_noneB ho hss (says_reads ho (editable_says h)) 0 (by rw [followBy_low]; exact hmiss)
  rw [set_entryB h hp0 (stepSegs_ne hss (lowSteps_ne hne)) _ (by simp), setElement_stepsB hss (lowSteps_ne hne) (v := .str []) (w := []) rfl (by decide) h.1, hloc] at h1
  rw [set_entryB h hp (by simp) v hv0, setElement_attrB hss hv hw h.1, hloc]
  simp only at h1 ⊢
  unfold createElementForAttribute
  cases hc : createElement o opts.caseSensitive opts.indent f.render ss [] with
  | panic => rw [hc] at h1; simp [finish] at h1
  | err er => rw [hc] at h1; simp [finish] at h1
  | ok r =>
    rw [hc] at h1
    simp only [finish, Outcome.ret.injEq, Prod.mk.injEq, and_true] at h1
    simp only [h1]
    have := docMax
    by_cases hsz : (c.plug ((e []).cons .nil)).render.length ≤ 10485760
    · have hed := h2 (by simp) hsz
      obtain ⟨l, hl2, hok⟩ := editable_findLocB ho hss (leadsBy_low (by rw [(he []).1]; exact hL)) hed
      rw [if_neg (by omega), if_pos hsz, hl2, set_entryB hed hp (by simp) v hv0, setElement_attrB hss hv hw hed.1, hl2]
      simp only
      unfold replaceAttribute
      rw [plug_el_render]
      have e1 : ∀ z, c.before ++ (e []).start ++ (e []).inner ++ (e []).stop ++ z = c.before ++ (e []).start ++ ((e []).inner ++ (e []).stop ++ z) := by simp
      rw [e1, splice_at hok.start hok.cstart, finish_ok (by simp), finish_ok (by simp)]
    · rw [if_pos (by omega), if_neg hsz]
      rfl

example : setWithOptions exEnv.ord b!"<R/>" b!"r.A.@K" (.str b!"v") (some inOpts) = .ret (b!"<R>\n<a k=\"v\"></a></R>", none) := by decide +kernel

/-- C49: GetWithOptions with other options than those of the Set may not find what was written. -/
theorem C49_other_options : setWithOptions exEnv.ord b!"<r></r>" b!"r.A" (.str b!"v") (some ciOpts) = .ret (b!"<r><a>v</a></r>", none) ∧
    getWithOptions exEnv b!"<r><a>v</a></r>" b!"r.A" (some ciOpts) = .ret (.ofContent b!"v") ∧ get exEnv b!"<r><a>v</a></r>" b!"r.A" = .ret .null := by decide +kernel

/-- C49: DeleteBytesWithOptions without regard to case removes one element of those the names select without regard to case, the first one. -/
theorem C49_removed (o : Ord) (ho : o.IsPerm) (opts : Options) (hc : opts.caseSensitive = false) (ns : List Bytes) (n : Bytes) (hn : ∀ m ∈ ns ++ [n], PlainName m)
    (hl : ns.length < 100) (c : Ctx) (e : El) (hL : LeadsBy false (firsts (ns ++ [n])) c e.name) (h : Editable (c.plug (e.cons .nil))) (hne : c.before ++ c.after ≠ []) :
    deleteWithOptions o (c.plug (e.cons .nil)).render (pathOf (ns ++ [n])) (some opts) = .ret ((c.plug .nil).render, none) ∧ Says (c.plug .nil).render (c.plug .nil).info ∧
    (c.plug (e.cons .nil)).info.selectFold ns n = e.node :: (c.plug .nil).info.selectFold ns n := by
  have hd := delete_existingB (opts := opts) ho (stepsText_names hn) (by simp; omega) (by rw [hc]; exact hL) h
  have hr : (c.plug .nil).render = c.before ++ c.after := by rw [plug_render]; simp [Forest.render]
  rw [if_neg hne, ← hr] at hd
  refine ⟨hd, ⟨?_, .done (c.plug .nil), ?_, ?_, rfl, rfl⟩, ?_⟩
  · have := h.1; rw [plug_el_render] at this; rw [hr]; simp only [List.length_append] at this ⊢; omega
  · exact ((plug_legal h.2.1).2 .nil trivial).loose
  · exact (plug_tame h.2.2.1).2 .nil trivial
  · rw [selectFold_eq, selectFold_eq, selectF_removed hL]

/-- C49: so what GetWithOptions finds afterwards is the next element the names select, or nothing. -/
theorem C49_delete_get (env : Env) (ho : env.ord.IsPerm) (opts : Options) (hc : opts.caseSensitive = false) (ns : List Bytes) (n : Bytes) (hn : ∀ m ∈ ns ++ [n], PlainName m)
    (hl : ns.length < 100) (c : Ctx) (e : El) (hL : LeadsBy false (firsts (ns ++ [n])) c e.name) (h : Editable (c.plug (e.cons .nil))) (hne : c.before ++ c.after ≠ []) :
    ∃ r, deleteWithOptions env.ord (c.plug (e.cons .nil)).render (pathOf (ns ++ [n])) (some opts) = .ret (r, none) ∧
      match ((c.plug (e.cons .nil)).info.selectFold ns n)[1]? with
      | none => getWithOptions env r (pathOf (ns ++ [n])) (some opts) = .ret .null
      | some nd => ∃ a, getWithOptions env r (pathOf (ns ++ [n])) (some opts) = .ret a ∧ IsElement a nd := by
  obtain ⟨g1, g2, g3⟩ := C49_removed env.ord ho opts hc ns n hn hl c e hL h hne
  refine ⟨_, g1, ?_⟩
  rw [g3, List.getElem?_cons_succ, ← List.head?_eq_getElem?]
  exact C31_get_element env ho _ _ g2 ns n hn hl opts hc

def exCtxCi : Ctx := .within .nil b!"R" [] [] (.here (.node b!"b" [] [] .nil [] .nil) (.node b!"a" [] [] (.text b!"2" .nil) [] .nil)) [] .nil
def exElCi : El := ⟨b!"A", [], [], some (.text b!"1" .nil, [])⟩

example : ∃ r, deleteWithOptions exEnv.ord (exCtxCi.plug (exElCi.cons .nil)).render b!"r.a" (some ciOpts) = .ret (r, none) ∧
    match ((exCtxCi.plug (exElCi.cons .nil)).info.selectFold [b!"r"] b!"a")[1]? with
    | none => getWithOptions exEnv r b!"r.a" (some ciOpts) = .ret .null
    | some nd => ∃ a, getWithOptions exEnv r b!"r.a" (some ciOpts) = .ret a ∧ IsElement a nd :=
  C49_delete_get exEnv exEnv_perm ciOpts rfl [b!"r"] b!"a" (plains_of (by decide)) (by decide) exCtxCi exElCi ⟨by decide +kernel, by decide +kernel, by decide +kernel, by decide +kernel⟩
    (editable_of (by decide +kernel)) (by decide +kernel)
example : ((exCtxCi.plug (exElCi.cons .nil)).info.selectFold [b!"r"] b!"a").length = 2 := by decide +kernel

/-- C49: reads of other paths are not affected by SetWithOptions. -/
theorem C49_other_reads (env : Env) (ho : env.ord.IsPerm) (opts : Options) (ps : List Step) (parts : List Bytes) (hps : StepsText ps parts) (hpl : parts.length ≤ 100)
    (c : Ctx) (e : El) (hL : LeadsBy opts.caseSensitive ps c e.name) (h : Editable (c.plug (e.cons .nil))) (hb : e.body ≠ none)
    (v : GoVal) (w : Bytes) (hv0 : v ≠ .nil) (hv : valueToXML v = some w) (hw : w.length ≤ 5242880) (hlt : c!"<" ∉ w)
    (qs : List Bytes) (q : Bytes) (hq : ∀ m ∈ qs ++ [q], PlainName m) (hl : qs.length < 100) (hmiss : Misses (qs ++ [q]) (c.names ++ [e.name])) :
    ∃ r, setWithOptions env.ord (c.plug (e.cons .nil)).render (pathOf parts) v (some opts) = .ret (r, none) ∧ (r.length ≤ 10485760 →
      ∃ a b, get env (c.plug (e.cons .nil)).render (pathOf (qs ++ [q])) = .ret a ∧ get env r (pathOf (qs ++ [q])) = .ret b ∧
        a.typ = b.typ ∧ a.toStr = b.toStr) := by
  refine ⟨_, set_existingB ho hps hpl hL h hv0 hv hw, fun hsz => ?_⟩
  have hed := editable_fill h hb hlt hsz
  have hsel := selectL_outside (y := (e.fill w).cons .nil) hmiss (fun m q' hm => selectL_miss (e := e.fill w) hm)
  rw [← select_eq, ← select_eq] at hsel
  have g1 := C04_get_element env ho _ _ (editable_says h) qs q hq hl
  have g2 := C04_get_element env ho _ _ (editable_says hed) qs q hq hl
  rw [hsel] at g2
  rw [fill_render hb] at g2
  cases hh : ((c.plug (e.cons .nil)).info.select qs q).head? with
  | none =>
    rw [hh] at g1 g2
    exact ⟨_, _, g1, g2, rfl, rfl⟩
  | some nd =>
    rw [hh] at g1 g2
    obtain ⟨a, a1, a2⟩ := g1
    obtain ⟨b, b1, b2⟩ := g2
    exact ⟨a, b, a1, b1, by rw [a2.typ, b2.typ], by rw [a2.str, b2.str]⟩

example : ∃ r, setWithOptions exEnv.ord (exCtx.plug (exEl.cons .nil)).render b!"R.A.1" (.str b!"1<2") (some inOpts) = .ret (r, none) ∧ (r.length ≤ 10485760 →
    ∃ a b, get exEnv (exCtx.plug (exEl.cons .nil)).render b!"r.c" = .ret a ∧ get exEnv r b!"r.c" = .ret b ∧ a.typ = b.typ ∧ a.toStr = b.toStr) :=
  C49_other_reads exEnv exEnv_perm inOpts _ _ exStepsCi (by decide) exCtx exEl exLeadsCi exEdit (by decide) (.str b!"1<2") _ (by simp) rfl (by decide) (by decide)
    [b!"r"] b!"c" (plains_of (by decide)) (by decide) ⟨1, b!"c", b!"a", rfl, rfl, by decide⟩

/-- C49: two elements whose names differ only in case: deleting removes the first, the second is found then. -/
theorem C49_two_cases : deleteWithOptions exEnv.ord b!"<r><A>1</A><a>2</a></r>" b!"R.a" (some ciOpts) = .ret (b!"<r><a>2</a></r>", none) ∧
    getWithOptions exEnv b!"<r><a>2</a></r>" b!"R.a" (some ciOpts) = .ret (.ofContent b!"2") ∧
    deleteWithOptions exEnv.ord b!"<r><a>2</a></r>" b!"R.a" (some ciOpts) = .ret (b!"<r></r>", none) ∧
    getWithOptions exEnv b!"<r></r>" b!"R.a" (some ciOpts) = .ret .null := by decide +kernel

/-- C49: an indentation with markup makes SetWithOptions write a document that Valid refuses. -/
theorem C49_indent_markup : setWithOptions exEnv.ord b!"<r></r>" b!"r.a" (.str b!"v") (some { inOpts with indent := b!"<" }) = .ret (b!"<r>\n<a>v</a></r>", none) ∧
    setWithOptions exEnv.ord b!"<r></r>" b!"r.a.b" (.str b!"v") (some { inOpts with indent := b!"<" }) = .ret (b!"<r>\n<a>\n<<b>v</b></a></r>", none) ∧
    valid b!"<r>\n<a>\n<<b>v</b></a></r>" = false := by decide +kernel

end Verif.Props
