import Verif.Lemmas.Append
import Verif.Props.Attr
/- Properties of Set with the index -1: C28. -/
namespace Verif.Props
open Spec

/-! ## C28 appending -/

/-- C28: there always is exactly such a place: behind the last matching element, or at the end if none matches. -/
theorem C28_place (x : Bytes) (k : Forest) : ∃ k1 k2, k = k1.append k2 ∧ AfterLast x k1 k2 := afterLast_exists x k

/-- C28: when the path before `x.-1` leads to an element, Set inserts `<x>value</x>` behind its last child matching `x`, or at the end of its content if there is none.
All other bytes are kept; only a self-closing parent is opened up and its tag written anew, with the same attribute values. (A result longer than 10 MiB is refused, unless the parent was self-closing.) -/
theorem C28_append (o : Ord) (ho : o.IsPerm) (ps : List Step) (parts : List Bytes) (hps : StepsText ps parts) (hpl : parts.length ≤ 98)
    (c : Ctx) (e : El) (hL : Leads ps c e.name) (h : Editable (c.plug (e.cons .nil))) :
    ∃ as ws, Opened e as ws ∧ ∀ (x : Bytes), PlainName x → ∀ (k1 k2 : Forest), e.kids = k1.append k2 → AfterLast x k1 k2 →
      ∀ (v : GoVal) (w : Bytes), v ≠ .nil → valueToXML v = some w → w.length ≤ 5242880 →
      set o (c.plug (e.cons .nil)).render (pathOf (parts ++ [x, b!"-1"])) v =
        if e.body ≠ none ∧ (c.before ++ (e.refill as ws (k1.append ((plainEl x w).cons k2))).render ++ c.after).length > 10485760
        then .ret ((c.plug (e.cons .nil)).render, some .invalidValue)
        else .ret (c.before ++ (e.refill as ws (k1.append ((plainEl x w).cons k2))).render ++ c.after, none) := by
  obtain ⟨as, ws, h1, h2⟩ := set_append ho hps hpl hL h
  exact ⟨as, ws, h1, h2⟩

/-- C28: the new element in bytes. -/
theorem C28_bytes (x w : Bytes) (k1 k2 : Forest) :
    (k1.append ((plainEl x w).cons k2)).render = k1.render ++ (b!"<" ++ x ++ b!">" ++ w ++ b!"</" ++ x ++ b!">") ++ k2.render := by
  have := wrapElem_render x w
  rw [append_render, cons_render, ← this, wrapElem]; simp

/-- C28: the same at the top level of the document. -/
theorem C28_append_root (o : Ord) (ho : o.IsPerm) (k1 k2 : Forest) (h : Sound (k1.append k2)) (x : Bytes) (hx : PlainName x) (hal : AfterLast x k1 k2)
    (v : GoVal) (w : Bytes) (hv0 : v ≠ .nil) (hv : valueToXML v = some w) (hw : w.length ≤ 5242880) :
    set o (k1.append k2).render (pathOf [x, b!"-1"]) v =
      if (k1.append ((plainEl x w).cons k2)).render.length > 10485760 then .ret ((k1.append k2).render, some .invalidValue)
      else .ret ((k1.append ((plainEl x w).cons k2)).render, none) :=
  set_append_root ho h hx hal hv0 hv hw

/-- C28: and in the empty document. -/
theorem C28_append_empty (o : Ord) (x : Bytes) (hx : PlainName x) (v : GoVal) (w : Bytes) (hv0 : v ≠ .nil) (hv : valueToXML v = some w) (hw : w.length ≤ 5242880) :
    set o [] (pathOf [x, b!"-1"]) v = .ret (b!"<" ++ x ++ b!">" ++ w ++ b!"</" ++ x ++ b!">", none) := by
  rw [set_append_empty o hx hv0 hv hw, ← wrapElem_render]; rfl

/-- C28: when the parent is missing, appending is the same as setting `x` (C19). -/
theorem C28_append_missing (o : Ord) (ho : o.IsPerm) (f : Forest) (h : Sound f) (ps : List Step) (parts : List Bytes) (hps : StepsText ps parts) (hne : ps ≠ [])
    (hpl : parts.length ≤ 98) (hn : f.info.follow ps = none) (x : Bytes) (hx : PlainName x) (v : GoVal) (w : Bytes) (hv0 : v ≠ .nil)
    (hv : valueToXML v = some w) (hw : w.length ≤ 5242880) :
    set o f.render (pathOf (parts ++ [x, b!"-1"])) v = set o f.render (pathOf (parts ++ [x])) v :=
  set_append_missing ho h hps hne hpl hn hx hv0 hv hw

/-- C28: after appending below the element a path of names leads to, the document is valid, the count of `x` is one more than the number of matching children
before, the index of the new element reads back the value, and smaller indices read as before. (Counts and indices stop at 1000, C06.) -/
theorem C28_append_get (env : Env) (ho : env.ord.IsPerm) (ns : List Bytes) (x : Bytes) (hn : ∀ n ∈ ns, PlainName n) (hx : IsName x) (hl : ns.length ≤ 98)
    (c : Ctx) (e : El) (hL : Leads (firsts ns) c e.name) (h : Editable (c.plug (e.cons .nil)))
    (v : GoVal) (w : Bytes) (hv0 : v ≠ .nil) (hv : valueToXML v = some w) (hw : w.length ≤ 5242880) (hlt : c!"<" ∉ w)
    (r : Bytes) (hset : set env.ord (c.plug (e.cons .nil)).render (pathOf (ns ++ [x, b!"-1"])) v = .ret (r, none)) (hr : r.length ≤ 10485760) :
    valid r = true ∧
    get env r (pathOf (ns ++ [x] ++ [b!"#"])) = .ret (.ofCount (min 1000 ((e.kids.info.named x).length + 1))) ∧
    (∀ j ds, Decimal ds j → j = (e.kids.info.named x).length → j < 1000 → c!">" ∉ w →
      ∃ a, get env r (pathOf (ns ++ [x] ++ [ds])) = .ret a ∧ a.typ = .element ∧ a.toStr = unescapeXML (trimSpace w)) ∧
    (∀ j ds, Decimal ds j → j < (e.kids.info.named x).length → j < 1000 →
      ∃ a b, get env r (pathOf (ns ++ [x] ++ [ds])) = .ret a ∧ get env (c.plug (e.cons .nil)).render (pathOf (ns ++ [x] ++ [ds])) = .ret b ∧
        a.typ = b.typ ∧ a.toStr = b.toStr) := by
  obtain ⟨as, ws, h1, h2⟩ := set_append ho (stepsText_names hn) hl hL h
  obtain ⟨k1, k2, hk, hal⟩ := afterLast_exists x e.kids
  have hs := h2 x (name_plain hx) k1 k2 hk hal v w hv0 hv hw
  rw [hset] at hs
  have hr1 : r = c.before ++ (e.refill as ws (k1.append ((plainEl x w).cons k2))).render ++ c.after := by
    split at hs
    · simp at hs
    · simpa using hs
  have hr2 : c.before ++ (e.refill as ws (k1.append ((plainEl x w).cons k2))).render ++ c.after =
      (c.plug ((e.refill as ws (k1.append ((plainEl x w).cons k2))).cons .nil)).render := by
    rw [plug_el_render]; simp [El.render]
  rw [hr2] at hr1
  subst hr1
  have hg := editable_el h
  obtain ⟨g1, g2, g3, g4⟩ := el_kids_good hg
  have hdep := leads_depth hL
  simp only [firsts, List.length_map] at hdep
  rw [hk] at g1 g2 g3
  obtain ⟨q1, q2, -, q4⟩ := appended_good (w := w) hx hlt (by omega) g1 g2
  have hed : Editable (c.plug ((e.refill as ws (k1.append ((plainEl x w).cons k2))).cons .nil)) :=
    editable_swapEl h (refill_good hg h1 q1 q2 (q4 g3)) hr
  have hL2 : Leads (firsts ns) c (e.refill as ws (k1.append ((plainEl x w).cons k2))).name := hL
  obtain ⟨ks, hks⟩ := leads_reach hL2
  obtain ⟨ks0, hks0⟩ := leads_reach hL
  have hkids : (e.refill as ws (k1.append ((plainEl x w).cons k2))).kids = k1.append ((plainEl x w).cons k2) := rfl
  have hne : ns.isEmpty = false := by
    cases ns with
    | nil => simp [firsts, Leads] at hL
    | cons => rfl
  have hnx : ∀ m ∈ ns ++ [x], PlainName m := by
    intro m hm
    rcases List.mem_append.mp hm with hm | hm
    · exact hn m hm
    · simp only [List.mem_singleton] at hm; subst hm; exact name_plain hx
  have hnamed := appended_named (w := w) hal
  rw [← hk] at hnamed
  have hgr : ∃ gs, (c.plug ((e.refill as ws (k1.append ((plainEl x w).cons k2))).cons .nil)).info.groups ns x = (e.kids.info.named x ++ [(plainEl x w).node]) :: gs := by
    refine ⟨ks.map (fun k => k.hits ns.isEmpty x), ?_⟩
    rw [Info.groups, hks, List.map_cons, hkids, Info.hits, hne]
    simp only [Bool.false_eq_true, if_false, hnamed]
  have hgr0 : ∃ gs, (c.plug (e.cons .nil)).info.groups ns x = e.kids.info.named x :: gs := by
    refine ⟨ks0.map (fun k => k.hits ns.isEmpty x), ?_⟩
    rw [Info.groups, hks0, List.map_cons, Info.hits, hne]
    simp only [Bool.false_eq_true, if_false]
  obtain ⟨gs, hgr⟩ := hgr
  obtain ⟨gs0, hgr0⟩ := hgr0
  refine ⟨editable_valid hed, ?_, fun j ds hj hjl hj1 hgt => ?_, fun j ds hj hjl hj1 => ?_⟩
  · have := C06_count env ho _ _ (editable_says hed) ns x hnx (by omega)
    rw [hgr, List.find?_cons] at this
    have e1 : (!(e.kids.info.named x ++ [(plainEl x w).node]).isEmpty) = true := by simp
    rw [e1] at this
    simp only [List.length_append, List.length_cons, List.length_nil] at this
    exact this
  · have := C06_index env ho _ _ (editable_says hed) ns x ds j hj hnx (by omega)
    have e1 : ((e.kids.info.named x ++ [(plainEl x w).node]).take 1000)[j]? = some (plainEl x w).node := by
      rw [List.getElem?_take_of_lt hj1, hjl, List.getElem?_append_right (Nat.le_refl _), Nat.sub_self]; rfl
    rw [hgr, List.findSome?_cons, e1] at this
    obtain ⟨a, a1, a2⟩ := this
    refine ⟨a, a1, a2.typ, ?_⟩
    have hf : w.filter (fun c => c ≠ c!">") = w := List.filter_eq_self.mpr (fun c hc => by simp; intro hh; exact hgt (hh ▸ hc))
    rw [a2.str, El.node, plainEl]
    simp only [Info.textValue, Forest.info, Info.allText, hf, List.append_nil]
  · have t1 := C06_index env ho _ _ (editable_says hed) ns x ds j hj hnx (by omega)
    have t2 := C06_index env ho _ _ (editable_says h) ns x ds j hj hnx (by omega)
    obtain ⟨nd, hnd⟩ : ∃ nd, (e.kids.info.named x)[j]? = some nd := ⟨_, List.getElem?_eq_getElem hjl⟩
    rw [hgr, List.findSome?_cons, List.getElem?_take_of_lt hj1, List.getElem?_append_left hjl, hnd] at t1
    rw [hgr0, List.findSome?_cons, List.getElem?_take_of_lt hj1, hnd] at t2
    obtain ⟨a, a1, a2⟩ := t1
    obtain ⟨b, b1, b2⟩ := t2
    exact ⟨a, b, a1, b1, by rw [a2.typ, b2.typ], by rw [a2.str, b2.str]⟩

example : set exEnv.ord b!"<!--x--><r v='1' ><a k=\"&lt;\">x</a> <a><b>y</b></a><c j=\"1\"/></r>" b!"r.a.1.b.-1" (.str b!"<") =
    .ret (b!"<!--x--><r v='1' ><a k=\"&lt;\">x</a> <a><b>y</b><b>&lt;</b></a><c j=\"1\"/></r>", none) := by
  obtain ⟨as, ws, h1, h2⟩ := C28_append exEnv.ord exEnv_perm _ _ exSteps (by decide) exCtx exEl exLeads exEdit
  obtain ⟨rfl, rfl⟩ := h1.kept (by decide)
  have := h2 b!"b" (plain_of (by decide)) (.node b!"b" [] [] (.text b!"y" .nil) [] .nil) .nil rfl
    (.inl ⟨.nil, ⟨b!"b", [], [], some (.text b!"y" .nil, [])⟩, rfl, by decide +kernel, rfl⟩) (.str b!"<") _ (by simp) rfl (by decide)
  rw [exEdit_render] at this
  exact this
example : set exEnv.ord b!"<r><a>1</a><b/><a>2</a><c/></r>" b!"r.a.-1" (.str b!"3") = .ret (b!"<r><a>1</a><b/><a>2</a><a>3</a><c/></r>", none) := by decide +kernel
example : set exEnv.ord b!"<r z=\"1\" b=\"2\"/>" b!"r.a.-1" (.str b!"3") = .ret (b!"<r b=\"2\" z=\"1\"><a>3</a></r>", none) := by decide +kernel
example : set exEnv.ord b!"<a/><b/>" b!"a.-1" (.str b!"3") = .ret (b!"<a/><a>3</a><b/>", none) := by decide +kernel

/-- C28: the place is also searched by name without prefix, while the new element has the name given. -/
theorem C28_prefix : set exEnv.ord b!"<r><n:a>1</n:a><b/></r>" b!"r.a.-1" (.str b!"2") = .ret (b!"<r><n:a>1</n:a><a>2</a><b/></r>", none) := by decide +kernel

/-- C28: other negative indices, and -1 before the end, are refused. -/
theorem C28_negative : set exEnv.ord b!"<r><a>1</a></r>" b!"r.a.-2" (.str b!"2") = .ret (b!"<r><a>1</a></r>", some .invalidPath) ∧
    set exEnv.ord b!"<r><a>1</a></r>" b!"r.a.-1.b" (.str b!"2") = .ret (b!"<r><a>1</a></r>", some .invalidPath) := by decide +kernel

end Verif.Props
