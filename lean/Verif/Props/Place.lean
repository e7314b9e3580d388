import Verif.Lemmas.Place
import Verif.Props.EditOptions
/- Property C61: where Set and Delete write in documents of any layout. -/
namespace Verif.Props
open Spec

/-- C61: when the path leads to an element, Set replaces the bytes from where the library takes its content to begin to where it takes it to end. Below the top
level it takes all tags to be as long as it would write them itself. It panics if that end is behind the end of the document. -/
theorem C61_set (o : Ord) (ho : o.IsPerm) (ps : List Step) (parts : List Bytes) (hps : StepsText ps parts) (hpl : parts.length ≤ 100)
    (c : Ctx) (e : El) (hL : Leads ps c e.name) (h : Sound (c.plug (e.cons .nil))) (v : GoVal) (w : Bytes) (hv0 : v ≠ .nil) (hv : valueToXML v = some w)
    (hw : w.length ≤ 5242880) (i j : Nat) (hi : i = c.placeOf + (c.seenEl e).start.length) (hj : j = i + (c.seenEl e).inner.length + (c.seenEl e).endWs.length) :
    set o (c.plug (e.cons .nil)).render (pathOf parts) v =
      if j ≤ (c.plug (e.cons .nil)).render.length then .ret (replaced (c.plug (e.cons .nil)).render i j w, none) else .panic :=
  set_placed ho hps hpl hL h hv0 hv hw hi hj

/-- C61: Delete removes the bytes where the library takes the element to be (and returns the document if nothing is left). -/
theorem C61_delete (o : Ord) (ho : o.IsPerm) (ps : List Step) (parts : List Bytes) (hps : StepsText ps parts) (hpl : parts.length ≤ 100)
    (c : Ctx) (e : El) (hL : Leads ps c e.name) (h : Sound (c.plug (e.cons .nil))) (i j : Nat) (hi : i = c.placeOf) (hj : j = i + (c.seenEl e).render.length) :
    delete o (c.plug (e.cons .nil)).render (pathOf parts) =
      if j ≤ (c.plug (e.cons .nil)).render.length then
        .ret (if replaced (c.plug (e.cons .nil)).render i j [] = [] then (c.plug (e.cons .nil)).render else replaced (c.plug (e.cons .nil)).render i j [], none)
      else .panic :=
  delete_placed ho hps hpl hL h hi hj

/-- C61: Set of an attribute replaces the bytes where the library takes the start tag to be by the tag with its attributes written anew. -/
theorem C61_set_attribute (o : Ord) (ho : o.IsPerm) (ps : List Step) (parts : List Bytes) (hps : StepsText ps parts) (hpl : parts.length < 100)
    (c : Ctx) (e : El) (hL : Leads ps c e.name) (h : Sound (c.plug (e.cons .nil))) (k : Bytes) (hk : c!"|" ∉ k) (v : GoVal) (s : Bytes) (hv0 : v ≠ .nil)
    (hv : valueToXML v = some (escapeXML s)) (hw : (escapeXML s).length ≤ 5242880) (i j : Nat) (hi : i = c.placeOf) (hj : j = i + (c.seenEl e).start.length) :
    ∃ as, Retag e k (some s) as ∧
      set o (c.plug (e.cons .nil)).render (pathOf (parts ++ [c!"@" :: k])) v =
        if j ≤ (c.plug (e.cons .nil)).render.length then .ret (replaced (c.plug (e.cons .nil)).render i j (e.retag as).start, none) else .panic :=
  set_attr_placed ho hps hpl hL h hk hv0 hv hw hi hj

/-- C61: likewise Delete of an attribute; without that attribute the document is left alone. -/
theorem C61_delete_attribute (o : Ord) (ho : o.IsPerm) (ps : List Step) (parts : List Bytes) (hps : StepsText ps parts) (hpl : parts.length < 100)
    (c : Ctx) (e : El) (hL : Leads ps c e.name) (h : Sound (c.plug (e.cons .nil))) (k : Bytes) (hk : c!"|" ∉ k)
    (i j : Nat) (hi : i = c.placeOf) (hj : j = i + (c.seenEl e).start.length) :
    (attrVal e.attrs k = none → delete o (c.plug (e.cons .nil)).render (pathOf (parts ++ [c!"@" :: k])) = .ret ((c.plug (e.cons .nil)).render, none)) ∧
    (attrVal e.attrs k ≠ none → ∃ as, Retag e k none as ∧
      delete o (c.plug (e.cons .nil)).render (pathOf (parts ++ [c!"@" :: k])) =
        if j ≤ (c.plug (e.cons .nil)).render.length then .ret (replaced (c.plug (e.cons .nil)).render i j (e.retag as).start, none) else .panic) :=
  delete_attr_placed ho hps hpl hL h hk hi hj

/-- C61: when the path goes on with names missing in the element, Set writes the missing chain where it takes the content to end; an empty tag is replaced, where
the library takes it to be, by the opened one. -/
theorem C61_create (o : Ord) (ho : o.IsPerm) (ps : List Step) (parts : List Bytes) (hps : StepsText ps parts) (c : Ctx) (e : El)
    (hL : Leads ps c e.name) (h : Sound (c.plug (e.cons .nil)))
    (i j k : Nat) (hi : i = c.placeOf) (hj : j = i + (c.seenEl e).start.length) (hk : k = j + (c.seenEl e).inner.length + (c.seenEl e).endWs.length) :
    ∃ as ws, Opened e as ws ∧ ∀ (m : Bytes) (ns : List Bytes) (_ : ∀ n ∈ m :: ns, PlainName n) (_ : parts.length + (m :: ns).length ≤ 100)
      (_ : e.kids.info.named m = []) (v : GoVal) (w : Bytes) (_ : v ≠ .nil) (_ : valueToXML v = some w) (_ : w.length ≤ 5242880),
      set o (c.plug (e.cons .nil)).render (pathOf (parts ++ m :: ns)) v =
        if k ≤ (c.plug (e.cons .nil)).render.length then
          .ret (if e.body = none then replaced (c.plug (e.cons .nil)).render i j (e.refill as ws (chain (m :: ns) (.text w .nil))).render
            else replaced (c.plug (e.cons .nil)).render k k (chain (m :: ns) (.text w .nil)).render, none)
        else .panic :=
  set_missing_placed ho hps hL h hi hj hk

/-- C61: the same with options, for Set and Delete of elements ... -/
theorem C61_options (o : Ord) (ho : o.IsPerm) (opts : Options) (ps : List Step) (parts : List Bytes) (hps : StepsText ps parts) (hpl : parts.length ≤ 100)
    (c : Ctx) (e : El) (hL : LeadsBy opts.caseSensitive ps c e.name) (h : Sound (c.plug (e.cons .nil)))
    (i j k l : Nat) (hi : i = c.placeOf) (hj : j = i + (c.seenEl e).start.length) (hk : k = j + (c.seenEl e).inner.length + (c.seenEl e).endWs.length)
    (hl : l = i + (c.seenEl e).render.length) :
    (∀ (v : GoVal) (w : Bytes), v ≠ .nil → valueToXML v = some w → w.length ≤ 5242880 →
      setWithOptions o (c.plug (e.cons .nil)).render (pathOf parts) v (some opts) =
        if k ≤ (c.plug (e.cons .nil)).render.length then .ret (replaced (c.plug (e.cons .nil)).render j k w, none) else .panic) ∧
    deleteWithOptions o (c.plug (e.cons .nil)).render (pathOf parts) (some opts) =
      if l ≤ (c.plug (e.cons .nil)).render.length then
        .ret (if replaced (c.plug (e.cons .nil)).render i l [] = [] then (c.plug (e.cons .nil)).render else replaced (c.plug (e.cons .nil)).render i l [], none)
      else .panic :=
  ⟨fun _ _ hv0 hv hw => set_placedB ho hps hpl hL h hv0 hv hw (by rw [hj, hi]) hk, delete_placedB ho hps hpl hL h hi hl⟩

/-- C61: ... of attributes, whose names are compared as the options say ... -/
theorem C61_options_attribute (o : Ord) (ho : o.IsPerm) (opts : Options) (ps : List Step) (parts : List Bytes) (hps : StepsText ps parts) (hpl : parts.length < 100)
    (c : Ctx) (e : El) (hL : LeadsBy opts.caseSensitive ps c e.name) (h : Sound (c.plug (e.cons .nil))) (k : Bytes) (hk : c!"|" ∉ k)
    (i j : Nat) (hi : i = c.placeOf) (hj : j = i + (c.seenEl e).start.length) :
    (∀ (v : GoVal) (s : Bytes), v ≠ .nil → valueToXML v = some (escapeXML s) → (escapeXML s).length ≤ 5242880 →
      ∃ as, RetagBy opts.caseSensitive e k (some s) as ∧
        setWithOptions o (c.plug (e.cons .nil)).render (pathOf (parts ++ [c!"@" :: k])) v (some opts) =
          if j ≤ (c.plug (e.cons .nil)).render.length then .ret (replaced (c.plug (e.cons .nil)).render i j (e.retag as).start, none) else .panic) ∧
    ((∀ y, sameKey opts.caseSensitive y k → attrVal e.attrs y = none) →
      deleteWithOptions o (c.plug (e.cons .nil)).render (pathOf (parts ++ [c!"@" :: k])) (some opts) = .ret ((c.plug (e.cons .nil)).render, none)) ∧
    (∀ y, sameKey opts.caseSensitive y k → attrVal e.attrs y ≠ none → ∃ as, RetagBy opts.caseSensitive e k none as ∧
      deleteWithOptions o (c.plug (e.cons .nil)).render (pathOf (parts ++ [c!"@" :: k])) (some opts) =
        if j ≤ (c.plug (e.cons .nil)).render.length then .ret (replaced (c.plug (e.cons .nil)).render i j (e.retag as).start, none) else .panic) :=
  ⟨fun _ _ hv0 hv hw => set_attr_placedB ho hps hpl hL h hk hv0 hv hw hi hj, delete_attr_placedB ho hps hpl hL h hk hi hj⟩

/-- C61: ... and of missing elements, which are written on lines of their own as the options say. -/
theorem C61_options_create (o : Ord) (ho : o.IsPerm) (opts : Options) (ps : List Step) (parts : List Bytes) (hps : StepsText ps parts) (c : Ctx) (e : El)
    (hL : LeadsBy opts.caseSensitive ps c e.name) (h : Sound (c.plug (e.cons .nil)))
    (i j k : Nat) (hi : i = c.placeOf) (hj : j = i + (c.seenEl e).start.length) (hk : k = j + (c.seenEl e).inner.length + (c.seenEl e).endWs.length) :
    ∃ as ws, Opened e as ws ∧ ∀ (m : Bytes) (ns : List Bytes) (_ : ∀ n ∈ m :: ns, PlainName n) (_ : parts.length + (m :: ns).length ≤ 100)
      (_ : e.kids.info.namedBy opts.caseSensitive m = []) (v : GoVal) (w : Bytes) (_ : v ≠ .nil) (_ : valueToXML v = some w) (_ : w.length ≤ 5242880),
      ∃ new, new = chainLines opts.indent 0 ((m :: ns).map (spelling opts.caseSensitive)) w ∧
      setWithOptions o (c.plug (e.cons .nil)).render (pathOf (parts ++ m :: ns)) v (some opts) =
        if k ≤ (c.plug (e.cons .nil)).render.length then
          .ret (if e.body = none then replaced (c.plug (e.cons .nil)).render i j (openTag e.name as ws ++ b!">" ++ new ++ closeTag e.name [])
            else replaced (c.plug (e.cons .nil)).render k k new, none)
        else .panic := by
  obtain ⟨as, ws, h1, h2⟩ := set_missing_placedB ho hps hL h hi hj hk
  exact ⟨as, ws, h1, fun m ns hns hpl hm v w hv0 hv hw => ⟨_, rfl, h2 m ns hns hpl hm v w hv0 hv hw⟩⟩

/-- C61: so Set replaces exactly the content of the element as soon as what is before the element, its start tag and its content are as long as the library would
write them and its end tag has no white space; what follows the element does not matter. -/
theorem C61_set_right (o : Ord) (ho : o.IsPerm) (ps : List Step) (parts : List Bytes) (hps : StepsText ps parts) (hpl : parts.length ≤ 100)
    (c : Ctx) (e : El) (hL : Leads ps c e.name) (h : Sound (c.plug (e.cons .nil))) (v : GoVal) (w : Bytes) (hv0 : v ≠ .nil) (hv : valueToXML v = some w)
    (hw : w.length ≤ 5242880) (h1 : c.placeOf + (c.seenEl e).start.length = c.before.length + e.start.length) (h2 : (c.seenEl e).inner.length = e.inner.length)
    (h3 : (c.seenEl e).endWs = []) :
    set o (c.plug (e.cons .nil)).render (pathOf parts) v = .ret (c.before ++ e.start ++ w ++ e.stop ++ c.after, none) := by
  rw [C61_set o ho ps parts hps hpl c e hL h v w hv0 hv hw _ _ rfl rfl, h1, h2, h3]
  have e1 : (c.plug (e.cons .nil)).render = (c.before ++ e.start) ++ e.inner ++ (e.stop ++ c.after) := by rw [plug_el_render]; simp
  rw [if_pos (by rw [e1]; simp; omega), e1, replaced_at _ _ _ _ (by simp) (by simp)]
  simp

/-- C61: likewise Delete; here white space in the end tags of the top level does not matter either. -/
theorem C61_delete_right (o : Ord) (ho : o.IsPerm) (ps : List Step) (parts : List Bytes) (hps : StepsText ps parts) (hpl : parts.length ≤ 100)
    (c : Ctx) (e : El) (hL : Leads ps c e.name) (h : Sound (c.plug (e.cons .nil))) (h1 : c.placeOf = c.before.length)
    (h2 : (c.seenEl e).render.length = e.render.length) (hne : c.before ++ c.after ≠ []) :
    delete o (c.plug (e.cons .nil)).render (pathOf parts) = .ret (c.before ++ c.after, none) := by
  rw [C61_delete o ho ps parts hps hpl c e hL h _ _ rfl rfl, h1, h2]
  have e1 : (c.plug (e.cons .nil)).render = c.before ++ e.render ++ c.after := by rw [plug_el_render]; simp [El.render]
  rw [if_pos (by rw [e1]; simp), e1, replaced_at _ _ _ _ rfl rfl, if_neg (by simpa using hne)]
  simp

/-- C61: likewise an appended element goes right behind the last child that matches, or to the end, as soon as the element and its content are found at their places. -/
theorem C61_append (o : Ord) (ho : o.IsPerm) (opts : Options) (ps : List Step) (parts : List Bytes) (hps : StepsText ps parts) (hpl : parts.length ≤ 98) (c : Ctx) (e : El)
    (hL : LeadsBy opts.caseSensitive ps c e.name) (h : Sound (c.plug (e.cons .nil))) (h1 : c.placeOf = c.before.length)
    (h2 : (c.seenEl e).start.length = e.start.length) (h3 : (c.seenEl e).inner.length = e.inner.length) (h4 : (c.seenEl e).endWs = []) (hb : e.body ≠ none)
    (x : Bytes) (hx : PlainName x) (k1 k2 : Forest) (hk : e.kids = k1.append k2) (hal : AfterLastBy opts.caseSensitive x k1 k2)
    (v : GoVal) (w : Bytes) (hv0 : v ≠ .nil) (hv : valueToXML v = some w) (hw : w.length ≤ 5242880) (r : Bytes)
    (hr : r = c.before ++ (e.start ++ k1.render ++ (if k1.render = [] then [] else newLine opts.indent parts.length) ++
      (plainEl (spelling opts.caseSensitive x) w).render ++ k2.render ++ e.stop) ++ c.after) :
    setWithOptions o (c.plug (e.cons .nil)).render (pathOf (parts ++ [x, b!"-1"])) v (some opts) =
      if r.length > 10485760 then .ret ((c.plug (e.cons .nil)).render, some .invalidValue) else .ret (r, none) := by
  obtain ⟨as, hop, hs⟩ := set_append_placedB ho hps hpl hL h h1 h2 h3 h4
  simp only [if_neg hb] at hop hs
  have e1 := hop.1 hb
  have e2 : e.start = openTag e.name e.attrs e.ws ++ b!">" := by
    obtain ⟨n, as0, ws, body⟩ := e
    rcases body with _ | ⟨k, cws⟩
    · simp at hb
    · rfl
  rw [e1.1] at hs
  rw [e2, ← wrapElem_render] at hr
  have := hs x hx k1 k2 hk hal v w hv0 hv hw r hr
  simpa only [ne_eq, hb, not_false_eq_true, true_and] using this

/-- C61: in an editable document the library takes every element to be where it is. -/
theorem C61_editable (c : Ctx) (e : El) (h : Editable (c.plug (e.cons .nil))) :
    c.placeOf = c.before.length ∧ (c.seenEl e).start.length = e.start.length ∧ (c.seenEl e).inner.length = e.inner.length ∧ (c.seenEl e).endWs = [] :=
  editable_place h

/-! ### an example -/

/-- `<a><b /><c k = '1'><d/>v</c><b  /></a>`: the place of `c`. -/
def looseCtx : Ctx := .within .nil b!"a" [] [] (.here (.leaf b!"b" [] b!" " .nil) (.leaf b!"b" [] b!"  " .nil)) [] .nil
def looseEl : El := ⟨b!"c", [⟨b!" ", b!"k", b!" ", b!" ", c!"'", b!"1"⟩], [], some (.leaf b!"d" [] [] (.text b!"v" .nil), [])⟩
theorem sound_of {f : Forest} (h : f.render.length ≤ 10485760 ∧ f.Legal 0 ∧ f.Tidy true ∧ f.HasElem) : Sound f := ⟨h.1, h.2.1, h.2.2.1.tame, h.2.2.2⟩
theorem looseSound : Sound (looseCtx.plug (looseEl.cons .nil)) := sound_of (by decide +kernel)
theorem looseLeads : Leads [(b!"a", 0), (b!"c", 0)] looseCtx looseEl.name := by
  refine ⟨by decide +kernel, by decide +kernel, by decide +kernel, by decide +kernel⟩
theorem looseSteps : StepsText [(b!"a", 0), (b!"c", 0)] [b!"a", b!"c"] := .name (plain_of (by decide)) (.name (plain_of (by decide)) .nil)
theorem loose_render : (looseCtx.plug (looseEl.cons .nil)).render = b!"<a><b /><c k = '1'><d/>v</c><b  /></a>" := by decide +kernel

/-- The blank in `<b />` shifts the place by one, the blanks around `=` by two more. -/
theorem C61_example : looseCtx.placeOf + 1 = looseCtx.before.length ∧ (looseCtx.seenEl looseEl).start.length + 2 = looseEl.start.length ∧
    set exEnv.ord b!"<a><b /><c k = '1'><d/>v</c><b  /></a>" b!"a.c" (.str b!"xyz") = .ret (b!"<a><b /><c k = 'xyz/>v</c><b  /></a>", none) ∧
    delete exEnv.ord b!"<a><b /><c k = '1'><d/>v</c><b  /></a>" b!"a.c" = .ret (b!"<a><b //c><b  /></a>", none) ∧
    set exEnv.ord b!"<a><b /><c k = '1'><d/>v</c><b  /></a>" b!"a.c.x" (.str b!"y") = .ret (b!"<a><b /><c k = '1'><d<x>y</x>/>v</c><b  /></a>", none) := by
  refine ⟨by decide +kernel, by decide +kernel, ?_, ?_, ?_⟩
  · have := C61_set exEnv.ord exEnv_perm _ _ looseSteps (by decide) looseCtx looseEl looseLeads looseSound (.str b!"xyz") _ (by simp) rfl (by decide) _ _ rfl rfl
    rw [loose_render] at this
    exact this.trans (by decide +kernel)
  · have := C61_delete exEnv.ord exEnv_perm _ _ looseSteps (by decide) looseCtx looseEl looseLeads looseSound _ _ rfl rfl
    rw [loose_render] at this
    exact this.trans (by decide +kernel)
  · obtain ⟨as, ws, -, h⟩ := C61_create exEnv.ord exEnv_perm _ _ looseSteps looseCtx looseEl looseLeads looseSound _ _ _ rfl rfl rfl
    have := h b!"x" [] (plains_of (by decide)) (by decide) (by decide +kernel) (.str b!"y") _ (by simp) rfl (by decide)
    rw [loose_render, if_neg (show ¬ looseEl.body = none by decide)] at this
    exact this.trans (by decide +kernel)

theorem looseLeadsCi : LeadsBy false [(b!"A", 0), (b!"C", 0)] looseCtx looseEl.name := by
  refine ⟨by decide +kernel, by decide +kernel, by decide +kernel, by decide +kernel⟩
theorem looseStepsCi : StepsText [(b!"A", 0), (b!"C", 0)] [b!"A", b!"C"] := .name (plain_of (by decide)) (.name (plain_of (by decide)) .nil)

example : setWithOptions exEnv.ord b!"<a><b /><c k = '1'><d/>v</c><b  /></a>" b!"A.C" (.str b!"xyz") (some ciOpts) = .ret (b!"<a><b /><c k = 'xyz/>v</c><b  /></a>", none) := by
  have := (C61_options exEnv.ord exEnv_perm ciOpts _ _ looseStepsCi (by decide) looseCtx looseEl looseLeadsCi looseSound _ _ _ _ rfl rfl rfl rfl).1 (.str b!"xyz") _ (by simp) rfl (by decide)
  rw [loose_render] at this
  exact this.trans (by decide +kernel)
example : ∃ as, RetagBy false looseEl b!"K" (some b!"2") as ∧
    setWithOptions exEnv.ord b!"<a><b /><c k = '1'><d/>v</c><b  /></a>" b!"A.C.@K" (.str b!"2") (some ciOpts) =
      .ret (replaced b!"<a><b /><c k = '1'><d/>v</c><b  /></a>" 7 16 (looseEl.retag as).start, none) := by
  obtain ⟨as, h1, h2⟩ := (C61_options_attribute exEnv.ord exEnv_perm ciOpts _ _ looseStepsCi (by decide) looseCtx looseEl looseLeadsCi looseSound b!"K" (by decide) _ _ rfl rfl).1
    (.str b!"2") b!"2" (by simp) rfl (by decide)
  rw [loose_render, if_pos (by decide +kernel), show looseCtx.placeOf = 7 by decide +kernel, show (looseCtx.seenEl looseEl).start.length = 9 by decide +kernel] at h2
  exact ⟨as, h1, h2⟩
example : setWithOptions exEnv.ord b!"<a><b /><c k = '1'><d/>v</c><b  /></a>" b!"A.C.X" (.str b!"y") (some inOpts) =
    .ret (b!"<a><b /><c k = '1'><d\n<x>y</x>/>v</c><b  /></a>", none) := by
  obtain ⟨as, ws, -, h⟩ := C61_options_create exEnv.ord exEnv_perm inOpts _ _ looseStepsCi looseCtx looseEl looseLeadsCi looseSound _ _ _ rfl rfl rfl
  obtain ⟨_, rfl, h⟩ := h b!"X" [] (plains_of (by decide)) (by decide) (by decide +kernel) (.str b!"y") _ (by simp) rfl (by decide)
  rw [loose_render, if_neg (show ¬ looseEl.body = none by decide)] at h
  exact h.trans (by decide +kernel)

/-- `<a k = '1'><b /><c  x="1"  /></a>`: the content of a top-level element is found whatever its layout, if its end tag is plain. -/
def looseTop : El := ⟨b!"a", [⟨b!" ", b!"k", b!" ", b!" ", c!"'", b!"1"⟩], [], some (.leaf b!"b" [] b!" " (.leaf b!"c" [⟨b!"  ", b!"x", [], [], c!"\"", b!"1"⟩] b!"  " .nil), [])⟩
example : setWithOptions exEnv.ord b!"<a k = '1'><b /><c  x=\"1\"  /></a>" b!"A.B.-1" (.str b!"v") (some ciOpts) =
    .ret (b!"<a k = '1'><b /><b>v</b><c  x=\"1\"  /></a>", none) := by
  have := C61_append exEnv.ord exEnv_perm ciOpts [(b!"A", 0)] [b!"A"] (.name (plain_of (by decide)) .nil) (by decide) (.here .nil .nil) looseTop
    ⟨by decide +kernel, by decide +kernel⟩ (sound_of (by decide +kernel)) rfl rfl rfl rfl (by decide) b!"B" (plain_of (by decide))
    (.leaf b!"b" [] b!" " .nil) (.leaf b!"c" [⟨b!"  ", b!"x", [], [], c!"\"", b!"1"⟩] b!"  " .nil) rfl
    (.inl ⟨.nil, ⟨b!"b", [], b!" ", none⟩, rfl, by decide +kernel, by decide +kernel⟩) (.str b!"v") _ (by simp) rfl (by decide) _ rfl
  exact this.trans (by decide +kernel)

end Verif.Props
