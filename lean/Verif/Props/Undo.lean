import Verif.Props.Commute
namespace Verif.Props
open Spec

/-! ## C66 What undoes a write -/

/-- An element of the class that is not self-closing is written again from its parts. -/
theorem refill_same {c : Ctx} {e : El} (h : Editable (c.plug (e.cons .nil))) (hb : e.body ≠ none) : e.refill e.attrs e.ws e.kids = e := by
  have hg := editable_el h
  obtain ⟨nm, as, ws, body⟩ := e
  rcases body with _ | ⟨k0, cws⟩
  · exact absurd rfl hb
  · have : cws = [] := hg.stable.1
    subst this
    rfl

/-- Removing an element among the content of `e`. -/
theorem delete_inside {o : Ord} (ho : o.IsPerm) {ps : List Step} {parts : List Bytes} {c : Ctx} {e x : El} (hL : Leads ps c e.name) (h : Editable (c.plug (e.cons .nil)))
    (hb : e.body ≠ none) {k1 k2 : Forest} (hk : e.kids = k1.append k2) {m : Bytes} {j : Nat} {more : List Bytes} (hps : StepsText (ps ++ [(m, j)]) (parts ++ more))
    (hpl : (parts ++ more).length ≤ 100) (hm : nameMatches m x.name = true) (hj : (k1.info.named m).length = j)
    (h2 : Editable (c.plug ((e.refill e.attrs e.ws (k1.append (x.cons k2))).cons .nil))) :
    delete o (c.plug ((e.refill e.attrs e.ws (k1.append (x.cons k2))).cons .nil)).render (pathOf (parts ++ more)) = .ret ((c.plug (e.cons .nil)).render, none) := by
  have hL2 : Leads (ps ++ [(m, j)]) (down c e.name e.attrs e.ws [] (.here k1 k2)) x.name := leads_down hL ⟨hm, hj⟩
  have e1 : (down c e.name e.attrs e.ws [] (.here k1 k2)).plug (x.cons .nil) = c.plug ((e.refill e.attrs e.ws (k1.append (x.cons k2))).cons .nil) := by
    rw [down_plug, Ctx.plug, cons_append]; rfl
  rw [← e1] at h2 ⊢
  rw [delete_existing ho hps hpl hL2 h2]
  have e2 : (down c e.name e.attrs e.ws [] (.here k1 k2)).before ++ (down c e.name e.attrs e.ws [] (.here k1 k2)).after = (c.plug (e.cons .nil)).render := by
    rw [down_before, down_after, ← refill_same h hb, plug_el_render, hk]
    simp [El.refill, El.start, El.inner, El.stop, Ctx.before, Ctx.after, append_render]
  rw [e2, if_neg]
  rw [plug_el_render]
  intro hh
  simp only [List.append_eq_nil_iff] at hh
  exact el_start_ne e hh.1.1.1.2

/-- C66: deleting the outermost of the elements that Set created gives the document from before, byte by byte. -/
theorem C66_created (o : Ord) (ho : o.IsPerm) (ps : List Step) (parts : List Bytes) (hps : StepsText ps parts) (c : Ctx) (e : El) (hL : Leads ps c e.name)
    (h : Editable (c.plug (e.cons .nil))) (hb : e.body ≠ none) (m : Bytes) (ns : List Bytes) (hn : ∀ n ∈ m :: ns, IsName n) (hpl : parts.length + (m :: ns).length ≤ 100)
    (hm : e.kids.info.named m = []) (v : GoVal) (w : Bytes) (hv0 : v ≠ .nil) (hv : valueToXML v = some w) (hw : w.length ≤ 5242880) (hlt : c!"<" ∉ w) :
    ∃ r, set o (c.plug (e.cons .nil)).render (pathOf (parts ++ m :: ns)) v = .ret (r, none) ∧
      (r.length ≤ 10485760 → delete o r (pathOf (parts ++ [m])) = .ret ((c.plug (e.cons .nil)).render, none)) := by
  have hle : ps.length ≤ parts.length := by
    clear hL
    induction hps with
    | nil => simp
    | name _ _ ih => simp only [List.length_cons] at hpl ⊢; have := ih (by simp only [List.length_cons]; omega); omega
    | index _ _ _ _ ih => simp only [List.length_cons] at hpl ⊢; have := ih (by simp only [List.length_cons]; omega); omega
  obtain ⟨as, ws, h1, h2⟩ := set_missing ho hps hL h
  obtain ⟨rfl, rfl⟩ := h1.kept hb
  have e1 : (c.plug ((e.refill e.attrs e.ws (e.kids.append (chain (m :: ns) (.text w .nil)))).cons .nil)).render =
      c.before ++ (e.refill e.attrs e.ws (e.kids.append (chain (m :: ns) (.text w .nil)))).render ++ c.after := by
    rw [plug_render, cons_render]; simp [Forest.render]
  refine ⟨_, h2 m ns (fun n hh => name_plain (hn n hh)) hpl hm v w hv0 hv hw, fun hsz => ?_⟩
  have hd := leads_depth hL
  have he := editable_created h (by simp) hn (by omega) hlt h1 hsz
  rw [← e1]
  exact delete_inside ho (x := ⟨m, [], [], some (chain ns (.text w .nil), [])⟩) (k2 := .nil) (m := m) (j := 0) hL h hb (append_nil _).symm
    (stepsText_append hps (.name (name_plain (hn m (by simp))) .nil)) (by simp only [List.length_append, List.length_cons, List.length_nil] at hpl ⊢; omega)
    (nameMatches_self m) (by rw [hm]; rfl) he

/-- C66: so does deleting the last of its group after an element was appended. -/
theorem C66_appended (o : Ord) (ho : o.IsPerm) (ps : List Step) (parts : List Bytes) (hps : StepsText ps parts) (hpl : parts.length ≤ 98) (c : Ctx) (e : El) (hL : Leads ps c e.name)
    (h : Editable (c.plug (e.cons .nil))) (hb : e.body ≠ none) (x : Bytes) (hx : IsName x) (hd : ps.length < 100)
    (v : GoVal) (w : Bytes) (hv0 : v ≠ .nil) (hv : valueToXML v = some w) (hw : w.length ≤ 5242880) (hlt : c!"<" ∉ w) (r : Bytes)
    (hset : set o (c.plug (e.cons .nil)).render (pathOf (parts ++ [x, b!"-1"])) v = .ret (r, none)) (hr : r.length ≤ 10485760)
    (j : Nat) (ds : Bytes) (hj : j = (e.kids.info.named x).length) (hds : Decimal ds j) (hj2 : j < 2 ^ 63) :
    delete o r (pathOf (parts ++ [x, ds])) = .ret ((c.plug (e.cons .nil)).render, none) := by
  obtain ⟨k1, k2, hk, hal⟩ := afterLast_exists x e.kids
  obtain ⟨as, ws, h1, h2⟩ := set_append ho hps hpl hL h
  obtain ⟨rfl, rfl⟩ := h1.kept hb
  have hs := h2 x (name_plain hx) k1 k2 hk hal v w hv0 hv hw
  rw [hset] at hs
  have hr1 : r = c.before ++ (e.refill e.attrs e.ws (k1.append ((plainEl x w).cons k2))).render ++ c.after := by
    split at hs
    · simp at hs
    · simpa using hs
  have e1 : (c.plug ((e.refill e.attrs e.ws (k1.append ((plainEl x w).cons k2))).cons .nil)).render =
      c.before ++ (e.refill e.attrs e.ws (k1.append ((plainEl x w).cons k2))).render ++ c.after := by
    rw [plug_render, cons_render]; simp [Forest.render]
  rw [← e1] at hr1
  subst hr1
  have hg := editable_el h
  obtain ⟨q1, q2, q3, -⟩ := el_kids_good hg
  have hdep := leads_depth hL
  rw [hk] at q1 q2 q3
  obtain ⟨r1, r2, -, r4⟩ := appended_good (w := w) hx hlt (by omega) q1 q2
  have hed := editable_swapEl h (refill_good hg h1 r1 r2 (r4 q3)) hr
  have hcount : (k1.info.named x).length = j := by
    rw [hj, hk, append_named]
    rcases hal with ⟨-, -, -, -, hn⟩ | ⟨-, rfl⟩
    · simp [hn]
    · simp [show Forest.nil.info.named x = [] from rfl]
  exact delete_inside ho hL h hb hk (stepsText_append hps (.index (name_plain hx) hds hj2 .nil)) (by simp; omega) (nameMatches_self x) hcount hed

/-- C66: and deleting a root that Set created. -/
theorem C66_new_root (o : Ord) (ho : o.IsPerm) (f : Forest) (h : Editable f) (m : Bytes) (ns : List Bytes) (hn : ∀ n ∈ m :: ns, IsName n) (hpl : (m :: ns).length ≤ 100)
    (hm : f.info.named m = []) (v : GoVal) (w : Bytes) (hv0 : v ≠ .nil) (hv : valueToXML v = some w) (hw : w.length ≤ 5242880) (hlt : c!"<" ∉ w) :
    ∃ r, set o f.render (pathOf (m :: ns)) v = .ret (r, none) ∧ (r.length ≤ 10485760 → delete o r (pathOf [m]) = .ret (f.render, none)) := by
  refine ⟨_, C19_new_root o ho f ⟨h.1, h.2.1, h.2.2.1, h.2.2.2.1⟩ m ns (fun n hh => name_plain (hn n hh)) hpl hm v w hv0 hv hw, fun hsz => ?_⟩
  have he := editable_newRoot h (by simp) hn hpl hlt hsz
  have e1 : f.append (chain (m :: ns) (.text w .nil)) = (Ctx.here f .nil).plug ((⟨m, [], [], some (chain ns (.text w .nil), [])⟩ : El).cons .nil) := by
    rw [Ctx.plug, append_nil]; rfl
  rw [← append_render]
  rw [e1] at he ⊢
  have := delete_existing ho (stepsText_names (ns := [m]) (fun n hh => name_plain (hn n (by simp at hh; simp [hh])))) (by simp) (c := .here f .nil) ⟨nameMatches_self m, by rw [hm]; rfl⟩ he
  rw [this, if_neg]
  · simp [Ctx.before, Ctx.after, Forest.render]
  · simp only [Ctx.before, Ctx.after, Forest.render, List.append_nil]
    exact render_ne h.2.2.2.1

/-- C66: setting an element to the content it has, as it is written, changes nothing; so doing it after another Set undoes that. -/
theorem C66_set_back (o : Ord) (ho : o.IsPerm) (ps : List Step) (parts : List Bytes) (hps : StepsText ps parts) (hpl : parts.length ≤ 100) (c : Ctx) (e : El) (hL : Leads ps c e.name)
    (h : Editable (c.plug (e.cons .nil))) (kids : Forest) (cws : Bytes) (hb : e.body = some (kids, cws)) (hk : kids.render.length ≤ 5242880) :
    set o (c.plug (e.cons .nil)).render (pathOf parts) (.raw kids.render) = .ret ((c.plug (e.cons .nil)).render, none) ∧
    ∀ (v : GoVal) (w : Bytes), v ≠ .nil → valueToXML v = some w → w.length ≤ 5242880 → c!"<" ∉ w →
      ∃ r, set o (c.plug (e.cons .nil)).render (pathOf parts) v = .ret (r, none) ∧
        (r.length ≤ 10485760 → set o r (pathOf parts) (.raw kids.render) = .ret ((c.plug (e.cons .nil)).render, none)) := by
  have e1 := (C18_set_existing o ho ps parts hps hpl c e hL h kids cws hb (.raw kids.render) _ (by simp) rfl hk)
  refine ⟨by rw [e1.2, e1.1], fun v w hv0 hv hw hlt => ?_⟩
  have hbn : e.body ≠ none := by rw [hb]; simp
  refine ⟨_, set_existing ho hps hpl hL h hv0 hv hw, fun hsz => ?_⟩
  have he := editable_fill h hbn hlt hsz
  rw [← fill_render hbn, set_existing ho hps hpl (by exact hL) he (by simp) rfl hk, ← fill_render (by simp [El.fill, hb]), e1.1, plug_el_render]
  simp [El.fill, El.start, El.inner, El.stop, hb, Forest.render]

/-- C66: a new attribute is undone by Delete, and an old value can be set back, if the start tag is in the layout of the library. -/
theorem C66_attribute (o : Ord) (ho : o.IsPerm) (ps : List Step) (parts : List Bytes) (hps : StepsText ps parts) (hpl : parts.length < 100) (c : Ctx) (e : El) (hL : Leads ps c e.name)
    (h : Editable (c.plug (e.cons .nil))) (hneat : Neat e.attrs) (hws : e.ws = []) (hsort : (e.attrs.map (·.name)).Pairwise LexBefore)
    (k : Bytes) (hk : IsName k) (v : GoVal) (s : Bytes) (hv0 : v ≠ .nil) (hv : valueToXML v = some (escapeXML s)) (hw : (escapeXML s).length ≤ 1048576)
    (hroom : attrVal e.attrs k ≠ none ∨ e.attrs.length < 100) :
    ∃ r, set o (c.plug (e.cons .nil)).render (pathOf (parts ++ [c!"@" :: k])) v = .ret (r, none) ∧ (r.length ≤ 10485760 →
      (attrVal e.attrs k = none → delete o r (pathOf (parts ++ [c!"@" :: k])) = .ret ((c.plug (e.cons .nil)).render, none)) ∧
      (∀ t, attrVal e.attrs k = some t → (escapeXML t).length ≤ 1048576 →
        set o r (pathOf (parts ++ [c!"@" :: k])) (.str t) = .ret ((c.plug (e.cons .nil)).render, none))) := by
  have hbar : c!"|" ∉ k := (name_plain hk).noBar
  obtain ⟨as, h1, h2, h3⟩ := set_attr ho hps hpl hL h hbar hv0 hv (by omega)
  have hg := editable_el h
  obtain ⟨q1, q2⟩ := el_attrs hg.legal hg.tame
  obtain ⟨r1, r2⟩ := h3 q1 q2 hk hw hroom
  refine ⟨_, h2, fun hsz => ?_⟩
  have e1 : (c.plug ((e.retag as).cons .nil)).render = c.before ++ (e.retag as).render ++ c.after := by
    rw [plug_render, cons_render]; simp [Forest.render]
  have he := editable_retag h r1 r2 h1.neat (by rw [e1]; exact hsz)
  have hsame : ∀ x bs, Retag (e.retag as) k x bs → attrVal e.attrs k = x → (e.retag as).retag bs = e := by
    intro x bs hbs hx
    have : bs = e.attrs := neat_unique hbs.neat hneat hbs.sorted hsort (fun j => by
      by_cases hj : j = k
      · subst hj; rw [hbs.this, hx]
      · rw [hbs.others j hj]; exact h1.others j hj)
    subst this
    obtain ⟨nm, as0, ws0, body⟩ := e
    simp only at hws
    subst hws
    rfl
  have hback : c.before ++ e.render ++ c.after = (c.plug (e.cons .nil)).render := by rw [plug_render, cons_render]; simp [Forest.render]
  rw [← e1]
  refine ⟨fun hx => ?_, fun t ht hlen => ?_⟩
  · obtain ⟨bs, b1, -, -, b2⟩ := (delete_attr ho hps hpl (e := e.retag as) hL he hbar).2 (by
      show attrVal as k ≠ none
      rw [h1.this]; simp)
    rw [b2, hsame _ _ b1 hx, hback]
  · obtain ⟨bs, b1, b2, -⟩ := set_attr ho hps hpl (e := e.retag as) hL he hbar (v := .str t) (s := t) (by simp) rfl (by omega)
    rw [b2, hsame _ _ b1 ht, hback]

/-! ### examples -/

example : ∃ r, set exEnv.ord b!"<!--x--><r v='1' ><a k=\"&lt;\">x</a> <a><b>y</b></a><c j=\"1\"/></r>" b!"r.a.1.p.q" (.str b!"1") = .ret (r, none) ∧
    (r.length ≤ 10485760 → delete exEnv.ord r b!"r.a.1.p" = .ret (b!"<!--x--><r v='1' ><a k=\"&lt;\">x</a> <a><b>y</b></a><c j=\"1\"/></r>", none)) := by
  have h := C66_created exEnv.ord exEnv_perm _ _ exSteps exCtx exEl exLeads exEdit (by decide) b!"p" [b!"q"] (by decide) (by decide) (by decide +kernel) (.str b!"1") _ (by simp) rfl (by decide) (by decide)
  rw [exEdit_render] at h
  exact h
example : set exEnv.ord b!"<r><a><b>1</b><c/></a></r>" b!"r.a.b.-1" (.str b!"2") = .ret (b!"<r><a><b>1</b><b>2</b><c/></a></r>", none) ∧
    delete exEnv.ord b!"<r><a><b>1</b><b>2</b><c/></a></r>" b!"r.a.b.1" = .ret (b!"<r><a><b>1</b><c/></a></r>", none) := by decide +kernel

/-- C66: what does not come back: an empty tag that was opened, the order and the layout of attributes, the place of an element deleted and set again. -/
theorem C66_not_undone :
    set exEnv.ord b!"<r><a/></r>" b!"r.a.b" (.str b!"1") = .ret (b!"<r><a><b>1</b></a></r>", none) ∧
    delete exEnv.ord b!"<r><a><b>1</b></a></r>" b!"r.a.b" = .ret (b!"<r><a></a></r>", none) ∧
    set exEnv.ord b!"<r k=\"1\"  j='2'/>" b!"r.@m" (.str b!"3") = .ret (b!"<r j=\"2\" k=\"1\" m=\"3\"/>", none) ∧
    delete exEnv.ord b!"<r j=\"2\" k=\"1\" m=\"3\"/>" b!"r.@m" = .ret (b!"<r j=\"2\" k=\"1\"/>", none) ∧
    delete exEnv.ord b!"<r><a>1</a><b>2</b></r>" b!"r.a" = .ret (b!"<r><b>2</b></r>", none) ∧
    set exEnv.ord b!"<r><b>2</b></r>" b!"r.a" (.str b!"1") = .ret (b!"<r><b>2</b><a>1</a></r>", none) := by decide +kernel

end Verif.Props
