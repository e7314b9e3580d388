import Verif.Spec.Children
import Verif.Props.GroupAny
import Verif.Props.FirstAttr
/- C95: all the children of an element are a list under Set and Delete, whatever paths lead to the element and whatever the options. -/
namespace Verif.Props
open Verif Verif.Spec

/-! ## C95 The children of an element are a list, with any paths and options -/

theorem append_children (f g : Forest) : (f.append g).children = f.children ++ g.children := by
  induction f <;> simp_all [Forest.append, Forest.children]

theorem cons_children (e : El) (a : Forest) : (e.cons a).children = e.child :: a.children := by
  obtain ⟨n, as, ws, body⟩ := e
  rcases body with _ | ⟨k, cws⟩ <;> rfl

theorem children_names (f : Forest) : f.children.map (·.name) = f.info.elems.map (·.name) := by
  induction f <;> simp_all [Forest.children, Forest.info, Info.elems, El.child]

theorem children_count (cs : Bool) (k : Pick) (f : Forest) : (f.children.filter fun d => k.takes cs d.name).length = f.info.count cs k := by
  have h := congrArg (fun l : List Bytes => (l.filter fun n => k.takes cs n).length) (children_names f)
  simp only [List.filter_map, List.length_map] at h
  exact h

theorem nth_children {k : Forest} {i : Nat} {d : Child} (h : k.children[i]? = some d) : ∃ (b : Forest) (ch : El) (a : Forest), k = b.append (ch.cons a) ∧ b.children.length = i ∧ ch.child = d := by
  induction k generalizing i with
  | nil => simp [Forest.children] at h
  | text t next ih =>
    obtain ⟨b, ch, a, rfl, h2, h3⟩ := ih (i := i) h
    exact ⟨.text t b, ch, a, rfl, h2, h3⟩
  | misc t next ih =>
    obtain ⟨b, ch, a, rfl, h2, h3⟩ := ih (i := i) h
    exact ⟨.misc t b, ch, a, rfl, h2, h3⟩
  | leaf n as ws next ih =>
    cases i with
    | zero => exact ⟨.nil, ⟨n, as, ws, none⟩, next, rfl, rfl, by simpa [Forest.children] using h⟩
    | succ i =>
      obtain ⟨b, ch, a, rfl, h2, h3⟩ := ih (i := i) (by simpa [Forest.children] using h)
      exact ⟨.leaf n as ws b, ch, a, rfl, by simpa [Forest.children] using h2, h3⟩
  | node n as ws k cws next _ ih =>
    cases i with
    | zero => exact ⟨.nil, ⟨n, as, ws, some (k, cws)⟩, next, rfl, rfl, by simpa [Forest.children] using h⟩
    | succ i =>
      obtain ⟨b, ch, a, rfl, h2, h3⟩ := ih (i := i) (by simpa [Forest.children] using h)
      exact ⟨.node n as ws k cws b, ch, a, rfl, by simpa [Forest.children] using h2, h3⟩

theorem asks_position {p : Bytes} {k : Pick} (h : Asks p k) : ¬ Position p := by
  cases h with
  | name h => exact nameStep_position h
  | any h =>
    rintro ⟨-, -, h3⟩
    have : c!"*" ∈ beforeBar p := by rcases h with h | h <;> rw [h] <;> decide
    have := h3 _ this
    revert this
    decide

theorem trail_append {ps zs : List Bytes} {hs hz : List Hop} (h : Trail ps (some hs)) (hzs : Trail zs (some hz)) : Trail (ps ++ zs) (some (hs ++ hz)) := by
  have hhead : ∀ d, zs.head? = some d → ¬ Position d := by
    intro d hd
    generalize hg : some hz = t at hzs
    cases hzs with
    | nil => simp at hd
    | nth hp => simp at hd; subst hd; exact asks_position hp
    | negative hp => simp at hd; subst hd; exact asks_position hp
    | first hp => simp at hd; subst hd; exact asks_position hp
    | lost => cases hg
  generalize ht : some hs = t at h
  induction h generalizing hs with
  | nil => injection ht with ht; subst ht; exact hzs
  | @nth p d k j ps t hp hd hj h ih =>
    cases t with
    | none => cases ht
    | some t =>
      injection ht with ht; subst ht
      exact Trail.nth hp hd hj (ih rfl)
  | negative hp hd hj => cases ht
  | @first p k ps t hp hd h ih =>
    cases t with
    | none => cases ht
    | some t =>
      injection ht with ht; subst ht
      refine Trail.first hp (fun d hd' => ?_) (ih rfl)
      cases ps with
      | nil => exact hhead d hd'
      | cons q ps => exact hd d hd'
  | lost hp => cases ht

theorem rekids_self (e : El) : reKids e e.kids = e := by
  obtain ⟨n, as, ws, body⟩ := e
  rcases body with _ | ⟨k, cws⟩ <;> rfl

theorem children_body {e : El} {i : Nat} {d : Child} (h : e.kids.children[i]? = some d) : e.body ≠ none := by
  obtain ⟨n, as, ws, body⟩ := e
  rcases body with _ | ⟨k, cws⟩
  · simp [El.kids, Forest.children] at h
  · simp

theorem addBehind_none {cs : Bool} {x : Bytes} {n : Child} {l : List Child} (h : ∀ d ∈ l, agrees cs x d.name = false) : addBehind cs x n l = l ++ [n] := by
  induction l with
  | nil => rfl
  | cons d l ih => rw [addBehind, h d (by simp), ih fun d hd => h d (by simp [hd])]; simp

theorem addBehind_last {cs : Bool} {x : Bytes} {n d : Child} {l1 l2 : List Child} (hd : agrees cs x d.name = true) (h : ∀ d ∈ l2, agrees cs x d.name = false) :
    addBehind cs x n (l1 ++ d :: l2) = l1 ++ d :: n :: l2 := by
  induction l1 with
  | nil => simp only [List.nil_append, addBehind]; rw [if_pos]; simpa [hd] using h
  | cons e l1 ih =>
    rw [List.cons_append, addBehind, if_neg, ih]; · rfl
    simp [hd]

theorem modify_mid {α : Type} (f : α → α) (l1 l2 : List α) (d : α) : (l1 ++ d :: l2).modify l1.length f = l1 ++ f d :: l2 := by
  induction l1 <;> simp_all

theorem plain_child (n s : Bytes) : (plainEl n (escapeXML s)).child = newChild n s := by
  have h : (Info.text (escapeXML s) .nil).textValue = trimSpace s := plain_value s
  simp [plainEl, El.child, newChild, El.node, Forest.info, Info.elems, h]
  funext k
  simp [Spec.attrVal]

theorem none_named {cs : Bool} {x : Bytes} {f : Forest} (h : f.info.namedBy cs x = []) : ∀ d ∈ f.children, agrees cs x d.name = false := by
  have := children_count cs (.name x) f
  rw [Info.count] at this
  rw [show f.info.elems.filter (fun e => (Pick.name x).takes cs e.name) = [] from h] at this
  intro d hd
  have h2 := List.eq_nil_of_length_eq_zero this
  rw [List.filter_eq_nil_iff] at h2
  simpa [Pick.takes] using h2 d hd

/-- One operation. -/
theorem child_step {c : Ctx} {e : El} (hd : Editable (c.plug (e.cons .nil))) {q : ChildCall} (hq : q.Meant c e.name e.kids.children) :
    ∃ e' : El, (e'.name = e.name ∧ Spec.attrVal e'.attrs = Spec.attrVal e.attrs ∧ e'.kids.children = q.on e.kids.children) ∧ (¬ q.Spaces → e'.kids.info.ownText = e.kids.info.ownText) ∧
      (e.body ≠ none → e'.body ≠ none ∧ (c.plug (e'.cons .nil)).render.length ≤ (c.plug (e.cons .nil)).render.length + q.cost) ∧
      ((c.plug (e'.cons .nil)).render.length ≤ 10485760 →
        q.run (c.plug (e.cons .nil)).render = .ret ((c.plug (e'.cons .nil)).render, none) ∧ Editable (c.plug (e'.cons .nil))) ∧
      (q.run (c.plug (e.cons .nil)).render = .ret ((c.plug (e'.cons .nil)).render, none) ∨
        q.run (c.plug (e.cons .nil)).render = .ret ((c.plug (e.cons .nil)).render, some .invalidValue)) := by
  obtain ⟨o, p, opts, op⟩ := q
  obtain ⟨ho, hind, ss, zs, hL, hps, hy⟩ := hq
  simp only at ho hy hL hind hps ⊢
  have hg := editable_el hd
  obtain ⟨g1, g2, g3, g4⟩ := el_kids_good hg
  have hes : ∀ s, (escapeXML s).length = storedSize (.str s) := fun s => valueToXML_size (v := .str s) rfl
  -- a child in its place
  have hchild : ∀ i, AtChild opts.caseSensitive e.kids.children zs i →
      ∃ (b : Forest) (ch : El) (a : Forest) (cws : Bytes), e.body ≠ none ∧ e.kids = b.append (ch.cons a) ∧ b.children.length = i ∧
        (∀ z : Forest, (down c e.name e.attrs e.ws cws (.here b a)).plug z = c.plug ((reKids e (b.append (z.append a))).cons .nil)) ∧
        (down c e.name e.attrs e.ws cws (.here b a)).plug (ch.cons .nil) = c.plug (e.cons .nil) ∧
        LeadTo opts.caseSensitive (ss ++ zs) (down c e.name e.attrs e.ws cws (.here b a)) ch.name := by
    rintro i ⟨k, j, d, ht, hi, hk, hj⟩
    have hbody := children_body hi
    obtain ⟨b, ch, a, hk0, hb, rfl⟩ := nth_children hi
    obtain ⟨cws, hcp⟩ := child_plug (c := c) hbody (b := b) (a := a)
    refine ⟨b, ch, a, cws, hbody, hk0, hb, hcp, ?_, ?_⟩
    · rw [hcp, cons_append]; rw [show Forest.append .nil a = a from rfl, ← hk0, rekids_self]
    · obtain ⟨hs, ht0, hr⟩ := hL
      refine ⟨_, trail_append ht0 ht, reach_down hr ⟨hk, ?_⟩⟩
      rw [← children_count, ← hj, hk0, append_children, ← hb, List.take_left']
      rfl
  have hss : ss.length ≤ 100 := by
    have := pathSteps_short hps
    simp only [List.length_append] at this
    omega
  cases op with
  | push x s =>
    obtain ⟨⟨y, rfl, hneg⟩, hx, hsz0⟩ := hy
    obtain ⟨s1, s2, -⟩ := isName_step hx
    obtain ⟨k1, k2, hk, hal⟩ := afterLast_existsB (cs := opts.caseSensitive) x e.kids
    obtain ⟨as, ws, h1, h2⟩ := C91_append ho opts hd hps s1 hneg hL
    obtain ⟨r, r1, r2⟩ := h2 k1 k2 hk (by rw [s2]; exact hal) (.str s) (escapeXML s) (by simp) rfl (by rw [hes]; exact hsz0)
    have e1 := (appended_plug (c := c) (e := e) (as := as) (ws := ws) (nl := leadIn opts.indent ss.length k1) (n := spelling opts.caseSensitive x) (w := escapeXML s) (k1 := k1) (k2 := k2)).1
    rw [s2] at r1
    have r3 : r = (c.plug ((e.refill as ws (appended (leadIn opts.indent ss.length k1) (spelling opts.caseSensitive x) (escapeXML s) k1 k2)).cons .nil)).render := by rw [e1, r1]; rfl
    clear r1
    subst r3
    refine ⟨e.refill as ws (appended (leadIn opts.indent ss.length k1) (spelling opts.caseSensitive x) (escapeXML s) k1 k2), ⟨rfl, ?_, ?_⟩, fun h0' => ?_, fun hb => ⟨by simp [El.refill], ?_⟩, fun hsz => ⟨?_, ?_⟩, ?_⟩
    · by_cases hb : e.body = none
      · exact (h1.anew hb).2.2.1
      · show Spec.attrVal as = _
        rw [(h1.kept hb).1]
    · rw [refill_kids, appended, append_children, hk, append_children]
      show k1.children ++ ((plainEl (spelling opts.caseSensitive x) (escapeXML s)).cons k2).children = addBehind opts.caseSensitive x (newChild (spelling opts.caseSensitive x) s) (k1.children ++ k2.children)
      rw [cons_children, plain_child]
      rcases hal with ⟨b, ch, rfl, hm, hn⟩ | ⟨hn, rfl⟩
      · rw [append_children, cons_children]
        have := addBehind_last (n := newChild (spelling opts.caseSensitive x) s) (l1 := b.children) (d := ch.child) hm (none_named hn)
        simpa [Forest.children] using this.symm
      · have := addBehind_none (n := newChild (spelling opts.caseSensitive x) s) (none_named hn)
        simpa [Forest.children] using this.symm
    · have h0 : opts.indent = [] := Classical.byContradiction h0'
      have : leadIn opts.indent ss.length k1 = [] := by simp [leadIn, newLine, h0]
      rw [refill_kids, hk, appended, own_append, own_append, this]
      simp only [Forest.info, Info.ownText, own_cons]
      simp
    · obtain ⟨rfl, rfl⟩ := h1.kept hb
      have := group_ends hd (k := e.kids) hb
      rw [rekids_self] at this
      have hq := hes s
      have hnl : (leadIn opts.indent ss.length k1).length ≤ 1 + 100 * opts.indent.length := by
        unfold leadIn
        split
        · simp
        · exact newLine_len _ _ hss
      rw [e1]
      conv => rhs; rw [this]
      rw [plug_el_render]
      simp only [El.refill, El.start, El.inner, El.stop, hk, append_render, ← wrapElem_render, wrapElem]
      simp only [ChildCall.cost]
      simp [spelling_len]
      omega
    · exact r2.trans (if_neg (by omega))
    · have hh := (appended_here (cs := opts.caseSensitive) hind hd hps s1 (by rw [s2]; exact hx) hL h1 hk (by rw [s2]; exact hal) (C20_no_markup s) rfl (by rw [s2]; exact hsz)).1
      rw [s2] at hh
      exact hh
    · by_cases hc : e.body ≠ none ∧ (c.plug ((e.refill as ws (appended (leadIn opts.indent ss.length k1) (spelling opts.caseSensitive x) (escapeXML s) k1 k2)).cons .nil)).render.length > 10485760
      · exact .inr (r2.trans (if_pos hc))
      · exact .inl (r2.trans (if_neg hc))
  | make x s =>
    obtain ⟨rfl, hx, hsz0, hno⟩ := hy
    obtain ⟨s1, s2, -⟩ := isName_step hx
    have hnone : e.kids.info.namedBy opts.caseSensitive x = [] := by
      have h := children_count opts.caseSensitive (.name x) e.kids
      rw [List.filter_eq_nil_iff.mpr (fun d hd => by simp [Pick.takes, hno d hd])] at h
      exact List.eq_nil_of_length_eq_zero h.symm
    have hdeep : Deepest opts.caseSensitive (ss ++ [x]) ss [x] c e := by
      refine ⟨rfl, by simp, hL, ?_⟩
      intro qs rest' h1 h2
      have h3 := congrArg List.length h1
      simp only [List.length_append, List.length_cons, List.length_nil] at h3
      have h4 : rest' = [] := List.eq_nil_of_length_eq_zero (by omega)
      subst h4
      rw [List.append_nil] at h1
      subst h1
      obtain ⟨hs, ht, hr⟩ := hL
      refine nowhere_spot (trail_snoc ht s1) ?_
      rw [spot_append opts.caseSensitive (reach_ne hr) (by simp), reach_spot hr, Option.bind_some, el_node_kids, s2]
      show (e.kids.info.namedBy opts.caseSensitive x)[0]? = none
      rw [hnone]; rfl
    have hn : ∀ y ∈ [x], IsName y := by simpa using hx
    obtain ⟨as, ws, h1, h2⟩ := C79_create ho opts hd hps hdeep (fun y hy => isName_negative (hn y hy)) (slots_isName hn) (by simp)
    have r2 := h2 (.str s) (escapeXML s) (by simp) rfl (by rw [hes]; exact hsz0)
    have hrend : (chainF opts.indent 0 [spelling opts.caseSensitive x] (.text (escapeXML s) .nil)).render = slotLines opts.indent 0 ([x].map fun m => some (spelling opts.caseSensitive m)) (escapeXML s) := by
      rw [chainF_render, ← slotLines_names]; simp
    have hx2 : c.before ++ (e.refill as ws (e.kids.append (chainF opts.indent 0 [spelling opts.caseSensitive x] (.text (escapeXML s) .nil)))).render ++ c.after =
        c.before ++ (openTag e.name as ws ++ b!">" ++ e.inner ++ slotLines opts.indent 0 ([x].map fun m => some (spelling opts.caseSensitive m)) (escapeXML s) ++ closeTag e.name []) ++ c.after := by
      rw [← hrend]
      obtain ⟨nm, eas, ews, bd⟩ := e
      cases bd <;> simp [El.refill, El.render, El.start, El.inner, El.stop, El.kids, append_render, Forest.render]
    rw [← hx2] at r2
    have hpl : c.before ++ (e.refill as ws (e.kids.append (chainF opts.indent 0 [spelling opts.caseSensitive x] (.text (escapeXML s) .nil)))).render ++ c.after =
        (c.plug ((e.refill as ws (e.kids.append (chainF opts.indent 0 [spelling opts.caseSensitive x] (.text (escapeXML s) .nil)))).cons .nil)).render := by
      rw [plug_render, cons_render]; simp [Forest.render]
    have hdep : c.depth + 1 + [spelling opts.caseSensitive x].length ≤ 100 := by
      obtain ⟨hs, ht, hr⟩ := hL
      have h1 := reach_deep hr
      have h2 := trail_short ht _ rfl
      have h3 := pathSteps_short hps
      simp only [List.length_append, List.length_cons, List.length_nil] at h3
      simp only [List.length_cons, List.length_nil]
      omega
    refine ⟨e.refill as ws (e.kids.append (chainF opts.indent 0 [spelling opts.caseSensitive x] (.text (escapeXML s) .nil))), ⟨rfl, ?_, ?_⟩, fun h0' => ?_, fun hb => ⟨by simp [El.refill], ?_⟩, fun hsz => ⟨?_, ?_⟩, ?_⟩
    · by_cases hb : e.body = none
      · exact (h1.anew hb).2.2.1
      · show Spec.attrVal as = _
        rw [(h1.kept hb).1]
    · rw [refill_kids, append_children]
      show e.kids.children ++ [(plainEl (spelling opts.caseSensitive x) (escapeXML s)).child] = _
      rw [plain_child]; rfl
    · have h0 : opts.indent = [] := Classical.byContradiction h0'
      rw [refill_kids, own_append]
      simp [chainF, Forest.info, Info.ownText, newLine, h0]
    · obtain ⟨rfl, rfl⟩ := h1.kept hb
      have := group_ends hd (k := e.kids) hb
      rw [rekids_self] at this
      have hq := hes s
      have hnl := newLine_len opts.indent 0 (by omega)
      conv => rhs; rw [this]
      rw [plug_el_render, plug_el_render]
      simp only [El.refill, El.start, El.inner, El.stop, append_render]
      simp only [ChildCall.cost]
      simp [chainF, Forest.render, spelling_len, openTag, closeTag]
      omega
    · rw [hpl] at r2; exact r2
    · have := editable_createdB hind hd (ns := [spelling opts.caseSensitive x]) (by simp) (by simpa using spelling_name hx) hdep (C20_no_markup s) h1 (by rw [hpl]; exact hsz)
      exact this
    · rw [hpl] at r2; exact .inl r2
  | put i s =>
    obtain ⟨hat, hwhole0, hsz0⟩ := hy
    obtain ⟨b, ch, a, cws, hbody, hk, hb3, hcp, hwhole, hL2⟩ := hchild i hat
    have hi : e.kids.children[i]? = some ch.child := by
      rw [hk, append_children, cons_children, ← hb3]; simp
    have hchb : ch.body ≠ none := by
      have := hwhole0 _ hi
      intro hh
      simp [El.child, hh] at this
    have hd2 := hd
    rw [← hwhole] at hd2
    have hset := C79_set ho opts hd2 hps hL2 (v := .str s) (w := escapeXML s) (by simp) rfl (by rw [hes]; exact hsz0)
    rw [← fill_render hchb, hwhole] at hset
    have hfill : (down c e.name e.attrs e.ws cws (.here b a)).plug ((ch.fill (escapeXML s)).cons .nil) = c.plug ((reKids e (b.append ((ch.fill (escapeXML s)).cons a))).cons .nil) := by
      rw [hcp, cons_append]; rfl
    refine ⟨reKids e (b.append ((ch.fill (escapeXML s)).cons a)), ⟨rfl, rfl, ?_⟩, fun _ => ?_, fun _ => ⟨by simpa [reKids] using hbody, ?_⟩, fun hsz => ⟨?_, ?_⟩, ?_⟩
    · rw [rekids_kids hbody, append_children, cons_children, hk, append_children, cons_children, ← hb3]
      have hv : (Info.text (escapeXML s) .nil).textValue = trimSpace s := plain_value s
      have hc : (ch.fill (escapeXML s)).child = { ch.child with text := trimSpace s, kids := [] } := by
        obtain ⟨m, as, ws, body⟩ := ch
        rcases body with _ | ⟨k, cws⟩
        · exact absurd rfl hchb
        · simp [El.fill, El.child, El.node, Forest.info, Info.elems, hv]
      rw [hc]
      exact (modify_mid (fun d : Child => { d with text := trimSpace s, kids := [] }) _ _ _).symm
    · rw [rekids_kids hbody, hk, own_append, own_append, own_cons, own_cons]
    · have hq := hes s
      rw [← hfill, fill_render hchb, ← hwhole, plug_el_render]
      simp [ChildCall.cost]; omega
    · rw [← hfill]; exact hset
    · rw [← hfill] at hsz ⊢
      exact editable_fill hd2 hchb (C20_no_markup s) (by rw [← fill_render hchb]; exact hsz)
    · rw [← hfill]; exact .inl hset
  | drop i =>
    obtain ⟨b, ch, a, cws, hbody, hk, hb3, hcp, hwhole, hL2⟩ := hchild i hy
    have hd2 := hd
    rw [← hwhole] at hd2
    have hnil : (down c e.name e.attrs e.ws cws (.here b a)).before ++ (down c e.name e.attrs e.ws cws (.here b a)).after =
        (c.plug ((reKids e (b.append a)).cons .nil)).render := by
      have := plug_render (down c e.name e.attrs e.ws cws (.here b a)) .nil
      rw [hcp, show Forest.append .nil a = a from rfl] at this
      simpa [Forest.render] using this.symm
    have hne : (c.plug ((reKids e (b.append a)).cons .nil)).render ≠ [] := by
      rw [plug_el_render]; simp [El.start, openTag]
    have hsz : (c.plug ((reKids e (b.append a)).cons .nil)).render.length ≤ (c.plug (e.cons .nil)).render.length := by
      rw [← hnil, ← hwhole, plug_render]; simp
    have hed : Editable (c.plug ((reKids e (b.append a)).cons .nil)) := by
      have := editable_swap hd2 (y := .nil) trivial trivial trivial (fun _ => trivial)
        (by rw [hcp]; exact plug_hasElem_of (cons_hasElem _ _)) (by rw [hcp]; exact Nat.le_trans hsz hd.1)
      rw [hcp] at this
      exact this
    have hdel := C79_delete ho opts hd2 hps hL2
    rw [hnil, if_neg hne, hwhole] at hdel
    refine ⟨reKids e (b.append a), ⟨rfl, rfl, ?_⟩, fun _ => ?_, fun _ => ⟨by simpa [reKids] using hbody, Nat.le_trans hsz (Nat.le_add_right _ _)⟩, fun _ => ⟨hdel, hed⟩, .inl hdel⟩
    · rw [rekids_kids hbody, append_children, hk, append_children, cons_children, ← hb3]
      simp only [ChildCall.on, ChildOp.on]
      rw [List.eraseIdx_append_of_length_le (Nat.le_refl _)]
      simp
    · rw [rekids_kids hbody, hk, own_append, own_append, own_cons]

/-- C95: The children of an element are a list. A Set of a string whose path goes on with steps that ask for entry `i` (a name, `*` or `**`, with a position or without) gives this text to the
entry, and such a Delete removes it; a Set with `x.-1` adds an entry behind the last one of that name, and one with an `x` that is not there adds it at the end. This holds for every path that leads
to the element, and with any options. The element keeps its name and attributes, and its text as well unless an entry is added with indentation. (Nothing is done if the result would be too long.) -/
theorem C95_step {c : Ctx} {e : El} (hd : Editable (c.plug (e.cons .nil))) {q : ChildCall} (hq : q.Meant c e.name e.kids.children) :
    ∃ e' : El, e'.name = e.name ∧ Spec.attrVal e'.attrs = Spec.attrVal e.attrs ∧ e'.kids.children = q.on e.kids.children ∧ (¬ q.Spaces → e'.kids.info.ownText = e.kids.info.ownText) ∧
      ((c.plug (e'.cons .nil)).render.length ≤ 10485760 →
        q.run (c.plug (e.cons .nil)).render = .ret ((c.plug (e'.cons .nil)).render, none) ∧ Editable (c.plug (e'.cons .nil))) ∧
      (q.run (c.plug (e.cons .nil)).render = .ret ((c.plug (e'.cons .nil)).render, none) ∨
        q.run (c.plug (e.cons .nil)).render = .ret ((c.plug (e.cons .nil)).render, some .invalidValue)) := by
  obtain ⟨e', ⟨h1, h2, h3⟩, h4, -, h5, h6⟩ := child_step hd hq
  exact ⟨e', h1, h2, h3, h4, h5, h6⟩

/-- C95: Any number of such calls, each with its own path and options, does to the children what the operations do to a list. -/
theorem C95_run {c : Ctx} (qs : List ChildCall) {e : El} (hd : Editable (c.plug (e.cons .nil))) (hq : ChildCall.AllMeant c e.name qs e.kids.children) {r : Bytes}
    (hr : ChildCall.runAll (c.plug (e.cons .nil)).render qs = some r) :
    ∃ e' : El, r = (c.plug (e'.cons .nil)).render ∧ Editable (c.plug (e'.cons .nil)) ∧ e'.name = e.name ∧ Spec.attrVal e'.attrs = Spec.attrVal e.attrs ∧
      e'.kids.children = ChildCall.onAll qs e.kids.children ∧ ((∀ q ∈ qs, ¬ q.Spaces) → e'.kids.info.ownText = e.kids.info.ownText) := by
  induction qs generalizing e with
  | nil =>
    simp only [ChildCall.runAll, Option.some.injEq] at hr
    exact ⟨e, hr.symm, hd, rfl, rfl, rfl, fun _ => rfl⟩
  | cons q qs ih =>
    obtain ⟨e1, ⟨h1, h2, h3⟩, h4, -, h5, h6⟩ := child_step hd hq.1
    rw [ChildCall.runAll] at hr
    rcases h6 with h6 | h6
    · rw [h6] at hr
      simp only at hr
      split at hr
      · rename_i hsz
        obtain ⟨e2, q1, q2, q3, q4, q5, q6⟩ := ih (h5 hsz).2 (by rw [h1, h3]; exact hq.2) hr
        exact ⟨e2, q1, q2, q3.trans h1, q4.trans h2, by rw [q5, h3]; rfl, fun hi => (q6 fun q' hm => hi q' (by simp [hm])).trans (h4 (hi q (by simp)))⟩
      · cases hr
    · rw [h6] at hr; cases hr

/-- C95: And they all succeed while there is room. -/
theorem C95_room {c : Ctx} (qs : List ChildCall) {e : El} (hd : Editable (c.plug (e.cons .nil))) (hb : e.body ≠ none) (hq : ChildCall.AllMeant c e.name qs e.kids.children)
    (hroom : (c.plug (e.cons .nil)).render.length + (qs.map (·.cost)).sum ≤ 10485760) : ∃ r, ChildCall.runAll (c.plug (e.cons .nil)).render qs = some r := by
  induction qs generalizing e with
  | nil => exact ⟨_, rfl⟩
  | cons q qs ih =>
    obtain ⟨e1, ⟨h1, -, h3⟩, -, h4, h5, -⟩ := child_step hd hq.1
    obtain ⟨k2, k5⟩ := h4 hb
    rw [List.map_cons, List.sum_cons] at hroom
    have hsz : (c.plug (e1.cons .nil)).render.length ≤ 10485760 := by omega
    obtain ⟨k6, k7⟩ := h5 hsz
    obtain ⟨r, hr⟩ := ih k7 k2 (by rw [h1, h3]; exact hq.2) (by omega)
    refine ⟨r, ?_⟩
    rw [ChildCall.runAll, k6]
    simp only [if_pos hsz]
    exact hr

/-- C95: The list as Get reads it, through every path that leads Get first to where it leads Set. -/
theorem C95_read (env : Env) (ho : env.ord.IsPerm) (opts : Options) {c : Ctx} {e : El} (hd : Editable (c.plug (e.cons .nil))) {ss zs : List Bytes} {p : Bytes} (hL : LeadTo opts.caseSensitive ss c e.name)
    (hps : PathSteps p (ss ++ zs)) (hb : c!"|" ∉ p) (ha : Ahead (ss ++ zs)) {i : Nat} (hi : AtChild opts.caseSensitive e.kids.children zs i) {d : Child} (hdi : e.kids.children[i]? = some d) :
    ∃ a r, getWithOptions env (c.plug (e.cons .nil)).render p (some opts) = .ret a ∧ a.array.head? = some r ∧ r.typ = .element ∧ r.toStr = d.text := by
  obtain ⟨k, j, d', ht, hi', hk, hj⟩ := hi
  rw [hdi] at hi'
  injection hi' with hi'
  subst hi'
  have hbody := children_body hdi
  obtain ⟨b, ch, a, hk0, hb3, rfl⟩ := nth_children hdi
  obtain ⟨cws, hcp⟩ := child_plug (c := c) hbody (b := b) (a := a)
  have hwhole : (down c e.name e.attrs e.ws cws (.here b a)).plug (ch.cons .nil) = c.plug (e.cons .nil) := by
    rw [hcp, cons_append]; rw [show Forest.append .nil a = a from rfl, ← hk0, rekids_self]
  have hL2 : LeadTo opts.caseSensitive (ss ++ zs) (down c e.name e.attrs e.ws cws (.here b a)) ch.name := by
    obtain ⟨hs, ht0, hr⟩ := hL
    refine ⟨_, trail_append ht0 ht, reach_down hr ⟨hk, ?_⟩⟩
    rw [← children_count, ← hj, hk0, append_children, ← hb3, List.take_left']
    rfl
  have hd2 := hd
  rw [← hwhole] at hd2
  obtain ⟨a', r, k1, k2, k3⟩ := C89_place env ho opts (editable_sound hd2) hps hb ha hL2
  rw [hwhole] at k1
  exact ⟨a', r, k1, k2, k3.typ, k3.str⟩

/-- C95: Deleting `*` as often as there are children deletes all of them. -/
theorem C95_clear {c : Ctx} {e : El} (hd : Editable (c.plug (e.cons .nil))) (qs : List ChildCall) (hlen : qs.length = e.kids.children.length)
    (hq : ∀ q ∈ qs, q.op = .drop 0 ∧ q.ord.IsPerm ∧ c!"<" ∉ q.opts.indent ∧ ∃ ss, LeadTo q.opts.caseSensitive ss c e.name ∧ PathSteps q.path (ss ++ [b!"*"])) :
    ∃ e' : El, ChildCall.runAll (c.plug (e.cons .nil)).render qs = some (c.plug (e'.cons .nil)).render ∧ e'.kids.children = [] ∧ e'.name = e.name ∧ Spec.attrVal e'.attrs = Spec.attrVal e.attrs ∧
      e'.kids.info.ownText = e.kids.info.ownText := by
  have hstar : Trail [b!"*"] (some [(.any, 0)]) := .first (t := some []) (.any (.inl (by decide))) (by simp) .nil
  induction qs generalizing e with
  | nil =>
    exact ⟨e, rfl, List.eq_nil_of_length_eq_zero hlen.symm, rfl, rfl, rfl⟩
  | cons q qs ih =>
    obtain ⟨q1, q2, q3, ss, q4, q5⟩ := hq q (by simp)
    cases hl : e.kids.children with
    | nil => rw [hl] at hlen; simp at hlen
    | cons d l =>
      have hm : q.Meant c e.name e.kids.children := by
        refine ⟨q2, q3, ss, [b!"*"], q4, q5, ?_⟩
        rw [q1]
        exact ⟨.any, 0, d, hstar, by simp [hl], rfl, by simp⟩
      obtain ⟨o, p, opts, op⟩ := q
      simp only at q1
      subst q1
      obtain ⟨e1, ⟨h1, h2, h3⟩, ht, h4, h5, -⟩ := child_step hd hm
      have hbody : e.body ≠ none := children_body (i := 0) (d := d) (by simp [hl])
      have hsz : (c.plug (e1.cons .nil)).render.length ≤ 10485760 := by
        have h7 := (h4 hbody).2
        have := hd.1
        simp only [ChildCall.cost] at h7
        omega
      have h8 : e1.kids.children = l := by rw [h3, hl]; rfl
      obtain ⟨k6, k7⟩ := h5 hsz
      obtain ⟨e', r1, r2, r3, r4, r5⟩ := ih k7 (by rw [h8]; rw [hl] at hlen; simpa using hlen) fun q hm => by rw [h1]; exact hq q (by simp [hm])
      refine ⟨e', ?_, r2, r3.trans h1, r4.trans h2, r5.trans (ht (by simp [ChildCall.Spaces]))⟩
      rw [ChildCall.runAll, k6]
      simp only [if_pos hsz]
      exact r1

/-! ### cases -/

/-- Four calls on the second element `a` of `<R><a/><A k="v">t<b>1</b><d/><B>2</B></A></R>`, with and without regard to case. -/
def childCalls : List ChildCall :=
  [⟨exEnv.ord, b!"r.a.1.*.1", ciOpts, .drop 1⟩, ⟨exEnv.ord, b!"R.A.B", defaultOptions, .put 1 b!"4"⟩, ⟨exEnv.ord, b!"*.A.1.b.-1", inOpts, .push b!"b" b!" <3> "⟩, ⟨exEnv.ord, b!"R.A.x", defaultOptions, .make b!"x" b!"5"⟩]

theorem childCalls_meant : ChildCall.AllMeant groupCtx groupEl.name childCalls groupEl.kids.children := by
  have hpos : Position b!"1" := by unfold Position; decide +kernel
  have hpl : Place (beforeBar b!"1") (some 1) := .number (ds := b!"1") (rest := []) rfl (.digit 49 (by decide)) (.inl rfl)
  have hra : LeadTo true [b!"R", b!"A"] groupCtx groupEl.name :=
    ⟨_, trail_names (by intro x hx; simp at hx; rcases hx with rfl | rfl <;> exact isName_of (by decide) (by decide)), rfl, by decide +kernel, by decide +kernel, by decide +kernel⟩
  refine ⟨⟨exEnv_perm, by decide, [b!"r", b!"a", b!"1"], [b!"*", b!"1"], ⟨_, groupTrail, by decide +kernel, by decide +kernel, by decide +kernel, by decide +kernel⟩,
      pathSteps_by (by decide) (by decide) (by decide +kernel) (by decide +kernel), .any, 1, _, .nth (t := some []) (j := 1) (.any (.inl (by decide))) hpos hpl .nil, rfl, rfl, rfl⟩,
    ⟨exEnv_perm, by decide, [b!"R", b!"A"], [b!"B"], hra, pathSteps_by (by decide) (by decide) (by decide +kernel) (by decide +kernel),
      ⟨.name b!"B", 0, _, .first (t := some []) (.name (name_step (by decide))) (by simp) .nil, rfl, by decide +kernel, by decide +kernel⟩, ?_, by decide +kernel⟩,
    ⟨exEnv_perm, by decide, [b!"*", b!"A", b!"1"], [b!"b", b!"-1"], groupLead, pathSteps_by (by decide) (by decide) (by decide +kernel) (by decide +kernel), ⟨_, rfl, exNeg⟩, isName_of (by decide) (by decide), by decide +kernel⟩,
    ⟨exEnv_perm, by decide, [b!"R", b!"A"], [b!"x"], hra, pathSteps_by (by decide) (by decide) (by decide +kernel) (by decide +kernel), rfl, isName_of (by decide) (by decide), by decide +kernel, ?_⟩, trivial⟩
  · rintro d ⟨rfl⟩; rfl
  · show ∀ d ∈ ChildCall.onAll (childCalls.take 3) groupEl.kids.children, agrees true b!"x" d.name = false
    have h : ((ChildCall.onAll (childCalls.take 3) groupEl.kids.children).map (·.name)).all (fun n => !agrees true b!"x" n) = true := by decide +kernel
    simpa using h

/-- The list after them: `b`, `B`, the new `b` and the new `x`. -/
example : (ChildCall.onAll childCalls groupEl.kids.children).map (fun d => (d.name, d.text)) = [(b!"b", b!"1"), (b!"B", b!"4"), (b!"b", b!"<3>"), (b!"x", b!"5")] := by decide +kernel

/-- C95: the document itself. -/
theorem C95_witness :
    ChildCall.runAll b!"<R><a/><A k=\"v\">t<b>1</b><d/><B>2</B></A></R>" childCalls = some b!"<R><a/><A k=\"v\">t<b>1</b><B>4</B>\n      <b> &lt;3&gt; </b><x>5</x></A></R>" := by decide +kernel

/-- and from the theorems -/
example : ∃ r, ChildCall.runAll b!"<R><a/><A k=\"v\">t<b>1</b><d/><B>2</B></A></R>" childCalls = some r ∧ ∃ e', r = (groupCtx.plug (El.cons e' .nil)).render ∧ e'.kids.children = ChildCall.onAll childCalls groupEl.kids.children := by
  have hd : (groupCtx.plug (groupEl.cons .nil)).render = b!"<R><a/><A k=\"v\">t<b>1</b><d/><B>2</B></A></R>" := by decide +kernel
  obtain ⟨r, hr⟩ := C95_room childCalls groupEl_is.doc (by decide) childCalls_meant (by decide +kernel)
  obtain ⟨e', h1, -, -, -, h2, -⟩ := C95_run childCalls groupEl_is.doc childCalls_meant hr
  rw [← hd]
  exact ⟨r, hr, e', h1, h2⟩

end Verif.Props
