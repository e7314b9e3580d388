import Verif.Spec.GroupAny
import Verif.Props.AppendAny
import Verif.Props.Group
/- C93: the elements of one name in an element are a list under Set and Delete, whatever paths lead to the element and whatever the options. -/
namespace Verif.Props
open Verif Verif.Spec

/-! ## C93 The elements of one name are a list, with any paths and options -/

theorem nth_namedBy {cs : Bool} {x : Bytes} {k : Forest} {j : Nat} {nd : Node} (h : (k.info.namedBy cs x)[j]? = some nd) :
    ∃ (b : Forest) (ch : El) (a : Forest), k = b.append (ch.cons a) ∧ agrees cs x ch.name = true ∧ (b.info.namedBy cs x).length = j ∧ ch.node = nd := by
  induction k generalizing j with
  | nil => simp [Forest.info, Info.namedBy, Info.elems] at h
  | text t next ih =>
    obtain ⟨b, ch, a, rfl, h2, h3, h4⟩ := ih (j := j) (by simpa [Forest.info, Info.namedBy, Info.elems] using h)
    exact ⟨.text t b, ch, a, rfl, h2, by simpa [Forest.info, Info.namedBy, Info.elems] using h3, h4⟩
  | misc t next ih =>
    obtain ⟨b, ch, a, rfl, h2, h3, h4⟩ := ih (j := j) (by simpa [Forest.info, Info.namedBy, Info.elems] using h)
    exact ⟨.misc t b, ch, a, rfl, h2, by simpa [Forest.info, Info.namedBy, Info.elems] using h3, h4⟩
  | leaf n as ws next ih =>
    by_cases hm : agrees cs x n = true
    · cases j with
      | zero => exact ⟨.nil, ⟨n, as, ws, none⟩, next, rfl, hm, rfl, by simpa [Forest.info, Info.namedBy, Info.elems, hm, El.node] using h⟩
      | succ j =>
        obtain ⟨b, ch, a, rfl, h2, h3, h4⟩ := ih (j := j) (by simpa [Forest.info, Info.namedBy, Info.elems, hm] using h)
        exact ⟨.leaf n as ws b, ch, a, rfl, h2, by simpa [Forest.info, Info.namedBy, Info.elems, hm] using h3, h4⟩
    · obtain ⟨b, ch, a, rfl, h2, h3, h4⟩ := ih (j := j) (by simpa [Forest.info, Info.namedBy, Info.elems, hm] using h)
      exact ⟨.leaf n as ws b, ch, a, rfl, h2, by simpa [Forest.info, Info.namedBy, Info.elems, hm] using h3, h4⟩
  | node n as ws k cws next _ ih =>
    by_cases hm : agrees cs x n = true
    · cases j with
      | zero => exact ⟨.nil, ⟨n, as, ws, some (k, cws)⟩, next, rfl, hm, rfl, by simpa [Forest.info, Info.namedBy, Info.elems, hm, El.node] using h⟩
      | succ j =>
        obtain ⟨b, ch, a, rfl, h2, h3, h4⟩ := ih (j := j) (by simpa [Forest.info, Info.namedBy, Info.elems, hm] using h)
        exact ⟨.node n as ws k cws b, ch, a, rfl, h2, by simpa [Forest.info, Info.namedBy, Info.elems, hm] using h3, h4⟩
    · obtain ⟨b, ch, a, rfl, h2, h3, h4⟩ := ih (j := j) (by simpa [Forest.info, Info.namedBy, Info.elems, hm] using h)
      exact ⟨.node n as ws k cws b, ch, a, rfl, h2, by simpa [Forest.info, Info.namedBy, Info.elems, hm] using h3, h4⟩

theorem fullBy_append (cs : Bool) (x : Bytes) (f g : Forest) : (f.append g).FullBy cs x ↔ f.FullBy cs x ∧ g.FullBy cs x := by
  induction f <;> simp_all [Forest.append, Forest.FullBy, and_assoc]

theorem fullBy_cons (cs : Bool) (x : Bytes) (e : El) (a : Forest) : (e.cons a).FullBy cs x ↔ (agrees cs x e.name = true → e.body ≠ none) ∧ a.FullBy cs x := by
  obtain ⟨n, as, ws, body⟩ := e
  rcases body with _ | ⟨k, cws⟩ <;> simp [El.cons, Forest.FullBy]

theorem child_namedBy {cs : Bool} {x : Bytes} {b a : Forest} {ch : El} (hm : agrees cs x ch.name = true) :
    (b.append (ch.cons a)).info.namedBy cs x = b.info.namedBy cs x ++ ch.node :: a.info.namedBy cs x := by
  rw [append_namedBy, Info.namedBy, Info.namedBy, cons_elems, List.filter_cons, if_pos (by exact hm)]; rfl

theorem child_othersBy {cs : Bool} {x : Bytes} {b a : Forest} {ch : El} (hm : agrees cs x ch.name = true) :
    (b.append (ch.cons a)).info.elems.filter (fun nd => !agrees cs x nd.name) = (b.append a).info.elems.filter (fun nd => !agrees cs x nd.name) := by
  rw [append_elems, append_elems, cons_elems, List.filter_append, List.filter_append, List.filter_cons, if_neg (by rw [show ch.node.name = ch.name from rfl, hm]; simp)]

theorem text_elems (t : Bytes) (f : Forest) : (Forest.text t f).info.elems = f.info.elems := rfl

theorem besideBy_refl (cs : Bool) (x : Bytes) (e : El) : BesideBy cs x e e := ⟨rfl, rfl, rfl⟩
theorem besideBy_trans {cs : Bool} {x : Bytes} {e f g : El} (h1 : BesideBy cs x e f) (h2 : BesideBy cs x f g) : BesideBy cs x e g :=
  ⟨h2.name.trans h1.name, h2.attrs.trans h1.attrs, h2.others.trans h1.others⟩

theorem kids_bodyBy {cs : Bool} {e : El} {x : Bytes} (h : e.kids.info.namedBy cs x ≠ []) : e.body ≠ none := by
  obtain ⟨n, as, ws, body⟩ := e
  rcases body with _ | ⟨k, cws⟩
  · simp [El.kids, Forest.info, Info.namedBy, Info.elems] at h
  · simp

theorem position_no_attr {y : Bytes} (h : Position y) : ¬ AttrStep y := by
  rintro ⟨t, rfl⟩
  obtain ⟨-, -, h3⟩ := h
  have : c!"@" ∈ beforeBar (b!"@" ++ t) := by
    simp [beforeBar]
  have := h3 _ this
  revert this
  decide

theorem spelling_len (cs : Bool) (x : Bytes) : (spelling cs x).length = x.length := by
  cases cs <;> simp [spelling, foldCase_eq, toLowerASCII]

theorem newLine_len (ind : Bytes) (d : Nat) (hd : d ≤ 100) : (newLine ind d).length ≤ 1 + 100 * ind.length := by
  unfold newLine
  split
  · simp
  · have h1 : d * ind.length ≤ 100 * ind.length := Nat.mul_le_mul_right _ hd
    simp only [List.length_append, List.length_flatten, List.map_replicate, List.sum_replicate_nat]
    simp only [List.length_cons, List.length_nil]
    omega

/-- One operation. -/
theorem groupBy_step {cs : Bool} {x : Bytes} (hx : IsName x) {c : Ctx} {e : El} {l : List Bytes} (h : GroupBy cs x c e l) {q : ListCall} (hq : q.Meant cs x c e.name) (hp : q.op.Fits l) :
    ∃ e' : El, BesideBy cs x e e' ∧ (q.opts.indent = [] → e'.kids.info.ownText = e.kids.info.ownText) ∧
      (e.body ≠ none → e'.body ≠ none ∧ (c.plug (e'.cons .nil)).render.length ≤ (c.plug (e.cons .nil)).render.length + q.cost x) ∧
      ((c.plug (e'.cons .nil)).render.length ≤ 10485760 →
        q.run (c.plug (e.cons .nil)).render = .ret ((c.plug (e'.cons .nil)).render, none) ∧ GroupBy cs x c e' (q.op.on l)) ∧
      (q.run (c.plug (e.cons .nil)).render = .ret ((c.plug (e'.cons .nil)).render, none) ∨
        q.run (c.plug (e.cons .nil)).render = .ret ((c.plug (e.cons .nil)).render, some .invalidValue)) := by
  obtain ⟨hd, hfull, hlist⟩ := h
  obtain ⟨o, p, opts, op⟩ := q
  obtain ⟨ho, rfl, hind, ss, y, hL, hps, hy⟩ := hq
  simp only at ho hp hy hL hind hps hfull hlist ⊢
  obtain ⟨s1, s2, -⟩ := isName_step hx
  have hg := editable_el hd
  obtain ⟨g1, g2, g3, g4⟩ := el_kids_good hg
  have hes : ∀ s, (escapeXML s).length = storedSize (.str s) := fun s => valueToXML_size (v := .str s) rfl
  have hmem : ∀ j, j < l.length → ∃ (b : Forest) (ch : El) (a : Forest), e.kids = b.append (ch.cons a) ∧ agrees opts.caseSensitive x ch.name = true ∧
      (b.info.namedBy opts.caseSensitive x).length = j := by
    intro j hj
    rw [← hlist, List.length_map] at hj
    obtain ⟨b, ch, a, q1, q2, q3, -⟩ := nth_namedBy (List.getElem?_eq_getElem hj)
    exact ⟨b, ch, a, q1, q2, q3⟩
  -- a member in its place
  have hchild : ∀ j, j < l.length → Position y → (∃ i, Place (beforeBar y) (some i) ∧ min i (2 ^ 63 - 1) = j) →
      ∃ (b : Forest) (ch : El) (a : Forest) (cws : Bytes), e.body ≠ none ∧ e.kids = b.append (ch.cons a) ∧ agrees opts.caseSensitive x ch.name = true ∧ (b.info.namedBy opts.caseSensitive x).length = j ∧
        (∀ z : Forest, (down c e.name e.attrs e.ws cws (.here b a)).plug z = c.plug ((reKids e (b.append (z.append a))).cons .nil)) ∧
        (down c e.name e.attrs e.ws cws (.here b a)).plug (ch.cons .nil) = c.plug (e.cons .nil) ∧
        LeadTo opts.caseSensitive (ss ++ [x, y]) (down c e.name e.attrs e.ws cws (.here b a)) ch.name := by
    rintro j hj hpos ⟨i, hi1, hi2⟩
    obtain ⟨b, ch, a, hk, hm, hb3⟩ := hmem j hj
    have hbody : e.body ≠ none := kids_bodyBy (cs := opts.caseSensitive) (x := x) (by intro hh; rw [hh] at hlist; subst hlist; simp at hj)
    obtain ⟨cws, hcp⟩ := child_plug (c := c) hbody (b := b) (a := a)
    have he : reKids e e.kids = e := by
      obtain ⟨n, as, ws, body⟩ := e
      rcases body with _ | ⟨k, cws⟩ <;> rfl
    refine ⟨b, ch, a, cws, hbody, hk, hm, hb3, hcp, ?_, ?_⟩
    · rw [hcp, cons_append]; rw [show Forest.append .nil a = a from rfl, ← hk, he]
    · obtain ⟨hs, ht, hr⟩ := hL
      exact ⟨_, trail_snoc_nth ht s1 hpos hi1, reach_down hr ⟨by rw [s2]; exact hm, by rw [s2, hi2]; exact hb3⟩⟩
  cases op with
  | push s =>
    obtain ⟨k1, k2, hk, hal⟩ := afterLast_existsB (cs := opts.caseSensitive) x e.kids
    obtain ⟨as, ws, h1, h2⟩ := C91_append ho opts hd hps s1 hy hL
    have hm : agrees opts.caseSensitive x (plainEl (spelling opts.caseSensitive x) (escapeXML s)).name = true := agrees_spelled _ _
    have hk2 : k2.info.namedBy opts.caseSensitive x = [] := by
      rcases hal with ⟨-, -, -, -, hn⟩ | ⟨-, rfl⟩
      · exact hn
      · rfl
    obtain ⟨r, r1, r2⟩ := h2 k1 k2 hk (by rw [s2]; exact hal) (.str s) (escapeXML s) (by simp) rfl (by rw [hes]; exact hp)
    have e1 := (appended_plug (c := c) (e := e) (as := as) (ws := ws) (nl := leadIn opts.indent ss.length k1) (n := spelling opts.caseSensitive x) (w := escapeXML s) (k1 := k1) (k2 := k2)).1
    rw [s2] at r1
    have r3 : r = (c.plug ((e.refill as ws (appended (leadIn opts.indent ss.length k1) (spelling opts.caseSensitive x) (escapeXML s) k1 k2)).cons .nil)).render := by rw [e1, r1]; rfl
    clear r1
    subst r3
    refine ⟨e.refill as ws (appended (leadIn opts.indent ss.length k1) (spelling opts.caseSensitive x) (escapeXML s) k1 k2), ⟨rfl, ?_, ?_⟩, fun h0 => ?_, fun hb => ⟨by simp [El.refill], ?_⟩, fun hsz => ⟨?_, ?_, ?_, ?_⟩, ?_⟩
    · by_cases hb : e.body = none
      · exact (h1.anew hb).2.2.1
      · show Spec.attrVal as = _
        rw [(h1.kept hb).1]
    · rw [refill_kids, hk, appended]
      have : (k1.append (.text (leadIn opts.indent ss.length k1) ((plainEl (spelling opts.caseSensitive x) (escapeXML s)).cons k2))).info.elems =
          (k1.append ((plainEl (spelling opts.caseSensitive x) (escapeXML s)).cons k2)).info.elems := by rw [append_elems, append_elems]; rfl
      rw [this, child_othersBy hm]
    · have : leadIn opts.indent ss.length k1 = [] := by simp [leadIn, newLine, h0]
      rw [refill_kids, hk, appended, own_append, own_append, this]
      simp only [Forest.info, Info.ownText, own_cons]
      simp
    · obtain ⟨rfl, rfl⟩ := h1.kept hb
      have := group_ends hd (k := e.kids) hb
      have he : reKids e e.kids = e := by
        obtain ⟨n, as, ws, body⟩ := e
        rcases body with _ | ⟨k, cws⟩ <;> rfl
      rw [he] at this
      have hq := hes s
      have hss : ss.length ≤ 100 := by
        have := pathSteps_short hps
        simp only [List.length_append, List.length_cons, List.length_nil] at this
        omega
      have hnl : (leadIn opts.indent ss.length k1).length ≤ 1 + 100 * opts.indent.length := by
        unfold leadIn
        split
        · simp
        · exact newLine_len _ _ hss
      rw [e1]
      conv => rhs; rw [this]
      rw [plug_el_render]
      simp only [El.refill, El.start, El.inner, El.stop, hk, append_render, ← wrapElem_render, wrapElem]
      simp only [ListCall.cost, ListOp.cost]
      simp [spelling_len]
      omega
    · exact r2.trans (if_neg (by omega))
    · have hh := (appended_here (cs := opts.caseSensitive) hind hd hps s1 (by rw [s2]; exact hx) hL h1 hk (by rw [s2]; exact hal) (C20_no_markup s) rfl (by rw [s2]; exact hsz)).1
      rw [s2] at hh
      exact hh
    · rw [refill_kids, appended, fullBy_append]
      rw [hk, fullBy_append] at hfull
      exact ⟨hfull.1, (fullBy_cons _ _ _ _).mpr ⟨by simp [plainEl], hfull.2⟩⟩
    · rw [refill_kids, appended, append_namedBy]
      rw [hk, append_namedBy, hk2, List.append_nil] at hlist
      have : (Forest.text (leadIn opts.indent ss.length k1) ((plainEl (spelling opts.caseSensitive x) (escapeXML s)).cons k2)).info.namedBy opts.caseSensitive x =
          (Forest.append .nil ((plainEl (spelling opts.caseSensitive x) (escapeXML s)).cons k2)).info.namedBy opts.caseSensitive x := rfl
      rw [this, child_namedBy hm, hk2, List.map_append, hlist]
      have := plain_value s
      simp only [Forest.info] at this
      simp [ListOp.on, El.node, plainEl, this, Forest.info, Info.namedBy, Info.elems]
    · by_cases hc : e.body ≠ none ∧ (c.plug ((e.refill as ws (appended (leadIn opts.indent ss.length k1) (spelling opts.caseSensitive x) (escapeXML s) k1 k2)).cons .nil)).render.length > 10485760
      · exact .inr (r2.trans (if_pos hc))
      · exact .inl (r2.trans (if_neg hc))
  | put j s =>
    obtain ⟨hj, hsz0⟩ := hp
    obtain ⟨b, ch, a, cws, hbody, hk, hm, hb3, hcp, hwhole, hL2⟩ := hchild j hj hy.1 hy.2
    have hchb : ch.body ≠ none := by
      rw [hk, fullBy_append, fullBy_cons] at hfull
      exact hfull.2.1 hm
    have hd2 := hd
    rw [← hwhole] at hd2
    have hset := C79_set ho opts hd2 hps hL2 (v := .str s) (w := escapeXML s) (by simp) rfl (by rw [hes]; exact hsz0)
    rw [← fill_render hchb, hwhole] at hset
    have hfill : (down c e.name e.attrs e.ws cws (.here b a)).plug ((ch.fill (escapeXML s)).cons .nil) = c.plug ((reKids e (b.append ((ch.fill (escapeXML s)).cons a))).cons .nil) := by
      rw [hcp, cons_append]; rfl
    have hm2 : agrees opts.caseSensitive x (ch.fill (escapeXML s)).name = true := hm
    refine ⟨reKids e (b.append ((ch.fill (escapeXML s)).cons a)), ⟨rfl, rfl, ?_⟩, fun _ => ?_, fun _ => ⟨by simpa [reKids] using hbody, ?_⟩, fun hsz => ⟨?_, ?_, ?_, ?_⟩, ?_⟩
    · rw [rekids_kids hbody, hk, child_othersBy hm, child_othersBy hm2]
    · rw [rekids_kids hbody, hk, own_append, own_append, own_cons, own_cons]
    · have hq := hes s
      rw [← hfill, fill_render hchb, ← hwhole, plug_el_render]
      simp [ListCall.cost, ListOp.cost]; omega
    · rw [← hfill]; exact hset
    · rw [← hfill] at hsz ⊢
      exact editable_fill hd2 hchb (C20_no_markup s) (by rw [← fill_render hchb]; exact hsz)
    · rw [rekids_kids hbody, fullBy_append, fullBy_cons]
      rw [hk, fullBy_append, fullBy_cons] at hfull
      exact ⟨hfull.1, fun _ => by simpa [El.fill] using hchb, hfull.2.2⟩
    · rw [rekids_kids hbody, child_namedBy hm2]
      rw [hk, child_namedBy hm] at hlist
      subst hlist hb3
      simp only [List.map_append, List.map_cons, ListOp.on]
      rw [List.set_append_right _ _ (by simp)]
      congr 1
      simp only [List.length_map, Nat.sub_self, List.set_cons_zero]
      congr 1
      obtain ⟨m, as, ws, body⟩ := ch
      rcases body with _ | ⟨k, cws⟩
      · exact absurd rfl hchb
      · simp only [El.fill, El.node, Option.map_some, plain_value]
    · rw [← hfill]; exact .inl hset
  | drop j =>
    by_cases hj : j < l.length
    · obtain ⟨b, ch, a, cws, hbody, hk, hm, hb3, hcp, hwhole, hL2⟩ := hchild j hj hy.1 hy.2
      have hd2 := hd
      rw [← hwhole] at hd2
      have hnil : (down c e.name e.attrs e.ws cws (.here b a)).before ++ (down c e.name e.attrs e.ws cws (.here b a)).after =
          (c.plug ((reKids e (b.append a)).cons .nil)).render := by
        have := plug_render (down c e.name e.attrs e.ws cws (.here b a)) .nil
        rw [hcp, show Forest.append .nil a = a from rfl] at this
        simpa [Forest.render] using this.symm
      have hne : (c.plug ((reKids e (b.append a)).cons .nil)).render ≠ [] := by
        rw [plug_el_render]; simp [El.start, openTag]
      have hsz : (c.plug ((reKids e (b.append a)).cons .nil)).render.length ≤ (c.plug (e.cons .nil)).render.length := by
        rw [← hnil, ← hwhole, plug_render]; simp
      have hed : Editable (c.plug ((reKids e (b.append a)).cons .nil)) := by
        have := editable_swap hd2 (y := .nil) trivial trivial trivial (fun _ => trivial)
          (by rw [hcp]; exact plug_hasElem_of (cons_hasElem _ _)) (by rw [hcp]; exact Nat.le_trans hsz hd.1)
        rw [hcp] at this
        exact this
      have hdel := C79_delete ho opts hd2 hps hL2
      rw [hnil, if_neg hne, hwhole] at hdel
      refine ⟨reKids e (b.append a), ⟨rfl, rfl, ?_⟩, fun _ => ?_, fun _ => ⟨by simpa [reKids] using hbody, Nat.le_trans hsz (Nat.le_add_right _ _)⟩, fun _ => ⟨hdel, hed, ?_, ?_⟩, .inl hdel⟩
      · rw [rekids_kids hbody, hk, child_othersBy hm]
      · rw [rekids_kids hbody, hk, own_append, own_append, own_cons]
      · rw [rekids_kids hbody, fullBy_append]
        rw [hk, fullBy_append, fullBy_cons] at hfull
        exact ⟨hfull.1, hfull.2.2⟩
      · rw [rekids_kids hbody, append_namedBy]
        rw [hk, child_namedBy hm] at hlist
        subst hlist hb3
        simp only [List.map_append, List.map_cons, ListOp.on]
        rw [List.eraseIdx_append_of_length_le (by simp)]
        simp
    · obtain ⟨hpos, i, hi1, hi2⟩ := hy
      have hno : LeadNowhere opts.caseSensitive (ss ++ [x, y]) (c.plug (e.cons .nil)) := by
        obtain ⟨hs, ht, hr⟩ := hL
        refine nowhere_spot (trail_snoc_nth ht s1 hpos hi1) ?_
        rw [spot_append opts.caseSensitive (reach_ne hr) (by simp), reach_spot hr, Option.bind_some, el_node_kids, s2, hi2]
        rw [← hlist, List.length_map] at hj
        show (e.kids.info.namedBy opts.caseSensitive x)[j]? = none
        exact List.getElem?_eq_none_iff.mpr (by omega)
      have hdel : deleteWithOptions o (c.plug (e.cons .nil)).render p (some opts) = .ret ((c.plug (e.cons .nil)).render, none) :=
        C79_delete_nowhere ho opts (editable_sound hd) hps (by simp) hno (by
          intro z hz
          simp at hz
          subst hz
          exact position_no_attr hpos)
      refine ⟨e, besideBy_refl _ x e, fun _ => rfl, fun hb => ⟨hb, Nat.le_add_right _ _⟩, fun _ => ⟨hdel, hd, hfull, ?_⟩, .inl hdel⟩
      rw [ListOp.on, List.eraseIdx_of_length_le (by omega)]; exact hlist

/-- C93: the elements of one name in an element are a list: a Set whose path ends in `x.-1` adds a text at the end of the list of their texts, one whose path ends in `x.j`
replaces that of index `j`, and such a Delete removes it (or changes nothing when there is none). This holds for every path that leads to the element, and with any options; without
them telling to compare exactly, the elements of all spellings of the name are in the list. The element keeps its name, attributes and other children, and its text as well if there is
no indentation. (White space around texts is not part of them. Nothing is done if the result would be too long.) -/
theorem C93_step {cs : Bool} {x : Bytes} (hx : IsName x) {c : Ctx} {e : El} {l : List Bytes} (h : GroupBy cs x c e l) {q : ListCall} (hq : q.Meant cs x c e.name) (hp : q.op.Fits l) :
    ∃ e' : El, BesideBy cs x e e' ∧ (q.opts.indent = [] → e'.kids.info.ownText = e.kids.info.ownText) ∧
      ((c.plug (e'.cons .nil)).render.length ≤ 10485760 →
        q.run (c.plug (e.cons .nil)).render = .ret ((c.plug (e'.cons .nil)).render, none) ∧ GroupBy cs x c e' (q.op.on l)) ∧
      (q.run (c.plug (e.cons .nil)).render = .ret ((c.plug (e'.cons .nil)).render, none) ∨
        q.run (c.plug (e.cons .nil)).render = .ret ((c.plug (e.cons .nil)).render, some .invalidValue)) := by
  obtain ⟨e', h1, h2, -, h3, h4⟩ := groupBy_step hx h hq hp
  exact ⟨e', h1, h2, h3, h4⟩

/-- C93: any number of such calls, each with its own path and options, does to the elements what the operations do to a list. -/
theorem C93_run {cs : Bool} {x : Bytes} (hx : IsName x) {c : Ctx} (qs : List ListCall) {e : El} {l : List Bytes} (h : GroupBy cs x c e l) (hq : ∀ q ∈ qs, q.Meant cs x c e.name)
    (hp : ListOp.FitAll (qs.map (·.op)) l) {r : Bytes} (hr : ListCall.runAll (c.plug (e.cons .nil)).render qs = some r) :
    ∃ e' : El, r = (c.plug (e'.cons .nil)).render ∧ GroupBy cs x c e' (ListOp.onAll (qs.map (·.op)) l) ∧ BesideBy cs x e e' ∧
      ((∀ q ∈ qs, q.opts.indent = []) → e'.kids.info.ownText = e.kids.info.ownText) := by
  induction qs generalizing e l with
  | nil =>
    simp only [ListCall.runAll, Option.some.injEq] at hr
    exact ⟨e, hr.symm, h, besideBy_refl cs x e, fun _ => rfl⟩
  | cons q qs ih =>
    obtain ⟨e1, k1, kt, -, k3, k4⟩ := groupBy_step hx h (hq q (by simp)) hp.1
    rw [ListCall.runAll] at hr
    rcases k4 with k4 | k4
    · rw [k4] at hr
      simp only at hr
      split at hr
      · rename_i hsz
        obtain ⟨e2, q1, q2, q3, q4⟩ := ih (k3 hsz).2 (fun q' hm => by rw [k1.name]; exact hq q' (by simp [hm])) hp.2 hr
        exact ⟨e2, q1, q2, besideBy_trans k1 q3, fun hi => (q4 fun q' hm => hi q' (by simp [hm])).trans (kt (hi q (by simp)))⟩
      · cases hr
    · rw [k4] at hr; cases hr

/-- C93: and they all succeed while there is room. -/
theorem C93_room {cs : Bool} {x : Bytes} (hx : IsName x) {c : Ctx} (qs : List ListCall) {e : El} {l : List Bytes} (h : GroupBy cs x c e l) (hb : e.body ≠ none) (hq : ∀ q ∈ qs, q.Meant cs x c e.name)
    (hp : ListOp.FitAll (qs.map (·.op)) l) (hroom : (c.plug (e.cons .nil)).render.length + (qs.map (·.cost x)).sum ≤ 10485760) :
    ∃ r, ListCall.runAll (c.plug (e.cons .nil)).render qs = some r := by
  induction qs generalizing e l with
  | nil => exact ⟨_, rfl⟩
  | cons q qs ih =>
    obtain ⟨e1, k1, -, k2, k3, -⟩ := groupBy_step hx h (hq q (by simp)) hp.1
    obtain ⟨k2, k5⟩ := k2 hb
    rw [List.map_cons, List.sum_cons] at hroom
    have hsz : (c.plug (e1.cons .nil)).render.length ≤ 10485760 := by omega
    obtain ⟨k6, k7⟩ := k3 hsz
    obtain ⟨r, hr⟩ := ih k7 k2 (fun q' hm => by rw [k1.name]; exact hq q' (by simp [hm])) hp.2 (by omega)
    refine ⟨r, ?_⟩
    rw [ListCall.runAll, k6]
    simp only [if_pos hsz]
    exact hr

/-- C93: the list as Get reads it, through every path that leads Get first to where it leads Set. -/
theorem C93_read (env : Env) (ho : env.ord.IsPerm) (opts : Options) {x : Bytes} (hx : IsName x) {c : Ctx} {e : El} {l : List Bytes} (h : GroupBy opts.caseSensitive x c e l) {ss : List Bytes} {y p : Bytes}
    (hL : LeadTo opts.caseSensitive ss c e.name) (hps : PathSteps p (ss ++ [x, y])) (hb : c!"|" ∉ p) (hy : Position y) (ha : Ahead (ss ++ [x, y])) {j : Nat} (hj : Place y (some j)) {t : Bytes}
    (ht : l[j]? = some t) :
    ∃ a r, getWithOptions env (c.plug (e.cons .nil)).render p (some opts) = .ret a ∧ a.array.head? = some r ∧ r.typ = .element ∧ r.toStr = t := by
  obtain ⟨hd, -, hlist⟩ := h
  obtain ⟨s1, s2, -⟩ := isName_step hx
  have hj1 : j < 1000 := ha.small y (by simp) hy j hj
  have hby : beforeBar y = y := by
    have : c!"|" ∉ y := fun hc => hb ((steps_bytes hps (show y ∈ ss ++ [x, y] by simp)).1 _ hc)
    exact beforeBar_plain this
  rw [← hlist, List.getElem?_map] at ht
  cases hnd : (e.kids.info.namedBy opts.caseSensitive x)[j]? with
  | none => rw [hnd] at ht; cases ht
  | some nd =>
    rw [hnd] at ht
    simp only [Option.map_some, Option.some.injEq] at ht
    obtain ⟨b, ch, a, hk, hm, hb3, rfl⟩ := nth_namedBy hnd
    have hbody : e.body ≠ none := kids_bodyBy (cs := opts.caseSensitive) (x := x) (by intro hh; rw [hh] at hnd; cases hnd)
    obtain ⟨cws, hcp⟩ := child_plug (c := c) hbody (b := b) (a := a)
    have he : reKids e e.kids = e := by
      obtain ⟨n, as, ws, body⟩ := e
      rcases body with _ | ⟨k, cws⟩ <;> rfl
    have hwhole : (down c e.name e.attrs e.ws cws (.here b a)).plug (ch.cons .nil) = c.plug (e.cons .nil) := by
      rw [hcp, cons_append]; rw [show Forest.append .nil a = a from rfl, ← hk, he]
    have hL2 : LeadTo opts.caseSensitive (ss ++ [x, y]) (down c e.name e.attrs e.ws cws (.here b a)) ch.name := by
      obtain ⟨hs, ht, hr⟩ := hL
      exact ⟨_, trail_snoc_nth ht s1 hy (by rw [hby]; exact hj), reach_down hr ⟨by rw [s2]; exact hm, by
        rw [s2, show min j (2 ^ 63 - 1) = j by omega]; exact hb3⟩⟩
    have hd2 := hd
    rw [← hwhole] at hd2
    obtain ⟨a', r, k1, k2, k3⟩ := C89_place env ho opts (editable_sound hd2) hps hb ha hL2
    rw [hwhole] at k1
    exact ⟨a', r, k1, k2, k3.typ, k3.str.trans ht⟩

/-- C93: deleting the first one as often as there are elements deletes all of them, and nothing else, whatever paths and options are used. -/
theorem C93_clear {cs : Bool} {x : Bytes} (hx : IsName x) {c : Ctx} {e : El} {l : List Bytes} (h : GroupBy cs x c e l) (qs : List ListCall) (hq : ∀ q ∈ qs, q.Meant cs x c e.name)
    (hall : qs.map (·.op) = List.replicate l.length (.drop 0)) :
    ∃ e' : El, ListCall.runAll (c.plug (e.cons .nil)).render qs = some (c.plug (e'.cons .nil)).render ∧ e'.kids.info.namedBy cs x = [] ∧ BesideBy cs x e e' := by
  have hfit : ListOp.FitAll (qs.map (·.op)) l := by rw [hall]; exact fitAll_drop l.length l
  by_cases hb : e.body = none
  · have hk : e.kids = .nil := by simp [El.kids, hb]
    have hl0 : l = [] := by rw [← h.list, hk]; rfl
    subst hl0
    have : qs = [] := List.map_eq_nil_iff.mp hall
    subst this
    exact ⟨e, rfl, by rw [hk]; rfl, besideBy_refl cs x e⟩
  · have hcost : ∀ q ∈ qs, q.cost x = 0 := by
      intro q hm
      have := List.mem_map_of_mem (f := fun q : ListCall => q.op) hm
      rw [hall] at this
      rw [ListCall.cost, List.eq_of_mem_replicate this]; rfl
    obtain ⟨r, hr⟩ := C93_room hx qs h hb hq hfit (by
      have : (qs.map (·.cost x)).sum = 0 := by
        clear hall hfit hq
        induction qs with
        | nil => rfl
        | cons q qs ih => rw [List.map_cons, List.sum_cons, hcost q (by simp), ih fun q hm => hcost q (by simp [hm])]
      rw [this]; exact h.doc.1)
    obtain ⟨e', rfl, h2, h3, -⟩ := C93_run hx qs h hq hfit hr
    rw [hall, onAll_drop, List.drop_length] at h2
    exact ⟨e', hr, List.map_eq_nil_iff.mp h2.list, h3⟩

/-! ### cases -/

/-- `<R><a/><A k="v">t<b>1</b><d/><B>2</B></A></R>`, with the elements `b` of the second `a`. -/
def groupCtx : Ctx := .within .nil b!"R" [] [] (.here (.leaf b!"a" [] [] .nil) .nil) [] .nil
def groupEl : El := ⟨b!"A", [⟨b!" ", b!"k", [], [], c!"\"", b!"v"⟩], [], some (.text b!"t" (.node b!"b" [] [] (.text b!"1" .nil) []
  (.leaf b!"d" [] [] (.node b!"B" [] [] (.text b!"2" .nil) [] .nil))), [])⟩

example : (groupCtx.plug (groupEl.cons .nil)).render = b!"<R><a/><A k=\"v\">t<b>1</b><d/><B>2</B></A></R>" := by decide +kernel

theorem groupEl_is : GroupBy false b!"b" groupCtx groupEl [b!"1", b!"2"] :=
  ⟨editable_of (by decide +kernel), by simp [groupEl, El.kids, Forest.FullBy]; decide +kernel, by decide +kernel⟩

/-- Three calls, through different paths, with different options. -/
def groupCalls : List ListCall :=
  [⟨exEnv.ord, b!"*.A.1.b.-1", inOpts, .push b!" <3> "⟩, ⟨exEnv.ord, b!"r.a.1.b.0", ciOpts, .drop 0⟩, ⟨exEnv.ord, b!"*.A.1.b.1", ciOpts, .put 1 b!"4"⟩]

example : ListOp.onAll (groupCalls.map (·.op)) [b!"1", b!"2"] = [b!"2", b!"4"] := by decide +kernel

theorem groupTrail : Trail [b!"r", b!"a", b!"1"] (some [(.name b!"r", 0), (.name b!"a", 1)]) :=
  .first (t := some _) (.name (name_step (by decide))) (by intro d hd; simp at hd; subst hd; exact fun h => absurd h (by unfold Position; decide +kernel))
    (.nth (t := some _) (j := 1) (.name (name_step (by decide))) (by unfold Position; decide +kernel) (.number (ds := b!"1") (rest := []) rfl (.digit 49 (by decide)) (.inl rfl)) .nil)

theorem groupLead : LeadTo false [b!"*", b!"A", b!"1"] groupCtx groupEl.name := ⟨_, exDeep_trail, rfl, by decide +kernel, by decide +kernel, by decide +kernel⟩

theorem groupCalls_meant : ∀ q ∈ groupCalls, q.Meant false b!"b" groupCtx groupEl.name := by
  have hi : ∀ y : Bytes, y = b!"0" ∨ y = b!"1" → Position y := by
    rintro y (rfl | rfl) <;> unfold Position <;> decide +kernel
  intro q hq
  simp only [groupCalls, List.mem_cons, List.not_mem_nil, or_false] at hq
  rcases hq with rfl | rfl | rfl
  · exact ⟨exEnv_perm, rfl, by decide, [b!"*", b!"A", b!"1"], b!"-1", groupLead, pathSteps_by (by decide) (by decide) (by decide +kernel) (by decide +kernel), exNeg⟩
  · exact ⟨exEnv_perm, rfl, by decide, [b!"r", b!"a", b!"1"], b!"0", ⟨_, groupTrail, by decide +kernel, by decide +kernel, by decide +kernel, by decide +kernel⟩,
      pathSteps_by (by decide) (by decide) (by decide +kernel) (by decide +kernel), hi _ (.inl rfl), 0, .number (ds := b!"0") (rest := []) rfl (.digit 48 (by decide)) (.inl rfl), rfl⟩
  · exact ⟨exEnv_perm, rfl, by decide, [b!"*", b!"A", b!"1"], b!"1", groupLead, pathSteps_by (by decide) (by decide) (by decide +kernel) (by decide +kernel), hi _ (.inr rfl), 1,
      .number (ds := b!"1") (rest := []) rfl (.digit 49 (by decide)) (.inl rfl), rfl⟩

/-- What they leave is a list again, of these texts. -/
example : ∃ r, ListCall.runAll b!"<R><a/><A k=\"v\">t<b>1</b><d/><B>2</B></A></R>" groupCalls = some r ∧ ∃ e', r = (groupCtx.plug (El.cons e' .nil)).render ∧
    GroupBy false b!"b" groupCtx e' [b!"2", b!"4"] ∧ BesideBy false b!"b" groupEl e' := by
  have hf : ListOp.FitAll (groupCalls.map (·.op)) [b!"1", b!"2"] := by simp only [groupCalls, List.map, ListOp.FitAll, ListOp.Fits]; decide +kernel
  have hd : (groupCtx.plug (groupEl.cons .nil)).render = b!"<R><a/><A k=\"v\">t<b>1</b><d/><B>2</B></A></R>" := by decide +kernel
  obtain ⟨r, hr⟩ := C93_room (isName_of (by decide) (by decide)) groupCalls groupEl_is (by decide) groupCalls_meant hf (by decide +kernel)
  have hl : ListOp.onAll (groupCalls.map (·.op)) [b!"1", b!"2"] = [b!"2", b!"4"] := by decide +kernel
  rw [← hl, ← hd]
  obtain ⟨e', h1, h2, h3, -⟩ := C93_run (isName_of (by decide) (by decide)) groupCalls groupEl_is groupCalls_meant hf hr
  exact ⟨r, hr, e', h1, h2, h3⟩

/-- C93: the document itself; and what is left out: a member written as one tag is not replaced, the text lands behind it. -/
theorem C93_witness :
    ListCall.runAll b!"<R><a/><A k=\"v\">t<b>1</b><d/><B>2</B></A></R>" groupCalls = some b!"<R><a/><A k=\"v\">t<d/><B>2</B>\n      <b>4</b></A></R>" ∧
    setWithOptions exEnv.ord b!"<R><a/><A><b>1</b><B/></A></R>" b!"r.*.1.b.1" (.str b!"2") (some ciOpts) = .ret (b!"<R><a/><A><b>1</b><B/>2</A></R>", none) := by
  refine ⟨by decide +kernel, by decide +kernel⟩

end Verif.Props
