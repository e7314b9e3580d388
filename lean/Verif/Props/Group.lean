import Verif.Spec.Group
import Verif.Props.Append
import Verif.Props.SetTyped
import Verif.Lemmas.Trim
import Verif.Lemmas.Errors
/- C70: the elements of one name in an element are a list, to which Set and Delete add, replace and remove. -/
namespace Verif.Props
open Verif Verif.Spec

/-- The call for an operation on the elements `x` below the names. -/
def callOf (o : Ord) (ns : List Bytes) (x xml : Bytes) : ListOp → Outcome (Bytes × Option Err)
  | .push s => set o xml (pathOf (ns ++ [x, b!"-1"])) (.str s)
  | .put j s => set o xml (pathOf (ns ++ [x, natDec j])) (.str s)
  | .drop j => delete o xml (pathOf (ns ++ [x, natDec j]))

theorem nth_named {x : Bytes} {k : Forest} {j : Nat} {nd : Node} (h : (k.info.named x)[j]? = some nd) :
    ∃ (b : Forest) (ch : El) (a : Forest), k = b.append (ch.cons a) ∧ nameMatches x ch.name = true ∧ (b.info.named x).length = j ∧ ch.node = nd := by
  induction k generalizing j with
  | nil => simp [Forest.info, Info.named, Info.elems] at h
  | text t next ih =>
    obtain ⟨b, ch, a, rfl, h2, h3, h4⟩ := ih (j := j) (by simpa [Forest.info, Info.named, Info.elems] using h)
    exact ⟨.text t b, ch, a, rfl, h2, by simpa [Forest.info, Info.named, Info.elems] using h3, h4⟩
  | misc t next ih =>
    obtain ⟨b, ch, a, rfl, h2, h3, h4⟩ := ih (j := j) (by simpa [Forest.info, Info.named, Info.elems] using h)
    exact ⟨.misc t b, ch, a, rfl, h2, by simpa [Forest.info, Info.named, Info.elems] using h3, h4⟩
  | leaf n as ws next ih =>
    by_cases hm : nameMatches x n = true
    · cases j with
      | zero => exact ⟨.nil, ⟨n, as, ws, none⟩, next, rfl, hm, rfl, by simpa [Forest.info, Info.named, Info.elems, hm, El.node] using h⟩
      | succ j =>
        obtain ⟨b, ch, a, rfl, h2, h3, h4⟩ := ih (j := j) (by simpa [Forest.info, Info.named, Info.elems, hm] using h)
        exact ⟨.leaf n as ws b, ch, a, rfl, h2, by simpa [Forest.info, Info.named, Info.elems, hm] using h3, h4⟩
    · obtain ⟨b, ch, a, rfl, h2, h3, h4⟩ := ih (j := j) (by simpa [Forest.info, Info.named, Info.elems, hm] using h)
      exact ⟨.leaf n as ws b, ch, a, rfl, h2, by simpa [Forest.info, Info.named, Info.elems, hm] using h3, h4⟩
  | node n as ws k cws next _ ih =>
    by_cases hm : nameMatches x n = true
    · cases j with
      | zero => exact ⟨.nil, ⟨n, as, ws, some (k, cws)⟩, next, rfl, hm, rfl, by simpa [Forest.info, Info.named, Info.elems, hm, El.node] using h⟩
      | succ j =>
        obtain ⟨b, ch, a, rfl, h2, h3, h4⟩ := ih (j := j) (by simpa [Forest.info, Info.named, Info.elems, hm] using h)
        exact ⟨.node n as ws k cws b, ch, a, rfl, h2, by simpa [Forest.info, Info.named, Info.elems, hm] using h3, h4⟩
    · obtain ⟨b, ch, a, rfl, h2, h3, h4⟩ := ih (j := j) (by simpa [Forest.info, Info.named, Info.elems, hm] using h)
      exact ⟨.node n as ws k cws b, ch, a, rfl, h2, by simpa [Forest.info, Info.named, Info.elems, hm] using h3, h4⟩

theorem full_append (x : Bytes) (f g : Forest) : (f.append g).Full x ↔ f.Full x ∧ g.Full x := by
  induction f <;> simp_all [Forest.append, Forest.Full, and_assoc]

theorem full_cons (x : Bytes) (e : El) (a : Forest) : (e.cons a).Full x ↔ (nameMatches x e.name = true → e.body ≠ none) ∧ a.Full x := by
  obtain ⟨n, as, ws, body⟩ := e
  rcases body with _ | ⟨k, cws⟩ <;> simp [El.cons, Forest.Full]

theorem own_append (f g : Forest) : (f.append g).info.ownText = f.info.ownText ++ g.info.ownText := by
  induction f <;> simp_all [Forest.append, Forest.info, Info.ownText]

theorem own_cons (e : El) (a : Forest) : (e.cons a).info.ownText = a.info.ownText := by
  obtain ⟨n, as, ws, body⟩ := e
  rcases body with _ | ⟨k, cws⟩ <;> simp [El.cons, Forest.info, Info.ownText]

/-- The element with other content, written as before. -/
def reKids (e : El) (k : Forest) : El := ⟨e.name, e.attrs, e.ws, e.body.map fun q => (k, q.2)⟩

/-- A child of the element in its surroundings. -/
theorem child_plug {c : Ctx} {e : El} (hb : e.body ≠ none) {b a : Forest} : ∃ cws, ∀ y : Forest,
    (down c e.name e.attrs e.ws cws (.here b a)).plug y = c.plug ((reKids e (b.append (y.append a))).cons .nil) := by
  obtain ⟨n, as, ws, body⟩ := e
  rcases body with _ | ⟨k, cws⟩
  · exact absurd rfl hb
  · refine ⟨cws, fun y => ?_⟩
    rw [down_plug]
    rfl

theorem rekids_kids {e : El} (hb : e.body ≠ none) (k : Forest) : (reKids e k).kids = k := by
  obtain ⟨n, as, ws, body⟩ := e
  rcases body with _ | ⟨k, cws⟩
  · exact absurd rfl hb
  · rfl

theorem kids_body {e : El} {x : Bytes} (h : e.kids.info.named x ≠ []) : e.body ≠ none := by
  obtain ⟨n, as, ws, body⟩ := e
  rcases body with _ | ⟨k, cws⟩
  · simp [El.kids, Forest.info, Info.named, Info.elems] at h
  · simp


theorem natDec_reads (n : Nat) : Decimal (natDec n) n := by
  have key : ∀ d : Nat, d < 10 → 48 ≤ UInt8.ofNat (48 + d) ∧ UInt8.ofNat (48 + d) ≤ 57 ∧ (UInt8.ofNat (48 + d)).toNat - 48 = d := by decide
  induction n using Nat.strongRecOn with
  | ind n ih =>
    rw [natDec]
    split
    · rename_i h
      obtain ⟨k1, k2, k3⟩ := key n h
      have := Decimal.digit (UInt8.ofNat (48 + n)) ⟨k1, k2⟩
      rwa [k3] at this
    · rename_i h
      obtain ⟨k1, k2, k3⟩ := key (n % 10) (by omega)
      have := Decimal.snoc (ih (n / 10) (by omega)) (d := UInt8.ofNat (48 + n % 10)) ⟨k1, k2⟩
      rw [k3] at this
      have e : 10 * (n / 10) + n % 10 = n := by omega
      rwa [e] at this

theorem follow_last {ns : List Bytes} {c : Ctx} {e : El} (hL : Leads (firsts ns) c e.name) (x : Bytes) (j : Nat) :
    (c.plug (e.cons .nil)).info.follow (firsts ns ++ [(x, j)]) = (e.kids.info.named x)[j]? := by
  have hf := leads_follow hL
  have hk : e.node.kids = e.kids.info := by
    obtain ⟨n, as, ws, body⟩ := e
    rcases body with _ | ⟨k, cws⟩ <;> rfl
  generalize (c.plug (e.cons .nil)).info = i at hf
  generalize firsts ns = ps at hf
  induction ps generalizing i with
  | nil => simp [Info.follow] at hf
  | cons p ps ih =>
    obtain ⟨n, k⟩ := p
    rw [List.cons_append, follow_cons _ _ _ (by simp)]
    by_cases hp : ps = []
    · subst hp
      rw [Info.follow] at hf
      rw [hf, Option.bind_some, hk]; rfl
    · rw [follow_cons _ _ _ hp] at hf
      cases hn : (i.named n)[k]? with
      | none => rw [hn] at hf; cases hf
      | some nd =>
        rw [hn, Option.bind_some] at hf
        rw [Option.bind_some]
        exact ih _ hf

theorem plain_value (s : Bytes) : (Forest.text (escapeXML s) .nil).info.textValue = trimSpace s := by
  have hf : (escapeXML s).filter (fun c => c ≠ c!">") = escapeXML s :=
    List.filter_eq_self.mpr (fun c hc => by simp; intro hh; exact (escapeXML_mem (hh ▸ hc)).2.1 rfl)
  simp only [Info.textValue, Forest.info, Info.allText, hf, List.append_nil, trim_escape, unescape_escape]

/-- The parts of a child that matches. -/
theorem child_named {x : Bytes} {b a : Forest} {ch : El} (hm : nameMatches x ch.name = true) :
    (b.append (ch.cons a)).info.named x = b.info.named x ++ ch.node :: a.info.named x := by
  rw [append_named, Info.named, Info.named, cons_elems, List.filter_cons, if_pos (by exact hm)]; rfl

theorem child_others {x : Bytes} {b a : Forest} {ch : El} (hm : nameMatches x ch.name = true) :
    (b.append (ch.cons a)).info.elems.filter (fun nd => !nameMatches x nd.name) = (b.append a).info.elems.filter (fun nd => !nameMatches x nd.name) := by
  rw [append_elems, append_elems, cons_elems, List.filter_append, List.filter_append, List.filter_cons, if_neg (by rw [show ch.node.name = ch.name from rfl, hm]; simp)]

theorem beside_refl (x : Bytes) (e : El) : Beside x e e := ⟨rfl, rfl, rfl, rfl⟩
theorem beside_trans {x : Bytes} {e f g : El} (h1 : Beside x e f) (h2 : Beside x f g) : Beside x e g :=
  ⟨h2.name.trans h1.name, h2.attrs.trans h1.attrs, h2.text.trans h1.text, h2.others.trans h1.others⟩

theorem refill_kids (e : El) (as : List Attr) (ws : Bytes) (k : Forest) : (e.refill as ws k).kids = k := rfl

theorem group_ends {c : Ctx} {e : El} (h : Editable (c.plug (e.cons .nil))) {k : Forest} (hb : e.body ≠ none) : reKids e k = e.refill e.attrs e.ws k := by
  have := fill_refill h hb []
  obtain ⟨n, as, ws, body⟩ := e
  rcases body with _ | ⟨k0, cws⟩
  · exact absurd rfl hb
  · simp only [El.fill, El.refill, Option.map_some, El.mk.injEq, Option.some.injEq, Prod.mk.injEq, true_and] at this
    simp [reKids, El.refill, this]

theorem elems_size (f : Forest) : f.info.elems.length ≤ f.render.length := by
  induction f <;> simp_all [Forest.info, Info.elems, Forest.render, openTag] <;> omega

/-- One operation. -/
theorem group_step {o : Ord} (ho : o.IsPerm) {ns : List Bytes} {x : Bytes} (hn : ∀ n ∈ ns, PlainName n) (hx : IsName x) (hl : ns.length ≤ 98)
    {c : Ctx} {e : El} {l : List Bytes} (h : Group ns x c e l) {p : ListOp} (hp : p.Fits l) :
    ∃ e' : El, Beside x e e' ∧
      (e.body ≠ none → e'.body ≠ none ∧ (c.plug (e'.cons .nil)).render.length ≤ (c.plug (e.cons .nil)).render.length +
        p.cost x) ∧
      ((c.plug (e'.cons .nil)).render.length ≤ 10485760 →
        callOf o ns x (c.plug (e.cons .nil)).render p = .ret ((c.plug (e'.cons .nil)).render, none) ∧ Group ns x c e' (p.on l)) ∧
      (callOf o ns x (c.plug (e.cons .nil)).render p = .ret ((c.plug (e'.cons .nil)).render, none) ∨
        callOf o ns x (c.plug (e.cons .nil)).render p = .ret ((c.plug (e.cons .nil)).render, some .invalidValue)) := by
  obtain ⟨hd, hL, hfull, hlist⟩ := h
  have hnl : ns ≠ [] := by rintro rfl; simp [firsts, Leads] at hL
  have hg := editable_el hd
  obtain ⟨g1, g2, g3, g4⟩ := el_kids_good hg
  have hdep := leads_depth hL
  simp only [firsts, List.length_map] at hdep
  have hes : ∀ s, (escapeXML s).length = storedSize (.str s) := fun s => valueToXML_size (v := .str s) rfl
  -- the position of a member
  have hmem : ∀ j, j < l.length → ∃ (b : Forest) (ch : El) (a : Forest), e.kids = b.append (ch.cons a) ∧ nameMatches x ch.name = true ∧
      (b.info.named x).length = j := by
    intro j hj
    rw [← hlist, List.length_map] at hj
    obtain ⟨b, ch, a, q1, q2, q3, -⟩ := nth_named (List.getElem?_eq_getElem hj)
    exact ⟨b, ch, a, q1, q2, q3⟩
  have hstep : ∀ j, j < 2 ^ 63 → StepsText (firsts ns ++ [(x, j)]) (ns ++ [x, natDec j]) := fun j hj =>
    stepsText_append (stepsText_names hn) (.index (name_plain hx) (natDec_reads j) hj .nil)
  cases p with
  | push s =>
    obtain ⟨as, ws, h1, h2⟩ := set_append ho (stepsText_names hn) hl hL hd
    obtain ⟨k1, k2, hk, hal⟩ := afterLast_exists x e.kids
    have hs := h2 x (name_plain hx) k1 k2 hk hal (.str s) (escapeXML s) (by simp) rfl (by rw [hes]; exact hp)
    have hr2 : c.before ++ (e.refill as ws (k1.append ((plainEl x (escapeXML s)).cons k2))).render ++ c.after =
        (c.plug ((e.refill as ws (k1.append ((plainEl x (escapeXML s)).cons k2))).cons .nil)).render := by
      rw [plug_el_render]; simp [El.render]
    rw [hr2] at hs
    have hm : nameMatches x (plainEl x (escapeXML s)).name = true := nameMatches_self x
    refine ⟨e.refill as ws (k1.append ((plainEl x (escapeXML s)).cons k2)), ⟨rfl, ?_, ?_, ?_⟩, fun hb => ⟨by simp [El.refill], ?_⟩, fun hsz => ⟨?_, ?_⟩, ?_⟩
    · by_cases hb : e.body = none
      · exact (h1.anew hb).2.2.1
      · rw [show (e.refill as ws (k1.append ((plainEl x (escapeXML s)).cons k2))).attrs = as from rfl, (h1.kept hb).1]
    · rw [refill_kids, hk, own_append, own_append, own_cons]
    · rw [refill_kids, hk, child_others hm]
    · obtain ⟨rfl, rfl⟩ := h1.kept hb
      have := group_ends hd (k := e.kids) hb
      have he : reKids e e.kids = e := by
        obtain ⟨n, as, ws, body⟩ := e
        rcases body with _ | ⟨k, cws⟩ <;> rfl
      rw [he] at this
      have hq := hes s
      conv => rhs; rw [this]
      rw [plug_el_render, plug_el_render]
      simp only [El.refill, El.start, El.inner, El.stop, hk, append_render, cons_render, ← wrapElem_render, wrapElem]
      simp [ListOp.cost]; omega
    · rw [callOf, hs, if_neg (by simp; omega)]
    · rw [hk] at g1 g2 g3
      obtain ⟨q1, q2, -, q4⟩ := appended_good (w := escapeXML s) hx (C20_no_markup s) (by omega) g1 g2
      refine ⟨editable_swapEl hd (refill_good hg h1 q1 q2 (q4 g3)) hsz, hL, ?_, ?_⟩
      · rw [refill_kids, full_append, full_cons]
        rw [hk, full_append] at hfull
        exact ⟨hfull.1, by simp [plainEl], hfull.2⟩
      · rw [refill_kids, appended_named hal, ← hk, List.map_append, hlist]
        simp only [List.map_cons, List.map_nil, ListOp.on, El.node, plainEl, plain_value]
    · rw [callOf, hs]
      split
      · exact .inr rfl
      · exact .inl rfl
  | put j s =>
    obtain ⟨hj, hsz0⟩ := hp
    obtain ⟨b, ch, a, hk, hm, hb3⟩ := hmem j hj
    have hbody : e.body ≠ none := kids_body (x := x) (by intro hh; rw [hh] at hlist; subst hlist; simp at hj)
    have hj63 : j < 2 ^ 63 := by
      have k1 := elems_size e.kids
      have k2 : (e.kids.info.named x).length ≤ e.kids.info.elems.length := List.length_filter_le _ _
      have k3 := hd.1
      have k4 : e.inner = e.kids.render := by
        obtain ⟨n, as, ws, body⟩ := e
        rcases body with _ | ⟨k, cws⟩ <;> rfl
      rw [plug_el_render, k4] at k3
      rw [← hlist] at hj
      simp at k3 hj
      omega
    obtain ⟨cws, hcp⟩ := child_plug (c := c) hbody (b := b) (a := a)
    have hchb : ch.body ≠ none := by
      rw [hk, full_append, full_cons] at hfull
      exact hfull.2.1 hm
    have he : reKids e e.kids = e := by
      obtain ⟨n, as, ws, body⟩ := e
      rcases body with _ | ⟨k, cws⟩ <;> rfl
    have hwhole : (down c e.name e.attrs e.ws cws (.here b a)).plug (ch.cons .nil) = c.plug (e.cons .nil) := by
      rw [hcp, cons_append]; rw [show Forest.append .nil a = a from rfl, ← hk, he]
    have hL2 : Leads (firsts ns ++ [(x, j)]) (down c e.name e.attrs e.ws cws (.here b a)) ch.name := leads_down hL ⟨hm, hb3⟩
    have hd2 := hd
    rw [← hwhole] at hd2
    have hset := set_existing ho (hstep j hj63) (by simp; omega) hL2 hd2 (v := .str s) (w := escapeXML s) (by simp) rfl (by rw [hes]; exact hsz0)
    rw [← fill_render hchb, hwhole] at hset
    have hfill : (down c e.name e.attrs e.ws cws (.here b a)).plug ((ch.fill (escapeXML s)).cons .nil) = c.plug ((reKids e (b.append ((ch.fill (escapeXML s)).cons a))).cons .nil) := by
      rw [hcp, cons_append]; rfl
    have hm2 : nameMatches x (ch.fill (escapeXML s)).name = true := hm
    refine ⟨reKids e (b.append ((ch.fill (escapeXML s)).cons a)), ⟨rfl, rfl, ?_, ?_⟩, fun _ => ⟨by simpa [reKids] using hbody, ?_⟩, fun hsz => ⟨?_, ?_⟩, .inl ?_⟩
    · rw [rekids_kids hbody, hk, own_append, own_append, own_cons, own_cons]
    · rw [rekids_kids hbody, hk, child_others hm, child_others hm2]
    · have hq := hes s
      rw [← hfill, fill_render hchb, ← hwhole, plug_el_render]
      simp [ListOp.cost]; omega
    · rw [callOf, hset, hfill]
    · refine ⟨?_, hL, ?_, ?_⟩
      · rw [← hfill] at hsz ⊢
        exact editable_fill hd2 hchb (C20_no_markup s) (by rw [← fill_render hchb]; exact hsz)
      · rw [rekids_kids hbody, full_append, full_cons]
        rw [hk, full_append, full_cons] at hfull
        exact ⟨hfull.1, fun _ => by simpa [El.fill] using hchb, hfull.2.2⟩
      · rw [rekids_kids hbody, child_named hm2]
        rw [hk, child_named hm] at hlist
        subst hlist hb3
        simp only [List.map_append, List.map_cons, ListOp.on]
        rw [List.set_append_right _ _ (by simp)]
        congr 1
        simp only [List.length_map, Nat.sub_self, List.set_cons_zero]
        congr 1
        obtain ⟨m, as, ws, body⟩ := ch
        rcases body with _ | ⟨k, cws⟩
        · exact absurd rfl hchb
        · simp only [El.fill, El.node, Option.map_some, plain_value]
    · rw [callOf, hset, hfill]
  | drop j =>
    by_cases hj : j < l.length
    · obtain ⟨b, ch, a, hk, hm, hb3⟩ := hmem j hj
      have hbody : e.body ≠ none := kids_body (x := x) (by intro hh; rw [hh] at hlist; subst hlist; simp at hj)
      obtain ⟨cws, hcp⟩ := child_plug (c := c) hbody (b := b) (a := a)
      have he : reKids e e.kids = e := by
        obtain ⟨n, as, ws, body⟩ := e
        rcases body with _ | ⟨k, cws⟩ <;> rfl
      have hwhole : (down c e.name e.attrs e.ws cws (.here b a)).plug (ch.cons .nil) = c.plug (e.cons .nil) := by
        rw [hcp, cons_append]; rw [show Forest.append .nil a = a from rfl, ← hk, he]
      have hL2 : Leads (firsts ns ++ [(x, j)]) (down c e.name e.attrs e.ws cws (.here b a)) ch.name := leads_down hL ⟨hm, hb3⟩
      have hd2 := hd
      rw [← hwhole] at hd2
      have hdel := delete_existing ho (hstep j hp) (by simp; omega) hL2 hd2
      have hnil : (down c e.name e.attrs e.ws cws (.here b a)).before ++ (down c e.name e.attrs e.ws cws (.here b a)).after =
          (c.plug ((reKids e (b.append a)).cons .nil)).render := by
        have := plug_render (down c e.name e.attrs e.ws cws (.here b a)) .nil
        rw [hcp, show Forest.append .nil a = a from rfl] at this
        simpa [Forest.render] using this.symm
      have hne : (c.plug ((reKids e (b.append a)).cons .nil)).render ≠ [] := by
        rw [plug_el_render]; simp [El.start, openTag]
      rw [hnil, if_neg hne, hwhole] at hdel
      have hsz : (c.plug ((reKids e (b.append a)).cons .nil)).render.length ≤ (c.plug (e.cons .nil)).render.length := by
        rw [← hnil, ← hwhole, plug_render]; simp
      have hed : Editable (c.plug ((reKids e (b.append a)).cons .nil)) := by
        have := editable_swap hd2 (y := .nil) trivial trivial trivial (fun _ => trivial)
          (by rw [hcp]; exact plug_hasElem_of (cons_hasElem _ _)) (by rw [hcp]; exact Nat.le_trans hsz hd.1)
        rw [hcp] at this
        exact this
      refine ⟨reKids e (b.append a), ⟨rfl, rfl, ?_, ?_⟩, fun _ => ⟨by simpa [reKids] using hbody, hsz⟩, fun _ => ⟨hdel, hed, hL, ?_, ?_⟩, .inl hdel⟩
      · rw [rekids_kids hbody, hk, own_append, own_append, own_cons]
      · rw [rekids_kids hbody, hk, child_others hm]
      · rw [rekids_kids hbody, full_append]
        rw [hk, full_append, full_cons] at hfull
        exact ⟨hfull.1, hfull.2.2⟩
      · rw [rekids_kids hbody, append_named]
        rw [hk, child_named hm] at hlist
        subst hlist hb3
        simp only [List.map_append, List.map_cons, ListOp.on]
        rw [List.eraseIdx_append_of_length_le (by simp)]
        simp
    · have hdel := delete_missing ho (editable_says hd) (editable_valid hd) (hstep j hp) (by simp) (by simp; omega)
        (by rw [follow_last hL, List.getElem?_eq_none_iff]; rw [← hlist] at hj; simpa using hj)
      refine ⟨e, beside_refl x e, fun hb => ⟨hb, Nat.le_refl _⟩, fun _ => ⟨hdel, hd, hL, hfull, ?_⟩, .inl hdel⟩
      rw [ListOp.on, List.eraseIdx_of_length_le (by omega)]; exact hlist

/-- The calls one after the other; `none` when one fails or the document gets longer than 10 MiB. -/
def runAll (o : Ord) (ns : List Bytes) (x : Bytes) : Bytes → List ListOp → Option Bytes
  | xml, [] => some xml
  | xml, p :: ps =>
    match callOf o ns x xml p with
    | .ret (r, none) => if r.length ≤ 10485760 then runAll o ns x r ps else none
    | _ => none

/-- C70: the elements of one name are a list. When the names lead to an element and none of its children matching `x` is written as one tag,
`Set(path.x.-1, s)` adds `s` at the end of the list of their texts, `Set(path.x.j, s)` replaces the text of index `j`, and `Delete(path.x.j)` removes it
(or changes nothing when there is none). Everything else stays: the document around the element, its name, attributes, own text and other children.
(White space around texts is not part of them. Nothing is done if the result would be too long.) -/
theorem C70_step (o : Ord) (ho : o.IsPerm) (ns : List Bytes) (x : Bytes) (hn : ∀ n ∈ ns, PlainName n) (hx : IsName x) (hl : ns.length ≤ 98)
    (c : Ctx) (e : El) (l : List Bytes) (h : Group ns x c e l) (p : ListOp) (hp : p.Fits l) :
    ∃ e' : El, Beside x e e' ∧
      ((c.plug (e'.cons .nil)).render.length ≤ 10485760 →
        callOf o ns x (c.plug (e.cons .nil)).render p = .ret ((c.plug (e'.cons .nil)).render, none) ∧ Group ns x c e' (p.on l)) ∧
      (callOf o ns x (c.plug (e.cons .nil)).render p = .ret ((c.plug (e'.cons .nil)).render, none) ∨
        callOf o ns x (c.plug (e.cons .nil)).render p = .ret ((c.plug (e.cons .nil)).render, some .invalidValue)) := by
  obtain ⟨e', h1, -, h3, h4⟩ := group_step ho hn hx hl h hp
  exact ⟨e', h1, h3, h4⟩

/-- C70: any number of such calls does to the elements what the operations do to a list. -/
theorem C70_run (o : Ord) (ho : o.IsPerm) (ns : List Bytes) (x : Bytes) (hn : ∀ n ∈ ns, PlainName n) (hx : IsName x) (hl : ns.length ≤ 98)
    (ps : List ListOp) (c : Ctx) (e : El) (l : List Bytes) (h : Group ns x c e l) (hp : ListOp.FitAll ps l) (r : Bytes)
    (hr : runAll o ns x (c.plug (e.cons .nil)).render ps = some r) :
    ∃ e' : El, r = (c.plug (e'.cons .nil)).render ∧ Group ns x c e' (ListOp.onAll ps l) ∧ Beside x e e' := by
  induction ps generalizing e l with
  | nil =>
    simp only [runAll, Option.some.injEq] at hr
    exact ⟨e, hr.symm, h, beside_refl x e⟩
  | cons p ps ih =>
    obtain ⟨e1, k1, -, k3, k4⟩ := group_step ho hn hx hl h hp.1
    rw [runAll] at hr
    rcases k4 with k4 | k4
    · rw [k4] at hr
      simp only at hr
      split at hr
      · rename_i hsz
        obtain ⟨e2, q1, q2, q3⟩ := ih e1 _ (k3 hsz).2 hp.2 hr
        exact ⟨e2, q1, q2, beside_trans k1 q3⟩
      · cases hr
    · rw [k4] at hr; cases hr

/-- C70: and they all succeed while there is room. -/
theorem C70_room (o : Ord) (ho : o.IsPerm) (ns : List Bytes) (x : Bytes) (hn : ∀ n ∈ ns, PlainName n) (hx : IsName x) (hl : ns.length ≤ 98)
    (ps : List ListOp) (c : Ctx) (e : El) (l : List Bytes) (h : Group ns x c e l) (hb : e.body ≠ none) (hp : ListOp.FitAll ps l)
    (hroom : (c.plug (e.cons .nil)).render.length + (ps.map (·.cost x)).sum ≤ 10485760) :
    ∃ r, runAll o ns x (c.plug (e.cons .nil)).render ps = some r := by
  induction ps generalizing e l with
  | nil => exact ⟨_, rfl⟩
  | cons p ps ih =>
    obtain ⟨e1, -, k2, k3, -⟩ := group_step ho hn hx hl h hp.1
    obtain ⟨k2, k5⟩ := k2 hb
    rw [List.map_cons, List.sum_cons] at hroom
    have hsz : (c.plug (e1.cons .nil)).render.length ≤ 10485760 := by omega
    obtain ⟨k6, k7⟩ := k3 hsz
    obtain ⟨r, hr⟩ := ih e1 _ k7 k2 hp.2 (by omega)
    refine ⟨r, ?_⟩
    rw [runAll, k6]
    simp only [if_pos hsz]
    exact hr

/-- C70: the list as Get reads it, up to the limit of 1000. -/
theorem C70_read (env : Env) (ho : env.ord.IsPerm) (ns : List Bytes) (x : Bytes) (hn : ∀ n ∈ ns, PlainName n) (hx : PlainName x) (hl : ns.length ≤ 98)
    (c : Ctx) (e : El) (l : List Bytes) (h : Group ns x c e l) :
    (l ≠ [] → get env (c.plug (e.cons .nil)).render (pathOf (ns ++ [x] ++ [b!"#"])) = .ret (.ofCount (min 1000 l.length))) ∧
    ∀ j t, j < 1000 → l[j]? = some t →
      ∃ a, get env (c.plug (e.cons .nil)).render (pathOf (ns ++ [x] ++ [natDec j])) = .ret a ∧ a.typ = .element ∧ a.toStr = t := by
  obtain ⟨hd, hL, -, hlist⟩ := h
  have hne : ns.isEmpty = false := by
    cases ns with
    | nil => simp [firsts, Leads] at hL
    | cons => rfl
  obtain ⟨ks, hks⟩ := leads_reach hL
  have hgr : (c.plug (e.cons .nil)).info.groups ns x = e.kids.info.named x :: ks.map (fun k => k.hits ns.isEmpty x) := by
    rw [Info.groups, hks, List.map_cons, Info.hits, hne]
    simp only [Bool.false_eq_true, if_false]
  have hnx : ∀ m ∈ ns ++ [x], PlainName m := by
    intro m hm
    rcases List.mem_append.mp hm with hm | hm
    · exact hn m hm
    · simp only [List.mem_singleton] at hm; subst hm; exact hx
  refine ⟨fun hl0 => ?_, fun j t hj ht => ?_⟩
  · have := C06_count env ho _ _ (editable_says hd) ns x hnx (by omega)
    have e1 : (!(e.kids.info.named x).isEmpty) = true := by
      rw [← hlist] at hl0
      simpa using hl0
    rw [hgr, List.find?_cons, e1] at this
    rw [← hlist, List.length_map]
    exact this
  · have := C06_index env ho _ _ (editable_says hd) ns x _ j (natDec_reads j) hnx (by omega)
    rw [← hlist, List.getElem?_map] at ht
    cases hnd : (e.kids.info.named x)[j]? with
    | none => rw [hnd] at ht; cases ht
    | some nd =>
      rw [hnd] at ht
      simp only [Option.map_some, Option.some.injEq] at ht
      rw [hgr, List.findSome?_cons, List.getElem?_take_of_lt hj, hnd] at this
      obtain ⟨a, a1, a2⟩ := this
      exact ⟨a, a1, a2.typ, by rw [a2.str, ht]⟩

/-- Adding several. -/
theorem onAll_push (ts l : List Bytes) : ListOp.onAll (ts.map .push) l = l ++ ts.map trimSpace := by
  induction ts generalizing l with
  | nil => simp [ListOp.onAll]
  | cons t ts ih =>
    have := ih (l ++ [trimSpace t])
    simp only [ListOp.onAll, List.map_cons, List.foldl_cons, ListOp.on] at this ⊢
    rw [this]; simp

theorem fitAll_push (ts l : List Bytes) (h : ∀ t ∈ ts, storedSize (.str t) ≤ 5242880) : ListOp.FitAll (ts.map .push) l := by
  induction ts generalizing l with
  | nil => trivial
  | cons t ts ih => exact ⟨h t (by simp), ih _ (fun u hu => h u (by simp [hu]))⟩

theorem onAll_drop (k : Nat) (l : List Bytes) : ListOp.onAll (List.replicate k (.drop 0)) l = l.drop k := by
  induction k generalizing l with
  | zero => simp [ListOp.onAll]
  | succ k ih =>
    have := ih l.tail
    simp only [ListOp.onAll, List.replicate_succ, List.foldl_cons, ListOp.on, List.eraseIdx_zero] at this ⊢
    rw [this]; simp

theorem fitAll_drop (k : Nat) (l : List Bytes) : ListOp.FitAll (List.replicate k (.drop 0)) l := by
  induction k generalizing l with
  | zero => trivial
  | succ k ih => exact ⟨by simp [ListOp.Fits], ih _⟩

/-- C70: adding texts one by one, then reading them, gives them back in that order. -/
theorem C70_fill (env : Env) (ho : env.ord.IsPerm) (ns : List Bytes) (x : Bytes) (hn : ∀ n ∈ ns, PlainName n) (hx : IsName x) (hl : ns.length ≤ 98)
    (c : Ctx) (e : El) (h : Group ns x c e []) (ts : List Bytes) (hts : ∀ t ∈ ts, storedSize (.str t) ≤ 5242880) (r : Bytes)
    (hr : runAll env.ord ns x (c.plug (e.cons .nil)).render (ts.map .push) = some r) :
    ∀ j t, j < 1000 → ts[j]? = some t →
      ∃ a, get env r (pathOf (ns ++ [x] ++ [natDec j])) = .ret a ∧ a.typ = .element ∧ a.toStr = trimSpace t := by
  obtain ⟨e', rfl, h2, -⟩ := C70_run env.ord ho ns x hn hx hl _ c e [] h (fitAll_push ts [] hts) r hr
  intro j t hj ht
  rw [onAll_push, List.nil_append] at h2
  exact (C70_read env ho ns x hn (name_plain hx) hl c e' _ h2).2 j _ hj (by rw [List.getElem?_map, ht]; rfl)

/-- C70: deleting the first one as often as there are elements deletes all of them, and nothing else. -/
theorem C70_clear (o : Ord) (ho : o.IsPerm) (ns : List Bytes) (x : Bytes) (hn : ∀ n ∈ ns, PlainName n) (hx : IsName x) (hl : ns.length ≤ 98)
    (c : Ctx) (e : El) (l : List Bytes) (h : Group ns x c e l) :
    ∃ e' : El, runAll o ns x (c.plug (e.cons .nil)).render (List.replicate l.length (.drop 0)) = some (c.plug (e'.cons .nil)).render ∧
      e'.kids.info.named x = [] ∧ Beside x e e' := by
  by_cases hb : e.body = none
  · have hk : e.kids = .nil := by simp [El.kids, hb]
    have hl0 : l = [] := by rw [← h.list, hk]; rfl
    subst hl0
    exact ⟨e, rfl, by rw [hk]; rfl, beside_refl x e⟩
  · obtain ⟨r, hr⟩ := C70_room o ho ns x hn hx hl _ c e l h hb (fitAll_drop l.length l) (by
      have := h.doc.1
      simpa [ListOp.cost] using this)
    obtain ⟨e', rfl, h2, h3⟩ := C70_run o ho ns x hn hx hl _ c e l h (fitAll_drop _ _) r hr
    rw [onAll_drop, List.drop_length] at h2
    exact ⟨e', hr, List.map_eq_nil_iff.mp h2.list, h3⟩

/-! ### cases -/

/-- `<r k="v">t<a>1</a><b/><n:a>2</n:a></r>` with the elements `a` below `r`. -/
def exGroup : El := ⟨b!"r", [⟨b!" ", b!"k", [], [], c!"\"", b!"v"⟩], [], some (.text b!"t" (.node b!"a" [] [] (.text b!"1" .nil) []
  (.leaf b!"b" [] [] (.node b!"n:a" [] [] (.text b!"2" .nil) [] .nil))), [])⟩

theorem exGroup_is : Group [b!"r"] b!"a" (.here .nil .nil) exGroup [b!"1", b!"2"] :=
  ⟨editable_of (by decide +kernel), ⟨by decide +kernel, rfl⟩, ⟨by decide +kernel, trivial⟩, by decide +kernel⟩

example : (Ctx.plug (.here .nil .nil) (exGroup.cons .nil)).render = b!"<r k=\"v\">t<a>1</a><b/><n:a>2</n:a></r>" := by decide +kernel

/-- The operations below fit, whatever the texts of a run are, and lead to this list. -/
def exOps : List ListOp := [.push b!" <3> ", .drop 0, .put 1 b!"4", .drop 7, .push b!"5", .drop 0]

example : ListOp.onAll exOps [b!"1", b!"2"] = [b!"4", b!"5"] := by decide +kernel

example : runAll exEnv.ord [b!"r"] b!"a" b!"<r k=\"v\">t<a>1</a><b/><n:a>2</n:a></r>" exOps = some b!"<r k=\"v\">t<b/><a>4</a><a>5</a></r>" := by decide +kernel

example : ∃ r, runAll exEnv.ord [b!"r"] b!"a" (Ctx.plug (.here .nil .nil) (exGroup.cons .nil)).render exOps = some r ∧
    ∃ e', r = (Ctx.plug (.here .nil .nil) (El.cons e' .nil)).render ∧ Group [b!"r"] b!"a" (.here .nil .nil) e' [b!"4", b!"5"] ∧ Beside b!"a" exGroup e' := by
  have hf : ListOp.FitAll exOps [b!"1", b!"2"] := by simp only [exOps, ListOp.FitAll, ListOp.Fits]; decide +kernel
  obtain ⟨r, hr⟩ := C70_room exEnv.ord exEnv_perm [b!"r"] b!"a" (by simpa using plain_of (by decide)) (isName_of (by decide) (by decide)) (by decide) exOps
    (.here .nil .nil) exGroup _ exGroup_is (by decide) hf (by decide +kernel)
  have hl : ListOp.onAll exOps [b!"1", b!"2"] = [b!"4", b!"5"] := by decide +kernel
  rw [← hl]
  exact ⟨r, hr, C70_run exEnv.ord exEnv_perm [b!"r"] b!"a" (by simpa using plain_of (by decide)) (isName_of (by decide) (by decide)) (by decide) exOps
    (.here .nil .nil) exGroup _ exGroup_is hf r hr⟩

/-- C70: a member written as one tag is not replaced: the text lands behind it. -/
theorem C70_oneTag : callOf exEnv.ord [b!"r"] b!"a" b!"<r><a>1</a><a/></r>" (.put 1 b!"2") = .ret (b!"<r><a>1</a><a/>2</r>", none) := by decide +kernel

/-- C70: the list belongs to the first element the names lead to. When it is empty, Get goes on to the next element, but Delete does not:
a loop that deletes the first one as long as Get finds one never ends here. -/
theorem C70_empty :
    (∃ a, get exEnv b!"<r><p><x>1</x></p><p><x>2</x></p></r>" b!"r.p.x.0" = .ret a ∧ a.toStr = b!"1") ∧
    delete exEnv.ord b!"<r><p><x>1</x></p><p><x>2</x></p></r>" b!"r.p.x.0" = .ret (b!"<r><p></p><p><x>2</x></p></r>", none) ∧
    (∃ a, get exEnv b!"<r><p></p><p><x>2</x></p></r>" b!"r.p.x.0" = .ret a ∧ a.toStr = b!"2") ∧
    delete exEnv.ord b!"<r><p></p><p><x>2</x></p></r>" b!"r.p.x.0" = .ret (b!"<r><p></p><p><x>2</x></p></r>", none) := by
  refine ⟨⟨_, rfl, by decide +kernel⟩, by decide +kernel, ⟨_, rfl, by decide +kernel⟩, by decide +kernel⟩

end Verif.Props
