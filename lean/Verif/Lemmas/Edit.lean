import Verif.Lemmas.Locate
import Verif.Lemmas.Step
import Verif.Lemmas.Grammar
import Verif.Model.Set
/- Set and Delete on documents in canonical layout. -/
namespace Verif
open Spec

/-! ### paths of steps -/

theorem stepSegs_kinds {ps : List Step} {ss : List Seg} (h : StepSegs ps ss) :
    ∀ s ∈ ss, (∃ n, s = nameSeg n) ∨ ∃ j : Nat, s = ⟨.index j, []⟩ := by
  induction h with
  | nil => simp
  | name h ih =>
    intro s hs
    rcases List.mem_cons.mp hs with rfl | hs
    · exact .inl ⟨_, rfl⟩
    · exact ih s hs
  | index h ih =>
    intro s hs
    rcases List.mem_cons.mp hs with rfl | hs
    · exact .inl ⟨_, rfl⟩
    · rcases List.mem_cons.mp hs with rfl | hs
      · exact .inr ⟨_, rfl⟩
      · exact ih s hs

theorem parseParts_cons_ok {p : Bytes} {s : Seg} {ps : List Bytes} {ss : List Seg} (h1 : parsePart p = .seg s) (h2 : parseParts ps = .ok ss) :
    parseParts (p :: ps) = .ok (s :: ss) := by
  rw [parseParts, h1, h2]

theorem parseParts_steps {ps : List Step} {parts : List Bytes} (h : StepsText ps parts) (more : List Bytes) (ms : List Seg) (hm : parseParts more = .ok ms) :
    ∃ ss, StepSegs ps ss ∧ parseParts (parts ++ more) = .ok (ss ++ ms) := by
  induction h with
  | nil => exact ⟨[], .nil, hm⟩
  | name hn _ ih =>
    obtain ⟨ss, h1, h2⟩ := ih
    exact ⟨_, .name h1, parseParts_cons_ok (parsePart_plain _ hn) h2⟩
  | index hn hd hj _ ih =>
    obtain ⟨ss, h1, h2⟩ := ih
    refine ⟨_, .index h1, parseParts_cons_ok (parsePart_plain _ hn) (parseParts_cons_ok ?_ h2)⟩
    rw [parsePart_decimal hd, if_neg (by omega)]

theorem fuseFields_steps {ps : List Step} {ss : List Seg} (h : StepSegs ps ss) (ms : List Seg) : fuseFields (ss ++ ms) = ss ++ fuseFields ms := by
  induction h with
  | nil => rfl
  | name h ih => rw [List.cons_append, fuseFields_cons (by simp [nameSeg]), ih]; rfl
  | index h ih => rw [List.cons_append, List.cons_append, fuseFields_cons (by simp [nameSeg]), fuseFields_cons (by simp), ih]; rfl

theorem stepsText_head {ps : List Step} {parts : List Bytes} (h : StepsText ps parts) (hne : ps ≠ []) (more : List Bytes) :
    parts ++ more ≠ [] ∧ parts ++ more ≠ [[]] := by
  cases h with
  | nil => exact absurd rfl hne
  | name hn _ => exact ⟨by simp, by intro e; simp at e; exact hn.nonempty e.1⟩
  | index hn _ _ _ => exact ⟨by simp, by intro e; simp at e⟩

theorem parsePath_steps {ps : List Step} {parts : List Bytes} (h : StepsText ps parts) (hne : ps ≠ []) (more : List Bytes) (ms : List Seg)
    (hm : parseParts more = .ok ms) (hl : parts.length + more.length ≤ 100) :
    ∃ ss, StepSegs ps ss ∧ parsePath (pathOf (parts ++ more)) = .ok (ss ++ fuseFields ms) := by
  obtain ⟨ss, h1, h2⟩ := parseParts_steps h more ms hm
  obtain ⟨e1, e2⟩ := stepsText_head h hne more
  refine ⟨ss, h1, ?_⟩
  rw [parsePath_parts _ e1 e2 (by simpa using hl), h2]
  simp only
  rw [fuseFields_steps h1]

theorem stepSegs_ne {ps : List Step} {ss : List Seg} (h : StepSegs ps ss) (hne : ps ≠ []) : ss ≠ [] := by
  cases h with
  | nil => exact absurd rfl hne
  | name => simp
  | index => simp

theorem indexIntent_steps {ps : List Step} {ss : List Seg} (h : StepSegs ps ss) (ms : List Seg) : indexIntent (ss ++ ms) = indexIntent ms := by
  induction h with
  | nil => rfl
  | name h ih => rw [List.cons_append, indexIntent]; exact ih
  | index h ih => rw [List.cons_append, List.cons_append, indexIntent]; simp only [nameSeg]; rw [indexIntent]; simp only; rw [if_pos (Int.natCast_nonneg _)]; exact ih

/-! ### replacing what is in the hole -/

theorem plug_legal {c : Ctx} {x : Forest} {d : Nat} (h : (c.plug x).Legal d) :
    x.Legal (d + c.depth) ∧ ∀ y : Forest, y.Legal (d + c.depth) → (c.plug y).Legal d := by
  induction c generalizing d with
  | here b a =>
    simp only [Ctx.plug, append_legal] at h ⊢
    exact ⟨h.2.1, fun y hy => ⟨h.1, hy, h.2.2⟩⟩
  | within b n as ws c cws a ih =>
    simp only [Ctx.plug, append_legal, Forest.Legal] at h ⊢
    obtain ⟨h1, h2, h3, h4, h5, h6, h7⟩ := h
    obtain ⟨i1, i2⟩ := ih h6
    have e : d + 1 + c.depth = d + (c.depth + 1) := by omega
    rw [e] at i1 i2
    exact ⟨i1, fun y hy => ⟨h1, h2, h3, h4, h5, i2 y hy, h7⟩⟩

theorem plug_tame {c : Ctx} {x : Forest} {t : Bool} (h : (c.plug x).Tame t) :
    x.Tame (t && c.depth == 0) ∧ ∀ y : Forest, y.Tame (t && c.depth == 0) → (c.plug y).Tame t := by
  induction c generalizing t with
  | here b a =>
    simp only [Ctx.plug, append_tame, Ctx.depth, BEq.rfl, Bool.and_true] at h ⊢
    exact ⟨h.2.1, fun y hy => ⟨h.1, hy, h.2.2⟩⟩
  | within b n as ws c cws a ih =>
    simp only [Ctx.plug, append_tame, Forest.Tame, Ctx.depth] at h ⊢
    obtain ⟨h1, h2, h3, h4, h5⟩ := h
    obtain ⟨i1, i2⟩ := ih h4
    have e : (t && c.depth + 1 == 0) = false := by simp
    rw [e]
    simp only [Bool.false_and] at i1 i2
    exact ⟨i1, fun y hy => ⟨h1, h2, h3, i2 y hy, h5⟩⟩

theorem append_even (f g : Forest) : (f.append g).Even ↔ f.Even ∧ g.Even := by
  induction f <;> simp [Forest.append, Forest.Even, *, and_assoc]

theorem plug_even {c : Ctx} {x : Forest} (h : (c.plug x).Even) : x.Even ∧ ∀ y : Forest, y.Even → (c.plug y).Even := by
  induction c with
  | here b a =>
    simp only [Ctx.plug, append_even] at h ⊢
    exact ⟨h.2.1, fun y hy => ⟨h.1, hy, h.2.2⟩⟩
  | within b n as ws c cws a ih =>
    simp only [Ctx.plug, append_even, Forest.Even] at h ⊢
    obtain ⟨h1, h2, h4, h5, h6⟩ := h
    obtain ⟨i1, i2⟩ := ih h5
    exact ⟨i1, fun y hy => ⟨h1, h2, h4, i2 y hy, h6⟩⟩

theorem even_stable {f : Forest} (h : f.Even) : f.Stable := by
  induction f with
  | nil => trivial
  | text b next ih => exact ih h
  | misc m next ih => exact ih h
  | leaf n as ws next ih => exact ih h.2
  | node n as ws k cws next _ ih => exact ⟨h.2.1, h.2.2.1, ih h.2.2.2⟩

/-- What goes into a hole of a stable document: at the top the new piece must be stable, below even. -/
theorem plug_stable {c : Ctx} {x : Forest} (h : (c.plug x).Stable) :
    x.Stable ∧ (0 < c.depth → x.Even) ∧ ∀ y : Forest, y.Stable → (0 < c.depth → y.Even) → (c.plug y).Stable := by
  cases c with
  | here b a =>
    simp only [Ctx.plug, append_stable, Ctx.depth] at h ⊢
    exact ⟨h.2.1, by simp, fun y hy _ => ⟨h.1, hy, h.2.2⟩⟩
  | within b n as ws c cws a =>
    simp only [Ctx.plug, append_stable, Forest.Stable, Ctx.depth] at h ⊢
    obtain ⟨h1, h2, h3, h4⟩ := h
    obtain ⟨i1, i2⟩ := plug_even h3
    exact ⟨even_stable i1, fun _ => i1, fun y _ hy => ⟨h1, h2, i2 y (hy (by omega)), h4⟩⟩

theorem plug_hasElem_of {c : Ctx} {x : Forest} (h : x.HasElem) : (c.plug x).HasElem := by
  cases c with
  | here b a => simp [Ctx.plug, append_hasElem, h]
  | within b n as ws c cws a => simp [Ctx.plug, append_hasElem, Forest.HasElem]

theorem cons_hasElem (e : El) (a : Forest) : (e.cons a).HasElem := by
  obtain ⟨n, as, ws, body⟩ := e
  rcases body with _ | ⟨k, cws⟩ <;> simp [El.cons, Forest.HasElem]

/-- The element is well-formed at depth `d`. -/
structure GoodEl (e : El) (d : Nat) (top : Bool) (even : Bool) : Prop where
  legal : (e.cons .nil).Legal d
  tame : (e.cons .nil).Tame top
  stable : (e.cons .nil).Stable
  even : even = true → (e.cons .nil).Even

theorem editable_el {c : Ctx} {e : El} (h : Editable (c.plug (e.cons .nil))) : GoodEl e c.depth (c.depth == 0) (decide (0 < c.depth)) := by
  obtain ⟨-, h2, h3, -, h5⟩ := h
  have h2 := plug_legal h2
  have h3 := plug_tame h3
  have h5 := plug_stable h5
  simp only [Nat.zero_add, Bool.true_and] at h2 h3
  exact ⟨h2.1, h3.1, h5.1, fun hh => h5.2.1 (by simpa using hh)⟩

theorem editable_swap {c : Ctx} {x y : Forest} (h : Editable (c.plug x)) (hl : y.Legal c.depth) (ht : y.Tame (c.depth == 0))
    (hs : y.Stable) (hn : 0 < c.depth → y.Even) (he : (c.plug y).HasElem) (hsz : (c.plug y).render.length ≤ 10485760) : Editable (c.plug y) := by
  obtain ⟨h1, h2, h3, h4, h5⟩ := h
  have h2 := plug_legal h2
  have h3 := plug_tame h3
  simp only [Nat.zero_add, Bool.true_and] at h2 h3
  exact ⟨hsz, h2.2 y hl, h3.2 y ht, he, (plug_stable h5).2.2 y hs hn⟩

/-! ### entry points -/

theorem editable_valid {f : Forest} (h : Editable f) : valid f.render = true :=
  (valid_iff_document _).mpr ⟨h.1, f, h.2.1, h.2.2.2.1, rfl⟩

theorem editable_says {f : Forest} (h : Editable f) : Says f.render f.info := ⟨h.1, .done f, h.2.1.loose, h.2.2.1, rfl, rfl⟩

theorem editable_sim {f : Forest} (h : Editable f) : Sim f f := Sim.refl h.2.2.2.2

theorem parseOpt_true {path : Bytes} {ss : List Seg} (h : parsePath path = .ok ss) : parsePathWithOptions path true = .ok ss := by
  unfold parsePathWithOptions; rw [h]; rfl

theorem docMax : maxDocumentSize = 10485760 := rfl
theorem valMax : maxValueSize = 5242880 := rfl

theorem set_entry {o : Ord} {f : Forest} (h : Editable f) {path : Bytes} {ss : List Seg} (hp : parsePath path = .ok ss) (hne : ss ≠ []) (v : GoVal) (hv : v ≠ .nil) :
    set o f.render path v = finish f.render (setElement o true [] f.render ss v) := by
  have h1 := h.1
  have hd := docMax
  unfold set setWithOptions
  rw [if_neg (by omega), if_neg (by rw [editable_valid h]; simp), if_neg hv]
  have e : (effOpts (some defaultOptions)).caseSensitive = true := rfl
  have e2 : (effOpts (some defaultOptions)).indent = [] := rfl
  rw [e, e2, parseOpt_true hp]
  cases ss with
  | nil => exact absurd rfl hne
  | cons => rfl

theorem delete_entry {o : Ord} {f : Forest} (h : Editable f) {path : Bytes} {ss : List Seg} (hp : parsePath path = .ok ss) (hne : ss ≠ []) :
    delete o f.render path = finish f.render (deleteElement o true f.render ss) := by
  have h1 := h.1
  have hd := docMax
  unfold delete deleteWithOptions
  rw [if_neg (by omega), if_neg (by rw [editable_valid h]; simp)]
  have e : (effOpts (some defaultOptions)).caseSensitive = true := rfl
  rw [e, parseOpt_true hp]
  cases ss with
  | nil => exact absurd rfl hne
  | cons => rfl

/-! ### writing bytes -/

theorem splice_at {a m z mid : Bytes} {i j : Int} (hi : i = a.length) (hj : j = a.length + m.length) :
    splice (a ++ m ++ z) i j mid = .ok (a ++ mid ++ z) := by
  unfold splice sliceTo sliceFrom
  rw [if_pos (by simp; omega), if_pos (by simp; omega)]
  simp only
  have e1 : i.toNat = a.length := by omega
  have e2 : j.toNat = (a ++ m).length := by simp; omega
  rw [e1, e2, List.drop_left, List.append_assoc a m z, List.take_left]

theorem finish_ok {xml r : Bytes} (h : r ≠ []) : finish xml (.ok r) = .ret (r, none) := by
  simp [finish, getResult, h]

theorem last_not_attr {ps : List Step} {ss : List Seg} (h : StepSegs ps ss) (hne : ps ≠ []) :
    ∃ s, ss.getLast? = some s ∧ ∀ a, s.kind ≠ .attr a := by
  have hn := stepSegs_ne h hne
  refine ⟨ss.getLast hn, List.getLast?_eq_some_getLast hn, ?_⟩
  intro a
  rcases stepSegs_kinds h _ (List.getLast_mem hn) with ⟨n, e⟩ | ⟨j, e⟩ <;> rw [e] <;> simp [nameSeg]

theorem el_start_ne (e : El) : e.start ≠ [] := by simp [El.start, openTag]

/-- setElement on an ordinary path of steps. -/
theorem setElement_steps {o : Ord} {data : Bytes} {ps : List Step} {ss : List Seg} (h : StepSegs ps ss) (hne : ps ≠ []) {v : GoVal} {w : Bytes}
    (hv : valueToXML v = some w) (hw : w.length ≤ 5242880) (hd : data.length ≤ 10485760) :
    setElement o true [] data ss v =
      match findLoc o true ss data 0 with
      | some l => replaceElement data l w
      | none => createElement o true [] data ss w := by
  obtain ⟨s, h1, h2⟩ := last_not_attr h hne
  have hd2 := docMax
  have hv2 := valMax
  have hi : indexIntent ss = none := by have := indexIntent_steps h []; simpa [indexIntent] using this
  unfold setElement
  rw [h1]
  simp only [hv]
  rw [if_neg (by omega), if_neg (by omega), hi]
  simp only
  cases hk : s.kind with
  | attr a => exact absurd hk (h2 a)
  | _ => rfl

theorem deleteElement_steps {o : Ord} {data : Bytes} {ps : List Step} {ss : List Seg} (h : StepSegs ps ss) (hne : ps ≠ [])
    (hd : data.length ≤ 10485760) :
    deleteElement o true data ss =
      match findLoc o true ss data 0 with
      | none => .ok data
      | some l =>
        if l.selfClosing then splice data l.startPos l.contentStart []
        else splice data l.startPos (l.endTagPos + l.name.length + 3) [] := by
  obtain ⟨s, h1, h2⟩ := last_not_attr h hne
  have hd2 := docMax
  unfold deleteElement
  rw [h1]
  simp only
  rw [if_neg (by omega)]
  cases hk : s.kind with
  | attr a => exact absurd hk (h2 a)
  | _ => rfl

theorem editable_findLoc {o : Ord} (ho : o.IsPerm) {ps : List Step} {ss : List Seg} (hss : StepSegs ps ss) {c : Ctx} {e : El}
    (hL : Leads ps c e.name) (h : Editable (c.plug (e.cons .nil))) :
    ∃ l, findLoc o true ss (c.plug (e.cons .nil)).render 0 = some l ∧ LocOK l c.before.length e := by
  obtain ⟨l, h1, h2⟩ := findLoc_leads ho hss hL rfl (editable_sim h) h.2.1 h.2.2.1 (base := 0) (by omega) (by have := h.1; rw [maxPos]; omega)
  rw [Int.zero_add] at h2
  exact ⟨l, h1, h2⟩

theorem leads_ne {ps : List Step} {c : Ctx} {x : Bytes} (h : Leads ps c x) : ps ≠ [] := by
  rintro rfl; simp [Leads] at h

theorem plug_el_render (c : Ctx) (e : El) : (c.plug (e.cons .nil)).render = c.before ++ e.start ++ e.inner ++ e.stop ++ c.after := by
  rw [plug_render, cons_render]; simp [El.render, Forest.render]

/-- Set on an existing element. (A self-closing one has no content: the value goes behind its tag.) -/
theorem set_existing {o : Ord} (ho : o.IsPerm) {ps : List Step} {parts : List Bytes} (hps : StepsText ps parts) (hpl : parts.length ≤ 100) {c : Ctx} {e : El}
    (hL : Leads ps c e.name) (h : Editable (c.plug (e.cons .nil)))  {v : GoVal} {w : Bytes} (hv0 : v ≠ .nil)
    (hv : valueToXML v = some w) (hw : w.length ≤ 5242880) :
    set o (c.plug (e.cons .nil)).render (pathOf parts) v = .ret (c.before ++ e.start ++ w ++ e.stop ++ c.after, none) := by
  have hne := leads_ne hL
  obtain ⟨ss, hss, hp⟩ := parsePath_steps hps hne [] [] rfl (by simpa using hpl)
  simp only [List.append_nil, fuseFields] at hp
  obtain ⟨l, hl, hok⟩ := editable_findLoc ho hss hL h
  rw [set_entry h hp (stepSegs_ne hss hne) v hv0, setElement_steps hss hne hv hw h.1, hl]
  simp only [replaceElement]
  rw [plug_el_render]
  have e1 : c.before ++ e.start ++ e.inner ++ e.stop ++ c.after = (c.before ++ e.start) ++ e.inner ++ (e.stop ++ c.after) := by simp
  rw [e1, splice_at (by rw [hok.cstart]; simp) (by rw [hok.cend]; simp), finish_ok (by simp [el_start_ne])]
  simp

/-- Delete of an existing element. -/
theorem delete_existing {o : Ord} (ho : o.IsPerm) {ps : List Step} {parts : List Bytes} (hps : StepsText ps parts) (hpl : parts.length ≤ 100) {c : Ctx} {e : El}
    (hL : Leads ps c e.name) (h : Editable (c.plug (e.cons .nil))) :
    delete o (c.plug (e.cons .nil)).render (pathOf parts) =
      .ret (if c.before ++ c.after = [] then (c.plug (e.cons .nil)).render else c.before ++ c.after, none) := by
  have hne := leads_ne hL
  obtain ⟨ss, hss, hp⟩ := parsePath_steps hps hne [] [] rfl (by simpa using hpl)
  simp only [List.append_nil, fuseFields] at hp
  obtain ⟨l, hl, hok⟩ := editable_findLoc ho hss hL h
  rw [delete_entry h hp (stepSegs_ne hss hne), deleteElement_steps hss hne h.1, hl]
  simp only
  have hgood := editable_el h
  have key : (if l.selfClosing then splice (c.plug (e.cons .nil)).render l.startPos l.contentStart []
        else splice (c.plug (e.cons .nil)).render l.startPos (l.endTagPos + l.name.length + 3) []) = .ok (c.before ++ [] ++ c.after) := by
    have hr : (c.plug (e.cons .nil)).render = c.before ++ e.render ++ c.after := by rw [plug_el_render]; simp [El.render]
    rw [hr]
    have hlen := El.render_length e
    cases hbd : e.body with
    | none =>
      have hs : l.selfClosing = true := by rw [hok.self, hbd]; rfl
      rw [if_pos hs, splice_at hok.start]
      rw [hok.cstart, hlen]; simp [El.inner, El.stop, hbd]
    | some q =>
      obtain ⟨k, cws⟩ := q
      have hs : ¬ l.selfClosing = true := by rw [hok.self, hbd]; simp
      have hcws : cws = [] := by
        have := hgood.stable
        rw [El.cons, hbd] at this
        exact this.1
      rw [if_neg hs, splice_at hok.start]
      rw [hok.tend, hlen, hok.name]; simp [El.stop, hbd, closeTag, hcws]; omega
  rw [key]
  simp only [finish, getResult, List.append_nil, List.isEmpty_iff]

end Verif
