import Verif.Lemmas.Trail
import Verif.Props.Slots
/- C79: Every path leads Set and Delete to one place, and they change just that. -/
namespace Verif.Props
open Verif Verif.Spec

/-- C79: Any steps say in one way where they lead. -/
theorem C79_trail (ss : List Bytes) : ∃ t, Trail ss t ∧ ∀ t', Trail ss t' → t' = t := by
  obtain ⟨t, h⟩ := trail_total ss
  exact ⟨t, h, fun t' h' => trail_fun h' h⟩

/-- C79: They lead to at most one element of a document. -/
theorem C79_one_place {cs : Bool} {ss : List Bytes} {c d : Ctx} {e x : El} (h : c.plug (e.cons .nil) = d.plug (x.cons .nil)) (h1 : LeadTo cs ss c e.name) (h2 : LeadTo cs ss d x.name) : c = d ∧ e = x :=
  leadTo_unique h h1 h2

/-- C79: Set at the element that the path leads to replaces its content and nothing else. (A self-closing element has no content: the value goes behind its tag.) -/
theorem C79_set {o : Ord} (ho : o.IsPerm) (opts : Options) {c : Ctx} {e : El} (h : Editable (c.plug (e.cons .nil))) {ss : List Bytes} {p : Bytes} (hp : PathSteps p ss)
    (hl : LeadTo opts.caseSensitive ss c e.name) {v : GoVal} {w : Bytes} (hv0 : v ≠ .nil) (hv : valueToXML v = some w) (hw : w.length ≤ 5242880) :
    setWithOptions o (c.plug (e.cons .nil)).render p v (some opts) = .ret (c.before ++ e.start ++ w ++ e.stop ++ c.after, none) := by
  obtain ⟨segs, h1, h2⟩ := parseOpt_reads hp (leadTo_full hl) opts.caseSensitive
  obtain ⟨hs, ht, hr⟩ := hl
  rw [← List.append_nil ss] at h2
  obtain ⟨sa, rs, k1, k2, rfl, k3, k4⟩ := trail_split (cs := opts.caseSensitive) ht h2
  cases k2
  simp only [fuseFields, List.map_nil, List.append_nil] at k4
  rw [List.append_nil] at h1
  rw [k4] at h1
  rw [set_parsed (sound_valid (editable_sound h)) hv0 h1 (hopSegs_ne k3 (reach_ne hr)), setElement_here ho opts.indent h k3 hr hv hw, finish_ok (by simp [el_start_ne])]

/-- C79: Delete removes it, and nothing else. (If nothing would be left, the document is returned.) -/
theorem C79_delete {o : Ord} (ho : o.IsPerm) (opts : Options) {c : Ctx} {e : El} (h : Editable (c.plug (e.cons .nil))) {ss : List Bytes} {p : Bytes} (hp : PathSteps p ss)
    (hl : LeadTo opts.caseSensitive ss c e.name) :
    deleteWithOptions o (c.plug (e.cons .nil)).render p (some opts) = .ret (if c.before ++ c.after = [] then (c.plug (e.cons .nil)).render else c.before ++ c.after, none) := by
  obtain ⟨segs, h1, h2⟩ := parseOpt_reads hp (leadTo_full hl) opts.caseSensitive
  obtain ⟨hs, ht, hr⟩ := hl
  rw [← List.append_nil ss] at h2
  obtain ⟨sa, rs, k1, k2, rfl, k3, k4⟩ := trail_split (cs := opts.caseSensitive) ht h2
  cases k2
  simp only [fuseFields, List.map_nil, List.append_nil] at k4
  rw [List.append_nil] at h1
  rw [k4] at h1
  rw [delete_parsed (sound_valid (editable_sound h)) h1 (hopSegs_ne k3 (reach_ne hr)), deleteElement_here ho h k3 hr]
  simp only [finish, getResult]
  split <;> simp_all

/-- C79: Where the path leads nowhere, Delete changes nothing. (An attribute leads nowhere; where it belongs to an element, see below.) -/
theorem C79_delete_nowhere {o : Ord} (ho : o.IsPerm) (opts : Options) {f : Forest} (h : Sound f) {ss : List Bytes} {p : Bytes} (hp : PathSteps p ss) (h0 : ss ≠ [])
    (hn : LeadNowhere opts.caseSensitive ss f) (hl : ∀ x, ss.getLast? = some x → ¬ AttrStep x) : deleteWithOptions o f.render p (some opts) = .ret (f.render, none) := by
  obtain ⟨segs, h1, h2⟩ := parseOpt_reads hp h0 opts.caseSensitive
  have hf := nowhere_none ho (sound_says h) h0 hn h2
  have hne : (fuseFields segs).map (lowIf opts.caseSensitive) ≠ [] := by
    cases h2 with
    | nil => exact absurd rfl h0
    | cons => intro hh; exact fuse_full _ _ (List.map_eq_nil_iff.mp hh)
  rw [delete_parsed (sound_valid h) h1 hne]
  have he : deleteElement o opts.caseSensitive f.render ((fuseFields segs).map (lowIf opts.caseSensitive)) = .ok f.render := by
    have hd := docMax
    unfold deleteElement
    rw [hf]
    cases e1 : ((fuseFields segs).map (lowIf opts.caseSensitive)).getLast? with
    | none => exact absurd (List.getLast?_eq_none_iff.mp e1) hne
    | some s =>
      simp only
      rw [if_neg (by have := h.1; omega)]
      cases hk : s.kind with
      | attr a =>
        exfalso
        rw [List.getLast?_map] at e1
        cases e2 : (fuseFields segs).getLast? with
        | none => rw [e2] at e1; cases e1
        | some u =>
          rw [e2] at e1; simp at e1; subst e1
          obtain ⟨a', ha'⟩ := (lowIf_kind opts.caseSensitive u).1.mp ⟨a, hk⟩
          have e3 := fuse_last e2 ha'
          cases hx : ss.getLast? with
          | none => exact h0 (List.getLast?_eq_none_iff.mp hx)
          | some x =>
            obtain ⟨ss1, rfl⟩ := List.getLast?_eq_some_iff.mp hx
            obtain ⟨bs, b, e4, _, e5⟩ := all2_snoc_inv h2
            rw [e4, List.getLast?_concat] at e3
            injection e3 with e3
            subst e3
            exact hl x hx ((isSeg_kind e5).1.mpr ⟨a', ha'⟩)
      | _ => rfl
  rw [he, finish_ok (render_ne h.2.2.2)]

theorem last_attr {cs : Bool} {qs : List Bytes} {x : Bytes} {segs : List Seg} (h : All2 IsSeg (qs ++ [x]) segs) (hx : AttrStep x) (hq : ∀ y, qs.getLast? = some y → ¬ (beforeBar y = b!"#" ∧ Collected x)) :
    ∃ sa t, segs = sa ++ [t] ∧ All2 IsSeg qs sa ∧ (lowIf cs t).kind = .attr (spelling cs ((beforeBar x).drop 1)) ∧ (fuseFields segs).map (lowIf cs) = (fuseFields sa).map (lowIf cs) ++ [lowIf cs t] := by
  obtain ⟨sa, t, rfl, h3, h4⟩ := all2_snoc_inv h
  refine ⟨sa, t, rfl, h3, isSeg_attr h4 hx, ?_⟩
  rw [fuse_keep, List.map_append]; rfl
  intro c hcl
  rcases List.eq_nil_or_concat qs with h0 | ⟨ps', y, h0⟩
  · subst h0; cases h3; cases hcl
  rw [List.concat_eq_append] at h0
  subst h0
  obtain ⟨sa', c', rfl, _, e2⟩ := all2_snoc_inv h3
  rw [List.getLast?_concat] at hcl
  injection hcl with hcl
  subst hcl
  have := hq y (by rw [List.getLast?_concat])
  cases hj : joined c' t with
  | none => rfl
  | some z => exact absurd (joined_collected e2 h4 |>.mp ⟨z, hj⟩) this

/-- C79: Set at an attribute of the element that the steps before it lead to gives the attribute the value, and changes nothing else but the way the attributes of the element are written. -/
theorem C79_set_attribute {o : Ord} (ho : o.IsPerm) (opts : Options) {c : Ctx} {e : El} (h : Editable (c.plug (e.cons .nil))) {qs : List Bytes} {x p : Bytes} (hp : PathSteps p (qs ++ [x])) (hx : AttrStep x)
    (hl : LeadTo opts.caseSensitive qs c e.name) {v : GoVal} {s : Bytes} (hv0 : v ≠ .nil) (hv : valueToXML v = some (escapeXML s)) (hw : (escapeXML s).length ≤ 5242880) :
    ∃ as, RetagBy opts.caseSensitive e ((beforeBar x).drop 1) (some s) as ∧
      setWithOptions o (c.plug (e.cons .nil)).render p v (some opts) = .ret (c.before ++ (e.retag as).render ++ c.after, none) := by
  obtain ⟨segs, h1, h2⟩ := parseOpt_reads hp (by simp) opts.caseSensitive
  obtain ⟨hs, ht, hr⟩ := hl
  obtain ⟨sa, rs, k1, k2, rfl, k3, k4⟩ := trail_split (cs := opts.caseSensitive) ht h2
  cases k2 with | @cons _ t _ rs k2 k5 =>
  cases k5
  have hk := isSeg_attr (cs := opts.caseSensitive) k2 hx
  simp only [fuseFields, List.map_cons, List.map_nil] at k4
  rw [k4] at h1
  rw [set_parsed (sound_valid (editable_sound h)) hv0 h1 (by simp)]
  obtain ⟨l, hf, hok⟩ := leadTo_found ho h k3 hr
  obtain ⟨as, g1, g2⟩ := retag_setB opts.caseSensitive hok.attrs ((beforeBar x).drop 1) s
  refine ⟨as, g1, ?_⟩
  have hpl := hopSegs_plainly k3 (reach_ne hr)
  have hin := hpl.intent [lowIf opts.caseSensitive t]
  have hin2 : indexIntent [lowIf opts.caseSensitive t] = none := by simp [indexIntent, hk]
  have hd := docMax
  have hv2 := valMax
  have he : setElement o opts.caseSensitive opts.indent (c.plug (e.cons .nil)).render (sa.map (lowIf opts.caseSensitive) ++ [lowIf opts.caseSensitive t]) v =
      replaceAttribute opts.caseSensitive (c.plug (e.cons .nil)).render l (spelling opts.caseSensitive ((beforeBar x).drop 1)) (escapeXML s) := by
    unfold setElement
    rw [List.getLast?_concat]
    simp only [hv, hin, hin2, hk, List.dropLast_concat, hf]
    rw [if_neg (by omega), if_neg (by have := h.1; omega)]
  rw [he, replaceAttribute_atB hok _ _ as g2, finish_ok (by simp [retag_render])]

/-- C79: Delete at such an attribute removes it, or changes nothing if there is none. -/
theorem C79_delete_attribute {o : Ord} (ho : o.IsPerm) (opts : Options) {c : Ctx} {e : El} (h : Editable (c.plug (e.cons .nil))) {qs : List Bytes} {x p : Bytes} (hp : PathSteps p (qs ++ [x])) (hx : AttrStep x)
    (hl : LeadTo opts.caseSensitive qs c e.name) :
    ((∀ j, sameKey opts.caseSensitive j ((beforeBar x).drop 1) → Spec.attrVal e.attrs j = none) →
      deleteWithOptions o (c.plug (e.cons .nil)).render p (some opts) = .ret ((c.plug (e.cons .nil)).render, none)) ∧
    (∀ j, sameKey opts.caseSensitive j ((beforeBar x).drop 1) → Spec.attrVal e.attrs j ≠ none → ∃ as, RetagBy opts.caseSensitive e ((beforeBar x).drop 1) none as ∧
      deleteWithOptions o (c.plug (e.cons .nil)).render p (some opts) = .ret (c.before ++ (e.retag as).render ++ c.after, none)) := by
  obtain ⟨segs, h1, h2⟩ := parseOpt_reads hp (by simp) opts.caseSensitive
  obtain ⟨hs, ht, hr⟩ := hl
  obtain ⟨sa, rs, k1, k2, rfl, k3, k4⟩ := trail_split (cs := opts.caseSensitive) ht h2
  cases k2 with | @cons _ t _ rs k2 k5 =>
  cases k5
  have hk := isSeg_attr (cs := opts.caseSensitive) k2 hx
  simp only [fuseFields, List.map_cons, List.map_nil] at k4
  rw [k4] at h1
  rw [delete_parsed (sound_valid (editable_sound h)) h1 (by simp)]
  generalize (beforeBar x).drop 1 = k at *
  obtain ⟨l, hf, hok⟩ := leadTo_found ho h k3 hr
  have hne : 0 < sa.length := by
    have := List.length_pos_iff.mpr (hopSegs_ne k3 (reach_ne hr)); simpa using this
  have hd := docMax
  have he : deleteElement o opts.caseSensitive (c.plug (e.cons .nil)).render (sa.map (lowIf opts.caseSensitive) ++ [lowIf opts.caseSensitive t]) =
      deleteAttribute opts.caseSensitive (c.plug (e.cons .nil)).render l (spelling opts.caseSensitive k) := by
    unfold deleteElement
    rw [List.getLast?_concat]
    simp only [hk, List.dropLast_concat, hf]
    rw [if_neg (by have := h.1; omega), if_neg (by simp; omega)]
  have hany : (l.attrs.map (·.1)).any (fun n => sameAttr opts.caseSensitive n (spelling opts.caseSensitive k)) = true ↔
      ∃ j, sameKey opts.caseSensitive j k ∧ Spec.attrVal e.attrs j ≠ none := by
    simp only [List.any_eq_true, sameAttr_key, decide_eq_true_eq]
    refine ⟨fun ⟨x, h1, h2⟩ => ⟨x, h2, ?_⟩, fun ⟨j, h1, h2⟩ => ⟨j, ?_, h1⟩⟩
    · rw [← get?_map hok.attrs, ne_eq, get?_none_iff, Classical.not_not]; exact h1
    · rw [← get?_map hok.attrs, ne_eq, get?_none_iff, Classical.not_not] at h2; exact h2
  rw [he, deleteAttribute]
  refine ⟨fun hn => ?_, fun j hj hn => ?_⟩
  · rw [if_neg (fun hh => by obtain ⟨j, h1, h2⟩ := hany.mp hh; exact h2 (hn j h1))]
    exact finish_ok (render_ne h.2.2.2.1)
  · rw [if_pos (hany.mpr ⟨j, hj, hn⟩)]
    obtain ⟨as, h1, h2⟩ := retag_deleteB opts.caseSensitive hok.attrs k
    refine ⟨as, h1, ?_⟩
    rw [plug_el_render, h2]
    have e1 : c.before ++ e.start ++ e.inner ++ e.stop ++ c.after = c.before ++ e.start ++ (e.inner ++ e.stop ++ c.after) := by simp
    rw [e1, splice_at hok.start hok.cstart, hok.name, hok.self, finish_ok (by simp), retag_render]
    simp

/-- C79: If the steps before the attribute lead nowhere, Delete changes nothing. -/
theorem C79_delete_attribute_nowhere {o : Ord} (ho : o.IsPerm) (opts : Options) {f : Forest} (h : Sound f) {qs : List Bytes} {x p : Bytes} (hp : PathSteps p (qs ++ [x])) (hx : AttrStep x) (h0 : qs ≠ [])
    (hn : LeadNowhere opts.caseSensitive qs f) : deleteWithOptions o f.render p (some opts) = .ret (f.render, none) := by
  obtain ⟨segs, h1, h2⟩ := parseOpt_reads hp (by simp) opts.caseSensitive
  have hd := docMax
  have hlen := h.1
  by_cases hq : ∀ y, qs.getLast? = some y → ¬ (beforeBar y = b!"#" ∧ Collected x)
  · obtain ⟨sa, t, rfl, k1, k2, k3⟩ := last_attr (cs := opts.caseSensitive) h2 hx hq
    rw [k3] at h1
    have hf := nowhere_none ho (sound_says h) h0 hn k1
    rw [delete_parsed (sound_valid h) h1 (by simp)]
    have hne : 0 < ((fuseFields sa).map (lowIf opts.caseSensitive)).length := by
      cases k1 with
      | nil => exact absurd rfl h0
      | @cons _ s _ sl => have := List.length_pos_iff.mpr (fuse_full s sl); simpa using this
    have he : deleteElement o opts.caseSensitive f.render ((fuseFields sa).map (lowIf opts.caseSensitive) ++ [lowIf opts.caseSensitive t]) = .ok f.render := by
      unfold deleteElement
      rw [List.getLast?_concat]
      simp only [k2, List.dropLast_concat, hf]
      rw [if_neg (by omega), if_neg (by rw [List.length_append]; simp only [List.length_cons, List.length_nil]; omega)]
    rw [he, finish_ok (render_ne h.2.2.2)]
  · have hq : ∃ y, qs.getLast? = some y ∧ beforeBar y = b!"#" ∧ Collected x := Classical.byContradiction fun hh => hq fun y h1 h2 => hh ⟨y, h1, h2⟩
    obtain ⟨y, hy, h3, h4⟩ := hq
    obtain ⟨qs', rfl⟩ := List.getLast?_eq_some_iff.mp hy
    obtain ⟨sa, t, rfl, k1, k2⟩ := all2_snoc_inv h2
    obtain ⟨sb, u, rfl, k3, k4⟩ := all2_snoc_inv k1
    obtain ⟨z, hz⟩ := (joined_collected k4 k2).mpr ⟨h3, h4⟩
    obtain ⟨_, ⟨fl, _, rfl⟩, _⟩ := joined_facts hz
    rw [List.append_assoc, List.singleton_append, fuse_take sb u t _ hz, List.map_append] at h1
    rw [delete_parsed (sound_valid h) h1 (by simp)]
    have hk : ∃ g, (lowIf opts.caseSensitive ⟨.field fl, t.mods⟩).kind = .field g := by cases opts.caseSensitive <;> exact ⟨_, rfl⟩
    obtain ⟨g, hk⟩ := hk
    have hnone : findLoc o opts.caseSensitive ((fuseFields sb).map (lowIf opts.caseSensitive) ++ [lowIf opts.caseSensitive ⟨.field fl, t.mods⟩]) f.render 0 = none :=
      findLoc_never (never_kind.mpr (by rw [hk]; simp)) _ [] _ _
    have he : deleteElement o opts.caseSensitive f.render ((fuseFields sb).map (lowIf opts.caseSensitive) ++ [lowIf opts.caseSensitive ⟨.field fl, t.mods⟩]) = .ok f.render := by
      unfold deleteElement
      rw [List.getLast?_concat]
      simp only [hk, hnone]
      rw [if_neg (by omega)]
    simp only [List.map_cons, List.map_nil]
    rw [he, finish_ok (render_ne h.2.2.2)]

/-- C79: Where the path leads nowhere, Set goes to the element that the longest beginning leads to, and writes an element for every further step at the end of its content:
under its name, or without a name if the step is none. No other byte changes, except that a self-closing tag is opened. -/
theorem C79_create {o : Ord} (ho : o.IsPerm) (opts : Options) {c : Ctx} {e : El} (h : Editable (c.plug (e.cons .nil))) {ss ps rest : List Bytes} {p : Bytes} {ts : List (Option Bytes)}
    (hp : PathSteps p ss) (hd : Deepest opts.caseSensitive ss ps rest c e) (hneg : ∀ x ∈ rest, ∀ n, ¬ Negative x n) (hts : Slots opts.caseSensitive rest ts) (hl : ts.getLast? ≠ some none) :
    ∃ as ws, Opened e as ws ∧ ∀ (v : GoVal) (w : Bytes), v ≠ .nil → valueToXML v = some w → w.length ≤ 5242880 →
      setWithOptions o (c.plug (e.cons .nil)).render p v (some opts) =
        .ret (c.before ++ (openTag e.name as ws ++ b!">" ++ e.inner ++ slotLines opts.indent 0 ts w ++ closeTag e.name []) ++ c.after, none) := by
  have hsnd := editable_sound h
  obtain ⟨rfl, hmore, ⟨hs, ht, hr⟩, hlong⟩ := hd
  obtain ⟨segs, h1, h2⟩ := parseOpt_reads hp (by simp [hmore]) opts.caseSensitive
  obtain ⟨sa, rs, k1, k2, rfl, k3, k4⟩ := trail_split (cs := opts.caseSensitive) ht h2
  rw [k4] at h1
  have hsl := slots_parts opts.caseSensitive k2 hts
  have hrs : rs ≠ [] := by rintro rfl; cases k2; exact hmore rfl
  have hm1 : (fuseFields rs).map (lowIf opts.caseSensitive) ≠ [] := by
    cases rs with
    | nil => exact absurd rfl hrs
    | cons => intro hh; exact fuse_full _ _ (List.map_eq_nil_iff.mp hh)
  obtain ⟨as, ws, g1, g2⟩ := setElement_slots ho opts.indent h k3 hr hm1 (fun t ht0 => by
      obtain ⟨a, b, e1, e2, e3⟩ := fuse_prefix rs t ht0 hrs
      subst e1
      obtain ⟨qs, rest', rfl, k5⟩ := all2_prefix k2
      have hq : qs ≠ [] := by rintro rfl; cases k5; exact e2 rfl
      have := nowhere_none ho (sound_says hsnd) (ps := ps ++ qs) (by simp [hq]) (hlong (ps ++ qs) rest' (by simp) (by have := List.length_pos_iff.mpr hq; simp; omega)) (k1.append k5)
      rw [fuse_left _ _ (trail_count ht (by simp) k1), List.map_append] at this
      rw [← List.map_take, e3]
      exact this) (intent_none k2 hneg _) (last_slot hsl hl)
  refine ⟨as, ws, g1, fun v w hv0 hv hw => ?_⟩
  rw [set_parsed (sound_valid hsnd) hv0 h1 (by simp [hm1]), g2 v w hv hw, hsl, finish_ok (by simp)]

/-- C79: If the first step is a name that no root element has, Set writes a further root element at the end of the document. -/
theorem C79_create_top {o : Ord} (ho : o.IsPerm) (opts : Options) {f : Forest} (h : Sound f) {x : Bytes} {rest : List Bytes} {p : Bytes} {ts : List (Option Bytes)}
    (hp : PathSteps p (x :: rest)) (hx : NameStep x) (hn : LeadNowhere opts.caseSensitive [x] f) (hneg : ∀ y ∈ x :: rest, ∀ n, ¬ Negative y n) (hts : Slots opts.caseSensitive (x :: rest) ts)
    (hl : ts.getLast? ≠ some none) {v : GoVal} {w : Bytes} (hv0 : v ≠ .nil) (hv : valueToXML v = some w) (hw : w.length ≤ 5242880) :
    setWithOptions o f.render p v (some opts) = .ret (f.render ++ slotLines opts.indent 0 ts w, none) := by
  obtain ⟨segs, h1, h2⟩ := parseOpt_reads hp (by simp) opts.caseSensitive
  have hsl := slots_parts opts.caseSensitive h2 hts
  have hla := last_slot hsl hl
  have hin := intent_none h2 hneg opts.caseSensitive
  cases h2 with
  | @cons _ s _ segs h3 h4 =>
    have hq := lowIf_asks (cs := opts.caseSensitive) h3 (.name hx)
    have hc : s.kind ≠ .count := (lowIf_asks (cs := true) h3 (.name hx)).count
    rw [fuseFields_cons hc, List.map_cons] at h1 hsl hla hin
    obtain ⟨n, hk⟩ := (lowIf_kind opts.caseSensitive s).2.1.mpr ((isSeg_kind h3).2.2.1.mp hx)
    have hemp : (topElems o f.render).filter (fun e => (lowIf opts.caseSensitive s).matchesOpt e.name opts.caseSensitive) = [] := by
      have := nowhere_none ho (sound_says h) (by simp) hn (All2.cons h3 .nil)
      simp only [fuseFields, List.map_cons, List.map_nil] at this
      rw [findLoc, if_neg (by rw [maxPos]; omega)] at this
      cases hf : (topElems o f.render).filter (fun e => (lowIf opts.caseSensitive s).matchesOpt e.name opts.caseSensitive) with
      | nil => rfl
      | cons e l => rw [hf] at this; simp at this
    rw [set_parsed (sound_valid h) hv0 h1 (by simp), setElement_sibling opts.indent h.1 (render_ne h.2.2.2) hk hemp hin hla hv hw, hsl, finish_ok (by simp [render_ne h.2.2.2])]

/-- C79: If the first step is neither a name nor a wildcard, Set writes all of the path at the end of the first root element. -/
theorem C79_create_root {o : Ord} (ho : o.IsPerm) (opts : Options) {b a : Forest} {e : El} (h : Editable ((Ctx.here b a).plug (e.cons .nil))) (hb : b.info.elems = []) {p x : Bytes} {rest : List Bytes} {ts : List (Option Bytes)}
    (hp : PathSteps p (x :: rest)) (hx : ∀ k, ¬ Asks x k) (hneg : ∀ y ∈ x :: rest, ∀ n, ¬ Negative y n) (hts : Slots opts.caseSensitive (x :: rest) ts) (hl : ts.getLast? ≠ some none) :
    ∃ as ws, Opened e as ws ∧ ∀ (v : GoVal) (w : Bytes), v ≠ .nil → valueToXML v = some w → w.length ≤ 5242880 →
      setWithOptions o ((Ctx.here b a).plug (e.cons .nil)).render p v (some opts) =
        .ret (b.render ++ (openTag e.name as ws ++ b!">" ++ e.inner ++ slotLines opts.indent 0 ts w ++ closeTag e.name []) ++ a.render, none) := by
  obtain ⟨segs, h1, h2⟩ := parseOpt_reads hp (by simp) opts.caseSensitive
  cases h2 with
  | cons h3 h4 => exact C69_root ho opts h hb hp (asks_blind h3 hx) hneg hts hl

/-- C79: One of these cases applies to any steps in any document: they lead to an element, or a beginning of them does, or the first step is a name that no root element has, or it is
neither a name nor a wildcard. -/
theorem C79_cases (cs : Bool) {f : Forest} (h : f.HasElem) (x : Bytes) (rest : List Bytes) :
    (∃ c e, f = c.plug (El.cons e .nil) ∧ LeadTo cs (x :: rest) c e.name) ∨
    (∃ ps rest' c e, f = c.plug (El.cons e .nil) ∧ Deepest cs (x :: rest) ps rest' c e) ∨
    (NameStep x ∧ LeadNowhere cs [x] f) ∨
    ((∀ k, ¬ Asks x k) ∧ ∃ b a e, f = (Ctx.here b a).plug (El.cons e .nil) ∧ b.info.elems = []) := by
  rcases lead_or cs (x :: rest) f with h1 | h1
  · exact .inl h1
  rcases deepest_or cs (x :: rest) f h1 with h2 | h2
  · exact .inr (.inl h2)
  have h3 := h2 [x] rest rfl
  by_cases hk : ∃ k, Asks x k
  · obtain ⟨k, hk⟩ := hk
    cases hk with
    | name hn => exact .inr (.inr (.inl ⟨hn, h3⟩))
    | any ha => obtain ⟨c, e, g1, g2⟩ := any_leads (cs := cs) h (.any ha); exact absurd g2 (h3 c e g1)
  · refine .inr (.inr (.inr ⟨fun k hh => hk ⟨k, hh⟩, ?_⟩))
    obtain ⟨c, e, g1, hs, g2, g3⟩ := any_leads (cs := cs) (x := b!"*") h (.any (.inl (by decide)))
    have := trail_fun g2 (.first (.any (.inl (by decide))) (by simp) .nil)
    simp only [Option.map_some, Option.some.injEq] at this
    subst this
    cases c with
    | within => simp [Reach] at g3
    | here b a =>
      refine ⟨b, a, e, g1, ?_⟩
      have := g3.2
      rw [Info.count] at this
      exact List.eq_nil_iff_forall_not_mem.mpr (by simpa [Pick.takes] using this)

/-- C79: No two of them apply to the same, and where a beginning of the steps is the longest that leads to an element, no other is. -/
theorem C79_apart {cs : Bool} {f : Forest} {x : Bytes} {rest : List Bytes} :
    ((∃ c e, f = c.plug (El.cons e .nil) ∧ LeadTo cs (x :: rest) c e.name) → ¬ ∃ ps rest' c e, f = c.plug (El.cons e .nil) ∧ Deepest cs (x :: rest) ps rest' c e) ∧
    (LeadNowhere cs [x] f ∨ (∀ k, ¬ Asks x k) → (∀ c e, f = c.plug (El.cons e .nil) → ∀ qs r, x :: rest = qs ++ r → ¬ LeadTo cs qs c e.name)) ∧
    ∀ ps r c e ps' r' c' e', f = c.plug (El.cons e .nil) → f = c'.plug (El.cons e' .nil) → Deepest cs (x :: rest) ps r c e → Deepest cs (x :: rest) ps' r' c' e' → ps = ps' ∧ r = r' ∧ c = c' ∧ e = e' := by
  refine ⟨?_, ?_, ?_⟩
  · rintro ⟨c, e, h1, h2⟩ ⟨ps, rest', d, y, h3, h4⟩
    have := h4.longest (x :: rest) [] (by simp) (by
      have := congrArg List.length h4.split
      have := List.length_pos_iff.mpr h4.more
      simp only [List.length_append] at *; omega) c e (by rw [← h3, h1])
    exact this h2
  · intro h c e he qs r hq hl
    cases qs with
    | nil => exact leadTo_full hl rfl
    | cons y qs =>
      injection hq with h1 h2
      subst h1
      obtain ⟨hs, ht, hr⟩ := hl
      have hask : ∃ k, Asks x k := by
        apply Classical.byContradiction
        intro hno
        have := trail_fun ht (.lost fun k hk => hno ⟨k, hk⟩)
        cases this
      obtain ⟨k, hk⟩ := hask
      rcases h with h | h
      · have hh : ∃ j hs', hs = (k, j) :: hs' := by
          generalize ho : some hs = t at ht
          cases ht with
          | nth hp hd hj ht =>
            rename_i t
            cases t with
            | none => cases ho
            | some t => injection ho with ho; rw [ho, asks_fun hp hk]; exact ⟨_, _, rfl⟩
          | negative => cases ho
          | first hp hd ht =>
            rename_i t
            cases t with
            | none => cases ho
            | some t => injection ho with ho; rw [ho, asks_fun hp hk]; exact ⟨_, _, rfl⟩
          | lost => cases ho
        obtain ⟨j, hs', rfl⟩ := hh
        have hsp := reach_spot hr
        rw [← he] at hsp
        have h0 : f.info.elems.filter (fun e => k.takes cs e.name) ≠ [] := by
          intro h0
          cases hs' with
          | nil => rw [Info.spot, h0] at hsp; cases hsp
          | cons => rw [spot_cons _ _ _ _ (by simp), h0] at hsp; cases hsp
        cases hs : f.info.elems.filter (fun e => k.takes cs e.name) with
        | nil => exact h0 hs
        | cons nd l =>
          have : f.info.spot cs [(k, 0)] = some nd := by rw [Info.spot, hs]; rfl
          obtain ⟨c', e', g1, g2, -⟩ := spot_reach this
          exact h c' e' g1 ⟨[(k, 0)], .first hk (by simp) .nil, g2⟩
      · exact h k hk
  · intro ps r c e ps' r' c' e' h1 h2 d1 d2
    have hlen : ps.length = ps'.length := by
      rcases Nat.lt_trichotomy ps.length ps'.length with h | h | h
      · exact absurd d2.leads (d1.longest ps' r' d2.split h c' e' (by rw [← h1, h2]))
      · exact h
      · exact absurd d1.leads (d2.longest ps r d1.split h c e (by rw [← h2, h1]))
    obtain ⟨rfl, rfl⟩ := List.append_inj (d1.split.symm.trans d2.split) hlen
    obtain ⟨rfl, rfl⟩ := leadTo_unique (h1.symm.trans h2) d1.leads d2.leads
    exact ⟨rfl, rfl, rfl, rfl⟩

/-! ### examples -/

theorem nowhere_trail {cs : Bool} {ss : List Bytes} {f : Forest} (h : Trail ss none) : LeadNowhere cs ss f := by
  rintro c e - ⟨hs, ht, -⟩
  have := trail_fun h ht
  cases this

theorem nowhere_spot {cs : Bool} {ss : List Bytes} {f : Forest} {hs : List Hop} (h : Trail ss (some hs)) (hn : f.info.spot cs hs = none) : LeadNowhere cs ss f := by
  rintro c e he ⟨hs', ht, hr⟩
  have := trail_fun h ht
  injection this with this
  subst this
  have := reach_spot hr
  rw [← he, hn] at this
  cases this

/-- A position that is no number is 0. -/
theorem place_zero {p : Bytes} (h : Position p) (hb : c!"|" ∉ p) (h0 : atoi p = 0) (hn : p.head? ≠ some c!"-") : Place p (some 0) := by
  obtain ⟨j, hj⟩ := place_total p
  cases j with
  | none =>
    cases hj with
    | negative hg => exact absurd hg (not_negative (by rw [beforeBar_plain hb]; exact hn) _)
  | some j =>
    have := place_exact hj h hb
    have : j = 0 := by omega
    subst this
    exact hj

theorem exDate : Trail [b!"*", b!"2024-01-02", b!"a", b!"1"] (some [(.any, 0), (.name b!"a", 1)]) :=
  .nth (t := some _) (j := 0) (.any (by decide)) (by unfold Position; decide +kernel) (place_zero (by unfold Position; decide +kernel) (by decide) (by decide +kernel) (by decide))
    (.nth (t := some _) (j := 1) (.name (name_step (by decide))) (by unfold Position; decide +kernel) (.number (ds := b!"1") (rest := []) rfl (.digit 49 (by decide)) (.inl rfl)) .nil)

/-- A date is a position, and counts as 0. -/
example : setWithOptions exEnv.ord b!"<!--x--><r v='1' ><a k=\"&lt;\">x</a> <a><b>y</b></a><c j=\"1\"/></r>" b!"*.2024-01-02.a.1" (.str b!"z") (some defaultOptions) =
    .ret (b!"<!--x--><r v='1' ><a k=\"&lt;\">x</a> <a>z</a><c j=\"1\"/></r>", none) := by
  have := C79_set (o := exEnv.ord) exEnv_perm defaultOptions exEdit (ss := [b!"*", b!"2024-01-02", b!"a", b!"1"]) (p := b!"*.2024-01-02.a.1")
    (pathSteps_by (by decide) (by decide) (by decide +kernel) (by decide +kernel)) ⟨_, exDate, rfl, by decide +kernel, rfl, by decide +kernel⟩ (v := .str b!"z") (w := b!"z") (by simp) rfl (by decide)
  rw [exEdit_render] at this
  exact this.trans (by decide +kernel)

theorem exTwice : Deepest true [b!"*", b!"2024-01-02", b!"a", b!"1", b!"2"] [b!"*", b!"2024-01-02", b!"a", b!"1"] [b!"2"] exCtx exEl where
  split := rfl
  more := by simp
  leads := ⟨_, exDate, rfl, by decide +kernel, rfl, by decide +kernel⟩
  longest := by
    intro qs rest h1 h2
    have h3 := congrArg List.length h1
    simp at h2 h3
    have : rest = [] := List.eq_nil_of_length_eq_zero (by omega)
    subst this
    rw [List.append_nil] at h1
    subst h1
    refine nowhere_trail (.nth (t := none) (j := 0) (.any (by decide)) (by unfold Position; decide +kernel) (place_zero (by unfold Position; decide +kernel) (by decide) (by decide +kernel) (by decide)) (.nth (t := none) (j := 1) (.name (name_step (by decide)))
      (by unfold Position; decide +kernel) (.number (ds := b!"1") (rest := []) rfl (.digit 49 (by decide)) (.inl rfl)) (.lost ?_)))
    intro k hk
    cases hk with
    | name h => exact h.2.2.2.2 (by decide +kernel)
    | any h => exact absurd h (by decide)

/-- A position after a position leads nowhere: an element without a name is written. -/
example (v : GoVal) (w : Bytes) (hv0 : v ≠ .nil) (hv : valueToXML v = some w) (hw : w.length ≤ 5242880) :
    setWithOptions exEnv.ord b!"<!--x--><r v='1' ><a k=\"&lt;\">x</a> <a><b>y</b></a><c j=\"1\"/></r>" b!"*.2024-01-02.a.1.2" v (some defaultOptions) =
      .ret (exCtx.before ++ (b!"<a><b>y</b><>" ++ w ++ b!"</></a>") ++ exCtx.after, none) := by
  obtain ⟨as, ws, h1, h2⟩ := C79_create (o := exEnv.ord) exEnv_perm defaultOptions exEdit (p := b!"*.2024-01-02.a.1.2") (ts := [some []]) (pathSteps_by (by decide) (by decide) (by decide +kernel) (by decide +kernel)) exTwice
    (fun x hx => not_negative (by revert x hx; decide)) (.other (fun h => h.2.2.2.2 (by decide +kernel)) (by unfold AttrStep; decide) (fun h => absurd h.1 (by decide)) .nil) (by decide)
  obtain ⟨rfl, rfl⟩ := h1.kept (by simp [exEl])
  have := h2 v w hv0 hv hw
  rw [exEdit_render] at this
  rw [this]
  simp [slotLines, newLine, defaultOptions, exEl, El.inner, closeTag, Forest.render, openTag]

/-- There is no `x`: a further root element. -/
example (o : Ord) (ho : o.IsPerm) (v : GoVal) (w : Bytes) (hv0 : v ≠ .nil) (hv : valueToXML v = some w) (hw : w.length ≤ 5242880) :
    setWithOptions o b!"<r><a/></r>" b!"x.%.y" v (some defaultOptions) = .ret (b!"<r><a/></r><x><><y>" ++ w ++ b!"</y></></x>", none) := by
  have := C79_create_top ho defaultOptions (f := .node b!"r" [] [] (.leaf b!"a" [] [] .nil) [] .nil) (editable_sound (editable_of (by decide +kernel))) (x := b!"x") (rest := [b!"%", b!"y"]) (p := b!"x.%.y") (ts := [some b!"x", some [], some b!"y"])
    (pathSteps_by (by decide) (by decide) (by decide +kernel) (by decide +kernel)) (name_step (by decide))
    (nowhere_spot (hs := [(.name b!"x", 0)]) (.first (t := some []) (.name (name_step (by decide))) (by simp) .nil) (by decide +kernel)) (fun x hx => not_negative (by revert x hx; decide))
    (.name (name_step (by decide)) (.other (fun h => absurd h (by unfold NameStep; decide +kernel)) (by unfold AttrStep; decide) (fun h => absurd h.1 (by decide)) (.name (name_step (by decide)) .nil))) (by decide) hv0 hv hw
  refine this.trans ?_
  simp [slotLines, newLine, defaultOptions, closeTag, Forest.render, openTag]

/-- An attribute of an element that is not there. -/
example (o : Ord) (ho : o.IsPerm) : deleteWithOptions o b!"<r><a/></r>" b!"r.#.@k" (some defaultOptions) = .ret (b!"<r><a/></r>", none) :=
  C79_delete_attribute_nowhere ho defaultOptions (f := .node b!"r" [] [] (.leaf b!"a" [] [] .nil) [] .nil) (editable_sound (editable_of (by decide +kernel))) (qs := [b!"r", b!"#"]) (x := b!"@k")
    (pathSteps_by (by decide) (by decide) (by decide +kernel) (by decide +kernel)) (by unfold AttrStep; decide) (by simp)
    (nowhere_trail (.first (t := none) (.name (name_step (by decide))) (by intro d hd; simp at hd; subst hd; exact fun h => absurd h (by unfold Position; decide +kernel)) (.lost fun k hk => by
      cases hk with
      | name h => exact h.2.2.2.1 (by decide)
      | any h => exact absurd h (by decide))))

/-- A date, a huge position, a position that follows another, one that is negative, and attributes. -/
theorem C79_witness : setWithOptions exEnv.ord b!"<r><a/></r>" b!"r.2024-01-02.a.@k" (.str b!"v") (some defaultOptions) = .ret (b!"<r><a k=\"v\"/></r>", none) ∧
    setWithOptions exEnv.ord b!"<r><a/></r>" b!"r.a.99999999999999999999" (.str b!"v") (some defaultOptions) = .ret (b!"<r><a><>v</></a></r>", none) ∧
    deleteWithOptions exEnv.ord b!"<r><a/><a/></r>" b!"r.a.1.1" (some defaultOptions) = .ret (b!"<r><a/><a/></r>", none) ∧
    deleteWithOptions exEnv.ord b!"<r><a/><a/></r>" b!"r.a.-2" (some defaultOptions) = .ret (b!"<r><a/><a/></r>", none) ∧
    deleteWithOptions exEnv.ord b!"<r><a/><a k=\"1\"/></r>" b!"r.a.1.@k" (some defaultOptions) = .ret (b!"<r><a/><a/></r>", none) ∧
    deleteWithOptions exEnv.ord b!"<r><a/><a k=\"1\"/></r>" b!"R.*.1" (some { defaultOptions with caseSensitive := false }) = .ret (b!"<r><a/></r>", none) := by
  decide +kernel

end Verif.Props
