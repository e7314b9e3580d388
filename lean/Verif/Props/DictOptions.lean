import Verif.Lemmas.DictFold
import Verif.Props.PrefixOptions
/- C72 with options: documents are nested dictionaries without regard to case under SetWithOptions and DeleteWithOptions. -/
namespace Verif.Props
open Verif Verif.Spec

/-- The call with options for an operation on a dictionary. -/
def dictCallOpt (o : Ord) (opts : Options) (xml : Bytes) : DictOp → Outcome (Bytes × Option Err)
  | .put ns s => setWithOptions o xml (pathOf ns) (.str s) (some opts)
  | .drop ns => deleteWithOptions o xml (pathOf ns) (some opts)
  | .label ns k s => setWithOptions o xml (pathOf (ns ++ [c!"@" :: k])) (.str s) (some opts)
  | .unlabel ns k => deleteWithOptions o xml (pathOf (ns ++ [c!"@" :: k])) (some opts)

section
variable {opts : Options} (hcs : opts.caseSensitive = false) (hind : opts.indent = [])
include hcs

theorem dict_putF (hind : opts.indent = []) {o : Ord} (ho : o.IsPerm) {d : Dict} (hd : d.Fine 0) (ha : d.Apart) (hs : d.render.length ≤ 10485760) {ns : List Bytes} (hne : ns ≠ []) (hl : ns.length ≤ 100)
    (hns : ∀ n ∈ ns, Simple n) {s : Bytes} (hv : (escapeXML s).length ≤ 5242880) :
    setWithOptions o d.render (pathOf ns) (.str s) (some opts) = .ret (((DictOp.put (d.spell ns) s).on d).render, none) := by
  have hpl := simple_plain hns
  have hsp : spelling opts.caseSensitive = foldCase := by funext n; rw [hcs]; rfl
  have hr : (Forest.text [] d.forest).render = d.render := by simp [Forest.render, forest_render]
  rw [DictOp.on, change_const]
  rcases find_casesF hne d with ⟨y, hy⟩ | ⟨hmiss, hc⟩
  · have h0 : d ≠ .nil := by rintro rfl; rw [find_nil] at hy; cases hy
    have hE := dict_editable hd h0 hs
    obtain ⟨c, n, hL, hp, -, -, -, hz, -⟩ := dict_leadsF hns hd ha hy []
    rw [← hp] at hE
    have := set_existingB (opts := opts) ho (stepsText_names hpl) hl (e := slotEl n y) (by rw [hcs]; exact hL) hE (v := .str s) (by simp) rfl hv
    rw [hp, hr] at this
    rw [this, hy, ← List.nil_append (Dict.render _), ← hz]
    simp [El.render, El.start, El.stop, El.inner, slotEl, Dict.forest, Forest.render]
  · rw [hmiss]
    simp only [Option.getD_none]
    rcases hc with ⟨m, ks, rfl, hm⟩ | ⟨pre, m, ks, y, rfl, hpre, hm, hspl⟩
    · have hm' := hm
      rw [(get_spell_none hm).2] at hm'
      rw [spell_new hm, List.map_cons, change_new hm', dict_append_render, (change_fresh _ _ s).2]
      have hnew := C48_new_root o ho opts m ks hpl hl (.str s) _ (by simp) rfl hv
      rw [hsp, hind, chainLines_nil] at hnew
      by_cases h0 : d = .nil
      · subst h0
        exact hnew.2
      · have := hnew.1 _ (editable_sound (dict_editable hd h0 hs)) (by rw [hcs, dict_namedF (hns m (by simp)) hd ha, hm]; rfl)
        rwa [hr] at this
    · have h0 : d ≠ .nil := by rintro rfl; rw [find_nil] at hpre; cases hpre
      have hE := dict_editable hd h0 hs
      obtain ⟨c, n, hL, hp, hk, -, hap, hz, -⟩ := dict_leadsF (fun q hq => hns q (by simp [hq])) hd ha hpre []
      rw [← hp] at hE
      obtain ⟨as, ws, h1, h2⟩ := set_missingB (opts := opts) (parts := pre) ho (stepsText_names (fun q hq => hpl q (by simp [hq]))) (e := slotEl n y) (by rw [hcs]; exact hL) hE
      obtain ⟨rfl, rfl⟩ := h1.kept (by simp [slotEl])
      have := h2 m ks (fun q hq => hpl q (List.mem_append_right _ hq)) (by simpa using hl) (by
        rw [hcs, show (slotEl n y).kids = .text (escapeXML y.text) y.kids.forest from rfl, dict_namedF (hns m (by simp)) hk hap.kids, hm]; rfl) (.str s) _ (by simp) rfl hv
      rw [hp, hr, hsp, hind, chainLines_nil] at this
      have hm' := hm
      rw [(get_spell_none hm).2] at hm'
      rw [this, hspl, List.map_cons, change_append hpre, ← List.nil_append (Dict.render _), ← hz]
      congr 4
      simp only [El.render, El.start, El.stop, El.inner]
      simp [slotEl, Forest.render, forest_render, change_new hm', dict_append_render, (change_fresh _ _ s).2]

theorem dict_dropF {o : Ord} (ho : o.IsPerm) {d : Dict} (hd : d.Fine 0) (ha : d.Apart) (hs : d.render.length ≤ 10485760) (h0 : d ≠ .nil) {ns : List Bytes} (hne : ns ≠ []) (hl : ns.length ≤ 100)
    (hns : ∀ n ∈ ns, Simple n) : deleteWithOptions o d.render (pathOf ns) (some opts) = .ret (((DictOp.drop (d.spell ns)).on d).render, none) := by
  have hpl := simple_plain hns
  have hr : (Forest.text [] d.forest).render = d.render := by simp [Forest.render, forest_render]
  have hE := dict_editable hd h0 hs
  rw [DictOp.on]
  cases hy : d.find (d.spell ns) with
  | some y =>
    obtain ⟨c, n, hL, hp, -, -, -, -, hz⟩ := dict_leadsF hns hd ha hy []
    rw [← hp] at hE
    have := delete_existingB (opts := opts) ho (stepsText_names hpl) hl (e := slotEl n y) (by rw [hcs]; exact hL) hE
    rw [hp, hr, hz, List.nil_append] at this
    rw [this]
    simp only [dict_render_nil]
    split <;> rfl
  | none =>
    have := delete_missingB (opts := opts) ho (editable_says hE) (editable_valid hE) (stepsText_names hpl) (by simpa [firsts] using hne) hl (by rw [hcs]; exact follow_find_noneF hns hd ha hy [])
    rw [hr] at this
    rw [this, change_none (spell_ne hne d) hy rfl, if_neg h0]

theorem dict_label_foundF {o : Ord} (ho : o.IsPerm) {d : Dict} (hd : d.Fine 0) (ha : d.Apart) (hs : d.render.length ≤ 10485760) {ns : List Bytes} (hl : ns.length ≤ 99)
    (hns : ∀ n ∈ ns, Simple n) {k s : Bytes} (hk : IsName k) (hv : (escapeXML s).length ≤ 1048576) {y : Slot} (hy : d.find (d.spell ns) = some y)
    (hc : (putLabel (spellIn k (y.labels.map (·.1))) s y.labels).length ≤ 100) :
    setWithOptions o d.render (pathOf (ns ++ [c!"@" :: k])) (.str s) (some opts) = .ret (((DictOp.label (d.spell ns) (spellIn k (y.labels.map (·.1))) s).on d).render, none) := by
  have hr : (Forest.text [] d.forest).render = d.render := by simp [Forest.render, forest_render]
  have h0 : d ≠ .nil := by rintro rfl; rw [find_nil] at hy; cases hy
  have hE := dict_editable hd h0 hs
  obtain ⟨c, n, hL, hp, -, hlab, hap, hz, -⟩ := dict_leadsF hns hd ha hy []
  rw [← hp] at hE
  obtain ⟨as, h1, h2⟩ := set_attrB (opts := opts) ho (stepsText_names (simple_plain hns)) (by omega) (e := slotEl n y) (by rw [hcs]; exact hL) hE (name_noBar hk) (v := .str s) (s := s) (by simp) rfl (by omega)
  rw [hp, hr] at h2
  rw [hcs] at h1
  rw [DictOp.on, change_const, hy, h2, ← List.nil_append (Dict.render _), ← hz]
  have hfine := putLabel_fine hlab (spellIn_key hk hlab) hv hc
  have e : (slotEl n y).retag as = slotEl n { y with labels := putLabel (spellIn k (y.labels.map (·.1))) s y.labels } := by
    refine canonical_eq ⟨h1.neat, h1.sorted, rfl⟩ (slot_canonical hfine) rfl rfl ?_
    funext j
    rw [show ((slotEl n y).retag as).attrs = as from rfl, retagF h1 (ls := y.labels) (fun j => labels_val hlab j) hap.labels j,
      show (slotEl n { y with labels := putLabel (spellIn k (y.labels.map (·.1))) s y.labels }).attrs = (putLabel (spellIn k (y.labels.map (·.1))) s y.labels).map labelAttr from rfl,
      labels_val hfine, putLabel_val]
  rw [e]; rfl

theorem dict_unlabelF {o : Ord} (ho : o.IsPerm) {d : Dict} (hd : d.Fine 0) (ha : d.Apart) (hs : d.render.length ≤ 10485760) (h0 : d ≠ .nil) {ns : List Bytes} (hne : ns ≠ []) (hl : ns.length ≤ 99)
    (hns : ∀ n ∈ ns, Simple n) {k : Bytes} (hk : IsName k) :
    deleteWithOptions o d.render (pathOf (ns ++ [c!"@" :: k])) (some opts) = .ret ((((DictOp.unlabel ns k).spelt d).on d).render, none) := by
  have hr : (Forest.text [] d.forest).render = d.render := by simp [Forest.render, forest_render]
  have hE := dict_editable hd h0 hs
  have hps := stepsText_names (simple_plain hns)
  rw [DictOp.spelt]
  cases hy : d.find (d.spell ns) with
  | some y =>
    obtain ⟨c, n, hL, hp, -, hlab, hap, hz, -⟩ := dict_leadsF hns hd ha hy []
    rw [← hp] at hE
    obtain ⟨d1, d2⟩ := delete_attrB (opts := opts) ho hps (by omega) (e := slotEl n y) (by rw [hcs]; exact hL) hE (name_noBar hk)
    rw [hp, hr, hcs] at d1 d2
    simp only [Option.getD_some]
    obtain ⟨q, hq⟩ : ∃ q, spellIn k (y.labels.map (·.1)) = q := ⟨_, rfl⟩
    rw [hq, DictOp.on]
    have hfq : foldCase q = foldCase k := by rw [← hq]; exact spellIn_fold _ _
    have hf := filter_fine hlab (fun a => a.1 ≠ q)
    rw [change_const, hy]
    simp only [Option.map_some]
    have ha : (slotEl n y).attrs = y.labels.map labelAttr := rfl
    by_cases hx : ∀ j, sameKey false j k → Spec.attrVal (slotEl n y).attrs j = none
    · rw [d1 hx, ← List.nil_append (Dict.render (Dict.change _ _ _)), ← hz]
      have e : slotEl n y = slotEl n { y with labels := y.labels.filter (fun a => a.1 ≠ q) } := by
        refine canonical_eq (slot_canonical hlab) (slot_canonical hf) rfl rfl ?_
        funext j
        have hx := hx q hfq
        rw [ha] at hx ⊢
        rw [show (slotEl n { y with labels := y.labels.filter (fun a => a.1 ≠ q) }).attrs = (y.labels.filter (fun a => a.1 ≠ q)).map labelAttr from rfl, labels_val hf, filter_val, labels_val hlab]
        rw [labels_val hlab] at hx
        split
        · rename_i hj; rw [hj, hx]
        · rfl
      rw [← e, ← hr, ← hp, plug_el_render]; simp [El.render]
    · obtain ⟨j, hj⟩ := Classical.not_forall.mp hx
      obtain ⟨hj1, hj2⟩ := Classical.not_imp.mp hj
      obtain ⟨as, h1, h2⟩ := d2 j hj1 hj2
      rw [h2, ← List.nil_append (Dict.render _), ← hz]
      have e : (slotEl n y).retag as = slotEl n { y with labels := y.labels.filter (fun a => a.1 ≠ q) } := by
        refine canonical_eq ⟨h1.neat, h1.sorted, rfl⟩ (slot_canonical hf) rfl rfl ?_
        funext j
        rw [show ((slotEl n y).retag as).attrs = as from rfl, retagF h1 (ls := y.labels) (fun j => labels_val hlab j) hap.labels j, hq,
          show (slotEl n { y with labels := y.labels.filter (fun a => a.1 ≠ q) }).attrs = (y.labels.filter (fun a => a.1 ≠ q)).map labelAttr from rfl, labels_val hf, filter_val]
      rw [e]
  | none =>
    have := delete_attr_missingB (opts := opts) ho (editable_says hE) (editable_valid hE) hps (by simpa [firsts] using hne) (by omega) (by rw [hcs]; exact follow_find_noneF hns hd ha hy []) (name_noBar hk)
    rw [hr] at this
    rw [this, DictOp.on, change_none (spell_ne hne d) hy rfl]

end

theorem spelt_fits {d : Dict} (hd : d.Fine 0) {op : DictOp} (h : op.Fits d) (hl : ∀ ns k s, op = .label ns k s →
    (putLabel (spellIn k (((d.find (d.spell ns)).getD {}).labels.map (·.1))) s ((d.find (d.spell ns)).getD {}).labels).length ≤ 100) : (op.spelt d).Fits d := by
  have key : ∀ (ns : List Bytes) (k : Bytes), IsName k → IsName (spellIn k (((d.find (d.spell ns)).getD {}).labels.map (·.1))) := by
    intro ns k hk
    cases hf : d.find (d.spell ns) with
    | none => exact spellIn_key hk labelsFine_nil
    | some y => exact spellIn_key hk (find_fine hd hf).labels
  cases op with
  | put ns s => obtain ⟨h1, h2, h3, h4⟩ := h; exact ⟨spell_ne h1 d, by rw [spell_length]; exact h2, spell_simple h3 hd, h4⟩
  | drop ns => obtain ⟨h1, h2, h3, h4⟩ := h; exact ⟨spell_ne h1 d, by rw [spell_length]; exact h2, spell_simple h3 hd, h4⟩
  | label ns k s => obtain ⟨h1, h2, h3, h4, h5, -⟩ := h; exact ⟨spell_ne h1 d, by rw [spell_length]; exact h2, spell_simple h3 hd, key ns k h4, h5, hl ns k s rfl⟩
  | unlabel ns k => obtain ⟨h1, h2, h3, h4, h5⟩ := h; exact ⟨spell_ne h1 d, by rw [spell_length]; exact h2, spell_simple h3 hd, key ns k h4, h5⟩

theorem spelt_apart {d : Dict} (ha : d.Apart) (op : DictOp) : ((op.spelt d).on d).Apart := by
  have none_apart : ∀ {x : Option Slot}, (∀ y, x = some y → SlotApart y) → SlotApart (x.getD {}) := by
    intro x hx
    cases x with
    | none => exact ⟨fun a ha => (by cases ha), trivial⟩
    | some y => exact hx y rfl
  have hfa : ∀ ns, SlotApart ((d.find ns).getD {}) := fun ns => none_apart (fun y hy => find_apart ha hy)
  cases op with
  | put ns s =>
    refine apart_change ha (fun y hy => ?_)
    simp only [Option.some.injEq] at hy
    subst hy
    exact ⟨(hfa _).labels, trivial⟩
  | drop ns =>
    rw [DictOp.spelt, DictOp.on]
    split
    · exact ha
    · exact apart_change ha (fun y hy => by cases hy)
  | label ns k s =>
    refine apart_change ha (fun y hy => ?_)
    simp only [Option.some.injEq] at hy
    subst hy
    exact ⟨putLabel_apart (hfa _).labels, (hfa _).kids⟩
  | unlabel ns k =>
    refine apart_change ha (fun y hy => ?_)
    cases hf : d.find (d.spell ns) with
    | none => rw [hf] at hy; cases hy
    | some x =>
      rw [hf] at hy
      simp only [Option.map_some, Option.some.injEq] at hy
      subst hy
      have := find_apart ha hf
      exact ⟨fun a h1 b h2 => this.labels a (List.mem_filter.mp h1).1 b (List.mem_filter.mp h2).1, this.kids⟩

/-- On the empty document the elements are created first, too. -/
theorem set_attr_emptyB {opts : Options} (o : Ord) (ho : o.IsPerm) {ns : List Bytes} (hns : ∀ n ∈ ns, PlainName n) (hne : ns ≠ []) (hl : ns.length ≤ 99) {c : Ctx} {e : El}
    (hL : LeadsBy opts.caseSensitive (firsts ns) c e.name)
    (hed : Editable (c.plug (e.cons .nil))) (h1 : setWithOptions o [] (pathOf ns) (.str []) (some opts) = .ret ((c.plug (e.cons .nil)).render, none))
    {k : Bytes} (hk : c!"|" ∉ k) {v : GoVal} {w : Bytes} (hv0 : v ≠ .nil) (hv : valueToXML v = some w) (hw : w.length ≤ 5242880) :
    setWithOptions o [] (pathOf (ns ++ [c!"@" :: k])) v (some opts) = setWithOptions o (c.plug (e.cons .nil)).render (pathOf (ns ++ [c!"@" :: k])) v (some opts) := by
  have hne' : firsts ns ≠ [] := by simpa [firsts] using hne
  have hp := parseOpt_low opts.caseSensitive (parsePath_names ns [c!"@" :: k] hns hne (by simp; omega) _ (parseParts_attr hk))
  have hp0 := parseOpt_low opts.caseSensitive (parsePath_names ns [] hns hne (by simp; omega) [] rfl)
  have hss := stepSegs_low (cs := opts.caseSensitive) (stepSegs_names ns)
  have hf : findLoc o opts.caseSensitive (lowSegs opts.caseSensitive (ns.map nameSeg)) [] 0 = none := by
    refine findLoc_follow_noneB (i := .nil) ho hss (by rw [Reads, topElems_none (by simp [skipToNext])]; exact .nil) 0 ?_
    rw [followBy_low]
    cases ns with
    | nil => exact absurd rfl hne
    | cons n ns => cases ns <;> rfl
  rw [lowSegs_append] at hp hp0
  revert hp hp0 hss hf
  generalize lowSegs opts.caseSensitive (ns.map nameSeg) = ss
  intro hp hp0 hss hf
  simp only [fuseFields, List.append_nil, lowSegs_nil, lowSegs_attr] at hp hp0
  have hfin : (c.plug (e.cons .nil)).render ≠ [] := by
    intro hh
    have := editable_valid hed
    rw [hh] at this
    exact absurd this (by decide)
  have ent : ∀ {p : Bytes} {ss : List Seg} (_ : parsePathWithOptions p opts.caseSensitive = .ok ss) (_ : ss ≠ []) (v : GoVal) (_ : v ≠ .nil),
      setWithOptions o [] p v (some opts) = finish [] (setElement o opts.caseSensitive opts.indent [] ss v) := by
    intro p ss hp hne v hv
    unfold setWithOptions
    rw [if_neg (by simp [docMax]), if_neg (by simp), if_neg hv]
    simp only [effOpts, Option.getD_some, hp]
  obtain ⟨l, hl2, hok⟩ := editable_findLocB ho hss (leadsBy_low hL) hed
  rw [ent hp0 (stepSegs_ne hss (lowSteps_ne hne')) _ (by simp), setElement_stepsB hss (lowSteps_ne hne') (v := .str []) (w := []) rfl (by decide) (by simp), hf] at h1
  rw [ent hp (by simp) v hv0, set_entryB hed hp (by simp) v hv0, setElement_attrB hss hv hw (by simp), setElement_attrB hss hv hw hed.1, hf, hl2]
  simp only at h1 ⊢
  unfold createElementForAttribute
  cases hc : createElement o opts.caseSensitive opts.indent [] ss [] with
  | panic => rw [hc] at h1; simp [finish] at h1
  | err er => rw [hc] at h1; simp [finish] at h1
  | ok r =>
    rw [hc] at h1
    have hr : r = (c.plug (e.cons .nil)).render := by
      have : (getResult [] r) = (c.plug (e.cons .nil)).render := by simpa [finish] using h1
      unfold getResult at this
      split at this
      · exact absurd this.symm hfin
      · exact this
    subst hr
    simp only
    have hg : getResult [] (c.plug (e.cons .nil)).render = (c.plug (e.cons .nil)).render := by
      unfold getResult
      split
      · rename_i hh; exact absurd (by simpa using hh) hfin
      · rfl
    rw [hg]
    have := docMax
    have := hed.1
    rw [if_neg (by omega), hl2]
    simp only
    unfold replaceAttribute
    rw [plug_el_render]
    have e1 : ∀ z, c.before ++ e.start ++ e.inner ++ e.stop ++ z = c.before ++ e.start ++ (e.inner ++ e.stop ++ z) := by simp
    rw [e1, splice_at hok.start hok.cstart, finish_ok (by simp), finish_ok (by simp)]

theorem dict_labelF {opts : Options} (hcs : opts.caseSensitive = false) (hind : opts.indent = []) {o : Ord} (ho : o.IsPerm) {d : Dict} (hd : d.Fine 0) (ha : d.Apart)
    (hs : d.render.length ≤ 10485760) {ns : List Bytes} {k s : Bytes} (h1 : ns ≠ []) (h2 : ns.length ≤ 99) (h3 : ∀ n ∈ ns, Simple n) (h4 : IsName k) (h5 : (escapeXML s).length ≤ 1048576)
    (h7 : (putLabel (spellIn k (((d.find (d.spell ns)).getD {}).labels.map (·.1))) s ((d.find (d.spell ns)).getD {}).labels).length ≤ 100)
    (hr : (((DictOp.label ns k s).spelt d).on d).render.length ≤ 10485760) :
    setWithOptions o d.render (pathOf (ns ++ [c!"@" :: k])) (.str s) (some opts) = .ret ((((DictOp.label ns k s).spelt d).on d).render, none) := by
  rw [DictOp.spelt] at hr ⊢
  cases hy : d.find (d.spell ns) with
  | some y => rw [hy] at h7; exact dict_label_foundF hcs ho hd ha hs h2 h3 h4 h5 hy h7
  | none =>
    rw [hy] at h7 hr
    simp only [Option.getD_none] at h7 hr ⊢
    have hsk : spellIn k (List.map (fun x : Bytes × Bytes => x.1) []) = foldCase k := rfl
    rw [hsk] at h7 hr ⊢
    have hrd : (Forest.text [] d.forest).render = d.render := by simp [Forest.render, forest_render]
    have h1' := spell_ne h1 d
    have h3' := spell_simple h3 hd
    have hput := dict_putF hcs hind ho hd ha hs h1 (by omega) h3 (s := []) (by simp [escapeXML])
    have hd' : (DictOp.put (d.spell ns) []).on d = d.change (d.spell ns) (fun _ => some {}) := by rw [DictOp.on, change_const, hy]; rfl
    have hfd := dictOp_fine hd (op := .put (d.spell ns) []) ⟨h1', by rw [spell_length]; omega, h3', by simp [escapeXML]⟩
    have had := spelt_apart ha (.put ns [])
    rw [DictOp.spelt] at had
    rw [hd'] at hput hfd had
    have hsp : (d.change (d.spell ns) (fun _ => some {})).spell ns = d.spell ns := spell_change {}
    have he : (DictOp.label (d.spell ns) (foldCase k) s).on (d.change (d.spell ns) (fun _ => some {})) = (DictOp.label (d.spell ns) (foldCase k) s).on d := by
      rw [label_on, change_change _ _ _ _ rfl, label_on]
      refine Eq.symm ?_
      rw [change_const, hy]; rfl
    have hfind : (d.change (d.spell ns) (fun _ => some {})).find (d.spell ns) = some {} := change_find h1' _ _
    have hsz : (d.change (d.spell ns) (fun _ => some {})).render.length ≤ 10485760 := by
      refine Nat.le_trans ?_ hr
      obtain ⟨c, n, -, -, -, -, -, hz, -⟩ := dict_leads h3' hfd hfind []
      have z1 := hz {}
      have z2 := hz { labels := putLabel (foldCase k) s [] }
      rw [List.nil_append, change_self hfind] at z1
      rw [← he, label_on, change_const _ _ (Dict.change _ _ _), hfind]
      rw [List.nil_append] at z2
      simp only [Option.getD_some]
      rw [← z1, ← z2]
      simp [El.render, El.start, El.stop, El.inner, slotEl, openTag]
    have hfin : setWithOptions o (d.change (d.spell ns) (fun _ => some {})).render (pathOf (ns ++ [c!"@" :: k])) (.str s) (some opts) =
        .ret (((DictOp.label (d.spell ns) (foldCase k) s).on d).render, none) := by
      have := dict_label_foundF hcs ho hfd had hsz h2 h3 h4 h5 (y := {}) (by rw [hsp]; exact hfind) h7
      rw [hsp] at this
      rw [this, ← he]; rfl
    have hcd := change_ne_nil h1' {} d
    by_cases h6 : d = .nil
    · subst h6
      rw [show Dict.nil.render = [] from rfl] at hput ⊢
      have hE' := dict_editable hfd hcd hsz
      obtain ⟨c, n, hL, hp, -, -, -, -, -⟩ := dict_leadsF h3 hfd had (by rw [hsp]; exact hfind) []
      have hrd' : (Forest.text [] (Dict.nil.change (Dict.nil.spell ns) (fun _ => some {})).forest).render = (Dict.nil.change (Dict.nil.spell ns) (fun _ => some {})).render := by
        simp [Forest.render, forest_render]
      rw [← hrd', ← hp] at hput
      rw [← hp] at hE'
      rw [set_attr_emptyB o ho (simple_plain h3) h1 h2 (e := slotEl n {}) (by rw [hcs]; exact hL) hE' hput (name_noBar h4) (v := .str s) (by simp) rfl (by omega), hp, hrd']
      exact hfin
    · have hE := dict_editable hd h6 hs
      obtain ⟨ms, m, rfl⟩ : ∃ ms m, ns = ms ++ [m] := ⟨ns.dropLast, ns.getLast h1, (List.dropLast_concat_getLast h1).symm⟩
      obtain ⟨r, q1, q2⟩ := C49_create_attr opts (by rw [hind]; simp) o ho _ hE ms m (fun n hn => (h3 n hn).1) (by simp at h2; omega) (by rw [hcs]; exact follow_find_noneF h3 hd ha hy []) k
        (name_noBar h4) (.str s) _ (by simp) rfl (by omega)
      rw [hrd] at q1 q2
      rw [hput] at q1
      simp only [Outcome.ret.injEq, Prod.mk.injEq, and_true] at q1
      subst q1
      rw [q2, if_pos hsz]
      exact hfin

/-- An operation without regard to case fits: its path and value do, and the entry has at most 100 labels afterwards. -/
def DictOp.FitsFold (d : Dict) (op : DictOp) : Prop := (op.spelt d).Fits d ∧ match op with
  | .put ns _ | .drop ns => ∀ n ∈ ns, Simple n
  | .label ns k _ | .unlabel ns k => (∀ n ∈ ns, Simple n) ∧ IsName k

/-- C72: with CaseSensitive = false and no Indent, a document is a nested dictionary without regard to case: every call does to the entry (or label) that is the same
up to case what `C72_step` says, and adds entries and labels in lower case where there is none. -/
theorem C72_fold_step (opts : Options) (hcs : opts.caseSensitive = false) (hind : opts.indent = []) (o : Ord) (ho : o.IsPerm) (d : Dict) (hd : d.Fine 0) (ha : d.Apart)
    (hs : d.render.length ≤ 10485760) (op : DictOp) (hf : DictOp.FitsFold d op) (hr : ((op.spelt d).on d).render.length ≤ 10485760) :
    dictCallOpt o opts d.render op = .ret (((op.spelt d).on d).render, none) ∧ ((op.spelt d).on d).Fine 0 ∧ ((op.spelt d).on d).Apart := by
  have hne : ∀ ns, d.spell ns ≠ [] → ns ≠ [] := by rintro ns h rfl; exact h rfl
  refine ⟨?_, dictOp_fine hd hf.1, spelt_apart ha op⟩
  cases op with
  | put ns s =>
    obtain ⟨⟨h1, h2, -, h4⟩, h3⟩ := hf
    exact dict_putF hcs hind ho hd ha hs (hne _ h1) (by rwa [spell_length] at h2) h3 h4
  | drop ns =>
    obtain ⟨⟨h1, h2, -, h4⟩, h3⟩ := hf
    exact dict_dropF hcs ho hd ha hs h4 (hne _ h1) (by rwa [spell_length] at h2) h3
  | label ns k s =>
    obtain ⟨⟨h1, h2, -, -, h5, h7⟩, h3, h4⟩ := hf
    exact dict_labelF hcs hind ho hd ha hs (hne _ h1) (by rwa [spell_length] at h2) h3 h4 h5 h7 hr
  | unlabel ns k =>
    obtain ⟨⟨h1, h2, -, -, h5⟩, h3, h4⟩ := hf
    exact dict_unlabelF hcs ho hd ha hs h5 (hne _ h1) (by rwa [spell_length] at h2) h3 h4

/-- The dictionary after operations without regard to case. -/
def foldRun (d : Dict) (ops : List DictOp) : Dict := ops.foldl (fun d op => (op.spelt d).on d) d

/-- The operations fit, one after the other, and no document gets longer than 10 MiB. -/
def FitAllFold (d : Dict) : List DictOp → Prop
  | [] => True
  | op :: ops => DictOp.FitsFold d op ∧ ((op.spelt d).on d).render.length ≤ 10485760 ∧ FitAllFold ((op.spelt d).on d) ops

/-- C72: so does any number of calls. The start can be the empty document. -/
theorem C72_fold_run (opts : Options) (hcs : opts.caseSensitive = false) (hind : opts.indent = []) (o : Ord) (ho : o.IsPerm) (d : Dict) (hd : d.Fine 0) (ha : d.Apart)
    (hs : d.render.length ≤ 10485760) (ops : List DictOp) (hf : FitAllFold d ops) :
    Seq (fun xml op xml' => dictCallOpt o opts xml op = .ret (xml', none)) d.render ops (foldRun d ops).render ∧ (foldRun d ops).Fine 0 ∧ (foldRun d ops).Apart := by
  induction ops generalizing d with
  | nil => exact ⟨.nil _, hd, ha⟩
  | cons op ops ih =>
    obtain ⟨h1, h2, h3⟩ := hf
    obtain ⟨h4, h5, h6⟩ := C72_fold_step opts hcs hind o ho d hd ha hs op h1 h2
    obtain ⟨i1, i2, i3⟩ := ih _ h5 h6 h2 h3
    exact ⟨.cons h4 i1, i2, i3⟩

/-! ### reading -/

theorem dict_selectF (ns : List Bytes) (n : Bytes) (hns : ∀ q ∈ ns ++ [n], Simple q) {d : Nat} {x : Dict} (h : x.Fine d) (ha : x.Apart) (t : Bytes) :
    ∃ q, (Forest.text t x.forest).info.selectFold ns n = ((x.find (x.spell (ns ++ [n]))).map (fun y => (slotEl q y).node)).toList := by
  induction ns generalizing x d t with
  | nil =>
    have := dict_namedF (hns n (by simp)) h ha t
    exact ⟨spellIn n x.names, by
      simp only [Info.selectFold, Info.reachFold, List.flatMap_cons, List.flatMap_nil, List.append_nil]
      exact this⟩
  | cons m ns ih =>
    have e : ∀ i : Info, i.selectFold (m :: ns) n = (i.namedBy false m).flatMap (fun e => e.kids.selectFold ns n) := by
      intro i; simp only [Info.selectFold, Info.reachFold, List.flatMap_assoc]; rfl
    rw [e, dict_namedF (hns m (by simp)) h ha t, List.cons_append, spell_cons]
    obtain ⟨q, qs, hq⟩ : ∃ q qs, (((x.get (spellIn m x.names)).getD {}).kids).spell (ns ++ [n]) = q :: qs := by
      cases ns <;> exact ⟨_, _, rfl⟩
    cases hg : x.get (spellIn m x.names) with
    | none => rw [hg] at hq; rw [hq, find_cons, hg]; exact ⟨[], rfl⟩
    | some y =>
      obtain ⟨q', this⟩ := ih (fun q hq => hns q (List.mem_cons_of_mem _ hq)) (fine_slot h hg).kids (apart_slot ha hg).kids (escapeXML y.text)
      refine ⟨q', ?_⟩
      rw [hg, Option.getD_some] at hq
      simp only [Option.map_some, Option.toList_some, List.flatMap_cons, List.flatMap_nil, List.append_nil, Option.getD_some]
      rw [hq, find_cons, hg, Option.bind_some, ← hq]
      exact this

/-- C72: GetWithOptions without regard to case finds the entry that is the same up to case, and nothing else. -/
theorem C72_fold_read (opts : Options) (hcs : opts.caseSensitive = false) (env : Env) (ho : env.ord.IsPerm) (d : Dict) (hd : d.Fine 0) (ha : d.Apart) (h0 : d ≠ .nil)
    (hs : d.render.length ≤ 10485760) (ns : List Bytes) (hne : ns ≠ []) (hl : ns.length ≤ 100) (hns : ∀ n ∈ ns, Simple n) :
    match d.find (d.spell ns) with
    | none => getWithOptions env d.render (pathOf ns) (some opts) = .ret .null
    | some y => ∃ r, getWithOptions env d.render (pathOf ns) (some opts) = .ret r ∧ r.typ = .element ∧ r.toStr = trimSpace (y.text ++ y.kids.words) := by
  obtain ⟨pre, n, rfl⟩ : ∃ pre n, ns = pre ++ [n] := ⟨ns.dropLast, ns.getLast hne, (List.dropLast_concat_getLast hne).symm⟩
  have hr : (Forest.text [] d.forest).render = d.render := by simp [Forest.render, forest_render]
  have := C31_get_element env ho _ _ (editable_says (dict_editable hd h0 hs)) pre n (simple_plain hns) (by simp at hl; omega) opts hcs
  obtain ⟨q, hq⟩ := dict_selectF pre n hns hd ha []
  rw [hq, hr] at this
  cases hf : d.find (d.spell (pre ++ [n])) with
  | none => rw [hf] at this; exact this
  | some y =>
    rw [hf] at this
    obtain ⟨r, h1, h2⟩ := this
    refine ⟨r, h1, h2.typ, ?_⟩
    rw [h2.str]
    show unescapeXML (trimSpace ((escapeXML y.text).filter (fun c => c ≠ c!">") ++ y.kids.forest.info.allText)) = _
    rw [dict_allText, escape_noGt, ← escapeXML_append, trim_escape, unescape_escape]

/-- C72: and its text and its labels. -/
theorem C72_fold_parts (opts : Options) (hcs : opts.caseSensitive = false) (env : Env) (ho : env.ord.IsPerm) (d : Dict) (hd : d.Fine 0) (ha : d.Apart)
    (hs : d.render.length ≤ 10485760) (ns : List Bytes) (hl : ns.length ≤ 99) (hns : ∀ n ∈ ns, Simple n) (y : Slot) (hy : d.find (d.spell ns) = some y) :
    (∃ r, getWithOptions env d.render (pathOf (ns ++ [b!"%"])) (some opts) = .ret r ∧ r.typ = .string ∧ r.toStr = trimSpace y.text) ∧
    ∀ k v, IsName k → labelOf? (spellIn k (y.labels.map (·.1))) y.labels = some v → getWithOptions env d.render (pathOf (ns ++ [c!"@" :: k])) (some opts) = .ret (.ofAttr v) := by
  have h0 : d ≠ .nil := by rintro rfl; rw [find_nil] at hy; cases hy
  have hE := dict_editable hd h0 hs
  obtain ⟨c, x, hL, hp, -, hlab, hap, -, -⟩ := dict_leadsF hns hd ha hy []
  have hr : (Forest.text [] d.forest).render = d.render := by simp [Forest.render, forest_render]
  rw [← hp] at hE hr
  obtain ⟨r1, r2⟩ := plug_readable hE.2.1 hE.2.2.1
  have hne : ns ≠ [] := by rintro rfl; cases hy
  obtain ⟨pre, n, rfl⟩ : ∃ pre n, ns = pre ++ [n] := ⟨ns.dropLast, ns.getLast hne, (List.dropLast_concat_getLast hne).symm⟩
  rw [plug_render, el_render] at hr
  constructor
  · have hb : c.before ++ ((slotEl x y).render ++ c.after) = d.render := by rw [← hr]; simp
    obtain ⟨r, g1, g2⟩ := C73_text_options env ho opts c r1 (slotEl x y) r2 pre n (simple_plain hns) (by simp at hl; omega) (by rw [hcs]; exact hL) c.after (by rw [hb]; exact hs)
    rw [hb] at g1
    refine ⟨r, g1, g2.typ, ?_⟩
    rw [g2.str ⟨escape_quiet _, dict_quiet y.kids⟩]
    show unescapeXML (trimSpace ((escapeXML y.text).filter (fun c => c ≠ c!">") ++ y.kids.forest.info.ownText)) = _
    rw [dict_ownText, escape_noGt, List.append_nil, trim_escape, unescape_escape]
  · intro k v hk hv
    obtain ⟨⟨t1, t2, -⟩, ⟨t3, -⟩⟩ := r2
    have hb : c.before ++ (openTag x (y.labels.map labelAttr) [] ++ c!">" :: (((slotEl x y).inner ++ (slotEl x y).stop) ++ c.after)) = d.render := by
      rw [← hr]; simp [El.render, El.start, slotEl]
    have := C73_attribute_options env ho opts c r1 x t1 (y.labels.map labelAttr) t2 t3 [] (by simp) pre n k (spellIn k (y.labels.map (·.1))) v
      (by rw [hcs]; exact spellIn_fold _ _) (by rw [labels_val hlab]; exact hv) (fun _ a b u w h1 h2 h3 => by
        rw [labels_val hlab] at h1 h2
        obtain ⟨p, p1, p2⟩ := List.mem_map.mp (labelOf_mem.mp (by rw [h1]; simp))
        obtain ⟨q, q1, q2⟩ := List.mem_map.mp (labelOf_mem.mp (by rw [h2]; simp))
        rw [← p2, ← q2]
        exact hap.labels p p1 q q1 (by rw [p2, q2]; exact h3)) (name_noBar hk) (simple_plain hns) (by simp at hl; omega) (by rw [hcs]; exact hL) _ (by rw [hb]; exact hs)
    rw [hb] at this
    exact this

/-- Four calls on a document with upper and lower case: the spelling of the document stays, what is new is in lower case. -/
theorem C72_fold_witness :
    setWithOptions exEnv.ord b!"<Cfg Id=\"1\"><Port>80</Port></Cfg>" b!"CFG.port" (.str b!"81") (some ciOpts) = .ret (b!"<Cfg Id=\"1\"><Port>81</Port></Cfg>", none) ∧
    setWithOptions exEnv.ord b!"<Cfg Id=\"1\"><Port>81</Port></Cfg>" b!"cfg.Host.Name" (.str b!"x") (some ciOpts) =
      .ret (b!"<Cfg Id=\"1\"><Port>81</Port><host><name>x</name></host></Cfg>", none) ∧
    setWithOptions exEnv.ord b!"<Cfg Id=\"1\"><Port>81</Port></Cfg>" b!"cfg.@ID" (.str b!"2") (some ciOpts) = .ret (b!"<Cfg Id=\"2\"><Port>81</Port></Cfg>", none) ∧
    deleteWithOptions exEnv.ord b!"<Cfg Id=\"1\"><Port>81</Port></Cfg>" b!"cFG.@iD" (some ciOpts) = .ret (b!"<Cfg><Port>81</Port></Cfg>", none) := by
  refine ⟨?_, ?_, ?_, ?_⟩ <;> decide +kernel

/-- The hypotheses hold for that dictionary and those operations. -/
def cfgDict : Dict := .entry b!"Cfg" [(b!"Id", b!"1")] [] (.entry b!"Port" [] b!"80" .nil .nil) .nil

theorem C72_fold_example : cfgDict.render = b!"<Cfg Id=\"1\"><Port>80</Port></Cfg>" ∧
    (∀ o : Ord, o.IsPerm → setWithOptions o cfgDict.render b!"CFG.port" (.str b!"81") (some ciOpts) = .ret (b!"<Cfg Id=\"1\"><Port>81</Port></Cfg>", none)) := by
  refine ⟨by decide +kernel, fun o ho => ?_⟩
  have sm : ∀ n : Bytes, (IsName n ∧ c!":" ∉ n) → Simple n := fun _ h => h
  have h := C72_fold_step ciOpts rfl rfl o ho cfgDict
    ⟨sm _ (by decide +kernel), by omega, ⟨by decide, by decide, by decide +kernel, by decide⟩, ⟨sm _ (by decide +kernel), by omega, labelsFine_nil, trivial, rfl, trivial⟩, rfl, trivial⟩
    ⟨by unfold LabelsApart; decide, ⟨by unfold LabelsApart; decide, trivial, by decide, trivial⟩, by decide, trivial⟩
    (by decide +kernel) (.put [b!"CFG", b!"port"] b!"81")
    ⟨⟨by decide, by decide, by show ∀ n ∈ _, IsName n ∧ c!":" ∉ n; decide +kernel, by decide +kernel⟩, by show ∀ n ∈ _, IsName n ∧ c!":" ∉ n; decide +kernel⟩ (by decide +kernel)
  have e : (((DictOp.put [b!"CFG", b!"port"] b!"81").spelt cfgDict).on cfgDict).render = b!"<Cfg Id=\"1\"><Port>81</Port></Cfg>" := by decide +kernel
  rw [← e]
  exact h.1

/-- C72: entries that are the same up to case are not two entries for these calls: the first one counts, and after Delete the path still leads to an entry. -/
theorem C72_fold_alike :
    deleteWithOptions exEnv.ord b!"<r><A>1</A><a>2</a></r>" b!"r.a" (some ciOpts) = .ret (b!"<r><a>2</a></r>", none) ∧
    getWithOptions exEnv b!"<r><a>2</a></r>" b!"r.A" (some ciOpts) = .ret (.ofContent b!"2") := by decide +kernel

end Verif.Props
