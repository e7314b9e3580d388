import Verif.Lemmas.Dict
import Verif.Props.Set
import Verif.Props.Attr
import Verif.Props.Entry
import Verif.Props.Query
/- C72: documents are nested dictionaries, in which Set and Delete of paths of names put and remove. -/
namespace Verif.Props
open Verif Verif.Spec

/-- The call for an operation on a dictionary. -/
def dictCall (o : Ord) (xml : Bytes) : DictOp → Outcome (Bytes × Option Err)
  | .put ns s => set o xml (pathOf ns) (.str s)
  | .drop ns => delete o xml (pathOf ns)
  | .label ns k s => set o xml (pathOf (ns ++ [c!"@" :: k])) (.str s)
  | .unlabel ns k => delete o xml (pathOf (ns ++ [c!"@" :: k]))

theorem simple_plain {ns : List Bytes} (h : ∀ n ∈ ns, Simple n) : ∀ n ∈ ns, PlainName n := fun n hn => name_plain (h n hn).1

theorem dict_put {o : Ord} (ho : o.IsPerm) {d : Dict} (hd : d.Fine 0) (hs : d.render.length ≤ 10485760) {ns : List Bytes} (hne : ns ≠ []) (hl : ns.length ≤ 100)
    (hns : ∀ n ∈ ns, Simple n) {s : Bytes} (hv : (escapeXML s).length ≤ 5242880) :
    set o d.render (pathOf ns) (.str s) = .ret (((DictOp.put ns s).on d).render, none) := by
  have hpl := simple_plain hns
  have hr : (Forest.text [] d.forest).render = d.render := by simp [Forest.render, forest_render]
  rw [DictOp.on, change_const]
  rcases find_cases hne d with ⟨y, hy⟩ | ⟨hmiss, hc⟩
  · have h0 : d ≠ .nil := by rintro rfl; rw [find_nil] at hy; cases hy
    have hE := dict_editable hd h0 hs
    obtain ⟨c, n, hL, hp, -, -, -, hz, -⟩ := dict_leads hns hd hy []
    rw [← hp] at hE
    have := set_existing ho (stepsText_names hpl) hl (e := slotEl n y) hL hE (v := .str s) (by simp) rfl hv
    rw [hp, hr] at this
    rw [this, hy, ← List.nil_append (Dict.render _), ← hz]
    simp [El.render, El.start, El.stop, El.inner, slotEl, Dict.forest, Forest.render]
  · rw [hmiss]
    simp only [Option.getD_none]
    rcases hc with ⟨m, ks, rfl, hm⟩ | ⟨pre, m, ks, y, rfl, hpre, hm⟩
    · rw [change_new hm, dict_append_render, (change_fresh m ks s).2]
      by_cases h0 : d = .nil
      · subst h0
        rw [show Dict.nil.render = [] from rfl, set_empty o hpl hl (by simp) rfl hv]; rfl
      · have := C19_new_root o ho _ (editable_sound (dict_editable hd h0 hs)) m ks hpl hl (by rw [dict_named (hns m (by simp)) hd, hm]; rfl) (.str s) _ (by simp) rfl hv
        rwa [hr] at this
    · have h0 : d ≠ .nil := by rintro rfl; rw [find_nil] at hpre; cases hpre
      have hE := dict_editable hd h0 hs
      obtain ⟨c, n, hL, hp, -, hk, -, hz, -⟩ := dict_leads (fun q hq => hns q (by simp [hq])) hd hpre []
      rw [← hp] at hE
      obtain ⟨as, ws, h1, h2⟩ := set_missing ho (stepsText_names (fun q hq => hpl q (by simp [hq]))) (e := slotEl n y) hL hE
      obtain ⟨rfl, rfl⟩ := h1.kept (by simp [slotEl])
      have := h2 m ks (fun q hq => hpl q (List.mem_append_right _ hq)) (by simpa using hl) (by
        rw [show (slotEl n y).kids = .text (escapeXML y.text) y.kids.forest from rfl, dict_named (hns m (by simp)) hk, hm]; rfl) (.str s) _ (by simp) rfl hv
      rw [hp, hr] at this
      rw [this, change_append hpre, ← List.nil_append (Dict.render _), ← hz]
      congr 4
      have e : (slotEl n y).kids.render = escapeXML y.text ++ y.kids.render := by simp [slotEl, El.kids, Forest.render, forest_render]
      simp only [El.render, El.start, El.stop, El.inner, El.refill, append_render, e]
      simp [slotEl, Forest.render, forest_render, change_new hm, dict_append_render, (change_fresh m ks s).2]

theorem dict_drop {o : Ord} (ho : o.IsPerm) {d : Dict} (hd : d.Fine 0) (hs : d.render.length ≤ 10485760) (h0 : d ≠ .nil) {ns : List Bytes} (hne : ns ≠ []) (hl : ns.length ≤ 100)
    (hns : ∀ n ∈ ns, Simple n) : delete o d.render (pathOf ns) = .ret (((DictOp.drop ns).on d).render, none) := by
  have hpl := simple_plain hns
  have hr : (Forest.text [] d.forest).render = d.render := by simp [Forest.render, forest_render]
  have hE := dict_editable hd h0 hs
  rw [DictOp.on]
  cases hy : d.find ns with
  | some y =>
    obtain ⟨c, n, hL, hp, -, -, -, -, hz⟩ := dict_leads hns hd hy []
    rw [← hp] at hE
    have := delete_existing ho (stepsText_names hpl) hl (e := slotEl n y) hL hE
    rw [hp, hr, hz, List.nil_append] at this
    rw [this]
    simp only [dict_render_nil]
    split <;> rfl
  | none =>
    have := delete_missing ho (editable_says hE) (editable_valid hE) (stepsText_names hpl) (by simpa [firsts] using hne) hl (follow_find_none hns hd hy [])
    rw [hr] at this
    rw [this, change_none hne hy rfl, if_neg h0]

theorem dict_label_found {o : Ord} (ho : o.IsPerm) {d : Dict} (hd : d.Fine 0) (hs : d.render.length ≤ 10485760) {ns : List Bytes} (hl : ns.length ≤ 99)
    (hns : ∀ n ∈ ns, Simple n) {k s : Bytes} (hk : IsName k) (hv : (escapeXML s).length ≤ 1048576) {y : Slot} (hy : d.find ns = some y) (hc : (putLabel k s y.labels).length ≤ 100) :
    set o d.render (pathOf (ns ++ [c!"@" :: k])) (.str s) = .ret (((DictOp.label ns k s).on d).render, none) := by
  have hr : (Forest.text [] d.forest).render = d.render := by simp [Forest.render, forest_render]
  have h0 : d ≠ .nil := by rintro rfl; rw [find_nil] at hy; cases hy
  have hE := dict_editable hd h0 hs
  obtain ⟨c, n, hL, hp, -, -, hlab, hz, -⟩ := dict_leads hns hd hy []
  rw [← hp] at hE
  obtain ⟨as, h1, h2, -⟩ := set_attr ho (stepsText_names (simple_plain hns)) (by omega) (e := slotEl n y) hL hE (name_noBar hk) (v := .str s) (by simp) rfl (by omega)
  rw [hp, hr] at h2
  rw [DictOp.on, change_const, hy, h2, ← List.nil_append (Dict.render _), ← hz]
  have e : (slotEl n y).retag as = slotEl n { y with labels := putLabel k s y.labels } := by
    refine canonical_eq ⟨h1.neat, h1.sorted, rfl⟩ (slot_canonical (putLabel_fine hlab hk hv hc)) rfl rfl ?_
    rw [show ((slotEl n y).retag as).attrs = as from rfl, retag_on h1]
    funext j
    rw [show (slotEl n { y with labels := putLabel k s y.labels }).attrs = (putLabel k s y.labels).map labelAttr from rfl, labels_val (putLabel_fine hlab hk hv hc), putLabel_val,
      show (slotEl n y).attrs = y.labels.map labelAttr from rfl, labels_val hlab]
  rw [e]; rfl

theorem dict_unlabel {o : Ord} (ho : o.IsPerm) {d : Dict} (hd : d.Fine 0) (hs : d.render.length ≤ 10485760) (h0 : d ≠ .nil) {ns : List Bytes} (hne : ns ≠ []) (hl : ns.length ≤ 99)
    (hns : ∀ n ∈ ns, Simple n) {k : Bytes} (hk : IsName k) :
    delete o d.render (pathOf (ns ++ [c!"@" :: k])) = .ret (((DictOp.unlabel ns k).on d).render, none) := by
  have hr : (Forest.text [] d.forest).render = d.render := by simp [Forest.render, forest_render]
  have hE := dict_editable hd h0 hs
  have hps := stepsText_names (simple_plain hns)
  rw [DictOp.on]
  cases hy : d.find ns with
  | some y =>
    obtain ⟨c, n, hL, hp, -, -, hlab, hz, -⟩ := dict_leads hns hd hy []
    rw [← hp] at hE
    obtain ⟨d1, d2⟩ := delete_attr ho hps (by omega) (e := slotEl n y) hL hE (name_noBar hk)
    rw [hp, hr] at d1 d2
    have hf := filter_fine hlab (fun a => a.1 ≠ k)
    rw [change_const, hy]
    simp only [Option.map_some]
    have ha : (slotEl n y).attrs = y.labels.map labelAttr := rfl
    by_cases hx : attrVal (slotEl n y).attrs k = none
    · rw [d1 hx, ← List.nil_append (Dict.render (Dict.change _ _ _)), ← hz]
      have e : slotEl n y = slotEl n { y with labels := y.labels.filter (fun a => a.1 ≠ k) } := by
        refine canonical_eq (slot_canonical hlab) (slot_canonical hf) rfl rfl ?_
        funext j
        rw [ha] at hx ⊢
        rw [show (slotEl n { y with labels := y.labels.filter (fun a => a.1 ≠ k) }).attrs = (y.labels.filter (fun a => a.1 ≠ k)).map labelAttr from rfl, labels_val hf, filter_val, labels_val hlab]
        rw [labels_val hlab] at hx
        split
        · rename_i hj; rw [hj, hx]
        · rfl
      rw [← e, ← hr, ← hp, plug_el_render]; simp [El.render]
    · obtain ⟨as, h1, -, -, h2⟩ := d2 hx
      rw [h2, ← List.nil_append (Dict.render _), ← hz]
      have e : (slotEl n y).retag as = slotEl n { y with labels := y.labels.filter (fun a => a.1 ≠ k) } := by
        refine canonical_eq ⟨h1.neat, h1.sorted, rfl⟩ (slot_canonical hf) rfl rfl ?_
        rw [show ((slotEl n y).retag as).attrs = as from rfl, retag_on h1]
        funext j
        rw [show (slotEl n { y with labels := y.labels.filter (fun a => a.1 ≠ k) }).attrs = (y.labels.filter (fun a => a.1 ≠ k)).map labelAttr from rfl, labels_val hf, filter_val,
          ha, labels_val hlab]
      rw [e]
  | none =>
    have := delete_attr_missing ho (editable_says hE) (editable_valid hE) hps (by simpa [firsts] using hne) (by omega) (follow_find_none hns hd hy []) (name_noBar hk)
    rw [hr] at this
    rw [this, change_none hne hy rfl]

/-- The operation keeps the dictionary in order. -/
theorem dictOp_fine {d : Dict} (hd : d.Fine 0) {op : DictOp} (hf : op.Fits d) : (op.on d).Fine 0 := by
  cases op with
  | put ns s =>
    obtain ⟨h1, h2, h3, -⟩ := hf
    refine fine_change h3 (by omega) hd (fun y hy => ?_)
    simp only [Option.some.injEq] at hy
    subst hy
    refine ⟨?_, trivial⟩
    cases hx : d.find ns with
    | none => exact labelsFine_nil
    | some x => exact (find_fine hd hx).labels
  | drop ns =>
    obtain ⟨h1, h2, h3, -⟩ := hf
    rw [DictOp.on]
    split
    · exact hd
    · exact fine_change h3 (by omega) hd (fun y hy => by cases hy)
  | label ns k s =>
    obtain ⟨h1, h2, h3, h4, h5, h7⟩ := hf
    refine fine_change h3 (by omega) hd (fun y hy => ?_)
    simp only [Option.some.injEq] at hy
    subst hy
    cases hx : d.find ns with
    | none => rw [hx] at h7; exact ⟨putLabel_fine labelsFine_nil h4 h5 h7, trivial⟩
    | some x => rw [hx] at h7; have := find_fine hd hx; exact ⟨putLabel_fine this.labels h4 h5 h7, this.kids⟩
  | unlabel ns k =>
    obtain ⟨h1, h2, h3, -⟩ := hf
    refine fine_change h3 (by omega) hd (fun y hy => ?_)
    cases hx : d.find ns with
    | none => rw [hx] at hy; cases hy
    | some x =>
      rw [hx] at hy
      simp only [Option.map_some, Option.some.injEq] at hy
      subst hy
      have := find_fine hd hx
      exact ⟨filter_fine this.labels _, this.kids⟩

/-- On the empty document the elements are created first, too. -/
theorem set_attr_empty (o : Ord) (ho : o.IsPerm) {ns : List Bytes} (hns : ∀ n ∈ ns, PlainName n) (hne : ns ≠ []) (hl : ns.length ≤ 99) {c : Ctx} {e : El} (hL : Leads (firsts ns) c e.name)
    (hed : Editable (c.plug (e.cons .nil))) (h1 : set o [] (pathOf ns) (.str []) = .ret ((c.plug (e.cons .nil)).render, none))
    {k : Bytes} (hk : c!"|" ∉ k) {v : GoVal} {w : Bytes} (hv0 : v ≠ .nil) (hv : valueToXML v = some w) (hw : w.length ≤ 5242880) :
    set o [] (pathOf (ns ++ [c!"@" :: k])) v = set o (c.plug (e.cons .nil)).render (pathOf (ns ++ [c!"@" :: k])) v := by
  obtain ⟨m, ms, rfl⟩ : ∃ m ms, ns = m :: ms := by cases ns with | nil => exact absurd rfl hne | cons m ms => exact ⟨m, ms, rfl⟩
  have hp := parsePath_names (m :: ms) [c!"@" :: k] hns (by simp) (by simp at hl ⊢; omega) _ (parseParts_attr hk)
  have hp0 := parsePath_names (m :: ms) [] hns (by simp) (by simp at hl ⊢; omega) [] rfl
  have hss := stepSegs_names (m :: ms)
  simp only [fuseFields, List.append_nil] at hp hp0
  have hf : findLoc o true ((m :: ms).map nameSeg) [] 0 = none := by
    obtain ⟨ss', h1, h2⟩ := findLoc_step o (n := m) (j := 0) hss
    rw [h2 [] 0 (by rw [maxPos]; omega), topElems_none (by simp [skipToNext])]
    rfl
  have hfin : (c.plug (e.cons .nil)).render ≠ [] := by
    intro hh
    have := editable_valid hed
    rw [hh] at this
    exact absurd this (by decide)
  have ent : ∀ {p : Bytes} {ss : List Seg} (_ : parsePath p = .ok ss) (_ : ss ≠ []) (v : GoVal) (_ : v ≠ .nil), set o [] p v = finish [] (setElement o true [] [] ss v) := by
    intro p ss hp hne v hv
    unfold set setWithOptions
    rw [if_neg (by simp [docMax]), if_neg (by simp), if_neg hv]
    have e : (effOpts (some defaultOptions)).caseSensitive = true := rfl
    have e2 : (effOpts (some defaultOptions)).indent = [] := rfl
    rw [e, e2, parseOpt_true hp]
    cases ss with
    | nil => exact absurd rfl hne
    | cons s ss => rfl
  obtain ⟨l, hl2, hok⟩ := editable_findLoc ho hss hL hed
  rw [ent hp0 (by simp) _ (by simp), setElement_steps hss (by simp [firsts]) (v := .str []) (w := []) rfl (by decide) (by simp), hf] at h1
  rw [ent hp (by simp) v hv0, set_entry hed hp (by simp) v hv0, setElement_attr hss hv hw (by simp), setElement_attr hss hv hw hed.1, hf, hl2]
  simp only at h1 ⊢
  unfold createElementForAttribute
  cases hc : createElement o true [] [] ((m :: ms).map nameSeg) [] with
  | panic => rw [hc] at h1; simp [finish] at h1
  | err er => rw [hc] at h1; simp [finish] at h1
  | ok r =>
    rw [hc] at h1
    have hr : r = (c.plug (e.cons .nil)).render := by
      have : (getResult [] r) = (c.plug (e.cons .nil)).render := by simpa [finish] using h1
      unfold getResult at this
      split at this
      · exact absurd this.symm hfin
      · exact this
    subst hr
    simp only
    have hg : getResult [] (c.plug (e.cons .nil)).render = (c.plug (e.cons .nil)).render := by
      unfold getResult
      split
      · rename_i hh; exact absurd (by simpa using hh) hfin
      · rfl
    rw [hg]
    have := docMax
    have := hed.1
    rw [if_neg (by omega), hl2]
    simp only
    unfold replaceAttribute
    rw [plug_el_render]
    have e1 : ∀ z, c.before ++ e.start ++ e.inner ++ e.stop ++ z = c.before ++ e.start ++ (e.inner ++ e.stop ++ z) := by simp
    rw [e1, splice_at hok.start hok.cstart, finish_ok (by simp), finish_ok (by simp)]

theorem label_on (ns : List Bytes) (k s : Bytes) (d : Dict) : (DictOp.label ns k s).on d =
    d.change ns (fun o => some { o.getD {} with labels := putLabel k s (o.getD {}).labels }) := rfl

theorem dict_label {o : Ord} (ho : o.IsPerm) {d : Dict} (hd : d.Fine 0) (hs : d.render.length ≤ 10485760) {ns : List Bytes} {k s : Bytes}
    (hf : (DictOp.label ns k s).Fits d) (hr : ((DictOp.label ns k s).on d).render.length ≤ 10485760) :
    set o d.render (pathOf (ns ++ [c!"@" :: k])) (.str s) = .ret (((DictOp.label ns k s).on d).render, none) := by
  obtain ⟨h1, h2, h3, h4, h5, h7⟩ := hf
  cases hy : d.find ns with
  | some y => rw [hy] at h7; exact dict_label_found ho hd hs h2 h3 h4 h5 hy h7
  | none =>
    have hrd : (Forest.text [] d.forest).render = d.render := by simp [Forest.render, forest_render]
    obtain ⟨ms, m, rfl⟩ : ∃ ms m, ns = ms ++ [m] := ⟨ns.dropLast, ns.getLast h1, (List.dropLast_concat_getLast h1).symm⟩
    have hput := dict_put ho hd hs h1 (by omega) h3 (s := []) (by simp [escapeXML])
    have hfd := dictOp_fine hd (op := .put (ms ++ [m]) []) ⟨h1, by omega, h3, by simp [escapeXML]⟩
    have hd' : (DictOp.put (ms ++ [m]) []).on d = d.change (ms ++ [m]) (fun _ => some {}) := by rw [DictOp.on, change_const, hy]; rfl
    have he : (DictOp.label (ms ++ [m]) k s).on ((DictOp.put (ms ++ [m]) []).on d) = (DictOp.label (ms ++ [m]) k s).on d := by
      rw [hd', label_on, change_change _ _ _ _ rfl, label_on]
      refine Eq.symm ?_
      rw [change_const, hy]; rfl
    have hfind : ((DictOp.put (ms ++ [m]) []).on d).find (ms ++ [m]) = some {} := by rw [hd']; exact change_find h1 _ _
    have hsz : ((DictOp.put (ms ++ [m]) []).on d).render.length ≤ 10485760 := by
      refine Nat.le_trans ?_ hr
      obtain ⟨c, n, -, -, -, -, -, hz, -⟩ := dict_leads h3 hfd hfind []
      have z1 := hz {}
      have z2 := hz { labels := putLabel k s [] }
      rw [List.nil_append, change_self hfind] at z1
      rw [← he, label_on, change_const _ _ (DictOp.on _ _), hfind]
      rw [List.nil_append] at z2
      simp only [Option.getD_some]
      rw [← z1, ← z2]
      simp [El.render, El.start, El.stop, El.inner, slotEl, openTag]
    rw [hy] at h7
    by_cases h6 : d = .nil
    · subst h6
      rw [show Dict.nil.render = [] from rfl] at hput ⊢
      have hcd : (DictOp.put (ms ++ [m]) []).on .nil ≠ .nil := by rw [hd']; exact change_ne_nil h1 _ _
      have hE' := dict_editable hfd hcd hsz
      obtain ⟨c, n, hL, hp, -, -, -, -, -⟩ := dict_leads h3 hfd hfind []
      have hrd' : (Forest.text [] ((DictOp.put (ms ++ [m]) []).on .nil).forest).render = ((DictOp.put (ms ++ [m]) []).on .nil).render := by simp [Forest.render, forest_render]
      rw [← hrd', ← hp] at hput
      rw [← hp] at hE'
      rw [set_attr_empty o ho (simple_plain h3) h1 h2 (e := slotEl n {}) hL hE' hput (name_noBar h4) (v := .str s) (by simp) rfl (by omega), hp, hrd', ← he]
      exact dict_label_found ho hfd hsz h2 h3 h4 h5 hfind h7
    have hE := dict_editable hd h6 hs
    obtain ⟨r, q1, q2⟩ := C29_create o ho _ hE ms m (fun n hn => (h3 n hn).1) (by simp at h2; omega) (follow_find_none h3 hd hy []) k (name_noBar h4) (.str s) _ (by simp) rfl (by omega)
    rw [hrd] at q1 q2
    rw [hput] at q1
    simp only [Outcome.ret.injEq, Prod.mk.injEq, and_true] at q1
    subst q1
    rw [q2 hsz, ← he]
    exact dict_label_found ho hfd hsz h2 h3 h4 h5 hfind h7

/-- C72: a document is a nested dictionary. On the document of any dictionary, `Set` of a path of names puts a text, `Delete` of a path of names drops an entry, and both on a path
that ends in `@k` put or remove a label; the result is the document of the dictionary after the operation, byte for byte, and no call fails. -/
theorem C72_step (o : Ord) (ho : o.IsPerm) (d : Dict) (hd : d.Fine 0) (hs : d.render.length ≤ 10485760) (op : DictOp) (hf : op.Fits d)
    (hr : (op.on d).render.length ≤ 10485760) : dictCall o d.render op = .ret ((op.on d).render, none) ∧ (op.on d).Fine 0 := by
  refine ⟨?_, dictOp_fine hd hf⟩
  cases op with
  | put ns s => obtain ⟨h1, h2, h3, h4⟩ := hf; exact dict_put ho hd hs h1 h2 h3 h4
  | drop ns => obtain ⟨h1, h2, h3, h4⟩ := hf; exact dict_drop ho hd hs h4 h1 h2 h3
  | label ns k s => exact dict_label ho hd hs hf hr
  | unlabel ns k => obtain ⟨h1, h2, h3, h4, h5⟩ := hf; exact dict_unlabel ho hd hs h5 h1 h2 h3 h4

/-- The operations fit, one after the other, and no document gets longer than 10 MiB. -/
def FitAll (d : Dict) : List DictOp → Prop
  | [] => True
  | op :: ops => op.Fits d ∧ (op.on d).render.length ≤ 10485760 ∧ FitAll (op.on d) ops

/-- The call succeeds and gives this document. -/
def DictOk (o : Ord) (xml : Bytes) (op : DictOp) (xml' : Bytes) : Prop := dictCall o xml op = .ret (xml', none)

/-- C72: any number of calls does to the document what the operations do to the dictionary. The start can be the empty document. -/
theorem C72_run (o : Ord) (ho : o.IsPerm) (d : Dict) (hd : d.Fine 0) (hs : d.render.length ≤ 10485760) (ops : List DictOp) (hf : FitAll d ops) :
    Seq (DictOk o) d.render ops (ops.foldl (fun d op => op.on d) d).render ∧ (ops.foldl (fun d op => op.on d) d).Fine 0 ∧
      (ops.foldl (fun d op => op.on d) d).render.length ≤ 10485760 := by
  induction ops generalizing d with
  | nil => exact ⟨.nil _, hd, hs⟩
  | cons op ops ih =>
    obtain ⟨h1, h2, h3⟩ := hf
    obtain ⟨h4, h5⟩ := C72_step o ho d hd hs op h1 h2
    obtain ⟨i1, i2, i3⟩ := ih _ h5 h2 h3
    exact ⟨.cons h4 i1, i2, i3⟩

/-- Path and value of an operation that `Set` does. -/
def setArgs : DictOp → Option (Bytes × Bytes)
  | .put ns s => some (pathOf ns, s)
  | .label ns k s => some (pathOf (ns ++ [c!"@" :: k]), s)
  | _ => none

/-- C72: so does one call of `SetMany`, when the operations put texts and labels. -/
theorem C72_setMany (o : Ord) (ho : o.IsPerm) (d : Dict) (hd : d.Fine 0) (hs : d.render.length ≤ 10485760) (ops : List DictOp) (hf : FitAll d ops)
    (args : List (Bytes × Bytes)) (ha : ops.map setArgs = args.map some) :
    setMany o d.render (args.map (·.1)) (args.map (fun a => .str a.2)) = .ret ((ops.foldl (fun d op => op.on d) d).render, none) := by
  refine (C24_setMany_ok o _ _ _ _).mpr ⟨hs, by simp, ?_⟩
  have h := (C72_run o ho d hd hs ops hf).1
  revert h
  generalize d.render = xml
  generalize (ops.foldl (fun d op => op.on d) d).render = xml'
  clear hf hs hd d
  intro h
  induction h generalizing args with
  | nil =>
    cases args with
    | nil => exact .nil _
    | cons => cases ha
  | cons h1 _ ih =>
    rename_i op ops _
    cases args with
    | nil => cases ha
    | cons a args =>
      simp only [List.map_cons, List.cons.injEq] at ha
      refine .cons ?_ (ih args ha.2)
      have h2 := ha.1
      cases op with
      | put ns s => cases h2; exact h1
      | label ns k s => cases h2; exact h1
      | drop => cases h2
      | unlabel => cases h2

/-! ### reading -/

theorem dict_select (ns : List Bytes) (n : Bytes) (hns : ∀ q ∈ ns ++ [n], Simple q) {d : Nat} {x : Dict} (h : x.Fine d) (t : Bytes) :
    (Forest.text t x.forest).info.select ns n = ((x.find (ns ++ [n])).map (fun y => (slotEl n y).node)).toList := by
  induction ns generalizing x d t with
  | nil =>
    have := dict_named (hns n (by simp)) h t
    simpa [Info.select, Info.reach, Dict.find] using this
  | cons m ns ih =>
    obtain ⟨q, qs, hq⟩ : ∃ q qs, ns ++ [n] = q :: qs := by cases ns <;> simp
    have e : ∀ i : Info, i.select (m :: ns) n = (i.named m).flatMap (fun e => e.kids.select ns n) := by
      intro i; simp only [Info.select, Info.reach, List.flatMap_assoc]
    rw [e, dict_named (hns m (by simp)) h t, List.cons_append, hq, find_cons, ← hq]
    cases hg : x.get m with
    | none => rfl
    | some y =>
      have := ih (fun q hq => hns q (List.mem_cons_of_mem _ hq)) (fine_slot h hg).kids (escapeXML y.text)
      simp only [Option.map_some, Option.toList_some, List.flatMap_cons, List.flatMap_nil, List.append_nil, Option.bind_some]
      exact this

theorem escape_noGt (s : Bytes) : (escapeXML s).filter (fun c => c ≠ c!">") = escapeXML s :=
  List.filter_eq_self.mpr (fun c hc => by simp; intro hh; exact (escapeXML_mem (hh ▸ hc)).2.1 rfl)

theorem dict_allText (d : Dict) : d.forest.info.allText = escapeXML d.words := by
  induction d with
  | nil => rfl
  | entry n as s k r ihk ihr =>
    simp only [Dict.forest, Forest.info, Info.allText, Dict.words, escape_noGt, ihk, ihr, escapeXML_append, List.append_assoc]

theorem dict_ownText (d : Dict) : d.forest.info.ownText = [] := by
  induction d with
  | nil => rfl
  | entry n as s k r _ ihr => simpa only [Dict.forest, Forest.info, Info.ownText] using ihr

theorem escape_quiet (s : Bytes) : ¬ b!"/>" <:+: c!"/" :: escapeXML s := by
  intro h
  have := h.subset (show c!">" ∈ b!"/>" by decide)
  rcases List.mem_cons.mp this with h | h
  · exact absurd h (by decide)
  · exact (escapeXML_mem h).2.1 rfl

theorem dict_quiet (d : Dict) : d.forest.info.Quiet := by
  induction d with
  | nil => trivial
  | entry n as s k r ihk ihr => exact ⟨⟨escape_quiet s, ihk⟩, ihr⟩

/-- C72: what the dictionary has at a path of names is what `Get` finds there: nothing; or an element with all the text of the entry, with its own text, and with its labels. -/
theorem C72_read (env : Env) (ho : env.ord.IsPerm) (d : Dict) (hd : d.Fine 0) (h0 : d ≠ .nil) (hs : d.render.length ≤ 10485760)
    (ns : List Bytes) (hne : ns ≠ []) (hl : ns.length ≤ 100) (hns : ∀ n ∈ ns, Simple n) :
    match d.find ns with
    | none => get env d.render (pathOf ns) = .ret .null
    | some y => ∃ r, get env d.render (pathOf ns) = .ret r ∧ r.typ = .element ∧ r.toStr = trimSpace (y.text ++ y.kids.words) := by
  obtain ⟨pre, n, rfl⟩ : ∃ pre n, ns = pre ++ [n] := ⟨ns.dropLast, ns.getLast hne, (List.dropLast_concat_getLast hne).symm⟩
  have hr : (Forest.text [] d.forest).render = d.render := by simp [Forest.render, forest_render]
  have := C04_get_element env ho _ _ (editable_says (dict_editable hd h0 hs)) pre n (simple_plain hns) (by simp at hl; omega)
  rw [dict_select pre n hns hd, hr] at this
  cases hf : d.find (pre ++ [n]) with
  | none => rw [hf] at this; exact this
  | some y =>
    rw [hf] at this
    obtain ⟨r, h1, h2⟩ := this
    refine ⟨r, h1, h2.typ, ?_⟩
    rw [h2.str]
    show unescapeXML (trimSpace ((escapeXML y.text).filter (fun c => c ≠ c!">") ++ y.kids.forest.info.allText)) = _
    rw [dict_allText, escape_noGt, ← escapeXML_append, trim_escape, unescape_escape]

/-- C72: the text of the entry itself. -/
theorem C72_text (env : Env) (ho : env.ord.IsPerm) (d : Dict) (hd : d.Fine 0) (h0 : d ≠ .nil) (hs : d.render.length ≤ 10485760)
    (ns : List Bytes) (hne : ns ≠ []) (hl : ns.length ≤ 99) (hns : ∀ n ∈ ns, Simple n) :
    match d.find ns with
    | none => get env d.render (pathOf (ns ++ [b!"%"])) = .ret .null
    | some y => ∃ r, get env d.render (pathOf (ns ++ [b!"%"])) = .ret r ∧ r.typ = .string ∧ r.toStr = trimSpace y.text := by
  obtain ⟨pre, n, rfl⟩ : ∃ pre n, ns = pre ++ [n] := ⟨ns.dropLast, ns.getLast hne, (List.dropLast_concat_getLast hne).symm⟩
  have hr : (Forest.text [] d.forest).render = d.render := by simp [Forest.render, forest_render]
  have := C07_direct_text env ho _ _ (editable_says (dict_editable hd h0 hs)) pre n (simple_plain hns) (by simp at hl; omega)
  rw [dict_select pre n hns hd, hr] at this
  cases hf : d.find (pre ++ [n]) with
  | none => rw [hf] at this; exact this
  | some y =>
    rw [hf] at this
    obtain ⟨r, h1, h2⟩ := this
    refine ⟨r, h1, h2.typ, ?_⟩
    rw [h2.str ⟨escape_quiet _, dict_quiet y.kids⟩]
    show unescapeXML (trimSpace ((escapeXML y.text).filter (fun c => c ≠ c!">") ++ y.kids.forest.info.ownText)) = _
    rw [dict_ownText, escape_noGt, List.append_nil, trim_escape, unescape_escape]

/-- C72: the labels of the entry. -/
theorem C72_label (env : Env) (ho : env.ord.IsPerm) (d : Dict) (hd : d.Fine 0) (h0 : d ≠ .nil) (hs : d.render.length ≤ 10485760)
    (ns : List Bytes) (hne : ns ≠ []) (hl : ns.length ≤ 99) (hns : ∀ n ∈ ns, Simple n) (k : Bytes) (hk : c!"|" ∉ k) :
    get env d.render (pathOf (ns ++ [c!"@" :: k])) = match (d.find ns).bind (fun y => labelOf? k y.labels) with
    | none => .ret .null
    | some v => .ret (.ofAttr v) := by
  obtain ⟨pre, n, rfl⟩ : ∃ pre n, ns = pre ++ [n] := ⟨ns.dropLast, ns.getLast hne, (List.dropLast_concat_getLast hne).symm⟩
  have hr : (Forest.text [] d.forest).render = d.render := by simp [Forest.render, forest_render]
  have := C05_get_attribute env ho _ _ (editable_says (dict_editable hd h0 hs)) pre n k (simple_plain hns) hk (by simp at hl; omega)
  rw [hr] at this
  rw [this]
  have hsel := dict_select pre n hns hd []
  have hle : ((Forest.text [] d.forest).info.reach pre).length ≤ 1 := by
    clear this hsel hr hs h0 hne hl
    have key : ∀ (pre : List Bytes) (_ : ∀ q ∈ pre, Simple q) (e : Nat) (x : Dict) (t : Bytes), x.Fine e → ((Forest.text t x.forest).info.reach pre).length ≤ 1 := by
      intro pre
      induction pre with
      | nil => intro _ _ _ _ _; simp [Info.reach]
      | cons m pre ih =>
        intro hp e x t hx
        rw [Info.reach, dict_named (hp m (by simp)) hx t]
        cases hg : x.get m with
        | none => simp
        | some y =>
          simp only [Option.map_some, Option.toList_some, List.flatMap_cons, List.flatMap_nil, List.append_nil]
          exact ih (fun q hq => hp q (by simp [hq])) _ y.kids (escapeXML y.text) (fine_slot hx hg).kids
    exact key pre (fun q hq => hns q (by simp [hq])) 0 d [] hd
  have e : ((Forest.text [] d.forest).info.reach pre).findSome? (fun k' => (k'.named n).head?.bind (·.attr k)) = (d.find (pre ++ [n])).bind (fun y => labelOf? k y.labels) := by
    rw [Info.select] at hsel
    match hR : (Forest.text [] d.forest).info.reach pre with
    | [] =>
      rw [hR] at hsel
      cases hf : d.find (pre ++ [n]) with
      | none => rfl
      | some y => rw [hf] at hsel; simp at hsel
    | [j] =>
      rw [hR] at hsel
      simp only [List.flatMap_cons, List.flatMap_nil, List.append_nil] at hsel
      cases hf : d.find (pre ++ [n]) with
      | none => rw [hf] at hsel; simp [List.findSome?_cons, hsel]
      | some y =>
        rw [hf] at hsel
        have hlab := (find_fine hd hf).labels
        simp only [List.findSome?_cons, hsel, Option.map_some, Option.toList_some, List.head?_cons, Option.bind_some]
        rw [show (slotEl n y).node.attr k = labelOf? k y.labels from labels_val hlab k]
        cases labelOf? k y.labels <;> rfl
    | _ :: _ :: _ => rw [hR] at hle; simp at hle
  rw [e]
  cases (d.find (pre ++ [n])).bind (fun y => labelOf? k y.labels) <;> rfl

/-! ### laws of dictionaries -/

/-- C72: what was changed is there, and nothing else has changed: entries at paths of which none leads on to the other are as before. -/
theorem C72_law (d : Dict) (ns : List Bytes) (hne : ns ≠ []) (z : Slot) (f : Option Slot → Option Slot) :
    (d.change ns (fun _ => some z)).find ns = some z ∧ ∀ ms, ¬ ns <+: ms → ¬ ms <+: ns → (d.change ns f).find ms = d.find ms := by
  refine ⟨change_find hne z d, fun ms => ?_⟩
  induction ns generalizing d ms with
  | nil => exact absurd rfl hne
  | cons n ns ih =>
    intro h1 h2
    cases ms with
    | nil => exact absurd (List.nil_prefix) h2
    | cons m ms =>
      rw [List.cons_prefix_cons] at h1 h2
      by_cases hm : m = n
      · subst hm
        cases ns with
        | nil => exact absurd ⟨rfl, List.nil_prefix⟩ h1
        | cons n' ns =>
          cases ms with
          | nil => exact absurd ⟨rfl, List.nil_prefix⟩ h2
          | cons m' ms =>
            have h3 : ¬ (n' :: ns) <+: (m' :: ms) := fun h => h1 ⟨rfl, h⟩
            have h4 : ¬ (m' :: ms) <+: (n' :: ns) := fun h => h2 ⟨rfl, h⟩
            rw [change_cons, find_cons, find_cons]
            cases hg : d.get m with
            | some x => rw [alter_get m _ { x with kids := x.kids.change (n' :: ns) f } d (by rw [hg])]; exact ih x.kids (by simp) (m' :: ms) h3 h4
            | none =>
              have i0 := ih .nil (by simp) (m' :: ms) h3 h4
              rw [find_nil] at i0
              by_cases hx : Dict.nil.change (n' :: ns) f = .nil
              · rw [get_none_split hg]
                simp only [hx, if_true, slotCons?, dict_append_nil, hg]
              · rw [alter_get m _ { kids := Dict.nil.change (n' :: ns) f } d (by rw [hg]; exact if_neg hx)]
                exact i0
      · have key : ∀ g, (d.alter n g).get m = d.get m := fun g => alter_get_ne hm g d
        obtain ⟨g, hg⟩ : ∃ g, d.change (n :: ns) f = d.alter n g := by
          cases ns with
          | nil => exact ⟨f, rfl⟩
          | cons n' ns => exact ⟨_, change_cons n n' ns f d⟩
        rw [hg]
        cases ms with
        | nil => exact key g
        | cons m' ms => rw [find_cons, find_cons, key]

/-! ### cases -/

/-- `<db><host port="5432">h &amp; i</host><user>u</user></db>`. -/
def exDict : Dict := .entry b!"db" [] [] (.entry b!"host" [(b!"port", b!"5432")] b!"h & i" .nil (.entry b!"user" [] b!"u" .nil .nil)) .nil

def simple? (n : Bytes) : Bool := validName n && decide (n.length ≤ 1048576) && decide (c!":" ∉ n)

theorem simple_of {n : Bytes} (h : simple? n = true) : Simple n := by
  simp only [simple?, Bool.and_eq_true, decide_eq_true_eq] at h
  exact ⟨isName_of h.1.1 h.1.2, h.2⟩

theorem simples_of {ns : List Bytes} (h : ns.all simple? = true) : ∀ n ∈ ns, Simple n := fun n hn => simple_of (List.all_eq_true.mp h n hn)

theorem exDict_fine : exDict.Fine 0 :=
  ⟨simple_of (by decide), by decide, labelsFine_nil,
    ⟨simple_of (by decide), by decide, ⟨by decide, fun a h => by simp at h; subst h; exact isName_of (by decide) (by decide), fun a h => by simp at h; subst h; decide, by simp⟩, trivial,
      by decide, simple_of (by decide), by decide, labelsFine_nil, trivial, rfl, trivial⟩, rfl, trivial⟩

example : exDict.render = b!"<db><host port=\"5432\">h &amp; i</host><user>u</user></db>" := by decide +kernel

/-- It is the result of some operations on nothing. -/
def exDictOps : List DictOp := [.label [b!"db", b!"old"] b!"x" b!"1", .put [b!"db", b!"host"] b!"old", .put [b!"db", b!"user"] b!"u", .label [b!"db", b!"old", b!"x"] b!"k" b!"v", .label [b!"db", b!"host"] b!"tls" b!"no",
  .label [b!"db", b!"host"] b!"port" b!"5432", .unlabel [b!"db", b!"host"] b!"tls", .put [b!"db", b!"host"] b!"h & i", .drop [b!"db", b!"old"], .drop [b!"db", b!"none"], .drop [b!"db"]]

example : exDictOps.foldl (fun d op => op.on d) .nil = exDict := by decide +kernel

theorem exDictOps_fit : FitAll .nil exDictOps := by
  have p : ∀ (d : Dict) (ns : List Bytes) (s : Bytes), (ns ≠ [] ∧ ns.length ≤ 99 ∧ ns.all simple? = true ∧ (escapeXML s).length ≤ 5242880) → (DictOp.put ns s).Fits d :=
    fun d ns s h => ⟨h.1, by have := h.2.1; omega, simples_of h.2.2.1, h.2.2.2⟩
  have r : ∀ (d : Dict) (ns : List Bytes), (ns ≠ [] ∧ ns.length ≤ 99 ∧ ns.all simple? = true ∧ d ≠ .nil) → (DictOp.drop ns).Fits d :=
    fun d ns h => ⟨h.1, by have := h.2.1; omega, simples_of h.2.2.1, h.2.2.2⟩
  have l : ∀ (d : Dict) (ns : List Bytes) (k s : Bytes), (ns ≠ [] ∧ ns.length ≤ 99 ∧ ns.all simple? = true ∧ simple? k = true ∧ (escapeXML s).length ≤ 1048576 ∧
      (putLabel k s ((d.find ns).getD {}).labels).length ≤ 100) → (DictOp.label ns k s).Fits d :=
    fun d ns k s h => ⟨h.1, h.2.1, simples_of h.2.2.1, (simple_of h.2.2.2.1).1, h.2.2.2.2⟩
  have u : ∀ (d : Dict) (ns : List Bytes) (k : Bytes), (ns ≠ [] ∧ ns.length ≤ 99 ∧ ns.all simple? = true ∧ simple? k = true ∧ d ≠ .nil) → (DictOp.unlabel ns k).Fits d :=
    fun d ns k h => ⟨h.1, h.2.1, simples_of h.2.2.1, (simple_of h.2.2.2.1).1, h.2.2.2.2⟩
  exact ⟨l _ _ _ _ (by decide +kernel), by decide +kernel, p _ _ _ (by decide +kernel), by decide +kernel, p _ _ _ (by decide +kernel), by decide +kernel, l _ _ _ _ (by decide +kernel), by decide +kernel,
    l _ _ _ _ (by decide +kernel), by decide +kernel, l _ _ _ _ (by decide +kernel), by decide +kernel, u _ _ _ (by decide +kernel), by decide +kernel,
    p _ _ _ (by decide +kernel), by decide +kernel, r _ _ (by decide +kernel), by decide +kernel, r _ _ (by decide +kernel), by decide +kernel, r _ _ (by decide +kernel), by decide +kernel, trivial⟩

/-- So the calls make this document out of the empty one. -/
example : Seq (DictOk exEnv.ord) [] exDictOps b!"<db><host port=\"5432\">h &amp; i</host><user>u</user></db>" := by
  have := (C72_run exEnv.ord exEnv_perm .nil trivial (by decide) exDictOps exDictOps_fit).1
  rwa [show (exDictOps.foldl (fun d op => op.on d) Dict.nil).render = b!"<db><host port=\"5432\">h &amp; i</host><user>u</user></db>" by decide +kernel] at this

/-- Directly, in the model of the code. -/
example : setMany exEnv.ord [] [b!"db.host", b!"db.user", b!"db.old.x.@k"] [.str b!"h & i", .str b!"u", .str b!"v"] =
    .ret (b!"<db><host>h &amp; i</host><user>u</user><old><x k=\"v\"></x></old></db>", none) := by decide +kernel

/-- An entry whose labels and sub-entries are all gone stays: a text or nothing in it makes a difference only for reading. -/
example : (DictOp.drop [b!"db", b!"user"]).on ((DictOp.drop [b!"db", b!"host"]).on exDict) = .entry b!"db" [] [] .nil .nil := by decide +kernel

/-- C72: with a name that occurs twice the document is no dictionary: after `Delete` the path still leads to something. -/
theorem C72_twice : delete exEnv.ord b!"<r><a>1</a><a>2</a></r>" b!"r.a" = .ret (b!"<r><a>2</a></r>", none) ∧ get exEnv b!"<r><a>2</a></r>" b!"r.a" = .ret (.ofContent b!"2") := by
  decide +kernel

/-- C72: and with prefixes a name can stand for another one: `p:a` is found by the path `a`. -/
theorem C72_prefix : set exEnv.ord b!"<p:a>1</p:a>" b!"a" (.str b!"2") = .ret (b!"<p:a>2</p:a>", none) := by decide +kernel

end Verif.Props
