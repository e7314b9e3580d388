import Verif.Lemmas.Grove
import Verif.Props.Dict
import Verif.Props.Append
/- C76: documents are ordered trees. -/
namespace Verif.Props
open Verif Verif.Spec

/-- The call for an operation whose path is `path`. -/
def groveCall (o : Ord) (xml path : Bytes) : GroveOp → Outcome (Bytes × Option Err)
  | .put _ s | .make _ _ _ s | .push _ _ s | .label _ _ s => set o xml path (.str s)
  | .drop _ | .unlabel _ _ => delete o xml path

theorem simples_plain {ns : List Bytes} (h : ∀ n ∈ ns, Simple n) : ∀ n ∈ ns, PlainName n := fun n hn => name_plain (h n hn).1

theorem grove_text (d : Dict) : (Forest.text [] d.forest).render = d.render := by simp [Forest.render, forest_render]

theorem grove_put {o : Ord} (ho : o.IsPerm) {d : Dict} (hd : d.Tidy 0) (hs : d.render.length ≤ 10485760) {ps : List Step} {parts : List Bytes} (hps : StepsText ps parts)
    (hl : parts.length ≤ 100) (hns : ∀ p ∈ ps, Simple p.1) (hy : d.look ps ≠ none) {s : Bytes} (hv : (escapeXML s).length ≤ 5242880) :
    set o d.render (pathOf parts) (.str s) = .ret (((GroveOp.put ps s).on d).render, none) := by
  obtain ⟨y, hy⟩ := Option.ne_none_iff_exists'.mp hy
  have h0 : d ≠ .nil := by rintro rfl; rw [look_nil] at hy; cases hy
  have hE := grove_editable hd h0 hs
  obtain ⟨c, n, hL, hp, -, -, -, hz, -⟩ := grove_leads hns hd hy []
  rw [← hp] at hE
  have := set_existing ho hps hl (e := slotEl n y) hL hE (v := .str s) (by simp) rfl hv
  rw [hp, grove_text] at this
  rw [GroveOp.on, edit_const hy, this, ← List.nil_append (Dict.render _), ← hz]
  simp [El.render, El.start, El.stop, El.inner, slotEl, Dict.forest, Forest.render]

theorem grove_make {o : Ord} (ho : o.IsPerm) {d : Dict} (hd : d.Tidy 0) (hs : d.render.length ≤ 10485760) {ps : List Step} {parts : List Bytes} (hps : StepsText ps parts)
    {m : Bytes} {ks : List Bytes} (hl : (parts ++ m :: ks).length ≤ 100) (hns : ∀ p ∈ ps, Simple p.1) (hh : d.Has ps) (hks : ∀ k ∈ m :: ks, Simple k) (hm : m ∉ (d.under ps).names)
    {s : Bytes} (hv : (escapeXML s).length ≤ 5242880) :
    set o d.render (pathOf (parts ++ m :: ks)) (.str s) = .ret (((GroveOp.make ps m ks s).on d).render, none) := by
  have hpl := simples_plain hks
  rw [GroveOp.on]
  rcases hh with rfl | hy
  · cases hps
    rw [List.nil_append] at hl ⊢
    simp only [Dict.into, snoc_append, dict_append_render, nest_render]
    by_cases h0 : d = .nil
    · subst h0
      rw [show Dict.nil.render = [] from rfl, set_empty o hpl hl (by simp) rfl hv]; rfl
    · have := C19_new_root o ho _ (editable_sound (grove_editable hd h0 hs)) m ks hpl hl (by rw [grove_named (hks m (by simp)) hd, (all_names m d).mpr hm]; rfl) (.str s) _ (by simp) rfl hv
      rwa [grove_text] at this
  · obtain ⟨y, hy⟩ := Option.ne_none_iff_exists'.mp hy
    obtain ⟨e1, e2⟩ := into_edit hy (fun k => k.snoc m (nest ks s))
    rw [e1] at hm
    have h0 : d ≠ .nil := by rintro rfl; rw [look_nil] at hy; cases hy
    have hE := grove_editable hd h0 hs
    obtain ⟨c, n, hL, hp, -, hk, -, hz, -⟩ := grove_leads hns hd hy []
    rw [← hp] at hE
    obtain ⟨as, ws, h1, h2⟩ := set_missing ho hps (e := slotEl n y) hL hE
    obtain ⟨rfl, rfl⟩ := h1.kept (by simp [slotEl])
    have := h2 m ks hpl (by simpa using hl) (by
      rw [show (slotEl n y).kids = .text (escapeXML y.text) y.kids.forest from rfl, grove_named (hks m (by simp)) hk, (all_names m _).mpr hm]; rfl) (.str s) _ (by simp) rfl hv
    rw [hp, grove_text] at this
    rw [this, e2, ← List.nil_append (Dict.render _), ← hz]
    congr 4
    have e : (slotEl n y).kids.render = escapeXML y.text ++ y.kids.render := by simp [slotEl, El.kids, Forest.render, forest_render]
    simp only [El.render, El.start, El.stop, El.inner, El.refill, append_render, e]
    simp [slotEl, Forest.render, forest_render, snoc_append, dict_append_render, nest_render]

theorem grove_push {o : Ord} (ho : o.IsPerm) {d : Dict} (hd : d.Tidy 0) (hs : d.render.length ≤ 10485760) {ps : List Step} {parts : List Bytes} (hps : StepsText ps parts)
    {x : Bytes} (hl : parts.length ≤ 98) (hns : ∀ p ∈ ps, Simple p.1) (hh : d.Has ps) (hx : Simple x)
    {s : Bytes} (hv : (escapeXML s).length ≤ 5242880) (hr : ((GroveOp.push ps x s).on d).render.length ≤ 10485760) :
    set o d.render (pathOf (parts ++ [x, b!"-1"])) (.str s) = .ret (((GroveOp.push ps x s).on d).render, none) := by
  have hpl := name_plain hx.1
  rw [GroveOp.on] at hr ⊢
  rcases hh with rfl | hy
  · cases hps
    rw [List.nil_append]
    simp only [Dict.into] at hr ⊢
    by_cases h0 : d = .nil
    · subst h0
      rw [show Dict.nil.render = [] from rfl, C28_append_empty o x hpl (.str s) _ (by simp) rfl hv]
      simp [Dict.push, Dict.render]
    · obtain ⟨k1, k2, e1, e2, e3⟩ := push_place hx hd [] s
      have hE := editable_sound (grove_editable hd h0 hs)
      rw [e1] at hE
      have := C28_append_root o ho k1 k2 hE x hpl e2 (.str s) _ (by simp) rfl hv
      rw [List.nil_append] at e3
      rw [← e1, grove_text, e3, if_neg (by omega)] at this
      exact this
  · obtain ⟨y, hy⟩ := Option.ne_none_iff_exists'.mp hy
    obtain ⟨-, e2⟩ := into_edit hy (fun k => k.push x { text := s })
    have h0 : d ≠ .nil := by rintro rfl; rw [look_nil] at hy; cases hy
    have hE := grove_editable hd h0 hs
    obtain ⟨c, n, hL, hp, -, hk, -, hz, -⟩ := grove_leads hns hd hy []
    obtain ⟨k1, k2, q1, q2, q3⟩ := push_place hx hk (escapeXML y.text) s
    rw [← hp] at hE
    obtain ⟨as, ws, h1, h2⟩ := C28_append o ho ps parts hps hl c (slotEl n y) hL hE
    obtain ⟨rfl, rfl⟩ := h1.kept (by simp [slotEl])
    have := h2 x hpl k1 k2 q1 q2 (.str s) _ (by simp) rfl hv
    have e : ((slotEl n y).refill (slotEl n y).attrs (slotEl n y).ws (k1.append ((plainEl x (escapeXML s)).cons k2))).render = (slotEl n { y with kids := y.kids.push x { text := s } }).render := by
      simp only [El.render, El.start, El.stop, El.inner, El.refill, q3]
      simp [slotEl, Forest.render, forest_render]
    rw [hp, grove_text, e, hz, List.nil_append, ← e2, if_neg (fun hh => by have := hh.2; omega)] at this
    exact this

theorem grove_drop {o : Ord} (ho : o.IsPerm) {d : Dict} (hd : d.Tidy 0) (hs : d.render.length ≤ 10485760) (h0 : d ≠ .nil) {ps : List Step} {parts : List Bytes} (hps : StepsText ps parts)
    (hl : parts.length ≤ 100) (hns : ∀ p ∈ ps, Simple p.1) (hne : ps ≠ []) : delete o d.render (pathOf parts) = .ret (((GroveOp.drop ps).on d).render, none) := by
  have hE := grove_editable hd h0 hs
  rw [GroveOp.on]
  cases hy : d.look ps with
  | some y =>
    obtain ⟨c, n, hL, hp, -, -, -, -, hz⟩ := grove_leads hns hd hy []
    rw [← hp] at hE
    have := delete_existing ho hps hl (e := slotEl n y) hL hE
    rw [hp, grove_text, hz, List.nil_append] at this
    rw [this]
    simp only [dict_render_nil]
    split <;> rfl
  | none =>
    have := delete_missing ho (editable_says hE) (editable_valid hE) hps hne hl (follow_look_none hns hd hy [])
    rw [grove_text] at this
    rw [this, edit_none hy, if_neg h0]

theorem grove_label {o : Ord} (ho : o.IsPerm) {d : Dict} (hd : d.Tidy 0) (hs : d.render.length ≤ 10485760) {ps : List Step} {parts : List Bytes} (hps : StepsText ps parts)
    (hl : parts.length ≤ 99) (hns : ∀ p ∈ ps, Simple p.1) {k s : Bytes} (hk : IsName k) (hv : (escapeXML s).length ≤ 1048576) {y : Slot} (hy : d.look ps = some y)
    (hc : (putLabel k s y.labels).length ≤ 100) :
    set o d.render (pathOf (parts ++ [c!"@" :: k])) (.str s) = .ret (((GroveOp.label ps k s).on d).render, none) := by
  have h0 : d ≠ .nil := by rintro rfl; rw [look_nil] at hy; cases hy
  have hE := grove_editable hd h0 hs
  obtain ⟨c, n, hL, hp, -, -, hlab, hz, -⟩ := grove_leads hns hd hy []
  rw [← hp] at hE
  obtain ⟨as, h1, h2, -⟩ := set_attr ho hps (by omega) (e := slotEl n y) hL hE (name_noBar hk) (v := .str s) (by simp) rfl (by omega)
  rw [hp, grove_text] at h2
  rw [GroveOp.on, edit_const hy, h2, ← List.nil_append (Dict.render _), ← hz]
  have e : (slotEl n y).retag as = slotEl n { y with labels := putLabel k s y.labels } := by
    refine canonical_eq ⟨h1.neat, h1.sorted, rfl⟩ (slot_canonical (putLabel_fine hlab hk hv hc)) rfl rfl ?_
    rw [show ((slotEl n y).retag as).attrs = as from rfl, retag_on h1]
    funext j
    rw [show (slotEl n { y with labels := putLabel k s y.labels }).attrs = (putLabel k s y.labels).map labelAttr from rfl, labels_val (putLabel_fine hlab hk hv hc), putLabel_val,
      show (slotEl n y).attrs = y.labels.map labelAttr from rfl, labels_val hlab]
  rw [e]

theorem grove_unlabel {o : Ord} (ho : o.IsPerm) {d : Dict} (hd : d.Tidy 0) (hs : d.render.length ≤ 10485760) (h0 : d ≠ .nil) {ps : List Step} {parts : List Bytes} (hps : StepsText ps parts)
    (hl : parts.length ≤ 99) (hns : ∀ p ∈ ps, Simple p.1) (hne : ps ≠ []) {k : Bytes} (hk : IsName k) :
    delete o d.render (pathOf (parts ++ [c!"@" :: k])) = .ret (((GroveOp.unlabel ps k).on d).render, none) := by
  have hE := grove_editable hd h0 hs
  rw [GroveOp.on]
  cases hy : d.look ps with
  | some y =>
    obtain ⟨c, n, hL, hp, -, -, hlab, hz, -⟩ := grove_leads hns hd hy []
    rw [← hp] at hE
    obtain ⟨d1, d2⟩ := delete_attr ho hps (by omega) (e := slotEl n y) hL hE (name_noBar hk)
    rw [hp, grove_text] at d1 d2
    have hf := filter_fine hlab (fun a => a.1 ≠ k)
    rw [edit_const hy]
    have ha : (slotEl n y).attrs = y.labels.map labelAttr := rfl
    by_cases hx : attrVal (slotEl n y).attrs k = none
    · rw [d1 hx, ← List.nil_append (Dict.render (Dict.edit _ _ _)), ← hz]
      have e : slotEl n y = slotEl n { y with labels := y.labels.filter (fun a => a.1 ≠ k) } := by
        refine canonical_eq (slot_canonical hlab) (slot_canonical hf) rfl rfl ?_
        funext j
        rw [ha] at hx ⊢
        rw [show (slotEl n { y with labels := y.labels.filter (fun a => a.1 ≠ k) }).attrs = (y.labels.filter (fun a => a.1 ≠ k)).map labelAttr from rfl, labels_val hf, filter_val, labels_val hlab]
        rw [labels_val hlab] at hx
        split
        · rename_i hj; rw [hj, hx]
        · rfl
      rw [← e, ← grove_text, ← hp, plug_el_render]; simp [El.render]
    · obtain ⟨as, h1, -, -, h2⟩ := d2 hx
      rw [h2, ← List.nil_append (Dict.render _), ← hz]
      have e : (slotEl n y).retag as = slotEl n { y with labels := y.labels.filter (fun a => a.1 ≠ k) } := by
        refine canonical_eq ⟨h1.neat, h1.sorted, rfl⟩ (slot_canonical hf) rfl rfl ?_
        rw [show ((slotEl n y).retag as).attrs = as from rfl, retag_on h1]
        funext j
        rw [show (slotEl n { y with labels := y.labels.filter (fun a => a.1 ≠ k) }).attrs = (y.labels.filter (fun a => a.1 ≠ k)).map labelAttr from rfl, labels_val hf, filter_val,
          ha, labels_val hlab]
      rw [e]
  | none =>
    have := delete_attr_missing ho (editable_says hE) (editable_valid hE) hps hne (by omega) (follow_look_none hns hd hy []) (name_noBar hk)
    rw [grove_text] at this
    rw [this, edit_none hy]

theorem stepsText_length {ps : List Step} {parts : List Bytes} (h : StepsText ps parts) : ps.length ≤ parts.length := by
  induction h with
  | nil => exact Nat.le_refl _
  | name _ _ ih => simpa using ih
  | index _ _ _ _ ih => simp; omega

theorem tidy_push {d : Nat} {n : Bytes} {x : Slot} {y : Dict} (h : y.Tidy d) (hn : Simple n) (hd : d < 100) (hl : LabelsFine x.labels) (hk : x.kids.Tidy (d + 1)) : (y.push n x).Tidy d := by
  induction y with
  | nil => exact ⟨hn, hd, hl, hk, trivial⟩
  | entry m as s k r _ ih =>
    obtain ⟨h1, h2, h3, h4, h5⟩ := h
    rw [Dict.push]
    split
    · exact ⟨h1, h2, h3, h4, hn, hd, hl, hk, h5⟩
    · exact ⟨h1, h2, h3, h4, ih h5⟩

/-- The operation keeps the tree in order. -/
theorem groveOp_tidy {d : Dict} (hd : d.Tidy 0) {op : GroveOp} (hf : op.Fits d) : (op.on d).Tidy 0 := by
  obtain ⟨h1, ⟨parts, h2, h3⟩, h4⟩ := hf
  have hlen := stepsText_length h2
  cases op with
  | put ps s => exact tidy_edit hd (fun y z hy hl hk hz => by cases hz; exact ⟨hl, trivial⟩)
  | make ps n ns s =>
    obtain ⟨-, g2, -, -⟩ := h4
    have h5 := h3
    simp only [GroveOp.parts, List.length_append, List.length_cons, GroveOp.steps] at h5 hlen
    refine tidy_into hd ?_
    rw [snoc_append, tidy_append]
    obtain ⟨n1, n2⟩ := nest_tidy (ns := ns) (fun q hq => g2 q (by simp [hq])) (d := 0 + ps.length + 1) (by omega) s
    exact ⟨under_tidy hd, g2 n (by simp), by omega, n1, n2, trivial⟩
  | push ps n s =>
    have h5 := h3
    simp only [GroveOp.parts, List.length_append, List.length_cons, GroveOp.steps] at h5 hlen
    exact tidy_into hd (tidy_push (under_tidy hd) h4.2.1 (by omega) labelsFine_nil trivial)
  | drop ps =>
    rw [GroveOp.on]
    split
    · exact hd
    · exact tidy_edit hd (fun y z hy hl hk hz => by cases hz)
  | label ps k s =>
    obtain ⟨g1, g2, x, g3, g4⟩ := h4
    refine tidy_edit hd (fun y z hy hl hk hz => ?_)
    rw [g3] at hy
    cases hy
    cases hz
    exact ⟨putLabel_fine hl g1 g2 g4, hk⟩
  | unlabel ps k => exact tidy_edit hd (fun y z hy hl hk hz => by cases hz; exact ⟨filter_fine hl _, hk⟩)

/-- C76: a document is an ordered tree. On the document of any tree, with names that may repeat, `Set` and `Delete` of a path of names and indices, in whichever way it is written, give
the document of the tree after the operation, byte for byte, and no call fails. -/
theorem C76_step (o : Ord) (ho : o.IsPerm) (d : Dict) (hd : d.Tidy 0) (hs : d.render.length ≤ 10485760) (op : GroveOp) (hf : op.Fits d)
    (hr : (op.on d).render.length ≤ 10485760) (parts : List Bytes) (hps : StepsText op.steps parts) (hl : (op.parts parts).length ≤ 100) :
    groveCall o d.render (pathOf (op.parts parts)) op = .ret ((op.on d).render, none) ∧ (op.on d).Tidy 0 := by
  refine ⟨?_, groveOp_tidy hd hf⟩
  obtain ⟨h1, -, h4⟩ := hf
  cases op with
  | put ps s => exact grove_put ho hd hs hps hl h1 h4.1 h4.2
  | make ps n ns s => obtain ⟨g1, g2, g3, g4⟩ := h4; exact grove_make ho hd hs hps hl h1 g1 g2 g3 g4
  | push ps n s => simp [GroveOp.parts] at hl; exact grove_push ho hd hs hps (by omega) h1 h4.1 h4.2.1 h4.2.2 hr
  | drop ps => exact grove_drop ho hd hs h4.2 hps hl h1 h4.1
  | label ps k s => simp [GroveOp.parts] at hl; obtain ⟨g1, g2, x, g3, g4⟩ := h4; exact grove_label ho hd hs hps (by omega) h1 g1 g2 g3 g4
  | unlabel ps k => simp [GroveOp.parts] at hl; exact grove_unlabel ho hd hs h4.2.2 hps (by omega) h1 h4.1 h4.2.1

/-- The operations fit, one after the other, and no document gets longer than 10 MiB. -/
def GroveFit (d : Dict) : List GroveOp → Prop
  | [] => True
  | op :: ops => op.Fits d ∧ (op.on d).render.length ≤ 10485760 ∧ GroveFit (op.on d) ops

/-- The call succeeds and gives this document, however its path is written. -/
def GroveOk (o : Ord) (xml : Bytes) (op : GroveOp) (xml' : Bytes) : Prop :=
  ∀ parts, StepsText op.steps parts → (op.parts parts).length ≤ 100 → groveCall o xml (pathOf (op.parts parts)) op = .ret (xml', none)

/-- C76: any number of calls does to the document what the operations do to the tree. The start can be the empty document. -/
theorem C76_run (o : Ord) (ho : o.IsPerm) (d : Dict) (hd : d.Tidy 0) (hs : d.render.length ≤ 10485760) (ops : List GroveOp) (hf : GroveFit d ops) :
    Seq (GroveOk o) d.render ops (ops.foldl (fun d op => op.on d) d).render ∧ (ops.foldl (fun d op => op.on d) d).Tidy 0 ∧
      (ops.foldl (fun d op => op.on d) d).render.length ≤ 10485760 := by
  induction ops generalizing d with
  | nil => exact ⟨.nil _, hd, hs⟩
  | cons op ops ih =>
    obtain ⟨h1, h2, h3⟩ := hf
    obtain ⟨i1, i2, i3⟩ := ih _ (groveOp_tidy hd h1) h2 h3
    exact ⟨.cons (fun parts hps hl => (C76_step o ho d hd hs op h1 h2 parts hps hl).1) i1, i2, i3⟩

end Verif.Props
