import Verif.Lemmas.EditOpt
import Verif.Lemmas.Attr
/- Attributes with options: as Lemmas/Attr. -/
namespace Verif
open Spec

theorem lowSegs_attr (cs : Bool) (k : Bytes) : lowSegs cs [⟨.attr k, []⟩] = [⟨.attr (spelling cs k), []⟩] := by cases cs <;> rfl

theorem fold_fold (k : Bytes) : foldCase (foldCase k) = foldCase k := by simp only [foldCase_eq, lower_idem]

theorem sameAttr_key (cs : Bool) (j k : Bytes) : sameAttr cs j (spelling cs k) = decide (sameKey cs j k) := by
  cases cs
  · simp [sameAttr, sameKey, spelling, ← foldCase_eq, fold_fold]
  · simp [sameAttr, sameKey, spelling]

theorem sameKey_self (cs : Bool) (k : Bytes) : sameKey cs (spelling cs k) k := by
  cases cs
  · simp [sameKey, spelling, fold_fold]
  · simp [sameKey, spelling]

theorem writeSorted_eqB (cs : Bool) (m : Attrs) (k s : Bytes) (names : List Bytes) :
    writeSorted cs m (spelling cs k) (escapeXML s) names = writeAttrs (names.map (fun n => (n, if sameKey cs n k then s else (Attrs.get? n m).getD []))) := by
  induction names with
  | nil => rfl
  | cons n ns ih =>
    rw [writeSorted, ih, List.map_cons, writeAttrs, sameAttr_key]
    by_cases h : sameKey cs n k <;> simp [h]

/-- The sorted attributes with `k` set. -/
theorem retag_setB (cs : Bool) {e : El} {m : Attrs} (hm : m.Perm (attrMap e.attrs)) (k s : Bytes) :
    ∃ as, RetagBy cs e k (some s) as ∧ writeSorted cs m (spelling cs k) (escapeXML s) (attrNamesWith cs m (spelling cs k)) = as.flatMap Attr.render := by
  have hu := uniq_perm hm (attrMap_uniq e.attrs)
  have hval : ∀ j, attrVal e.attrs j = none ↔ j ∉ m.map (·.1) := fun j => by rw [← get?_map hm, get?_none_iff]
  have hany : (m.map (·.1)).any (fun n => sameAttr cs n (spelling cs k)) = true ↔ ∃ j, sameKey cs j k ∧ attrVal e.attrs j ≠ none := by
    simp only [List.any_eq_true, sameAttr_key, decide_eq_true_eq]
    refine ⟨fun ⟨x, h1, h2⟩ => ⟨x, h2, fun hh => (hval x).mp hh h1⟩, fun ⟨j, h1, h2⟩ => ⟨j, ?_, h1⟩⟩
    exact Classical.byContradiction fun hh => h2 ((hval j).mpr hh)
  have hfree : ¬ (m.map (·.1)).any (fun n => sameAttr cs n (spelling cs k)) = true → spelling cs k ∉ m.map (·.1) :=
    fun h hh => h (hany.mpr ⟨_, sameKey_self cs k, fun h0 => (hval _).mp h0 hh⟩)
  have hnd : (attrNamesWith cs m (spelling cs k)).Nodup := by
    unfold attrNamesWith
    simp only
    rw [(sortNames_perm _).nodup_iff]
    split
    · exact hu
    · rename_i h
      rw [List.nodup_append]
      refine ⟨hu, by simp, fun a ha b hb => ?_⟩
      rintro rfl
      simp only [List.mem_singleton] at hb
      subst hb
      exact hfree h ha
  have hmem : ∀ j, j ∈ attrNamesWith cs m (spelling cs k) ↔ attrVal e.attrs j ≠ none ∨ (j = spelling cs k ∧ ∀ j', sameKey cs j' k → attrVal e.attrs j' = none) := by
    intro j
    unfold attrNamesWith
    simp only
    rw [(sortNames_perm _).mem_iff, ne_eq, hval, Classical.not_not]
    split
    · rename_i h
      obtain ⟨j', h1, h2⟩ := hany.mp h
      exact ⟨.inl, fun hh => hh.elim id (fun e => absurd (e.2 j' h1) h2)⟩
    · rename_i h
      have : ∀ j', sameKey cs j' k → attrVal e.attrs j' = none := fun j' h1 => Classical.byContradiction fun h2 => h (hany.mpr ⟨j', h1, h2⟩)
      rw [List.mem_append, List.mem_singleton]
      exact ⟨fun hh => hh.elim .inl (fun e => .inr ⟨e, this⟩), fun hh => hh.elim .inl (fun e => .inr e.1)⟩
  refine ⟨_, ⟨neat_names hnd _, ?_, ?_, ?_, ?_, ?_⟩, by rw [writeSorted_eqB, writeAttrs_eq]⟩
  · have e1 : (((attrNamesWith cs m (spelling cs k)).map (fun n => (n, if sameKey cs n k then s else (Attrs.get? n m).getD []))).map canonAttr).map (·.name) = attrNamesWith cs m (spelling cs k) := by
      simp [Function.comp_def, canonAttr]
    rw [e1]
    unfold attrNamesWith
    simp only
    refine sortNames_sorted ?_
    rw [← (sortNames_perm _).nodup_iff]
    exact hnd
  · intro j hj hv
    rw [attrVal_names hnd, if_pos ((hmem j).mpr (.inl hv)), if_pos hj]
  · intro hno j hj
    rw [attrVal_names hnd, if_pos hj]
    by_cases hjk : j = spelling cs k
    · rw [if_pos ((hmem j).mpr (.inr ⟨hjk, hno⟩)), if_pos hjk]
    · rw [if_neg (fun hh => ((hmem j).mp hh).elim (fun h => h (hno j hj)) (fun h => hjk h.1)), if_neg hjk]
  · intro j hj ⟨j', h1, h2⟩ h3
    rw [attrVal_names hnd, if_neg (fun hh => ((hmem j).mp hh).elim (fun h => h h3) (fun h => h2 (h.2 j' h1)))]
  · intro j hj
    rw [attrVal_names hnd, if_neg hj]
    cases hg : attrVal e.attrs j with
    | none =>
      rw [if_neg (fun hh => ((hmem j).mp hh).elim (fun h => h hg) (fun h => hj (h.1 ▸ sameKey_self cs k)))]
    | some x =>
      rw [if_pos ((hmem j).mpr (.inl (by rw [hg]; simp))), get?_map hm, hg]; rfl

/-- The sorted attributes without `k`. -/
theorem retag_deleteB (cs : Bool) {e : El} {m : Attrs} (hm : m.Perm (attrMap e.attrs)) (k : Bytes) :
    ∃ as, RetagBy cs e k none as ∧ writeAttrs (attrsWithout cs m (spelling cs k)) = as.flatMap Attr.render := by
  have hu := uniq_perm hm (attrMap_uniq e.attrs)
  have hval : ∀ j, attrVal e.attrs j = none ↔ j ∉ m.map (·.1) := fun j => by rw [← get?_map hm, get?_none_iff]
  have hnd : ((m.map (·.1)).filter (fun n => !sameAttr cs n (spelling cs k))).Nodup := List.Pairwise.filter _ hu
  have hnd2 := (sortNames_perm _).nodup_iff.mpr hnd
  have hmem : ∀ j, j ∈ sortNames ((m.map (·.1)).filter (fun n => !sameAttr cs n (spelling cs k))) ↔ attrVal e.attrs j ≠ none ∧ ¬ sameKey cs j k := by
    intro j
    rw [(sortNames_perm _).mem_iff, List.mem_filter, sameAttr_key, ne_eq, hval, Classical.not_not]
    simp
  have hout : ∀ j, sameKey cs j k → attrVal ((attrsWithout cs m (spelling cs k)).map canonAttr) j = none := by
    intro j hj
    rw [attrsWithout, attrVal_names hnd2, if_neg (fun h => ((hmem j).mp h).2 hj)]
  refine ⟨_, ⟨neat_names hnd2 _, ?_, fun j hj _ => hout j hj, fun _ j hj => by rw [ite_self]; exact hout j hj, fun j hj _ _ => hout j hj, ?_⟩,
    by rw [attrsWithout, writeAttrs_eq]⟩
  · have := sortNames_sorted hnd
    simpa [Function.comp_def, canonAttr] using this
  · intro j hj
    rw [attrVal_names hnd2]
    cases hg : attrVal e.attrs j with
    | none => rw [if_neg (fun hh => ((hmem j).mp hh).1 hg)]
    | some x => rw [if_pos ((hmem j).mpr ⟨by rw [hg]; simp, hj⟩), get?_map hm, hg]; rfl

theorem setElement_attrB {cs : Bool} {ind : Bytes} {o : Ord} {data : Bytes} {ps : List Step} {ss : List Seg} (h : StepSegs ps ss) {v : GoVal} {w k : Bytes}
    (hv : valueToXML v = some w) (hw : w.length ≤ 5242880) (hd : data.length ≤ 10485760) :
    setElement o cs ind data (ss ++ [⟨.attr k, []⟩]) v =
      match findLoc o cs ss data 0 with
      | none => createElementForAttribute o cs ind data ss k w
      | some l => replaceAttribute cs data l k w := by
  have hd2 := docMax
  have hv2 := valMax
  have hi : indexIntent (ss ++ [⟨.attr k, []⟩]) = none := by rw [indexIntent_steps h]; rfl
  unfold setElement
  simp only [List.getLast?_append, List.getLast?_singleton, Option.some_or, hv]
  rw [if_neg (by omega), if_neg (by omega), hi]
  simp only [List.dropLast_concat]
  cases findLoc o cs ss data 0 <;> rfl

theorem replaceAttribute_atB {cs : Bool} {c : Ctx} {e : El} {l : Loc} (hok : LocOK l c.before.length e) (k w : Bytes) (as : List Attr)
    (hw : writeSorted cs l.attrs k w (attrNamesWith cs l.attrs k) = as.flatMap Attr.render) :
    replaceAttribute cs (c.plug (e.cons .nil)).render l k w = .ok (c.before ++ (e.retag as).render ++ c.after) := by
  unfold replaceAttribute
  rw [plug_el_render, hw]
  have e1 : c.before ++ e.start ++ e.inner ++ e.stop ++ c.after = c.before ++ e.start ++ (e.inner ++ e.stop ++ c.after) := by simp
  rw [e1, splice_at hok.start hok.cstart, hok.name, hok.self, retag_render]
  simp

/-- Set on an attribute of an existing element. -/
theorem set_attrB {opts : Options} {o : Ord} (ho : o.IsPerm) {ps : List Step} {parts : List Bytes} (hps : StepsText ps parts) (hpl : parts.length < 100) {c : Ctx} {e : El}
    (hL : LeadsBy opts.caseSensitive ps c e.name) (h : Editable (c.plug (e.cons .nil))) {k : Bytes} (hk : c!"|" ∉ k) {v : GoVal} {s : Bytes} (hv0 : v ≠ .nil)
    (hv : valueToXML v = some (escapeXML s)) (hw : (escapeXML s).length ≤ 5242880) :
    ∃ as, RetagBy opts.caseSensitive e k (some s) as ∧
      setWithOptions o (c.plug (e.cons .nil)).render (pathOf (parts ++ [c!"@" :: k])) v (some opts) = .ret (c.before ++ (e.retag as).render ++ c.after, none) := by
  have hne := leads_neB hL
  obtain ⟨ss, hss, hp⟩ := parseOpt_steps opts.caseSensitive hps hne [c!"@" :: k] _ (parseParts_attr hk) (by simp; omega)
  simp only [fuseFields, lowSegs_attr] at hp
  obtain ⟨l, hl, hok⟩ := editable_findLocB ho hss (leadsBy_low hL) h
  obtain ⟨as, h1, h2⟩ := retag_setB opts.caseSensitive hok.attrs k s
  refine ⟨as, h1, ?_⟩
  rw [set_entryB h hp (by simp) v hv0, setElement_attrB hss hv hw h.1, hl]
  simp only
  rw [replaceAttribute_atB hok _ _ as h2, finish_ok (by simp [El.render, el_start_ne])]

theorem deleteElement_attrB {cs : Bool} {o : Ord} {data : Bytes} {ss : List Seg} (hne : ss ≠ []) {k : Bytes} (hd : data.length ≤ 10485760) :
    deleteElement o cs data (ss ++ [⟨.attr k, []⟩]) =
      match findLoc o cs ss data 0 with
      | none => .ok data
      | some l => deleteAttribute cs data l k := by
  have hd2 := docMax
  unfold deleteElement
  simp only [List.getLast?_append, List.getLast?_singleton, Option.some_or]
  have : 0 < ss.length := List.length_pos_iff.mpr hne
  rw [if_neg (by omega), if_neg (by simp; omega)]
  simp only [List.dropLast_concat]
  cases findLoc o cs ss data 0 <;> rfl

/-- Delete on an attribute of an existing element. -/
theorem delete_attrB {opts : Options} {o : Ord} (ho : o.IsPerm) {ps : List Step} {parts : List Bytes} (hps : StepsText ps parts) (hpl : parts.length < 100) {c : Ctx} {e : El}
    (hL : LeadsBy opts.caseSensitive ps c e.name) (h : Editable (c.plug (e.cons .nil))) {k : Bytes} (hk : c!"|" ∉ k) :
    ((∀ j, sameKey opts.caseSensitive j k → attrVal e.attrs j = none) →
      deleteWithOptions o (c.plug (e.cons .nil)).render (pathOf (parts ++ [c!"@" :: k])) (some opts) = .ret ((c.plug (e.cons .nil)).render, none)) ∧
    (∀ j, sameKey opts.caseSensitive j k → attrVal e.attrs j ≠ none → ∃ as, RetagBy opts.caseSensitive e k none as ∧
      deleteWithOptions o (c.plug (e.cons .nil)).render (pathOf (parts ++ [c!"@" :: k])) (some opts) = .ret (c.before ++ (e.retag as).render ++ c.after, none)) := by
  have hne := leads_neB hL
  obtain ⟨ss, hss, hp⟩ := parseOpt_steps opts.caseSensitive hps hne [c!"@" :: k] _ (parseParts_attr hk) (by simp; omega)
  simp only [fuseFields, lowSegs_attr] at hp
  obtain ⟨l, hl, hok⟩ := editable_findLocB ho hss (leadsBy_low hL) h
  have hany : (l.attrs.map (·.1)).any (fun n => sameAttr opts.caseSensitive n (spelling opts.caseSensitive k)) = true ↔
      ∃ j, sameKey opts.caseSensitive j k ∧ attrVal e.attrs j ≠ none := by
    simp only [List.any_eq_true, sameAttr_key, decide_eq_true_eq]
    refine ⟨fun ⟨x, h1, h2⟩ => ⟨x, h2, ?_⟩, fun ⟨j, h1, h2⟩ => ⟨j, ?_, h1⟩⟩
    · rw [← get?_map hok.attrs, ne_eq, get?_none_iff, Classical.not_not]; exact h1
    · rw [← get?_map hok.attrs, ne_eq, get?_none_iff, Classical.not_not] at h2; exact h2
  have hdel := deleteElement_attrB (o := o) (cs := opts.caseSensitive) (k := spelling opts.caseSensitive k) (stepSegs_ne hss (lowSteps_ne hne)) h.1
  rw [hl] at hdel
  simp only [deleteAttribute] at hdel
  rw [delete_entryB h.1 (editable_valid h) hp (by simp), hdel]
  refine ⟨fun hn => ?_, fun j hj hn => ?_⟩
  · rw [if_neg (fun hh => by obtain ⟨j, h1, h2⟩ := hany.mp hh; exact h2 (hn j h1))]
    exact finish_ok (render_ne h.2.2.2.1)
  · rw [if_pos (hany.mpr ⟨j, hj, hn⟩)]
    obtain ⟨as, h1, h2⟩ := retag_deleteB opts.caseSensitive hok.attrs k
    refine ⟨as, h1, ?_⟩
    rw [plug_el_render, h2]
    have e1 : c.before ++ e.start ++ e.inner ++ e.stop ++ c.after = c.before ++ e.start ++ (e.inner ++ e.stop ++ c.after) := by simp
    rw [e1, splice_at hok.start hok.cstart, hok.name, hok.self, finish_ok (by simp), retag_render]
    simp

/-- Deleting an attribute of a missing element. -/
theorem delete_attr_missingB {opts : Options} {o : Ord} (ho : o.IsPerm) {xml : Bytes} {i : Info} (h : Says xml i) (hv : valid xml = true) {ps : List Step} {parts : List Bytes}
    (hps : StepsText ps parts) (hne : ps ≠ []) (hpl : parts.length < 100) (hn : i.followBy opts.caseSensitive ps = none) {k : Bytes} (hk : c!"|" ∉ k) :
    deleteWithOptions o xml (pathOf (parts ++ [c!"@" :: k])) (some opts) = .ret (xml, none) := by
  obtain ⟨ss, hss, hp⟩ := parseOpt_steps opts.caseSensitive hps hne [c!"@" :: k] _ (parseParts_attr hk) (by simp; omega)
  simp only [fuseFields, lowSegs_attr] at hp
  rw [delete_entryB h.1 hv hp (by simp), deleteElement_attrB (stepSegs_ne hss (lowSteps_ne hne)) h.1, findLoc_follow_noneB ho hss (says_reads ho h) 0 (by rw [followBy_low]; exact hn)]
  simp only [finish, getResult]
  split <;> simp_all

end Verif
