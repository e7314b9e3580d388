import Verif.Lemmas.Effect
import Verif.Lemmas.Modifier
/- Set and Delete on attributes. -/
namespace Verif
open Spec

/-! ### sorted names -/

theorem insertName_perm (n : Bytes) (l : List Bytes) : (insertName n l).Perm (n :: l) := by
  induction l with
  | nil => exact List.Perm.refl _
  | cons m ms ih =>
    rw [insertName]
    split
    · exact (ih.cons m).trans (List.Perm.swap n m ms)
    · exact List.Perm.refl _

theorem sortNames_perm (l : List Bytes) : (sortNames l).Perm l := by
  induction l with
  | nil => exact List.Perm.refl _
  | cons n ns ih => rw [sortNames]; exact (insertName_perm n _).trans (ih.cons n)

theorem insertName_sorted {n : Bytes} {l : List Bytes} (h : l.Pairwise (fun a b => bytesLt a b = true)) (hn : n ∉ l) :
    (insertName n l).Pairwise (fun a b => bytesLt a b = true) := by
  induction l with
  | nil => simp [insertName]
  | cons m ms ih =>
    obtain ⟨h1, h2⟩ := List.pairwise_cons.mp h
    simp only [List.mem_cons, not_or] at hn
    rw [insertName]
    split
    · rename_i hlt
      refine List.pairwise_cons.mpr ⟨fun x hx => ?_, ih h2 hn.2⟩
      rcases List.mem_cons.mp ((insertName_perm n ms).mem_iff.mp hx) with rfl | hx
      · exact hlt
      · exact h1 x hx
    · rename_i hlt
      have : bytesLt n m = true := by
        cases hh : bytesLt n m with
        | true => rfl
        | false => exact absurd (bytesLt_tri n m hh (by simpa using hlt)) hn.1
      refine List.pairwise_cons.mpr ⟨fun x hx => ?_, h⟩
      rcases List.mem_cons.mp hx with rfl | hx
      · exact this
      · exact bytesLt_trans this (h1 x hx)

theorem sortNames_sorted {l : List Bytes} (h : l.Nodup) : (sortNames l).Pairwise LexBefore := by
  have : (sortNames l).Pairwise (fun a b => bytesLt a b = true) := by
    induction l with
    | nil => simp [sortNames]
    | cons n ns ih =>
      obtain ⟨h1, h2⟩ := List.nodup_cons.mp h
      exact insertName_sorted (ih h2) (fun hh => h1 ((sortNames_perm ns).mem_iff.mp hh))
  exact this.imp (fun {a b} hab => (bytesLt_iff a b).mp hab)

/-! ### attribute maps from lists of names -/

theorem get?_names (names : List Bytes) (g : Bytes → Bytes) (j : Bytes) :
    Attrs.get? j (names.map (fun n => (n, g n))) = if j ∈ names then some (g j) else none := by
  induction names with
  | nil => simp [Attrs.get?]
  | cons n ns ih =>
    simp only [List.map_cons, Attrs.get?, ih, List.mem_cons]
    by_cases h : n = j
    · subst h; simp
    · rw [if_neg h]
      have : (j = n ∨ j ∈ ns) ↔ j ∈ ns := ⟨fun hh => hh.resolve_left (fun e => h e.symm), .inr⟩
      simp only [this]

theorem get?_none_iff (m : Attrs) (j : Bytes) : Attrs.get? j m = none ↔ j ∉ m.map (·.1) := by
  induction m with
  | nil => simp [Attrs.get?]
  | cons x xs ih =>
    simp only [Attrs.get?, List.map_cons, List.mem_cons, not_or]
    by_cases h : x.1 = j
    · subst h; simp
    · rw [if_neg h, ih]
      exact ⟨fun hh => ⟨fun e => h e.symm, hh⟩, fun hh => hh.2⟩

theorem attrVal_names {names : List Bytes} (hn : names.Nodup) (g : Bytes → Bytes) (j : Bytes) :
    attrVal ((names.map (fun n => (n, g n))).map canonAttr) j = if j ∈ names then some (g j) else none := by
  have hu : Attrs.Uniq (names.map (fun n => (n, g n))) := by simpa [Attrs.Uniq, Function.comp_def] using hn
  rw [← attrMap_get, attrMap_canon _ hu, get?_names]

theorem neat_names {names : List Bytes} (hn : names.Nodup) (g : Bytes → Bytes) : Neat ((names.map (fun n => (n, g n))).map canonAttr) := by
  have hu : Attrs.Uniq (names.map (fun n => (n, g n))) := by simpa [Attrs.Uniq, Function.comp_def] using hn
  exact canon_neat ⟨_, hu, rfl⟩

/-- When such attributes are legal. -/
theorem legal_names {names : List Bytes} {g : Bytes → Bytes} (hl : names.length ≤ 100) (hn : ∀ n ∈ names, IsName n) (hg : ∀ n ∈ names, (escapeXML (g n)).length ≤ 1048576) :
    AttrsLegal ((names.map (fun n => (n, g n))).map canonAttr) ∧ AttrsFit ((names.map (fun n => (n, g n))).map canonAttr) := by
  refine ⟨⟨by simpa using hl, ?_, ?_⟩, ?_⟩
  · intro a ha
    obtain ⟨p, hp, rfl⟩ := List.mem_map.mp ha
    obtain ⟨n, hnm, rfl⟩ := List.mem_map.mp hp
    refine ⟨?_, hn n hnm, by simp [canonAttr], by simp [canonAttr], .inl rfl, ?_, hg n hnm⟩
    · intro c hc; simp only [canonAttr, List.mem_singleton] at hc; left; exact hc
    · intro hq; exact (escapeXML_mem hq).2.2.1 rfl
  · intro a hh
    have := List.mem_of_mem_head? hh
    obtain ⟨p, -, rfl⟩ := List.mem_map.mp this
    simp [canonAttr]
  · intro a ha
    obtain ⟨p, hp, rfl⟩ := List.mem_map.mp ha
    obtain ⟨n, hnm, rfl⟩ := List.mem_map.mp hp
    simp only [canonAttr, unescape_escape]
    exact hg n hnm

theorem mem_attrMap {as : List Attr} {m : Attrs} (hm : m.Perm (attrMap as)) {n : Bytes} (h : n ∈ m.map (·.1)) :
    ∃ a ∈ as, a.name = n ∧ Attrs.get? n m = attrVal as n ∧ ∃ b ∈ as, (Attrs.get? n m).getD [] = unescapeXML b.raw := by
  obtain ⟨p, hp, rfl⟩ := List.mem_map.mp h
  rcases attrMapAux_mem (hm.mem_iff.mp hp) with hh | ⟨a, ha, rfl⟩
  · simp at hh
  · have hu := uniq_perm hm (attrMap_uniq as)
    refine ⟨a, ha, rfl, by rw [Attrs.get?_perm hm (attrMap_uniq as), attrMap_get], a, ha, ?_⟩
    rw [(Attrs.get?_eq_some hu _ _).mpr hp]; rfl

theorem get?_map {as : List Attr} {m : Attrs} (hm : m.Perm (attrMap as)) (j : Bytes) : Attrs.get? j m = attrVal as j := by
  rw [Attrs.get?_perm hm (attrMap_uniq as), attrMap_get]

theorem map_length {as : List Attr} {m : Attrs} (hm : m.Perm (attrMap as)) : m.length ≤ as.length := by
  rw [hm.length_eq]
  have := attrMapAux_length [] as
  simpa [attrMap] using this

/-! ### writing the tag -/

theorem writeSorted_eq (m : Attrs) (k s : Bytes) (names : List Bytes) :
    writeSorted true m k (escapeXML s) names = writeAttrs (names.map (fun n => (n, if n = k then s else (Attrs.get? n m).getD []))) := by
  induction names with
  | nil => rfl
  | cons n ns ih =>
    rw [writeSorted, ih, List.map_cons, writeAttrs]
    by_cases h : n = k <;> simp [sameAttr, h]

/-- The sorted attributes with `k` set. -/
theorem retag_set {e : El} {m : Attrs} (hm : m.Perm (attrMap e.attrs)) (k s : Bytes) :
    ∃ as, Retag e k (some s) as ∧ writeSorted true m k (escapeXML s) (attrNamesWith true m k) = as.flatMap Attr.render ∧
      (AttrsLegal e.attrs → AttrsFit e.attrs → IsName k → (escapeXML s).length ≤ 1048576 → (attrVal e.attrs k ≠ none ∨ e.attrs.length < 100) →
        AttrsLegal as ∧ AttrsFit as) := by
  have hu := uniq_perm hm (attrMap_uniq e.attrs)
  have hany : (m.map (·.1)).any (fun n => sameAttr true n k) = true ↔ k ∈ m.map (·.1) := by
    simp only [sameAttr, if_true, List.any_eq_true, decide_eq_true_eq]
    exact ⟨fun ⟨x, h1, h2⟩ => h2 ▸ h1, fun h => ⟨k, h, rfl⟩⟩
  have hnd : (attrNamesWith true m k).Nodup := by
    unfold attrNamesWith
    simp only
    rw [(sortNames_perm _).nodup_iff]
    split
    · exact hu
    · rename_i h
      have h : k ∉ m.map (·.1) := fun hh => h (hany.mpr hh)
      rw [List.nodup_append]
      refine ⟨hu, by simp, fun a ha b hb => ?_⟩
      rintro rfl
      simp only [List.mem_singleton] at hb
      subst hb
      exact h ha
  have hmem : ∀ j, j ∈ attrNamesWith true m k ↔ j ∈ m.map (·.1) ∨ j = k := by
    intro j
    unfold attrNamesWith
    simp only
    rw [(sortNames_perm _).mem_iff]
    split
    · rename_i h
      have h := hany.mp h
      exact ⟨.inl, fun hh => hh.elim id (fun e => e ▸ h)⟩
    · rw [List.mem_append, List.mem_singleton]
  have hlen : (attrNamesWith true m k).length ≤ m.length + 1 ∧ (k ∈ m.map (·.1) → (attrNamesWith true m k).length = m.length) := by
    unfold attrNamesWith
    simp only
    rw [(sortNames_perm _).length_eq]
    split
    · simp
    · rename_i h
      have h : k ∉ m.map (·.1) := fun hh => h (hany.mpr hh)
      exact ⟨by simp, fun hh => absurd hh h⟩
  refine ⟨_, ⟨neat_names hnd _, ?_, ?_, ?_⟩, by rw [writeSorted_eq, writeAttrs_eq], ?_⟩
  · have e1 : (((attrNamesWith true m k).map (fun n => (n, if n = k then s else (Attrs.get? n m).getD []))).map canonAttr).map (·.name) = attrNamesWith true m k := by
      simp [Function.comp_def, canonAttr]
    rw [e1]
    unfold attrNamesWith
    simp only
    refine sortNames_sorted ?_
    rw [← (sortNames_perm _).nodup_iff]
    exact hnd
  · rw [attrVal_names hnd, if_pos ((hmem k).mpr (.inr rfl))]; simp
  · intro j hj
    rw [attrVal_names hnd, ← get?_map hm]
    simp only [hmem, hj, or_false, if_false]
    cases hg : Attrs.get? j m with
    | none => rw [if_neg ((get?_none_iff m j).mp hg)]
    | some x =>
      rw [if_pos]
      · rfl
      · apply Classical.byContradiction
        intro hh
        rw [(get?_none_iff m j).mpr hh] at hg; simp at hg
  · intro ha hf hk hs hc
    refine legal_names ?_ ?_ ?_
    · have h1 := map_length hm
      have h2 := ha.1
      rcases hc with hc | hc
      · have : k ∈ m.map (·.1) := by
          apply Classical.byContradiction
          intro hh
          rw [← get?_map hm, (get?_none_iff m k).mpr hh] at hc; exact hc rfl
        rw [hlen.2 this]; omega
      · have := hlen.1; omega
    · intro n hn
      rcases (hmem n).mp hn with hn | rfl
      · obtain ⟨a, h1, rfl, -⟩ := mem_attrMap hm hn
        exact (ha.2.1 a h1).2.1
      · exact hk
    · intro n hn
      split
      · exact hs
      · rename_i hne
        rcases (hmem n).mp hn with hn | rfl
        · obtain ⟨-, -, -, -, b, h1, h2⟩ := mem_attrMap hm hn
          rw [h2]; exact hf b h1
        · exact absurd rfl hne

/-- The sorted attributes without `k`. -/
theorem retag_delete {e : El} {m : Attrs} (hm : m.Perm (attrMap e.attrs)) (k : Bytes) :
    ∃ as, Retag e k none as ∧ writeAttrs (attrsWithout true m k) = as.flatMap Attr.render ∧
      (AttrsLegal e.attrs → AttrsFit e.attrs → AttrsLegal as ∧ AttrsFit as) := by
  have hu := uniq_perm hm (attrMap_uniq e.attrs)
  have hnd : ((m.map (·.1)).filter (fun n => !sameAttr true n k)).Nodup := List.Pairwise.filter _ hu
  have hnd2 := (sortNames_perm _).nodup_iff.mpr hnd
  have hmem : ∀ j, j ∈ sortNames ((m.map (·.1)).filter (fun n => !sameAttr true n k)) ↔ j ∈ m.map (·.1) ∧ j ≠ k := by
    intro j
    rw [(sortNames_perm _).mem_iff, List.mem_filter]
    simp [sameAttr]
  refine ⟨_, ⟨neat_names hnd2 _, ?_, ?_, ?_⟩, by rw [attrsWithout, writeAttrs_eq], ?_⟩
  · have := sortNames_sorted hnd
    simpa [Function.comp_def, canonAttr] using this
  · rw [attrVal_names hnd2, if_neg (fun h => ((hmem k).mp h).2 rfl)]
  · intro j hj
    rw [attrVal_names hnd2, ← get?_map hm]
    simp only [hmem, ne_eq, hj, not_false_eq_true, and_true]
    cases hg : Attrs.get? j m with
    | none => rw [if_neg ((get?_none_iff m j).mp hg)]
    | some x =>
      rw [if_pos]
      · rfl
      · apply Classical.byContradiction
        intro hh
        rw [(get?_none_iff m j).mpr hh] at hg; simp at hg
  · intro ha hf
    refine legal_names ?_ ?_ ?_
    · rw [(sortNames_perm _).length_eq]
      have h1 := map_length hm
      have h2 := ha.1
      have h3 := List.length_filter_le (fun n => !sameAttr true n k) (m.map (·.1))
      simp only [List.length_map] at h3
      omega
    · intro n hn
      obtain ⟨a, h1, rfl, -⟩ := mem_attrMap hm ((hmem n).mp hn).1
      exact (ha.2.1 a h1).2.1
    · intro n hn
      obtain ⟨-, -, -, -, b, h1, h2⟩ := mem_attrMap hm ((hmem n).mp hn).1
      rw [h2]; exact hf b h1

/-! ### the element with the new tag -/

theorem retag_render (e : El) (as : List Attr) :
    (e.retag as).render = (b!"<" ++ e.name ++ as.flatMap Attr.render ++ tagClose e.body.isNone) ++ e.inner ++ e.stop := by
  obtain ⟨n, as0, ws, body⟩ := e
  rcases body with _ | ⟨k, cws⟩ <;> simp [El.retag, El.render, El.start, El.inner, El.stop, openTag, tagClose]

theorem retag_good {e : El} {d : Nat} {t n : Bool} (h : GoodEl e d t n) {as : List Attr} (hl : AttrsLegal as) (hf : AttrsFit as) (hn : Neat as) : GoodEl (e.retag as) d t n := by
  obtain ⟨nm, as0, ws, body⟩ := e
  obtain ⟨g1, g2, g3, g4⟩ := h
  rcases body with _ | ⟨k, cws⟩
  · exact ⟨⟨g1.1, hl, (fun _ hh => nomatch hh), g1.2.2.2.1, trivial⟩, ⟨hf, trivial⟩, trivial, fun hh => ⟨neat_even hn, trivial⟩⟩
  · exact ⟨⟨g1.1, hl, (fun _ hh => nomatch hh), g1.2.2.2.1, g1.2.2.2.2.1, g1.2.2.2.2.2.1, trivial⟩, ⟨hf, g2.2.1, g2.2.2.1, trivial⟩, ⟨g3.1, g3.2.1, trivial⟩,
      fun hh => ⟨neat_even hn, (g4 hh).2.1, (g4 hh).2.2.1, trivial⟩⟩

theorem editable_retag {c : Ctx} {e : El} (h : Editable (c.plug (e.cons .nil))) {as : List Attr} (hl : AttrsLegal as) (hf : AttrsFit as) (hn : Neat as)
    (hsz : (c.plug ((e.retag as).cons .nil)).render.length ≤ 10485760) : Editable (c.plug ((e.retag as).cons .nil)) :=
  editable_swapEl h (retag_good (editable_el h) hl hf hn) hsz

/-! ### Set and Delete -/

theorem parseParts_attr {k : Bytes} (hk : c!"|" ∉ k) : parseParts [c!"@" :: k] = .ok [⟨.attr k, []⟩] := by
  have : parsePart (c!"@" :: k) = .seg ⟨.attr k, []⟩ := by
    unfold parsePart
    rw [parseModifiers_plain _ (by simp [hk])]
    simp [hasPrefix, List.isPrefixOf]
  simp [parseParts, this]

theorem setElement_attr {o : Ord} {data : Bytes} {ps : List Step} {ss : List Seg} (h : StepSegs ps ss) {v : GoVal} {w k : Bytes}
    (hv : valueToXML v = some w) (hw : w.length ≤ 5242880) (hd : data.length ≤ 10485760) :
    setElement o true [] data (ss ++ [⟨.attr k, []⟩]) v =
      match findLoc o true ss data 0 with
      | none => createElementForAttribute o true [] data ss k w
      | some l => replaceAttribute true data l k w := by
  have hd2 := docMax
  have hv2 := valMax
  have hi : indexIntent (ss ++ [⟨.attr k, []⟩]) = none := by rw [indexIntent_steps h]; rfl
  unfold setElement
  simp only [List.getLast?_append, List.getLast?_singleton, Option.some_or, hv]
  rw [if_neg (by omega), if_neg (by omega), hi]
  simp only [List.dropLast_concat]
  cases findLoc o true ss data 0 <;> rfl

theorem replaceAttribute_at {c : Ctx} {e : El} {l : Loc} (hok : LocOK l c.before.length e) (k w : Bytes) (as : List Attr)
    (hw : writeSorted true l.attrs k w (attrNamesWith true l.attrs k) = as.flatMap Attr.render) :
    replaceAttribute true (c.plug (e.cons .nil)).render l k w = .ok (c.before ++ (e.retag as).render ++ c.after) := by
  unfold replaceAttribute
  rw [plug_el_render, hw]
  have e1 : c.before ++ e.start ++ e.inner ++ e.stop ++ c.after = c.before ++ e.start ++ (e.inner ++ e.stop ++ c.after) := by simp
  rw [e1, splice_at hok.start hok.cstart, hok.name, hok.self, retag_render]
  simp

/-- Set on an attribute of an existing element. -/
theorem set_attr {o : Ord} (ho : o.IsPerm) {ps : List Step} {parts : List Bytes} (hps : StepsText ps parts) (hpl : parts.length < 100) {c : Ctx} {e : El}
    (hL : Leads ps c e.name) (h : Editable (c.plug (e.cons .nil))) {k : Bytes} (hk : c!"|" ∉ k) {v : GoVal} {s : Bytes} (hv0 : v ≠ .nil)
    (hv : valueToXML v = some (escapeXML s)) (hw : (escapeXML s).length ≤ 5242880) :
    ∃ as, Retag e k (some s) as ∧
      set o (c.plug (e.cons .nil)).render (pathOf (parts ++ [c!"@" :: k])) v = .ret (c.before ++ (e.retag as).render ++ c.after, none) ∧
      (AttrsLegal e.attrs → AttrsFit e.attrs → IsName k → (escapeXML s).length ≤ 1048576 → (attrVal e.attrs k ≠ none ∨ e.attrs.length < 100) →
        AttrsLegal as ∧ AttrsFit as) := by
  have hne := leads_ne hL
  obtain ⟨ss, hss, hp⟩ := parsePath_steps hps hne [c!"@" :: k] _ (parseParts_attr hk) (by simp; omega)
  simp only [fuseFields] at hp
  obtain ⟨l, hl, hok⟩ := editable_findLoc ho hss hL h
  obtain ⟨as, h1, h2, h3⟩ := retag_set hok.attrs k s
  refine ⟨as, h1, ?_, h3⟩
  rw [set_entry h hp (by simp) v hv0, setElement_attr hss hv hw h.1, hl]
  simp only
  rw [replaceAttribute_at hok k _ as h2, finish_ok (by simp [El.render, el_start_ne])]

theorem deleteElement_attr {o : Ord} {data : Bytes} {ss : List Seg} (hne : ss ≠ []) {k : Bytes} (hd : data.length ≤ 10485760) :
    deleteElement o true data (ss ++ [⟨.attr k, []⟩]) =
      match findLoc o true ss data 0 with
      | none => .ok data
      | some l => deleteAttribute true data l k := by
  have hd2 := docMax
  unfold deleteElement
  simp only [List.getLast?_append, List.getLast?_singleton, Option.some_or]
  have : 0 < ss.length := List.length_pos_iff.mpr hne
  rw [if_neg (by omega), if_neg (by simp; omega)]
  simp only [List.dropLast_concat]
  cases findLoc o true ss data 0 <;> rfl

/-- Delete on an attribute of an existing element. -/
theorem delete_attr {o : Ord} (ho : o.IsPerm) {ps : List Step} {parts : List Bytes} (hps : StepsText ps parts) (hpl : parts.length < 100) {c : Ctx} {e : El}
    (hL : Leads ps c e.name) (h : Editable (c.plug (e.cons .nil))) {k : Bytes} (hk : c!"|" ∉ k) :
    (attrVal e.attrs k = none → delete o (c.plug (e.cons .nil)).render (pathOf (parts ++ [c!"@" :: k])) = .ret ((c.plug (e.cons .nil)).render, none)) ∧
    (attrVal e.attrs k ≠ none → ∃ as, Retag e k none as ∧ AttrsLegal as ∧ AttrsFit as ∧
      delete o (c.plug (e.cons .nil)).render (pathOf (parts ++ [c!"@" :: k])) = .ret (c.before ++ (e.retag as).render ++ c.after, none)) := by
  have hne := leads_ne hL
  obtain ⟨ss, hss, hp⟩ := parsePath_steps hps hne [c!"@" :: k] _ (parseParts_attr hk) (by simp; omega)
  simp only [fuseFields] at hp
  obtain ⟨l, hl, hok⟩ := editable_findLoc ho hss hL h
  have hany : (l.attrs.map (·.1)).any (fun n => sameAttr true n k) = true ↔ attrVal e.attrs k ≠ none := by
    rw [← get?_map hok.attrs, ne_eq, get?_none_iff, Classical.not_not]
    simp only [sameAttr, if_true, List.any_eq_true, decide_eq_true_eq]
    exact ⟨fun ⟨x, h1, h2⟩ => h2 ▸ h1, fun h => ⟨k, h, rfl⟩⟩
  have hdel := deleteElement_attr (o := o) (k := k) (stepSegs_ne hss hne) h.1
  rw [hl] at hdel
  simp only [deleteAttribute] at hdel
  rw [delete_entry h hp (by simp), hdel]
  refine ⟨fun hn => ?_, fun hn => ?_⟩
  · rw [if_neg (fun hh => hany.mp hh hn)]
    exact finish_ok (render_ne h.2.2.2.1)
  · rw [if_pos (hany.mpr hn)]
    obtain ⟨as, h1, h2, h3⟩ := retag_delete hok.attrs k
    have hg := editable_el h
    obtain ⟨ha, hf⟩ := el_attrs hg.legal hg.tame
    obtain ⟨h4, h5⟩ := h3 ha hf
    refine ⟨as, h1, h4, h5, ?_⟩
    rw [plug_el_render, h2]
    have e1 : c.before ++ e.start ++ e.inner ++ e.stop ++ c.after = c.before ++ e.start ++ (e.inner ++ e.stop ++ c.after) := by simp
    rw [e1, splice_at hok.start hok.cstart, hok.name, hok.self, finish_ok (by simp), retag_render]
    simp

/-- Deleting an attribute of an element that is not there. -/
theorem delete_attr_missing {o : Ord} (ho : o.IsPerm) {xml : Bytes} {i : Info} (h : Says xml i) (hv : valid xml = true) {ps : List Step} {parts : List Bytes}
    (hps : StepsText ps parts) (hne : ps ≠ []) (hpl : parts.length < 100) (hn : i.follow ps = none) {k : Bytes} (hk : c!"|" ∉ k) :
    delete o xml (pathOf (parts ++ [c!"@" :: k])) = .ret (xml, none) := by
  obtain ⟨ss, hss, hp⟩ := parsePath_steps hps hne [c!"@" :: k] _ (parseParts_attr hk) (by simp; omega)
  simp only [fuseFields] at hp
  rw [delete_entry_valid h.1 hv hp (by simp), deleteElement_attr (stepSegs_ne hss hne) h.1, findLoc_follow_none ho hss (says_reads ho h) 0 hn]
  simp only [finish, getResult]
  split <;> simp_all

/-! ### reading back -/

/-- The first content reached is where the first matches lead. -/
theorem follow_reach {pre : List Bytes} {n : Bytes} {i : Info} {nd : Node} (h : i.follow (firsts (pre ++ [n])) = some nd) :
    ∃ k ks, i.reach pre = k :: ks ∧ (k.named n).head? = some nd := by
  induction pre generalizing i with
  | nil =>
    refine ⟨i, [], rfl, ?_⟩
    simp only [firsts, List.nil_append, List.map_cons, List.map_nil, Info.follow] at h
    rw [List.head?_eq_getElem?]; exact h
  | cons m pre ih =>
    have e : firsts (m :: pre ++ [n]) = (m, 0) :: firsts (pre ++ [n]) := rfl
    rw [e, follow_cons _ _ _ (by simp [firsts])] at h
    cases hm : i.named m with
    | nil => rw [hm] at h; simp at h
    | cons x xs =>
      rw [hm] at h
      obtain ⟨k, ks, h1, h2⟩ := ih (i := x.kids) (by simpa using h)
      refine ⟨k, ks ++ xs.flatMap (fun e => e.kids.reach pre), ?_, h2⟩
      rw [Info.reach, hm, List.flatMap_cons, h1, List.cons_append]

/-- The document without attributes. -/
def bare : Info → Info
  | .nil => .nil
  | .text b next => .text b (bare next)
  | .misc m next => .misc m (bare next)
  | .elem n _ k next => .elem n (fun _ => none) (bare k) (bare next)

def bareNode (e : Node) : Node := ⟨e.name, fun _ => none, bare e.kids⟩

theorem bare_elems (i : Info) : (bare i).elems = i.elems.map bareNode := by
  induction i with
  | nil => rfl
  | text b next ih => exact ih
  | misc m next ih => exact ih
  | elem n a k next ihk ih => rw [bare, Info.elems, Info.elems, List.map_cons, ih]; rfl

theorem bare_named (i : Info) (n : Bytes) : (bare i).named n = (i.named n).map bareNode := by
  rw [Info.named, bare_elems, List.filter_map, Info.named]; rfl

theorem bare_text (i : Info) : (bare i).allText = i.allText := by
  induction i with
  | nil => rfl
  | text b next ih => rw [bare, Info.allText, Info.allText, ih]
  | misc m next ih => rw [bare, Info.allText, Info.allText, ih]
  | elem n a k next ihk ih => rw [bare, Info.allText, Info.allText, ihk, ih]

theorem bare_selectL (q : List Bytes) (i : Info) : selectL q (bare i) = (selectL q i).map bareNode := by
  induction q generalizing i with
  | nil => rfl
  | cons n q ih =>
    by_cases hq : q = []
    · subst hq; exact bare_named i n
    · rw [selectL_cons _ _ hq, selectL_cons _ _ hq, bare_named, List.flatMap_map, List.map_flatMap]
      congr 1; funext e
      exact ih e.kids

theorem bare_congr_left (b : Forest) {f g : Forest} (h : bare f.info = bare g.info) : bare (b.append f).info = bare (b.append g).info := by
  induction b with
  | nil => exact h
  | text x next ih => simp only [Forest.append, Forest.info, bare, ih]
  | misc m next ih => simp only [Forest.append, Forest.info, bare, ih]
  | leaf n as ws next ih => simp only [Forest.append, Forest.info, bare, ih]
  | node n as ws k cws next ihk ih => simp only [Forest.append, Forest.info, bare, ih]

theorem bare_retag (c : Ctx) (e : El) (as : List Attr) : bare (c.plug ((e.retag as).cons .nil)).info = bare (c.plug (e.cons .nil)).info := by
  induction c with
  | here b a =>
    rw [Ctx.plug, Ctx.plug]
    refine bare_congr_left b ?_
    obtain ⟨n, as0, ws, body⟩ := e
    rcases body with _ | ⟨k, cws⟩ <;> rfl
  | within b m as' ws c cws a ih =>
    rw [Ctx.plug, Ctx.plug]
    refine bare_congr_left b ?_
    simp only [Forest.info, bare, ih]

/-- Writing attributes does not change the text of elements. -/
theorem retag_text (c : Ctx) (e : El) (as : List Attr) (pre : List Bytes) (n : Bytes) :
    ((c.plug ((e.retag as).cons .nil)).info.select pre n).map (fun nd => nd.kids.textValue) =
      ((c.plug (e.cons .nil)).info.select pre n).map (fun nd => nd.kids.textValue) := by
  have key : ∀ i : Info, (i.select pre n).map (fun nd => nd.kids.textValue) = (selectL (pre ++ [n]) (bare i)).map (fun nd => nd.kids.textValue) := by
    intro i
    rw [bare_selectL, select_eq, List.map_map]
    refine List.map_congr_left (fun nd _ => ?_)
    simp only [Function.comp_def, bareNode, Info.textValue, bare_text]
  rw [key, key, bare_retag]

/-- The attribute of the first match below each content reached. -/
def firstAttrs (i : Info) (pre : List Bytes) (n j : Bytes) : List (Option Bytes) :=
  (i.reach pre).map (fun k => (k.named n).head?.bind (·.attr j))

theorem firstAttrs_cons (i : Info) (m : Bytes) (pre : List Bytes) (n j : Bytes) :
    firstAttrs i (m :: pre) n j = (i.named m).flatMap (fun e => firstAttrs e.kids pre n j) := by
  rw [firstAttrs, Info.reach, List.map_flatMap]; rfl

theorem retag_cons (e : El) (as : List Attr) (a : Forest) (j : Bytes) (h : attrVal as j = attrVal e.attrs j) (n : Bytes) :
    (((e.retag as).cons a).info.named n).head?.bind (·.attr j) = ((e.cons a).info.named n).head?.bind (·.attr j) ∧
    ∀ pre x, ((((e.retag as).cons a).info.named n).flatMap (fun e => firstAttrs e.kids pre x j)) = (((e.cons a).info.named n).flatMap (fun e => firstAttrs e.kids pre x j)) := by
  rw [Info.named, Info.named, cons_elems, cons_elems, List.filter_cons, List.filter_cons]
  have e1 : (e.retag as).node.name = e.node.name := rfl
  have e2 : (e.retag as).node.kids = e.node.kids := rfl
  rw [e1]
  split
  · refine ⟨?_, fun pre x => ?_⟩
    · simp only [List.head?_cons, Option.bind_some]; exact h
    · rw [List.flatMap_cons, List.flatMap_cons, e2]
  · exact ⟨rfl, fun _ _ => rfl⟩

/-- Reading another attribute is not affected. -/
theorem retag_other (c : Ctx) (e : El) (as : List Attr) (j : Bytes) (h : attrVal as j = attrVal e.attrs j) (pre : List Bytes) (n : Bytes) :
    firstAttrs (c.plug ((e.retag as).cons .nil)).info pre n j = firstAttrs (c.plug (e.cons .nil)).info pre n j := by
  induction c generalizing pre with
  | here b a =>
    rw [Ctx.plug, Ctx.plug, cons_append, cons_append]
    cases pre with
    | nil =>
      simp only [firstAttrs, Info.reach, List.map_cons, List.map_nil, append_named, List.head?_append]
      have := (retag_cons e as (Forest.nil.append a) j h n).1
      cases (b.info.named n).head? with
      | none => simpa using this
      | some x => simp
    | cons m pre =>
      rw [firstAttrs_cons, firstAttrs_cons, append_named, append_named, List.flatMap_append, List.flatMap_append, (retag_cons e as (Forest.nil.append a) j h m).2]
  | within b m as' ws c cws a ih =>
    rw [Ctx.plug, Ctx.plug]
    cases pre with
    | nil =>
      simp only [firstAttrs, Info.reach, List.map_cons, List.map_nil, append_named, List.head?_append]
      simp only [Info.named, Forest.info, Info.elems, List.filter_cons]
      cases (List.filter (fun e => nameMatches n e.name) b.info.elems).head? with
      | some x => rfl
      | none => split <;> rfl
    | cons m' pre =>
      rw [firstAttrs_cons, firstAttrs_cons, append_named, append_named, List.flatMap_append, List.flatMap_append]
      congr 1
      simp only [Info.named, Forest.info, Info.elems, List.filter_cons]
      split
      · rw [List.flatMap_cons, List.flatMap_cons, ih]
      · rfl

end Verif
