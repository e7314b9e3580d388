import Verif.Lemmas.Tag
import Verif.Spec.Edit
/- parseElementContent on the grammar: the content is written back in canonical form and says the same. -/
namespace Verif
open Spec

/-- Attributes as the parser writes them back. -/
def CanonAttrs (as : List Attr) : Prop := ∃ m : Attrs, m.Uniq ∧ as = m.map canonAttr

/-- A forest as the parser writes it back. -/
def CanonF : Forest → Prop
  | .nil => True
  | .text _ next => CanonF next
  | .misc _ next => CanonF next
  | .leaf _ as ws next => CanonAttrs as ∧ ws = [] ∧ CanonF next
  | .node _ as ws kids cws next => CanonAttrs as ∧ ws = [] ∧ cws = [] ∧ CanonF kids ∧ CanonF next

def Spec.Info.append : Info → Info → Info
  | .nil, j => j
  | .text b next, j => .text b (next.append j)
  | .misc m next, j => .misc m (next.append j)
  | .elem n a k next, j => .elem n a k (next.append j)

theorem Spec.Forest.info_join (f g : Forest) : (f.append g).info = f.info.append g.info := by
  induction f with
  | nil => rfl
  | text b next ih => simp [Forest.append, Forest.info, Info.append, ih]
  | misc m next ih => simp [Forest.append, Forest.info, Info.append, ih]
  | leaf n as ws next ih => simp [Forest.append, Forest.info, Info.append, ih]
  | node n as ws kids cws next _ ih => simp [Forest.append, Forest.info, Info.append, ih]

theorem Spec.Forest.render_join (f g : Forest) : (f.append g).render = f.render ++ g.render := by
  induction f with
  | nil => rfl
  | text b next ih => simp [Forest.append, Forest.render, ih]
  | misc m next ih => simp [Forest.append, Forest.render, ih]
  | leaf n as ws next ih => simp [Forest.append, Forest.render, ih]
  | node n as ws kids cws next _ ih => simp [Forest.append, Forest.render, ih]

theorem Spec.Draft.info_more (f : Forest) (n : Bytes) (as : List Attr) (ws : Bytes) (rest : Draft) :
    (Draft.more f n as ws rest).info = f.info.append (.elem n (attrVal as) rest.info .nil) := by
  rw [Draft.info, Draft.close, Forest.info_join]; rfl

theorem Spec.Draft.info_done (f : Forest) : (Draft.done f).info = f.info := rfl

def CanonD : Draft → Prop
  | .done f => CanonF f
  | .more f _ as ws rest => CanonF f ∧ CanonAttrs as ∧ ws = [] ∧ CanonD rest

/-- The same forest in canonical form, every tag as long. -/
inductive Twin : Forest → Forest → Prop where
  | nil : Twin .nil .nil
  | text {b : Bytes} {f g : Forest} (h : Twin f g) : Twin (.text b f) (.text b g)
  | misc {m : Misc} {f g : Forest} (h : Twin f g) : Twin (.misc m f) (.misc m g)
  | leaf {n ws : Bytes} {as : List Attr} {m : Attrs} {f g : Forest} (hl : (openTag n (m.map canonAttr) []).length = (openTag n as ws).length)
      (hp : m.Perm (attrMap as)) (h : Twin f g) : Twin (.leaf n as ws f) (.leaf n (m.map canonAttr) [] g)
  | node {n ws : Bytes} {as : List Attr} {m : Attrs} {k k' f g : Forest} (hl : (openTag n (m.map canonAttr) []).length = (openTag n as ws).length)
      (hp : m.Perm (attrMap as)) (hk : Twin k k') (h : Twin f g) : Twin (.node n as ws k [] f) (.node n (m.map canonAttr) [] k' [] g)

theorem prepend_prepend (a b : Bytes) (p : Bytes × Bytes) : prepend a (prepend b p) = prepend (a ++ b) p := by
  simp [prepend]

theorem contentLoop_text (o : Ord) (name : Bytes) (d : Nat) {b : Bytes} (h : c!"<" ∉ b) (r : Bytes) :
    contentLoop o name d (b ++ r) = prepend b (contentLoop o name d r) := by
  induction b with
  | nil => simp [prepend]
  | cons c cs ih =>
    simp only [List.mem_cons, not_or] at h
    rw [List.cons_append, contentLoop.eq_def]
    simp only
    have hc : c ≠ c!"<" := fun e => h.1 e.symm
    rw [if_neg hc, ih h.2, prepend_prepend]; rfl

theorem contentLoop_bang (o : Ord) (name : Bytes) (d : Nat) {b : Bytes} (h : c!"<" ∉ b) (r : Bytes) :
    contentLoop o name d (b!"<!" ++ b ++ r) = prepend (b!"<!" ++ b) (contentLoop o name d r) := by
  have e : b!"<!" ++ b ++ r = c!"<" :: c!"!" :: (b ++ r) := by simp
  rw [e, contentLoop]
  rw [if_pos rfl]
  simp only
  rw [if_neg (by decide), if_pos trivial]
  have := contentLoop_text o name d (b := c!"!" :: b) (by simp [h]) r
  rw [List.cons_append] at this
  rw [this, prepend_prepend]; rfl

theorem NameStart.not_special {x : UInt8} (h : NameStart x) : x ≠ c!"/" ∧ x ≠ c!"!" ∧ x ≠ c!"?" := by
  refine ⟨?_, ?_, ?_⟩ <;> (rintro rfl; exact absurd ((isNameStart_iff _).mpr h) (by decide))

theorem TagName.not_special {x : UInt8} {xs : Bytes} (h : TagName (x :: xs)) : x ≠ c!"/" ∧ x ≠ c!"!" ∧ x ≠ c!"?" :=
  ⟨(h.2.1 x (by simp)).2.1, by simpa using h.2.2.1, by simpa using h.2.2.2.1⟩

theorem contentLoop_open (o : Ord) (name : Bytes) (d : Nat) {n : Bytes} {as : List Attr} {ws : Bytes} (hn : TagName n)
    (ha : AttrsLoose as) (hws : ∀ c ∈ ws, IsWs c) (r : Bytes) :
    contentLoop o name d (openTag n as ws ++ c!">" :: r) =
      prepend (openTag n ((o r (attrMap as)).map canonAttr) [] ++ b!">")
        (contentLoop o name (if n = name then d + 1 else d) r) := by
  have h1 := parseTag_open (r := r) hn ha hws
  obtain ⟨x, xs, hx⟩ := List.exists_cons_of_ne_nil hn.1
  have e : openTag n as ws ++ c!">" :: r = c!"<" :: (n ++ as.flatMap Attr.render ++ ws ++ c!">" :: r) := by
    simp [openTag]
  rw [e]
  have hs := TagName.not_special (hx ▸ hn)
  rw [hx] at h1 ⊢
  simp only [List.cons_append] at h1 ⊢
  rw [contentLoop, if_pos rfl]
  rw [if_neg hs.1, if_neg hs.2.1, h1]
  simp only [writeTag, depthAfter, Bool.false_eq_true, if_false, if_true, Bool.not_false, Bool.true_and, decide_eq_true_eq,
    writeAttrs_eq]
  congr 1

theorem contentLoop_self (o : Ord) (name : Bytes) (d : Nat) {n : Bytes} {as : List Attr} {ws : Bytes} (hn : TagName n)
    (ha : AttrsLoose as) (hws : ∀ c ∈ ws, IsWs c) (r : Bytes) :
    contentLoop o name d (openTag n as ws ++ c!"/" :: c!">" :: r) =
      prepend (openTag n ((o r (attrMap as)).map canonAttr) [] ++ b!"/>") (contentLoop o name d r) := by
  have h1 := parseTag_self (r := r) hn ha hws
  obtain ⟨x, xs, hx⟩ := List.exists_cons_of_ne_nil hn.1
  have e : openTag n as ws ++ c!"/" :: c!">" :: r = c!"<" :: (n ++ as.flatMap Attr.render ++ ws ++ c!"/" :: c!">" :: r) := by
    simp [openTag]
  rw [e]
  have hs := TagName.not_special (hx ▸ hn)
  rw [hx] at h1 ⊢
  simp only [List.cons_append] at h1 ⊢
  rw [contentLoop, if_pos rfl]
  rw [if_neg hs.1, if_neg hs.2.1, h1]
  simp only [writeTag, depthAfter, Bool.false_eq_true, if_false, if_true, Bool.not_true, Bool.false_and, writeAttrs_eq]
  congr 1
  simp [openTag]

theorem gt_not_mem_name {n w : Bytes} (hn : TagName n) (hw : EndTail w) : c!">" ∉ n ++ w := by
  rw [List.mem_append]
  rintro (h | h)
  · exact (hn.2.1 _ h).2.2.1 rfl
  · exact hw.1 h

theorem contentLoop_close (o : Ord) (name : Bytes) (d : Nat) {n w : Bytes} (hn : TagName n) (hw : EndTail w)
    (hl : n.length + w.length ≤ 1048576) (r : Bytes) :
    contentLoop o name d (closeTag n w ++ r) =
      if n = name then (if d ≤ 1 then ([], r) else prepend (closeTag n []) (contentLoop o name (d - 1) r))
      else prepend (closeTag n []) (contentLoop o name d r) := by
  have e : closeTag n w ++ r = c!"<" :: c!"/" :: ((n ++ w) ++ c!">" :: r) := by simp [closeTag]
  rw [e, contentLoop, if_pos rfl]
  simp only
  rw [if_pos trivial, readUntil_of (gt_not_mem_name hn hw) (by simpa using hl)]
  simp only [closeName_tag hn hw, List.drop_succ_cons, List.drop_zero]
  have e2 : closeTag n [] = b!"</" ++ n ++ b!">" := by simp [closeTag]
  rw [e2]

theorem attrMap_pairs (as : List Attr) : attrMap as = attrMap ((as.map (fun a => (a.name, unescapeXML a.raw))).map canonAttr) := by
  have e : ∀ (acc : Attrs) (as : List Attr), attrMapAux acc as = attrMapAux acc ((as.map (fun a => (a.name, unescapeXML a.raw))).map canonAttr) := by
    intro acc as
    induction as generalizing acc with
    | nil => rfl
    | cons a as ih => simp only [attrMapAux, List.map_cons, List.foldl_cons, canonAttr, unescape_escape] at ih ⊢; exact ih _
  exact e [] as

theorem lastOnly_names (as : List Attr) (k : Bytes) : k ∈ (lastOnly as).map (·.name) ↔ k ∈ as.map (·.name) := by
  induction as with
  | nil => rfl
  | cons a as ih =>
    rw [lastOnly]
    split
    · rename_i h
      rw [ih, List.map_cons, List.mem_cons]
      exact ⟨.inr, fun hh => hh.elim (fun e => e ▸ h) id⟩
    · simp only [List.map_cons, List.mem_cons, ih]

theorem lastOnly_nodup (as : List Attr) : ((lastOnly as).map (·.name)).Nodup := by
  induction as with
  | nil => simp [lastOnly]
  | cons a as ih =>
    rw [lastOnly]
    split
    · exact ih
    · rename_i h
      rw [List.map_cons, List.nodup_cons, lastOnly_names]
      exact ⟨h, ih⟩

theorem lastOnly_sub {as : List Attr} {a : Attr} (h : a ∈ lastOnly as) : a ∈ as := by
  induction as with
  | nil => simp [lastOnly] at h
  | cons b as ih =>
    rw [lastOnly] at h
    split at h
    · exact List.mem_cons_of_mem _ (ih h)
    · rcases List.mem_cons.mp h with rfl | h
      · simp
      · exact List.mem_cons_of_mem _ (ih h)

theorem attrVal_lastOnly (as : List Attr) (k : Bytes) : attrVal (lastOnly as) k = attrVal as k := by
  have none_of : ∀ l : List Attr, k ∉ l.map (·.name) → l.filter (fun a => a.name = k) = [] := by
    intro l h
    rw [List.filter_eq_nil_iff]
    intro a ha hk
    exact h (List.mem_map.mpr ⟨a, ha, by simpa using hk⟩)
  induction as with
  | nil => rfl
  | cons a as ih =>
    rw [lastOnly]
    by_cases hk : a.name = k
    · split
      · rename_i h
        rw [ih]
        obtain ⟨b, hb, he⟩ := List.mem_map.mp h
        have hne : as.filter (fun a => a.name = k) ≠ [] := fun e => by
          have := List.filter_eq_nil_iff.mp e b hb
          simp [he, hk] at this
        unfold attrVal
        rw [List.filter_cons, if_pos (by simpa using hk)]
        cases hf : as.filter (fun a => a.name = k) with
        | nil => exact absurd hf hne
        | cons x xs => simp
      · rename_i h
        unfold attrVal
        rw [List.filter_cons, if_pos (by simpa using hk), List.filter_cons, if_pos (by simpa using hk), none_of as (hk ▸ h),
          none_of (lastOnly as) (by rw [lastOnly_names]; exact hk ▸ h)]
    · have e : attrVal (a :: as) k = attrVal as k := by
        unfold attrVal; rw [List.filter_cons, if_neg (by simpa using hk)]
      split
      · rw [ih, e]
      · rw [e, ← ih]
        unfold attrVal; rw [List.filter_cons, if_neg (by simpa using hk)]

theorem uniq_perm_of_get {m m' : Attrs} (h : m.Uniq) (h' : m'.Uniq) (hg : ∀ k, Attrs.get? k m = Attrs.get? k m') : m.Perm m' := by
  have nd : ∀ {m : Attrs}, m.Uniq → m.Nodup := fun h => List.Pairwise.of_map Prod.fst (fun _ _ hne e => hne (by rw [e])) h
  rw [List.perm_ext_iff_of_nodup (nd h) (nd h')]
  rintro ⟨k, v⟩
  rw [← Attrs.get?_eq_some h, ← Attrs.get?_eq_some h', hg]

theorem redoAttrs_eq (as : List Attr) : redoAttrs as = ((lastOnly as).map (fun a => (a.name, unescapeXML a.raw))).map canonAttr := by
  rw [List.map_map]; rfl

theorem redoAttrs_uniq (as : List Attr) : Attrs.Uniq ((lastOnly as).map (fun a => (a.name, unescapeXML a.raw))) := by
  have := lastOnly_nodup as
  simpa [Attrs.Uniq, Function.comp_def] using this

theorem attrMap_redo (as : List Attr) : attrMap (redoAttrs as) = (lastOnly as).map (fun a => (a.name, unescapeXML a.raw)) := by
  rw [redoAttrs_eq, attrMap_canon _ (redoAttrs_uniq as)]

theorem attrMap_redo_perm (as : List Attr) : (attrMap (redoAttrs as)).Perm (attrMap as) := by
  refine uniq_perm_of_get (attrMap_uniq _) (attrMap_uniq _) (fun k => ?_)
  rw [attrMap_redo, ← attrMap_canon _ (redoAttrs_uniq as), ← attrMap_pairs, attrMap_get, attrMap_get, attrVal_lastOnly]

theorem redo_openTag {as : List Attr} {m : Attrs} (hp : m.Perm (attrMap as)) (n : Bytes) :
    (openTag n (m.map canonAttr) []).length = (openTag n (redoAttrs as) []).length := by
  have hp := hp.trans (attrMap_redo_perm as).symm
  simp only [openTag, List.length_append, List.append_nil]
  rw [((hp.map canonAttr).flatMap_right Attr.render).length_eq, attrMap_redo, redoAttrs_eq]

theorem canon_legal {o : Ord} (ho : o.IsPerm) {as : List Attr} (ha : AttrsLoose as) (hf : AttrsFit as) (r : Bytes) :
    AttrsLoose ((o r (attrMap as)).map canonAttr) ∧ (AttrsLegal as → AttrsLegal ((o r (attrMap as)).map canonAttr)) ∧ AttrsFit ((o r (attrMap as)).map canonAttr) ∧
    CanonAttrs ((o r (attrMap as)).map canonAttr) ∧
    attrVal ((o r (attrMap as)).map canonAttr) = attrVal as := by
  have hp := ho r (attrMap as)
  have hu : (o r (attrMap as)).Uniq := (hp.map Prod.fst).nodup_iff.mpr (attrMap_uniq as)
  have hmem : ∀ p ∈ o r (attrMap as), ∃ a ∈ as, p = (a.name, unescapeXML a.raw) := by
    intro p hpm
    rcases attrMapAux_mem (hp.mem_iff.mp hpm) with h | h
    · simp at h
    · exact h
  have hlen : ((o r (attrMap as)).map canonAttr).length ≤ 100 := by
    rw [List.length_map, hp.length_eq]
    have := attrMapAux_length [] as
    simp only [List.length_nil] at this
    have := ha.1
    unfold attrMap; omega
  have hpre : ∀ a, ((o r (attrMap as)).map canonAttr).head? = some a → a.pre ≠ [] := by
    intro a hh
    have := List.mem_of_mem_head? hh
    obtain ⟨p, -, rfl⟩ := List.mem_map.mp this
    simp [canonAttr]
  refine ⟨⟨hlen, ?_, hpre⟩, fun hal => ⟨hlen, ?_, hpre⟩, ?_, ⟨_, hu, rfl⟩, ?_⟩
  · intro a ham
    obtain ⟨p, hpm, rfl⟩ := List.mem_map.mp ham
    obtain ⟨b, hb, rfl⟩ := hmem p hpm
    have hbl := ha.2.1 b hb
    refine ⟨?_, hbl.2.1, by simp [canonAttr], by simp [canonAttr], .inl rfl, ?_, hf b hb⟩
    · intro c hc; simp only [canonAttr, List.mem_singleton] at hc; left; exact hc
    · intro hq; exact (escapeXML_mem hq).2.2.1 rfl
  · intro a ham
    obtain ⟨p, hpm, rfl⟩ := List.mem_map.mp ham
    obtain ⟨b, hb, rfl⟩ := hmem p hpm
    have hbl := hal.2.1 b hb
    refine ⟨?_, hbl.2.1, by simp [canonAttr], by simp [canonAttr], .inl rfl, ?_, hf b hb⟩
    · intro c hc; simp only [canonAttr, List.mem_singleton] at hc; left; exact hc
    · intro hq; exact (escapeXML_mem hq).2.2.1 rfl
  · intro a ham
    obtain ⟨p, hpm, rfl⟩ := List.mem_map.mp ham
    obtain ⟨b, hb, rfl⟩ := hmem p hpm
    simp only [canonAttr, unescape_escape]
    exact hf b hb
  · funext k
    rw [← attrMap_get, attrMap_canon _ hu, Attrs.get?_perm hp (attrMap_uniq as), attrMap_get]

theorem written_canon {as : List Attr} (h : ∀ a ∈ as, a.Written) (hl : as.length ≤ 1) : CanonAttrs as ∧ attrMap as = as.map (fun a => (a.name, unescapeXML a.raw)) ∧
    (as.map (fun a => (a.name, unescapeXML a.raw))).map canonAttr = as := by
  match as, hl with
  | [], _ => exact ⟨⟨[], .nil, rfl⟩, rfl, rfl⟩
  | [a], _ =>
    have ha : a.Written := h a (by simp)
    have e : canonAttr (a.name, unescapeXML a.raw) = a := ha.symm
    refine ⟨⟨[(a.name, unescapeXML a.raw)], by simp [Attrs.Uniq], by simp [e]⟩, ?_, by simp [e]⟩
    have := attrMap_canon [(a.name, unescapeXML a.raw)] (by simp [Attrs.Uniq])
    simpa [e] using this

theorem written_same {o : Ord} (ho : o.IsPerm) {as : List Attr} (h : ∀ a ∈ as, a.Written) (hl : as.length ≤ 1) (r : Bytes) :
    (o r (attrMap as)).map canonAttr = as := by
  obtain ⟨-, h2, h3⟩ := written_canon h hl
  have hp := ho r (attrMap as)
  rw [h2] at hp ⊢
  match as, hl with
  | [], _ => rw [List.map_nil] at hp ⊢; rw [List.perm_nil.mp hp]; rfl
  | [a], _ => rw [List.map_cons, List.map_nil] at hp ⊢; rw [List.perm_singleton.mp hp]; exact h3

/-- The elements in a comment are copied as they are. -/
theorem contentLoop_shut {o : Ord} (ho : o.IsPerm) (name : Bytes) {f : Forest} (h : f.Shut) (d : Nat) (hd : 1 ≤ d) (R : Bytes) :
    contentLoop o name d (f.render ++ R) = prepend f.render (contentLoop o name d R) := by
  induction f generalizing d R with
  | nil => simp [Forest.render, prepend]
  | text b next ih => rw [Forest.render, List.append_assoc, contentLoop_text o name d h.1, ih h.2 d hd, prepend_prepend]
  | misc m next ih => exact absurd h id
  | leaf n as ws next ih =>
    obtain ⟨hn, ha, hw, hle, rfl, h⟩ := h
    have e : (Forest.leaf n as [] next).render ++ R = openTag n as [] ++ c!"/" :: c!">" :: (next.render ++ R) := by simp [Forest.render]
    rw [e, contentLoop_self o name d hn ha (by simp), written_same ho hw hle, ih h d hd, prepend_prepend]
    simp [Forest.render]
  | node n as ws kids cws next ihk ihn =>
    obtain ⟨hn, ha, hw, hle, rfl, rfl, hk, h⟩ := h
    have e : (Forest.node n as [] kids [] next).render ++ R = openTag n as [] ++ c!">" :: (kids.render ++ (closeTag n [] ++ (next.render ++ R))) := by
      simp [Forest.render]
    rw [e, contentLoop_open o name d hn ha (by simp), written_same ho hw hle, ihk hk _ (by split <;> omega),
      contentLoop_close o name _ hn ⟨by simp, by simp⟩ (by simpa using hn.2.2.2.2.2)]
    by_cases hnm : n = name
    · simp only [if_pos hnm]
      rw [if_neg (by omega)]
      simp only [Nat.add_sub_cancel, prepend_prepend]
      rw [ihn h d hd, prepend_prepend]
      simp [Forest.render]
    · simp only [if_neg hnm]
      rw [ihn h d hd, prepend_prepend, prepend_prepend, prepend_prepend]
      simp [Forest.render]

/-- Other markup inside an element is copied as it is. -/
theorem contentLoop_misc {o : Ord} (ho : o.IsPerm) {name : Bytes} (hq : name.head? ≠ some c!"?") {m : Misc} (h : m.Inner) (d : Nat) (hd : 1 ≤ d) {R : Bytes} (hr : ReadBefore m R) :
    contentLoop o name d (m.render ++ R) = prepend m.render (contentLoop o name d R) := by
  cases m with
  | comment b =>
    obtain ⟨⟨f, hf, rfl⟩, -⟩ := h
    have e : (Misc.comment f.render).render ++ R = b!"<!" ++ b!"--" ++ (f.render ++ (b!"-->" ++ R)) := by simp [Misc.render]
    rw [e, contentLoop_bang o name d (by decide), contentLoop_shut ho name hf d hd, contentLoop_text o name d (by decide), prepend_prepend, prepend_prepend]
    simp [Misc.render]
  | cdata b =>
    have e : (Misc.cdata b).render ++ R = b!"<!" ++ (b!"[CDATA[" ++ b ++ b!"]]>") ++ R := by simp [Misc.render]
    have h' : c!"<" ∉ b := h
    rw [e, contentLoop_bang o name d (by simpa using h')]
    simp [Misc.render]
  | decl b =>
    have e : (Misc.decl b).render ++ R = b!"<!" ++ (b ++ b!">") ++ R := by simp [Misc.render]
    rw [e, contentLoop_bang o name d (by simpa using h.1)]
    simp [Misc.render]
  | pi b =>
    obtain ⟨hb, hl⟩ := h
    have hr : readUntilP isNameDelim (c!"?" :: b ++ c!">" :: R) = (c!"?" :: b, c!">" :: R) := by
      refine readUntilP_of (fun x hx => ?_) (by decide) (by simpa using Nat.le_of_succ_le hl) R
      rcases List.mem_cons.mp hx with rfl | hx
      · decide
      · obtain ⟨h1, h2, h3, -⟩ := hb x hx
        simp only [IsWs, not_or] at h1
        simp [isNameDelim, isWs, h1, h2, h3]
    have hp : parseTag (c!"?" :: (b ++ c!">" :: R)) = (⟨c!"?" :: b, [], false, true⟩, R) := by
      unfold parseTag
      rw [← List.cons_append, hr]
      simp only [parseAttributes]
      have : parseAttrsN maxAttributes [] (c!">" :: R) = ([], c!">" :: R) := by
        have := parseAttrsN_of (n := maxAttributes) (acc := []) (as := []) (ws := []) (r := R) (by simp) (by simp) (by simp) (.inl rfl)
        simpa [attrMapAux] using this
      rw [this]
      simp [tagTail]
    have e : (Misc.pi b).render ++ R = c!"<" :: c!"?" :: (b ++ c!">" :: R) := by simp [Misc.render]
    rw [e, contentLoop, if_pos rfl, if_neg (by decide), if_neg (by decide), hp]
    have ho' : o R [] = [] := List.perm_nil.mp (ho R [])
    have hd' : depthAfter name d ⟨c!"?" :: b, [], false, true⟩ = d := by
      unfold depthAfter
      rw [if_neg]
      intro h
      simp at h
      exact hq (by rw [← h]; rfl)
    simp only [hd', ho', writeTag, writeAttrs]
    simp [Misc.render]
  | doctype _ => exact absurd h id
  | mark b =>
    have e : (Misc.mark b).render ++ R = b!"<!" ++ b ++ R := by simp [Misc.render]
    have h' : c!"<" ∉ b := by
      rcases hr with hr | ⟨b', he, -⟩ | ⟨b', he, h1, -⟩
      · exact hr.elim
      · cases he
      · cases he; exact h1
    rw [e, contentLoop_bang o name d h']
    simp [Misc.render]

theorem Twin.sharp {f g : Forest} (h : Twin f.redo g) (hs : f.Sharp) : g.Sharp := by
  cases f with
  | nil => exact hs.elim
  | text _ _ => exact hs.elim
  | misc m next => rw [Forest.redo] at h; cases h; trivial
  | leaf n as ws next => rw [Forest.redo] at h; cases h; trivial
  | node n as ws kids cws next => rw [Forest.redo] at h; cases h; trivial

theorem Spec.Misc.Opens.twin {m : Misc} {f g : Forest} (h : m.Opens f) (ht : Twin f.redo g) : m.Opens g := h.mono ht.sharp

/-- Scanning content copies a forest in canonical form and goes on behind it. -/
theorem contentLoop_forest {o : Ord} (ho : o.IsPerm) {name : Bytes} (hq : name.head? ≠ some c!"?") {f : Forest} (hl : f.Loose) (ht : f.Tame false)
    (d : Nat) (hd : 1 ≤ d) (R : Bytes) :
    ∃ g : Forest, CanonF g ∧ (g.Loose ∧ ∀ d0, f.Legal d0 → g.Legal d0) ∧ g.Tame false ∧ g.info = f.info ∧ Twin f.redo g ∧
      contentLoop o name d (f.render ++ R) = prepend g.render (contentLoop o name d R) := by
  induction f generalizing d R with
  | nil => exact ⟨.nil, trivial, ⟨trivial, fun _ _ => trivial⟩, trivial, rfl, Twin.nil, by simp [Forest.render, prepend]⟩
  | text b next ih =>
    obtain ⟨hb, hl⟩ := hl
    obtain ⟨g, h1, h2, h3, h4, h6, h5⟩ := ih hl ht d hd R
    refine ⟨.text b g, h1, ⟨⟨hb, h2.1⟩, fun d0 h => ⟨h.1, h.2.1, h2.2 d0 h.2.2⟩⟩, h3, by simp [Forest.info, h4], Twin.text h6, ?_⟩
    rw [Forest.render, List.append_assoc, contentLoop_text o name d hb, h5, prepend_prepend]; rfl
  | misc m next ih =>
    obtain ⟨hm, hl⟩ := hl
    obtain ⟨hi, ht⟩ := ht
    simp only [Bool.false_eq_true, if_false] at hi
    obtain ⟨g, h1, h2, h3, h4, h6, h5⟩ := ih hl ht d hd R
    refine ⟨.misc m g, h1, ⟨⟨hm.imp_right (·.twin h6), h2.1⟩, fun d0 h => ⟨h.1, h2.2 d0 h.2⟩⟩, ⟨by simpa using hi, h3⟩, by simp [Forest.info, h4], Twin.misc h6, ?_⟩
    rw [Forest.render, List.append_assoc, contentLoop_misc ho hq hi d hd (readBefore hm R), h5, prepend_prepend, Forest.render]
  | leaf n as ws next ih =>
    obtain ⟨hn, ha, hws, hl⟩ := hl
    obtain ⟨hf, ht⟩ := ht
    obtain ⟨g, h1, h2, h3, h4, h6, h5⟩ := ih hl ht d hd R
    obtain ⟨c1, c1', c2, c3, c4⟩ := canon_legal ho ha hf (next.render ++ R)
    refine ⟨.leaf n ((o (next.render ++ R) (attrMap as)).map canonAttr) [] g, ⟨c3, rfl, h1⟩, ⟨⟨hn, c1, by simp, h2.1⟩, fun d0 h => ⟨h.1, c1' h.2.1, by simp, h.2.2.2.1, h2.2 d0 h.2.2.2.2⟩⟩,
      ⟨c2, h3⟩, by simp only [Forest.info, h4, c4], ?_, ?_⟩
    · exact .leaf (redo_openTag (ho _ _) n) ((ho _ _).trans (attrMap_redo_perm as).symm) h6
    have e : (Forest.leaf n as ws next).render ++ R = openTag n as ws ++ c!"/" :: c!">" :: (next.render ++ R) := by
      simp [Forest.render]
    rw [e, contentLoop_self o name d hn ha hws, h5, prepend_prepend]
    simp [Forest.render]
  | node n as ws kids cws next ihk ihn =>
    obtain ⟨hn, ha, hws, hlk, hcws, hl⟩ := hl
    obtain ⟨hf, hlen, htk, ht⟩ := ht
    obtain ⟨gk, k1, k2, k3, k4, k6, k5⟩ := ihk hlk htk (if n = name then d + 1 else d) (by split <;> omega)
      (closeTag n cws ++ (next.render ++ R))
    obtain ⟨g, h1, h2, h3, h4, h6, h5⟩ := ihn hl ht d hd R
    obtain ⟨c1, c1', c2, c3, c4⟩ := canon_legal ho ha hf (kids.render ++ (closeTag n cws ++ (next.render ++ R)))
    refine ⟨.node n ((o (kids.render ++ (closeTag n cws ++ (next.render ++ R))) (attrMap as)).map canonAttr) [] gk [] g,
      ⟨c3, rfl, rfl, k1, h1⟩, ⟨⟨hn, c1, by simp, k2.1, ⟨by simp, by simp⟩, h2.1⟩,
        fun d0 h => ⟨h.1, c1' h.2.1, by simp, h.2.2.2.1, k2.2 _ h.2.2.2.2.1, by simp, h2.2 _ h.2.2.2.2.2.2⟩⟩,
      ⟨c2, by simpa using Nat.le_trans (Nat.le_add_right _ _) hlen, k3, h3⟩, by simp only [Forest.info, h4, k4, c4], ?_, ?_⟩
    · exact .node (redo_openTag (ho _ _) n) ((ho _ _).trans (attrMap_redo_perm as).symm) k6 h6
    have e : (Forest.node n as ws kids cws next).render ++ R =
        openTag n as ws ++ c!">" :: (kids.render ++ (closeTag n cws ++ (next.render ++ R))) := by
      simp [Forest.render]
    rw [e, contentLoop_open o name d hn ha hws, k5, contentLoop_close o name _ hn hcws hlen]
    by_cases hnm : n = name
    · simp only [if_pos hnm]
      rw [if_neg (by omega)]
      simp only [Nat.add_sub_cancel, prepend_prepend]
      rw [h5, prepend_prepend]
      simp [Forest.render]
    · simp only [if_neg hnm]
      rw [h5, prepend_prepend, prepend_prepend, prepend_prepend]
      simp [Forest.render]

/-- Content of an element up to its closing tag. -/
theorem parseElementContent_forest {o : Ord} (ho : o.IsPerm) {n : Bytes} (hn : TagName n) {f : Forest} (hl : f.Loose)
    (ht : f.Tame false) {cws : Bytes} (hw : EndTail cws) (hlen : n.length + cws.length ≤ 1048576) (R : Bytes) :
    ∃ g : Forest, CanonF g ∧ (g.Loose ∧ ∀ d0, f.Legal d0 → g.Legal d0) ∧ g.Tame false ∧ g.info = f.info ∧ Twin f.redo g ∧
      parseElementContent o n (f.render ++ (closeTag n cws ++ R)) = (g.render, R) := by
  obtain ⟨g, h1, h2, h3, h4, h6, h5⟩ := contentLoop_forest ho hn.2.2.2.1 hl ht 1 (by omega) (closeTag n cws ++ R)
  refine ⟨g, h1, h2, h3, h4, h6, ?_⟩
  unfold parseElementContent
  rw [h5, contentLoop_close o n 1 hn hw hlen]
  simp [prepend]

end Verif
