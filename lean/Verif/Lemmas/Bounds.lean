import Verif.Spec.Panic
import Verif.Lemmas.Panic
import Verif.Lemmas.Edit
/- The positions the builder computes lie in the document when re-serialised content is not longer than its source. -/
namespace Verif
open Spec

/-! ### length of content written back -/

def attrCost (p : Bytes × Bytes) : Nat := (canonAttr p).render.length

theorem attrCost_set (k v : Bytes) (m : Attrs) : ((Attrs.set k v m).map attrCost).sum ≤ (m.map attrCost).sum + attrCost (k, v) := by
  induction m with
  | nil => simp [Attrs.set]
  | cons p r ih =>
    obtain ⟨k', v'⟩ := p
    simp only [Attrs.set]
    split <;> simp only [List.map_cons, List.sum_cons] <;> omega

theorem compact_cost {a : Attr} (h : a.Compact) : attrCost (a.name, unescapeXML a.raw) ≤ a.render.length := by
  obtain ⟨h1, v, h2⟩ := h
  have : 0 < a.pre.length := List.length_pos_iff.mpr h1
  simp only [attrCost, canonAttr, Attr.render, List.length_append, h2, unescape_escape, List.length_cons, List.length_nil]
  omega

theorem attrMapAux_cost {as : List Attr} (h : ∀ a ∈ as, a.Compact) (acc : Attrs) :
    ((attrMapAux acc as).map attrCost).sum ≤ (acc.map attrCost).sum + (as.flatMap Attr.render).length := by
  induction as generalizing acc with
  | nil => simp [attrMapAux]
  | cons a as ih =>
    have h1 := ih (fun x hx => h x (by simp [hx])) (acc.set a.name (unescapeXML a.raw))
    have h2 := attrCost_set a.name (unescapeXML a.raw) acc
    have h3 := compact_cost (h a (by simp))
    simp only [attrMapAux, List.foldl_cons, List.flatMap_cons, List.length_append] at *
    omega

theorem canon_cost (m : Attrs) : ((m.map canonAttr).flatMap Attr.render).length = (m.map attrCost).sum := by
  induction m with
  | nil => rfl
  | cons p m ih => simp only [List.map_cons, List.flatMap_cons, List.length_append, List.sum_cons, ih, attrCost]

theorem tag_shrinks {o : Ord} (ho : o.IsPerm) {n ws : Bytes} {as : List Attr} (h : ∀ a ∈ as, a.Compact) (r : Bytes) :
    (openTag n ((o r (attrMap as)).map canonAttr) []).length ≤ (openTag n as ws).length := by
  have h1 := attrMapAux_cost h []
  have h2 := (((ho r (attrMap as)).map attrCost)).sum_nat
  simp only [openTag, List.length_append, canon_cost, h2, attrMap] at *
  simp at h1 ⊢
  omega

theorem content_shrinks {o : Ord} (ho : o.IsPerm) {name : Bytes} (hq : name.head? ≠ some c!"?") {f : Forest} {d0 : Nat} (hl : f.Legal d0) (ht : f.Tame false) (hc : f.Compact)
    (d : Nat) (hd : 1 ≤ d) (R : Bytes) :
    (contentLoop o name d (f.render ++ R)).1.length ≤ f.render.length + (contentLoop o name d R).1.length := by
  induction f generalizing d0 d R with
  | nil => simp [Forest.render]
  | text b next ih =>
    obtain ⟨hb, hw, hl⟩ := hl
    rw [Forest.render, List.append_assoc, contentLoop_text o name d hb]
    have := ih hl ht hc d hd R
    simp only [prepend, List.length_append]; omega
  | misc m next ih =>
    obtain ⟨hm, hl⟩ := hl
    obtain ⟨hi, ht⟩ := ht
    simp only [Bool.false_eq_true, if_false] at hi
    rw [Forest.render, List.append_assoc, contentLoop_misc ho hq hi d hd (.inl hm)]
    have := ih hl ht hc d hd R
    simp only [prepend, List.length_append] at *; omega
  | leaf n as ws next ih =>
    obtain ⟨hn, ha, hws, hd0, hl⟩ := hl
    obtain ⟨hf, ht⟩ := ht
    have e : (Forest.leaf n as ws next).render ++ R = openTag n as ws ++ c!"/" :: c!">" :: (next.render ++ R) := by
      simp [Forest.render]
    rw [e, contentLoop_self o name d hn.tag ha.loose hws]
    have h1 := ih hl ht hc.2 d hd R
    have h2 := tag_shrinks ho (n := n) (ws := ws) hc.1 (next.render ++ R)
    simp only [prepend, List.length_append, Forest.render] at *; omega
  | node n as ws kids cws next ihk ihn =>
    obtain ⟨hn, ha, hws, hd0, hlk, hcws, hl⟩ := hl
    obtain ⟨hf, hlen, htk, ht⟩ := ht
    obtain ⟨hca, hck, hcn⟩ := hc
    have e : (Forest.node n as ws kids cws next).render ++ R =
        openTag n as ws ++ c!">" :: (kids.render ++ (closeTag n cws ++ (next.render ++ R))) := by
      simp [Forest.render]
    rw [e, contentLoop_open o name d hn.tag ha.loose hws]
    have h1 := ihk hlk htk hck (if n = name then d + 1 else d) (by split <;> omega) (closeTag n cws ++ (next.render ++ R))
    have h2 := tag_shrinks ho (n := n) (ws := ws) hca (kids.render ++ (closeTag n cws ++ (next.render ++ R)))
    have h3 := ihn hl ht hcn d hd R
    have h4 : (contentLoop o name (if n = name then d + 1 else d) (closeTag n cws ++ (next.render ++ R))).1.length ≤
        (closeTag n cws).length + (contentLoop o name d (next.render ++ R)).1.length := by
      rw [contentLoop_close o name _ hn.tag (EndTail.ws hcws) hlen]
      by_cases hnm : n = name
      · simp only [if_pos hnm]
        rw [if_neg (by omega)]
        simp only [Nat.add_sub_cancel, prepend, closeTag, List.length_append, List.length_cons, List.length_nil]; omega
      · simp only [if_neg hnm, prepend, closeTag, List.length_append, List.length_cons, List.length_nil]; omega
    simp only [prepend, List.length_append, Forest.render] at *; omega

/-! ### documents in which all content fits -/

/-- Scanning `k` levels, every content is no longer than its place. -/
def Fits (o : Ord) : Nat → Bytes → Prop
  | 0, _ => True
  | k + 1, data => ∀ e ∈ topElems o data, Fits o k e.content ∧
      (if e.selfClosing then e.content = [] else e.content.length + e.endLen + e.name.length + 3 ≤ e.openLen)

theorem canon_compact {as : List Attr} (h : CanonAttrs as) : ∀ a ∈ as, a.Compact := by
  obtain ⟨m, -, rfl⟩ := h
  intro a ha
  obtain ⟨p, -, rfl⟩ := List.mem_map.mp ha
  exact ⟨by simp [canonAttr], p.2, rfl⟩

theorem canonF_compact {f : Forest} (h : CanonF f) : f.Compact := by
  induction f with
  | nil => trivial
  | text b next ih => exact ih h
  | misc m next ih => exact ih h
  | leaf n as ws next ih => exact ⟨canon_compact h.1, ih h.2.2⟩
  | node n as ws k cws next ihk ih => exact ⟨canon_compact h.1, ihk h.2.2.2.1, ih h.2.2.2.2⟩

theorem compact_below {f : Forest} (h : f.Compact) : f.CompactBelow := by
  induction f with
  | nil => trivial
  | text b next ih => exact ih h
  | misc m next ih => exact ih h
  | leaf n as ws next ih => exact ih h.2
  | node n as ws k cws next ihk ih => exact ⟨h.2.1, ih h.2.2⟩

theorem fits_forest {o : Ord} (ho : o.IsPerm) (k : Nat) : ∀ {f : Forest} {d : Nat} {top : Bool}, f.Legal d → f.Tame top → f.CompactBelow →
    Fits o k f.render := by
  induction k with
  | zero => intros; trivial
  | succ k ihk =>
    intro f d top hl ht hc
    unfold Fits
    induction f generalizing d with
    | nil => rw [Forest.render, topElems_none (by simp [skipToNext])]; simp
    | text b next ih =>
      obtain ⟨hb, -, hl⟩ := hl
      rw [Forest.render, topElems_skip (skipToNext_text hb _)]
      exact ih hl ht hc
    | misc m next ih =>
      obtain ⟨hm, hl⟩ := hl
      obtain ⟨hi, ht⟩ := ht
      have hout : m.Outer := by
        cases top
        · exact Misc.inner_outer (by simpa using hi)
        · simpa using hi
      rw [Forest.render, topElems_skip (skipToNext_outer hm hout _)]
      exact ih hl ht hc
    | leaf n as ws next ih =>
      obtain ⟨hn, ha, hws, -, hl⟩ := hl
      obtain ⟨-, ht⟩ := ht
      have e : (Forest.leaf n as ws next).render = openTag n as ws ++ c!"/" :: c!">" :: next.render := by simp [Forest.render]
      rw [e, topElems_some (skipToNext_open hn.tag as ws _), elemAt_self hn.tag ha.loose hws]
      intro e he
      rcases List.mem_cons.mp he with rfl | he
      · exact ⟨ihk (f := .nil) (d := 0) (top := true) trivial trivial trivial, by simp⟩
      · exact ih hl ht hc e he
    | node n as ws kids cws next _ ihn =>
      obtain ⟨hn, ha, hws, -, hlk, hcws, hl⟩ := hl
      obtain ⟨-, hlen, htk, ht⟩ := ht
      obtain ⟨hck, hc⟩ := hc
      obtain ⟨g, h1, h2, h3, h4, -, h5⟩ := parseElementContent_forest ho hn.tag hlk.loose htk (EndTail.ws hcws) hlen next.render
      have hsh := content_shrinks ho hn.tag.2.2.2.1 hlk htk hck 1 (by omega) (closeTag n cws ++ next.render)
      rw [contentLoop_close o n 1 hn.tag (EndTail.ws hcws) hlen] at hsh
      have h5' := h5
      unfold parseElementContent at h5'
      rw [h5'] at hsh
      have e : (Forest.node n as ws kids cws next).render =
          openTag n as ws ++ c!">" :: (kids.render ++ (closeTag n cws ++ next.render)) := by simp [Forest.render]
      obtain ⟨g', h1', h2', h3', -, -, h5''⟩ := elemAt_open ho (r := next.render) (ws := ws) hn.tag ha.loose hws hlk.loose htk (EndTail.ws hcws) hlen
      have hg : g'.render = g.render := by
        have := congrArg (fun p => p.1.content) h5''
        simp only at this
        rw [← this]
        unfold elemAt
        have e2 : (openTag n as ws ++ c!">" :: (kids.render ++ (closeTag n cws ++ next.render))).drop 1 =
            n ++ as.flatMap Attr.render ++ ws ++ c!">" :: (kids.render ++ (closeTag n cws ++ next.render)) := by simp [openTag]
        rw [e2, parseTag_open hn.tag ha.loose hws]
        simp only [Bool.false_eq_true, if_false]
        rw [h5]
      rw [e, topElems_some (skipToNext_open hn.tag as ws _), h5'']
      intro e he
      rcases List.mem_cons.mp he with rfl | he
      · refine ⟨ihk (h2'.2 _ hlk) h3' (compact_below (canonF_compact h1')), ?_⟩
        simp only [Bool.false_eq_true, if_false, hg, List.length_append, closeTag, List.length_cons, List.length_nil]
        simp at hsh
        omega
      · exact ihn hl ht hc e he

/-! ### positions -/

theorem elemAt_lens (o : Ord) (s : Bytes) : (elemAt o s).1.startLen = s.length ∧ (elemAt o s).1.openLen ≤ s.length ∧
    (elemAt o s).1.endLen ≤ (elemAt o s).1.openLen ∧ (elemAt o s).2.length ≤ s.length := by
  have h1 := parseTag_length (s.drop 1)
  have h2 := contentLoop_length o (parseTag (s.drop 1)).1.name 1 (parseTag (s.drop 1)).2
  simp only [List.length_drop] at h1
  unfold elemAt parseElementContent
  simp only
  split <;> simp only [true_and] <;> refine ⟨?_, ?_, ?_⟩ <;> omega

theorem topElems_lens (o : Ord) (data : Bytes) : ∀ e ∈ topElems o data, e.startLen ≤ data.length ∧ e.openLen ≤ e.startLen ∧ e.endLen ≤ e.openLen := by
  fun_induction topElems o data with
  | case1 => simp
  | case2 r s h ih =>
    have h1 := skipToNext_length r s h
    have h2 := elemAt_lens o s
    intro e he
    rcases List.mem_cons.mp he with rfl | he
    · omega
    · have := ih e he
      omega

/-- The location lies in `[lo, hi]`. -/
structure InRange (l : Loc) (lo hi : Int) : Prop where
  start : lo ≤ l.startPos
  cstart : l.startPos ≤ l.contentStart
  cend : l.contentStart ≤ l.contentEnd
  tend : l.endTagPos = l.contentEnd
  fin : l.contentEnd + (if l.selfClosing then 0 else (l.name.length : Int) + 3) ≤ hi

theorem locOf_range {o : Ord} {data : Bytes} {base : Int} {e : Elem} (he : e ∈ topElems o data)
    (hf : if e.selfClosing then e.content = [] else e.content.length + e.endLen + e.name.length + 3 ≤ e.openLen) :
    InRange (locOf data base e) base (base + data.length) := by
  have := topElems_lens o data e he
  by_cases hs : e.selfClosing = true
  · constructor <;> simp only [locOf, hs, if_true] <;> omega
  · rw [if_neg hs] at hf
    constructor <;> simp only [locOf, if_neg hs] <;> omega

theorem inRange_below {o : Ord} {data : Bytes} {base : Int} {e : Elem} (he : e ∈ topElems o data)
    (hf : if e.selfClosing then e.content = [] else e.content.length + e.endLen + e.name.length + 3 ≤ e.openLen) {l : Loc}
    (h : InRange l (base + ((data.length : Int) - e.openLen)) (base + ((data.length : Int) - e.openLen) + e.content.length)) :
    InRange l base (base + data.length) := by
  have h2 := topElems_lens o data e he
  have h4 : (e.content.length : Int) ≤ e.openLen := by
    by_cases hs : e.selfClosing = true
    · rw [if_pos hs] at hf; rw [hf]; simp
    · rw [if_neg hs] at hf; omega
  exact ⟨by have := h.start; omega, h.cstart, h.cend, h.tend, by have := h.fin; omega⟩

theorem findLoc_range (o : Ord) (cs : Bool) (ss : List Seg) (data : Bytes) (base : Int) {k : Nat} (hk : ss.length ≤ k) (hf : Fits o k data) {l : Loc}
    (h : findLoc o cs ss data base = some l) : InRange l base (base + data.length) := by
  cases k with
  | zero =>
    cases ss with
    | nil => simp [findLoc] at h
    | cons s ss => simp at hk
  | succ k =>
    cases ss with
    | nil => simp [findLoc] at h
    | cons cur rest =>
      rw [findLoc.eq_def] at h
      simp only at h
      split at h
      · simp at h
      · cases rest with
        | nil =>
          simp only [Option.map_eq_some_iff] at h
          obtain ⟨e, he, rfl⟩ := h
          have hm := (List.mem_filter.mp (List.mem_of_mem_head? he)).1
          exact locOf_range hm (hf e hm).2
        | cons nxt rest2 =>
          simp only at h
          split at h
          · split at h
            · simp at h
            · split at h
              · simp at h
              · rename_i e he
                have hm := (List.mem_filter.mp (List.mem_of_getElem? he)).1
                split at h
                · simp only [Option.some.injEq] at h
                  subst h
                  exact locOf_range hm (hf e hm).2
                · split at h
                  · exact inRange_below hm (hf e hm).2 (findLoc_range o cs rest2 _ _ (k := k) (by simp at hk; omega) (hf e hm).1 h)
                  · simp at h
          · split at h
            · simp at h
            · rename_i e he
              have hm := (List.mem_filter.mp (List.mem_of_mem_head? he)).1
              split at h
              · exact inRange_below hm (hf e hm).2 (findLoc_range o cs (nxt :: rest2) _ _ (k := k) (by simp at hk ⊢; omega) (hf e hm).1 h)
              · simp at h
termination_by ss.length

theorem splice_ok {d : Bytes} {i j : Int} {mid : Bytes} (hi : 0 ≤ i) (hi2 : i ≤ d.length) (hj : 0 ≤ j) (hj2 : j ≤ d.length) : splice d i j mid ≠ .panic := by
  unfold splice sliceTo sliceFrom
  rw [if_pos ⟨hi, hi2⟩, if_pos ⟨hj, hj2⟩]
  simp

theorem InRange.bounds {l : Loc} {d : Bytes} (h : InRange l 0 (0 + d.length)) :
    0 ≤ l.startPos ∧ l.startPos ≤ d.length ∧ 0 ≤ l.contentStart ∧ l.contentStart ≤ d.length ∧ 0 ≤ l.contentEnd ∧ l.contentEnd ≤ d.length ∧
    (l.selfClosing = false → l.endTagPos + l.name.length + 3 ≤ d.length ∧ 0 ≤ l.endTagPos + l.name.length + 3) := by
  have h1 := h.start
  have h2 := h.cstart
  have h3 := h.cend
  have h4 := h.tend
  have h5 := h.fin
  cases hs : l.selfClosing <;> rw [hs] at h5
  · simp only [Bool.false_eq_true, if_false] at h5
    refine ⟨?_, ?_, ?_, ?_, ?_, ?_, fun _ => ⟨?_, ?_⟩⟩ <;> omega
  · simp only [if_true] at h5
    refine ⟨?_, ?_, ?_, ?_, ?_, ?_, fun h => by simp at h⟩ <;> omega

theorem createInParent_safe {o : Ord} {indent data : Bytes} {l : Loc} {rest : List Seg} {v : Bytes} (h : InRange l 0 (0 + data.length)) :
    createInParent o indent data l rest v ≠ .panic := by
  have hb := h.bounds
  unfold createInParent
  split <;> exact splice_ok (by omega) (by omega) (by omega) (by omega)

theorem deepestParent_range {o : Ord} {cs : Bool} {data : Bytes} {path : List Seg} {n i : Nat} {l : Loc} (hf : ∀ k, Fits o k data)
    (h : deepestParent o cs data path n = some (i, l)) : InRange l 0 (0 + data.length) := by
  induction n with
  | zero => simp [deepestParent] at h
  | succ n ih =>
    unfold deepestParent at h
    split at h
    · rename_i hl
      simp only [Option.some.injEq, Prod.mk.injEq] at h
      obtain ⟨-, rfl⟩ := h
      exact findLoc_range o cs _ data 0 (Nat.le_refl _) (hf _) hl
    · exact ih h

theorem ite_safe {c : Prop} [Decidable c] {a b : BRes} (ha : a ≠ .panic) (hb : b ≠ .panic) : (if c then a else b) ≠ .panic := by
  split <;> assumption

theorem createInRoot_safe {o : Ord} {indent data : Bytes} {path : List Seg} {v : Bytes} (hf : ∀ k, Fits o k data) :
    createInRoot o indent data path v ≠ .panic := by
  unfold createInRoot
  dsimp only
  refine ite_safe (by intro h; cases h) ?_
  cases ht : topElems o data with
  | nil => intro h; cases h
  | cons e es =>
    dsimp only
    have hm : e ∈ topElems o data := by rw [ht]; simp
    have hb := (locOf_range (base := 0) hm ((hf 1) e hm).2).bounds
    refine ite_safe (by intro h; cases h) (ite_safe ?_ ?_)
    · exact splice_ok hb.1 hb.2.1 hb.2.2.1 hb.2.2.2.1
    · exact splice_ok hb.2.2.2.2.1 hb.2.2.2.2.2.1 hb.2.2.2.2.1 hb.2.2.2.2.2.1

theorem createElement_safe {o : Ord} {cs : Bool} {indent data : Bytes} {path : List Seg} {v : Bytes} (hf : ∀ k, Fits o k data) :
    createElement o cs indent data path v ≠ .panic := by
  unfold createElement
  split
  · simp
  · cases hd : deepestParent o cs data path (path.length - 1) with
    | none => exact createInRoot_safe hf
    | some p => obtain ⟨i, l⟩ := p; exact createInParent_safe (deepestParent_range hf hd)

theorem sizeChecked_safe {b : BRes} (h : b ≠ .panic) : sizeChecked b ≠ .panic := by
  unfold sizeChecked
  split
  · split <;> simp
  · exact h

theorem appendRoot_safe {o : Ord} {cs : Bool} {data : Bytes} {seg : Seg} {v : Bytes} : appendRootElement o cs data seg v ≠ .panic := by
  unfold appendRootElement
  split
  · simp
  · simp only
    refine sizeChecked_safe ?_
    split
    · rename_i e he
      have hm := (List.mem_filter.mp (List.mem_of_getLast? he)).1
      have := topElems_lens o data e hm
      exact splice_ok (by omega) (by omega) (by omega) (by omega)
    · exact splice_ok (by omega) (by omega) (by omega) (by omega)

theorem findLastMatch_range {o : Ord} {cs : Bool} {data : Bytes} {l : Loc} {seg : Seg} (h : InRange l 0 (0 + data.length)) :
    ∃ p, findLastMatch o cs data l seg = some p ∧ 0 ≤ p ∧ p ≤ data.length := by
  have hb := h.bounds
  have hc := h.cend
  unfold findLastMatch slice
  rw [if_pos ⟨by omega, hc, by omega⟩]
  simp only
  split
  · rename_i e he
    have hm := (List.mem_filter.mp (List.mem_of_getLast? he)).1
    have h1 := topElems_lens o _ e hm
    refine ⟨_, rfl, ?_, ?_⟩
    · omega
    · simp only [List.length_drop, List.length_take] at h1 ⊢
      omega
  · exact ⟨_, rfl, by omega, by omega⟩

theorem appendElement_safe {o : Ord} {cs : Bool} {indent data : Bytes} {path : List Seg} {v : Bytes} (hf : ∀ k, Fits o k data) :
    appendElement o cs indent data path v ≠ .panic := by
  unfold appendElement
  cases path.getLast? with
  | none => simp
  | some seg =>
    simp only
    cases seg.kind with
    | elem name =>
      simp only
      split
      · exact appendRoot_safe
      · cases hl : findLoc o cs path.dropLast data 0 with
        | none => exact createElement_safe hf
        | some l =>
          simp only
          have hr := findLoc_range o cs _ data 0 (Nat.le_refl _) (hf _) hl
          have hb := hr.bounds
          split
          · exact splice_ok (by omega) (by omega) (by omega) (by omega)
          · obtain ⟨p, hp, h1, h2⟩ := findLastMatch_range (cs := cs) (seg := seg) (o := o) hr
            rw [hp]
            exact sizeChecked_safe (splice_ok h1 h2 h1 h2)
    | _ => simp

/-- The attribute to set is on an element that is not there. -/
def AttrMissing (o : Ord) (cs : Bool) (data : Bytes) (ss : List Seg) : Prop :=
  (∃ a, (ss.getLast?.map (·.kind)) = some (.attr a)) ∧ findLoc o cs ss.dropLast data 0 = none

theorem setElement_safe {o : Ord} {cs : Bool} {indent data : Bytes} {path : List Seg} {v : GoVal} (hf : ∀ k, Fits o k data)
    (ha : ¬ AttrMissing o cs data path) : setElement o cs indent data path v ≠ .panic := by
  unfold setElement
  cases hl : path.getLast? with
  | none => simp
  | some last =>
    simp only
    cases valueToXML v with
    | none => simp
    | some w =>
      simp only
      split
      · simp
      · split
        · simp
        · split
          · simp
          · exact appendElement_safe hf
          · cases hk : last.kind with
            | attr a =>
              simp only
              cases hloc : findLoc o cs path.dropLast data 0 with
              | none => exact absurd ⟨⟨a, by rw [hl]; simp [hk]⟩, hloc⟩ ha
              | some l =>
                have hb := (findLoc_range o cs _ data 0 (Nat.le_refl _) (hf _) hloc).bounds
                exact splice_ok (by omega) (by omega) (by omega) (by omega)
            | _ =>
              simp only
              cases hloc : findLoc o cs path data 0 with
              | none => exact createElement_safe hf
              | some l =>
                have hb := (findLoc_range o cs _ data 0 (Nat.le_refl _) (hf _) hloc).bounds
                exact splice_ok (by omega) (by omega) (by omega) (by omega)

theorem deleteElement_safe {o : Ord} {cs : Bool} {data : Bytes} {path : List Seg} (hf : ∀ k, Fits o k data) : deleteElement o cs data path ≠ .panic := by
  unfold deleteElement
  cases hl : path.getLast? with
  | none => simp
  | some last =>
    simp only
    split
    · simp
    · cases hk : last.kind with
      | attr a =>
        simp only
        split
        · simp
        · cases hloc : findLoc o cs path.dropLast data 0 with
          | none => simp
          | some l =>
            have hb := (findLoc_range o cs _ data 0 (Nat.le_refl _) (hf _) hloc).bounds
            simp only [deleteAttribute]
            split
            · exact splice_ok (by omega) (by omega) (by omega) (by omega)
            · simp
      | _ =>
        simp only
        cases hloc : findLoc o cs path data 0 with
        | none => simp
        | some l =>
          have hb := (findLoc_range o cs _ data 0 (Nat.le_refl _) (hf _) hloc).bounds
          simp only
          cases hs : l.selfClosing with
          | true => simp only [if_true]; exact splice_ok (by omega) (by omega) (by omega) (by omega)
          | false =>
            have := hb.2.2.2.2.2.2 hs
            simp only [Bool.false_eq_true, if_false]; exact splice_ok (by omega) (by omega) (by omega) (by omega)

theorem parseParts_inv {ps : List Bytes} {ss : List Seg} (h : parseParts ps = .ok ss) {x : Seg} (hm : x ∈ ss) : ∃ p ∈ ps, parsePart p = .seg x := by
  induction ps generalizing ss with
  | nil => simp [parseParts] at h; subst h; simp at hm
  | cons p ps ih =>
    unfold parseParts at h
    split at h
    · simp at h
    · simp at h
    · obtain ⟨q, h1, h2⟩ := ih h hm
      exact ⟨q, by simp [h1], h2⟩
    · rename_i s hp
      split at h
      · simp at h
      · simp at h
      · rename_i ss' hr
        simp only [Parse.ok.injEq] at h; subst h
        rcases List.mem_cons.mp hm with rfl | hm
        · exact ⟨p, by simp, hp⟩
        · obtain ⟨q, h1, h2⟩ := ih hr hm
          exact ⟨q, by simp [h1], h2⟩

theorem fuseFields_attr {ss : List Seg} {a : Bytes} {mods : List Bytes}
    (hm : (⟨.attr a, mods⟩ : Seg) ∈ fuseFields ss) : (⟨.attr a, mods⟩ : Seg) ∈ ss := by
  fun_induction fuseFields ss <;> grind

theorem parsePart_attr_inv {p a : Bytes} {mods : List Bytes} (h : parsePart p = .seg ⟨.attr a, mods⟩) : p.head? = some c!"@" := by
  unfold parsePart at h
  simp only at h
  obtain ⟨t, ht⟩ := parseModifiers_prefix p
  split at h
  · simp at h
  · split at h
    · unfold parseFilterPart at h
      simp only at h
      repeat' split at h
      all_goals simp at h
    · split at h
      · rename_i hp
        obtain ⟨u, hu⟩ := List.isPrefixOf_iff_prefix.mp hp
        rw [← hu] at ht
        rw [← ht]; rfl
      · repeat' split at h
        all_goals simp at h

theorem parsePath_attr {path : Bytes} {ss : List Seg} (h : parsePath path = .ok ss) {a : Bytes} {mods : List Bytes}
    (hm : (⟨.attr a, mods⟩ : Seg) ∈ ss) : ∃ p ∈ splitPath path, p.head? = some c!"@" := by
  unfold parsePath parsePathInternal at h
  repeat' split at h
  all_goals try (simp at h; done)
  rename_i hp
  simp only [Parse.ok.injEq] at h; subst h
  obtain ⟨p, h1, h2⟩ := parseParts_inv hp (fuseFields_attr hm)
  exact ⟨p, h1, parsePart_attr_inv h2⟩

theorem lowerSeg_attr {s : Seg} {a : Bytes} (h : (lowerSeg s).kind = .attr a) : ∃ b, s.kind = .attr b := by
  obtain ⟨k, m⟩ := s
  cases k <;> simp [lowerSeg] at h ⊢

theorem parseOpt_attr {path : Bytes} {cs : Bool} {ss : List Seg} (h : parsePathWithOptions path cs = .ok ss) {s : Seg} {a : Bytes}
    (hm : s ∈ ss) (hk : s.kind = .attr a) : ∃ p ∈ splitPath path, p.head? = some c!"@" := by
  unfold parsePathWithOptions at h
  split at h
  · rename_i ss' hp
    split at h
    · simp only [Parse.ok.injEq] at h; subst h
      obtain ⟨k, m⟩ := s
      simp only at hk; subst hk
      exact parsePath_attr hp hm
    · simp only [Parse.ok.injEq] at h; subst h
      obtain ⟨t, ht, rfl⟩ := List.mem_map.mp hm
      obtain ⟨b, hb⟩ := lowerSeg_attr hk
      obtain ⟨k, m⟩ := t
      simp only at hb; subst hb
      exact parsePath_attr hp ht
  · simp at h
  · simp at h

theorem parseOpt_panic {path : Bytes} {cs : Bool} : parsePathWithOptions path cs = .panic ↔ parsePath path = .panic := by
  unfold parsePathWithOptions
  split
  · rename_i h; rw [h]; split <;> simp
  · simp_all
  · rename_i h; rw [h]

theorem finish_safe {xml : Bytes} {b : BRes} (h : b ≠ .panic) : finish xml b ≠ .panic := by
  cases b <;> simp_all [finish]

theorem delete_safe {o : Ord} {xml path : Bytes} {opts : Option Options} (hf : ∀ k, Fits o k xml) (hp : parsePath path ≠ .panic) :
    deleteWithOptions o xml path opts ≠ .panic := by
  unfold deleteWithOptions
  split
  · simp
  · split
    · simp
    · split
      · rename_i h; exact absurd (parseOpt_panic.mp h) hp
      · simp
      · simp
      · exact finish_safe (deleteElement_safe hf)

theorem set_safe {o : Ord} {xml path : Bytes} {v : GoVal} {opts : Option Options} (hf : ∀ k, Fits o k xml) (hp : parsePath path ≠ .panic)
    (ha : ∀ ss, parsePathWithOptions path (effOpts opts).caseSensitive = .ok ss → ¬ AttrMissing o (effOpts opts).caseSensitive xml ss) :
    setWithOptions o xml path v opts ≠ .panic := by
  unfold setWithOptions
  split
  · simp
  · split
    · simp
    · split
      · exact delete_safe hf hp
      · split
        · rename_i h; exact absurd (parseOpt_panic.mp h) hp
        · simp
        · simp
        · rename_i h; exact finish_safe (setElement_safe hf (ha _ h))

end Verif
