import Verif.Props.Apart
import Verif.Props.Errors
import Verif.Props.Undo
namespace Verif
open Spec Props

/-- setElement on a path that ends with an append. -/
theorem setElement_appends {cs : Bool} {ind : Bytes} {o : Ord} {data : Bytes} {S : List Seg} {s t : Seg} (ht : indexIntent (S ++ [s, t]) = some true) {v : GoVal} {w : Bytes}
    (hv : valueToXML v = some w) (hw : w.length ≤ 5242880) (hd : data.length ≤ 10485760) : setElement o cs ind data (S ++ [s, t]) v = appendElement o cs ind data (S ++ [s]) w := by
  have hd2 := docMax
  have hv2 := valMax
  have e1 : (S ++ [s, t]).getLast? = some t := by simp
  have e2 : (S ++ [s, t]).dropLast = S ++ [s] := by
    rw [show S ++ [s, t] = (S ++ [s]) ++ [t] by simp, List.dropLast_concat]
  unfold setElement
  rw [e1]
  simp only [hv]
  rw [if_neg (by omega), if_neg (by omega), ht, e2]

theorem matchesOpt_elem {s : Seg} {n : Bytes} (h : s.kind = .elem n) (cs : Bool) : (fun e : Elem => s.matchesOpt e.name cs) = (fun e => agrees cs n e.name) := by
  funext e
  rw [← matchesOpt_agrees]
  simp [Seg.matchesOpt, nameSeg, h]

/-- Appending below the element found. -/
theorem appendElement_here {cs : Bool} {ind : Bytes} {o : Ord} (ho : o.IsPerm) {S : List Seg} (hS : S ≠ []) {s : Seg} {x : Bytes} (hs : s.kind = .elem x) {c : Ctx} {e : El} (h : Editable (c.plug (e.cons .nil)))
    {l : Loc} (hl : findLoc o cs S (c.plug (e.cons .nil)).render 0 = some l) (hok : LocOK l c.before.length e) :
    ∃ as ws, Opened e as ws ∧ ∀ (k1 k2 : Forest) (_ : e.kids = k1.append k2) (_ : AfterLastBy cs x k1 k2) (w r : Bytes)
      (_ : r = c.before ++ (openTag e.name as ws ++ b!">" ++ k1.render ++ (if k1.render = [] then [] else newLine ind S.length) ++ wrapElem x w ++ k2.render ++ closeTag e.name []) ++ c.after),
      appendElement o cs ind (c.plug (e.cons .nil)).render (S ++ [s]) w = if e.body ≠ none ∧ r.length > 10485760 then .err .invalidValue else .ok r := by
  have hg := editable_el h
  obtain ⟨ha, hfit⟩ := el_attrs hg.legal hg.tame
  have e3 : (S ++ [s]).getLast? = some s := by simp
  have e4 : (S ++ [s]).dropLast = S := List.dropLast_concat
  have main : ∀ w, appendElement o cs ind (c.plug (e.cons .nil)).render (S ++ [s]) w =
      if l.selfClosing then splice (c.plug (e.cons .nil)).render l.startPos l.contentEnd (expanded l.name (writeAttrsSorted l.attrs) (wrapElem x w))
      else match findLastMatch o cs (c.plug (e.cons .nil)).render l s with
        | none => .panic
        | some pos => sizeChecked (splice (c.plug (e.cons .nil)).render pos pos ((if pos > l.contentStart then newLine ind S.length else []) ++ wrapElem x w)) := by
    intro w
    unfold appendElement
    rw [e3, e4]
    simp only [hs]
    rw [if_neg (by simpa using hS), hl]
    simp only
    split
    · rfl
    · cases findLastMatch o cs (c.plug (e.cons .nil)).render l s with
      | none => rfl
      | some pos => simp only [indentAt_line]
  have hcs : l.contentStart = (c.before ++ e.start).length := by rw [hok.cstart, List.length_append]; rfl
  have hce : l.contentEnd = (c.before ++ e.start).length + e.inner.length := by rw [hok.cend, List.length_append]; rfl
  cases hb : e.body with
  | none =>
    obtain ⟨as, a1, a2, a3, a4, a5⟩ := sorted_attrs hok.attrs ha hfit
    refine ⟨as, [], ⟨fun hh => absurd hb hh, fun _ => ⟨a1, rfl, a2, a3, a4⟩⟩, fun k1 k2 hk hal w r hr => ?_⟩
    subst hr
    rw [main]
    simp only [show l.selfClosing = true by rw [hok.self, hb]; rfl, if_true]
    rw [if_neg (by simp)]
    rw [plug_el_render]
    have e1 : c.before ++ e.start ++ e.inner ++ e.stop ++ c.after = c.before ++ e.start ++ c.after := by simp [El.inner, El.stop, hb]
    have hk0 : k1 = .nil ∧ k2 = .nil := by
      rw [El.kids, hb] at hk
      cases k1 <;> simp_all [Forest.append]
    obtain ⟨rfl, rfl⟩ := hk0
    rw [e1, splice_at hok.start (by rw [hce]; simp [El.inner, hb]), a5, hok.name]
    simp [expanded, openTag, closeTag, Forest.render]
  | some q =>
    obtain ⟨k, cws⟩ := q
    have hcws : cws = [] := by
      have := hg.stable
      rw [El.cons, hb] at this
      exact this.1
    subst hcws
    refine ⟨e.attrs, e.ws, ⟨fun _ => ⟨rfl, rfl⟩, fun hh => by rw [hb] at hh; simp at hh⟩, fun k1 k2 hk hal w r hr => ?_⟩
    subst hr
    rw [main]
    simp only [show l.selfClosing = false by rw [hok.self, hb]; rfl, Bool.false_eq_true, if_false]
    have hkk : e.kids = k := by rw [El.kids, hb]
    have hin : e.inner = k1.render ++ k2.render := by rw [← append_render, ← hk, hkk, El.inner, hb]
    obtain ⟨g1, g2⟩ : k.Legal (c.depth + 1) ∧ k.Tame false := by
      have hleg := hg.legal
      have htame := hg.tame
      rw [El.cons, hb] at hleg htame
      obtain ⟨-, -, -, -, hlk, -, -⟩ := hleg
      obtain ⟨-, -, htk, -⟩ := htame
      exact ⟨hlk, htk⟩
    have hsl : slice (c.plug (e.cons .nil)).render l.contentStart l.contentEnd = some (k1.append k2).render := by
      rw [plug_el_render, append_render, ← hin]
      have e1 : c.before ++ e.start ++ e.inner ++ e.stop ++ c.after = c.before ++ e.start ++ e.inner ++ (e.stop ++ c.after) := by simp
      rw [e1, slice_at hcs hce]
    have hpos : findLastMatch o cs (c.plug (e.cons .nil)).render l s = some ((c.before ++ e.start ++ k1.render).length : Int) := by
      rw [← hkk, hk] at g1 g2
      have := last_placeB ho g1 g2 hal
      unfold findLastMatch
      rw [hsl]
      simp only
      rw [matchesOpt_elem hs]
      revert this
      cases ((topElems o (k1.append k2).render).filter (fun e => agrees cs x e.name)).getLast? with
      | none =>
        intro this; simp only at this ⊢
        rw [hce, hin, ← append_render, this]; simp only [List.length_append]; congr 1
      | some y => intro this; simp only at this ⊢; rw [hcs, this]; simp only [List.length_append]; congr 1
    rw [hpos]
    simp only
    have e1 : c.before ++ e.start ++ e.inner ++ e.stop ++ c.after = (c.before ++ e.start ++ k1.render) ++ [] ++ (k2.render ++ e.stop ++ c.after) := by rw [hin]; simp
    have hif : (if ((c.before ++ e.start ++ k1.render).length : Int) > l.contentStart then newLine ind S.length else []) =
        (if k1.render = [] then [] else newLine ind S.length) := by
      rw [hcs]
      by_cases hz : k1.render = []
      · rw [if_pos hz, if_neg (by rw [hz]; simp)]
      · have := List.length_pos_iff.mpr hz
        rw [if_neg hz, if_pos (by simp; omega)]
    rw [hif]
    generalize (if k1.render = [] then ([] : Bytes) else newLine ind S.length) = nl
    have e2 : c.before ++ (openTag e.name e.attrs e.ws ++ b!">" ++ k1.render ++ nl ++ wrapElem x w ++ k2.render ++ closeTag e.name []) ++ c.after =
        c.before ++ e.start ++ k1.render ++ (nl ++ wrapElem x w) ++ (k2.render ++ e.stop ++ c.after) := by
      simp [El.start, El.stop, hb]
    rw [plug_el_render, e1, splice_at rfl (by simp), sizeChecked, e2, docMax]
    simp

theorem nameStep_position {x : Bytes} (h : NameStep x) : ¬ Position x := h.2.2.2.2

theorem trail_snoc {ps : List Bytes} {t : Option (List Hop)} (h : Trail ps t) {x : Bytes} (hx : NameStep x) : Trail (ps ++ [x]) (t.map (· ++ [(.name (beforeBar x), 0)])) := by
  induction h with
  | nil => exact .first (t := some []) (.name hx) (by simp) .nil
  | @nth p d k j ps t hp hd hj h ih =>
    have := Trail.nth hp hd hj ih
    cases t <;> exact this
  | negative hp hd hj => exact .negative hp hd hj
  | @first p k ps t hp hd h ih =>
    have := Trail.first hp (fun d hx' => by
      cases ps with
      | nil => simp at hx'; subst hx'; exact nameStep_position hx
      | cons q ps => exact hd d hx') ih
    cases t <;> exact this
  | lost hp => exact .lost hp

theorem trail_snoc_nth {ps : List Bytes} {t : Option (List Hop)} (h : Trail ps t) {x d : Bytes} {j : Nat} (hx : NameStep x) (hd : Position d) (hj : Place (beforeBar d) (some j)) :
    Trail (ps ++ [x, d]) (t.map (· ++ [(.name (beforeBar x), min j (2 ^ 63 - 1))])) := by
  induction h with
  | nil => exact .nth (t := some []) (.name hx) hd hj .nil
  | @nth p d k j ps t hp hd hj h ih =>
    have := Trail.nth hp hd hj ih
    cases t <;> exact this
  | negative hp hd hj => exact .negative hp hd hj
  | @first p k ps t hp hd h ih =>
    have := Trail.first hp (fun d hx' => by
      cases ps with
      | nil => simp at hx'; subst hx'; exact nameStep_position hx
      | cons q ps => exact hd d hx') ih
    cases t <;> exact this
  | lost hp => exact .lost hp

theorem nowhere_snoc {cs : Bool} {f : Forest} {ps : List Bytes} (h0 : ps ≠ []) (h : LeadNowhere cs ps f) {x : Bytes} (hx : NameStep x) : LeadNowhere cs (ps ++ [x]) f := by
  obtain ⟨t, ht⟩ := trail_total ps
  cases t with
  | none => exact nowhere_trail (trail_snoc ht hx)
  | some hs =>
    refine nowhere_spot (trail_snoc ht hx) ?_
    have hne : hs ≠ [] := by
      rintro rfl
      generalize hz : some ([] : List Hop) = z at ht
      cases ht with
      | nil => exact h0 rfl
      | nth _ _ _ _ => obtain ⟨_, _, h⟩ := Option.map_eq_some_iff.mp hz.symm; simp at h
      | first _ _ _ => obtain ⟨_, _, h⟩ := Option.map_eq_some_iff.mp hz.symm; simp at h
      | negative => simp at hz
      | lost => simp at hz
    rw [spot_append cs hne (by simp)]
    cases hsp : f.info.spot cs hs with
    | none => rfl
    | some nd =>
      obtain ⟨c, e, rfl, h2, -⟩ := spot_reach hsp
      exact absurd ⟨hs, ht, h2⟩ (h c e rfl)

theorem lowIf_elem {s : Seg} {n : Bytes} (h : s.kind = .elem n) (cs : Bool) : (lowIf cs s).kind = .elem (spelling cs n) := by
  obtain ⟨k, m⟩ := s
  simp only at h
  subst h
  cases cs <;> rfl

theorem intent_end {sa : List Seg} {s t : Seg} {n : Bytes} (h : ∀ q ∈ sa, ∀ i, q.kind = .index i → 0 ≤ i) (hs : s.kind = .elem n) (ht : t.kind = .index (-1)) : indexIntent (sa ++ [s, t]) = some true := by
  induction sa with
  | nil =>
    rw [List.nil_append, intent_cons (fun i hi => by rw [hs] at hi; cases hi)]
    simp [indexIntent, ht]
  | cons q sa ih =>
    rw [List.cons_append, intent_cons (h q (by simp)), ih (fun q hq => h q (by simp [hq]))]

theorem intent_plain {sa : List Seg} {s : Seg} {n : Bytes} (h : ∀ q ∈ sa, ∀ i, q.kind = .index i → 0 ≤ i) (hs : s.kind = .elem n) : indexIntent (sa ++ [s]) = none := by
  induction sa with
  | nil => simp [indexIntent, hs]
  | cons q sa ih => rw [List.cons_append, intent_cons (h q (by simp)), ih (fun q hq => h q (by simp [hq]))]

theorem all2_mem_right {α β : Type} {R : α → β → Prop} {as : List α} {bs : List β} (h : All2 R as bs) {b : β} (hb : b ∈ bs) : ∃ a ∈ as, R a b := by
  induction h with
  | nil => simp at hb
  | cons h _ ih =>
    rcases List.mem_cons.mp hb with rfl | hb
    · exact ⟨_, by simp, h⟩
    · obtain ⟨a, h1, h2⟩ := ih hb
      exact ⟨a, by simp [h1], h2⟩

theorem isSeg_one {p : Bytes} {s t : Seg} (h1 : IsSeg p s) (h2 : IsSeg p t) : s = t := by
  have := h1.symm.trans h2
  injection this

theorem all2_isSeg_one {ps : List Bytes} {a b : List Seg} (h1 : All2 IsSeg ps a) (h2 : All2 IsSeg ps b) : a = b := by
  induction h1 generalizing b with
  | nil => cases h2; rfl
  | cons h _ ih => cases h2 with | cons g1 g2 => rw [isSeg_one h g1, ih g2]

/-- The segments of steps that append. -/
theorem append_parts {ps : List Bytes} {x y : Bytes} (hx : NameStep x) (hy : Negative y 1) {segs : List Seg} (h : All2 IsSeg (ps ++ [x, y]) segs) :
    ∃ sa s t, segs = sa ++ [s, t] ∧ All2 IsSeg ps sa ∧ IsSeg x s ∧ s.kind = .elem (beforeBar x) ∧ t.kind = .index (-1) ∧ ∀ q : Seg, joined q t = none := by
  obtain ⟨sa, rs, rfl, h1, h2⟩ := all2_split h
  cases h2 with
  | cons g1 h2 =>
    cases h2 with
    | cons g2 h2 =>
      cases h2
      obtain ⟨n, hn⟩ := (isSeg_kind g1).2.2.1.mp hx
      have := (isSeg_kind g1).2.2.2.1 n hn
      subst this
      have ht := (isSeg_kind g2).2.2.2.2.2.mp hy
      refine ⟨sa, _, _, rfl, h1, g1, hn, ht, fun q => ?_⟩
      cases hj : joined q _ with
      | none => rfl
      | some z => exact absurd ht ((joined_facts hj).2.2.2 _)

namespace Props

/-- C91: Where the steps before the name lead to an element, Set with -1 writes a new element of that name into it, directly after the last of that name (at the end if there is none), on a line of
its own unless it comes first. -/
theorem C91_append {o : Ord} (ho : o.IsPerm) (opts : Options) {c : Ctx} {e : El} (h : Editable (c.plug (e.cons .nil))) {ps : List Bytes} {x y p : Bytes} (hp : PathSteps p (ps ++ [x, y]))
    (hx : NameStep x) (hy : Negative y 1) (hl : LeadTo opts.caseSensitive ps c e.name) :
    ∃ as ws, Opened e as ws ∧ ∀ (k1 k2 : Forest), e.kids = k1.append k2 → AfterLastBy opts.caseSensitive (beforeBar x) k1 k2 →
      ∀ (v : GoVal) (w : Bytes), v ≠ .nil → valueToXML v = some w → w.length ≤ 5242880 →
      ∃ r, r = c.before ++ (openTag e.name as ws ++ b!">" ++ k1.render ++ (if k1.render = [] then [] else newLine opts.indent ps.length) ++
          (plainEl (spelling opts.caseSensitive (beforeBar x)) w).render ++ k2.render ++ closeTag e.name []) ++ c.after ∧
        setWithOptions o (c.plug (e.cons .nil)).render p v (some opts) =
          if e.body ≠ none ∧ r.length > 10485760 then .ret ((c.plug (e.cons .nil)).render, some .invalidValue) else .ret (r, none) := by
  have hsnd := editable_sound h
  obtain ⟨segs, h1, h2⟩ := parseOpt_reads hp (by simp) opts.caseSensitive
  obtain ⟨sa, s, t, rfl, a1, a2, a3, a4, a5⟩ := append_parts hx hy h2
  have h0 := leadTo_full hl
  obtain ⟨hs, ht, hr⟩ := hl
  obtain ⟨sa', rs, k1, k2, k5, k3, k4⟩ := trail_split (cs := opts.caseSensitive) ht h2
  have := all2_isSeg_one a1 k1
  subst this
  have := List.append_cancel_left k5
  subst this
  have hf2 : fuseFields [s, t] = [s, t] := by rw [fuse_cons2, a5]; rfl
  rw [hf2] at k4
  rw [k4] at h1
  obtain ⟨l, hl, hok⟩ := editable_goto ho h opts.caseSensitive
  have hfl := findLoc_goto k3 hr (sound_along ho hsnd) fresh_nil 0
  rw [List.append_nil, hl] at hfl
  have hne := hopSegs_ne k3 (reach_ne hr)
  obtain ⟨as, ws, g1, g2⟩ := appendElement_here (ind := opts.indent) ho hne (lowIf_elem a3 opts.caseSensitive) h hfl hok
  refine ⟨as, ws, g1, fun k1 k2 hk hal v w hv0 hv hw => ⟨_, rfl, ?_⟩⟩
  have hin : indexIntent (sa.map (lowIf opts.caseSensitive) ++ [lowIf opts.caseSensitive s, lowIf opts.caseSensitive t]) = some true := by
    rw [(hopSegs_plainly k3 (reach_ne hr)).intent]
    exact intent_end (sa := []) (by simp) (lowIf_elem a3 _) (((lowIf_kind _ t).2.2.1 _).mpr a4)
  rw [set_parsed (sound_valid hsnd) hv0 h1 (by simp)]
  simp only [List.map_cons, List.map_nil]
  rw [setElement_appends hin hv hw hsnd.1, g2 k1 k2 hk (afterLast_spelling hal) w _ rfl, ← wrapElem_render, List.length_map, ← all2_length a1]
  generalize (if k1.render = [] then ([] : Bytes) else newLine opts.indent ps.length) = nl
  split
  · rfl
  · rw [finish_ok (by simp)]

/-- C91: The same at the top level, never on a line of its own. -/
theorem C91_append_root {o : Ord} (ho : o.IsPerm) (opts : Options) {k1 k2 : Forest} (h : Sound (k1.append k2)) {x y p : Bytes} (hp : PathSteps p [x, y]) (hx : NameStep x) (hy : Negative y 1)
    (hal : AfterLastBy opts.caseSensitive (beforeBar x) k1 k2) {v : GoVal} {w : Bytes} (hv0 : v ≠ .nil) (hv : valueToXML v = some w) (hw : w.length ≤ 5242880) :
    ∃ r, r = k1.render ++ (plainEl (spelling opts.caseSensitive (beforeBar x)) w).render ++ k2.render ∧
      setWithOptions o (k1.append k2).render p v (some opts) = if r.length > 10485760 then .ret ((k1.append k2).render, some .invalidValue) else .ret (r, none) := by
  refine ⟨_, rfl, ?_⟩
  obtain ⟨segs, h1, h2⟩ := parseOpt_reads hp (by simp) opts.caseSensitive
  obtain ⟨sa, s, t, rfl, a1, a2, a3, a4, a5⟩ := append_parts (ps := []) hx hy h2
  cases a1
  have hf2 : fuseFields [s, t] = [s, t] := by rw [fuse_cons2, a5]; rfl
  rw [List.nil_append, hf2] at h1
  have hin : indexIntent ([] ++ [lowIf opts.caseSensitive s, lowIf opts.caseSensitive t]) = some true :=
    intent_end (sa := []) (by simp) (lowIf_elem a3 _) (((lowIf_kind _ t).2.2.1 _).mpr a4)
  have he := setElement_appends (o := o) (cs := opts.caseSensitive) (ind := opts.indent) hin hv hw h.1
  rw [set_parsed (sound_valid h) hv0 h1 (by simp)]
  simp only [List.map_cons, List.map_nil]
  rw [List.nil_append] at he
  rw [he, ← wrapElem_render]
  have hnem := render_ne h.2.2.2
  unfold appendElement
  have hk := lowIf_elem a3 opts.caseSensitive
  simp only [List.nil_append, List.getLast?_singleton, hk, List.dropLast_singleton, List.isEmpty_nil, if_true]
  unfold appendRootElement
  rw [if_neg (by simpa using hnem)]
  have := last_placeB ho h.2.1 h.2.2.1 (afterLast_spelling hal)
  have hval : (lowIf opts.caseSensitive s).value = spelling opts.caseSensitive (beforeBar x) := by simp [Seg.value, hk]
  simp only
  rw [matchesOpt_elem hk, hval]
  have final : ∀ pos : Int, pos = k1.render.length →
      finish (k1.append k2).render (sizeChecked (splice (k1.append k2).render pos pos (wrapElem (spelling opts.caseSensitive (beforeBar x)) w))) =
      if (k1.render ++ wrapElem (spelling opts.caseSensitive (beforeBar x)) w ++ k2.render).length > 10485760 then .ret ((k1.append k2).render, some .invalidValue)
      else .ret (k1.render ++ wrapElem (spelling opts.caseSensitive (beforeBar x)) w ++ k2.render, none) := by
    rintro pos rfl
    have e1 : (k1.append k2).render = k1.render ++ [] ++ k2.render := by rw [append_render]; simp
    rw [e1, splice_at rfl (by simp), sizeChecked, docMax]
    split
    · rfl
    · rw [finish_ok (by simp [wrapElem])]
  revert this
  cases ((topElems o (k1.append k2).render).filter (fun e => agrees opts.caseSensitive (spelling opts.caseSensitive (beforeBar x)) e.name)).getLast? <;> exact final _

/-- C91: Where the steps before the name lead nowhere, -1 makes no difference. -/
theorem C91_append_missing {o : Ord} (ho : o.IsPerm) (opts : Options) {f : Forest} (h : Sound f) {ps : List Bytes} {x y p q : Bytes} (hp : PathSteps p (ps ++ [x, y])) (hq : PathSteps q (ps ++ [x]))
    (h0 : ps ≠ []) (hx : EndsInName (ps ++ [x])) (hneg : ∀ z ∈ ps, ∀ n, ¬ Negative z n) (hy : Negative y 1) (hn : LeadNowhere opts.caseSensitive ps f) {v : GoVal} (hv0 : v ≠ .nil) (hv : ¬ Unstorable v) :
    setWithOptions o f.render p v (some opts) = setWithOptions o f.render q v (some opts) := by
  have hx' : NameStep x := by
    obtain ⟨pre, z, e, hz, -⟩ := hx
    have := List.append_inj_right' e rfl
    injection this with this
    exact this ▸ hz
  obtain ⟨segs, h1, h2⟩ := parseOpt_reads hp (by simp) opts.caseSensitive
  obtain ⟨segs', g1, g2⟩ := parseOpt_reads hq (by simp) opts.caseSensitive
  obtain ⟨sa, s, t, rfl, a1, a2, a3, a4, a5⟩ := append_parts hx' hy h2
  have a6 : All2 IsSeg (ps ++ [x]) (sa ++ [s]) := a1.append (.cons a2 .nil)
  have := all2_isSeg_one g2 a6
  subst this
  have hfs : fuseFields (sa ++ [s]) = fuseFields sa ++ [s] := by
    obtain ⟨z, n, e1, e2⟩ := (endsInName_iff a6).mp hx
    rcases fuse_snoc sa s with hf | ⟨l', c, w, e, hj, hf⟩
    · exact hf
    · exfalso
      obtain ⟨-, ⟨k, -, hk⟩, -⟩ := joined_facts hj
      rw [hf] at e1
      simp at e1
      rw [← e1, hk] at e2
      cases e2
  have hft : fuseFields (sa ++ [s, t]) = fuseFields sa ++ [s, t] := by
    rw [show sa ++ [s, t] = (sa ++ [s]) ++ [t] by simp, fuse_keep _ _ (fun q _ => a5 q), hfs]; simp
  have hidx : ∀ q ∈ sa, ∀ i, q.kind = .index i → 0 ≤ i := by
    intro z hz i hi
    obtain ⟨b, hb, hbz⟩ := all2_mem_right a1 hz
    rcases Int.lt_or_le i 0 with hlt | hle
    · obtain ⟨n, hn⟩ := (isSeg_kind hbz).2.2.2.2.1.mpr ⟨i, hi, hlt⟩
      exact absurd hn (hneg b hb n)
    · exact hle
  obtain ⟨w, hw⟩ := Option.ne_none_iff_exists'.mp (fun hh => hv (unstorable_iff.mpr (.inl hh)))
  have hwl : w.length ≤ 5242880 := by
    rcases Nat.lt_or_ge 5242880 w.length with hh | hh
    · exact absurd (unstorable_iff.mpr (.inr ⟨w, hw, hh⟩)) hv
    · exact hh
  have hsn := nowhere_none ho (sound_says h) h0 hn a1
  have hsn2 := nowhere_none ho (sound_says h) (by simp) (nowhere_snoc h0 hn hx') a6
  have hk := lowIf_elem a3 opts.caseSensitive
  rw [hft] at h1
  rw [hfs] at g1 hsn2
  rw [set_parsed (sound_valid h) hv0 h1 (by simp), set_parsed (sound_valid h) hv0 g1 (by simp)]
  simp only [List.map_append, List.map_cons, List.map_nil] at hsn2 ⊢
  have hin : indexIntent ((fuseFields sa).map (lowIf opts.caseSensitive) ++ [lowIf opts.caseSensitive s, lowIf opts.caseSensitive t]) = some true := by
    have := intent_end hidx a3 a4
    rw [← intent_fuse, hft, ← intent_low opts.caseSensitive] at this
    simpa using this
  have hin2 : indexIntent ((fuseFields sa).map (lowIf opts.caseSensitive) ++ [lowIf opts.caseSensitive s]) = none := by
    have : indexIntent (sa ++ [s]) = none := intent_plain hidx a3
    rw [← intent_fuse, hfs, ← intent_low opts.caseSensitive] at this
    simpa using this
  rw [setElement_appends hin hw hwl h.1]
  have hne : (fuseFields sa).map (lowIf opts.caseSensitive) ≠ [] := by
    have : sa ≠ [] := by rintro rfl; cases a1; exact h0 rfl
    have := fuse_isEmpty sa
    cases sa with
    | nil => contradiction
    | cons => simpa using this
  congr 1
  unfold appendElement setElement
  have hd2 := docMax
  have hv2 := valMax
  have := h.1
  simp only [List.getLast?_concat, hk, List.dropLast_concat, hw, hin2, hsn2]
  rw [if_neg (by simpa using hne), hsn, if_neg (by omega), if_neg (by omega)]

/-- The content after an append: the new element, with what comes before it on its line, between the two parts. -/
def appended (nl n w : Bytes) (k1 k2 : Forest) : Forest := k1.append (.text nl ((plainEl n w).cons k2))

/-- What comes before the new element. -/
def leadIn (indent : Bytes) (d : Nat) (k1 : Forest) : Bytes := if k1.render = [] then [] else newLine indent d

theorem appended_even {k1 k2 : Forest} {nl x w : Bytes} {d : Nat} {t : Bool} (hnl : c!"<" ∉ nl) (hx : IsName x) (hw : c!"<" ∉ w) (h0 : 0 < d) (hd : d < 100)
    (hl : (k1.append k2).Legal d) (ht : (k1.append k2).Tame t) (he : (k1.append k2).Even) : (appended nl x w k1 k2).Legal d ∧ (appended nl x w k1 k2).Tame t ∧ (appended nl x w k1 k2).Even := by
  obtain ⟨p1, p2, p3⟩ := plainEl_good hx hw hd t
  have e : (plainEl x w).cons k2 = ((plainEl x w).cons .nil).append k2 := by rw [cons_append]; rfl
  rw [append_legal] at hl
  rw [append_tame] at ht
  rw [append_even] at he
  rw [appended, e]
  exact ⟨(append_legal _ _ _).mpr ⟨hl.1, hnl, by omega, (append_legal _ _ _).mpr ⟨p1, hl.2⟩⟩, (append_tame _ _ _).mpr ⟨ht.1, (append_tame _ _ _).mpr ⟨p2, ht.2⟩⟩,
    (append_even _ _).mpr ⟨he.1, (append_even _ _).mpr ⟨p3, he.2⟩⟩⟩

theorem leadIn_text {ind : Bytes} (h : c!"<" ∉ ind) (d : Nat) (k1 : Forest) : c!"<" ∉ leadIn ind d k1 := by
  unfold leadIn
  split
  · simp
  · exact newLine_text h _

theorem appended_plug {c : Ctx} {e : El} {as : List Attr} {ws nl n w : Bytes} {k1 k2 : Forest} :
    (c.plug ((e.refill as ws (appended nl n w k1 k2)).cons .nil)).render =
      c.before ++ (openTag e.name as ws ++ b!">" ++ k1.render ++ nl ++ (plainEl n w).render ++ k2.render ++ closeTag e.name []) ++ c.after ∧
    (down c e.name as ws [] (.here (k1.append (.text nl .nil)) k2)).plug ((plainEl n w).cons .nil) = c.plug ((e.refill as ws (appended nl n w k1 k2)).cons .nil) := by
  constructor
  · rw [plug_el_render]
    simp [El.refill, El.start, El.inner, El.stop, appended, append_render, Forest.render, cons_render]
  · rw [down_plug, Ctx.plug, cons_append, append_assoc]
    rfl

/-- The document after an append, if it is not too long. -/
theorem appended_here {cs : Bool} {ind : Bytes} (hi : c!"<" ∉ ind) {c : Ctx} {e : El} (h : Editable (c.plug (e.cons .nil))) {ps : List Bytes} {x y p : Bytes} (hp : PathSteps p (ps ++ [x, y]))
    (hx : NameStep x) (hxn : IsName (beforeBar x)) (hl : LeadTo cs ps c e.name) {as : List Attr} {ws : Bytes} (h1 : Opened e as ws) {k1 k2 : Forest} (hk : e.kids = k1.append k2)
    (hal : AfterLastBy cs (beforeBar x) k1 k2) {w : Bytes} (hlt : c!"<" ∉ w) {g : Forest} (hg : g = c.plug ((e.refill as ws (appended (leadIn ind ps.length k1) (spelling cs (beforeBar x)) w k1 k2)).cons .nil))
    (hsz : g.render.length ≤ 10485760) :
    Editable g ∧ ∃ c' : Ctx, c' = down c e.name as ws [] (.here (k1.append (.text (leadIn ind ps.length k1) .nil)) k2) ∧ g = c'.plug ((plainEl (spelling cs (beforeBar x)) w).cons .nil) ∧
      ∀ (d : Bytes) (j : Nat), Position d → Place (beforeBar d) (some j) → min j (2 ^ 63 - 1) = e.kids.info.count cs (.name (beforeBar x)) → LeadTo cs (ps ++ [x, d]) c' (spelling cs (beforeBar x)) := by
  subst hg
  obtain ⟨e1, e2⟩ := appended_plug (c := c) (e := e) (as := as) (ws := ws) (nl := leadIn ind ps.length k1) (n := spelling cs (beforeBar x)) (w := w) (k1 := k1) (k2 := k2)
  have hg := editable_el h
  obtain ⟨q1, q2, q3, -⟩ := el_kids_good hg
  have hdep : c.depth + 1 < 100 := by
    obtain ⟨hs, ht, hr⟩ := hl
    have h1 := reach_deep hr
    have h2 := trail_short ht _ rfl
    have h3 := pathSteps_short hp
    simp only [List.length_append, List.length_cons, List.length_nil] at h3
    omega
  rw [hk] at q1 q2 q3
  obtain ⟨r1, r2, r3⟩ := appended_even (leadIn_text hi ps.length k1) (spelling_name (cs := cs) hxn) hlt (by omega) hdep q1 q2 q3
  refine ⟨editable_swapEl h (refill_good hg h1 r1 r2 r3) hsz, _, rfl, e2.symm, ?_⟩
  intro d j hd hj hc
  obtain ⟨hs, ht, hr⟩ := hl
  refine ⟨_, trail_snoc_nth ht hx hd hj, reach_down hr ⟨agrees_spelled _ _, ?_⟩⟩
  rw [hc, hk]
  show ((k1.append _).info.namedBy _ _).length = ((k1.append k2).info.namedBy _ _).length
  rw [namedBy_text, append_namedBy]
  rcases hal with ⟨-, -, -, -, hn⟩ | ⟨-, rfl⟩
  · simp [hn]
  · simp [show Forest.nil.info.namedBy cs (beforeBar x) = [] from rfl]

/-- C91: If that succeeded and the result is not too long, it is a document of the class in which the new element is at this place, and the path with the number of elements of that name from
before, instead of -1, leads to it. -/
theorem C91_there {o : Ord} (ho : o.IsPerm) (opts : Options) (hi : c!"<" ∉ opts.indent) {c : Ctx} {e : El} (h : Editable (c.plug (e.cons .nil))) {ps : List Bytes} {x y p : Bytes} (hp : PathSteps p (ps ++ [x, y]))
    (hx : NameStep x) (hxn : IsName (beforeBar x)) (hy : Negative y 1) (hl : LeadTo opts.caseSensitive ps c e.name) {v : GoVal} {w : Bytes} (hv0 : v ≠ .nil) (hv : valueToXML v = some w) (hw : w.length ≤ 5242880)
    (hlt : c!"<" ∉ w) {r : Bytes} (hset : setWithOptions o (c.plug (e.cons .nil)).render p v (some opts) = .ret (r, none)) (hr : r.length ≤ 10485760) :
    ∃ as ws k1 k2, Opened e as ws ∧ e.kids = k1.append k2 ∧ AfterLastBy opts.caseSensitive (beforeBar x) k1 k2 ∧
      ∃ c' : Ctx, c' = down c e.name as ws [] (.here (k1.append (.text (leadIn opts.indent ps.length k1) .nil)) k2) ∧ r = (c'.plug ((plainEl (spelling opts.caseSensitive (beforeBar x)) w).cons .nil)).render ∧
        Editable (c'.plug ((plainEl (spelling opts.caseSensitive (beforeBar x)) w).cons .nil)) ∧
        ∀ (d : Bytes) (j : Nat), Position d → Place (beforeBar d) (some j) → min j (2 ^ 63 - 1) = e.kids.info.count opts.caseSensitive (.name (beforeBar x)) →
            LeadTo opts.caseSensitive (ps ++ [x, d]) c' (spelling opts.caseSensitive (beforeBar x)) := by
  obtain ⟨k1, k2, hk, hal⟩ := afterLast_existsB (cs := opts.caseSensitive) (beforeBar x) e.kids
  obtain ⟨as, ws, h1, h2⟩ := C91_append ho opts h hp hx hy hl
  obtain ⟨r', hr', h3⟩ := h2 k1 k2 hk hal v w hv0 hv hw
  have hsame : r = r' := by
    rw [hset] at h3
    split at h3 <;> simp_all
  subst hsame
  have e1 := (appended_plug (c := c) (e := e) (as := as) (ws := ws) (nl := leadIn opts.indent ps.length k1) (n := spelling opts.caseSensitive (beforeBar x)) (w := w) (k1 := k1) (k2 := k2)).1
  have e2 : r = (c.plug ((e.refill as ws (appended (leadIn opts.indent ps.length k1) (spelling opts.caseSensitive (beforeBar x)) w k1 k2)).cons .nil)).render := hr'.trans e1.symm
  obtain ⟨f2, c', f3, f4, f5⟩ := appended_here hi h hp hx hxn hl h1 hk hal hlt rfl (by rw [← e2]; exact hr)
  exact ⟨as, ws, k1, k2, h1, hk, hal, c', f3, by rw [e2, f4], f4 ▸ f2, f5⟩

/-- C91: so Get with that number (if it finds the element first, as in C89) finds the text that was written; ... -/
theorem C91_get (env : Env) (ho : env.ord.IsPerm) (opts : Options) (hi : c!"<" ∉ opts.indent) {c : Ctx} {e : El} (h : Editable (c.plug (e.cons .nil))) {ps : List Bytes} {x y d p q : Bytes}
    (hp : PathSteps p (ps ++ [x, y])) (hx : IsName x) (hy : Negative y 1) (hl : LeadTo opts.caseSensitive ps c e.name) (hq : PathSteps q (ps ++ [x, d])) (hbar : c!"|" ∉ q) (ha : Ahead (ps ++ [x, d])) (j : Nat)
    (hd : Position d) (hj : Place (beforeBar d) (some j)) (hc : min j (2 ^ 63 - 1) = e.kids.info.count opts.caseSensitive (.name x)) {v : GoVal} {s : Bytes} (hv0 : v ≠ .nil) (hv : valueToXML v = some (escapeXML s))
    (hw : (escapeXML s).length ≤ 5242880) {r : Bytes} (hset : setWithOptions env.ord (c.plug (e.cons .nil)).render p v (some opts) = .ret (r, none)) (hr : r.length ≤ 10485760) :
    ∃ a z, getWithOptions env r q (some opts) = .ret a ∧ a.array.head? = some z ∧ z.typ = .element ∧ z.toStr = trimSpace s := by
  obtain ⟨s1, s2, -⟩ := isName_step hx
  obtain ⟨as, ws, k1, k2, -, -, -, c', -, rfl, g2, g3⟩ := C91_there ho opts hi h hp s1 (by rw [s2]; exact hx) hy hl hv0 hv hw (C20_no_markup s) hset hr
  have := g3 d j hd hj (by rw [s2]; exact hc)
  obtain ⟨a, z, g1, g2, g3⟩ := C89_place env ho opts (e := plainEl (spelling opts.caseSensitive (beforeBar x)) (escapeXML s)) (editable_sound g2) hq hbar ha this
  exact ⟨a, z, g1, g2, text_is g3 rfl⟩

/-- C91: ... and Delete with that number removes the element again; the line break and the indentation before it remain. -/
theorem C91_undo_line {o : Ord} (ho : o.IsPerm) (opts : Options) (hi : c!"<" ∉ opts.indent) {c : Ctx} {e : El} (h : Editable (c.plug (e.cons .nil))) {ps : List Bytes} {x y d p q : Bytes}
    (hp : PathSteps p (ps ++ [x, y])) (hx : IsName x) (hy : Negative y 1) (hl : LeadTo opts.caseSensitive ps c e.name) (hq : PathSteps q (ps ++ [x, d])) (j : Nat)
    (hd : Position d) (hj : Place (beforeBar d) (some j)) (hc : min j (2 ^ 63 - 1) = e.kids.info.count opts.caseSensitive (.name x)) {v : GoVal} {w : Bytes} (hv0 : v ≠ .nil) (hv : valueToXML v = some w) (hw : w.length ≤ 5242880)
    (hlt : c!"<" ∉ w) {r : Bytes} (hset : setWithOptions o (c.plug (e.cons .nil)).render p v (some opts) = .ret (r, none)) (hr : r.length ≤ 10485760) :
    ∃ as ws k1 k2, Opened e as ws ∧ e.kids = k1.append k2 ∧ AfterLastBy opts.caseSensitive x k1 k2 ∧
      deleteWithOptions o r q (some opts) = .ret (c.before ++ (openTag e.name as ws ++ b!">" ++ k1.render ++ leadIn opts.indent ps.length k1 ++ k2.render ++ closeTag e.name []) ++ c.after, none) := by
  obtain ⟨s1, s2, -⟩ := isName_step hx
  obtain ⟨as, ws, k1, k2, f1, f2, f3, c', rfl, rfl, g2, g3⟩ := C91_there ho opts hi h hp s1 (by rw [s2]; exact hx) hy hl hv0 hv hw hlt hset hr
  have := g3 d j hd hj (by rw [s2]; exact hc)
  refine ⟨as, ws, k1, k2, f1, f2, by rwa [s2] at f3, ?_⟩
  rw [C79_delete ho opts (e := plainEl (spelling opts.caseSensitive (beforeBar x)) w) g2 hq this, down_before, down_after]
  have e1 : c.before ++ (openTag e.name as ws ++ b!">") ++ (Ctx.here (k1.append (.text (leadIn opts.indent ps.length k1) .nil)) k2).before ++ ((Ctx.here (k1.append (.text (leadIn opts.indent ps.length k1) .nil)) k2).after ++ closeTag e.name [] ++ c.after) =
      c.before ++ (openTag e.name as ws ++ b!">" ++ k1.render ++ leadIn opts.indent ps.length k1 ++ k2.render ++ closeTag e.name []) ++ c.after := by
    simp [Ctx.before, Ctx.after, append_render, Forest.render]
  rw [e1, if_neg (by simp)]

/-- C91: Without an indentation, in an element that is not self-closing, the document is as before. -/
theorem C91_undo {o : Ord} (ho : o.IsPerm) (opts : Options) (hi : opts.indent = []) {c : Ctx} {e : El} (h : Editable (c.plug (e.cons .nil))) (hb : e.body ≠ none) {ps : List Bytes} {x y d p q : Bytes}
    (hp : PathSteps p (ps ++ [x, y])) (hx : IsName x) (hy : Negative y 1) (hl : LeadTo opts.caseSensitive ps c e.name) (hq : PathSteps q (ps ++ [x, d])) (j : Nat)
    (hd : Position d) (hj : Place (beforeBar d) (some j)) (hc : min j (2 ^ 63 - 1) = e.kids.info.count opts.caseSensitive (.name x)) {v : GoVal} {w : Bytes} (hv0 : v ≠ .nil) (hv : valueToXML v = some w) (hw : w.length ≤ 5242880)
    (hlt : c!"<" ∉ w) {r : Bytes} (hset : setWithOptions o (c.plug (e.cons .nil)).render p v (some opts) = .ret (r, none)) (hr : r.length ≤ 10485760) :
    deleteWithOptions o r q (some opts) = .ret ((c.plug (e.cons .nil)).render, none) := by
  obtain ⟨as, ws, k1, k2, g1, g2, -, g4⟩ := C91_undo_line ho opts (by simp [hi]) h hp hx hy hl hq j hd hj hc hv0 hv hw hlt hset hr
  obtain ⟨rfl, rfl⟩ := g1.kept hb
  rw [g4, ← refill_same h hb, plug_el_render, g2]
  simp [leadIn, hi, newLine, El.refill, El.start, El.inner, El.stop, append_render]

/-- C90: ... or a further element of a name inside it. -/
theorem C90_append (opts : Options) (hi : c!"<" ∉ opts.indent) {p : Bytes} {ps : List Bytes} {x y : Bytes} (hp : PathSteps p (ps ++ [x, y])) (hx : IsName x) (hy : Negative y 1) (a : List Nat) (e : El) (hb : e.body ≠ none)
    (k1 k2 : Forest) (hk : e.kids = k1.append k2) (hal : AfterLastBy opts.caseSensitive x k1 k2) (v : GoVal) (w : Bytes) (hv0 : v ≠ .nil) (hv : valueToXML v = some w) (hw : w.length ≤ 5242880) (hlt : c!"<" ∉ w) :
    DoesAny ⟨p, v, opts, ps, a, e, e.refill e.attrs e.ws (appended (leadIn opts.indent ps.length k1) (spelling opts.caseSensitive x) w k1 k2)⟩ := by
  refine ⟨rfl, fun c hL h hsz => ?_⟩
  simp only [] at hL h hsz ⊢
  obtain ⟨s1, s2, -⟩ := isName_step hx
  have hop : Opened e e.attrs e.ws := ⟨fun _ => ⟨rfl, rfl⟩, fun h => absurd h hb⟩
  have hed := (appended_here (cs := opts.caseSensitive) hi h hp s1 (by rw [s2]; exact hx) hL hop hk (by rw [s2]; exact hal) hlt rfl (by rw [s2]; exact hsz)).1
  rw [s2] at hed
  refine ⟨fun o ho => ?_, hed⟩
  obtain ⟨as, ws, g1, g2⟩ := C91_append ho opts h hp s1 hy hL
  obtain ⟨rfl, rfl⟩ := g1.kept hb
  obtain ⟨r, hr, g3⟩ := g2 k1 k2 hk (by rw [s2]; exact hal) v w hv0 hv hw
  have e1 := (appended_plug (c := c) (e := e) (as := e.attrs) (ws := e.ws) (nl := leadIn opts.indent ps.length k1) (n := spelling opts.caseSensitive x) (w := w) (k1 := k1) (k2 := k2)).1
  have e2 : r = (c.plug ((e.refill e.attrs e.ws (appended (leadIn opts.indent ps.length k1) (spelling opts.caseSensitive x) w k1 k2)).cons .nil)).render := by
    rw [hr, e1, s2]; rfl
  rw [g3, if_neg (fun hh => by rw [e2] at hh; omega), e2]

/-! ### cases -/

theorem exNeg : Negative b!"-1" 1 := ⟨b!"1", [], by decide +kernel, .digit 49 (by decide), by decide, .inl rfl⟩

theorem exDeep_trail : Trail [b!"*", b!"A", b!"1"] (some [(.any, 0), (.name b!"A", 1)]) :=
  .first (t := some _) (.any (by decide)) (by intro d hd; simp at hd; subst hd; exact fun h => absurd h (by unfold Position; decide +kernel))
    (.nth (t := some _) (j := 1) (.name (name_step (by decide))) (by unfold Position; decide +kernel) (.number (ds := b!"1") (rest := []) rfl (.digit 49 (by decide)) (.inl rfl)) .nil)

/-- `*.A.1.B|x.-1`, with an indentation: a new `b` behind the one that is there. -/
example : setWithOptions exEnv.ord b!"<!--x--><r v='1' ><a k=\"&lt;\">x</a> <a><b>y</b></a><c j=\"1\"/></r>" b!"*.A.1.B|x.-1" (.str b!"v") (some inOpts) =
    .ret (b!"<!--x--><r v='1' ><a k=\"&lt;\">x</a> <a><b>y</b>\n      <b>v</b></a><c j=\"1\"/></r>", none) := by
  obtain ⟨as, ws, h1, h2⟩ := C91_append exEnv_perm inOpts exEdit (p := b!"*.A.1.B|x.-1") (ps := [b!"*", b!"A", b!"1"]) (x := b!"B|x") (y := b!"-1")
    (pathSteps_by (by decide) (by decide) (by decide +kernel) (by decide +kernel)) (name_step (by decide)) exNeg ⟨_, exDeep_trail, rfl, by decide +kernel, by decide +kernel, by decide +kernel⟩
  obtain ⟨rfl, rfl⟩ := h1.1 (by simp [exEl])
  obtain ⟨r, rfl, this⟩ := h2 exEl.kids .nil rfl (.inl ⟨.nil, ⟨b!"b", [], [], some (.text b!"y" .nil, [])⟩, rfl, by decide +kernel, rfl⟩) (.str b!"v") _ (by simp) rfl (by decide)
  rw [exEdit_render, if_neg (by decide +kernel)] at this
  exact this

/-- Removing it again. -/
example : deleteWithOptions exEnv.ord b!"<!--x--><r v='1' ><a k=\"&lt;\">x</a> <a><b>y</b><b>v</b></a><c j=\"1\"/></r>" b!"*.A.1.B.1" (some ciOpts) =
    .ret (b!"<!--x--><r v='1' ><a k=\"&lt;\">x</a> <a><b>y</b></a><c j=\"1\"/></r>", none) := by
  have := C91_undo exEnv_perm ciOpts rfl exEdit (by decide) (p := b!"*.A.1.B.-1") (q := b!"*.A.1.B.1") (ps := [b!"*", b!"A", b!"1"]) (x := b!"B") (y := b!"-1") (d := b!"1")
    (pathSteps_by (by decide) (by decide) (by decide +kernel) (by decide +kernel)) (isName_of (by decide) (by decide)) exNeg ⟨_, exDeep_trail, rfl, by decide +kernel, by decide +kernel, by decide +kernel⟩
    (pathSteps_by (by decide) (by decide) (by decide +kernel) (by decide +kernel)) 1 (by unfold Position; decide +kernel) (.number (ds := b!"1") (rest := []) rfl (.digit 49 (by decide)) (.inl rfl)) (by decide +kernel)
    (v := .str b!"v") (w := b!"v") (by simp) rfl (by decide) (by decide) (r := b!"<!--x--><r v='1' ><a k=\"&lt;\">x</a> <a><b>y</b><b>v</b></a><c j=\"1\"/></r>") (by rw [exEdit_render]; decide +kernel) (by decide)
  rw [exEdit_render] at this
  exact this

/-- C91: Further cases: below an element that is missing, -1 makes no difference; at the top level the new element follows the last of its name; a self-closing element is opened. -/
theorem C91_witness : set exEnv.ord b!"<r><a/></r>" b!"r.*.1.b.-1" (.str b!"v") = set exEnv.ord b!"<r><a/></r>" b!"r.*.1.b" (.str b!"v") ∧
    set exEnv.ord b!"<a/><b/><a/><c/>" b!"a.-1" (.str b!"v") = .ret (b!"<a/><b/><a/><a>v</a><c/>", none) ∧
    set exEnv.ord b!"<r><a z=\"1\" k=\"2\"/></r>" b!"*.*.b.-1" (.str b!"v") = .ret (b!"<r><a k=\"2\" z=\"1\"><b>v</b></a></r>", none) ∧
    set exEnv.ord b!"<r><a><b>1</b>x<b>2</b>y<d/></a></r>" b!"*.*.b.-1" (.str b!"v") = .ret (b!"<r><a><b>1</b>x<b>2</b><b>v</b>y<d/></a></r>", none) := by
  refine ⟨by decide +kernel, by decide +kernel, by decide +kernel, by decide +kernel⟩

end Props
end Verif
