import Verif.Props.Slots
import Verif.Lemmas.SlotsAttr
/- C69: Set for an attribute of an element that has to be created first. -/
namespace Verif.Props
open Verif Verif.Spec

theorem attr_value {q : Bytes} {t : Seg} (h : IsSeg q t) (hq : AttrStep q) (cs : Bool) : (lowIf cs t).kind = .attr (spelling cs ((beforeBar q).drop 1)) := by
  have hf : ¬ b!"#(" <+: q := by
    rintro ⟨u, hu⟩
    obtain ⟨v, hv⟩ := hq
    rw [← hu] at hv
    simp at hv
  obtain ⟨_, hk⟩ := isSeg_not_filter h hf
  have hb := (prefix_beforeBar (z := b!"@") (by decide)).mp hq
  obtain ⟨u, hu⟩ := hb
  rw [← hu] at hk ⊢
  obtain ⟨k, m⟩ := t
  simp at hk
  subst hk
  have hpf : hasPrefix (c!"@" :: u) b!"@" = true := by simp [hasPrefix, List.isPrefixOf]
  cases cs <;> simp [lowIf, lowerSeg, spelling, hpf, foldCase_eq]

/-- C69: If the beginning of the path leads to an element, the names after it lead nowhere in it, and the path ends in an attribute, Set writes these elements
with the attribute as the only one of the innermost; its value is not changed in any way. Only if the document with these elements is too large before the
attribute is added, an error is reported. -/
theorem C69_attribute_new {o : Ord} (ho : o.IsPerm) (opts : Options) (hi : c!"<" ∉ opts.indent) {c : Ctx} {e : El} (h : Editable (c.plug (e.cons .nil))) {hs : List Hop} {ps ms : List Bytes} {m q p : Bytes}
    (hp : PathSteps p (ps ++ ((ms ++ [m]) ++ [q]))) (h1 : HopParts hs ps) (r1 : Reach opts.caseSensitive hs c e.name) (hn : ∀ x ∈ ms ++ [m], NameStep x ∧ IsName (beforeBar x))
    (hm : Missing opts.caseSensitive e.kids.info (ms ++ [m])) (hq : AttrStep q) (hd : c.depth + 1 + (ms.length + 1) ≤ 100) :
    ∃ as ws, Opened e as ws ∧ ∀ (v : GoVal) (w : Bytes), v ≠ .nil → valueToXML v = some w → w.length ≤ 5242880 →
      setWithOptions o (c.plug (e.cons .nil)).render p v (some opts) =
        if 10485760 < (c.before ++ (openTag e.name as ws ++ b!">" ++ e.inner ++ slotLines opts.indent 0 ((ms ++ [m]).map fun x => some (spelling opts.caseSensitive (beforeBar x))) [] ++ closeTag e.name []) ++ c.after).length
        then .ret ((c.plug (e.cons .nil)).render, some .malformed)
        else .ret (c.before ++ (openTag e.name as ws ++ b!">" ++ e.inner ++ slotLines opts.indent 0 (ms.map fun x => some (spelling opts.caseSensitive (beforeBar x)))
          (newLine opts.indent ms.length ++ (b!"<" ++ spelling opts.caseSensitive (beforeBar m) ++ b!" " ++ spelling opts.caseSensitive ((beforeBar q).drop 1) ++ b!"=\"" ++ w ++ b!"\"></" ++
            spelling opts.caseSensitive (beforeBar m) ++ b!">")) ++ closeTag e.name []) ++ c.after, none) := by
  have hsnd := editable_sound h
  obtain ⟨ss, rs0, a1, _, a2, a3⟩ := parse_hops hp h1 (reach_ne r1) opts.caseSensitive
  obtain ⟨rs, t, rfl, a4, a5⟩ := all2_snoc_inv a2
  have hak := attr_value a5 hq opts.caseSensitive
  have hhop : ∀ {xs : List Bytes}, (∀ x ∈ xs, NameStep x) → HopParts (xs.map fun x => (Pick.name (beforeBar x), 0)) xs := by
    intro xs hx
    induction xs with
    | nil => exact .nil
    | cons x xs ih => exact .first (.name (hx x (by simp))) (ih fun y hy => hx y (by simp [hy]))
  have hslot : ∀ {xs : List Bytes}, (∀ x ∈ xs, NameStep x) → Slots opts.caseSensitive xs (xs.map fun x => some (spelling opts.caseSensitive (beforeBar x))) := by
    intro xs hx
    induction xs with
    | nil => exact .nil
    | cons x xs ih => exact .name (hx x (by simp)) (ih fun y hy => hx y (by simp [hy]))
  have hnc : ∀ s ∈ rs, s.kind ≠ .count := by
    have := hopSegs_count (hopParts_segs (cs := true) (hhop fun x hx => (hn x hx).1) a4)
    rwa [show rs.map (lowIf true) = rs by rw [show lowIf true = id from rfl, List.map_id]] at this
  have hf1 : fuseFields (rs ++ [t]) = rs ++ [t] := by rw [fuse_left _ _ hnc]; rfl
  have hf2 : fuseFields rs = rs := by have := fuse_left rs [] hnc; simpa [fuseFields] using this
  obtain ⟨m1, m2, m3⟩ := missing_none (o := o) hm a4
  have hsl := slots_parts opts.caseSensitive a4 (hslot fun x hx => (hn x hx).1)
  rw [hf2] at m1 m2 m3 hsl
  rw [hf1, List.map_append, List.map_cons, List.map_nil, ← List.append_assoc] at a3
  have e1 : ((ms.map beforeBar ++ [beforeBar m]).map fun x => (Pick.name x, 0)) = (ms ++ [m]).map fun x => (Pick.name (beforeBar x), 0) := by simp
  have e2 : ((ms.map beforeBar ++ [beforeBar m]).map fun x => some (spelling opts.caseSensitive x)) = (ms ++ [m]).map fun x => some (spelling opts.caseSensitive (beforeBar x)) := by simp
  have e3 : ((ms.map beforeBar).map fun x => some (spelling opts.caseSensitive x)) = ms.map fun x => some (spelling opts.caseSensitive (beforeBar x)) := by simp
  have hcnt : e.kids.info.count opts.caseSensitive (.name ((ms.map beforeBar ++ [beforeBar m]).head (by simp))) = 0 := by
    have hz : ∃ y ys, ms ++ [m] = y :: ys ∧ (ms.map beforeBar ++ [beforeBar m]).head (by simp) = beforeBar y := by
      cases ms with
      | nil => exact ⟨m, [], rfl, rfl⟩
      | cons y ys => exact ⟨y, ys ++ [m], rfl, rfl⟩
    obtain ⟨y, ys, hy, hy2⟩ := hz
    rw [hy2]
    have hny := (hn y (by rw [hy]; simp)).1
    rw [hy] at hm
    cases hm with
    | blind hb =>
      exfalso
      rcases hb with hb | hb | hb | hb
      · exact hny.2.1 hb
      · exact hny.2.2.1 hb
      · exact hny.2.2.2.1 (by simp [hb])
      · exact hny.2.2.2.1 (by simp [hb])
    | nobody ha h0 =>
      cases ha with
      | name => exact h0
      | any hw => exact absurd (hny.2.2.2.1) (by rcases hw with hw | hw <;> simp [hw])
  obtain ⟨as, ws, k1, k2⟩ := setElement_newAttr ho hi h a1 r1 (ns := ms.map beforeBar) (n := beforeBar m) (r := rs.map (lowIf opts.caseSensitive))
    (by rw [e1]; exact hopParts_segs (hhop fun x hx => (hn x hx).1) a4) (by rw [e2]; exact hsl) hcnt
    (by intro x hx
        rw [← List.map_singleton, ← List.map_append] at hx
        obtain ⟨y, hy, rfl⟩ := List.mem_map.mp hx
        exact (hn y hy).2) (by rw [List.length_map]; exact hd) (fun t ht => by
      refine findLoc_reach ho a1 (reach_ne r1) (says_reads ho (sound_says hsnd)) (fresh_take m2 t) (.inr ⟨?_, ?_⟩) 0
      · have h3 := List.length_pos_iff.mpr m1
        intro h4; have := congrArg List.length h4; rw [List.length_take] at this; simp only [List.length_nil] at this; omega
      · intro nd hnd data base hrd
        rw [reach_spot r1] at hnd
        injection hnd with hnd
        subst hnd
        rw [el_node_kids] at hrd
        exact m3 t ht data base hrd) hak
  refine ⟨as, ws, k1, fun v w hv0 hv hw => ?_⟩
  have k3 := k2 v w hv hw
  rw [e2, e3, List.length_map] at k3
  rw [set_parsed (sound_valid hsnd) hv0 a3 (by simp), k3]
  split
  · rfl
  · rw [finish_ok (by simp)]

/-- `r.a.1.x.Y.@K` without regard to case. -/
example (o : Ord) (ho : o.IsPerm) (v : GoVal) (w : Bytes) (hv : v ≠ .nil) (h : valueToXML v = some w) (hw : w.length ≤ 5242880) :
    setWithOptions o (exCtx.plug (exEl.cons .nil)).render b!"r.a.1.x.Y.@K" v (some { defaultOptions with caseSensitive := false }) =
      .ret (exCtx.before ++ (exEl.start ++ b!"<b>y</b>" ++ (b!"<x><y k=\"" ++ w ++ b!"\"></y></x>") ++ b!"</a>") ++ exCtx.after, none) := by
  obtain ⟨as, ws, h1, h2⟩ := C69_attribute_new ho { defaultOptions with caseSensitive := false } (by decide) exEdit (hs := [(.name b!"r", 0), (.name b!"a", 1)]) (ps := [b!"r", b!"a", b!"1"]) (ms := [b!"x"])
    (m := b!"Y") (q := b!"@K") (p := b!"r.a.1.x.Y.@K") (pathSteps_by (by decide) (by decide) (by decide +kernel) (by decide +kernel))
    (.first (.name (name_step (by decide))) (.nth (.name (name_step (by decide))) (.digit 49 (by decide)) (by decide) .nil)) ⟨by decide +kernel, by decide +kernel, by decide +kernel, by decide +kernel⟩
    (by intro x hx; simp at hx; rcases hx with rfl | rfl <;> exact ⟨name_step (by decide), isName_of (by decide) (by decide)⟩) (.nobody (.name (name_step (by decide))) (by decide +kernel)) (by unfold AttrStep; decide) (by decide +kernel)
  obtain ⟨rfl, rfl⟩ := h1.kept (by simp [exEl])
  rw [h2 v w hv h hw, if_neg (by decide +kernel)]
  simp [slotLines, newLine, defaultOptions, exEl, El.start, El.inner, closeTag, Forest.render, openTag, spelling, beforeBar, foldCase]

end Verif.Props
