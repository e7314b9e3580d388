import Verif.Model.FreshEdit
import Verif.Lemmas.FreshSame
import Verif.Lemmas.Place
import Verif.Lemmas.AttrOpt
import Verif.Lemmas.Bounds
import Verif.Spec.FreshEdit
/- Two runs of Set or Delete that iterate maps in any orders find the same places: what they read differs only in the order of attributes. -/
namespace Verif
open Spec

theorem Visits.IsPerm.at {os : Visits} (h : os.IsPerm) (t : Nat) : (os.at t).IsPerm := fun _ => h _
theorem Visits.IsPerm.sub {os : Visits} (h : os.IsPerm) (t : Nat) (e : Elem) : (os.sub t e).IsPerm := fun _ => h _
theorem Visits.IsPerm.here {os : Visits} (h : os.IsPerm) : os.here.IsPerm := h []

theorem Wides.at {os1 os2 : Visits} (h : Wides os1 os2) (t : Nat) : Wides (os1.at t) (os2.at t) := ⟨h.w1.at t, h.w2.at t⟩

/-- Two texts with the same tags up to the order of attributes. -/
def LT (x1 x2 : Bytes) : Prop :=
  ∃ k g1 g2 d1 d2, Twin k g1 ∧ Twin k g2 ∧ g1.Legal d1 ∧ g2.Legal d2 ∧ g1.Tame false ∧ g2.Tame false ∧ x1 = g1.render ∧ x2 = g2.render

theorem LT.length {x1 x2 : Bytes} (h : LT x1 x2) : x1.length = x2.length := by
  obtain ⟨k, g1, g2, d1, d2, h1, h2, -, -, -, -, rfl, rfl⟩ := h
  rw [h1.length, h2.length]

/-- The same element read in two runs. -/
structure EL (e1 e2 : Elem) : Prop where
  name : e1.name = e2.name
  start : e1.startLen = e2.startLen
  opn : e1.openLen = e2.openLen
  fin : e1.endLen = e2.endLen
  self : e1.selfClosing = e2.selfClosing
  attrs : e1.attrs.Perm e2.attrs
  uniq : e2.attrs.Uniq
  content : LT e1.content e2.content

theorem all2_meet {α β γ : Type} {P : α → γ → Prop} {Q : β → γ → Prop} {R : α → β → Prop} (h : ∀ a b c, P a c → Q b c → R a b) {l1 : List α} {l2 : List β} {l3 : List γ}
    (h1 : All2 P l1 l3) (h2 : All2 Q l2 l3) : All2 R l1 l2 := by
  induction h1 generalizing l2 with
  | nil => cases h2; exact .nil
  | cons ha _ ih => cases h2 with | cons hb h2 => exact .cons (h _ _ _ ha hb) (ih h2)

theorem LT.empty : LT [] [] := ⟨.nil, .nil, .nil, 0, 0, .nil, .nil, trivial, trivial, trivial, trivial, rfl, rfl⟩

theorem LT.tops {o1 o2 : Ord} (p1 : o1.IsPerm) (p2 : o2.IsPerm) {x1 x2 : Bytes} (h : LT x1 x2) : All2 EL (topElems o1 x1) (topElems o2 x2) := by
  obtain ⟨k, g1, g2, d1, d2, h1, h2, l1, l2, t1, t2, rfl, rfl⟩ := h
  refine all2_meet (fun a b c ha hb => ?_) (topElems_placed p1 h1.sim l1 t1) (topElems_placed p2 h2.sim l2 t2)
  refine ⟨by rw [ha.name, hb.name], by rw [ha.start, hb.start], by rw [ha.opn, hb.opn], by rw [ha.fin, hb.fin], by rw [ha.self, hb.self],
    ha.attrs.trans hb.attrs.symm, uniq_perm hb.attrs (attrMap_uniq _), ?_⟩
  cases hbd : c.2.1.body with
  | none => rw [ha.none hbd, hb.none hbd]; exact LT.empty
  | some q =>
    obtain ⟨-, k1, e1, a1, a2, a3, a4⟩ := ha.some q.1 q.2 hbd
    obtain ⟨-, k2, e2, b1, b2, b3, b4⟩ := hb.some q.1 q.2 hbd
    exact ⟨q.1, k1, k2, e1, e2, a1, b1, a2, b2, a3, b3, a4, b4⟩

/-- The document itself, read in two runs. -/
theorem sound_tops {o1 o2 : Ord} (p1 : o1.IsPerm) (p2 : o2.IsPerm) {f : Forest} (h : Sound f) : All2 EL (topElems o1 f.render) (topElems o2 f.render) := by
  refine all2_meet (fun a b c ha hb => ?_) (topElems_placedT p1 h.2.1 h.2.2.1) (topElems_placedT p2 h.2.1 h.2.2.1)
  refine ⟨by rw [ha.name, hb.name], by rw [ha.start, hb.start], by rw [ha.opn, hb.opn], by rw [ha.fin, hb.fin], by rw [ha.self, hb.self],
    ha.attrs.trans hb.attrs.symm, uniq_perm hb.attrs (attrMap_uniq _), ?_⟩
  cases hbd : c.2.1.body with
  | none => rw [ha.none hbd, hb.none hbd]; exact LT.empty
  | some q =>
    obtain ⟨k1, e1, a1, a2, a3, a4⟩ := ha.some q.1 q.2 hbd
    obtain ⟨k2, e2, b1, b2, b3, b4⟩ := hb.some q.1 q.2 hbd
    exact ⟨q.1.redo, k1, k2, e1, e2, a1, b1, a2, b2, a3, b3, a4, b4⟩

/-- The same place found in two runs. -/
structure LocA (l1 l2 : Loc) : Prop where
  eq : l1 = { l2 with attrs := l1.attrs }
  attrs : l1.attrs.Perm l2.attrs
  uniq : l2.attrs.Uniq

inductive OptA : Option Loc → Option Loc → Prop
  | none : OptA none none
  | some {l1 l2 : Loc} : LocA l1 l2 → OptA (some l1) (some l2)

theorem locOf_alike {d1 d2 : Bytes} (hd : d1.length = d2.length) (base : Int) {e1 e2 : Elem} (h : EL e1 e2) : LocA (locOf d1 base e1) (locOf d2 base e2) := by
  refine ⟨?_, h.attrs, h.uniq⟩
  simp only [locOf, hd, h.name, h.start, h.opn, h.fin, h.self]

theorem All2.head {α β : Type} {P : α → β → Prop} {l1 : List α} {l2 : List β} (h : All2 P l1 l2) :
    (l1.head? = none ∧ l2.head? = none) ∨ ∃ a b, l1.head? = some a ∧ l2.head? = some b ∧ P a b := by
  cases h with
  | nil => exact .inl ⟨rfl, rfl⟩
  | cons h _ => exact .inr ⟨_, _, rfl, rfl, h⟩

theorem findLocF_alike (cs : Bool) : ∀ (ss : List Seg) (os1 os2 : Visits) (_ : Wides os1 os2) (d1 d2 : Bytes) (_ : d1.length = d2.length)
    (_ : All2 EL (topElems os1.here d1) (topElems os2.here d2)) (base : Int), OptA (findLocF cs ss os1 d1 base) (findLocF cs ss os2 d2 base)
  | [], _, _, _, _, _, _, _, _ => by rw [findLocF, findLocF]; exact .none
  | cur :: rest, os1, os2, hw, d1, d2, hd, ht, base => by
    have hms : All2 EL ((topElems os1.here d1).filter (fun e => cur.matchesOpt e.name cs)) ((topElems os2.here d2).filter (fun e => cur.matchesOpt e.name cs)) :=
      All2.filter ht (fun a b hab => by rw [hab.name])
    have hin : ∀ (ss : List Seg) (a b : Elem), EL a b → ss.length < (cur :: rest).length →
        OptA (if offsetOk d1 base a then findLocF cs ss (os1.sub 0 a) a.content (base + ((d1.length : Int) - a.openLen)) else none)
          (if offsetOk d2 base b then findLocF cs ss (os2.sub 0 b) b.content (base + ((d2.length : Int) - b.openLen)) else none) := by
      intro ss a b hab hlt
      rw [show offsetOk d1 base a = offsetOk d2 base b by simp only [offsetOk, hd, hab.opn], hd, hab.opn]
      split
      · exact findLocF_alike cs ss _ _ (hw.sub 0 a b) _ _ hab.content.length (hab.content.tops (hw.sub 0 a b).p1 (hw.sub 0 a b).p2) _
      · exact .none
    have hhd := All2.head hms
    have hget := fun i => All2.get hms i
    rw [findLocF, findLocF]
    generalize (topElems os1.here d1).filter (fun e => cur.matchesOpt e.name cs) = ms1 at hms hhd hget ⊢
    generalize (topElems os2.here d2).filter (fun e => cur.matchesOpt e.name cs) = ms2 at hms hhd hget ⊢
    split
    · exact .none
    · cases rest with
      | nil =>
        rcases hhd with ⟨h1, h2⟩ | ⟨a, b, h1, h2, hab⟩
        · simp only [h1, h2]; exact .none
        · simp only [h1, h2]; exact .some (locOf_alike hd base hab)
      | cons nxt rest2 =>
        have hfirst : OptA (match ms1.head? with
            | none => none
            | some e => if offsetOk d1 base e then findLocF cs (nxt :: rest2) (os1.sub 0 e) e.content (base + ((d1.length : Int) - e.openLen)) else none)
          (match ms2.head? with
            | none => none
            | some e => if offsetOk d2 base e then findLocF cs (nxt :: rest2) (os2.sub 0 e) e.content (base + ((d2.length : Int) - e.openLen)) else none) := by
          rcases hhd with ⟨h1, h2⟩ | ⟨a, b, h1, h2, hab⟩
          · rw [h1, h2]; exact .none
          · rw [h1, h2]; exact hin _ a b hab (by simp)
        cases hk : nxt.kind with
        | index i =>
          simp only [hk]
          split
          · exact .none
          · rcases hget i.toNat with ⟨h1, h2⟩ | ⟨a, b, h1, h2, hab⟩
            · rw [h1, h2]; exact .none
            · rw [h1, h2]
              simp only
              by_cases hr : rest2.isEmpty = true
              · rw [if_pos hr, if_pos hr]; exact .some (locOf_alike hd base hab)
              · rw [if_neg hr, if_neg hr]; exact hin _ a b hab (by simp; omega)
        | _ => simp only [hk]; exact hfirst
termination_by ss => ss.length

/-- Where an element ends does not depend on the order of attributes, in any text. -/
theorem contentLoop_snd (o1 o2 : Ord) (name : Bytes) (depth : Nat) (r : Bytes) : (contentLoop o1 name depth r).2 = (contentLoop o2 name depth r).2 := by
  fun_induction contentLoop o1 name depth r with
  | case1 => rw [contentLoop]
  | case2 c => rw [contentLoop]; simp_all
  | case3 => rw [contentLoop.eq_def o2]; simp_all
  | case4 => rw [contentLoop.eq_def o2]; simp_all [prepend]; rw [if_neg (by omega)]
  | case5 => rw [contentLoop.eq_def o2]; simp_all [prepend]
  | case6 => rw [contentLoop.eq_def o2]; simp_all [prepend]
  | case7 => rw [contentLoop.eq_def o2]; simp_all [prepend]
  | case8 => rw [contentLoop.eq_def o2]; simp_all [prepend]

/-- All but the content. -/
def shell (e : Elem) : Elem := { e with content := [] }

theorem topElems_shell (o1 o2 : Ord) (r : Bytes) : (topElems o1 r).map shell = (topElems o2 r).map shell := by
  fun_induction topElems o1 r with
  | case1 r h => rw [topElems_none h]
  | case2 r s h ih =>
    rw [topElems_some h]
    have he : (elemAt o1 s).2 = (elemAt o2 s).2 ∧ shell (elemAt o1 s).1 = shell (elemAt o2 s).1 := by
      have hc := contentLoop_snd o1 o2
      unfold elemAt
      simp only [parseElementContent]
      split
      · exact ⟨rfl, rfl⟩
      · exact ⟨hc _ _ _, by simp only [shell, hc]⟩
    rw [List.map_cons, List.map_cons, he.2, ih, he.1]

theorem shell_last (o1 o2 : Ord) (P : Bytes → Bool) (r : Bytes) :
    (((topElems o1 r).filter (fun e => P e.name)).getLast?).map shell = (((topElems o2 r).filter (fun e => P e.name)).getLast?).map shell := by
  have hf : ∀ l : List Elem, (l.filter (fun e => P e.name)).map shell = (l.map shell).filter (fun e => P e.name) := fun l => by
    rw [List.filter_map]; rfl
  rw [← List.getLast?_map, ← List.getLast?_map, hf, hf, topElems_shell o1 o2]

theorem appendRoot_any (o1 o2 : Ord) (cs : Bool) (data : Bytes) (seg : Seg) (v : Bytes) : appendRootElement o1 cs data seg v = appendRootElement o2 cs data seg v := by
  have h := shell_last o1 o2 (fun n => seg.matchesOpt n cs) data
  unfold appendRootElement
  revert h
  generalize ((topElems o1 data).filter (fun e => seg.matchesOpt e.name cs)).getLast? = a
  generalize ((topElems o2 data).filter (fun e => seg.matchesOpt e.name cs)).getLast? = b
  intro h
  cases a <;> cases b <;> simp_all [shell]

theorem findLastMatch_any (o1 o2 : Ord) (cs : Bool) (data : Bytes) (l : Loc) (seg : Seg) : findLastMatch o1 cs data l seg = findLastMatch o2 cs data l seg := by
  unfold findLastMatch
  cases slice data l.contentStart l.contentEnd with
  | none => rfl
  | some content =>
    have h := shell_last o1 o2 (fun n => seg.matchesOpt n cs) content
    simp only
    revert h
    generalize ((topElems o1 content).filter (fun e => seg.matchesOpt e.name cs)).getLast? = a
    generalize ((topElems o2 content).filter (fun e => seg.matchesOpt e.name cs)).getLast? = b
    intro h
    cases a <;> cases b <;> simp_all [shell]

theorem sibling_any (o1 o2 : Ord) (data t : Bytes) : shouldCreateSiblingRoot o1 data t = shouldCreateSiblingRoot o2 data t := by
  have hf : ∀ l : List Elem, l.all (fun e => e.name ≠ t) = (l.map shell).all (fun e => e.name ≠ t) := fun l => by rw [List.all_map]; rfl
  unfold shouldCreateSiblingRoot
  rw [hf (topElems o1 data), hf (topElems o2 data), topElems_shell o1 o2]

theorem names_perm {m1 m2 : Attrs} (h : m1.Perm m2) : (m1.map (·.1)).Perm (m2.map (·.1)) := h.map _

theorem sortNames_same {l1 l2 : List Bytes} (h : l1.Perm l2) (hn : l2.Nodup) : sortNames l1 = sortNames l2 := by
  have hp : (sortNames l1).Perm (sortNames l2) := (sortNames_perm l1).trans (h.trans (sortNames_perm l2).symm)
  refine hp.eq_of_pairwise (le := LexBefore) ?_ (sortNames_sorted (h.nodup_iff.mpr hn)) (sortNames_sorted hn)
  intro a b _ _ hab hba
  have := bytesLt_trans ((bytesLt_iff a b).mpr hab) ((bytesLt_iff b a).mpr hba)
  rw [bytesLt_irrefl] at this
  exact absurd this (by simp)

theorem any_perm {α : Type} {l1 l2 : List α} (h : l1.Perm l2) (P : α → Bool) : l1.any P = l2.any P := by
  rw [Bool.eq_iff_iff, List.any_eq_true, List.any_eq_true]
  exact ⟨fun ⟨x, hx, hp⟩ => ⟨x, h.mem_iff.mp hx, hp⟩, fun ⟨x, hx, hp⟩ => ⟨x, h.mem_iff.mpr hx, hp⟩⟩

theorem writeSorted_same {m1 m2 : Attrs} (h : m1.Perm m2) (hu : m2.Uniq) (cs : Bool) (a v : Bytes) (ns : List Bytes) :
    writeSorted cs m1 a v ns = writeSorted cs m2 a v ns := by
  induction ns with
  | nil => rfl
  | cons n ns ih => rw [writeSorted, writeSorted, ih, Attrs.get?_perm h hu]

theorem sameAttr_self (cs : Bool) (a : Bytes) : sameAttr cs a a = true := by unfold sameAttr; cases cs <;> simp

theorem attrNamesWith_same {m1 m2 : Attrs} (h : m1.Perm m2) (hu : m2.Uniq) (cs : Bool) (a : Bytes) : attrNamesWith cs m1 a = attrNamesWith cs m2 a := by
  have hp := names_perm h
  simp only [attrNamesWith]
  rw [any_perm hp]
  split
  · exact sortNames_same hp hu
  · rename_i hno
    refine sortNames_same (hp.append_right _) ?_
    refine List.nodup_append.mpr ⟨hu, by simp, ?_⟩
    intro x hx y hy hxy
    simp only [List.mem_singleton] at hy
    subst hy; subst hxy
    exact hno (List.any_eq_true.mpr ⟨x, hx, sameAttr_self cs x⟩)

theorem replaceAttribute_same {l1 l2 : Loc} (h : LocA l1 l2) (cs : Bool) (data a v : Bytes) : replaceAttribute cs data l1 a v = replaceAttribute cs data l2 a v := by
  obtain ⟨he, hp, hu⟩ := h
  unfold replaceAttribute
  rw [attrNamesWith_same hp hu, writeSorted_same hp hu, he]

theorem mapGet_same {m1 m2 : Attrs} (h : m1.Perm m2) (hu : m2.Uniq) (ns : List Bytes) :
    (ns.map fun n => (n, (Attrs.get? n m1).getD [])) = ns.map fun n => (n, (Attrs.get? n m2).getD []) :=
  List.map_congr_left fun n _ => by rw [Attrs.get?_perm h hu]

theorem writeAttrsSorted_same {m1 m2 : Attrs} (h : m1.Perm m2) (hu : m2.Uniq) : writeAttrsSorted m1 = writeAttrsSorted m2 := by
  unfold writeAttrsSorted
  rw [sortNames_same (names_perm h) hu, mapGet_same h hu]

theorem deleteAttribute_same {l1 l2 : Loc} (h : LocA l1 l2) (cs : Bool) (data a : Bytes) : deleteAttribute cs data l1 a = deleteAttribute cs data l2 a := by
  obtain ⟨he, hp, hu⟩ := h
  unfold deleteAttribute attrsWithout
  rw [any_perm (names_perm hp), sortNames_same ((names_perm hp).filter _) (List.Pairwise.filter _ hu), mapGet_same hp hu, he]

/-- A computation in which the order of a map shows in at most one place: the attributes written in one tag. -/
inductive OneSpot (F : Visits → BRes) : Prop
  | never (r : BRes) (h : ∀ os : Visits, os.IsPerm → F os = r)
  | once (pre n post : Bytes) (key : Bytes) (m : Attrs) (h : ∀ os : Visits, os.IsPerm → ∃ t m', m'.Perm m ∧ F os = .ok (pre ++ b!"<" ++ n ++ writeAttrs (os t key m') ++ post))

/-- Such a run is a run with one order for all visits. -/
theorem OneSpot.one {F : Visits → BRes} (h : OneSpot F) {os : Visits} (hos : os.IsPerm) : ∃ o : Ord, o.IsPerm ∧ F os = F (Visits.const o) := by
  cases h with
  | never r h => exact ⟨fun _ as => as, fun _ _ => .refl _, by rw [h os hos, h (Visits.const fun _ as => as) (fun _ _ _ => .refl _)]⟩
  | once pre n post key m h =>
    obtain ⟨t, m', hm, hF⟩ := h os hos
    have hp : Ord.IsPerm (fun _ as => if as.Perm m then os t key m' else as) := by
      intro r as
      simp only
      split
      · rename_i has; exact ((hos t) key m').trans (hm.trans has.symm)
      · exact .refl _
    obtain ⟨t2, m2, hm2, hF2⟩ := h (Visits.const fun _ as => if as.Perm m then os t key m' else as) (fun _ => hp)
    refine ⟨_, hp, ?_⟩
    rw [hF, hF2]
    simp only [Visits.const, if_pos hm2]

/-- One run of the parent search, seen against another. -/
inductive ParA : Option (Nat × Loc) → Option (Nat × Loc) → Prop
  | none : ParA none none
  | some {i : Nat} {l1 l2 : Loc} : LocA l1 l2 → ParA (some (i, l1)) (some (i, l2))

theorem findLocF_sound {os1 os2 : Visits} (hw : Wides os1 os2) {f : Forest} (hf : Sound f) (cs : Bool) (ss : List Seg) (base : Int) :
    OptA (findLocF cs ss os1 f.render base) (findLocF cs ss os2 f.render base) :=
  findLocF_alike cs ss os1 os2 hw _ _ rfl (sound_tops hw.p1 hw.p2 hf) base

theorem deepestParentF_sound {os1 os2 : Visits} (hw : Wides os1 os2) {f : Forest} (hf : Sound f) (cs : Bool) (path : List Seg) (n : Nat) :
    ParA (deepestParentF os1 cs f.render path n) (deepestParentF os2 cs f.render path n) := by
  induction n with
  | zero => exact .none
  | succ i ih =>
    rw [deepestParentF, deepestParentF]
    have h := findLocF_sound (hw.at i) hf cs (path.take (i + 1)) 0
    revert h
    generalize findLocF cs (path.take (i + 1)) (os1.at i) f.render 0 = a
    generalize findLocF cs (path.take (i + 1)) (os2.at i) f.render 0 = b
    intro h
    cases h with
    | none => exact ih
    | some h => exact .some h

/-- The order of no map matters. -/
def plain : Visits := Visits.const fun _ as => as
theorem plain_perm : plain.IsPerm := fun _ _ _ => .refl _

theorem OneSpot.at {F : Visits → BRes} (h : OneSpot F) (t : Nat) : OneSpot (fun os => F (os.at t)) := by
  cases h with
  | never r h => exact .never r fun os hos => h _ (hos.at t)
  | once pre n post key m h =>
    refine .once pre n post key m fun os hos => ?_
    obtain ⟨l, m', hm, hF⟩ := h _ (hos.at t)
    exact ⟨t :: l, m', hm, hF⟩

theorem OneSpot.congr {F G : Visits → BRes} (h : OneSpot F) (he : ∀ os : Visits, os.IsPerm → G os = F os) : OneSpot G := by
  cases h with
  | never r h => exact .never r fun os hos => by rw [he os hos, h os hos]
  | once pre n post key m h => exact .once pre n post key m fun os hos => by rw [he os hos]; exact h os hos

/-- A splice of an opened element. -/
theorem OneSpot.opened (data : Bytes) (a b : Int) (n body key : Bytes) (m : Attrs) {F : Visits → BRes}
    (h : ∀ os : Visits, os.IsPerm → ∃ t m', m'.Perm m ∧ F os = splice data a b (expanded n (writeAttrs (os t key m')) body)) : OneSpot F := by
  cases h1 : sliceTo data a with
  | none =>
    refine .never .panic fun os hos => ?_
    obtain ⟨t, m', -, hF⟩ := h os hos
    rw [hF, splice, h1]
  | some x =>
    cases h2 : sliceFrom data b with
    | none =>
      refine .never .panic fun os hos => ?_
      obtain ⟨t, m', -, hF⟩ := h os hos
      rw [hF, splice, h1, h2]
    | some y =>
      refine .once x n (b!">" ++ body ++ b!"</" ++ n ++ b!">" ++ y) key m fun os hos => ?_
      obtain ⟨t, m', hm, hF⟩ := h os hos
      refine ⟨t, m', hm, ?_⟩
      rw [hF, splice, h1, h2]
      simp only [expanded, List.append_assoc]

theorem createInParent_spot (indent data : Bytes) (l0 : Loc) (rest : List Seg) (v : Bytes) {F : Visits → BRes}
    (h : ∀ os : Visits, os.IsPerm → ∃ t l, LocA l l0 ∧ F os = createInParent (os t) indent data l rest v) : OneSpot F := by
  by_cases hs : l0.selfClosing = true
  · refine .opened data l0.startPos l0.contentEnd l0.name (buildElementPath indent rest v) (data.drop l0.contentStart.toNat) l0.attrs fun os hos => ?_
    obtain ⟨t, l, hl, hF⟩ := h os hos
    refine ⟨t, l.attrs, hl.attrs, ?_⟩
    rw [hF, createInParent, hl.eq]
    simp only [hs, if_true]
  · refine .never (splice data l0.contentEnd l0.contentEnd (buildElementPath indent rest v)) fun os hos => ?_
    obtain ⟨t, l, hl, hF⟩ := h os hos
    rw [hF, createInParent, hl.eq]
    simp only [if_neg hs]

/-- What createInRoot has to make below the root `n`. -/
def toMake (n : Bytes) : List Seg → List Seg
  | [] => []
  | s :: rest => if s.kind = .elem n then rest else s :: rest

theorem createInRootF_spot {f : Forest} (hf : Sound f) (indent : Bytes) (path : List Seg) (v : Bytes) : OneSpot (fun os => createInRootF os indent f.render path v) := by
  let tgt (os : Visits) : Bool := match path with
    | [] => false
    | s :: _ => match s.kind with
      | .elem t => shouldCreateSiblingRoot (os.at 0).here f.render t
      | _ => false
  have htgt : ∀ os, tgt os = tgt plain := by
    intro os
    simp only [tgt]
    cases path with
    | nil => rfl
    | cons s rest => simp only [sibling_any (os.at 0).here (plain.at 0).here]
  have hdef : ∀ os, createInRootF os indent f.render path v = if tgt plain then .ok (f.render ++ buildElementPath indent path v) else
      match topElems (os.at 1).here f.render with
      | [] => .err .malformed
      | e :: _ =>
        if (toMake e.name path).isEmpty then .ok []
        else if e.selfClosing then
            splice f.render (locOf f.render 0 e).startPos (locOf f.render 0 e).contentStart
              (expanded e.name (writeAttrs ((os.at 2).here (f.render.drop (locOf f.render 0 e).contentStart.toNat) e.attrs)) (buildElementPath indent (toMake e.name path) v))
          else splice f.render (locOf f.render 0 e).contentEnd (locOf f.render 0 e).contentEnd (buildElementPath indent (toMake e.name path) v) := by
    intro os; rw [← htgt os]; cases path <;> rfl
  refine OneSpot.congr ?_ (fun os _ => hdef os)
  by_cases ht : tgt plain = true
  · exact .never _ fun os _ => if_pos ht
  · have ha : ∀ os : Visits, os.IsPerm → All2 EL (topElems (os.at 1).here f.render) (topElems (plain.at 1).here f.render) := fun os hos =>
      sound_tops (hos.at 1).here (plain_perm.at 1).here hf
    revert ha
    generalize topElems (plain.at 1).here f.render = es0
    intro ha
    cases es0 with
    | nil =>
      refine .never (.err .malformed) fun os hos => ?_
      rw [if_neg ht]
      have := ha os hos
      generalize topElems (os.at 1).here f.render = es at this
      cases this
      rfl
    | cons e0 es0 =>
      have hloc : ∀ e, EL e e0 → (locOf f.render 0 e).startPos = (locOf f.render 0 e0).startPos ∧ (locOf f.render 0 e).contentStart = (locOf f.render 0 e0).contentStart ∧
          (locOf f.render 0 e).contentEnd = (locOf f.render 0 e0).contentEnd := fun e h => by
        rw [(locOf_alike (rfl : f.render.length = f.render.length) 0 h).eq]; exact ⟨rfl, rfl, rfl⟩
      by_cases hc : (toMake e0.name path).isEmpty = true
      · refine .never (.ok []) fun os hos => ?_
        rw [if_neg ht]
        have := ha os hos
        generalize topElems (os.at 1).here f.render = es at this
        cases this with
        | cons h _ => simp only [h.name]; exact if_pos hc
      · by_cases hs : e0.selfClosing = true
        · refine .opened f.render (locOf f.render 0 e0).startPos (locOf f.render 0 e0).contentStart e0.name (buildElementPath indent (toMake e0.name path) v)
            (f.render.drop (locOf f.render 0 e0).contentStart.toNat) e0.attrs fun os hos => ?_
          have := ha os hos
          generalize topElems (os.at 1).here f.render = es at this
          cases this with
          | @cons e _ _ _ h _ =>
            refine ⟨[2], e.attrs, h.attrs, ?_⟩
            rw [if_neg ht]
            simp only [h.name, (hloc e h).1, (hloc e h).2.1, (hloc e h).2.2, h.self]
            rw [if_neg hc, if_pos hs]
            rfl
        · refine .never (splice f.render (locOf f.render 0 e0).contentEnd (locOf f.render 0 e0).contentEnd (buildElementPath indent (toMake e0.name path) v)) fun os hos => ?_
          have := ha os hos
          generalize topElems (os.at 1).here f.render = es at this
          cases this with
          | @cons e _ _ _ h _ =>
            rw [if_neg ht]
            simp only [h.name, (hloc e h).1, (hloc e h).2.1, (hloc e h).2.2, h.self]
            rw [if_neg hc, if_neg hs]

theorem createElementF_spot {f : Forest} (hf : Sound f) (cs : Bool) (indent : Bytes) (path : List Seg) (v : Bytes) : OneSpot (fun os => createElementF os cs indent f.render path v) := by
  by_cases he : f.render.isEmpty = true
  · exact .never _ fun os _ => if_pos he
  · have hd : ∀ os : Visits, os.IsPerm → ParA (deepestParentF (os.at 0) cs f.render path (path.length - 1)) (deepestParentF (plain.at 0) cs f.render path (path.length - 1)) :=
      fun os hos => deepestParentF_sound (Wides.at ⟨hos, plain_perm⟩ 0) hf cs path _
    generalize deepestParentF (plain.at 0) cs f.render path (path.length - 1) = d0 at hd
    cases d0 with
    | none =>
      refine OneSpot.congr ((createInRootF_spot hf indent path v).at 1) fun os hos => ?_
      have h := hd os hos
      unfold createElementF
      rw [if_neg he]
      generalize deepestParentF (os.at 0) cs f.render path (path.length - 1) = d at h ⊢
      cases h
      rfl
    | some il =>
      obtain ⟨i, l0⟩ := il
      refine createInParent_spot indent f.render l0 (path.drop i) v fun os hos => ?_
      have h := hd os hos
      unfold createElementF
      rw [if_neg he]
      generalize deepestParentF (os.at 0) cs f.render path (path.length - 1) = d at h ⊢
      cases h with
      | some h => exact ⟨[2], _, h, rfl⟩

/-- A search that finds the same place in every run. -/
theorem OneSpot.find {f : Forest} (hf : Sound f) (cs : Bool) (ss : List Seg) (t : Nat) (K : Loc → BRes) (hK : ∀ l1 l2, LocA l1 l2 → K l1 = K l2) {E : Visits → BRes} (hE : OneSpot E) :
    OneSpot (fun os => match findLocF cs ss (os.at t) f.render 0 with
      | none => E os
      | some l => K l) := by
  have hd : ∀ os : Visits, os.IsPerm → OptA (findLocF cs ss (os.at t) f.render 0) (findLocF cs ss (plain.at t) f.render 0) :=
    fun os hos => findLocF_sound (Wides.at ⟨hos, plain_perm⟩ t) hf cs ss 0
  generalize findLocF cs ss (plain.at t) f.render 0 = d0 at hd
  cases d0 with
  | none =>
    refine hE.congr fun os hos => ?_
    have h := hd os hos
    generalize findLocF cs ss (os.at t) f.render 0 = d at h ⊢
    cases h; rfl
  | some l0 =>
    refine .never (K l0) fun os hos => ?_
    have h := hd os hos
    generalize findLocF cs ss (os.at t) f.render 0 = d at h ⊢
    cases h with
    | some h => exact hK _ _ h

theorem appendElementF_spot {f : Forest} (hf : Sound f) (cs : Bool) (indent : Bytes) (path : List Seg) (v : Bytes) : OneSpot (fun os => appendElementF os cs indent f.render path v) := by
  unfold appendElementF
  cases path.getLast? with
  | none => exact .never _ fun _ _ => rfl
  | some seg =>
    simp only
    cases seg.kind with
    | elem name =>
      simp only
      by_cases he : path.dropLast.isEmpty = true
      · simp only [if_pos he]
        exact .never (appendRootElement plain.here cs f.render seg v) fun os _ => appendRoot_any _ _ _ _ _ _
      · simp only [if_neg he]
        refine OneSpot.congr (OneSpot.find hf cs path.dropLast 1 (fun l => if l.selfClosing then
            splice f.render l.startPos l.contentEnd (expanded l.name (writeAttrsSorted l.attrs) (wrapElem name v))
          else
            match findLastMatch plain.here cs f.render l seg with
            | none => .panic
            | some pos =>
              let ind := if pos > l.contentStart then indentAt indent path.dropLast.length else []
              sizeChecked (splice f.render pos pos (ind ++ wrapElem name v))) ?_ ((createElementF_spot hf cs indent path v).at 2)) fun os _ => ?_
        · intro l1 l2 h
          rw [writeAttrsSorted_same h.attrs h.uniq]
          have : findLastMatch plain.here cs f.render l1 seg = findLastMatch plain.here cs f.render l2 seg := by rw [h.eq]; rfl
          rw [this, h.eq]
        · cases findLocF cs path.dropLast (os.at 1) f.render 0 with
          | none => rfl
          | some l => simp only; rw [findLastMatch_any (os.at 3).here plain.here]; cases findLastMatch plain.here cs f.render l seg <;> rfl
    | _ => exact .never _ fun _ _ => rfl

/-- Delete gives the same bytes in every run. -/
theorem deleteElementF_same {os1 os2 : Visits} (hw : Wides os1 os2) {f : Forest} (hf : Sound f) (cs : Bool) (path : List Seg) :
    deleteElementF os1 cs f.render path = deleteElementF os2 cs f.render path := by
  unfold deleteElementF
  cases path.getLast? with
  | none => rfl
  | some last =>
    simp only
    split
    · rfl
    · have h2 := findLocF_sound hw hf cs path 0
      cases hk : last.kind with
      | attr a =>
        simp only
        split
        · rfl
        · have h1 := findLocF_sound hw hf cs path.dropLast 0
          generalize findLocF cs path.dropLast os1 f.render 0 = x at h1 ⊢
          generalize findLocF cs path.dropLast os2 f.render 0 = y at h1 ⊢
          cases h1 with
          | none => rfl
          | some h => exact deleteAttribute_same h cs f.render a
      | _ =>
        generalize findLocF cs path os1 f.render 0 = x at h2 ⊢
        generalize findLocF cs path os2 f.render 0 = y at h2 ⊢
        cases h2 with
        | none => rfl
        | some h => simp only; rw [h.eq]

/-- Set at a path that does not end with an attribute. -/
theorem setElementF_spot {f : Forest} (hf : Sound f) (cs : Bool) (indent : Bytes) (path : List Seg) (value : GoVal) (hp : ∀ s ∈ path, ∀ a, s.kind ≠ .attr a) :
    OneSpot (fun os => setElementF os cs indent f.render path value) := by
  unfold setElementF
  cases hl : path.getLast? with
  | none => exact .never _ fun _ _ => rfl
  | some last =>
    simp only
    cases valueToXML value with
    | none => exact .never _ fun _ _ => rfl
    | some v =>
      simp only
      by_cases h1 : v.length > maxValueSize
      · simp only [if_pos h1]; exact .never _ fun _ _ => rfl
      · simp only [if_neg h1]
        by_cases h2 : f.render.length > maxDocumentSize
        · simp only [if_pos h2]; exact .never _ fun _ _ => rfl
        · simp only [if_neg h2]
          cases indexIntent path with
          | some b =>
            cases b with
            | false => exact .never _ fun _ _ => rfl
            | true => exact (appendElementF_spot hf cs indent path.dropLast v).at 0
          | none =>
            have hk := hp last (List.mem_of_getLast? hl)
            have hspot := OneSpot.find hf cs path 1 (fun l => replaceElement f.render l v) (fun l1 l2 h => by rw [h.eq]; rfl) ((createElementF_spot hf cs indent path v).at 2)
            refine hspot.congr fun os _ => ?_
            cases hkk : last.kind with
            | attr a => exact absurd hkk (hk a)
            | _ => simp only; cases findLocF cs path (os.at 1) f.render 0 <;> rfl

theorem setElementF_found {os1 os2 : Visits} (hw : Wides os1 os2) {f : Forest} (hf : Sound f) (cs : Bool) (indent : Bytes) (path : List Seg) (value : GoVal) {last : Seg} {a : Bytes}
    (hl : path.getLast? = some last) (hk : last.kind = .attr a) (h : ∃ l, findLocF cs path.dropLast (os1.at 1) f.render 0 = some l) (hi : indexIntent path = none) :
    setElementF os1 cs indent f.render path value = setElementF os2 cs indent f.render path value := by
  obtain ⟨l, hloc⟩ := h
  have hA := findLocF_sound (hw.at 1) hf cs path.dropLast 0
  unfold setElementF
  simp only [hl, hi, hk]
  rw [hloc] at hA ⊢
  generalize findLocF cs path.dropLast (os2.at 1) f.render 0 = y at hA ⊢
  cases hA with
  | some h =>
    cases valueToXML value with
    | none => rfl
    | some v => simp only; rw [replaceAttribute_same h]

theorem writeAttrs_order {m1 m2 : Attrs} (h : m1.Perm m2) : ∃ as bs : List Attr, as.Perm bs ∧ writeAttrs m1 = as.flatMap Attr.render ∧ writeAttrs m2 = bs.flatMap Attr.render :=
  ⟨_, _, h.map canonAttr, writeAttrs_eq m1, writeAttrs_eq m2⟩

/-- Two runs end alike. -/
theorem OneSpot.edit {F : Visits → BRes} (h : OneSpot F) (xml : Bytes) {os1 os2 : Visits} (hw : Wides os1 os2) : SameEdit (finish xml (F os1)) (finish xml (F os2)) := by
  cases h with
  | never r h =>
    rw [h os1 hw.w1, h os2 hw.w2]
    cases r with
    | panic => exact .panic
    | err e => exact .ret _ (.same _)
    | ok r => exact .ret _ (.same _)
  | once pre n post key m h =>
    obtain ⟨t1, m1, p1, h1⟩ := h os1 hw.w1
    obtain ⟨t2, m2, p2, h2⟩ := h os2 hw.w2
    have hp : (os1 t1 key m1).Perm (os2 t2 key m2) := ((hw.w1 t1) key m1).trans (p1.trans (p2.symm.trans ((hw.w2 t2) key m2).symm))
    obtain ⟨as, bs, hab, e1, e2⟩ := writeAttrs_order hp
    rw [h1, h2, e1, e2]
    have hne : ∀ z, getResult xml (pre ++ b!"<" ++ n ++ z ++ post) = pre ++ b!"<" ++ n ++ z ++ post := fun z => by simp [getResult]
    simp only [finish, hne]
    exact .ret none (.order pre n post as bs hab)

/-! ### one order for all visits -/

theorem const_subE (o : Ord) (t : Nat) (e : Elem) : (Visits.const o).sub t e = Visits.const o := rfl
theorem const_at (o : Ord) (t : Nat) : (Visits.const o).at t = Visits.const o := rfl
theorem const_hereE (o : Ord) : (Visits.const o).here = o := rfl

theorem findLoc_fresh (o : Ord) (cs : Bool) : ∀ (ss : List Seg) (data : Bytes) (base : Int), findLocF cs ss (Visits.const o) data base = findLoc o cs ss data base
  | [], _, _ => by rw [findLocF, findLoc]
  | [cur], _, _ => by rw [findLocF, findLoc]; rfl
  | cur :: nxt :: rest2, data, base => by
    have h1 := findLoc_fresh o cs (nxt :: rest2)
    have h2 := findLoc_fresh o cs rest2
    rw [findLocF, findLoc]
    simp only [const_subE, const_hereE, h1, h2]
    cases nxt.kind <;> rfl
termination_by ss => ss.length

theorem deepestParent_fresh (o : Ord) (cs : Bool) (data : Bytes) (path : List Seg) (n : Nat) : deepestParentF (Visits.const o) cs data path n = deepestParent o cs data path n := by
  induction n with
  | zero => rfl
  | succ i ih => rw [deepestParentF, deepestParent]; simp only [const_at, findLoc_fresh, ih]; cases findLoc o cs (path.take (i + 1)) data 0 <;> rfl

theorem createInRoot_fresh (o : Ord) (indent data : Bytes) (path : List Seg) (v : Bytes) : createInRootF (Visits.const o) indent data path v = createInRoot o indent data path v := by
  cases path <;> rfl

theorem createElement_fresh (o : Ord) (cs : Bool) (indent data : Bytes) (path : List Seg) (v : Bytes) :
    createElementF (Visits.const o) cs indent data path v = createElement o cs indent data path v := by
  unfold createElementF createElement
  simp only [const_at, const_hereE, deepestParent_fresh, createInRoot_fresh]
  rcases deepestParent o cs data path (path.length - 1) with _ | ⟨i, l⟩ <;> rfl

theorem createElementForAttribute_fresh (o : Ord) (cs : Bool) (indent data : Bytes) (path : List Seg) (a v : Bytes) :
    createElementForAttributeF (Visits.const o) cs indent data path a v = createElementForAttribute o cs indent data path a v := by
  unfold createElementForAttributeF createElementForAttribute
  simp only [const_at, createElement_fresh, findLoc_fresh]
  cases createElement o cs indent data path [] <;> rfl

theorem appendElement_fresh (o : Ord) (cs : Bool) (indent data : Bytes) (path : List Seg) (v : Bytes) :
    appendElementF (Visits.const o) cs indent data path v = appendElement o cs indent data path v := by
  unfold appendElementF appendElement
  simp only [const_at, const_hereE, createElement_fresh, findLoc_fresh]
  cases path.getLast? with
  | none => rfl
  | some s => simp only; cases s.kind <;> rfl

theorem setElement_fresh (o : Ord) (cs : Bool) (indent data : Bytes) (path : List Seg) (value : GoVal) :
    setElementF (Visits.const o) cs indent data path value = setElement o cs indent data path value := by
  unfold setElementF setElement
  simp only [const_at, createElement_fresh, createElementForAttribute_fresh, appendElement_fresh, findLoc_fresh]
  cases path.getLast? with
  | none => rfl
  | some s =>
    cases valueToXML value with
    | none => rfl
    | some v => rcases indexIntent path with _ | (_ | _) <;> simp only <;> cases s.kind <;> rfl

theorem deleteElement_fresh (o : Ord) (cs : Bool) (data : Bytes) (path : List Seg) : deleteElementF (Visits.const o) cs data path = deleteElement o cs data path := by
  unfold deleteElementF deleteElement
  simp only [findLoc_fresh]
  cases path.getLast? with
  | none => rfl
  | some s => simp only; cases s.kind <;> rfl

/-- Set at an attribute, where the document with the new element, if one is made, is again of the class. -/
theorem setElementF_attr {f : Forest} (hf : Sound f) (cs : Bool) (indent : Bytes) (path : List Seg) (value : GoVal) {last : Seg} {a : Bytes}
    (hl : path.getLast? = some last) (hk : last.kind = .attr a) (hi : indexIntent path = none)
    (hmid : ∀ o : Ord, o.IsPerm → findLoc o cs path.dropLast f.render 0 = none → ∀ r, createElement o cs indent f.render path.dropLast [] = .ok r →
      ¬ (getResult f.render r).length > maxDocumentSize → ∃ g, Sound g ∧ getResult f.render r = g.render)
    {os : Visits} (hos : os.IsPerm) : ∃ o : Ord, o.IsPerm ∧ setElementF os cs indent f.render path value = setElementF (Visits.const o) cs indent f.render path value := by
  cases hloc : findLocF cs path.dropLast (os.at 1) f.render 0 with
  | some l => exact ⟨fun _ as => as, fun _ _ => .refl _, setElementF_found ⟨hos, plain_perm⟩ hf cs indent path value hl hk ⟨l, hloc⟩ hi⟩
  | none =>
    obtain ⟨o, ho, hcr⟩ := ((createElementF_spot hf cs indent path.dropLast []).at 0 |>.at 2).one hos
    refine ⟨o, ho, ?_⟩
    simp only [const_at] at hcr
    have hw : Wides os (Visits.const o) := ⟨hos, fun _ => ho⟩
    have hA := findLocF_sound (hw.at 1) hf cs path.dropLast 0
    rw [hloc] at hA
    have hloc2 : findLocF cs path.dropLast (Visits.const o) f.render 0 = none := by
      rw [const_at] at hA
      generalize findLocF cs path.dropLast (Visits.const o) f.render 0 = y at hA ⊢
      cases hA; rfl
    unfold setElementF
    simp only [hl, hi, hk, const_at, hloc, hloc2]
    cases valueToXML value with
    | none => rfl
    | some v =>
      simp only
      split
      · rfl
      · split
        · rfl
        · unfold createElementForAttributeF
          simp only [const_at]
          rw [hcr]
          cases hc : createElementF (Visits.const o) cs indent f.render path.dropLast [] with
          | panic => rfl
          | err e => rfl
          | ok r =>
            simp only
            split
            · rfl
            · rename_i hlen
              obtain ⟨g, hg, hgr⟩ := hmid o ho (by rw [← findLoc_fresh]; exact hloc2) r (by rw [← createElement_fresh]; exact hc) hlen
              rw [hgr]
              have hB := findLocF_sound ((hw.at 2).at 1) hg cs path.dropLast 0
              simp only [const_at] at hB
              generalize findLocF cs path.dropLast ((os.at 2).at 1) g.render 0 = x at hB ⊢
              generalize findLocF cs path.dropLast (Visits.const o) g.render 0 = y at hB ⊢
              cases hB with
              | none => rfl
              | some h => exact replaceAttribute_same h _ _ _ _

end Verif
