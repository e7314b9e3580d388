import Verif.Spec.Dict
import Verif.Props.Labels
/- Facts about nested dictionaries as documents (for C72). -/
namespace Verif.Props
open Verif Verif.Spec

/-! ### the order of names -/

theorem lt_lexBefore {a b : Bytes} : a < b ↔ LexBefore a b := by
  constructor
  · intro (h : List.Lex (· < ·) a b)
    induction h with
    | nil => exact .nil _ _
    | rel h => exact .head _ _ h
    | cons _ ih => exact .tail _ ih
  · intro h
    show List.Lex (· < ·) a b
    induction h with
    | nil y ys => exact .nil
    | head xs ys h => exact .rel h
    | tail x _ ih => exact .cons ih

theorem lt_total {a b : Bytes} (h1 : a ≠ b) (h2 : ¬ a < b) : b < a := by
  rw [lt_lexBefore] at *
  induction a generalizing b with
  | nil => cases b with
    | nil => exact absurd rfl h1
    | cons y b => exact absurd (.nil y b) h2
  | cons x a ih =>
    cases b with
    | nil => exact .nil x a
    | cons y b =>
      by_cases hxy : x = y
      · subst hxy
        exact .tail x (ih (fun h => h1 (by rw [h])) (fun h => h2 (.tail x h)))
      · by_cases hlt : x < y
        · exact absurd (.head a b hlt) h2
        · refine .head b a ?_
          rw [UInt8.lt_iff_toNat_lt] at hlt ⊢
          have : x.toNat ≠ y.toNat := fun h => hxy (UInt8.toNat_inj.mp h)
          omega

theorem lt_trans' {a b c : Bytes} (h1 : a < b) (h2 : b < c) : a < c := List.lt_trans h1 h2

/-! ### labels -/

/-- A label as an attribute. -/
def labelAttr (a : Bytes × Bytes) : Attr := ⟨b!" ", a.1, [], [], c!"\"", escapeXML a.2⟩

theorem labelAttr_render (a : Bytes × Bytes) : (labelAttr a).render = b!" " ++ a.1 ++ b!"=\"" ++ escapeXML a.2 ++ b!"\"" := by
  simp [labelAttr, Attr.render]

theorem labels_names (as : List (Bytes × Bytes)) : (as.map labelAttr).map (·.name) = as.map (·.1) := by
  rw [List.map_map]; rfl

theorem labels_neat {as : List (Bytes × Bytes)} (h : LabelsFine as) : Neat (as.map labelAttr) := by
  constructor
  · intro a ha
    obtain ⟨b, -, rfl⟩ := List.mem_map.mp ha
    exact ⟨rfl, rfl, rfl, rfl, _, rfl⟩
  · rw [labels_names]
    exact h.sorted.imp (fun h1 h2 => by subst h2; exact List.lt_irrefl _ h1)

theorem labels_legal {as : List (Bytes × Bytes)} (h : LabelsFine as) : AttrsLegal (as.map labelAttr) ∧ AttrsFit (as.map labelAttr) := by
  refine ⟨⟨by simpa using h.count, ?_, ?_⟩, ?_⟩
  · intro a ha
    obtain ⟨b, hb, rfl⟩ := List.mem_map.mp ha
    refine ⟨by simp [labelAttr, IsWs], h.names b hb, by simp [labelAttr], by simp [labelAttr], .inl rfl, fun hh => (escapeXML_mem hh).2.2.1 rfl, h.sizes b hb⟩
  · intro a ha
    cases as with
    | nil => cases ha
    | cons b as => simp only [List.map_cons, List.head?_cons, Option.some.injEq] at ha; subst ha; simp [labelAttr]
  · intro a ha
    obtain ⟨b, hb, rfl⟩ := List.mem_map.mp ha
    simp only [labelAttr, unescape_escape]
    exact h.sizes b hb

/-! ### dictionaries as forests -/

/-- One dictionary after the other. -/
def _root_.Verif.Spec.Dict.append : Dict → Dict → Dict
  | .nil, y => y
  | .entry n as s k r, y => .entry n as s k (r.append y)

/-- An entry in front of others. -/
def slotCons (n : Bytes) (x : Slot) (r : Dict) : Dict := .entry n x.labels x.text x.kids r

def slotCons? (n : Bytes) (x : Option Slot) (r : Dict) : Dict := match x with
  | none => r
  | some x => slotCons n x r

/-- The dictionary as a forest. -/
def _root_.Verif.Spec.Dict.forest : Dict → Forest
  | .nil => .nil
  | .entry n as s k r => .node n (as.map labelAttr) [] (.text (escapeXML s) k.forest) [] r.forest

/-- An entry as an element. -/
def slotEl (n : Bytes) (x : Slot) : El := ⟨n, x.labels.map labelAttr, [], some (.text (escapeXML x.text) x.kids.forest, [])⟩

theorem forest_render (d : Dict) : d.forest.render = d.render := by
  induction d with
  | nil => rfl
  | entry n as s k r ihk ihr =>
    have : (as.map labelAttr).flatMap Attr.render = as.flatMap (fun a => b!" " ++ a.1 ++ b!"=\"" ++ escapeXML a.2 ++ b!"\"") := by
      rw [List.flatMap_map]; simp only [labelAttr_render]
    simp only [Dict.forest, Forest.render, Dict.render, openTag, closeTag, this, ihk, ihr]
    simp

theorem forest_append (x y : Dict) : (x.append y).forest = x.forest.append y.forest := by
  induction x with
  | nil => rfl
  | entry n as s k r _ ih => simp [Dict.append, Dict.forest, Forest.append, ih]

theorem dict_append_render (x y : Dict) : (x.append y).render = x.render ++ y.render := by
  rw [← forest_render, forest_append, append_render, forest_render, forest_render]

theorem slotCons_forest (n : Bytes) (x : Slot) (r : Dict) : (slotCons n x r).forest = (slotEl n x).cons r.forest := rfl

theorem slotCons_render (n : Bytes) (x : Slot) (r : Dict) : (slotCons n x r).render = (slotEl n x).render ++ r.render := by
  rw [← forest_render, slotCons_forest, cons_render, forest_render]

theorem get_some_split {n : Bytes} {x : Slot} {d : Dict} (h : d.get n = some x) :
    ∃ b a : Dict, d = b.append (slotCons n x a) ∧ b.get n = none ∧ ∀ f, d.alter n f = b.append (slotCons? n (f (some x)) a) := by
  induction d with
  | nil => cases h
  | entry m as s k r _ ih =>
    rw [Dict.get] at h
    by_cases hm : m = n
    · subst hm
      rw [if_pos rfl, Option.some.injEq] at h
      subst h
      refine ⟨.nil, r, rfl, rfl, fun f => ?_⟩
      rw [Dict.alter, if_pos rfl]
      simp only [Dict.append]
      cases f (some ⟨as, s, k⟩) <;> rfl
    · rw [if_neg hm] at h
      obtain ⟨b, a, h1, h2, h3⟩ := ih h
      refine ⟨.entry m as s k b, a, by rw [h1]; rfl, by rw [Dict.get, if_neg hm]; exact h2, fun f => ?_⟩
      rw [Dict.alter, if_neg hm, h3]; rfl

theorem get_none_split {n : Bytes} {d : Dict} (h : d.get n = none) (f : Option Slot → Option Slot) : d.alter n f = d.append (slotCons? n (f none) .nil) := by
  induction d with
  | nil =>
    rw [Dict.alter]
    cases f none <;> rfl
  | entry m as s k r _ ih =>
    rw [Dict.get] at h
    by_cases hm : m = n
    · rw [if_pos hm] at h; cases h
    · rw [if_neg hm] at h
      rw [Dict.alter, if_neg hm, ih h]; rfl

theorem fine_append {d : Nat} {x y : Dict} (h : (x.append y).Fine d) : x.Fine d ∧ y.Fine d ∧ ∀ n, (x.append y).get n = (x.get n).or (y.get n) := by
  induction x with
  | nil => exact ⟨trivial, h, fun n => rfl⟩
  | entry m as s k r _ ih =>
    obtain ⟨h1, h2, h3, h4, h5, h6⟩ := h
    obtain ⟨i1, i2, i3⟩ := ih h6
    refine ⟨⟨h1, h2, h3, h4, ?_, i1⟩, i2, fun n => ?_⟩
    · have := i3 m
      change (r.append y).get m = none at h5
      rw [h5] at this
      cases hr : r.get m with
      | none => rfl
      | some x => rw [hr] at this; cases this
    · simp only [Dict.append, Dict.get]
      split
      · rfl
      · exact i3 n

theorem fine_good {d : Nat} {x : Dict} (h : x.Fine d) (t : Bool) : x.forest.Legal d ∧ x.forest.Tame t ∧ x.forest.Even ∧ x.forest.Stable := by
  induction x generalizing d t with
  | nil => exact ⟨trivial, trivial, trivial, trivial⟩
  | entry n as s k r ihk ihr =>
    obtain ⟨h1, h2, h3, h4, -, h6⟩ := h
    obtain ⟨k1, k2, k3, -⟩ := ihk h4 false
    obtain ⟨r1, r2, r3, r4⟩ := ihr h6 t
    obtain ⟨l1, l2⟩ := labels_legal h3
    have hn := neat_even (labels_neat h3)
    exact ⟨⟨h1.1, l1, by simp, h2, ⟨C20_no_markup s, by simp, k1⟩, by simp, r1⟩, ⟨l2, by simpa using h1.1.2.2, k2, r2⟩, ⟨hn, rfl, k3, r3⟩, ⟨rfl, k3, r4⟩⟩

theorem dict_editable {x : Dict} (h : x.Fine 0) (h0 : x ≠ .nil) (hs : x.render.length ≤ 10485760) : Editable (.text [] x.forest) := by
  obtain ⟨h1, h2, -, h4⟩ := fine_good h true
  refine ⟨by simpa [Forest.render, forest_render] using hs, ⟨by simp, by simp, h1⟩, h2, ?_, h4⟩
  cases x with
  | nil => exact absurd rfl h0
  | entry => trivial

/-! ### names -/

theorem simple_matches {n m : Bytes} (hn : Simple n) (hm : Simple m) : nameMatches n m = decide (n = m) := by
  simp [nameMatches, splitNamespace_noColon n hn.2, splitNamespace_noColon m hm.2]

theorem slotCons_named {n : Bytes} (hn : Simple n) {m : Bytes} (hm : Simple m) (x : Slot) (f : Forest) :
    ((slotEl m x).cons f).info.named n = if m = n then (slotEl m x).node :: f.info.named n else f.info.named n := by
  have : ((slotEl m x).cons f).info.elems = (slotEl m x).node :: f.info.elems := rfl
  rw [Info.named, this, List.filter_cons]
  have e : nameMatches n (slotEl m x).node.name = decide (n = m) := simple_matches hn hm
  rw [e]
  by_cases h : m = n
  · subst h; simp [Info.named]
  · rw [if_neg h, if_neg (by simpa using fun hh => h hh.symm)]; rfl

theorem dict_named {n : Bytes} (hn : Simple n) {d : Nat} {x : Dict} (h : x.Fine d) (t : Bytes) :
    (Forest.text t x.forest).info.named n = ((x.get n).map (fun y => (slotEl n y).node)).toList := by
  have key : x.forest.info.named n = ((x.get n).map (fun y => (slotEl n y).node)).toList := by
    induction x with
    | nil => rfl
    | entry m as s k r _ ih =>
      obtain ⟨h1, h2, h3, h4, h5, h6⟩ := h
      have := slotCons_named hn h1 ⟨as, s, k⟩ r.forest
      rw [show Dict.forest (.entry m as s k r) = (slotEl m ⟨as, s, k⟩).cons r.forest from rfl, this, Dict.get, ih h6]
      by_cases hm : m = n
      · subst hm; rw [if_pos rfl, if_pos rfl, h5]; rfl
      · rw [if_neg hm, if_neg hm]
  exact key

/-! ### the way to an entry -/

theorem find_some {n m : Bytes} {ns : List Bytes} {d : Dict} {y : Slot} (h : d.find (n :: m :: ns) = some y) :
    ∃ x, d.get n = some x ∧ x.kids.find (m :: ns) = some y := by
  rw [Dict.find] at h
  · exact Option.bind_eq_some_iff.mp h
  · simp

theorem change_cons (n m : Bytes) (ns : List Bytes) (f : Option Slot → Option Slot) (d : Dict) : d.change (n :: m :: ns) f = d.alter n (fun
    | some x => some { x with kids := x.kids.change (m :: ns) f }
    | none => if Dict.nil.change (m :: ns) f = .nil then none else some { kids := Dict.nil.change (m :: ns) f }) := by
  rw [Dict.change]
  · congr 1
  · intro hh; cases hh

/-- The context of an entry. -/
theorem dict_leads {ns : List Bytes} (hns : ∀ n ∈ ns, Simple n) {d : Nat} {x : Dict} (h : x.Fine d) {y : Slot} (hf : x.find ns = some y) (t : Bytes) :
    ∃ c n, Leads (firsts ns) c n ∧ c.plug ((slotEl n y).cons .nil) = .text t x.forest ∧ c.depth + 1 = ns.length ∧ y.kids.Fine (d + ns.length) ∧ LabelsFine y.labels ∧
      (∀ z, c.before ++ (slotEl n z).render ++ c.after = t ++ (x.change ns (fun _ => some z)).render) ∧
      c.before ++ c.after = t ++ (x.change ns (fun _ => none)).render := by
  induction ns generalizing x d t with
  | nil => cases hf
  | cons n ns ih =>
    have hn := hns n (by simp)
    cases ns with
    | nil =>
      obtain ⟨b, a, rfl, hb, hal⟩ := get_some_split hf
      obtain ⟨f1, f2, -⟩ := fine_append h
      obtain ⟨-, -, fl, fk, -, -⟩ := f2
      have hnm := dict_named hn f1 t
      rw [hb] at hnm
      refine ⟨.here (.text t b.forest) a.forest, n, ⟨nameMatches_self n, by rw [hnm]; rfl⟩, ?_, rfl, fk, fl, fun z => ?_, ?_⟩
      · simp only [Ctx.plug, Forest.append, forest_append, slotCons_forest, cons_append]
      · simp only [Dict.change, hal, slotCons?, dict_append_render, slotCons_render, Ctx.before, Ctx.after, Forest.render, forest_render]
        simp
      · simp only [Dict.change, hal, slotCons?, dict_append_render, Ctx.before, Ctx.after, Forest.render, forest_render]
        simp
    | cons m ns =>
      obtain ⟨x0, hx0, hf2⟩ := find_some hf
      obtain ⟨b, a, rfl, hb, hal⟩ := get_some_split hx0
      obtain ⟨f1, f2, -⟩ := fine_append h
      obtain ⟨-, -, fl, fk, -, -⟩ := f2
      have hnm := dict_named hn f1 t
      rw [hb] at hnm
      obtain ⟨c, e, c1, c2, c3, c4, c5, c6, c7⟩ := ih (fun q hq => hns q (by simp [hq])) fk hf2 (escapeXML x0.text)
      refine ⟨.within (.text t b.forest) n (x0.labels.map labelAttr) [] c [] a.forest, e, ⟨nameMatches_self n, by rw [hnm]; rfl, c1⟩, ?_, ?_, ?_, c5, fun z => ?_, ?_⟩
      · simp only [Ctx.plug, Forest.append, forest_append, slotCons_forest, c2]
        rfl
      · simp [Ctx.depth, ← c3]
      · have : d + (n :: m :: ns).length = d + 1 + (m :: ns).length := by simp; omega
        rw [this]; exact c4
      · have := c6 z
        simp only [List.append_assoc] at this
        simp only [change_cons, hal, slotCons?, dict_append_render, slotCons_render, Ctx.before, Ctx.after, Forest.render, forest_render, List.append_assoc]
        simp only [slotEl, El.render, El.start, El.inner, El.stop, Forest.render, forest_render, Option.isNone_some]
        simp only [Bool.false_eq_true, if_false, List.append_assoc, ← this]
        simp [slotEl, El.render, El.start, El.inner, El.stop, Forest.render, forest_render]
      · simp only [change_cons, hal, slotCons?, dict_append_render, slotCons_render, Ctx.before, Ctx.after, Forest.render, forest_render, List.append_assoc]
        simp only [slotEl, El.render, El.start, El.inner, El.stop, Forest.render, forest_render, Option.isNone_some]
        simp only [Bool.false_eq_true, if_false, List.append_assoc, ← c7]

theorem find_nil (ns : List Bytes) : Dict.nil.find ns = none := by
  cases ns with
  | nil => rfl
  | cons n ns => cases ns <;> rfl

theorem find_cons (n m : Bytes) (ns : List Bytes) (d : Dict) : d.find (n :: m :: ns) = (d.get n).bind (fun x => x.kids.find (m :: ns)) := by
  rw [Dict.find]; simp

/-- Only what is there matters for the change. -/
theorem change_const (ns : List Bytes) (f : Option Slot → Option Slot) (d : Dict) : d.change ns f = d.change ns (fun _ => f (d.find ns)) := by
  induction ns generalizing d with
  | nil => rfl
  | cons n ns ih =>
    cases ns with
    | nil =>
      simp only [Dict.change, Dict.find]
      cases hg : d.get n with
      | none => rw [get_none_split hg, get_none_split hg]
      | some x => obtain ⟨b, a, -, -, h⟩ := get_some_split hg; rw [h, h]
    | cons m ns =>
      rw [change_cons, change_cons, find_cons]
      cases hg : d.get n with
      | none =>
        rw [get_none_split hg, get_none_split hg]
        have := ih .nil
        rw [find_nil] at this
        simp only [this, Option.bind_none]
      | some x =>
        obtain ⟨b, a, -, -, h⟩ := get_some_split hg
        rw [h, h]
        simp only [Option.bind_some]
        rw [ih x.kids]

theorem change_append {ns : List Bytes} {d : Dict} {y : Slot} (h : d.find ns = some y) (m : Bytes) (ks : List Bytes) (f : Option Slot → Option Slot) :
    d.change (ns ++ m :: ks) f = d.change ns (fun _ => some { y with kids := y.kids.change (m :: ks) f }) := by
  induction ns generalizing d with
  | nil => cases h
  | cons n ns ih =>
    cases ns with
    | nil =>
      simp only [Dict.find] at h
      rw [List.singleton_append, change_cons]
      obtain ⟨b, a, -, -, h1⟩ := get_some_split h
      rw [Dict.change, h1, h1]
    | cons q ns =>
      obtain ⟨x, hx, h⟩ := find_some h
      rw [List.cons_append, List.cons_append, change_cons, change_cons]
      obtain ⟨b, a, -, -, h1⟩ := get_some_split hx
      rw [h1, h1]
      simp only
      rw [← List.cons_append, ih h]

theorem change_new {d : Dict} {m : Bytes} (h : d.get m = none) (ks : List Bytes) (f : Option Slot → Option Slot) : d.change (m :: ks) f = d.append (Dict.nil.change (m :: ks) f) := by
  cases ks with
  | nil => simp only [Dict.change]; rw [get_none_split h, get_none_split (d := .nil) rfl]; rfl
  | cons k ks => rw [change_cons, change_cons, get_none_split h, get_none_split (d := .nil) rfl]; rfl

/-- What is added. -/
theorem change_fresh (m : Bytes) (ks : List Bytes) (w : Bytes) :
    Dict.nil.change (m :: ks) (fun _ => some { text := w }) ≠ .nil ∧
    (Dict.nil.change (m :: ks) (fun _ => some { text := w })).render = (chain (m :: ks) (.text (escapeXML w) .nil)).render := by
  induction ks generalizing m with
  | nil => exact ⟨by simp [Dict.change, Dict.alter], by simp [Dict.change, Dict.alter, Dict.render, chain, Forest.render, openTag, closeTag]⟩
  | cons k ks ih =>
    obtain ⟨i1, i2⟩ := ih k
    rw [change_cons, get_none_split (d := .nil) rfl]
    simp only [if_neg i1, slotCons?, slotCons, Dict.append]
    refine ⟨by simp, ?_⟩
    simp only [Dict.render, i2, chain, Forest.render, openTag, closeTag]
    simp [escapeXML]

theorem find_cases {ns : List Bytes} (hne : ns ≠ []) (d : Dict) : (∃ y, d.find ns = some y) ∨ d.find ns = none ∧ ((∃ m ks, ns = m :: ks ∧ d.get m = none) ∨
    ∃ pre m ks y, ns = pre ++ m :: ks ∧ d.find pre = some y ∧ y.kids.get m = none) := by
  induction ns generalizing d with
  | nil => exact absurd rfl hne
  | cons n ns ih =>
    cases ns with
    | nil =>
      cases hg : d.get n with
      | none => exact .inr ⟨hg, .inl ⟨n, [], rfl, hg⟩⟩
      | some y => exact .inl ⟨y, hg⟩
    | cons m ns =>
      rw [find_cons]
      cases hg : d.get n with
      | none => exact .inr ⟨rfl, .inl ⟨n, _, rfl, hg⟩⟩
      | some x =>
        rcases ih (by simp) x.kids with ⟨y, hy⟩ | ⟨h0, ⟨m', ks, h1, h2⟩ | ⟨pre, m', ks, y, h1, h2, h3⟩⟩
        · exact .inl ⟨y, hy⟩
        · exact .inr ⟨h0, .inr ⟨[n], m', ks, x, by rw [h1]; rfl, hg, h2⟩⟩
        · refine .inr ⟨h0, .inr ⟨n :: pre, m', ks, y, by rw [h1]; rfl, ?_, h3⟩⟩
          cases pre with
          | nil => cases h2
          | cons p pre => rw [find_cons, hg]; exact h2

theorem follow_find_none {ns : List Bytes} (hns : ∀ n ∈ ns, Simple n) {d : Nat} {x : Dict} (h : x.Fine d) (hf : x.find ns = none) (t : Bytes) :
    (Forest.text t x.forest).info.follow (firsts ns) = none := by
  induction ns generalizing x d t with
  | nil => rfl
  | cons n ns ih =>
    have hnm := dict_named (hns n (by simp)) h t
    cases ns with
    | nil =>
      simp only [Dict.find] at hf
      rw [hf] at hnm
      simp only [firsts, List.map_cons, List.map_nil, Info.follow, hnm]; rfl
    | cons m ns =>
      rw [find_cons] at hf
      simp only [firsts, List.map_cons, Info.follow, hnm]
      cases hg : x.get n with
      | none => rfl
      | some y =>
        rw [hg] at hf
        obtain ⟨b, a, rfl, -, -⟩ := get_some_split hg
        obtain ⟨-, f2, -⟩ := fine_append h
        obtain ⟨-, -, -, fk, -, -⟩ := f2
        exact ih (fun q hq => hns q (by simp [hq])) fk hf (escapeXML y.text)

/-! ### what stays in order -/

/-- An entry within the limits. -/
structure SlotFine (d : Nat) (x : Slot) : Prop where
  labels : LabelsFine x.labels
  kids : x.kids.Fine (d + 1)

theorem labelsFine_nil : LabelsFine [] := ⟨by simp, by simp, by simp, by simp⟩

theorem fine_slot {d : Nat} {n : Bytes} {x : Slot} {x0 : Dict} (h : x0.Fine d) (hg : x0.get n = some x) : SlotFine d x := by
  obtain ⟨b, a, rfl, -, -⟩ := get_some_split hg
  obtain ⟨-, f2, -⟩ := fine_append h
  exact ⟨f2.2.2.1, f2.2.2.2.1⟩

theorem alter_get_ne {n m : Bytes} (hm : m ≠ n) (f : Option Slot → Option Slot) (d : Dict) : (d.alter n f).get m = d.get m := by
  induction d with
  | nil =>
    rw [Dict.alter]
    cases f none with
    | none => rfl
    | some x => simp only [Dict.get, if_neg (Ne.symm hm)]
  | entry q as s k r _ ih =>
    rw [Dict.alter]
    by_cases hq : q = n
    · subst hq
      rw [if_pos rfl]
      cases f (some ⟨as, s, k⟩) <;> simp only [Dict.get, if_neg (Ne.symm hm)]
    · rw [if_neg hq, Dict.get, Dict.get, ih]

theorem fine_alter {d : Nat} {n : Bytes} (hn : Simple n) (hd : d < 100) {f : Option Slot → Option Slot} {x : Dict} (h : x.Fine d)
    (hf : ∀ y, f (x.get n) = some y → SlotFine d y) : (x.alter n f).Fine d := by
  induction x with
  | nil =>
    rw [Dict.alter]
    simp only [Dict.get] at hf
    cases hx : f none with
    | none => trivial
    | some y => have := hf y hx; exact ⟨hn, hd, this.labels, this.kids, rfl, trivial⟩
  | entry q as s k r _ ih =>
    obtain ⟨h1, h2, h3, h4, h5, h6⟩ := h
    rw [Dict.get] at hf
    rw [Dict.alter]
    by_cases hq : q = n
    · subst hq
      rw [if_pos rfl] at hf ⊢
      cases hx : f (some ⟨as, s, k⟩) with
      | none => exact h6
      | some y => have := hf y hx; exact ⟨h1, h2, this.labels, this.kids, h5, h6⟩
    · rw [if_neg hq] at hf ⊢
      exact ⟨h1, h2, h3, h4, by rw [alter_get_ne hq]; exact h5, ih h6 hf⟩

theorem fine_change {ns : List Bytes} (hns : ∀ n ∈ ns, Simple n) {d : Nat} (hd : d + ns.length ≤ 100) {f : Option Slot → Option Slot} {x : Dict} (h : x.Fine d)
    (hf : ∀ y, f (x.find ns) = some y → SlotFine (d + ns.length - 1) y) : (x.change ns f).Fine d := by
  induction ns generalizing x d with
  | nil => exact h
  | cons n ns ih =>
    cases ns with
    | nil => exact fine_alter (hns n (by simp)) (by simp at hd; omega) h hf
    | cons m ns =>
      rw [find_cons] at hf
      rw [change_cons]
      simp only [List.length_cons] at hd hf
      refine fine_alter (hns n (by simp)) (by omega) h (fun y hy => ?_)
      cases hg : x.get n with
      | none =>
        rw [hg] at hy hf
        simp only at hy
        split at hy
        · cases hy
        · simp only [Option.some.injEq] at hy
          subst hy
          refine ⟨labelsFine_nil, ih (fun q hq => hns q (by simp [hq])) (by simp; omega) trivial (fun y hy => ?_)⟩
          rw [find_nil] at hy
          have := hf y hy
          rwa [show d + 1 + (m :: ns).length - 1 = d + (ns.length + 1 + 1) - 1 by simp; omega]
      | some z =>
        rw [hg] at hy hf
        simp only [Option.some.injEq] at hy
        subst hy
        have hz := fine_slot h hg
        refine ⟨hz.labels, ih (fun q hq => hns q (by simp [hq])) (by simp; omega) hz.kids (fun y hy => ?_)⟩
        have := hf y hy
        rwa [show d + 1 + (m :: ns).length - 1 = d + (ns.length + 1 + 1) - 1 by simp; omega]

theorem find_fine {ns : List Bytes} {d : Nat} {x : Dict} (h : x.Fine d) {y : Slot} (hf : x.find ns = some y) : SlotFine (d + ns.length - 1) y := by
  induction ns generalizing x d with
  | nil => cases hf
  | cons n ns ih =>
    cases ns with
    | nil => exact fine_slot h hf
    | cons m ns =>
      obtain ⟨x0, h1, h2⟩ := find_some hf
      have := ih (fine_slot h h1).kids h2
      rwa [show d + (n :: m :: ns).length - 1 = d + 1 + (m :: ns).length - 1 by simp; omega]

/-! ### labels that change -/

theorem putLabel_mem {k v : Bytes} {as : List (Bytes × Bytes)} {a : Bytes × Bytes} (h : a ∈ putLabel k v as) : a = (k, v) ∨ a ∈ as := by
  induction as with
  | nil => simpa [putLabel] using h
  | cons b as ih =>
    obtain ⟨j, u⟩ := b
    rw [putLabel] at h
    split at h
    · rcases List.mem_cons.mp h with h | h
      · exact .inl h
      · exact .inr (by simp [h])
    · split at h
      · rcases List.mem_cons.mp h with h | h
        · exact .inl h
        · exact .inr h
      · rcases List.mem_cons.mp h with h | h
        · exact .inr (by simp [h])
        · rcases ih h with h | h
          · exact .inl h
          · exact .inr (by simp [h])

theorem putLabel_fine {k v : Bytes} {as : List (Bytes × Bytes)} (h : LabelsFine as) (hk : IsName k) (hv : (escapeXML v).length ≤ 1048576) (hl : (putLabel k v as).length ≤ 100) :
    LabelsFine (putLabel k v as) := by
  refine ⟨hl, fun a ha => ?_, fun a ha => ?_, ?_⟩
  · rcases putLabel_mem ha with rfl | ha
    · exact hk
    · exact h.names a ha
  · rcases putLabel_mem ha with rfl | ha
    · exact hv
    · exact h.sizes a ha
  · have hs := h.sorted
    clear h hl
    induction as with
    | nil => simp [putLabel]
    | cons b as ih =>
      obtain ⟨j, u⟩ := b
      rw [List.map_cons, List.pairwise_cons] at hs
      rw [putLabel]
      split
      · rename_i hj
        subst hj
        rw [List.map_cons, List.pairwise_cons]; exact hs
      · rename_i hj
        split
        · rename_i hlt
          rw [List.map_cons, List.map_cons, List.pairwise_cons, List.pairwise_cons]
          refine ⟨fun a ha => ?_, hs⟩
          rcases List.mem_cons.mp ha with rfl | ha
          · exact hlt
          · exact lt_trans' hlt (hs.1 a ha)
        · rename_i hlt
          rw [List.map_cons, List.pairwise_cons]
          refine ⟨fun a ha => ?_, ih hs.2⟩
          obtain ⟨b, hb, rfl⟩ := List.mem_map.mp ha
          rcases putLabel_mem hb with rfl | hb
          · exact lt_total (Ne.symm hj) hlt
          · exact hs.1 _ (List.mem_map_of_mem hb)

theorem filter_fine {as : List (Bytes × Bytes)} (h : LabelsFine as) (p : Bytes × Bytes → Bool) : LabelsFine (as.filter p) :=
  ⟨Nat.le_trans (List.length_filter_le _ _) h.count, fun a ha => h.names a (List.mem_filter.mp ha).1, fun a ha => h.sizes a (List.mem_filter.mp ha).1,
    h.sorted.sublist ((List.filter_sublist).map _)⟩

theorem labels_val {as : List (Bytes × Bytes)} (h : LabelsFine as) (k : Bytes) : attrVal (as.map labelAttr) k = labelOf? k as := by
  have hn := (labels_neat h).2
  cases hf : as.find? (fun a => a.1 = k) with
  | none =>
    rw [labelOf?, hf]
    refine Classical.byContradiction (fun hh => ?_)
    have := (attrVal_iff _ _).mp hh
    rw [labels_names] at this
    obtain ⟨a, ha, rfl⟩ := List.mem_map.mp this
    have := List.find?_eq_none.mp hf a ha
    simp at this
  | some a =>
    have ha := List.mem_of_find?_eq_some hf
    have hk : a.1 = k := by simpa using List.find?_some hf
    have := attrVal_once hn (List.mem_map_of_mem (f := labelAttr) ha)
    rw [labelOf?, hf, ← hk]
    rw [show (labelAttr a).name = a.1 from rfl] at this
    rw [this]
    simp [labelAttr, unescape_escape]

theorem putLabel_val (k v : Bytes) (as : List (Bytes × Bytes)) (j : Bytes) : labelOf? j (putLabel k v as) = if j = k then some v else labelOf? j as := by
  induction as with
  | nil =>
    by_cases h : j = k
    · subst h; simp [putLabel, labelOf?]
    · simp [putLabel, labelOf?, h, Ne.symm h]
  | cons b as ih =>
    obtain ⟨i, u⟩ := b
    simp only [labelOf?] at ih
    by_cases h : j = k
    · subst h
      rw [if_pos rfl] at ih ⊢
      rw [putLabel]
      split
      · simp [labelOf?]
      · rename_i hi
        split
        · simp [labelOf?]
        · simp only [labelOf?, List.find?_cons, hi, decide_false]; exact ih
    · rw [if_neg h] at ih ⊢
      have hk : ¬ k = j := fun hh => h hh.symm
      rw [putLabel]
      split
      · rename_i hi
        subst hi
        simp [labelOf?, hk]
      · split
        · simp [labelOf?, List.find?_cons, hk]
        · simp only [labelOf?, List.find?_cons]
          split
          · rfl
          · exact ih

theorem filter_val (k : Bytes) (as : List (Bytes × Bytes)) (j : Bytes) : labelOf? j (as.filter (fun a => a.1 ≠ k)) = if j = k then none else labelOf? j as := by
  induction as with
  | nil => simp [labelOf?]
  | cons b as ih =>
    obtain ⟨i, u⟩ := b
    simp only [labelOf?] at ih ⊢
    rw [List.filter_cons]
    by_cases hi : i = k
    · subst hi
      rw [if_neg (by simp), ih]
      by_cases h : j = i
      · rw [if_pos h, if_pos h]
      · rw [if_neg h, if_neg h, List.find?_cons, show decide (i = j) = false by simpa using Ne.symm h]
    · rw [if_pos (by simpa using hi), List.find?_cons, List.find?_cons]
      by_cases h : i = j
      · subst h; simp [hi]
      · simp only [h, decide_false]; exact ih

theorem slot_canonical {n : Bytes} {x : Slot} (h : LabelsFine x.labels) : Canonical (slotEl n x) :=
  ⟨labels_neat h, by rw [show (slotEl n x).attrs = x.labels.map labelAttr from rfl, labels_names]; exact h.sorted.imp (fun h => lt_lexBefore.mp h), rfl⟩

/-! ### changes that are none, and changes after each other -/

theorem dict_append_nil (d : Dict) : d.append .nil = d := by
  induction d with
  | nil => rfl
  | entry n as s k r _ ih => rw [Dict.append, ih]

theorem change_self {ns : List Bytes} {d : Dict} {y : Slot} (h : d.find ns = some y) : d.change ns (fun _ => some y) = d := by
  induction ns generalizing d with
  | nil => rfl
  | cons n ns ih =>
    cases ns with
    | nil =>
      obtain ⟨b, a, h0, -, h1⟩ := get_some_split (show d.get n = some y from h)
      rw [Dict.change, h1]; exact h0.symm
    | cons m ns =>
      obtain ⟨x, hx, h⟩ := find_some h
      obtain ⟨b, a, h0, -, h1⟩ := get_some_split hx
      rw [change_cons, h1]
      simp only [ih h]
      exact h0.symm

theorem change_nil_none (ns : List Bytes) : Dict.nil.change ns (fun _ => none) = .nil := by
  induction ns with
  | nil => rfl
  | cons n ns ih =>
    cases ns with
    | nil => rfl
    | cons m ns => rw [change_cons, Dict.alter]; simp only [ih, if_true]

theorem change_none {ns : List Bytes} (hne : ns ≠ []) {d : Dict} (h : d.find ns = none) {f : Option Slot → Option Slot} (hf : f none = none) : d.change ns f = d := by
  rw [change_const, h, hf]
  rcases find_cases hne d with ⟨y, hy⟩ | ⟨-, ⟨m, ks, rfl, hm⟩ | ⟨pre, m, ks, y, rfl, hp, hm⟩⟩
  · rw [h] at hy; cases hy
  · rw [change_new hm, change_nil_none, dict_append_nil]
  · rw [change_append hp, change_new hm, change_nil_none, dict_append_nil]
    exact change_self hp

theorem alter_alter (n : Bytes) (z : Option Slot → Slot) (f : Option Slot → Option Slot) (d : Dict) :
    (d.alter n (fun o => some (z o))).alter n f = d.alter n (fun o => f (some (z o))) := by
  induction d with
  | nil => simp only [Dict.alter, if_true]
  | entry m as s k r _ ih =>
    rw [Dict.alter, Dict.alter]
    by_cases h : m = n
    · rw [if_pos h, if_pos h]; simp only [Dict.alter, if_pos h]
    · rw [if_neg h, if_neg h, Dict.alter, if_neg h, ih]

theorem change_ne_nil {ns : List Bytes} (hne : ns ≠ []) (z : Slot) (d : Dict) : d.change ns (fun _ => some z) ≠ .nil := by
  have key : ∀ (n : Bytes) (g : Option Slot → Slot) (d : Dict), d.alter n (fun o => some (g o)) ≠ .nil := by
    intro n g d
    cases d with
    | nil => simp [Dict.alter]
    | entry m as s k r => rw [Dict.alter]; split <;> simp
  induction ns generalizing d with
  | nil => exact absurd rfl hne
  | cons n ns ih =>
    cases ns with
    | nil => exact key n (fun _ => z) d
    | cons m ns =>
      rw [change_cons]
      have : (fun o : Option Slot => (match o with
          | some x => some { x with kids := x.kids.change (m :: ns) (fun _ => some z) }
          | none => if Dict.nil.change (m :: ns) (fun _ => some z) = .nil then none else some { kids := Dict.nil.change (m :: ns) (fun _ => some z) })) =
        (fun o => some ({ o.getD {} with kids := (o.getD {}).kids.change (m :: ns) (fun _ => some z) } : Slot)) := by
        funext o
        cases o with
        | none => rw [if_neg (ih (by simp) _)]; rfl
        | some x => rfl
      rw [this]
      exact key _ _ _

theorem change_some (n m : Bytes) (ns : List Bytes) (z : Slot) (d : Dict) : d.change (n :: m :: ns) (fun _ => some z) =
    d.alter n (fun o => some ({ o.getD {} with kids := (o.getD {}).kids.change (m :: ns) (fun _ => some z) } : Slot)) := by
  rw [change_cons]
  congr 1
  funext o
  cases o with
  | none => simp only; rw [if_neg (change_ne_nil (by simp) z _)]; rfl
  | some x => rfl

theorem change_change (ns : List Bytes) (z w : Slot) (f : Option Slot → Option Slot) (hf : f (some z) = some w) (d : Dict) :
    (d.change ns (fun _ => some z)).change ns f = d.change ns (fun _ => some w) := by
  induction ns generalizing d with
  | nil => rfl
  | cons n ns ih =>
    cases ns with
    | nil => simp only [Dict.change]; rw [alter_alter n (fun _ => z), hf]
    | cons m ns =>
      rw [change_some, change_some, change_cons, alter_alter]
      congr 1
      funext o
      simp only [ih]

theorem alter_get (n : Bytes) (f : Option Slot → Option Slot) (z : Slot) (d : Dict) (h : f (d.get n) = some z) : (d.alter n f).get n = some z := by
  induction d with
  | nil => rw [Dict.get] at h; rw [Dict.alter, h]; simp only [Dict.get, if_true]
  | entry m as s k r _ ih =>
    rw [Dict.get] at h
    rw [Dict.alter]
    by_cases hm : m = n
    · rw [if_pos hm] at h ⊢; rw [h]; simp only [Dict.get, if_pos hm]
    · rw [if_neg hm] at h ⊢; rw [Dict.get, if_neg hm, ih h]

theorem change_find {ns : List Bytes} (hne : ns ≠ []) (z : Slot) (d : Dict) : (d.change ns (fun _ => some z)).find ns = some z := by
  induction ns generalizing d with
  | nil => exact absurd rfl hne
  | cons n ns ih =>
    cases ns with
    | nil => exact alter_get n _ z d rfl
    | cons m ns => rw [change_some, find_cons, alter_get n _ _ d rfl]; exact ih (by simp) _

theorem dict_render_nil {d : Dict} : d.render = [] ↔ d = .nil := by
  cases d with
  | nil => exact ⟨fun _ => rfl, fun _ => rfl⟩
  | entry n as s k r => simp [Dict.render]

end Verif.Props
