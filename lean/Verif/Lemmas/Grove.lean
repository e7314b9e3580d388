import Verif.Spec.Grove
import Verif.Lemmas.Dict
/- Facts about trees in which names may repeat, as documents (for C76). -/
namespace Verif.Props
open Verif Verif.Spec

/-! ### entries of one name -/

theorem all_names (n : Bytes) (d : Dict) : d.all n = [] ↔ n ∉ d.names := by
  induction d with
  | nil => simp [Dict.all, Dict.names]
  | entry m as s k r _ ih =>
    by_cases h : m = n
    · simp [Dict.all, Dict.names, h]
    · simp only [Dict.all, Dict.names, if_neg h, ih, List.mem_cons, not_or]
      exact ⟨fun hh => ⟨fun e => h e.symm, hh⟩, fun hh => hh.2⟩

theorem all_append (n : Bytes) (x y : Dict) : (x.append y).all n = x.all n ++ y.all n := by
  induction x with
  | nil => rfl
  | entry m as s k r _ ih => simp only [Dict.append, Dict.all, ih]; split <;> rfl

theorem names_append (x y : Dict) : (x.append y).names = x.names ++ y.names := by
  induction x with
  | nil => rfl
  | entry m as s k r _ ih => simp only [Dict.append, Dict.names, ih]; rfl

theorem nth_split {n : Bytes} {x : Slot} {j : Nat} {d : Dict} (h : (d.all n)[j]? = some x) :
    ∃ b a : Dict, d = b.append (slotCons n x a) ∧ (b.all n).length = j ∧ ∀ f, d.alterNth n f j = b.append (slotCons? n (f x) a) := by
  induction d generalizing j with
  | nil => simp [Dict.all] at h
  | entry m as s k r _ ih =>
    by_cases hm : m = n
    · subst hm
      rw [Dict.all, if_pos rfl] at h
      cases j with
      | zero =>
        simp only [List.getElem?_cons_zero, Option.some.injEq] at h
        subst h
        refine ⟨.nil, r, rfl, rfl, fun f => ?_⟩
        simp only [Dict.alterNth, if_pos, Dict.append]
        cases f ⟨as, s, k⟩ <;> rfl
      | succ j =>
        rw [List.getElem?_cons_succ] at h
        obtain ⟨b, a, h1, h2, h3⟩ := ih h
        refine ⟨.entry m as s k b, a, by rw [h1]; rfl, by simp [Dict.all, h2], fun f => ?_⟩
        simp only [Dict.alterNth, if_pos, h3]; rfl
    · rw [Dict.all, if_neg hm] at h
      obtain ⟨b, a, h1, h2, h3⟩ := ih h
      refine ⟨.entry m as s k b, a, by rw [h1]; rfl, by simp [Dict.all, hm, h2], fun f => ?_⟩
      simp only [Dict.alterNth, if_neg hm, h3]; rfl

theorem alterNth_none {n : Bytes} {j : Nat} {d : Dict} (h : (d.all n)[j]? = none) (f : Slot → Option Slot) : d.alterNth n f j = d := by
  induction d generalizing j with
  | nil => rfl
  | entry m as s k r _ ih =>
    by_cases hm : m = n
    · rw [Dict.all, if_pos hm] at h
      cases j with
      | zero => simp at h
      | succ j => rw [List.getElem?_cons_succ] at h; simp only [Dict.alterNth, if_pos hm, ih h]
    · rw [Dict.all, if_neg hm] at h
      simp only [Dict.alterNth, if_neg hm, ih h]

theorem snoc_append (n : Bytes) (x : Slot) (d : Dict) : d.snoc n x = d.append (slotCons n x .nil) := by
  induction d with
  | nil => rfl
  | entry m as s k r _ ih => simp only [Dict.snoc, Dict.append, ih]

theorem push_new {n : Bytes} (x : Slot) {d : Dict} (h : n ∉ d.names) : d.push n x = d.append (slotCons n x .nil) := by
  induction d with
  | nil => rfl
  | entry m as s k r _ ih =>
    simp only [Dict.names, List.mem_cons, not_or] at h
    simp only [Dict.push, Dict.append, ih h.2]
    rw [if_neg (fun hh => h.1 hh.1.symm)]

theorem push_split {n : Bytes} (x : Slot) {d : Dict} (h : n ∈ d.names) :
    ∃ (b : Dict) (y : Slot) (a : Dict), d = b.append (slotCons n y a) ∧ n ∉ a.names ∧ d.push n x = b.append (slotCons n y (slotCons n x a)) := by
  induction d with
  | nil => cases h
  | entry m as s k r _ ih =>
    by_cases hr : n ∈ r.names
    · obtain ⟨b, y, a, h1, h2, h3⟩ := ih hr
      refine ⟨.entry m as s k b, y, a, by rw [h1]; rfl, h2, ?_⟩
      rw [Dict.push, if_neg (fun hh => hh.2 hr), h3]; rfl
    · have hm : m = n := by
        rw [Dict.names, List.mem_cons] at h
        rcases h with h | h
        · exact h.symm
        · exact absurd h hr
      subst hm
      refine ⟨.nil, ⟨as, s, k⟩, r, rfl, hr, ?_⟩
      rw [Dict.push, if_pos ⟨rfl, hr⟩]; rfl

theorem tidy_append {d : Nat} {x y : Dict} : (x.append y).Tidy d ↔ x.Tidy d ∧ y.Tidy d := by
  induction x with
  | nil => simp [Dict.append, Dict.Tidy]
  | entry m as s k r _ ih => simp only [Dict.append, Dict.Tidy, ih, and_assoc]

theorem fine_tidy {d : Nat} {x : Dict} (h : x.Fine d) : x.Tidy d := by
  induction x generalizing d with
  | nil => trivial
  | entry m as s k r ihk ihr => obtain ⟨h1, h2, h3, h4, -, h6⟩ := h; exact ⟨h1, h2, h3, ihk h4, ihr h6⟩

theorem tidy_good {d : Nat} {x : Dict} (h : x.Tidy d) (t : Bool) : x.forest.Legal d ∧ x.forest.Tame t ∧ x.forest.Even ∧ x.forest.Stable := by
  induction x generalizing d t with
  | nil => exact ⟨trivial, trivial, trivial, trivial⟩
  | entry n as s k r ihk ihr =>
    obtain ⟨h1, h2, h3, h4, h6⟩ := h
    obtain ⟨k1, k2, k3, -⟩ := ihk h4 false
    obtain ⟨r1, r2, r3, r4⟩ := ihr h6 t
    obtain ⟨l1, l2⟩ := labels_legal h3
    have hn := neat_even (labels_neat h3)
    exact ⟨⟨h1.1, l1, by simp, h2, ⟨C20_no_markup s, by simp, k1⟩, by simp, r1⟩, ⟨l2, by simpa using h1.1.2.2, k2, r2⟩, ⟨hn, rfl, k3, r3⟩, ⟨rfl, k3, r4⟩⟩

theorem grove_editable {x : Dict} (h : x.Tidy 0) (h0 : x ≠ .nil) (hs : x.render.length ≤ 10485760) : Editable (.text [] x.forest) := by
  obtain ⟨h1, h2, -, h4⟩ := tidy_good h true
  refine ⟨by simpa [Forest.render, forest_render] using hs, ⟨by simp, by simp, h1⟩, h2, ?_, h4⟩
  cases x with
  | nil => exact absurd rfl h0
  | entry => trivial

theorem grove_named {n : Bytes} (hn : Simple n) {d : Nat} {x : Dict} (h : x.Tidy d) (t : Bytes) :
    (Forest.text t x.forest).info.named n = (x.all n).map (fun y => (slotEl n y).node) := by
  have key : x.forest.info.named n = (x.all n).map (fun y => (slotEl n y).node) := by
    induction x with
    | nil => rfl
    | entry m as s k r _ ih =>
      obtain ⟨h1, h2, h3, h4, h6⟩ := h
      have := slotCons_named hn h1 ⟨as, s, k⟩ r.forest
      rw [show Dict.forest (.entry m as s k r) = (slotEl m ⟨as, s, k⟩).cons r.forest from rfl, this, Dict.all, ih h6]
      by_cases hm : m = n
      · subst hm; rw [if_pos rfl, if_pos rfl]; rfl
      · rw [if_neg hm, if_neg hm]
  exact key

/-! ### the way to an entry -/

theorem look_cons (p q : Step) (ps : List Step) (d : Dict) : d.look (p :: q :: ps) = (d.all p.1)[p.2]?.bind (fun x => x.kids.look (q :: ps)) := by
  rw [Dict.look]; simp

theorem edit_cons (f : Slot → Option Slot) (p q : Step) (ps : List Step) (d : Dict) :
    d.edit f (p :: q :: ps) = d.alterNth p.1 (fun x => some { x with kids := x.kids.edit f (q :: ps) }) p.2 := by
  rw [Dict.edit]; simp

theorem look_nil (ps : List Step) : Dict.nil.look ps = none := by
  cases ps with
  | nil => rfl
  | cons p ps => cases ps with
    | nil => rfl
    | cons q ps => rw [look_cons]; rfl

/-- Only what is there matters for the change. -/
theorem edit_const {ps : List Step} {d : Dict} {y : Slot} (h : d.look ps = some y) (f : Slot → Option Slot) : d.edit f ps = d.edit (fun _ => f y) ps := by
  induction ps generalizing d with
  | nil => rfl
  | cons p ps ih =>
    cases ps with
    | nil =>
      simp only [Dict.look] at h
      obtain ⟨b, a, -, -, h1⟩ := nth_split h
      simp only [Dict.edit, h1]
    | cons q ps =>
      rw [look_cons] at h
      obtain ⟨x, hx, h⟩ := Option.bind_eq_some_iff.mp h
      obtain ⟨b, a, -, -, h1⟩ := nth_split hx
      rw [edit_cons, edit_cons, h1, h1, ih h]

theorem edit_none {ps : List Step} {d : Dict} (h : d.look ps = none) (f : Slot → Option Slot) : d.edit f ps = d := by
  induction ps generalizing d with
  | nil => rfl
  | cons p ps ih =>
    cases ps with
    | nil => simp only [Dict.look] at h; simp only [Dict.edit, alterNth_none h]
    | cons q ps =>
      rw [look_cons] at h
      rw [edit_cons]
      cases hx : (d.all p.1)[p.2]? with
      | none => exact alterNth_none hx _
      | some x =>
        rw [hx] at h
        obtain ⟨b, a, h2, -, h1⟩ := nth_split hx
        rw [h1, ih h, h2]; rfl

/-- The context of an entry. -/
theorem grove_leads {ps : List Step} (hns : ∀ p ∈ ps, Simple p.1) {d : Nat} {x : Dict} (h : x.Tidy d) {y : Slot} (hf : x.look ps = some y) (t : Bytes) :
    ∃ c n, Leads ps c n ∧ c.plug ((slotEl n y).cons .nil) = .text t x.forest ∧ c.depth + 1 = ps.length ∧ y.kids.Tidy (d + ps.length) ∧ LabelsFine y.labels ∧
      (∀ z, c.before ++ (slotEl n z).render ++ c.after = t ++ (x.edit (fun _ => some z) ps).render) ∧
      c.before ++ c.after = t ++ (x.edit (fun _ => none) ps).render := by
  induction ps generalizing x d t with
  | nil => cases hf
  | cons p ps ih =>
    obtain ⟨n, j⟩ := p
    have hn : Simple n := hns (n, j) (by simp)
    cases ps with
    | nil =>
      simp only [Dict.look] at hf
      obtain ⟨b, a, rfl, hb, hal⟩ := nth_split hf
      obtain ⟨f1, f2⟩ := tidy_append.mp h
      obtain ⟨-, -, fl, fk, -⟩ := f2
      have hnm := grove_named hn f1 t
      refine ⟨.here (.text t b.forest) a.forest, n, ⟨nameMatches_self n, by rw [hnm, List.length_map, hb]⟩, ?_, rfl, fk, fl, fun z => ?_, ?_⟩
      · simp only [Ctx.plug, Forest.append, forest_append, slotCons_forest, cons_append]
      · simp only [Dict.edit, hal, slotCons?, dict_append_render, slotCons_render, Ctx.before, Ctx.after, Forest.render, forest_render]
        simp
      · simp only [Dict.edit, hal, slotCons?, dict_append_render, Ctx.before, Ctx.after, Forest.render, forest_render]
        simp
    | cons q ps =>
      rw [look_cons] at hf
      obtain ⟨x0, hx0, hf2⟩ := Option.bind_eq_some_iff.mp hf
      obtain ⟨b, a, rfl, hb, hal⟩ := nth_split hx0
      obtain ⟨f1, f2⟩ := tidy_append.mp h
      obtain ⟨-, -, fl, fk, -⟩ := f2
      have hnm := grove_named hn f1 t
      obtain ⟨c, e, c1, c2, c3, c4, c5, c6, c7⟩ := ih (fun q hq => hns q (by simp [hq])) fk hf2 (escapeXML x0.text)
      refine ⟨.within (.text t b.forest) n (x0.labels.map labelAttr) [] c [] a.forest, e, ⟨nameMatches_self n, by rw [hnm, List.length_map, hb], c1⟩, ?_, ?_, ?_, c5, fun z => ?_, ?_⟩
      · simp only [Ctx.plug, Forest.append, forest_append, slotCons_forest, c2]
        rfl
      · simp [Ctx.depth, ← c3]
      · have : d + ((n, j) :: q :: ps).length = d + 1 + (q :: ps).length := by simp; omega
        rw [this]; exact c4
      · have := c6 z
        simp only [List.append_assoc] at this
        simp only [edit_cons, hal, slotCons?, dict_append_render, slotCons_render, Ctx.before, Ctx.after, Forest.render, forest_render, List.append_assoc]
        simp only [slotEl, El.render, El.start, El.inner, El.stop, Forest.render, forest_render, Option.isNone_some]
        simp only [Bool.false_eq_true, if_false, List.append_assoc, ← this]
        simp [slotEl, El.render, El.start, El.inner, El.stop, Forest.render, forest_render]
      · simp only [edit_cons, hal, slotCons?, dict_append_render, slotCons_render, Ctx.before, Ctx.after, Forest.render, forest_render, List.append_assoc]
        simp only [slotEl, El.render, El.start, El.inner, El.stop, Forest.render, forest_render, Option.isNone_some]
        simp only [Bool.false_eq_true, if_false, List.append_assoc, ← c7]

theorem follow_look_none {ps : List Step} (hns : ∀ p ∈ ps, Simple p.1) {d : Nat} {x : Dict} (h : x.Tidy d) (hf : x.look ps = none) (t : Bytes) :
    (Forest.text t x.forest).info.follow ps = none := by
  induction ps generalizing x d t with
  | nil => rfl
  | cons p ps ih =>
    obtain ⟨n, j⟩ := p
    have hnm := grove_named (hns (n, j) (by simp)) h t
    cases ps with
    | nil =>
      simp only [Dict.look] at hf
      simp only [Info.follow, hnm, List.getElem?_map, hf]; rfl
    | cons q ps =>
      rw [look_cons] at hf
      rw [Info.follow, hnm, List.getElem?_map]
      · cases hg : (x.all n)[j]? with
        | none => rfl
        | some y =>
          simp only [hg] at hf
          obtain ⟨b, a, rfl, -, -⟩ := nth_split hg
          obtain ⟨-, f2⟩ := tidy_append.mp h
          obtain ⟨-, -, -, fk, -⟩ := f2
          exact ih (fun q hq => hns q (by simp [hq])) fk hf (escapeXML y.text)
      · simp

/-- The kids are what is under the path, and changing them is changing the entry. -/
theorem into_edit {ps : List Step} {d : Dict} {y : Slot} (h : d.look ps = some y) (g : Dict → Dict) :
    d.under ps = y.kids ∧ d.into g ps = d.edit (fun _ => some { y with kids := g y.kids }) ps := by
  cases ps with
  | nil => cases h
  | cons p ps => exact ⟨by rw [Dict.under, h], by rw [Dict.into, edit_const h]⟩

/-! ### what stays in order -/

theorem tidy_edit {ps : List Step} {d : Nat} {x : Dict} (h : x.Tidy d) {f : Slot → Option Slot}
    (hf : ∀ y z, x.look ps = some y → LabelsFine y.labels → y.kids.Tidy (d + ps.length) → f y = some z → LabelsFine z.labels ∧ z.kids.Tidy (d + ps.length)) :
    (x.edit f ps).Tidy d := by
  induction ps generalizing x d with
  | nil => exact h
  | cons p ps ih =>
    cases ps with
    | nil =>
      simp only [Dict.edit]
      cases hg : (x.all p.1)[p.2]? with
      | none => rw [alterNth_none hg]; exact h
      | some y =>
        have := hf y
        simp only [Dict.look, hg] at this
        obtain ⟨b, a, rfl, -, h1⟩ := nth_split hg
        obtain ⟨f1, f2⟩ := tidy_append.mp h
        obtain ⟨g1, g2, fl, fk, g3⟩ := f2
        rw [h1, tidy_append]
        refine ⟨f1, ?_⟩
        cases hz : f y with
        | none => exact g3
        | some z => obtain ⟨z1, z2⟩ := this z trivial fl fk hz; exact ⟨g1, g2, z1, z2, g3⟩
    | cons q ps =>
      rw [edit_cons]
      cases hg : (x.all p.1)[p.2]? with
      | none => rw [alterNth_none hg]; exact h
      | some y =>
        have e : d + (p :: q :: ps).length = d + 1 + (q :: ps).length := by simp; omega
        rw [e] at hf
        have hlk : ∀ w, y.kids.look (q :: ps) = some w → x.look (p :: q :: ps) = some w := fun w hw => by rw [look_cons, hg]; exact hw
        obtain ⟨b, a, hx, -, h1⟩ := nth_split hg
        rw [hx] at h
        obtain ⟨f1, f2⟩ := tidy_append.mp h
        obtain ⟨g1, g2, fl, fk, g3⟩ := f2
        rw [h1, tidy_append]
        exact ⟨f1, g1, g2, fl, ih fk (fun w z hw => hf w z (hlk w hw)), g3⟩

theorem look_tidy {ps : List Step} {d : Nat} {x : Dict} (h : x.Tidy d) {y : Slot} (hf : x.look ps = some y) :
    LabelsFine y.labels ∧ y.kids.Tidy (d + ps.length) ∧ d + ps.length ≤ 100 := by
  induction ps generalizing x d with
  | nil => cases hf
  | cons p ps ih =>
    cases ps with
    | nil =>
      simp only [Dict.look] at hf
      obtain ⟨b, a, rfl, -, h1⟩ := nth_split hf
      obtain ⟨f1, f2⟩ := tidy_append.mp h
      obtain ⟨g1, g2, fl, fk, g3⟩ := f2
      exact ⟨fl, fk, by simp; omega⟩
    | cons q ps =>
      rw [look_cons] at hf
      obtain ⟨x0, hx0, hf2⟩ := Option.bind_eq_some_iff.mp hf
      obtain ⟨b, a, rfl, hb, hal⟩ := nth_split hx0
      obtain ⟨f1, f2⟩ := tidy_append.mp h
      obtain ⟨g1, g2, fl, fk, g3⟩ := f2
      have e : d + (p :: q :: ps).length = d + 1 + (q :: ps).length := by simp; omega
      rw [e]; exact ih fk hf2

theorem under_tidy {ps : List Step} {d : Nat} {x : Dict} (h : x.Tidy d) : (x.under ps).Tidy (d + ps.length) := by
  cases ps with
  | nil => exact h
  | cons p ps =>
    rw [Dict.under]
    cases hx : x.look (p :: ps) with
    | none => trivial
    | some y => exact (look_tidy h hx).2.1

theorem tidy_into {ps : List Step} {d : Nat} {x : Dict} (h : x.Tidy d) {g : Dict → Dict} (hg : (g (x.under ps)).Tidy (d + ps.length)) : (x.into g ps).Tidy d := by
  cases ps with
  | nil => exact hg
  | cons p ps =>
    rw [Dict.into]
    refine tidy_edit h (fun y z hy hl hk hz => ?_)
    simp only [Option.some.injEq] at hz
    subst hz
    rw [Dict.under, hy] at hg
    exact ⟨hl, hg⟩

theorem nest_tidy {ns : List Bytes} (hns : ∀ n ∈ ns, Simple n) {d : Nat} (hd : d + ns.length ≤ 100) (s : Bytes) : LabelsFine (nest ns s).labels ∧ (nest ns s).kids.Tidy d := by
  induction ns generalizing d with
  | nil => exact ⟨labelsFine_nil, trivial⟩
  | cons n ns ih =>
    simp only [List.length_cons] at hd
    obtain ⟨i1, i2⟩ := ih (fun q hq => hns q (by simp [hq])) (d := d + 1) (by omega)
    exact ⟨labelsFine_nil, hns n (by simp), by omega, i1, i2, trivial⟩

theorem nest_render (n : Bytes) (ns : List Bytes) (s : Bytes) : (slotCons n (nest ns s) .nil).render = (chain (n :: ns) (.text (escapeXML s) .nil)).render := by
  induction ns generalizing n with
  | nil => simp [nest, slotCons, Dict.render, chain, Forest.render, openTag, closeTag]
  | cons m ns ih =>
    have := ih m
    rw [show chain (n :: m :: ns) (.text (escapeXML s) .nil) = .node n [] [] (chain (m :: ns) (.text (escapeXML s) .nil)) [] .nil from rfl, Forest.render, ← this]
    simp [nest, slotCons, Dict.render, Forest.render, openTag, closeTag, escapeXML]

/-- The place for one more of a name. -/
theorem push_place {n : Bytes} (hn : Simple n) {d : Nat} {x : Dict} (h : x.Tidy d) (t : Bytes) (s : Bytes) :
    ∃ k1 k2 : Forest, Forest.text t x.forest = k1.append k2 ∧ AfterLast n k1 k2 ∧
      (k1.append ((plainEl n (escapeXML s)).cons k2)).render = t ++ (x.push n { text := s }).render := by
  have hpe : (plainEl n (escapeXML s)).render = (slotEl n { text := s }).render := by
    simp [plainEl, slotEl, El.render, El.start, El.inner, El.stop, Forest.render, Dict.forest]
  by_cases hm : n ∈ x.names
  · obtain ⟨b, y, a, rfl, ha, hp⟩ := push_split { text := s } hm
    obtain ⟨f1, f2⟩ := tidy_append.mp h
    obtain ⟨g1, g2, fl, fk, g3⟩ := f2
    refine ⟨(Forest.text t b.forest).append ((slotEl n y).cons .nil), a.forest, ?_, .inl ⟨.text t b.forest, slotEl n y, rfl, nameMatches_self n, ?_⟩, ?_⟩
    · simp only [Forest.append, forest_append, slotCons_forest]
      congr 1
      rw [append_assoc, cons_append]; rfl
    · have := grove_named hn g3 []
      rw [(all_names n a).mpr ha] at this
      exact this
    · rw [hp, append_render, cons_render, append_render, cons_render, hpe]
      simp only [dict_append_render, slotCons_render, Forest.render, forest_render]
      simp
  · refine ⟨.text t x.forest, .nil, by rw [Forest.append, append_nil], .inr ⟨?_, rfl⟩, ?_⟩
    · rw [grove_named hn h, (all_names n x).mpr hm]; rfl
    · rw [push_new _ hm, append_render, cons_render, hpe]
      simp only [dict_append_render, slotCons_render, Forest.render, forest_render, Dict.render]
      simp

end Verif.Props
