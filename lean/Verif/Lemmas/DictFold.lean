import Verif.Spec.DictFold
import Verif.Props.Dict
import Verif.Props.TripOptions
/- Dictionaries without regard to case as documents (for C72 with options). -/
namespace Verif.Props
open Verif Verif.Spec

/-! ### names -/

theorem spellIn_fold (n : Bytes) (ms : List Bytes) : foldCase (spellIn n ms) = foldCase n := by
  unfold spellIn
  cases h : ms.find? (fun m => foldCase m = foldCase n) with
  | none => exact fold_fold n
  | some m => simpa using List.find?_some h

theorem spellIn_mem {n : Bytes} {ms : List Bytes} (h : ∃ m ∈ ms, foldCase m = foldCase n) : spellIn n ms ∈ ms := by
  unfold spellIn
  cases hf : ms.find? (fun m => foldCase m = foldCase n) with
  | none =>
    obtain ⟨m, h1, h2⟩ := h
    exact absurd (by simpa using h2) (List.find?_eq_none.mp hf m h1)
  | some m => exact List.mem_of_find?_eq_some hf

theorem spellIn_new {n : Bytes} {ms : List Bytes} (h : ∀ m ∈ ms, foldCase m ≠ foldCase n) : spellIn n ms = foldCase n := by
  unfold spellIn
  rw [List.find?_eq_none.mpr (fun m hm => by simpa using h m hm)]
  rfl

theorem spellIn_or (n : Bytes) (ms : List Bytes) : (spellIn n ms ∈ ms) ∨ ((∀ m ∈ ms, foldCase m ≠ foldCase n) ∧ spellIn n ms = foldCase n) := by
  by_cases h : ∃ m ∈ ms, foldCase m = foldCase n
  · exact .inl (spellIn_mem h)
  · have : ∀ m ∈ ms, foldCase m ≠ foldCase n := fun m hm hh => h ⟨m, hm, hh⟩
    exact .inr ⟨this, spellIn_new this⟩

theorem get_names {n : Bytes} {d : Dict} : d.get n ≠ none ↔ n ∈ d.names := by
  induction d with
  | nil => simp [Dict.get, Dict.names]
  | entry m as s k r _ ih =>
    rw [Dict.get, Dict.names, List.mem_cons, ← ih]
    by_cases h : m = n
    · simp [h]
    · rw [if_neg h]; simp [Ne.symm h]

theorem get_spell_none {n : Bytes} {d : Dict} (h : d.get (spellIn n d.names) = none) : (∀ m ∈ d.names, foldCase m ≠ foldCase n) ∧ spellIn n d.names = foldCase n := by
  rcases spellIn_or n d.names with h1 | h1
  · exact absurd h (get_names.mpr h1)
  · exact h1

theorem simple_fold {n : Bytes} (h : Simple n) : Simple (foldCase n) := by
  refine ⟨spelling_name (cs := false) h.1, fun hh => h.2 ?_⟩
  rw [foldCase_eq, toLowerASCII, List.mem_map] at hh
  obtain ⟨c, h1, h2⟩ := hh
  have key : ∀ c : UInt8, lowerByte c = c!":" → c = c!":" := by
    intro c
    unfold lowerByte
    split
    · intro h
      rename_i h1
      have h3 := congrArg UInt8.toNat h
      simp only [Bool.and_eq_true, decide_eq_true_eq] at h1
      have h4 := UInt8.le_iff_toNat_le.mp h1.1
      have h5 := UInt8.le_iff_toNat_le.mp h1.2
      rw [UInt8.toNat_add] at h3
      change _ = 58 at h3
      simp at h4 h5 h3
      omega
    · exact id
  rw [key c h2] at h1
  exact h1

theorem fine_names {d : Nat} {x : Dict} (h : x.Fine d) : ∀ m ∈ x.names, Simple m := by
  induction x with
  | nil => simp [Dict.names]
  | entry n as s k r _ ih =>
    intro m hm
    rcases List.mem_cons.mp hm with rfl | hm
    · exact h.1
    · exact ih h.2.2.2.2.2 m hm

theorem spellIn_simple {d : Nat} {x : Dict} (h : x.Fine d) {n : Bytes} (hn : Simple n) : Simple (spellIn n x.names) := by
  rcases spellIn_or n x.names with h1 | ⟨-, h1⟩
  · exact fine_names h _ h1
  · rw [h1]; exact simple_fold hn

theorem spell_length (ns : List Bytes) (d : Dict) : (d.spell ns).length = ns.length := by
  induction ns generalizing d with
  | nil => rfl
  | cons n ns ih => simp [Dict.spell, ih]

theorem spell_ne {ns : List Bytes} (h : ns ≠ []) (d : Dict) : d.spell ns ≠ [] := by
  cases ns with
  | nil => exact absurd rfl h
  | cons n ns => simp [Dict.spell]

theorem spell_nil (ns : List Bytes) : Dict.nil.spell ns = ns.map foldCase := by
  induction ns with
  | nil => rfl
  | cons n ns ih => simp only [Dict.spell, List.map_cons]; congr 1

theorem getD_fine {d : Nat} {n : Bytes} {x : Dict} (h : x.Fine d) : ((x.get n).getD {}).kids.Fine (d + 1) := by
  cases hg : x.get n with
  | none => trivial
  | some y => exact (fine_slot h hg).kids

theorem spell_simple {ns : List Bytes} (hns : ∀ n ∈ ns, Simple n) {d : Nat} {x : Dict} (h : x.Fine d) : ∀ m ∈ x.spell ns, Simple m := by
  induction ns generalizing x d with
  | nil => simp [Dict.spell]
  | cons n ns ih =>
    intro m hm
    rcases List.mem_cons.mp hm with rfl | hm
    · exact spellIn_simple h (hns n (by simp))
    · exact ih (fun q hq => hns q (by simp [hq])) (getD_fine h) m hm

/-! ### no two alike -/

theorem names_append (x y : Dict) : (x.append y).names = x.names ++ y.names := by
  induction x with
  | nil => rfl
  | entry n as s k r _ ih => simp [Dict.append, Dict.names, ih]

theorem apart_append {x y : Dict} : (x.append y).Apart ↔ x.Apart ∧ y.Apart ∧ ∀ a ∈ x.names, ∀ b ∈ y.names, foldCase b ≠ foldCase a := by
  induction x with
  | nil => simp [Dict.append, Dict.Apart, Dict.names]
  | entry n as s k r _ ih =>
    simp only [Dict.append, Dict.Apart, ih, names_append, Dict.names, List.mem_append, List.mem_cons]
    constructor
    · rintro ⟨h1, h2, h3, h4, h5, h6⟩
      refine ⟨⟨h1, h2, fun m hm => h3 m (.inl hm), h4⟩, h5, ?_⟩
      rintro a (rfl | ha) b hb
      · exact h3 b (.inr hb)
      · exact h6 a ha b hb
    · rintro ⟨⟨h1, h2, h3, h4⟩, h5, h6⟩
      refine ⟨h1, h2, ?_, h4, h5, fun a ha => h6 a (.inr ha)⟩
      rintro m (hm | hm)
      · exact h3 m hm
      · exact h6 n (.inl rfl) m hm

/-- An entry in which no two are alike. -/
structure SlotApart (x : Slot) : Prop where
  labels : LabelsApart x.labels
  kids : x.kids.Apart

theorem apart_slot {n : Bytes} {x : Slot} {d : Dict} (h : d.Apart) (hg : d.get n = some x) : SlotApart x := by
  obtain ⟨b, a, rfl, -, -⟩ := get_some_split hg
  obtain ⟨-, h2, -⟩ := apart_append.mp h
  exact ⟨h2.1, h2.2.1⟩

theorem getD_apart {n : Bytes} {x : Dict} (h : x.Apart) : ((x.get n).getD {}).kids.Apart := by
  cases hg : x.get n with
  | none => trivial
  | some y => exact (apart_slot h hg).kids

theorem simple_agrees {n m : Bytes} (hn : Simple n) (hm : Simple m) : agrees false n m = decide (foldCase n = foldCase m) := by
  rw [← simple_matches (simple_fold hn) (simple_fold hm)]; rfl

theorem dict_namedF {n : Bytes} (hn : Simple n) {d : Nat} {x : Dict} (h : x.Fine d) (ha : x.Apart) (t : Bytes) :
    (Forest.text t x.forest).info.namedBy false n = ((x.get (spellIn n x.names)).map (fun y => (slotEl (spellIn n x.names) y).node)).toList := by
  have key : x.forest.info.namedBy false n = ((x.get (spellIn n x.names)).map (fun y => (slotEl (spellIn n x.names) y).node)).toList := by
    induction x with
    | nil => rfl
    | entry m as s k r _ ih =>
      obtain ⟨h1, -, -, -, h5, h6⟩ := h
      obtain ⟨-, -, a3, a4⟩ := ha
      have ih := ih h6 a4
      have e1 : (Dict.forest (.entry m as s k r)).info.elems = (slotEl m ⟨as, s, k⟩).node :: r.forest.info.elems := rfl
      have e2 : (slotEl m ⟨as, s, k⟩).node.name = m := rfl
      rw [Info.namedBy, e1, List.filter_cons, e2, simple_agrees hn h1]
      rw [Info.namedBy] at ih
      by_cases hm : foldCase m = foldCase n
      · have e3 : spellIn n (Dict.entry m as s k r).names = m := by simp [spellIn, Dict.names, hm]
        have e4 : ∀ q ∈ r.names, foldCase q ≠ foldCase n := fun q hq hh => a3 q hq (by rw [hh, hm])
        have e5 : r.get (spellIn n r.names) = none := by
          refine Classical.byContradiction (fun hh => ?_)
          exact e4 _ (get_names.mp hh) (spellIn_fold n _)
        rw [if_pos (by simp [hm]), ih, e5, e3, Dict.get, if_pos rfl]; rfl
      · have e3 : spellIn n (Dict.entry m as s k r).names = spellIn n r.names := by simp [spellIn, Dict.names, hm]
        rw [if_neg (by simpa using fun hh => hm hh.symm), ih, e3, Dict.get, if_neg]
        intro hh
        exact hm (by rw [hh, spellIn_fold])
  exact key

/-! ### the way to an entry -/

theorem spell_cons (n : Bytes) (ns : List Bytes) (d : Dict) : d.spell (n :: ns) = spellIn n d.names :: (((d.get (spellIn n d.names)).getD {}).kids).spell ns := rfl

theorem before_named {n : Bytes} (hn : Simple n) {d : Nat} {b a : Dict} {z : Slot} {q : Bytes} (hq : q = spellIn n (b.append (slotCons q z a)).names) (h : (b.append (slotCons q z a)).Fine d)
    (ha : (b.append (slotCons q z a)).Apart) (t : Bytes) : (Forest.text t b.forest).info.namedBy false n = [] ∧ agrees false n q = true := by
  obtain ⟨f1, f2, -⟩ := fine_append h
  obtain ⟨a1, -, a3⟩ := apart_append.mp ha
  have hfq : foldCase q = foldCase n := by rw [hq]; exact spellIn_fold _ _
  refine ⟨?_, by rw [simple_agrees hn f2.1]; simp [hfq]⟩
  rw [dict_namedF hn f1 a1 t]
  have : b.get (spellIn n b.names) = none := by
    refine Classical.byContradiction (fun hh => ?_)
    refine a3 _ (get_names.mp hh) q (by simp [slotCons, Dict.names]) ?_
    rw [spellIn_fold, hfq]
  rw [this]; rfl

theorem dict_leadsF {ns : List Bytes} (hns : ∀ n ∈ ns, Simple n) {d : Nat} {x : Dict} (h : x.Fine d) (ha : x.Apart) {y : Slot} (hf : x.find (x.spell ns) = some y) (t : Bytes) :
    ∃ c n, LeadsBy false (firsts ns) c n ∧ c.plug ((slotEl n y).cons .nil) = .text t x.forest ∧ y.kids.Fine (d + ns.length) ∧ LabelsFine y.labels ∧ SlotApart y ∧
      (∀ z, c.before ++ (slotEl n z).render ++ c.after = t ++ (x.change (x.spell ns) (fun _ => some z)).render) ∧
      c.before ++ c.after = t ++ (x.change (x.spell ns) (fun _ => none)).render := by
  induction ns generalizing x d t with
  | nil => cases hf
  | cons n ns ih =>
    have hn := hns n (by simp)
    cases ns with
    | nil =>
      have hsp : x.spell [n] = [spellIn n x.names] := rfl
      rw [hsp] at hf ⊢
      have hap := apart_slot ha hf
      generalize hq : spellIn n x.names = q at hf ⊢
      obtain ⟨b, a, rfl, hb, hal⟩ := get_some_split hf
      obtain ⟨g1, g2⟩ := before_named hn hq.symm h ha t
      obtain ⟨f1, f2, -⟩ := fine_append h
      obtain ⟨-, -, fl, fk, -, -⟩ := f2
      refine ⟨.here (.text t b.forest) a.forest, q, ⟨g2, by rw [g1]; rfl⟩, ?_, fk, fl, hap, fun z => ?_, ?_⟩
      · simp only [Ctx.plug, Forest.append, forest_append, slotCons_forest, cons_append]
      · simp only [Dict.change, hal, slotCons?, dict_append_render, slotCons_render, Ctx.before, Ctx.after, Forest.render, forest_render]
        simp
      · simp only [Dict.change, hal, slotCons?, dict_append_render, Ctx.before, Ctx.after, Forest.render, forest_render]
        simp
    | cons m ns =>
      rw [spell_cons, spell_cons, ← spell_cons m] at hf
      obtain ⟨x0, hx0, hf2⟩ := find_some hf
      rw [spell_cons, spell_cons]
      rw [hx0, Option.getD_some, ← spell_cons m] at hf2 ⊢
      have hap := apart_slot ha hx0
      generalize hq : spellIn n x.names = q at hx0 ⊢
      obtain ⟨b, a, rfl, hb, hal⟩ := get_some_split hx0
      obtain ⟨g1, g2⟩ := before_named hn hq.symm h ha t
      obtain ⟨f1, f2, -⟩ := fine_append h
      obtain ⟨-, -, fl, fk, -, -⟩ := f2
      obtain ⟨c, e, c1, c2, c4, c5, c5', c6, c7⟩ := ih (fun q hq => hns q (by simp [hq])) fk hap.kids hf2 (escapeXML x0.text)
      refine ⟨.within (.text t b.forest) q (x0.labels.map labelAttr) [] c [] a.forest, e, ⟨g2, by rw [g1]; rfl, c1⟩, ?_, ?_, c5, c5', fun z => ?_, ?_⟩
      · simp only [Ctx.plug, Forest.append, forest_append, slotCons_forest, c2]
        rfl
      · have : d + (n :: m :: ns).length = d + 1 + (m :: ns).length := by simp; omega
        rw [this]; exact c4
      · have := c6 z
        simp only [List.append_assoc, spell_cons m] at this
        simp only [spell_cons m, change_cons, hal, slotCons?, dict_append_render, slotCons_render, Ctx.before, Ctx.after, Forest.render, forest_render, List.append_assoc]
        simp only [slotEl, El.render, El.start, El.inner, El.stop, Forest.render, forest_render, Option.isNone_some]
        simp only [Bool.false_eq_true, if_false, List.append_assoc, ← this]
        simp [slotEl, El.render, El.start, El.inner, El.stop, Forest.render, forest_render]
      · rw [spell_cons m] at c7
        simp only [spell_cons m, change_cons, hal, slotCons?, dict_append_render, slotCons_render, Ctx.before, Ctx.after, Forest.render, forest_render, List.append_assoc]
        simp only [slotEl, El.render, El.start, El.inner, El.stop, Forest.render, forest_render, Option.isNone_some]
        simp only [Bool.false_eq_true, if_false, List.append_assoc, ← c7]

theorem spell_new {m : Bytes} {d : Dict} (h : d.get (spellIn m d.names) = none) (ks : List Bytes) : d.spell (m :: ks) = (m :: ks).map foldCase := by
  rw [spell_cons, h, Option.getD_none, spell_nil, (get_spell_none h).2]; rfl

theorem find_casesF {ns : List Bytes} (hne : ns ≠ []) (d : Dict) : (∃ y, d.find (d.spell ns) = some y) ∨ d.find (d.spell ns) = none ∧
    ((∃ m ks, ns = m :: ks ∧ d.get (spellIn m d.names) = none) ∨
      ∃ pre m ks y, ns = pre ++ m :: ks ∧ d.find (d.spell pre) = some y ∧ y.kids.get (spellIn m y.kids.names) = none ∧ d.spell ns = d.spell pre ++ (m :: ks).map foldCase) := by
  induction ns generalizing d with
  | nil => exact absurd rfl hne
  | cons n ns ih =>
    cases ns with
    | nil =>
      have hsp : d.spell [n] = [spellIn n d.names] := rfl
      rw [hsp]
      cases hg : d.get (spellIn n d.names) with
      | none => exact .inr ⟨hg, .inl ⟨n, [], rfl, hg⟩⟩
      | some y => exact .inl ⟨y, hg⟩
    | cons m ns =>
      cases hg : d.get (spellIn n d.names) with
      | none =>
        refine .inr ⟨?_, .inl ⟨n, _, rfl, hg⟩⟩
        rw [spell_cons, spell_cons, find_cons, hg]; rfl
      | some x =>
        have e : d.spell (n :: m :: ns) = spellIn n d.names :: x.kids.spell (m :: ns) := by rw [spell_cons, hg]; rfl
        have e2 : d.find (spellIn n d.names :: x.kids.spell (m :: ns)) = x.kids.find (x.kids.spell (m :: ns)) := by
          rw [spell_cons m, find_cons, hg]; rfl
        rw [e, e2]
        rcases ih (by simp) x.kids with ⟨y, hy⟩ | ⟨h0, ⟨m', ks, h1, h2⟩ | ⟨pre, m', ks, y, h1, h2, h3, h4⟩⟩
        · exact .inl ⟨y, hy⟩
        · refine .inr ⟨h0, .inr ⟨[n], m', ks, x, by rw [h1]; rfl, hg, h2, ?_⟩⟩
          rw [h1, spell_new h2]; rfl
        · have e3 : d.spell (n :: pre) = spellIn n d.names :: x.kids.spell pre := by rw [spell_cons, hg]; rfl
          refine .inr ⟨h0, .inr ⟨n :: pre, m', ks, y, by rw [h1]; rfl, ?_, h3, ?_⟩⟩
          · rw [e3]
            cases pre with
            | nil => cases h2
            | cons p pre => rw [spell_cons p, find_cons, hg, Option.bind_some, ← spell_cons p]; exact h2
          · rw [e3, h4]; rfl

theorem follow_find_noneF {ns : List Bytes} (hns : ∀ n ∈ ns, Simple n) {d : Nat} {x : Dict} (h : x.Fine d) (ha : x.Apart) (hf : x.find (x.spell ns) = none) (t : Bytes) :
    (Forest.text t x.forest).info.followBy false (firsts ns) = none := by
  induction ns generalizing x d t with
  | nil => rfl
  | cons n ns ih =>
    have hnm := dict_namedF (hns n (by simp)) h ha t
    cases ns with
    | nil =>
      have hsp : x.spell [n] = [spellIn n x.names] := rfl
      rw [hsp] at hf
      simp only [Dict.find] at hf
      rw [hf] at hnm
      simp only [firsts, List.map_cons, List.map_nil, Info.followBy, hnm]; rfl
    | cons m ns =>
      rw [spell_cons, spell_cons m, find_cons] at hf
      simp only [firsts, List.map_cons, Info.followBy, hnm]
      cases hg : x.get (spellIn n x.names) with
      | none => rfl
      | some y =>
        rw [hg, Option.bind_some, Option.getD_some, ← spell_cons m] at hf
        exact ih (fun q hq => hns q (by simp [hq])) (fine_slot h hg).kids (apart_slot ha hg).kids hf (escapeXML y.text)

/-! ### what stays apart -/

theorem alter_names {n : Bytes} (f : Option Slot → Option Slot) (d : Dict) : ∀ m ∈ (d.alter n f).names, m ∈ d.names ∨ m = n := by
  induction d with
  | nil =>
    rw [Dict.alter]
    cases f none with
    | none => simp [Dict.names]
    | some x => simp [Dict.names]
  | entry q as s k r _ ih =>
    rw [Dict.alter]
    intro m hm
    by_cases hq : q = n
    · rw [if_pos hq] at hm
      cases hf : f (some ⟨as, s, k⟩) with
      | none => rw [hf] at hm; exact .inl (List.mem_cons_of_mem _ hm)
      | some x => rw [hf] at hm; exact .inl hm
    · rw [if_neg hq] at hm
      rcases List.mem_cons.mp hm with rfl | hm
      · exact .inl (by simp [Dict.names])
      · rcases ih m hm with h | h
        · exact .inl (List.mem_cons_of_mem _ h)
        · exact .inr h

theorem apart_alter {n : Bytes} {f : Option Slot → Option Slot} {d : Dict} (h : d.Apart) (hn : ∀ m ∈ d.names, foldCase m = foldCase n → m = n) (hf : ∀ y, f (d.get n) = some y → SlotApart y) :
    (d.alter n f).Apart := by
  induction d with
  | nil =>
    rw [Dict.alter]
    cases hg : f none with
    | none => trivial
    | some x => have := hf x hg; exact ⟨this.labels, this.kids, by simp [Dict.names], trivial⟩
  | entry q as s k r _ ih =>
    obtain ⟨h1, h2, h3, h4⟩ := h
    rw [Dict.alter]
    rw [Dict.get] at hf
    by_cases hq : q = n
    · rw [if_pos hq] at hf ⊢
      cases hg : f (some ⟨as, s, k⟩) with
      | none => exact h4
      | some x => have := hf x hg; exact ⟨this.labels, this.kids, h3, h4⟩
    · rw [if_neg hq] at hf ⊢
      refine ⟨h1, h2, fun m hm => ?_, ih h4 (fun m hm => hn m (List.mem_cons_of_mem _ hm)) hf⟩
      rcases alter_names f r m hm with hm | rfl
      · exact h3 m hm
      · exact fun hh => hq (hn q (by simp [Dict.names]) hh.symm)

theorem spellIn_only {x : Dict} (h : x.Apart) (n : Bytes) : ∀ m ∈ x.names, foldCase m = foldCase (spellIn n x.names) → m = spellIn n x.names := by
  intro m hm hh
  rw [spellIn_fold] at hh
  have h1 := spellIn_mem ⟨m, hm, hh⟩
  have h2 := spellIn_fold n x.names
  generalize spellIn n x.names = q at h1 h2
  obtain ⟨z, hz⟩ := Option.ne_none_iff_exists'.mp (get_names.mpr h1)
  obtain ⟨b, a, rfl, hb, -⟩ := get_some_split hz
  rw [names_append, List.mem_append] at hm
  obtain ⟨-, a2, a3⟩ := apart_append.mp h
  rcases hm with hm | hm
  · exact absurd (by rw [h2, hh]) (a3 m hm q (by simp [slotCons, Dict.names]))
  · rcases List.mem_cons.mp hm with rfl | hm
    · rfl
    · exact absurd (by rw [hh, h2]) (a2.2.2.1 m hm)

theorem apart_change {ns : List Bytes} {f : Option Slot → Option Slot} {x : Dict} (h : x.Apart) (hf : ∀ y, f (x.find (x.spell ns)) = some y → SlotApart y) : (x.change (x.spell ns) f).Apart := by
  induction ns generalizing x with
  | nil => exact h
  | cons n ns ih =>
    cases ns with
    | nil => exact apart_alter h (spellIn_only h n) hf
    | cons m ns =>
      rw [spell_cons, spell_cons m, change_cons]
      rw [spell_cons, spell_cons m, find_cons] at hf
      refine apart_alter h (spellIn_only h n) (fun y hy => ?_)
      cases hg : x.get (spellIn n x.names) with
      | some z =>
        rw [hg] at hy hf
        simp only [Option.some.injEq, Option.getD_some] at hy
        subst hy
        have := apart_slot h hg
        exact ⟨this.labels, ih this.kids hf⟩
      | none =>
        rw [hg] at hy hf
        simp only [Option.getD_none] at hy
        split at hy
        · cases hy
        · simp only [Option.some.injEq] at hy
          subst hy
          refine ⟨fun a ha => (by cases ha), ih (x := .nil) trivial (fun y hy => hf y ?_)⟩
          rw [find_nil] at hy
          exact hy

theorem find_apart {ns : List Bytes} {x : Dict} (h : x.Apart) {y : Slot} (hf : x.find ns = some y) : SlotApart y := by
  induction ns generalizing x with
  | nil => cases hf
  | cons n ns ih =>
    cases ns with
    | nil => exact apart_slot h hf
    | cons m ns =>
      obtain ⟨z, h1, h2⟩ := find_some hf
      exact ih (apart_slot h h1).kids h2

/-- Putting does not change the spelling. -/
theorem spell_change {ns : List Bytes} {x : Dict} (z : Slot) : (x.change (x.spell ns) (fun _ => some z)).spell ns = x.spell ns := by
  have names : ∀ (n : Bytes) (g : Option Slot → Slot) (x : Dict), spellIn n (x.alter (spellIn n x.names) (fun o => some (g o))).names = spellIn n x.names := by
    intro n g x
    cases hg : x.get (spellIn n x.names) with
    | some y =>
      have : (x.alter (spellIn n x.names) (fun o => some (g o))).names = x.names := by
        generalize spellIn n x.names = q at hg
        obtain ⟨b, a, rfl, -, ha⟩ := get_some_split hg
        rw [ha]; simp only [slotCons?, names_append]; rfl
      rw [this]
    | none =>
      obtain ⟨h1, h2⟩ := get_spell_none hg
      rw [get_none_split hg, names_append, h2]
      unfold spellIn
      rw [List.find?_append, List.find?_eq_none.mpr (fun m hm => by simpa using h1 m hm)]
      simp [slotCons?, slotCons, Dict.names, fold_fold]
  induction ns generalizing x with
  | nil => rfl
  | cons n ns ih =>
    cases ns with
    | nil => exact congrArg (fun q => [q]) (names n (fun _ => z) x)
    | cons m ns =>
      have e : x.spell (n :: m :: ns) = spellIn n x.names :: (((x.get (spellIn n x.names)).getD {}).kids).spell (m :: ns) := rfl
      rw [e]
      have ih := ih (x := ((x.get (spellIn n x.names)).getD {}).kids)
      obtain ⟨q, qs, hq⟩ : ∃ q qs, (((x.get (spellIn n x.names)).getD {}).kids).spell (m :: ns) = q :: qs := ⟨_, _, rfl⟩
      rw [hq] at ih ⊢
      rw [change_some, spell_cons n, names n (fun o => { o.getD {} with kids := (o.getD {}).kids.change (q :: qs) (fun _ => some z) }) x, alter_get _ _ _ _ rfl]
      congr 1

/-! ### labels -/

theorem labelOf_mem {k : Bytes} {as : List (Bytes × Bytes)} : labelOf? k as ≠ none ↔ k ∈ as.map (·.1) := by
  unfold labelOf?
  rw [Ne, Option.map_eq_none_iff, List.find?_eq_none]
  simp

theorem retagF {e : El} {k : Bytes} {x : Option Bytes} {as : List Attr} (h : RetagBy false e k x as) {ls : List (Bytes × Bytes)} (hl : ∀ j, Spec.attrVal e.attrs j = labelOf? j ls) (ha : LabelsApart ls)
    (j : Bytes) : Spec.attrVal as j = if j = spellIn k (ls.map (·.1)) then x else labelOf? j ls := by
  have hfk := spellIn_fold k (ls.map (·.1))
  by_cases hs : foldCase j = foldCase k
  · by_cases hex : ∃ m ∈ ls.map (·.1), foldCase m = foldCase k
    · have hm := spellIn_mem hex
      by_cases hj : j = spellIn k (ls.map (·.1))
      · rw [if_pos hj]
        exact h.this j hs (by rw [hl, labelOf_mem, hj]; exact hm)
      · rw [if_neg hj]
        have hnone : labelOf? j ls = none := by
          refine Classical.byContradiction (fun hh => hj ?_)
          have h1 := labelOf_mem.mp hh
          obtain ⟨a, a1, a2⟩ := List.mem_map.mp h1
          obtain ⟨b, b1, b2⟩ := List.mem_map.mp hm
          rw [← a2, ← b2]
          exact ha a a1 b b1 (by rw [a2, b2, hs, hfk])
        rw [hnone]
        exact h.no j hs ⟨_, hfk, by rw [hl, labelOf_mem]; exact hm⟩ (by rw [hl, hnone])
    · have hne : ∀ m ∈ ls.map (·.1), foldCase m ≠ foldCase k := fun m hm hh => hex ⟨m, hm, hh⟩
      have hn : ∀ i, foldCase i = foldCase k → labelOf? i ls = none := fun i hi => Classical.byContradiction (fun hh => hne i (labelOf_mem.mp hh) hi)
      rw [h.new (fun i hi => by rw [hl]; exact hn i hi) j hs, spellIn_new hne, hn j hs]; rfl
  · rw [h.others j hs, hl, if_neg]
    intro hh
    exact hs (by rw [hh, hfk])

theorem putLabel_apart {k v : Bytes} {as : List (Bytes × Bytes)} (h : LabelsApart as) : LabelsApart (putLabel (spellIn k (as.map (·.1))) v as) := by
  have hfk := spellIn_fold k (as.map (·.1))
  have key : ∀ b ∈ as, foldCase b.1 = foldCase k → b.1 = spellIn k (as.map (·.1)) := by
    intro b hb hh
    obtain ⟨a, a1, a2⟩ := List.mem_map.mp (spellIn_mem ⟨b.1, List.mem_map.mpr ⟨b, hb, rfl⟩, hh⟩)
    rw [← a2]
    exact h b hb a a1 (by rw [a2, hh, hfk])
  intro a ha b hb hab
  rcases putLabel_mem ha with rfl | ha <;> rcases putLabel_mem hb with rfl | hb
  · rfl
  · exact (key b hb (by rw [← hab, hfk])).symm
  · exact key a ha (by rw [hab, hfk])
  · exact h a ha b hb hab

theorem spellIn_key {k : Bytes} (hk : IsName k) {as : List (Bytes × Bytes)} (h : LabelsFine as) : IsName (spellIn k (as.map (·.1))) := by
  rcases spellIn_or k (as.map (·.1)) with h1 | ⟨-, h1⟩
  · obtain ⟨a, a1, a2⟩ := List.mem_map.mp h1
    rw [← a2]; exact h.names a a1
  · rw [h1]; exact spelling_name (cs := false) hk

end Verif.Props
