import Verif.Lemmas.Commute
import Verif.Lemmas.Append
import Verif.Props.Attr
import Verif.Props.Raw
namespace Verif.Props
open Spec

/-! ## C65 Independent writes commute -/

/-- In every document of the class in which the steps lead to `old`, Set with the path and the value of the job puts `new` in its place (of the same name) and
changes nothing else, and the document stays in the class, if it does not become too long. -/
def Does (o : Ord) (j : Job) : Prop := j.new.name = j.old.name ∧
  ∀ c : Ctx, Leads j.steps c j.old.name → Editable (c.plug (j.old.cons .nil)) → (c.plug (j.new.cons .nil)).render.length ≤ 10485760 →
    set o (c.plug (j.old.cons .nil)).render j.path j.value = .ret ((c.plug (j.new.cons .nil)).render, none) ∧ Editable (c.plug (j.new.cons .nil))

/-- One write. -/
def Step1 (o : Ord) (j : Job) (f f' : Forest) : Prop :=
  ∃ c : Ctx, c.addr = j.addr ∧ Leads j.steps c j.old.name ∧ f = c.plug (j.old.cons .nil) ∧ f' = c.plug (j.new.cons .nil) ∧
    set o f.render j.path j.value = .ret (f'.render, none) ∧ Editable f'

/-- One write after the other. -/
inductive Ran (o : Ord) : Forest → List Job → Forest → Prop
  | nil (f : Forest) : Ran o f [] f
  | cons {f f1 f' : Forest} {j : Job} {js : List Job} : Step1 o j f f1 → Ran o f1 js f' → Ran o f (j :: js) f'

def total (js : List Job) : Nat := (js.map Job.cost).sum

/-- Everything the writes need. -/
structure Ready (o : Ord) (f : Forest) (js : List Job) : Prop where
  ed : Editable f
  apart : js.Pairwise (fun i j => Apart i.addr j.addr)
  fits : ∀ j ∈ js, j.Fits f
  does : ∀ j ∈ js, Does o j
  size : f.render.length + total js ≤ 10485760

theorem Apart.symm {a b : List Nat} (h : Apart a b) : Apart b a := ⟨h.2, h.1⟩

theorem step_size {c : Ctx} {e e' : El} : (c.plug (e'.cons .nil)).render.length ≤ (c.plug (e.cons .nil)).render.length + e'.render.length := by
  rw [plug_render, plug_render, cons_render, cons_render]; simp; omega

theorem step_keeps {o : Ord} {j : Job} {f f' : Forest} (h : Step1 o j f f') (hn : j.new.name = j.old.name) {i : Job} (ha : Apart j.addr i.addr) :
    (i.Fits f → i.Fits f') ∧ (i.Done f → i.Done f') := by
  obtain ⟨c, h1, h2, rfl, rfl, -⟩ := h
  refine ⟨?_, ?_⟩ <;> rintro ⟨d, d1, d2, d3⟩
  · obtain ⟨c', d', g1, g2, g3, g4, g5, g6, g7⟩ := places_apart (x' := i.old) d2 (by rw [h1, d1]; exact ha) hn rfl
    exact ⟨d', by rw [g2, d1], g5, g4 _ _ d3⟩
  · obtain ⟨c', d', g1, g2, g3, g4, g5, g6, g7⟩ := places_apart (x' := i.new) d2 (by rw [h1, d1]; exact ha) hn rfl
    exact ⟨d', by rw [g2, d1], g5, g4 _ _ d3⟩

theorem step_done {o : Ord} {j : Job} {f f' : Forest} (h : Step1 o j f f') (hn : j.new.name = j.old.name) : j.Done f' := by
  obtain ⟨c, h1, h2, -, rfl, -⟩ := h
  exact ⟨c, h1, rfl, hn ▸ h2⟩

theorem ready_step {o : Ord} {f : Forest} {j : Job} {js : List Job} (h : Ready o f (j :: js)) : ∃ f', Step1 o j f f' := by
  obtain ⟨c, h1, rfl, h3⟩ := h.fits j (by simp)
  have hs := h.size
  simp only [total, List.map_cons, List.sum_cons, Job.cost] at hs
  have := step_size (c := c) (e := j.old) (e' := j.new)
  obtain ⟨g1, g2⟩ := (h.does j (by simp)).2 c h3 h.ed (by omega)
  exact ⟨_, c, h1, h3, rfl, rfl, g1, g2⟩

theorem ready_next {o : Ord} {f f' : Forest} {j : Job} {js : List Job} (h : Ready o f (j :: js)) (hs : Step1 o j f f') : Ready o f' js := by
  have hn := (h.does j (by simp)).1
  refine ⟨by obtain ⟨c, -, -, -, -, -, g⟩ := hs; exact g, (List.pairwise_cons.mp h.apart).2, fun i hi => ?_, fun i hi => h.does i (by simp [hi]), ?_⟩
  · exact (step_keeps hs hn ((List.pairwise_cons.mp h.apart).1 i hi)).1 (h.fits i (by simp [hi]))
  · have hz := h.size
    simp only [total, List.map_cons, List.sum_cons, Job.cost] at hz ⊢
    obtain ⟨c, h1, h2, rfl, rfl, -⟩ := hs
    have := step_size (c := c) (e := j.old) (e' := j.new)
    omega

theorem ran_keeps {o : Ord} {f f' : Forest} {js : List Job} (h : Ran o f js f') (hd : ∀ j ∈ js, Does o j) {i : Job} (ha : ∀ j ∈ js, Apart i.addr j.addr) (hi : i.Done f) : i.Done f' := by
  induction h with
  | nil => exact hi
  | cons h1 h2 ih =>
    exact ih (fun j hj => hd j (by simp [hj])) (fun j hj => ha j (by simp [hj])) ((step_keeps h1 (hd _ (by simp)).1 (ha _ (by simp)).symm).2 hi)

theorem ready_ran {o : Ord} {f : Forest} {js : List Job} (h : Ready o f js) : ∃ f', Ran o f js f' ∧ Editable f' ∧ ∀ j ∈ js, j.Done f' := by
  induction js generalizing f with
  | nil => exact ⟨f, .nil f, h.ed, by simp⟩
  | cons j js ih =>
    obtain ⟨f1, h1⟩ := ready_step h
    obtain ⟨f', h2, h3, h4⟩ := ih (ready_next h h1)
    refine ⟨f', .cons h1 h2, h3, fun i hi => ?_⟩
    rcases List.mem_cons.mp hi with rfl | hi
    · exact ran_keeps h2 (fun j hj => h.does j (by simp [hj])) (List.pairwise_cons.mp h.apart).1 (step_done h1 (h.does i (by simp)).1)
    · exact h4 i hi

theorem ready_perm {o : Ord} {f : Forest} {js js' : List Job} (hp : js.Perm js') (h : Ready o f js) : Ready o f js' :=
  ⟨h.ed, (hp.pairwise_iff (fun h => Apart.symm h)).mp h.apart, fun j hj => h.fits j (hp.mem_iff.mpr hj), fun j hj => h.does j (hp.mem_iff.mpr hj), by
    have := h.size
    simp only [total] at this ⊢
    rwa [← (hp.map Job.cost).sum_nat]⟩

theorem ran_perm {o : Ord} {js js' : List Job} (hp : js.Perm js') {f f' : Forest} (h : Ready o f js) (hr : Ran o f js f') : Ran o f js' f' := by
  induction hp generalizing f with
  | nil => exact hr
  | cons j hp ih =>
    cases hr with
    | cons h1 h2 => exact .cons h1 (ih (ready_next h h1) h2)
  | trans hp1 hp2 ih1 ih2 => exact ih2 (ready_perm hp1 h) (ih1 h hr)
  | swap j1 j2 l =>
    cases hr with
    | cons h1 h2 =>
      cases h2 with
      | @cons _ f2 _ _ _ h2 h3 =>
        have ha : Apart j2.addr j1.addr := (List.pairwise_cons.mp h.apart).1 j1 (by simp)
        have n1 := (h.does j1 (by simp)).1
        have n2 := (h.does j2 (by simp)).1
        have h' : Ready o f (j1 :: j2 :: l) := ready_perm (.swap _ _ _) h
        obtain ⟨g1, s1⟩ := ready_step h'
        have hr1 := ready_next h' s1
        obtain ⟨g2, s2⟩ := ready_step hr1
        have meet : g2 = f2 := by
          obtain ⟨c2, p1, p2, p3, rfl, p5, p6⟩ := h1
          obtain ⟨d, q1, q2, q3, q4, q5, q6⟩ := h2
          obtain ⟨a, r1, r2, r3, rfl, r5, r6⟩ := s1
          obtain ⟨b, t1, t2, t3, t4, t5, t6⟩ := s2
          obtain ⟨c', d', k1, k2, -, -, k5, k6, k7⟩ := places_apart (p3.symm.trans r3) (by rw [p1, r1]; exact ha) n2 n1
          obtain ⟨rfl, -⟩ := addr_unique (k5.symm.trans q3) (by rw [k2, r1, q1])
          obtain ⟨rfl, -⟩ := addr_unique (k6.symm.trans t3) (by rw [k1, p1, t1])
          exact t4.trans (k7.trans q4.symm)
        rw [← meet] at h3
        exact .cons s1 (.cons s2 h3)

theorem ran_loop {o : Ord} {f f' : Forest} {js : List Job} (h : Ran o f js f') (orig : Bytes) :
    setManyLoop o orig f.render ((js.map Job.path).zip (js.map Job.value)) = .ret (f'.render, none) := by
  induction h with
  | nil => rfl
  | cons h1 h2 ih =>
    obtain ⟨-, -, -, -, -, h1, -⟩ := h1
    simp only [List.map_cons, List.zip_cons_cons, setManyLoop, h1]
    exact ih

theorem ran_others {o : Ord} {f f' : Forest} {js : List Job} (h : Ran o f js f') (hd : ∀ j ∈ js, Does o j) {a : List Nat} {e : El} (ha : ∀ j ∈ js, Apart a j.addr)
    (hi : ∃ c : Ctx, c.addr = a ∧ f = c.plug (e.cons .nil)) : ∃ c : Ctx, c.addr = a ∧ f' = c.plug (e.cons .nil) := by
  induction h with
  | nil => exact hi
  | @cons f f1 f' j js h1 h2 ih =>
    refine ih (fun j hj => hd j (by simp [hj])) (fun j hj => ha j (by simp [hj])) ?_
    obtain ⟨d, d1, d2⟩ := hi
    obtain ⟨c, c1, -, c3, rfl, -⟩ := h1
    obtain ⟨c', d', -, g2, -, -, g5, -, -⟩ := places_apart (x' := e) (c3.symm.trans d2) (by rw [c1, d1]; exact (ha j (by simp)).symm) (hd j (by simp)).1 rfl
    exact ⟨d', by rw [g2, d1], g5⟩

/-- C65: writes to places of which none is inside another have the same effect in any order: each is done, and the elements at all other places remain as they are. -/
theorem C65_set_many (o : Ord) (f : Forest) (js : List Job) (hf : Editable f) (ha : js.Pairwise (fun i j => Apart i.addr j.addr))
    (hfit : ∀ j ∈ js, j.Fits f) (hd : ∀ j ∈ js, Does o j) (hs : f.render.length + (js.map Job.cost).sum ≤ 10485760) :
    ∃ f', Editable f' ∧ (∀ j ∈ js, j.Done f') ∧
      (∀ (c : Ctx) (e : El), f = c.plug (e.cons .nil) → (∀ j ∈ js, Apart c.addr j.addr) → ∃ c' : Ctx, c'.addr = c.addr ∧ f' = c'.plug (e.cons .nil)) ∧
      ∀ js' : List Job, js'.Perm js → setMany o f.render (js'.map Job.path) (js'.map Job.value) = .ret (f'.render, none) := by
  have hr : Ready o f js := ⟨hf, ha, hfit, hd, hs⟩
  obtain ⟨f', h1, h2, h3⟩ := ready_ran hr
  refine ⟨f', h2, h3, fun c e hc ha => ran_others h1 hd ha ⟨c, rfl, hc⟩, fun js' hp => ?_⟩
  have := hf.1
  have hm : maxDocumentSize = 10485760 := rfl
  rw [setMany, if_neg (by omega), if_neg (by simp)]
  exact ran_loop (ran_perm hp.symm hr h1) _

/-- C65: any two elements of a document are the same, one inside the other, or apart. -/
theorem C65_places (c d : Ctx) (e x : El) (h : c.plug (e.cons .nil) = d.plug (x.cons .nil)) :
    (c = d ∧ e = x) ∨ Apart c.addr d.addr ∨ (c.addr ≠ d.addr ∧ (c.addr <+: d.addr ∨ d.addr <+: c.addr)) := by
  by_cases h1 : c.addr = d.addr
  · exact .inl (addr_unique h h1)
  · by_cases h2 : c.addr <+: d.addr ∨ d.addr <+: c.addr
    · exact .inr (.inr ⟨h1, h2⟩)
    · exact .inr (.inl ⟨fun h => h2 (.inl h), fun h => h2 (.inr h)⟩)

/-! ### the kinds of writes -/

theorem attrVal_cons_self {a : Attr} {as : List Attr} (h : a.name ∉ as.map (·.name)) : attrVal (a :: as) a.name = some (unescapeXML a.raw) := by
  have : as.filter (fun b => b.name = a.name) = [] := by
    rw [List.filter_eq_nil_iff]
    intro b hb hh
    exact h (List.mem_map.mpr ⟨b, hb, by simpa using hh⟩)
  simp [attrVal, this]

theorem attrVal_cons_other {a : Attr} {as : List Attr} {k : Bytes} (h : k ≠ a.name) : attrVal (a :: as) k = attrVal as k := by
  simp [attrVal, List.filter_cons, Ne.symm h]

theorem attrVal_absent {as : List Attr} {k : Bytes} : attrVal as k = none ↔ k ∉ as.map (·.name) := by
  simp only [attrVal, Option.map_eq_none_iff, List.getLast?_eq_none_iff, List.filter_eq_nil_iff, decide_eq_true_eq, List.mem_map, not_exists, not_and]

/-- Attributes in the layout of the library and in order are determined by their values. -/
theorem neat_unique {as bs : List Attr} (ha : Neat as) (hb : Neat bs) (hsa : (as.map (·.name)).Pairwise LexBefore) (hsb : (bs.map (·.name)).Pairwise LexBefore)
    (h : ∀ k, attrVal as k = attrVal bs k) : as = bs := by
  induction as generalizing bs with
  | nil =>
    cases bs with
    | nil => rfl
    | cons b bs =>
      have := (attrVal_absent (as := b :: bs) (k := b.name)).mp (by rw [← h]; rfl)
      simp at this
  | cons a as ih =>
    cases bs with
    | nil =>
      have := (attrVal_absent (as := a :: as) (k := a.name)).mp (by rw [h]; rfl)
      simp at this
    | cons b bs =>
      simp only [List.map_cons] at hsa hsb
      obtain ⟨p1, p2⟩ := List.pairwise_cons.mp hsa
      obtain ⟨q1, q2⟩ := List.pairwise_cons.mp hsb
      have na : a.name ∉ as.map (·.name) := (List.nodup_cons.mp ha.2).1
      have nb : b.name ∉ bs.map (·.name) := (List.nodup_cons.mp hb.2).1
      have hn : a.name = b.name := by
        refine Classical.byContradiction fun hne => ?_
        have m1 : a.name ∈ (b :: bs).map (·.name) := Classical.byContradiction fun hh => by
          have := attrVal_absent.mpr hh; rw [← h, attrVal_cons_self na] at this; cases this
        have m2 : b.name ∈ (a :: as).map (·.name) := Classical.byContradiction fun hh => by
          have := attrVal_absent.mpr hh; rw [h, attrVal_cons_self nb] at this; cases this
        simp only [List.map_cons, List.mem_cons] at m1 m2
        have l1 := (bytesLt_iff _ _).mpr (q1 _ (m1.resolve_left hne))
        have l2 := (bytesLt_iff _ _).mpr (p1 _ (m2.resolve_left (Ne.symm hne)))
        have := bytesLt_trans l1 l2
        rw [bytesLt_irrefl] at this
        cases this
      have hab : a = b := by
        have hv := h a.name
        rw [attrVal_cons_self na, hn, attrVal_cons_self nb] at hv
        obtain ⟨a1, a2, a3, a4, va, a5⟩ := ha.1 a (by simp)
        obtain ⟨b1, b2, b3, b4, vb, b5⟩ := hb.1 b (by simp)
        rw [a5, b5, unescape_escape, unescape_escape] at hv
        cases a; cases b
        simp only [Option.some.injEq] at *
        subst a1 a2 a3 a4 a5 b1 b2 b3 b4 b5 hv hn
        rfl
      subst hab
      rw [ih (bs := bs) ⟨fun x hx => ha.1 x (by simp [hx]), (List.nodup_cons.mp ha.2).2⟩ ⟨fun x hx => hb.1 x (by simp [hx]), (List.nodup_cons.mp hb.2).2⟩ p2 q2 (fun k => ?_)]
      by_cases hk : k = a.name
      · subst hk; rw [attrVal_absent.mpr na, attrVal_absent.mpr nb]
      · have := h k
        rwa [attrVal_cons_other hk, attrVal_cons_other hk] at this

theorem retag_unique {e : El} {k : Bytes} {x : Option Bytes} {as bs : List Attr} (h1 : Retag e k x as) (h2 : Retag e k x bs) : as = bs :=
  neat_unique h1.neat h2.neat h1.sorted h2.sorted (fun j => by
    by_cases hj : j = k
    · subst hj; rw [h1.this, h2.this]
    · rw [h1.others j hj, h2.others j hj])

/-- C65: setting the text of an element is such a write ... -/
theorem C65_text (o : Ord) (ho : o.IsPerm) (ps : List Step) (parts : List Bytes) (hps : StepsText ps parts) (hpl : parts.length ≤ 100) (a : List Nat) (e : El) (hb : e.body ≠ none)
    (v : GoVal) (w : Bytes) (hv0 : v ≠ .nil) (hv : valueToXML v = some w) (hw : w.length ≤ 5242880) (hlt : c!"<" ∉ w) :
    Does o ⟨pathOf parts, v, ps, a, e, e.fill w⟩ := by
  refine ⟨rfl, fun c hL h hsz => ?_⟩
  simp only [] at hL h hsz ⊢
  rw [fill_render hb] at hsz ⊢
  exact ⟨set_existing ho hps hpl hL h hv0 hv hw, editable_fill h hb hlt hsz⟩

/-- C65: ... and so are giving it other content, ... -/
theorem C65_content (o : Ord) (ho : o.IsPerm) (ps : List Step) (parts : List Bytes) (hps : StepsText ps parts) (hpl : parts.length ≤ 100) (a : List Nat) (e : El) (hb : e.body ≠ none)
    (g : Forest) (hg : g.Legal ps.length) (hgt : g.Tame false) (hgn : g.Neat) (hw : g.render.length ≤ 5242880) :
    Does o ⟨pathOf parts, .raw g.render, ps, a, e, e.refill e.attrs e.ws g⟩ := by
  refine ⟨rfl, fun c hL h hsz => ?_⟩
  simp only [] at hL h hsz ⊢
  have hgood := editable_el h
  rw [leads_depth hL] at hg
  refine ⟨?_, editable_swapEl h (refill_good hgood (opened_kept hb) hg hgt (neatF_even hgn)) hsz⟩
  rw [set_existing ho hps hpl hL h (by simp) rfl hw]
  congr 2
  rw [plug_el_render]
  obtain ⟨nm, as, ws, body⟩ := e
  rcases body with _ | ⟨k0, cws⟩
  · exact absurd rfl hb
  · have : cws = [] := hgood.stable.1
    subst this
    simp [El.refill, El.start, El.inner, El.stop]

/-- C65: ... setting an attribute, ... -/
theorem C65_attribute (o : Ord) (ho : o.IsPerm) (ps : List Step) (parts : List Bytes) (hps : StepsText ps parts) (hpl : parts.length < 100) (a : List Nat) (e : El)
    (k : Bytes) (hk : IsName k) (v : GoVal) (s : Bytes) (hv0 : v ≠ .nil) (hv : valueToXML v = some (escapeXML s)) (hw : (escapeXML s).length ≤ 1048576)
    (hroom : attrVal e.attrs k ≠ none ∨ e.attrs.length < 100) (as : List Attr) (hr : Retag e k (some s) as) :
    Does o ⟨pathOf (parts ++ [c!"@" :: k]), v, ps, a, e, e.retag as⟩ := by
  refine ⟨rfl, fun c hL h hsz => ?_⟩
  simp only [] at hL h hsz ⊢
  have hbar : c!"|" ∉ k := (name_plain hk).noBar
  obtain ⟨as', h1, h2, h3⟩ := set_attr ho hps hpl hL h hbar hv0 hv (by omega)
  obtain rfl := retag_unique hr h1
  have hg := editable_el h
  obtain ⟨q1, q2⟩ := el_attrs hg.legal hg.tame
  obtain ⟨r1, r2⟩ := h3 q1 q2 hk hw hroom
  refine ⟨?_, editable_retag h r1 r2 hr.neat hsz⟩
  rw [h2, plug_render, cons_render]; simp [Forest.render]

/-- C65: ... creating missing elements in it ... -/
theorem C65_create (o : Ord) (ho : o.IsPerm) (ps : List Step) (parts : List Bytes) (hps : StepsText ps parts) (a : List Nat) (e : El) (hb : e.body ≠ none)
    (m : Bytes) (ns : List Bytes) (hn : ∀ n ∈ m :: ns, IsName n) (hpl : parts.length + (m :: ns).length ≤ 100) (hd : ps.length + (m :: ns).length ≤ 100) (hm : e.kids.info.named m = [])
    (v : GoVal) (w : Bytes) (hv0 : v ≠ .nil) (hv : valueToXML v = some w) (hw : w.length ≤ 5242880) (hlt : c!"<" ∉ w) :
    Does o ⟨pathOf (parts ++ m :: ns), v, ps, a, e, e.refill e.attrs e.ws (e.kids.append (chain (m :: ns) (.text w .nil)))⟩ := by
  refine ⟨rfl, fun c hL h hsz => ?_⟩
  simp only [] at hL h hsz ⊢
  obtain ⟨as, ws, h1, h2⟩ := set_missing ho hps hL h
  obtain ⟨rfl, rfl⟩ := h1.kept hb
  have hr := h2 m ns (fun n hh => name_plain (hn n hh)) hpl hm v w hv0 hv hw
  have e1 : (c.plug ((e.refill e.attrs e.ws (e.kids.append (chain (m :: ns) (.text w .nil)))).cons .nil)).render =
      c.before ++ (e.refill e.attrs e.ws (e.kids.append (chain (m :: ns) (.text w .nil)))).render ++ c.after := by
    rw [plug_render, cons_render]; simp [Forest.render]
  refine ⟨by rw [hr, e1], editable_created h (by simp) hn ?_ hlt h1 (by rw [← e1]; exact hsz)⟩
  rw [leads_depth hL] at hd
  exact hd

/-- C65: ... and appending an element to it. -/
theorem C65_append (o : Ord) (ho : o.IsPerm) (ps : List Step) (parts : List Bytes) (hps : StepsText ps parts) (hpl : parts.length ≤ 98) (a : List Nat) (e : El) (hb : e.body ≠ none)
    (x : Bytes) (hx : IsName x) (hd : ps.length < 100) (k1 k2 : Forest) (hk : e.kids = k1.append k2) (hal : AfterLast x k1 k2)
    (v : GoVal) (w : Bytes) (hv0 : v ≠ .nil) (hv : valueToXML v = some w) (hw : w.length ≤ 5242880) (hlt : c!"<" ∉ w) :
    Does o ⟨pathOf (parts ++ [x, b!"-1"]), v, ps, a, e, e.refill e.attrs e.ws (k1.append ((plainEl x w).cons k2))⟩ := by
  refine ⟨rfl, fun c hL h hsz => ?_⟩
  simp only [] at hL h hsz ⊢
  obtain ⟨as, ws, h1, h2⟩ := set_append ho hps hpl hL h
  obtain ⟨rfl, rfl⟩ := h1.kept hb
  have hr := h2 x (name_plain hx) k1 k2 hk hal v w hv0 hv hw
  have e1 : (c.plug ((e.refill e.attrs e.ws (k1.append ((plainEl x w).cons k2))).cons .nil)).render =
      c.before ++ (e.refill e.attrs e.ws (k1.append ((plainEl x w).cons k2))).render ++ c.after := by
    rw [plug_render, cons_render]; simp [Forest.render]
  rw [← e1] at hr
  rw [if_neg (by omega)] at hr
  refine ⟨hr, ?_⟩
  have hg := editable_el h
  obtain ⟨q1, q2, q3, -⟩ := el_kids_good hg
  rw [leads_depth hL] at hd
  rw [hk] at q1 q2 q3
  obtain ⟨r1, r2, -, r4⟩ := appended_good (w := w) hx hlt (by omega) q1 q2
  exact editable_swapEl h (refill_good hg h1 r1 r2 (r4 q3)) hsz

/-- C65: in particular two Sets at existing elements of which neither is inside the other may be exchanged. -/
theorem C65_two (o : Ord) (ho : o.IsPerm) (c1 c2 : Ctx) (e1 e2 : El) (heq : c1.plug (e1.cons .nil) = c2.plug (e2.cons .nil)) (h : Editable (c1.plug (e1.cons .nil)))
    (ha : Apart c1.addr c2.addr) (ps1 ps2 : List Step) (parts1 parts2 : List Bytes) (hp1 : StepsText ps1 parts1) (hp2 : StepsText ps2 parts2)
    (hl1 : parts1.length ≤ 100) (hl2 : parts2.length ≤ 100) (hL1 : Leads ps1 c1 e1.name) (hL2 : Leads ps2 c2 e2.name) (hb1 : e1.body ≠ none) (hb2 : e2.body ≠ none)
    (s1 s2 : Bytes) (hs1 : (escapeXML s1).length ≤ 5242880) (hs2 : (escapeXML s2).length ≤ 5242880)
    (hsz : (c1.plug (e1.cons .nil)).render.length + (e1.fill (escapeXML s1)).render.length + (e2.fill (escapeXML s2)).render.length ≤ 10485760) :
    ∃ r1 r2 r, set o (c1.plug (e1.cons .nil)).render (pathOf parts1) (.str s1) = .ret (r1, none) ∧ set o r1 (pathOf parts2) (.str s2) = .ret (r, none) ∧
      set o (c1.plug (e1.cons .nil)).render (pathOf parts2) (.str s2) = .ret (r2, none) ∧ set o r2 (pathOf parts1) (.str s1) = .ret (r, none) ∧ valid r = true := by
  have hlt : ∀ s, c!"<" ∉ escapeXML s := C20_no_markup
  have d1 := C65_text o ho ps1 parts1 hp1 hl1 c1.addr e1 hb1 (.str s1) _ (by simp) rfl hs1 (hlt s1)
  have d2 := C65_text o ho ps2 parts2 hp2 hl2 c2.addr e2 hb2 (.str s2) _ (by simp) rfl hs2 (hlt s2)
  have hr : Ready o (c1.plug (e1.cons .nil)) [⟨pathOf parts1, .str s1, ps1, c1.addr, e1, e1.fill (escapeXML s1)⟩, ⟨pathOf parts2, .str s2, ps2, c2.addr, e2, e2.fill (escapeXML s2)⟩] := by
    refine ⟨h, by simpa using ha, ?_, ?_, ?_⟩
    · simp only [List.mem_cons, List.not_mem_nil, or_false, forall_eq_or_imp, forall_eq]
      exact ⟨⟨c1, rfl, rfl, hL1⟩, ⟨c2, rfl, heq, hL2⟩⟩
    · simp only [List.mem_cons, List.not_mem_nil, or_false, forall_eq_or_imp, forall_eq]
      exact ⟨d1, d2⟩
    · simp only [total, List.map_cons, List.map_nil, List.sum_cons, List.sum_nil, Job.cost]; omega
  obtain ⟨f', g1, g2, -⟩ := ready_ran hr
  have g3 := ran_perm (.swap _ _ _) hr g1
  cases g1 with
  | cons a1 a2 =>
    cases a2 with
    | cons a2 a3 =>
      cases a3
      cases g3 with
      | cons b1 b2 =>
        cases b2 with
        | cons b2 b3 =>
          cases b3
          obtain ⟨-, -, -, -, -, a1, -⟩ := a1
          obtain ⟨-, -, -, -, -, a2, -⟩ := a2
          obtain ⟨-, -, -, -, -, b1, -⟩ := b1
          obtain ⟨-, -, -, -, -, b2, -⟩ := b2
          exact ⟨_, _, _, a1, a2, b1, b2, editable_valid g2⟩

/-! ### an example with four kinds of writes -/

/-- `<r>⟨…⟩</r>` with the four elements of the example; the hole is the element number `i`. -/
def mixKids (xs : List El) : Forest := xs.foldr (fun e f => e.cons f) .nil
def mixA : El := ⟨b!"a", [], [], some (.text b!"1" .nil, [])⟩
def mixB : El := ⟨b!"b", [⟨b!" ", b!"k", [], [], c!"\"", b!"v"⟩], [], none⟩
def mixC : El := ⟨b!"c", [], [], some (.node b!"d" [] [] (.text b!"2" .nil) [] .nil, [])⟩
def mixA2 : El := ⟨b!"a", [], [], some (.text b!"3" .nil, [])⟩
def mixRoot (c : Ctx) : Ctx := .within .nil b!"r" [] [] c [] .nil
def mixB1 : El := ⟨b!"b", [⟨b!" ", b!"j", [], [], c!"\"", b!"&lt;"⟩, ⟨b!" ", b!"k", [], [], c!"\"", b!"v"⟩], [], none⟩
def mixJobs : List Job :=
  [⟨b!"r.a", .str b!"x", [(b!"r", 0), (b!"a", 0)], [0, 0], mixA, mixA.fill b!"x"⟩,
   ⟨b!"r.b.@j", .str b!"<", [(b!"r", 0), (b!"b", 0)], [0, 1], mixB, mixB.retag mixB1.attrs⟩,
   ⟨b!"r.c.e.f", .int 7, [(b!"r", 0), (b!"c", 0)], [0, 2], mixC, mixC.refill mixC.attrs mixC.ws (mixC.kids.append (chain [b!"e", b!"f"] (.text b!"7" .nil)))⟩,
   ⟨b!"r.a.1", .bool true, [(b!"r", 0), (b!"a", 1)], [0, 3], mixA2, mixA2.fill b!"true"⟩]
def mixDoc : Forest := (mixRoot (.here .nil (mixKids [mixB, mixC, mixA2]))).plug (mixA.cons .nil)
theorem mixDoc_text : mixDoc.render = b!"<r><a>1</a><b k=\"v\"/><c><d>2</d></c><a>3</a></r>" := by decide +kernel

/-- All hypotheses of C65_set_many hold for it. -/
theorem mixJobs_ready : Editable mixDoc ∧ mixJobs.Pairwise (fun i j => Apart i.addr j.addr) ∧ (∀ j ∈ mixJobs, j.Fits mixDoc) ∧ (∀ j ∈ mixJobs, Does exEnv.ord j) ∧
    mixDoc.render.length + (mixJobs.map Job.cost).sum ≤ 10485760 := by
  refine ⟨editable_of (by decide +kernel), by unfold Apart; decide +kernel, ?_, ?_, by decide +kernel⟩
  · simp only [mixJobs, List.mem_cons, List.not_mem_nil, or_false, forall_eq_or_imp, forall_eq]
    exact ⟨⟨mixRoot (.here .nil (mixKids [mixB, mixC, mixA2])), by decide +kernel, by decide +kernel, by decide +kernel, by decide +kernel, by decide +kernel, by decide +kernel⟩,
      ⟨mixRoot (.here (mixKids [mixA]) (mixKids [mixC, mixA2])), by decide +kernel, by decide +kernel, by decide +kernel, by decide +kernel, by decide +kernel, by decide +kernel⟩,
      ⟨mixRoot (.here (mixKids [mixA, mixB]) (mixKids [mixA2])), by decide +kernel, by decide +kernel, by decide +kernel, by decide +kernel, by decide +kernel, by decide +kernel⟩,
      ⟨mixRoot (.here (mixKids [mixA, mixB, mixC]) .nil), by decide +kernel, by decide +kernel, by decide +kernel, by decide +kernel, by decide +kernel, by decide +kernel⟩⟩
  · simp only [mixJobs, List.mem_cons, List.not_mem_nil, or_false, forall_eq_or_imp, forall_eq]
    refine ⟨C65_text exEnv.ord exEnv_perm _ [b!"r", b!"a"] (.name (plain_of (by decide)) (.name (plain_of (by decide)) .nil)) (by decide) _ _ (by decide) _ _ (by simp) rfl (by decide) (by decide),
      C65_attribute exEnv.ord exEnv_perm _ [b!"r", b!"b"] (.name (plain_of (by decide)) (.name (plain_of (by decide)) .nil)) (by decide) _ _ b!"j" (by decide) _ b!"<" (by simp) rfl (by decide)
        (.inr (by decide)) _ ?_,
      C65_create exEnv.ord exEnv_perm _ [b!"r", b!"c"] (.name (plain_of (by decide)) (.name (plain_of (by decide)) .nil)) _ _ (by decide) b!"e" [b!"f"] (by decide) (by decide) (by decide) (by decide +kernel)
        _ _ (by simp) (by decide +kernel) (by decide) (by decide),
      C65_text exEnv.ord exEnv_perm _ [b!"r", b!"a", b!"1"] (.name (plain_of (by decide)) (.index (plain_of (by decide)) (.digit c!"1" (by decide)) (by decide) .nil)) (by decide) _ _ (by decide) _ _
        (by simp) rfl (by decide) (by decide)⟩
    refine ⟨by decide +kernel, ?_, by decide +kernel, fun j hj => attrVal_cons_other hj⟩
    exact List.pairwise_cons.mpr ⟨by simpa using LexBefore.head [] [] (by decide), by simp⟩

/-- So the four writes give one document, whatever the order. -/
example : ∃ f', ∀ js : List Job, js.Perm mixJobs → setMany exEnv.ord b!"<r><a>1</a><b k=\"v\"/><c><d>2</d></c><a>3</a></r>" (js.map Job.path) (js.map Job.value) = .ret (Forest.render f', none) := by
  obtain ⟨h1, h2, h3, h4, h5⟩ := mixJobs_ready
  obtain ⟨f', -, -, -, h⟩ := C65_set_many exEnv.ord mixDoc mixJobs h1 h2 h3 h4 h5
  rw [mixDoc_text] at h
  exact ⟨f', h⟩
example : setMany exEnv.ord b!"<r><a>1</a><b k=\"v\"/><c><d>2</d></c><a>3</a></r>" [b!"r.a", b!"r.b.@j", b!"r.c.e.f", b!"r.a.1"] [.str b!"x", .str b!"<", .int 7, .bool true] =
    .ret (b!"<r><a>x</a><b j=\"&lt;\" k=\"v\"/><c><d>2</d><e><f>7</f></e></c><a>true</a></r>", none) := by decide +kernel

/-- C65: places inside one another are not independent, nor are two new elements of one parent, nor Set and Delete of the same name. -/
theorem C65_dependent :
    setMany exEnv.ord b!"<r><a><b>1</b></a></r>" [b!"r.a", b!"r.a.b"] [.str b!"x", .str b!"y"] = .ret (b!"<r><a>x<b>y</b></a></r>", none) ∧
    setMany exEnv.ord b!"<r><a><b>1</b></a></r>" [b!"r.a.b", b!"r.a"] [.str b!"y", .str b!"x"] = .ret (b!"<r><a>x</a></r>", none) ∧
    setMany exEnv.ord b!"<r></r>" [b!"r.a", b!"r.b"] [.int 1, .int 2] = .ret (b!"<r><a>1</a><b>2</b></r>", none) ∧
    setMany exEnv.ord b!"<r></r>" [b!"r.b", b!"r.a"] [.int 2, .int 1] = .ret (b!"<r><b>2</b><a>1</a></r>", none) ∧
    setMany exEnv.ord b!"<r><a>1</a><a>2</a></r>" [b!"r.a", b!"r.a.1"] [.nil, .int 3] = .ret (b!"<r><a>2<>3</></a></r>", none) ∧
    setMany exEnv.ord b!"<r><a>1</a><a>2</a></r>" [b!"r.a.1", b!"r.a"] [.int 3, .nil] = .ret (b!"<r><a>3</a></r>", none) := by decide +kernel

end Verif.Props
