import Verif.Spec.Apart
import Verif.Lemmas.Apart
import Verif.Props.Commute
import Verif.Props.First
namespace Verif.Props
open Spec

/-! ## C90 Writes and reads at places apart do not disturb each other, whatever paths lead there -/

theorem leadTo_reach {cs : Bool} {c c' : Ctx} (h : ∀ hs n, Reach cs hs c n → Reach cs hs c' n) {ss : List Bytes} {n : Bytes} (hl : LeadTo cs ss c n) : LeadTo cs ss c' n := by
  obtain ⟨hs, h1, h2⟩ := hl
  exact ⟨hs, h1, h _ _ h2⟩

/-- In every document of the class in which the steps lead to `old`, Set with the path and the value of the job puts `new` in its place (of the same name) and
changes nothing else, and the document stays in the class, if it does not become too long. -/
def DoesAny (j : Write) : Prop := j.new.name = j.old.name ∧
  ∀ c : Ctx, LeadTo j.opts.caseSensitive j.steps c j.old.name → Editable (c.plug (j.old.cons .nil)) → (c.plug (j.new.cons .nil)).render.length ≤ 10485760 →
    (∀ o : Ord, o.IsPerm → setWithOptions o (c.plug (j.old.cons .nil)).render j.path j.value (some j.opts) = .ret ((c.plug (j.new.cons .nil)).render, none)) ∧ Editable (c.plug (j.new.cons .nil))

/-- One write. -/
def StepAny (j : Write) (f f' : Forest) : Prop :=
  ∃ c : Ctx, c.addr = j.addr ∧ LeadTo j.opts.caseSensitive j.steps c j.old.name ∧ f = c.plug (j.old.cons .nil) ∧ f' = c.plug (j.new.cons .nil) ∧
    (∀ o : Ord, o.IsPerm → setWithOptions o f.render j.path j.value (some j.opts) = .ret (f'.render, none)) ∧ Editable f'

/-- One write after the other. -/
inductive RanAny : Forest → List Write → Forest → Prop
  | nil (f : Forest) : RanAny f [] f
  | cons {f f1 f' : Forest} {j : Write} {js : List Write} : StepAny j f f1 → RanAny f1 js f' → RanAny f (j :: js) f'

def totalAny (js : List Write) : Nat := (js.map Write.cost).sum

/-- Everything the writes need. -/
structure ReadyAny (f : Forest) (js : List Write) : Prop where
  ed : Editable f
  apart : js.Pairwise (fun i j => Apart i.addr j.addr)
  fits : ∀ j ∈ js, j.Fits f
  does : ∀ j ∈ js, DoesAny j
  size : f.render.length + totalAny js ≤ 10485760

theorem stepAny_keeps {j : Write} {f f' : Forest} (h : StepAny j f f') (hn : j.new.name = j.old.name) {i : Write} (ha : Apart j.addr i.addr) :
    (i.Fits f → i.Fits f') ∧ (i.Done f → i.Done f') := by
  obtain ⟨c, h1, h2, rfl, rfl, -⟩ := h
  refine ⟨?_, ?_⟩ <;> rintro ⟨d, d1, d2, d3⟩
  · obtain ⟨c', d', g1, g2, g3, g4, g5, g6, g7⟩ := places_apart_reach (x' := i.old) d2 (by rw [h1, d1]; exact ha) hn rfl
    exact ⟨d', by rw [g2, d1], g5, leadTo_reach (g4 _) d3⟩
  · obtain ⟨c', d', g1, g2, g3, g4, g5, g6, g7⟩ := places_apart_reach (x' := i.new) d2 (by rw [h1, d1]; exact ha) hn rfl
    exact ⟨d', by rw [g2, d1], g5, leadTo_reach (g4 _) d3⟩

theorem stepAny_done {j : Write} {f f' : Forest} (h : StepAny j f f') (hn : j.new.name = j.old.name) : j.Done f' := by
  obtain ⟨c, h1, h2, -, rfl, -⟩ := h
  exact ⟨c, h1, rfl, hn ▸ h2⟩

theorem readyAny_step {f : Forest} {j : Write} {js : List Write} (h : ReadyAny f (j :: js)) : ∃ f', StepAny j f f' := by
  obtain ⟨c, h1, rfl, h3⟩ := h.fits j (by simp)
  have hs := h.size
  simp only [totalAny, List.map_cons, List.sum_cons, Write.cost] at hs
  have := step_size (c := c) (e := j.old) (e' := j.new)
  obtain ⟨g1, g2⟩ := (h.does j (by simp)).2 c h3 h.ed (by omega)
  exact ⟨_, c, h1, h3, rfl, rfl, g1, g2⟩

theorem readyAny_next {f f' : Forest} {j : Write} {js : List Write} (h : ReadyAny f (j :: js)) (hs : StepAny j f f') : ReadyAny f' js := by
  have hn := (h.does j (by simp)).1
  refine ⟨by obtain ⟨c, -, -, -, -, -, g⟩ := hs; exact g, (List.pairwise_cons.mp h.apart).2, fun i hi => ?_, fun i hi => h.does i (by simp [hi]), ?_⟩
  · exact (stepAny_keeps hs hn ((List.pairwise_cons.mp h.apart).1 i hi)).1 (h.fits i (by simp [hi]))
  · have hz := h.size
    simp only [totalAny, List.map_cons, List.sum_cons, Write.cost] at hz ⊢
    obtain ⟨c, h1, h2, rfl, rfl, -⟩ := hs
    have := step_size (c := c) (e := j.old) (e' := j.new)
    omega

theorem ranAny_keeps {f f' : Forest} {js : List Write} (h : RanAny f js f') (hd : ∀ j ∈ js, DoesAny j) {i : Write} (ha : ∀ j ∈ js, Apart i.addr j.addr) (hi : i.Done f) : i.Done f' := by
  induction h with
  | nil => exact hi
  | cons h1 h2 ih =>
    exact ih (fun j hj => hd j (by simp [hj])) (fun j hj => ha j (by simp [hj])) ((stepAny_keeps h1 (hd _ (by simp)).1 (ha _ (by simp)).symm).2 hi)

theorem readyAny_ran {f : Forest} {js : List Write} (h : ReadyAny f js) : ∃ f', RanAny f js f' ∧ Editable f' ∧ ∀ j ∈ js, j.Done f' := by
  induction js generalizing f with
  | nil => exact ⟨f, .nil f, h.ed, by simp⟩
  | cons j js ih =>
    obtain ⟨f1, h1⟩ := readyAny_step h
    obtain ⟨f', h2, h3, h4⟩ := ih (readyAny_next h h1)
    refine ⟨f', .cons h1 h2, h3, fun i hi => ?_⟩
    rcases List.mem_cons.mp hi with rfl | hi
    · exact ranAny_keeps h2 (fun j hj => h.does j (by simp [hj])) (List.pairwise_cons.mp h.apart).1 (stepAny_done h1 (h.does i (by simp)).1)
    · exact h4 i hi

theorem readyAny_perm {f : Forest} {js js' : List Write} (hp : js.Perm js') (h : ReadyAny f js) : ReadyAny f js' :=
  ⟨h.ed, (hp.pairwise_iff (fun h => Apart.symm h)).mp h.apart, fun j hj => h.fits j (hp.mem_iff.mpr hj), fun j hj => h.does j (hp.mem_iff.mpr hj), by
    have := h.size
    simp only [totalAny] at this ⊢
    rwa [← (hp.map Write.cost).sum_nat]⟩

theorem ranAny_perm {js js' : List Write} (hp : js.Perm js') {f f' : Forest} (h : ReadyAny f js) (hr : RanAny f js f') : RanAny f js' f' := by
  induction hp generalizing f with
  | nil => exact hr
  | cons j hp ih =>
    cases hr with
    | cons h1 h2 => exact .cons h1 (ih (readyAny_next h h1) h2)
  | trans hp1 hp2 ih1 ih2 => exact ih2 (readyAny_perm hp1 h) (ih1 h hr)
  | swap j1 j2 l =>
    cases hr with
    | cons h1 h2 =>
      cases h2 with
      | @cons _ f2 _ _ _ h2 h3 =>
        have ha : Apart j2.addr j1.addr := (List.pairwise_cons.mp h.apart).1 j1 (by simp)
        have n1 := (h.does j1 (by simp)).1
        have n2 := (h.does j2 (by simp)).1
        have h' : ReadyAny f (j1 :: j2 :: l) := readyAny_perm (.swap _ _ _) h
        obtain ⟨g1, s1⟩ := readyAny_step h'
        have hr1 := readyAny_next h' s1
        obtain ⟨g2, s2⟩ := readyAny_step hr1
        have meet : g2 = f2 := by
          obtain ⟨c2, p1, p2, p3, rfl, p5, p6⟩ := h1
          obtain ⟨d, q1, q2, q3, q4, q5, q6⟩ := h2
          obtain ⟨a, r1, r2, r3, rfl, r5, r6⟩ := s1
          obtain ⟨b, t1, t2, t3, t4, t5, t6⟩ := s2
          obtain ⟨c', d', k1, k2, -, -, k5, k6, k7⟩ := places_apart_reach (p3.symm.trans r3) (by rw [p1, r1]; exact ha) n2 n1
          obtain ⟨rfl, -⟩ := addr_unique (k5.symm.trans q3) (by rw [k2, r1, q1])
          obtain ⟨rfl, -⟩ := addr_unique (k6.symm.trans t3) (by rw [k1, p1, t1])
          exact t4.trans (k7.trans q4.symm)
        rw [← meet] at h3
        exact .cons s1 (.cons s2 h3)

theorem ranAny_others {f f' : Forest} {js : List Write} (h : RanAny f js f') (hd : ∀ j ∈ js, DoesAny j) {a : List Nat} {e : El} {c0 : Ctx} (ha : ∀ j ∈ js, Apart a j.addr)
    (hi : ∃ c : Ctx, c.addr = a ∧ f = c.plug (e.cons .nil) ∧ ∀ cs ss, LeadTo cs ss c0 e.name → LeadTo cs ss c e.name) : ∃ c : Ctx, c.addr = a ∧ f' = c.plug (e.cons .nil) ∧ ∀ cs ss, LeadTo cs ss c0 e.name → LeadTo cs ss c e.name := by
  induction h with
  | nil => exact hi
  | @cons f f1 f' j js h1 h2 ih =>
    refine ih (fun j hj => hd j (by simp [hj])) (fun j hj => ha j (by simp [hj])) ?_
    obtain ⟨d, d1, d2, d3⟩ := hi
    obtain ⟨c, c1, -, c3, rfl, -⟩ := h1
    obtain ⟨c', d', -, g2, -, g4, g5, -, -⟩ := places_apart_reach (x' := e) (c3.symm.trans d2) (by rw [c1, d1]; exact (ha j (by simp)).symm) (hd j (by simp)).1 rfl
    exact ⟨d', by rw [g2, d1], g5, fun cs ss hl => leadTo_reach (g4 cs) (d3 cs ss hl)⟩

theorem ranAny_calls {f f' : Forest} {js : List Write} (h : RanAny f js f') : WriteCalls f.render js f'.render := by
  induction h with
  | nil => exact .nil _
  | cons h1 h2 ih =>
    obtain ⟨-, -, -, -, -, h1, -⟩ := h1
    exact .cons h1 ih

/-- C90: writes at places of which none is inside another, with paths and options of any kind, lead to the same document in whatever order they are made: each is done, and the elements at
all other places remain as they are. -/
theorem C90_any_order (f : Forest) (js : List Write) (hf : Editable f) (ha : js.Pairwise (fun i j => Apart i.addr j.addr))
    (hfit : ∀ j ∈ js, j.Fits f) (hd : ∀ j ∈ js, DoesAny j) (hs : f.render.length + (js.map Write.cost).sum ≤ 10485760) :
    ∃ f', Editable f' ∧ (∀ j ∈ js, j.Done f') ∧
      (∀ (c : Ctx) (e : El), f = c.plug (e.cons .nil) → (∀ j ∈ js, Apart c.addr j.addr) → ∃ c' : Ctx, c'.addr = c.addr ∧ f' = c'.plug (e.cons .nil) ∧
        ∀ cs ss, LeadTo cs ss c e.name → LeadTo cs ss c' e.name) ∧
      ∀ js' : List Write, js'.Perm js → WriteCalls f.render js' f'.render := by
  have hr : ReadyAny f js := ⟨hf, ha, hfit, hd, hs⟩
  obtain ⟨f', h1, h2, h3⟩ := readyAny_ran hr
  exact ⟨f', h2, h3, fun c e hc ha => ranAny_others h1 hd ha ⟨c, rfl, hc, fun _ _ h => h⟩, fun js' hp => ranAny_calls (ranAny_perm hp.symm hr h1)⟩

theorem calls_loop {o : Ord} (ho : o.IsPerm) {x y : Bytes} {js : List Write} (h : WriteCalls x js y) (hj : ∀ j ∈ js, j.opts = defaultOptions) (orig : Bytes) :
    setManyLoop o orig x ((js.map Write.path).zip (js.map Write.value)) = .ret (y, none) := by
  induction h with
  | nil => rfl
  | @cons x y z j js h1 h2 ih =>
    have h1 := h1 o ho
    rw [hj j (by simp)] at h1
    simp only [List.map_cons, List.zip_cons_cons, setManyLoop, Verif.set, h1]
    exact ih fun i hi => hj i (by simp [hi])

/-- C90: with the default options the writes may be one call of SetMany, in any order. -/
theorem C90_set_many (o : Ord) (ho : o.IsPerm) (f : Forest) (js : List Write) (hf : Editable f) (ha : js.Pairwise (fun i j => Apart i.addr j.addr))
    (hfit : ∀ j ∈ js, j.Fits f) (hd : ∀ j ∈ js, DoesAny j) (hs : f.render.length + (js.map Write.cost).sum ≤ 10485760) (hopts : ∀ j ∈ js, j.opts = defaultOptions) :
    ∃ f', Editable f' ∧ (∀ j ∈ js, j.Done f') ∧ ∀ js' : List Write, js'.Perm js → setMany o f.render (js'.map Write.path) (js'.map Write.value) = .ret (f'.render, none) := by
  obtain ⟨f', h1, h2, -, h4⟩ := C90_any_order f js hf ha hfit hd hs
  refine ⟨f', h1, h2, fun js' hp => ?_⟩
  have := hf.1
  have hm : maxDocumentSize = 10485760 := rfl
  rw [setMany, if_neg (by omega), if_neg (by simp)]
  exact calls_loop ho (h4 js' hp) (fun j hj => hopts j (hp.mem_iff.mp hj)) _

/-- C90: and a path that leads Get to another place (as in C89) first finds there after the writes what it found before. -/
theorem C90_reads (env : Env) (ho : env.ord.IsPerm) (opts : Options) {c : Ctx} {e : El} (js : List Write) (hf : Editable (c.plug (e.cons .nil))) (ha : js.Pairwise (fun i j => Apart i.addr j.addr))
    (hfit : ∀ j ∈ js, j.Fits (c.plug (e.cons .nil))) (hd : ∀ j ∈ js, DoesAny j) (hs : (c.plug (e.cons .nil)).render.length + (js.map Write.cost).sum ≤ 10485760)
    (hq : ∀ j ∈ js, Apart c.addr j.addr) {q : Bytes} {ss : List Bytes} (hp : PathSteps q ss) (hb : c!"|" ∉ q) (hah : Ahead ss) (hl : LeadTo opts.caseSensitive ss c e.name) :
    ∃ x, WriteCalls (c.plug (e.cons .nil)).render js x ∧ ∃ a b r s, getWithOptions env (c.plug (e.cons .nil)).render q (some opts) = .ret a ∧ a.array.head? = some r ∧ IsElement r e.node ∧
      getWithOptions env x q (some opts) = .ret b ∧ b.array.head? = some s ∧ IsElement s e.node ∧ r.typ = s.typ ∧ r.toStr = s.toStr := by
  obtain ⟨f', h1, -, h3, h4⟩ := C90_any_order _ js hf ha hfit hd hs
  obtain ⟨c', -, rfl, h5⟩ := h3 c e rfl hq
  obtain ⟨a, r, g1, g2, g3⟩ := C89_place env ho opts (editable_sound hf) hp hb hah hl
  obtain ⟨b, s, k1, k2, k3⟩ := C89_place env ho opts (editable_sound h1) hp hb hah (h5 _ _ hl)
  exact ⟨_, h4 js (.refl _), a, b, r, s, g1, g2, g3, k1, k2, k3, g3.typ.trans k3.typ.symm, g3.str.trans k3.str.symm⟩

/-! ### the kinds of writes -/

theorem retagBy_unique {cs : Bool} {e : El} {k : Bytes} {x : Option Bytes} {as bs : List Attr} (h1 : RetagBy cs e k x as) (h2 : RetagBy cs e k x bs) : as = bs :=
  neat_unique h1.neat h2.neat h1.sorted h2.sorted (fun j => by
    by_cases hj : sameKey cs j k
    · by_cases hne : ∃ j', sameKey cs j' k ∧ Spec.attrVal e.attrs j' ≠ none
      · by_cases hjn : Spec.attrVal e.attrs j = none
        · rw [h1.no j hj hne hjn, h2.no j hj hne hjn]
        · rw [h1.this j hj hjn, h2.this j hj hjn]
      · have hno : ∀ j, sameKey cs j k → Spec.attrVal e.attrs j = none := fun j' h => Classical.byContradiction fun hc => hne ⟨j', h, hc⟩
        rw [h1.new hno j hj, h2.new hno j hj]
    · rw [h1.others j hj, h2.others j hj])

theorem reach_deep {cs : Bool} {hs : List Hop} {c : Ctx} {n : Bytes} (h : Reach cs hs c n) : hs.length = c.depth + 1 := by
  induction hs generalizing c with
  | nil => simp [Reach] at h
  | cons p hs ih =>
    cases hs with
    | nil => cases c <;> simp_all [Reach, Ctx.depth]
    | cons q hs =>
      cases c with
      | here b a => simp [Reach] at h
      | within b nm as ws c w2 a =>
        simp only [Reach] at h
        have := ih h.2.2
        simp only [List.length_cons, Ctx.depth] at this ⊢
        omega

theorem trail_short {ss : List Bytes} {t : Option (List Hop)} (h : Trail ss t) : ∀ hs, t = some hs → hs.length ≤ ss.length := by
  induction h with
  | nil => rintro hs h; injection h with h; subst h; simp
  | nth hp hd hj h ih =>
    rintro hs h
    obtain ⟨hs', h1, rfl⟩ := Option.map_eq_some_iff.mp h
    have := ih _ h1
    simp only [List.length_cons]; omega
  | first hp hd h ih =>
    rintro hs h
    obtain ⟨hs', h1, rfl⟩ := Option.map_eq_some_iff.mp h
    have := ih _ h1
    simp only [List.length_cons]; omega
  | negative => rintro hs h; simp at h
  | lost => rintro hs h; simp at h

theorem pathSteps_short {p : Bytes} {ss : List Bytes} (h : PathSteps p ss) : ss.length ≤ 100 := by
  obtain ⟨parts, -, h1, -, h2⟩ := h
  have : ss.length ≤ parts.length := by
    clear h1
    induction h2 with
    | nil => simp
    | idle _ _ ih => simp only [List.length_cons]; omega
    | busy _ _ ih => simp only [List.length_cons]; omega
  omega

theorem deepest_of_count {cs : Bool} {ps ns : List Bytes} {m : Bytes} {c : Ctx} {e : El} (hl : LeadTo cs ps c e.name) (hn : ∀ x ∈ m :: ns, IsName x) (hm : e.kids.info.count cs (.name m) = 0) :
    Deepest cs (ps ++ m :: ns) ps (m :: ns) c e := by
  refine ⟨rfl, by simp, hl, fun qs rest hq hlen => ?_⟩
  obtain ⟨hs, ht, hr⟩ := hl
  obtain ⟨ms, h1, h2⟩ := List.append_eq_append_iff.mp hq |>.resolve_right (by
    rintro ⟨x, rfl, -⟩; simp at hlen; omega)
  cases ms with
  | nil => subst h1; simp at hlen
  | cons m' ms =>
    obtain ⟨rfl, h2⟩ := List.cons.inj h2
    subst h1
    have hne : hs ≠ [] := by rintro rfl; simp [Reach] at hr
    have htr := trail_more (rest := m :: ms) ht (fun x hx => hn x (by
      rcases List.mem_cons.mp hx with rfl | hx
      · simp
      · simp [h2, hx])) rfl
    refine nowhere_spot htr ?_
    rw [spot_append cs hne (by simp), reach_spot hr]
    have h0 : (e.kids.info.elems.filter (fun e => (Pick.name m).takes cs e.name)) = [] := List.eq_nil_of_length_eq_zero hm
    have hk := el_node_kids e
    simp only [Option.bind_some, hk, List.map_cons]
    cases ms <;> simp [Info.spot, h0]

/-- C90: such writes are: the text of an element that is not self-closing, ... -/
theorem C90_text (opts : Options) {p : Bytes} {ss : List Bytes} (hp : PathSteps p ss) (a : List Nat) (e : El) (hb : e.body ≠ none) (v : GoVal) (w : Bytes) (hv0 : v ≠ .nil) (hv : valueToXML v = some w)
    (hw : w.length ≤ 5242880) (hlt : c!"<" ∉ w) : DoesAny ⟨p, v, opts, ss, a, e, e.fill w⟩ := by
  refine ⟨rfl, fun c hL h hsz => ?_⟩
  simp only [] at hL h hsz ⊢
  rw [fill_render hb] at hsz ⊢
  exact ⟨fun o ho => C79_set ho opts h hp hL hv0 hv hw, editable_fill h hb hlt hsz⟩

/-- C90: ... one of its attributes, ... -/
theorem C90_attribute (opts : Options) {p : Bytes} {qs : List Bytes} {k : Bytes} (hk : IsName k) (hp : PathSteps p (qs ++ [c!"@" :: k])) (hbar : c!"|" ∉ k) (a : List Nat) (e : El) (v : GoVal) (s : Bytes) (hv0 : v ≠ .nil)
    (hv : valueToXML v = some (escapeXML s)) (hw : (escapeXML s).length ≤ 1048576) (hroom : (∃ j, sameKey opts.caseSensitive j k ∧ Spec.attrVal e.attrs j ≠ none) ∨ e.attrs.length < 100)
    (as : List Attr) (hr : RetagBy opts.caseSensitive e k (some s) as) : DoesAny ⟨p, v, opts, qs, a, e, e.retag as⟩ := by
  refine ⟨rfl, fun c hL h hsz => ?_⟩
  simp only [] at hL h hsz ⊢
  have hkb : beforeBar (c!"@" :: k) = c!"@" :: k := beforeBar_plain (by simp [hbar])
  have hg := editable_el h
  obtain ⟨l1, l2⟩ := el_attrs hg.legal hg.tame
  obtain ⟨f1, f2⟩ := retagBy_fits hr l1 l2 hk hw hroom
  refine ⟨fun o ho => ?_, editable_retag h f1 f2 hr.neat hsz⟩
  obtain ⟨as', h1, h2⟩ := C79_set_attribute ho opts h hp ⟨k, rfl⟩ hL hv0 hv (by omega)
  rw [hkb, List.drop_one, List.tail_cons] at h1
  obtain rfl := retagBy_unique hr h1
  rw [h2, plug_el_render]; simp [El.render]

/-- C90: ... and new elements inside it, for names that it does not have. -/
theorem C90_create (opts : Options) (hi : c!"<" ∉ opts.indent) {p : Bytes} {ps : List Bytes} {m : Bytes} {ns : List Bytes} (hp : PathSteps p (ps ++ m :: ns)) (hn : ∀ n ∈ m :: ns, IsName n) (a : List Nat) (e : El) (hb : e.body ≠ none)
    (hm : e.kids.info.count opts.caseSensitive (.name m) = 0) (v : GoVal) (w : Bytes) (hv0 : v ≠ .nil) (hv : valueToXML v = some w) (hw : w.length ≤ 5242880) (hlt : c!"<" ∉ w) :
    DoesAny ⟨p, v, opts, ps, a, e, e.refill e.attrs e.ws (e.kids.append (chainF opts.indent 0 ((m :: ns).map (spelling opts.caseSensitive)) (.text w .nil)))⟩ := by
  refine ⟨rfl, fun c hL h hsz => ?_⟩
  simp only [] at hL h hsz ⊢
  have hD := deepest_of_count hL hn hm
  have hren : (chainF opts.indent 0 ((m :: ns).map (spelling opts.caseSensitive)) (.text w .nil)).render =
      slotLines opts.indent 0 ((m :: ns).map fun m => some (spelling opts.caseSensitive m)) w := by
    rw [chainF_render, ← slotLines_names, List.map_map]; simp [Function.comp_def]
  have e1 : (c.plug ((e.refill e.attrs e.ws (e.kids.append (chainF opts.indent 0 ((m :: ns).map (spelling opts.caseSensitive)) (.text w .nil)))).cons .nil)).render =
      c.before ++ (e.refill e.attrs e.ws (e.kids.append (chainF opts.indent 0 ((m :: ns).map (spelling opts.caseSensitive)) (.text w .nil)))).render ++ c.after := by
    rw [plug_render, cons_render]; simp [Forest.render]
  have hdep : c.depth + 1 + (m :: ns).length ≤ 100 := by
    obtain ⟨hs, ht, hr⟩ := hL
    have h1 := reach_deep hr
    have h2 := trail_short ht _ rfl
    have h3 := pathSteps_short hp
    simp only [List.length_append] at h3
    omega
  refine ⟨fun o ho => ?_, editable_createdB hi h (by simp) (fun x hx => by
    obtain ⟨y, h1, rfl⟩ := List.mem_map.mp hx; exact spelling_name (hn y h1)) (by simpa using hdep) hlt ⟨fun _ => ⟨rfl, rfl⟩, fun h => absurd h hb⟩ (by rw [← e1]; exact hsz)⟩
  obtain ⟨as, ws, ho1, ho2⟩ := C79_create ho opts h hp hD (fun x hx => isName_negative (hn x hx)) (slots_isName hn) (by rw [List.getLast?_map]; cases (m :: ns).getLast? <;> simp)
  obtain ⟨rfl, rfl⟩ := ho1.kept hb
  rw [ho2 v w hv0 hv hw, e1, ← hren]
  congr 4
  obtain ⟨nm, eas, ews, bd⟩ := e
  cases bd <;> simp [El.refill, El.render, El.start, El.inner, El.stop, El.kids, append_render, Forest.render]

/-! ### the last write wins -/

/-- C90: of two writes of text with the same path and options the second wins, the first leaves no trace; ... -/
theorem C90_last_wins {o : Ord} (ho : o.IsPerm) (opts : Options) {c : Ctx} {e : El} (h : Editable (c.plug (e.cons .nil))) (hb : e.body ≠ none) {p : Bytes} {ss : List Bytes} (hp : PathSteps p ss)
    (hl : LeadTo opts.caseSensitive ss c e.name) {v1 v2 : GoVal} {w1 w2 : Bytes} (h10 : v1 ≠ .nil) (h20 : v2 ≠ .nil) (hv1 : valueToXML v1 = some w1) (hv2 : valueToXML v2 = some w2)
    (hw1 : w1.length ≤ 5242880) (hw2 : w2.length ≤ 5242880) (hlt : c!"<" ∉ w1) :
    ∃ x, setWithOptions o (c.plug (e.cons .nil)).render p v1 (some opts) = .ret (x, none) ∧
      (x.length ≤ 10485760 → setWithOptions o x p v2 (some opts) = setWithOptions o (c.plug (e.cons .nil)).render p v2 (some opts)) := by
  have h1 := C79_set ho opts h hp hl h10 hv1 hw1
  rw [← fill_render hb] at h1
  refine ⟨_, h1, fun hsz => ?_⟩
  have he := editable_fill h hb hlt (by rw [fill_render hb] at hsz; exact hsz)
  rw [C79_set ho opts (e := e.fill w1) he hp hl h20 hv2 hw2, C79_set ho opts h hp hl h20 hv2 hw2]
  obtain ⟨nm, as, ws, bd⟩ := e
  cases bd with
  | none => exact absurd rfl hb
  | some bd => rfl

/-- C90: ... also where the first write created the element. -/
theorem C90_last_wins_create {o : Ord} (ho : o.IsPerm) (opts : Options) (hi : c!"<" ∉ opts.indent) {c : Ctx} {e : El} (h : Editable (c.plug (e.cons .nil))) {p : Bytes} {ss ps rest : List Bytes} (hp : PathSteps p ss)
    (hd : Deepest opts.caseSensitive ss ps rest c e) (hn : ∀ x ∈ rest, IsName x) {v1 v2 : GoVal} {w1 w2 : Bytes} (h10 : v1 ≠ .nil) (h20 : v2 ≠ .nil) (hv1 : valueToXML v1 = some w1)
    (hv2 : valueToXML v2 = some w2) (hw1 : w1.length ≤ 5242880) (hw2 : w2.length ≤ 5242880) (hlt : c!"<" ∉ w1) :
    ∃ x, setWithOptions o (c.plug (e.cons .nil)).render p v1 (some opts) = .ret (x, none) ∧
      (x.length ≤ 10485760 → setWithOptions o x p v2 (some opts) = setWithOptions o (c.plug (e.cons .nil)).render p v2 (some opts)) := by
  obtain ⟨ns, n, rfl⟩ : ∃ ns n, rest = ns ++ [n] := ⟨rest.dropLast, rest.getLast hd.more, (List.dropLast_concat_getLast _).symm⟩
  obtain ⟨as, ws, ho1, ho2⟩ := C79_create ho opts h hp hd (fun x hx => isName_negative (hn x hx)) (slots_isName hn) (by simp)
  refine ⟨_, ho2 v1 _ h10 hv1 hw1, fun hsz => ?_⟩
  have hcnt : e.kids.info.count opts.caseSensitive (.name ((ns ++ [n]).head (by simp))) = 0 := by
    obtain ⟨y, r', hr'⟩ : ∃ y r', ns ++ [n] = y :: r' := by cases ns <;> exact ⟨_, _, rfl⟩
    simp only [hr', List.head_cons]
    have hs := hd.split
    subst hs
    rw [hr'] at hd
    exact deepest_count hd (hn y (by simp [hr']))
  have hdep : c.depth + 1 + (ns ++ [n]).length ≤ 100 := by
    obtain ⟨hs, ht, hr⟩ := hd.leads
    have h1 := reach_deep hr
    have h2 := trail_short ht _ rfl
    have h3 := pathSteps_short hp
    rw [hd.split, List.length_append] at h3
    omega
  have hns : (ns ++ [n]).map (spelling opts.caseSensitive) = ns.map (spelling opts.caseSensitive) ++ [spelling opts.caseSensitive n] := by simp
  have hrend : ∀ w, (chainF opts.indent 0 ((ns ++ [n]).map (spelling opts.caseSensitive)) (.text w .nil)).render =
      slotLines opts.indent 0 ((ns ++ [n]).map fun m => some (spelling opts.caseSensitive m)) w := by
    intro w; rw [chainF_render, ← slotLines_names, List.map_map]; simp [Function.comp_def]
  have hx : ∀ w, (c.plug ((e.refill as ws (e.kids.append (chainF opts.indent 0 ((ns ++ [n]).map (spelling opts.caseSensitive)) (.text w .nil)))).cons .nil)).render =
      c.before ++ (openTag e.name as ws ++ b!">" ++ e.inner ++ slotLines opts.indent 0 ((ns ++ [n]).map fun m => some (spelling opts.caseSensitive m)) w ++ closeTag e.name []) ++ c.after := by
    intro w
    rw [plug_el_render, ← hrend]
    obtain ⟨nm, eas, ews, bd⟩ := e
    cases bd <;> simp [El.refill, El.start, El.inner, El.stop, El.kids, append_render, Forest.render]
  have e1 : ∀ w, (down c e.name as ws [] (chainFCtx opts.indent 0 e.kids ((ns ++ [n]).map (spelling opts.caseSensitive)))).plug
      ((⟨spelling opts.caseSensitive n, [], [], some (.text w .nil, [])⟩ : El).cons .nil) =
      c.plug ((e.refill as ws (e.kids.append (chainF opts.indent 0 ((ns ++ [n]).map (spelling opts.caseSensitive)) (.text w .nil)))).cons .nil) := by
    intro w; rw [down_plug, hns, chainFCtx_plug]; rfl
  have hed := editable_createdB hi h (ns := (ns ++ [n]).map (spelling opts.caseSensitive)) (by simp) (fun m hm => by
    obtain ⟨m', h1, rfl⟩ := List.mem_map.mp hm; exact spelling_name (hn m' h1)) (by simpa using hdep) hlt ho1 (by rw [← hx, plug_el_render] at hsz; simpa [El.render] using hsz)
  obtain ⟨hs, ht, hr⟩ := hd.leads
  have hlead : LeadTo opts.caseSensitive ss (down c e.name as ws [] (chainFCtx opts.indent 0 e.kids ((ns ++ [n]).map (spelling opts.caseSensitive)))) (spelling opts.caseSensitive n) :=
    ⟨_, by rw [hd.split]; exact trail_more ht hn rfl, reach_down hr (chainFCtx_reach opts.caseSensitive opts.indent 0 hcnt)⟩
  rw [ho2 v2 _ h20 hv2 hw2, ← hx, ← hx, ← e1, ← e1]
  rw [← e1] at hed
  rw [C79_set ho opts hed hp hlead h20 hv2 hw2, plug_el_render]
  simp [El.start, El.stop, El.inner, Forest.render]

/-! ### an example with four kinds of paths -/

def mixFold : Options := { defaultOptions with caseSensitive := false }
def mixLines : Options := { defaultOptions with indent := b!"  " }
def mixWrites : List Write :=
  [⟨b!"*.a", .str b!"x", defaultOptions, [b!"*", b!"a"], [0, 0], mixA, mixA.fill b!"x"⟩,
   ⟨b!"R.B.@J", .str b!"<", mixFold, [b!"R", b!"B"], [0, 1], mixB, mixB.retag mixB1.attrs⟩,
   ⟨b!"r.*.2.e.f", .int 7, mixLines, [b!"r", b!"*", b!"2"], [0, 2], mixC, mixC.refill mixC.attrs mixC.ws (mixC.kids.append (chainF b!"  " 0 [b!"e", b!"f"] (.text b!"7" .nil)))⟩,
   ⟨b!"r.*.3", .bool true, defaultOptions, [b!"r", b!"*", b!"3"], [0, 3], mixA2, mixA2.fill b!"true"⟩]

theorem mix_star2 : Trail [b!"r", b!"*", b!"2"] (some [(.name b!"r", 0), (.any, 2)]) :=
  .first (t := some _) (.name (name_step (by decide))) (by intro d hd; simp at hd; subst hd; exact fun h => absurd h (by unfold Position; decide +kernel))
    (.nth (t := some _) (j := 2) (.any (by decide)) (by unfold Position; decide +kernel) (.number (ds := b!"2") (rest := []) rfl (.digit 50 (by decide)) (.inl rfl)) .nil)
theorem mix_star3 : Trail [b!"r", b!"*", b!"3"] (some [(.name b!"r", 0), (.any, 3)]) :=
  .first (t := some _) (.name (name_step (by decide))) (by intro d hd; simp at hd; subst hd; exact fun h => absurd h (by unfold Position; decide +kernel))
    (.nth (t := some _) (j := 3) (.any (by decide)) (by unfold Position; decide +kernel) (.number (ds := b!"3") (rest := []) rfl (.digit 51 (by decide)) (.inl rfl)) .nil)
theorem mix_fold : Trail [b!"R", b!"B"] (some [(.name b!"R", 0), (.name b!"B", 0)]) := trail_names (by intro x hx; simp at hx; rcases hx with rfl | rfl <;> exact isName_of (by decide) (by decide))
theorem mix_any : Trail [b!"*", b!"a"] (some [(.any, 0), (.name b!"a", 0)]) :=
  .first (t := some _) (.any (by decide)) (by intro d hd; simp at hd; subst hd; exact fun h => absurd h (by unfold Position; decide +kernel))
    (trail_names (by intro x hx; simp at hx; subst hx; exact isName_of (by decide) (by decide)))

/-- All hypotheses of C90_any_order hold for them. -/
theorem mixWrites_ready : Editable mixDoc ∧ mixWrites.Pairwise (fun i j => Apart i.addr j.addr) ∧ (∀ j ∈ mixWrites, j.Fits mixDoc) ∧ (∀ j ∈ mixWrites, DoesAny j) ∧
    mixDoc.render.length + (mixWrites.map Write.cost).sum ≤ 10485760 := by
  refine ⟨editable_of (by decide +kernel), by unfold Apart; decide +kernel, ?_, ?_, by decide +kernel⟩
  · simp only [mixWrites, List.mem_cons, List.not_mem_nil, or_false, forall_eq_or_imp, forall_eq]
    exact ⟨⟨mixRoot (.here .nil (mixKids [mixB, mixC, mixA2])), by decide +kernel, by decide +kernel, _, mix_any, by decide +kernel, by decide +kernel, by decide +kernel, by decide +kernel⟩,
      ⟨mixRoot (.here (mixKids [mixA]) (mixKids [mixC, mixA2])), by decide +kernel, by decide +kernel, _, mix_fold, by decide +kernel, by decide +kernel, by decide +kernel, by decide +kernel⟩,
      ⟨mixRoot (.here (mixKids [mixA, mixB]) (mixKids [mixA2])), by decide +kernel, by decide +kernel, _, mix_star2, by decide +kernel, by decide +kernel, by decide +kernel, by decide +kernel⟩,
      ⟨mixRoot (.here (mixKids [mixA, mixB, mixC]) .nil), by decide +kernel, by decide +kernel, _, mix_star3, by decide +kernel, by decide +kernel, by decide +kernel, by decide +kernel⟩⟩
  · simp only [mixWrites, List.mem_cons, List.not_mem_nil, or_false, forall_eq_or_imp, forall_eq]
    refine ⟨C90_text _ (pathSteps_by (by decide) (by decide) (by decide +kernel) (by decide +kernel)) _ _ (by decide) _ _ (by simp) rfl (by decide) (by decide),
      C90_attribute _ (k := b!"J") (isName_of (by decide) (by decide)) (pathSteps_by (by decide) (by decide) (by decide +kernel) (by decide +kernel)) (by decide) _ _ _ b!"<" (by simp) rfl (by decide) (.inr (by decide)) _ ?_,
      C90_create mixLines (m := b!"e") (ns := [b!"f"]) (by decide) (pathSteps_by (by decide) (by decide) (by decide +kernel) (by decide +kernel))
        (by intro x hx; simp at hx; rcases hx with rfl | rfl <;> exact isName_of (by decide) (by decide)) _ _ (by decide) (by decide +kernel) _ _ (by simp) (by decide +kernel) (by decide) (by decide),
      C90_text _ (pathSteps_by (by decide) (by decide) (by decide +kernel) (by decide +kernel)) _ _ (by decide) _ _ (by simp) rfl (by decide) (by decide)⟩
    have hk : ∀ j, sameKey false j b!"J" → j ≠ b!"k" := by rintro j h rfl; revert h; decide +kernel
    have hold : ∀ j, sameKey false j b!"J" → Spec.attrVal mixB.attrs j = none := fun j h => by
      rw [show mixB.attrs = [⟨b!" ", b!"k", [], [], c!"\"", b!"v"⟩] from rfl, attrVal_cons_other (hk j h)]; rfl
    refine ⟨by decide +kernel, List.pairwise_cons.mpr ⟨by simpa using LexBefore.head [] [] (by decide), by simp⟩, fun j h hne => absurd (hold j h) hne, fun _ j h => ?_,
      fun j _ ⟨j', h', hne⟩ => absurd (hold j' h') hne, fun j h => ?_⟩
    · by_cases hj : j = b!"j"
      · subst hj; decide +kernel
      · rw [if_neg (by rw [show spelling mixFold.caseSensitive b!"J" = b!"j" by decide +kernel]; exact hj)]
        exact (attrVal_cons_other hj).trans (hold j h)
    · exact attrVal_cons_other (by rintro rfl; exact h (by decide +kernel))

/-- So the four writes give one document, whatever the order. -/
example : ∃ f' : Forest, ∀ js : List Write, js.Perm mixWrites → WriteCalls b!"<r><a>1</a><b k=\"v\"/><c><d>2</d></c><a>3</a></r>" js f'.render := by
  obtain ⟨h1, h2, h3, h4, h5⟩ := mixWrites_ready
  obtain ⟨f', -, -, -, h⟩ := C90_any_order mixDoc mixWrites h1 h2 h3 h4 h5
  rw [mixDoc_text] at h
  exact ⟨f', h⟩

/-- And `*.a.1` finds the same after the first three of them. -/
example (env : Env) (ho : env.ord.IsPerm) : ∃ x, WriteCalls b!"<r><a>1</a><b k=\"v\"/><c><d>2</d></c><a>3</a></r>" (mixWrites.take 3) x ∧ ∃ b s, getWithOptions env x b!"*.a.1" (some defaultOptions) = .ret b ∧ b.array.head? = some s ∧
    IsElement s mixA2.node := by
  obtain ⟨h1, h2, h3, h4, h5⟩ := mixWrites_ready
  have hm : ∀ j ∈ mixWrites.take 3, j ∈ mixWrites := fun j h => List.mem_of_mem_take h
  have e0 : mixDoc = (mixRoot (.here (mixKids [mixA, mixB, mixC]) .nil)).plug (mixA2.cons .nil) := by decide +kernel
  have hx := mixDoc_text
  rw [e0] at h1 h3 h5 hx
  obtain ⟨x, g1, a, b, r, s, -, -, -, g5, g6, g7, -⟩ := C90_reads env ho defaultOptions (mixWrites.take 3) h1 (h2.sublist (List.take_sublist ..)) (fun j h => h3 j (hm j h)) (fun j h => h4 j (hm j h)) (by decide +kernel)
    (by unfold Apart; decide +kernel) (q := b!"*.a.1") (ss := exStar) (pathSteps_by (by decide) (by decide) (by decide +kernel) (by decide +kernel)) (by decide) exStar_ahead
    ⟨_, exStar_trail, by decide +kernel, by decide +kernel, by decide +kernel, by decide +kernel⟩
  rw [hx] at g1
  exact ⟨x, g1, b, s, g5, g6, g7⟩

/-- The second of two writes to `*.a.1` wins. -/
example (o : Ord) (ho : o.IsPerm) : ∃ x, setWithOptions o b!"<!--x--><r v='1' ><a k=\"&lt;\">x</a> <a><b>y</b></a><c j=\"1\"/></r>" b!"*.a.1" (.str b!"1") (some defaultOptions) = .ret (x, none) ∧
    (x.length ≤ 10485760 → setWithOptions o x b!"*.a.1" (.str b!"2") (some defaultOptions) =
      setWithOptions o b!"<!--x--><r v='1' ><a k=\"&lt;\">x</a> <a><b>y</b></a><c j=\"1\"/></r>" b!"*.a.1" (.str b!"2") (some defaultOptions)) := by
  have h := C90_last_wins ho defaultOptions exEdit (by decide) (p := b!"*.a.1") (pathSteps_by (by decide) (by decide) (by decide +kernel) (by decide +kernel))
    ⟨_, exStar_trail, rfl, by decide +kernel, rfl, by decide +kernel⟩ (v1 := .str b!"1") (v2 := .str b!"2") (by simp) (by simp) rfl rfl (by decide +kernel) (by decide +kernel) (by decide)
  rw [exEdit_render] at h
  exact h

/-- C90: that document, the first two writes in either order. -/
theorem C90_witness :
    setWithOptions exEnv.ord b!"<r><a>1</a><b k=\"v\"/></r>" b!"*.a" (.str b!"x") (some defaultOptions) = .ret (b!"<r><a>x</a><b k=\"v\"/></r>", none) ∧
    setWithOptions exEnv.ord b!"<r><a>x</a><b k=\"v\"/></r>" b!"R.B.@J" (.str b!"<") (some mixFold) = .ret (b!"<r><a>x</a><b j=\"&lt;\" k=\"v\"/></r>", none) ∧
    setWithOptions exEnv.ord b!"<r><a>1</a><b k=\"v\"/></r>" b!"R.B.@J" (.str b!"<") (some mixFold) = .ret (b!"<r><a>1</a><b j=\"&lt;\" k=\"v\"/></r>", none) ∧
    setWithOptions exEnv.ord b!"<r><a>1</a><b j=\"&lt;\" k=\"v\"/></r>" b!"*.a" (.str b!"x") (some defaultOptions) = .ret (b!"<r><a>x</a><b j=\"&lt;\" k=\"v\"/></r>", none) ∧
    setWithOptions exEnv.ord b!"<r><a>1</a><b>2</b></r>" b!"r.*.2" (.str b!"x") (some defaultOptions) ≠ .ret (b!"<r><a>1</a><b>2</b></r>", none) := by decide +kernel

end Verif.Props
