import Verif.Lemmas.Errors
import Verif.Lemmas.Place
import Verif.Lemmas.EditOpt
import Verif.Spec.Hop
/- Where findElementLocation points, for paths of names, wildcards and positions. -/
namespace Verif
open Spec

/-- The segment that asks for this. -/
structure SegAsks (cs : Bool) (s : Seg) (k : Pick) : Prop where
  takes : ∀ x, s.matchesOpt x cs = k.takes cs x
  index : ∀ i, s.kind ≠ .index i
  attr : ∀ a, s.kind ≠ .attr a
  count : s.kind ≠ .count

/-- The segments of steps. -/
inductive HopSegs (cs : Bool) : List Hop → List Seg → Prop where
  | nil : HopSegs cs [] []
  | first {s : Seg} {k : Pick} {hs : List Hop} {ss : List Seg} (hp : SegAsks cs s k) (h : HopSegs cs hs ss) : HopSegs cs ((k, 0) :: hs) (s :: ss)
  | nth {s t : Seg} {k : Pick} {j : Nat} {hs : List Hop} {ss : List Seg} (hp : SegAsks cs s k) (hd : t.kind = .index (j : Int)) (h : HopSegs cs hs ss) :
      HopSegs cs ((k, j) :: hs) (s :: t :: ss)

/-- The segments do not begin with a position. -/
def Fresh (r : List Seg) : Prop := ∀ s i, r.head? = some s → s.kind ≠ .index i

theorem fresh_nil : Fresh [] := by intro s i h; cases h

theorem hopSegs_fresh {cs : Bool} {hs : List Hop} {ss r : List Seg} (h : HopSegs cs hs ss) (hr : Fresh r) : Fresh (ss ++ r) := by
  cases h with
  | nil => exact hr
  | first hp => intro s i hh; simp at hh; subst hh; exact hp.index i
  | nth hp => intro s i hh; simp at hh; subst hh; exact hp.index i

theorem hopSegs_ne {cs : Bool} {hs : List Hop} {ss : List Seg} (h : HopSegs cs hs ss) (h0 : hs ≠ []) : ss ≠ [] := by
  cases h with
  | nil => exact absurd rfl h0
  | first => simp
  | nth => simp

/-- One step of findElementLocation. -/
theorem findLoc_hop (o : Ord) {cs : Bool} {k : Pick} {j : Nat} {hs : List Hop} {ss : List Seg} (h : HopSegs cs ((k, j) :: hs) ss) :
    ∃ ss', HopSegs cs hs ss' ∧ ∀ (r : List Seg), Fresh r → ∀ (data : Bytes) (base : Int), base ≤ maxPositionOffset →
      findLoc o cs (ss ++ r) data base =
        match ((topElems o data).filter (fun e => k.takes cs e.name))[j]? with
        | none => none
        | some e => if ss' ++ r = [] then some (locOf data base e)
            else if offsetOk data base e then findLoc o cs (ss' ++ r) e.content (base + ((data.length : Int) - e.openLen)) else none := by
  cases h with
  | @first s _ _ ss' hp h =>
    refine ⟨ss', h, fun r hr data base hb => ?_⟩
    have hf := hopSegs_fresh h hr
    rw [List.cons_append, findLoc, if_neg (by omega)]
    simp only [hp.takes]
    cases hx : ss' ++ r with
    | nil =>
      cases ((topElems o data).filter (fun e => k.takes cs e.name)) <;> rfl
    | cons t r2 =>
      rw [hx] at hf
      have hk : ∀ i, t.kind ≠ .index i := fun i => hf t i rfl
      simp only [reduceCtorEq, if_false]
      cases hkk : t.kind with
      | index i => exact absurd hkk (hk i)
      | _ => cases ((topElems o data).filter (fun e => k.takes cs e.name)) <;> rfl
  | @nth s t _ _ _ ss' hp hd h =>
    refine ⟨ss', h, fun r hr data base hb => ?_⟩
    rw [List.cons_append, List.cons_append, findLoc, if_neg (by omega)]
    simp only [hp.takes, hd]
    rw [if_neg (by omega)]
    simp only [Int.toNat_natCast]
    cases ((topElems o data).filter (fun e => k.takes cs e.name))[j]? with
    | none => rfl
    | some e => simp

/-- The element is at the place its context says, and its content is read likewise. -/
def Along (o : Ord) : Ctx → Bytes → Bytes → Prop
  | .here b a, x, data => (topElems o data).map (·.name) = b.info.elems.map (·.name) ++ x :: a.info.elems.map (·.name)
  | .within b m _ _ c _ a, x, data => (topElems o data).map (·.name) = b.info.elems.map (·.name) ++ m :: a.info.elems.map (·.name) ∧
      ∀ e, (topElems o data)[b.info.elems.length]? = some e → Along o c x e.content

/-- The numbers of elements before the hole, level by level. -/
def Ctx.places : Ctx → List Nat
  | .here b _ => [b.info.elems.length]
  | .within b _ _ _ c _ _ => b.info.elems.length :: Ctx.places c

/-- Going to the element at those places, and on from there. -/
def goto (o : Ord) (cs : Bool) : List Nat → List Seg → Bytes → Int → Option Loc
  | [], _, _, _ => none
  | k :: ks, r, data, base =>
    if base > maxPositionOffset then none
    else match (topElems o data)[k]? with
      | none => none
      | some e => if ks = [] ∧ r = [] then some (locOf data base e)
          else if offsetOk data base e then
            if ks = [] then findLoc o cs r e.content (base + ((data.length : Int) - e.openLen)) else goto o cs ks r e.content (base + ((data.length : Int) - e.openLen))
          else none

theorem places_ne (c : Ctx) : Ctx.places c ≠ [] := by cases c <;> simp [Ctx.places]

theorem filter_at {α : Type} {l : List α} {g : α → Bytes} {p : Bytes → Bool} {A B : List Bytes} {x : Bytes} (h : l.map g = A ++ x :: B) (hx : p x = true) :
    (l.filter (fun e => p (g e)))[(A.filter p).length]? = l[A.length]? := by
  induction A generalizing l with
  | nil =>
    match l, h with
    | y :: l, h =>
      simp only [List.map_cons, List.nil_append, List.cons.injEq] at h
      rw [List.filter_cons, if_pos (by rw [h.1]; exact hx)]; rfl
  | cons a A ih =>
    match l, h with
    | y :: l, h =>
      simp only [List.map_cons, List.cons_append, List.cons.injEq] at h
      have := ih h.2
      by_cases hp : p a = true
      · rw [List.filter_cons, if_pos (by rw [h.1]; exact hp), List.filter_cons, if_pos hp, List.length_cons, List.length_cons, List.getElem?_cons_succ, List.getElem?_cons_succ]
        exact this
      · rw [List.filter_cons, if_neg (by rw [h.1]; exact hp), List.filter_cons, if_neg hp, List.length_cons, List.getElem?_cons_succ]
        exact this

theorem count_names (cs : Bool) (i : Info) (k : Pick) : i.count cs k = ((i.elems.map (·.name)).filter (k.takes cs)).length := by
  rw [Info.count, List.filter_map, List.length_map]; rfl

/-- Where the steps lead depends only on the element they lead to. -/
theorem findLoc_goto {o : Ord} {cs : Bool} {hs : List Hop} {ss : List Seg} (hss : HopSegs cs hs ss) {c : Ctx} {x : Bytes} (hL : Reach cs hs c x) {data : Bytes} (ha : Along o c x data)
    {r : List Seg} (hr : Fresh r) (base : Int) : findLoc o cs (ss ++ r) data base = goto o cs (Ctx.places c) r data base := by
  induction hs generalizing ss c data base with
  | nil => simp [Reach] at hL
  | cons h hs ih =>
    obtain ⟨k, j⟩ := h
    by_cases hb : base > maxPositionOffset
    · have e2 : goto o cs (Ctx.places c) r data base = none := by
        cases c <;> (rw [Ctx.places, goto, if_pos hb])
      rw [e2]
      cases hss <;> (rw [List.cons_append, findLoc, if_pos hb])
    obtain ⟨ss', hss', hstep⟩ := findLoc_hop o hss
    rw [hstep r hr data base (by omega)]
    cases c with
    | here b a =>
      cases hs with
      | cons => simp [Reach] at hL
      | nil =>
        cases hss'
        obtain ⟨h1, rfl⟩ := hL
        have := filter_at (l := topElems o data) (g := fun e => e.name) (p := k.takes cs) ha h1
        rw [count_names, this, Ctx.places, goto, if_neg hb, List.length_map]
        cases (topElems o data)[b.info.elems.length]? with
        | none => rfl
        | some e => simp
    | within b m as ws c cws a =>
      cases hs with
      | nil => simp [Reach] at hL
      | cons h2 hs =>
        obtain ⟨h1, rfl, h3⟩ := hL
        have := filter_at (l := topElems o data) (g := fun e => e.name) (p := k.takes cs) ha.1 h1
        rw [count_names, this, Ctx.places, goto, if_neg hb, List.length_map]
        cases he : (topElems o data)[b.info.elems.length]? with
        | none => rfl
        | some e =>
          simp only
          rw [if_neg (c := ss' ++ r = []) (by have := hopSegs_ne hss' (by simp); simp [this]), if_neg (c := Ctx.places c = [] ∧ r = []) (by simp [places_ne])]
          split
          · rw [if_neg (places_ne c)]
            exact ih hss' h3 (ha.2 e he) _
          · rfl

theorem tops_at (b : Forest) (e : El) (a : Forest) : (tops (b.append (e.cons a)))[b.info.elems.length]? = some (b, e, a) := by
  have hlen : ((tops b).map (fun t => (t.1, t.2.1, t.2.2.append (e.cons a)))).length = b.info.elems.length := by
    rw [← tops_elems, List.length_map, List.length_map]
  rw [tops_append, ← hlen, List.getElem?_append_right (Nat.le_refl _), Nat.sub_self, tops_cons]
  simp [append_nil]

theorem map_eq_of_all2 {α β γ : Type} {R : α → β → Prop} {f : α → γ} {g : β → γ} {l1 : List α} {l2 : List β} (h : All2 R l1 l2) (hr : ∀ a b, R a b → f a = g b) : l1.map f = l2.map g := by
  induction h with
  | nil => rfl
  | cons h1 _ ih => rw [List.map_cons, List.map_cons, hr _ _ h1, ih]

theorem tops_names (f : Forest) : (tops f).map (fun t => t.2.1.name) = f.info.elems.map (·.name) := by
  rw [← tops_elems, List.map_map]; rfl

theorem cons_names (e : El) (a : Forest) : (e.cons a).info.elems.map (·.name) = e.name :: a.info.elems.map (·.name) := by
  obtain ⟨n, as, ws, body⟩ := e
  rcases body with _ | ⟨k, cws⟩ <;> rfl

theorem sim_along {o : Ord} (ho : o.IsPerm) {c : Ctx} {e : El} {f g : Forest} {d : Nat} {top : Bool} (hf : f = c.plug (e.cons .nil)) (hs : Sim f g) (hl : g.Legal d) (ht : g.Tame top) :
    Along o c e.name g.render := by
  induction c generalizing f g d top with
  | here b a =>
    have hf' : f = b.append (e.cons a) := by rw [hf, Ctx.plug, cons_append]; rfl
    have := map_eq_of_all2 (f := fun e : Elem => e.name) (g := fun t : Forest × El × Forest => t.2.1.name) (topElems_placed ho hs hl ht) fun a b h => h.name
    rw [Along, this, tops_names, hf', append_elems, List.map_append, cons_names]
  | within b m as ws c cws a ih =>
    have hf' : f = b.append ((⟨m, as, ws, some (c.plug (e.cons .nil), cws)⟩ : El).cons a) := by rw [hf, Ctx.plug]; rfl
    have hpl := topElems_placed ho hs hl ht
    have := map_eq_of_all2 (f := fun e : Elem => e.name) (g := fun t : Forest × El × Forest => t.2.1.name) hpl fun a b h => h.name
    refine ⟨by rw [this, tops_names, hf', append_elems, List.map_append, cons_names], fun y hy => ?_⟩
    have h1 := tops_at b ⟨m, as, ws, some (c.plug (e.cons .nil), cws)⟩ a
    rw [← hf'] at h1
    obtain ⟨y', hy', hP⟩ := hpl.get_some h1
    rw [hy] at hy'; injection hy' with hy'; subst hy'
    obtain ⟨_, k', d', htw, hl', ht', hcont⟩ := hP.some _ _ rfl
    rw [hcont]
    exact ih rfl htw.sim hl' ht'

theorem redo_name (e : El) : e.redo.name = e.name := by
  obtain ⟨n, as, ws, body⟩ := e
  rcases body with _ | ⟨k, cws⟩ <;> rfl

theorem redo_along {o : Ord} {c : Ctx} {x data : Bytes} (h : Along o c.redo x data) : Along o c x data := by
  induction c generalizing data with
  | here b a => simpa only [Along, Ctx.redo, redo_info] using h
  | within b m as ws c cws a ih =>
    simp only [Along, Ctx.redo, redo_info] at h ⊢
    exact ⟨h.1, fun e he => ih (h.2 e he)⟩

theorem sound_along {o : Ord} (ho : o.IsPerm) {c : Ctx} {e : El} (h : Sound (c.plug (e.cons .nil))) : Along o c e.name (c.plug (e.cons .nil)).render := by
  have hpl := topElems_placedT ho h.2.1 h.2.2.1
  have hn := map_eq_of_all2 (f := fun e : Elem => e.name) (g := fun t : Forest × El × Forest => t.2.1.name) hpl fun a b h => h.name
  cases c with
  | here b a =>
    have hf' : (Ctx.here b a).plug (e.cons .nil) = b.append (e.cons a) := by rw [Ctx.plug, cons_append]; rfl
    rw [Along, hn, tops_names, hf', append_elems, List.map_append, cons_names]
  | within b m as ws c cws a =>
    have hf' : (Ctx.within b m as ws c cws a).plug (e.cons .nil) = b.append ((⟨m, as, ws, some (c.plug (e.cons .nil), cws)⟩ : El).cons a) := rfl
    refine ⟨by rw [hn, tops_names, hf', append_elems, List.map_append, cons_names], fun y hy => ?_⟩
    have h1 := tops_at b ⟨m, as, ws, some (c.plug (e.cons .nil), cws)⟩ a
    rw [← hf'] at h1
    obtain ⟨y', hy', hP⟩ := hpl.get_some h1
    rw [hy] at hy'; injection hy' with hy'; subst hy'
    obtain ⟨k', d', htw, hl', ht', hcont⟩ := hP.some _ _ rfl
    rw [hcont, ← redo_name]
    exact redo_along (sim_along ho (by rw [redo_plug, redo_cons]; rfl) htw.sim hl' ht')

/-- The steps by name that lead to the hole. -/
def stepsOf : Ctx → Bytes → List Step
  | .here b _, x => [(x, (b.info.named x).length)]
  | .within b m _ _ c _ _, x => (m, (b.info.named m).length) :: stepsOf c x

theorem stepsOf_leads (c : Ctx) (x : Bytes) : Leads (stepsOf c x) c x := by
  induction c with
  | here b a => exact ⟨nameMatches_self x, rfl⟩
  | within b m as ws c cws a ih =>
    rw [stepsOf]
    cases hs : stepsOf c x with
    | nil => rw [hs] at ih; simp [Leads] at ih
    | cons p ps => rw [hs] at ih; exact ⟨nameMatches_self m, rfl, ih⟩

theorem nameSeg_asks (cs : Bool) (n : Bytes) : SegAsks cs (nameSeg n) (.name n) :=
  ⟨fun x => matchesOpt_agrees cs n x, fun i => by simp [nameSeg], fun a => by simp [nameSeg], by simp [nameSeg]⟩

/-- A step by name as a step. -/
def toHop (p : Step) : Hop := (.name p.1, p.2)

theorem stepSegs_some (ps : List Step) : ∃ ss, StepSegs ps ss := by
  induction ps with
  | nil => exact ⟨_, .nil⟩
  | cons p ps ih => obtain ⟨n, j⟩ := p; obtain ⟨ss, h⟩ := ih; exact ⟨_, .index h⟩

theorem stepSegs_hops {cs : Bool} {ps : List Step} {ss : List Seg} (h : StepSegs ps ss) : HopSegs cs (ps.map toHop) ss := by
  induction h with
  | nil => exact .nil
  | name _ ih => exact .first (nameSeg_asks cs _) ih
  | index _ ih => exact .nth (nameSeg_asks cs _) rfl ih

theorem leadsBy_reach {cs : Bool} {ps : List Step} {c : Ctx} {x : Bytes} : LeadsBy cs ps c x ↔ Reach cs (ps.map toHop) c x := by
  induction ps generalizing c with
  | nil => simp [LeadsBy, Reach]
  | cons p ps ih =>
    obtain ⟨n, j⟩ := p
    cases c with
    | here b a => cases ps <;> simp [LeadsBy, Reach, toHop, Pick.takes, Info.count, Info.namedBy]
    | within b m as ws c cws a =>
      cases ps with
      | nil => simp [LeadsBy, Reach]
      | cons q ps => simp only [List.map_cons] at ih; simp only [LeadsBy, Reach, List.map_cons, ← ih]; rfl

theorem leads_leadsBy {ps : List Step} {c : Ctx} {x : Bytes} : Leads ps c x ↔ LeadsBy true ps c x := by
  induction ps generalizing c with
  | nil => simp [LeadsBy, Leads]
  | cons p ps ih =>
    obtain ⟨n, j⟩ := p
    cases c with
    | here b a => cases ps <;> simp [LeadsBy, Leads, Info.namedBy, Info.named, agrees]
    | within b m as ws c cws a =>
      cases ps with
      | nil => simp [LeadsBy, Leads]
      | cons q ps => simp only [LeadsBy, Leads, ← ih]; rfl

theorem goto_case (o : Ord) (cs cs' : Bool) (ks : List Nat) (data : Bytes) (base : Int) : goto o cs ks [] data base = goto o cs' ks [] data base := by
  induction ks generalizing data base with
  | nil => rfl
  | cons k ks ih =>
    rw [goto, goto]
    split
    · rfl
    · cases (topElems o data)[k]? with
      | none => rfl
      | some e =>
        simp only
        by_cases hk : ks = []
        · subst hk; simp
        · simp only [hk, false_and, if_false, ih]

/-- The element is found. -/
theorem sound_goto {o : Ord} (ho : o.IsPerm) {c : Ctx} {e : El} (h : Sound (c.plug (e.cons .nil))) (cs : Bool) :
    ∃ l, goto o cs (Ctx.places c) [] (c.plug (e.cons .nil)).render 0 = some l ∧ LocAt l c.placeOf (c.seenEl e) := by
  have hL := stepsOf_leads c e.name
  obtain ⟨ss, hss⟩ := stepSegs_some (stepsOf c e.name)
  obtain ⟨l, h1, h2⟩ := findLoc_place ho hss hL h
  refine ⟨l, ?_, h2⟩
  rw [goto_case o cs true, ← findLoc_goto (stepSegs_hops hss) (leadsBy_reach.mp (leads_leadsBy.mp hL)) (sound_along ho h) fresh_nil 0, List.append_nil]
  exact h1

/-! ### paths that agree up to an element -/

/-- Two beginnings of a path that point at the same element. -/
structure Same (o : Ord) (cs : Bool) (data : Bytes) (ss tt : List Seg) : Prop where
  find : ∀ r, Fresh r → findLoc o cs (ss ++ r) data 0 = findLoc o cs (tt ++ r) data 0
  found : ∃ l, findLoc o cs ss data 0 = some l

/-- A beginning of a path for elements. -/
structure Plainly (ss : List Seg) : Prop where
  ne : ss ≠ []
  intent : ∀ r, indexIntent (ss ++ r) = indexIntent r
  last : ∀ s a, ss.getLast? = some s → s.kind ≠ .attr a

theorem hopSegs_plainly {cs : Bool} {hs : List Hop} {ss : List Seg} (h : HopSegs cs hs ss) (h0 : hs ≠ []) : Plainly ss := by
  refine ⟨hopSegs_ne h h0, ?_, ?_⟩
  · clear h0
    intro r
    induction h with
    | nil => rfl
    | first hp _ ih => rw [List.cons_append, intent_cons (fun i hi => absurd hi (hp.index i)), ih]
    | nth hp hd _ ih =>
      rw [List.cons_append, List.cons_append, intent_cons (fun i hi => absurd hi (hp.index i)), intent_cons (fun i hi => by rw [hd] at hi; injection hi with hi; omega), ih]
  · clear h0
    intro s a hs
    have key : ∀ s ∈ ss, ∀ a, s.kind ≠ .attr a := by
      clear hs
      induction h with
      | nil => simp
      | first hp _ ih => intro s hs; rcases List.mem_cons.mp hs with rfl | hs; exact hp.attr; exact ih s hs
      | nth hp hd _ ih =>
        intro s hs
        rcases List.mem_cons.mp hs with rfl | hs
        · exact hp.attr
        rcases List.mem_cons.mp hs with rfl | hs
        · intro a e; rw [hd] at e; cases e
        · exact ih s hs
    exact key s (List.mem_of_getLast? hs) a

theorem fresh_take {r : List Seg} (h : Fresh r) (i : Nat) : Fresh (r.take i) := by
  intro s j hh
  cases r with
  | nil => simp at hh
  | cons a r => cases i with
    | zero => simp at hh
    | succ i => simp at hh; subst hh; exact h a j rfl

theorem fresh_dropLast {r : List Seg} (h : Fresh r) : Fresh r.dropLast := by
  rw [List.dropLast_eq_take]; exact fresh_take h _

theorem deepest_same {o : Ord} {cs : Bool} {data : Bytes} {ss tt r : List Seg} (hs : Same o cs data ss tt) (h1 : ss ≠ []) (h2 : tt ≠ []) (hr : Fresh r) (i : Nat) :
    ∃ j l, deepestParent o cs data (ss ++ r) (ss.length + i) = some (ss.length + j, l) ∧ deepestParent o cs data (tt ++ r) (tt.length + i) = some (tt.length + j, l) := by
  induction i with
  | zero =>
    obtain ⟨l, hl⟩ := hs.found
    have hl' : findLoc o cs tt data 0 = some l := by have := hs.find [] fresh_nil; simp only [List.append_nil] at this; rw [← this]; exact hl
    refine ⟨0, l, ?_, ?_⟩
    · cases hn : ss.length with
      | zero => exact absurd (List.eq_nil_of_length_eq_zero hn) h1
      | succ n => rw [Nat.add_zero, deepestParent, ← hn, List.take_left, hl]
    · cases hn : tt.length with
      | zero => exact absurd (List.eq_nil_of_length_eq_zero hn) h2
      | succ n => rw [Nat.add_zero, deepestParent, ← hn, List.take_left, hl']
  | succ i ih =>
    have e1 : ∀ x : List Seg, (x ++ r).take (x.length + i + 1) = x ++ r.take (i + 1) := fun x => by rw [Nat.add_assoc, List.take_length_add_append]
    rw [← Nat.add_assoc, ← Nat.add_assoc, deepestParent, deepestParent, e1, e1, hs.find _ (fresh_take hr _)]
    cases findLoc o cs (tt ++ r.take (i + 1)) data 0 with
    | none => exact ih
    | some l => exact ⟨i + 1, l, by rw [Nat.add_assoc], by rw [Nat.add_assoc]⟩

theorem create_same {o : Ord} {cs : Bool} {ind data w : Bytes} {ss tt r : List Seg} (hs : Same o cs data ss tt) (h1 : ss ≠ []) (h2 : tt ≠ []) (hr : Fresh r) (hr0 : r ≠ []) :
    createElement o cs ind data (ss ++ r) w = createElement o cs ind data (tt ++ r) w := by
  have hd : data ≠ [] := by
    rintro rfl
    obtain ⟨l, hl⟩ := hs.found
    cases ss with
    | nil => exact h1 rfl
    | cons s ss =>
      have ht : topElems o [] = [] := topElems_none (by simp [skipToNext])
      rw [findLoc] at hl
      simp only [ht, List.filter_nil] at hl
      split at hl
      · cases hl
      · split at hl
        · simp at hl
        · repeat' split at hl
          all_goals simp_all
  have hlen : ∀ x : List Seg, (x ++ r).length - 1 = x.length + (r.length - 1) := fun x => by
    have : r.length ≠ 0 := by simpa using hr0
    rw [List.length_append]; omega
  obtain ⟨j, l, e1, e2⟩ := deepest_same hs h1 h2 hr (r.length - 1)
  unfold createElement
  rw [if_neg (by simpa using hd), if_neg (by simpa using hd), hlen, hlen, e1, e2]
  simp only [List.drop_append, List.drop_of_length_le (Nat.le_add_right _ _), Nat.add_sub_cancel_left]

theorem getLast_right {α : Type} (a : List α) {b : List α} (h : b ≠ []) : (a ++ b).getLast? = b.getLast? := by
  rw [List.getLast?_append]; cases hb : b.getLast? with
  | none => exact absurd (List.getLast?_eq_none_iff.mp hb) h
  | some x => rfl

theorem append_same {o : Ord} {cs : Bool} {ind data w : Bytes} {ss tt r : List Seg} (hs : Same o cs data ss tt) (h1 : ss ≠ []) (h2 : tt ≠ []) (hr : Fresh r) (hr0 : r ≠ [])
    (hi : ind = [] ∨ ss.length = tt.length) : appendElement o cs ind data (ss ++ r) w = appendElement o cs ind data (tt ++ r) w := by
  unfold appendElement
  rw [getLast_right _ hr0, getLast_right _ hr0, List.dropLast_append_of_ne_nil hr0, List.dropLast_append_of_ne_nil hr0, hs.find _ (fresh_dropLast hr), create_same hs h1 h2 hr hr0]
  have hi' : ∀ l : Nat, indentAt ind (ss ++ r.dropLast).length = indentAt ind (tt ++ r.dropLast).length := by
    intro _
    rcases hi with rfl | hi
    · simp [indentAt]
    · rw [List.length_append, List.length_append, hi]
  rw [hi' 0]
  simp [h1, h2]

/-- Set acts alike. -/
theorem setElement_same {o : Ord} {cs : Bool} {ind data : Bytes} {ss tt r : List Seg} (hs : Same o cs data ss tt) (h1 : Plainly ss) (h2 : Plainly tt) (hr : Fresh r)
    (hi : ind = [] ∨ ss.length = tt.length) (ha : ∀ s a, r.getLast? = some s → s.kind = .attr a → r = [s]) (v : GoVal) :
    setElement o cs ind data (ss ++ r) v = setElement o cs ind data (tt ++ r) v := by
  unfold setElement
  rw [h1.intent, h2.intent]
  by_cases hr0 : r = []
  · subst hr0
    have hf := hs.find [] fresh_nil
    obtain ⟨l, hl⟩ := hs.found
    simp only [List.append_nil] at hf ⊢
    rw [hl] at hf
    cases e1 : ss.getLast? with
    | none => exact absurd (List.getLast?_eq_none_iff.mp e1) h1.ne
    | some s =>
      cases e2 : tt.getLast? with
      | none => exact absurd (List.getLast?_eq_none_iff.mp e2) h2.ne
      | some t =>
        simp only
        cases valueToXML v with
        | none => rfl
        | some w =>
          simp only [indexIntent]
          rw [hl, ← hf]
          have k1 := h1.last s
          have k2 := h2.last t
          split
          · rfl
          split
          · rfl
          cases hk1 : s.kind with
          | attr a => exact absurd hk1 (k1 a e1)
          | _ =>
            cases hk2 : t.kind with
            | attr a => exact absurd hk2 (k2 a e2)
            | _ => rfl
  · rw [getLast_right _ hr0, getLast_right _ hr0, List.dropLast_append_of_ne_nil hr0, List.dropLast_append_of_ne_nil hr0]
    cases e1 : r.getLast? with
    | none => rfl
    | some s =>
      simp only
      cases valueToXML v with
      | none => rfl
      | some w =>
        simp only
        split
        · rfl
        split
        · rfl
        cases hii : indexIntent r with
        | some b =>
          cases b with
          | false => rfl
          | true =>
            simp only
            by_cases hd : r.dropLast = []
            · exfalso
              cases r with
              | nil => exact hr0 rfl
              | cons a r =>
                cases r with
                | cons => simp at hd
                | nil =>
                  cases hk : a.kind with
                  | index i => exact hr a i rfl hk
                  | _ => simp [indexIntent, hk] at hii
            · exact append_same hs h1.ne h2.ne (fresh_dropLast hr) hd hi
        | none =>
          simp only
          rw [hs.find _ hr, create_same hs h1.ne h2.ne hr hr0]
          cases hk : s.kind with
          | attr a =>
            have := ha s a e1 hk
            subst this
            simp only [List.dropLast_singleton, List.append_nil]
            have hf := hs.find [] fresh_nil
            obtain ⟨l, hl⟩ := hs.found
            simp only [List.append_nil] at hf
            rw [hl] at hf
            rw [hl, ← hf]
          | _ => rfl

/-- And Delete. -/
theorem deleteElement_same {o : Ord} {cs : Bool} {data : Bytes} {ss tt r : List Seg} (hs : Same o cs data ss tt) (h1 : Plainly ss) (h2 : Plainly tt) (hr : Fresh r) :
    deleteElement o cs data (ss ++ r) = deleteElement o cs data (tt ++ r) := by
  unfold deleteElement
  by_cases hr0 : r = []
  · subst hr0
    have hf := hs.find [] fresh_nil
    obtain ⟨l, hl⟩ := hs.found
    simp only [List.append_nil] at hf ⊢
    cases e1 : ss.getLast? with
    | none => exact absurd (List.getLast?_eq_none_iff.mp e1) h1.ne
    | some s =>
      cases e2 : tt.getLast? with
      | none => exact absurd (List.getLast?_eq_none_iff.mp e2) h2.ne
      | some t =>
        simp only
        rw [hf]
        have k1 := h1.last s
        have k2 := h2.last t
        split
        · rfl
        cases hk1 : s.kind with
        | attr a => exact absurd hk1 (k1 a e1)
        | _ =>
          cases hk2 : t.kind with
          | attr a => exact absurd hk2 (k2 a e2)
          | _ => rfl
  · rw [getLast_right _ hr0, getLast_right _ hr0, List.dropLast_append_of_ne_nil hr0, List.dropLast_append_of_ne_nil hr0]
    have hlen : ∀ x : List Seg, x ≠ [] → ¬ (x ++ r).length < 2 := fun x hx => by
      have h3 : x.length ≠ 0 := by simpa using hx
      have h4 : r.length ≠ 0 := by simpa using hr0
      rw [List.length_append]; omega
    simp only [hlen _ h1.ne, hlen _ h2.ne, if_false, hs.find _ hr, hs.find _ (fresh_dropLast hr)]

theorem hops_same {o : Ord} (ho : o.IsPerm) {cs : Bool} {c : Ctx} {e : El} (h : Sound (c.plug (e.cons .nil))) {hs ht : List Hop} {ss tt : List Seg} (h1 : HopSegs cs hs ss) (h2 : HopSegs cs ht tt)
    (r1 : Reach cs hs c e.name) (r2 : Reach cs ht c e.name) : Same o cs (c.plug (e.cons .nil)).render ss tt := by
  refine ⟨fun r hr => by rw [findLoc_goto h1 r1 (sound_along ho h) hr, findLoc_goto h2 r2 (sound_along ho h) hr], ?_⟩
  obtain ⟨l, hl, _⟩ := sound_goto ho h cs
  refine ⟨l, ?_⟩
  have := findLoc_goto h1 r1 (sound_along ho h) fresh_nil 0
  rw [List.append_nil] at this
  rw [this]; exact hl

/-! ### the parts of a path -/

theorem beforeBar_idem (p : Bytes) : beforeBar (beforeBar p) = beforeBar p := by
  unfold beforeBar
  induction p with
  | nil => rfl
  | cons c p ih =>
    rw [List.takeWhile_cons]
    split
    · rename_i h
      rw [List.takeWhile_cons, if_pos h, ih]
    · rfl

theorem isSeg_decimal {d : Bytes} {s : Seg} {j : Nat} (h : IsSeg d s) (hd : Decimal (beforeBar d) j) (hj : j < 2 ^ 63) : s.kind = .index j := by
  obtain ⟨h1, h2, _⟩ := decimal_facts hd
  have hf : ∀ q, beforeBar q = beforeBar d → ¬ b!"#(" <+: q := by
    intro q hq hp
    have := (prefix_beforeBar (z := b!"#(") (by decide)).mp hp
    rw [hq] at this
    have := h2 c!"#" (this.subset (by simp))
    revert this; decide
  have hp := parsePart_decimal hd
  rw [if_neg (by omega)] at hp
  have k1 := (isSeg_not_filter h (hf d rfl)).2
  have k2 := (isSeg_not_filter (p := beforeBar d) hp (hf _ (beforeBar_idem d))).2
  rw [beforeBar_idem] at k2
  rw [k1, ← k2]

theorem isSeg_position {p : Bytes} {s : Seg} (h : IsSeg p s) : Position p ↔ ∃ i, s.kind = .index i := by
  by_cases hf : b!"#(" <+: p
  · obtain ⟨f, all, hk⟩ := isSeg_filter h hf
    refine ⟨fun ⟨_, _, h3⟩ => ?_, fun ⟨i, h⟩ => by rw [hk] at h; cases h⟩
    have := h3 c!"#" (((prefix_beforeBar (z := b!"#(") (by decide)).mp hf).subset (by simp))
    exact absurd this (by decide)
  · have hk := (isSeg_kind h).2.2.1
    have hk0 := isSeg_not_filter h hf
    constructor
    · intro hpos
      have hno : ∀ c : UInt8, ¬ (c = c!"-" ∨ (48 ≤ c ∧ c ≤ 57)) → c ∉ beforeBar p := fun c hc hm => hc (hpos.2.2 c hm)
      have e := hk0.2
      rw [if_neg (by intro hp; rw [hasPrefix, List.isPrefixOf_iff_prefix] at hp; exact hno c!"@" (by decide) (hp.subset (by simp))),
        if_neg (fun hp => hno c!"%" (by decide) (by rw [hp]; simp)), if_neg (fun hp => hno c!"#" (by decide) (by rw [hp]; simp)),
        if_neg (fun hp => hno c!"*" (by decide) (by rw [hp]; simp)), if_neg (fun hp => hno c!"*" (by decide) (by rw [hp]; simp))] at e
      split at e
      · exact ⟨_, e⟩
      · rename_i hn
        exact absurd hpos (hk.mpr ⟨_, e⟩).2.2.2.2
    · rintro ⟨i, hi⟩
      have e := hk0.2
      rw [hi] at e
      repeat' split at e
      all_goals try cases e
      rename_i h1 h2 h3 h4 h5 h6
      have : ¬ NameStep p := fun h => by obtain ⟨n, hn⟩ := hk.mp h; rw [hi] at hn; cases hn
      apply Classical.byContradiction
      intro hno
      refine this ⟨hk0.1, hf, fun hp => h1 (by rw [hasPrefix, List.isPrefixOf_iff_prefix]; exact (prefix_beforeBar (by decide)).mp hp), by simp [h2, h3, h4, h5], hno⟩

theorem lowIf_asks {cs : Bool} {p : Bytes} {s : Seg} {k : Pick} (h : IsSeg p s) (hk : Asks p k) : SegAsks cs (lowIf cs s) k := by
  cases hk with
  | name hn =>
    obtain ⟨n, hkn⟩ := (isSeg_kind h).2.2.1.mp hn
    have := (isSeg_kind h).2.2.2.1 n hkn
    subst this
    obtain ⟨kk, m⟩ := s
    simp only at hkn
    subst hkn
    have e : (lowIf cs ⟨.elem (beforeBar p), m⟩).kind = .elem (spelling cs (beforeBar p)) := by
      cases cs
      · simp [lowIf, lowerSeg, spelling, foldCase_eq]
      · rfl
    refine ⟨fun x => ?_, fun i => by rw [e]; simp, fun i => by rw [e]; simp, by rw [e]; simp⟩
    have e2 : (lowIf cs ⟨.elem (beforeBar p), m⟩).matchesOpt x cs = (nameSeg (spelling cs (beforeBar p))).matchesOpt x cs := by
      unfold Seg.matchesOpt; rw [e]; rfl
    rw [e2, matchesOpt_agrees, agrees_spelling]; rfl
  | any ha =>
    have hf : ¬ b!"#(" <+: p := by
      intro hp
      have := (prefix_beforeBar (z := b!"#(") (by decide)).mp hp
      rcases ha with ha | ha <;> (rw [ha] at this; revert this; decide)
    have hk0 := (isSeg_not_filter h hf).2
    have e : ∃ b, s.kind = .wild b := by
      rcases ha with ha | ha
      · rw [ha] at hk0; exact ⟨false, hk0⟩
      · rw [ha] at hk0; exact ⟨true, hk0⟩
    obtain ⟨b, e⟩ := e
    obtain ⟨kk, m⟩ := s
    simp only at e
    subst e
    have e : (lowIf cs ⟨.wild b, m⟩) = ⟨.wild b, m⟩ := by cases cs <;> rfl
    rw [e]
    exact ⟨fun x => rfl, fun i => by simp, fun i => by simp, by simp⟩

theorem hopParts_segs {cs : Bool} {hs : List Hop} {ps : List Bytes} (h : HopParts hs ps) {ss : List Seg} (ha : All2 IsSeg ps ss) : HopSegs cs hs (ss.map (lowIf cs)) := by
  induction h generalizing ss with
  | nil => cases ha; exact .nil
  | first hp _ ih =>
    cases ha with
    | cons h1 h2 => exact .first (lowIf_asks h1 hp) (ih h2)
  | nth hp hd hj _ ih =>
    cases ha with
    | cons h1 h2 =>
      cases h2 with
      | cons h2 h3 => exact .nth (lowIf_asks h1 hp) (((lowIf_kind cs _).2.2.1 _).mpr (isSeg_decimal h2 hd hj)) (ih h3)

theorem fuse_left (ss r : List Seg) (h : ∀ s ∈ ss, s.kind ≠ .count) : fuseFields (ss ++ r) = ss ++ fuseFields r := by
  induction ss with
  | nil => rfl
  | cons s ss ih =>
    rw [List.cons_append, fuseFields_cons (h s (by simp)), ih (fun t ht => h t (by simp [ht]))]; rfl

theorem hopSegs_count {cs : Bool} {hs : List Hop} {ss : List Seg} (h : HopSegs cs hs ss) : ∀ s ∈ ss, s.kind ≠ .count := by
  induction h with
  | nil => simp
  | first hp _ ih => intro s hs; rcases List.mem_cons.mp hs with rfl | hs; exact hp.count; exact ih s hs
  | nth hp hd _ ih =>
    intro s hs
    rcases List.mem_cons.mp hs with rfl | hs
    · exact hp.count
    rcases List.mem_cons.mp hs with rfl | hs
    · intro e; rw [hd] at e; cases e
    · exact ih s hs

theorem lowIf_true (s : Seg) : lowIf true s = s := rfl

theorem all2_split {α β : Type} {R : α → β → Prop} {a b : List α} {cs : List β} (h : All2 R (a ++ b) cs) : ∃ c d, cs = c ++ d ∧ All2 R a c ∧ All2 R b d := by
  induction a generalizing cs with
  | nil => exact ⟨[], cs, rfl, .nil, h⟩
  | cons x a ih =>
    cases h with
    | cons h1 h2 =>
      obtain ⟨c, d, rfl, h3, h4⟩ := ih h2
      exact ⟨_ :: c, d, rfl, .cons h1 h3, h4⟩

theorem all2_fun {a : List Bytes} {b c : List Seg} (h : All2 IsSeg a b) (h' : All2 IsSeg a c) : b = c := by
  induction h generalizing c with
  | nil => cases h'; rfl
  | cons hs _ ih =>
    cases h' with
    | cons hs' h2 =>
      unfold IsSeg at hs hs'
      rw [hs] at hs'; injection hs' with hs'
      rw [hs', ih h2]

theorem fuse_fresh {cs : Bool} {rest : List Bytes} {rs : List Seg} (h : All2 IsSeg rest rs) (hp : ∀ p, rest.head? = some p → ¬ Position p) : Fresh ((fuseFields rs).map (lowIf cs)) := by
  intro s i hs hk
  cases h with
  | nil => simp [fuseFields] at hs
  | @cons p t rest rs h1 h2 =>
    have hno : ∀ i, t.kind ≠ .index i := fun i hi => hp p rfl ((isSeg_position h1).mpr ⟨i, hi⟩)
    cases rs with
    | nil =>
      simp [fuseFields] at hs; subst hs
      exact hno i (((lowIf_kind cs _).2.2.1 i).mp hk)
    | cons u rs =>
      rw [fuse_cons2] at hs
      cases hj : joined t u with
      | none =>
        rw [hj] at hs; simp at hs; subst hs
        exact hno i (((lowIf_kind cs _).2.2.1 i).mp hk)
      | some x =>
        rw [hj] at hs; simp at hs; subst hs
        obtain ⟨_, ⟨f, _, rfl⟩, _⟩ := joined_facts hj
        have := ((lowIf_kind cs _).2.2.1 i).mp hk
        simp at this

theorem fuse_last {l : List Seg} {s : Seg} {a : Bytes} (h : (fuseFields l).getLast? = some s) (hk : s.kind = .attr a) : l.getLast? = some s := by
  cases hl : l.getLast? with
  | none => have := List.getLast?_eq_none_iff.mp hl; subst this; simp [fuseFields] at h
  | some t =>
    obtain ⟨l', rfl⟩ := List.getLast?_eq_some_iff.mp hl
    rcases fuse_snoc l' t with hf | ⟨l2, c, x, _, hj, hf⟩
    · rw [hf] at h; simp at h; rw [h]
    · rw [hf] at h; simp at h; subst h
      obtain ⟨_, ⟨f, _, rfl⟩, _⟩ := joined_facts hj
      cases hk

/-- The segments of a path that begins with steps. -/
theorem parse_hops {path : Bytes} {ps rest : List Bytes} (h : PathSteps path (ps ++ rest)) {hs : List Hop} (hh : HopParts hs ps) (h0 : hs ≠ []) (cs : Bool) :
    ∃ ss rs, HopSegs cs hs ss ∧ ss.length = ps.length ∧ All2 IsSeg rest rs ∧ parsePathWithOptions path cs = .ok (ss ++ (fuseFields rs).map (lowIf cs)) := by
  have hne : ps ++ rest ≠ [] := by cases hh <;> simp at h0 ⊢
  obtain ⟨segs, h1, h2⟩ := parseOpt_reads h hne cs
  obtain ⟨ss, rs, rfl, h3, h4⟩ := all2_split h2
  have hc : ∀ s ∈ ss, s.kind ≠ .count := by
    have := hopSegs_count (hopParts_segs (cs := true) hh h3)
    rw [show ss.map (lowIf true) = ss by rw [show lowIf true = id from rfl, List.map_id]] at this
    exact this
  refine ⟨ss.map (lowIf cs), rs, hopParts_segs hh h3, by rw [List.length_map, all2_length h3], h4, ?_⟩
  rw [h1, fuse_left _ _ hc, List.map_append]

end Verif
