import Verif.Lemmas.Append
import Verif.Lemmas.Fold
import Verif.Spec.Options
/- Where findElementLocation points, for names compared with or without case: as Lemmas/Locate and Lemmas/Create. -/
namespace Verif
open Spec

theorem matchesOpt_agrees (cs : Bool) (n x : Bytes) : (nameSeg n).matchesOpt x cs = agrees cs n x := by
  cases cs
  · simp [Seg.matchesOpt, nameSeg, agrees, nameMatchesOpt_false]
  · simp [matchesOpt_true, agrees]

theorem append_namedBy {cs : Bool} (f g : Forest) (n : Bytes) : (f.append g).info.namedBy cs n = f.info.namedBy cs n ++ g.info.namedBy cs n := by
  simp [Info.namedBy, append_elems]


/-- The elements before the one with `j` matching ones before it. -/
theorem tops_getB {cs : Bool} {n : Bytes} (b : Forest) (e : El) (a : Forest) (hn : agrees cs n e.name = true) :
    ((tops (b.append (e.cons a))).filter (fun t => agrees cs n t.2.1.name))[(b.info.namedBy cs n).length]? = some (b, e, a) := by
  have hlen : (((tops b).map (fun t => (t.1, t.2.1, t.2.2.append (e.cons a)))).filter (fun t => agrees cs n t.2.1.name)).length = (b.info.namedBy cs n).length := by
    rw [Info.namedBy, ← tops_elems, List.filter_map, List.filter_map, List.length_map, List.length_map]; rfl
  rw [tops_append, List.filter_append, ← hlen, List.getElem?_append_right (Nat.le_refl _), Nat.sub_self, tops_cons]
  simp [hn, append_nil]

theorem tops_countB {cs : Bool} {n : Bytes} {f : Forest} {j : Nat} {t : Forest × El × Forest}
    (h : ((tops f).filter (fun t => agrees cs n t.2.1.name))[j]? = some t) :
    f = t.1.append (t.2.1.cons t.2.2) ∧ agrees cs n t.2.1.name = true ∧ (t.1.info.namedBy cs n).length = j := by
  have hm := List.mem_of_getElem? h
  obtain ⟨hm1, hm2⟩ := List.mem_filter.mp hm
  have hf := tops_mem hm1
  refine ⟨hf, hm2, ?_⟩
  clear hf hm hm1 hm2
  have push : ∀ {l : List (Forest × El × Forest)} {k : Forest → Forest} {j : Nat} {t : Forest × El × Forest},
      ((l.map (fun t => (k t.1, t.2))).filter (fun t => agrees cs n t.2.1.name))[j]? = some t →
      ∃ s, (l.filter (fun t => agrees cs n t.2.1.name))[j]? = some s ∧ t = (k s.1, s.2) := by
    intro l k j t h
    rw [List.filter_map, List.getElem?_map] at h
    change Option.map _ (l.filter (fun t => agrees cs n t.2.1.name))[j]? = _ at h
    cases hs : (l.filter (fun t => agrees cs n t.2.1.name))[j]? with
    | none => rw [hs] at h; simp at h
    | some s => rw [hs] at h; simp only [Option.map_some, Option.some.injEq] at h; exact ⟨s, rfl, h.symm⟩
  have head : ∀ {e : El} {a : Forest} {k : Forest → Forest} {l : List (Forest × El × Forest)} {j : Nat} {t : Forest × El × Forest},
      (∀ {j : Nat} {t : Forest × El × Forest}, (l.filter (fun t => agrees cs n t.2.1.name))[j]? = some t → (t.1.info.namedBy cs n).length = j) →
      (∀ f, (k f).info.namedBy cs n = if agrees cs n e.name then e.node :: f.info.namedBy cs n else f.info.namedBy cs n) →
      (((.nil, e, a) :: l.map (fun t => (k t.1, t.2))).filter (fun t => agrees cs n t.2.1.name))[j]? = some t → (t.1.info.namedBy cs n).length = j := by
    intro e a k l j t ih hk h
    rw [List.filter_cons] at h
    by_cases hmn : agrees cs n e.name = true
    · rw [if_pos hmn] at h
      cases j with
      | zero => simp only [List.getElem?_cons_zero, Option.some.injEq] at h; subst h; rfl
      | succ j =>
        rw [List.getElem?_cons_succ] at h
        obtain ⟨s, hs, rfl⟩ := push h
        rw [hk, if_pos hmn, List.length_cons, ih hs]
    · rw [if_neg hmn] at h
      obtain ⟨s, hs, rfl⟩ := push h
      rw [hk, if_neg hmn, ih hs]
  induction f generalizing j t with
  | nil => simp [tops] at h
  | text b next ih => obtain ⟨s, hs, rfl⟩ := push (k := Forest.text b) h; exact (ih hs :)
  | misc m next ih => obtain ⟨s, hs, rfl⟩ := push (k := Forest.misc m) h; exact (ih hs :)
  | leaf nm as ws next ih =>
    refine head (k := Forest.leaf nm as ws) (fun h => ih h) (fun f => ?_) h
    simp only [Info.namedBy, Forest.info, Info.elems, List.filter_cons, El.node]
  | node nm as ws kk cws next _ ih =>
    refine head (k := Forest.node nm as ws kk cws) (fun h => ih h) (fun f => ?_) h
    simp only [Info.namedBy, Forest.info, Info.elems, List.filter_cons, El.node]

theorem placed_filterB {es : List Elem} {l : List (Forest × El × Forest)} (h : All2 Placed es l) (n : Bytes) :
    All2 Placed (es.filter (fun e => agrees cs n e.name)) (l.filter (fun t => agrees cs n t.2.1.name)) :=
  h.filter (fun _ _ hr => by rw [hr.name])

/-- What one step of findElementLocation does, whichever way the index is written. -/
theorem findLoc_stepB (o : Ord) {cs : Bool} {n : Bytes} {j : Nat} {ps : List Step} {ss : List Seg} (h : StepSegs ((n, j) :: ps) ss) :
    ∃ ss', StepSegs ps ss' ∧ ∀ (data : Bytes) (base : Int), base ≤ maxPositionOffset →
      findLoc o cs ss data base =
        match ((topElems o data).filter (fun e => agrees cs n e.name))[j]? with
        | none => none
        | some e => if ps = [] then some (locOf data base e)
            else if offsetOk data base e then findLoc o cs ss' e.content (base + ((data.length : Int) - e.openLen)) else none := by
  cases h with
  | @name _ _ ss' h =>
    refine ⟨ss', h, fun data base hb => ?_⟩
    rw [findLoc, if_neg (by omega)]
    simp only [matchesOpt_agrees]
    cases h with
    | nil =>
      cases ((topElems o data).filter (fun e => agrees cs n e.name)) <;> rfl
    | name h =>
      simp only [nameSeg, reduceCtorEq, if_false]
      cases ((topElems o data).filter (fun e => agrees cs n e.name)) <;> rfl
    | index h =>
      simp only [nameSeg, reduceCtorEq, if_false]
      cases ((topElems o data).filter (fun e => agrees cs n e.name)) <;> rfl
  | @index _ _ _ ss' h =>
    refine ⟨ss', h, fun data base hb => ?_⟩
    rw [findLoc, if_neg (by omega)]
    simp only [matchesOpt_agrees]
    rw [if_neg (by omega)]
    simp only [Int.toNat_natCast]
    cases ((topElems o data).filter (fun e => agrees cs n e.name))[j]? with
    | none => rfl
    | some e => cases h <;> simp

/-- The location found is that of the element the path leads to. -/
theorem findLoc_leadsB {o : Ord} (ho : o.IsPerm) {ps : List Step} {ss : List Seg} (hss : StepSegs ps ss) {c : Ctx} {e : El}
    (hL : LeadsBy cs ps c e.name) {f g : Forest} {d : Nat} {top : Bool} (hf : f = c.plug (e.cons .nil)) (hs : Sim f g) (hl : g.Legal d) (ht : g.Tame top)
    {base : Int} (hb0 : 0 ≤ base) (hb : base + f.render.length ≤ maxPositionOffset) :
    ∃ l, findLoc o cs ss g.render base = some l ∧ LocOK l (base + c.before.length) e := by
  induction ps generalizing ss c f g d top base with
  | nil => simp [LeadsBy] at hL
  | cons p ps ih =>
    obtain ⟨n, j⟩ := p
    obtain ⟨ss', hss', hstep⟩ := findLoc_stepB o hss
    rw [hstep g.render base (by omega)]
    have hpl := placed_filterB (cs := cs) (topElems_placed ho hs hl ht) n
    cases c with
    | here b a =>
      cases ps with
      | cons => simp [LeadsBy] at hL
      | nil =>
        obtain ⟨hn, rfl⟩ := hL
        have hf' : f = b.append (e.cons a) := by rw [hf, Ctx.plug, cons_append]; rfl
        have := tops_getB b e a hn
        rw [← hf'] at this
        obtain ⟨m, hm, hP⟩ := hpl.get_some this
        rw [hm]
        refine ⟨_, rfl, ?_⟩
        exact locOf_ok hP (by rw [hs.length, hf', append_render, cons_render]; simp; omega)
    | within b nm as ws c cws a =>
      cases ps with
      | nil => simp [LeadsBy] at hL
      | cons p2 ps =>
        obtain ⟨hn, rfl, hL⟩ := hL
        have hf' : f = b.append ((⟨nm, as, ws, some (c.plug (e.cons .nil), cws)⟩ : El).cons a) := by rw [hf, Ctx.plug]; rfl
        have := tops_getB b ⟨nm, as, ws, some (c.plug (e.cons .nil), cws)⟩ a hn
        rw [← hf'] at this
        obtain ⟨m, hm, hP⟩ := hpl.get_some this
        rw [hm]
        obtain ⟨rfl, k', d', htw, hl', ht', hcont⟩ := hP.some _ _ rfl
        have hopen := hP.opn
        simp only [El.inner, El.stop] at hopen
        have hlen : g.render.length = b.render.length + (openTag nm as ws).length + 1 + m.openLen := by
          rw [hs.length, hf', append_render, cons_render, hopen]
          simp [El.render, El.start, El.inner, El.stop]; omega
        have hbase : base + ((g.render.length : Int) - m.openLen) = base + (b.render.length + (openTag nm as ws).length + 1) := by omega
        simp only [reduceCtorEq, if_false]
        have hsz := hs.length
        rw [if_pos, hcont, hbase]
        · obtain ⟨l, hl1, hl2⟩ := ih (base := base + (b.render.length + (openTag nm as ws).length + 1)) hss' hL rfl htw.sim hl' ht' (by omega) (by omega)
          refine ⟨l, hl1, ?_⟩
          have e2 : base + ((Ctx.within b nm as ws c [] a).before.length : Int) = base + (b.render.length + (openTag nm as ws).length + 1) + c.before.length := by
            simp [Ctx.before]; omega
          rw [e2]; exact hl2
        · simp only [offsetOk, Bool.not_eq_true', Bool.or_eq_false_iff, decide_eq_false_iff_not]
          omega

/-- No location is found if the path leads nowhere. -/
theorem findLoc_noneB {o : Ord} (ho : o.IsPerm) {ps : List Step} {ss : List Seg} (hss : StepSegs ps ss) {f g : Forest} {d : Nat} {top : Bool}
    (hs : Sim f g) (hl : g.Legal d) (ht : g.Tame top) {base : Int} (hb : base ≤ maxPositionOffset)
    (hno : ∀ c e, f = c.plug (El.cons e .nil) → ¬ LeadsBy cs ps c e.name) : findLoc o cs ss g.render base = none := by
  induction ps generalizing ss f g d top base with
  | nil => cases hss; rfl
  | cons p ps ih =>
    obtain ⟨n, j⟩ := p
    obtain ⟨ss', hss', hstep⟩ := findLoc_stepB o hss
    rw [hstep g.render base hb]
    have hpl := placed_filterB (cs := cs) (topElems_placed ho hs hl ht) n
    cases hm : ((topElems o g.render).filter (fun e => agrees cs n e.name))[j]? with
    | none => rfl
    | some m =>
      obtain ⟨⟨b, e, a⟩, ht1, hP⟩ := hpl.get_some_left hm
      obtain ⟨hf, hn, hj⟩ := tops_countB ht1
      simp only at hf hn hj
      cases ps with
      | nil =>
        exfalso
        exact hno (.here b a) e (by rw [hf, Ctx.plug, cons_append]; rfl) ⟨hn, hj⟩
      | cons p2 ps =>
        simp only [reduceCtorEq, if_false]
        split
        · rename_i hoff
          cases hbd : e.body with
          | none =>
            rw [hP.none hbd]
            refine ih (f := .nil) (g := .nil) (d := 0) (top := true) hss' .nil trivial trivial ?_ ?_
            · simp only [offsetOk, Bool.not_eq_true', Bool.or_eq_false_iff, decide_eq_false_iff_not] at hoff
              omega
            · intro c x hk
              exfalso
              have hk := congrArg Forest.render hk
              rw [plug_render, cons_render] at hk
              have := congrArg List.length hk
              simp [Forest.render, El.render, El.start, openTag] at this
          | some q =>
            obtain ⟨k, cws⟩ := q
            obtain ⟨rfl, k', d', htw, hl', ht', hcont⟩ := hP.some k cws hbd
            rw [hcont]
            refine ih hss' htw.sim hl' ht' ?_ ?_
            · simp only [offsetOk, Bool.not_eq_true', Bool.or_eq_false_iff, decide_eq_false_iff_not] at hoff
              omega
            · intro c x hk hL
              refine hno (.within b e.name e.attrs e.ws c [] a) x ?_ ⟨hn, hj, hL⟩
              rw [hf, Ctx.plug, ← hk, El.cons, hbd]
        · rfl


theorem follow_consB (n : Bytes) (j : Nat) (ps : List Step) (hp : ps ≠ []) (i : Info) :
    Info.followBy cs ((n, j) :: ps) i = (i.namedBy cs n)[j]?.bind (fun e => e.kids.followBy cs ps) := by
  cases ps with
  | nil => exact absurd rfl hp
  | cons p ps => rfl

/-- A path that leads to an element leads to it in the sense of `follow`. -/
theorem leads_followB {ps : List Step} {c : Ctx} {e : El} (h : LeadsBy cs ps c e.name) : (c.plug (e.cons .nil)).info.followBy cs ps = some e.node := by
  induction ps generalizing c with
  | nil => simp [LeadsBy] at h
  | cons p ps ih =>
    obtain ⟨n, j⟩ := p
    cases c with
    | here b a =>
      cases ps with
      | cons => simp [LeadsBy] at h
      | nil =>
        obtain ⟨h1, rfl⟩ := h
        rw [Info.followBy, Ctx.plug, append_namedBy, List.getElem?_append_right (Nat.le_refl _), Nat.sub_self, cons_append, Info.namedBy, cons_elems,
          List.filter_cons, if_pos (by simpa [El.node] using h1)]
        rfl
    | within b m as ws c cws a =>
      cases ps with
      | nil => simp [LeadsBy] at h
      | cons p2 ps =>
        obtain ⟨h1, rfl, h2⟩ := h
        rw [follow_consB _ _ _ (by simp), Ctx.plug, append_namedBy, List.getElem?_append_right (Nat.le_refl _), Nat.sub_self, Info.namedBy, Forest.info, Info.elems,
          List.filter_cons, if_pos (by simpa using h1)]
        exact ih h2

theorem named_topsB (f : Forest) (n : Bytes) : f.info.namedBy cs n = ((tops f).filter (fun t => agrees cs n t.2.1.name)).map (fun t => t.2.1.node) := by
  rw [Info.namedBy, ← tops_elems, List.filter_map]; rfl

/-- And conversely: where `follow` finds an element, there is a context to which the path leads. -/
theorem follow_leadsB {ps : List Step} {f : Forest} {nd : Node} (h : f.info.followBy cs ps = some nd) :
    ∃ c e, f = c.plug (El.cons e .nil) ∧ LeadsBy cs ps c e.name ∧ e.node = nd := by
  induction ps generalizing f with
  | nil => simp [Info.followBy] at h
  | cons p ps ih =>
    obtain ⟨n, j⟩ := p
    cases ps with
    | nil =>
      rw [Info.followBy, named_topsB, List.getElem?_map] at h
      cases ht : ((tops f).filter (fun t => agrees cs n t.2.1.name))[j]? with
      | none => rw [ht] at h; simp at h
      | some t =>
        rw [ht] at h
        simp only [Option.map_some, Option.some.injEq] at h
        obtain ⟨h1, h2, h3⟩ := tops_countB ht
        exact ⟨.here t.1 t.2.2, t.2.1, by rw [Ctx.plug, cons_append]; exact h1, ⟨h2, h3⟩, h⟩
    | cons p2 ps =>
      rw [follow_consB _ _ _ (by simp), named_topsB, List.getElem?_map] at h
      cases ht : ((tops f).filter (fun t => agrees cs n t.2.1.name))[j]? with
      | none => rw [ht] at h; simp at h
      | some t =>
        rw [ht] at h
        simp only [Option.map_some, Option.bind_some] at h
        obtain ⟨h1, h2, h3⟩ := tops_countB ht
        obtain ⟨b, ⟨m, as, ws, body⟩, a⟩ := t
        cases body with
        | none =>
          obtain ⟨c, e, hk, -⟩ := ih (f := .nil) h
          exfalso
          have hk := congrArg Forest.render hk
          rw [plug_render, cons_render] at hk
          have := congrArg List.length hk
          simp [Forest.render, El.render, El.start, openTag] at this
        | some q =>
          obtain ⟨k, cws⟩ := q
          obtain ⟨c, e, hk, hL, hn⟩ := ih (f := k) h
          exact ⟨.within b m as ws c cws a, e, by rw [Ctx.plug, ← hk]; exact h1, ⟨h2, h3, hL⟩, hn⟩

/-- A longer path passes through the element its beginning leads to. -/
theorem leads_throughB {ps qs : List Step} {c c' : Ctx} {e e' : El} (hL : LeadsBy cs ps c e.name) (hL' : LeadsBy cs (ps ++ qs) c' e'.name) (hq : qs ≠ [])
    (hf : c.plug (e.cons .nil) = c'.plug (e'.cons .nil)) :
    ∃ k cws c2, e.body = some (k, cws) ∧ k = c2.plug (e'.cons .nil) ∧ LeadsBy cs qs c2 e'.name := by
  induction ps generalizing c c' with
  | nil => simp [LeadsBy] at hL
  | cons p ps ih =>
    obtain ⟨n, j⟩ := p
    cases c' with
    | here b' a' =>
      exfalso
      cases ps with
      | nil =>
        cases qs with
        | nil => exact hq rfl
        | cons => simp [LeadsBy] at hL'
      | cons => simp [LeadsBy] at hL'
    | within b' m' as' ws' c' cws' a' =>
      have hL2 : agrees cs n m' = true ∧ (b'.info.namedBy cs n).length = j ∧ LeadsBy cs (ps ++ qs) c' e'.name := by
        cases hpq : ps ++ qs with
        | nil => simp at hpq; exact absurd hpq.2 hq
        | cons r rs => rw [List.cons_append, hpq] at hL'; exact hL'
      have t2 := tops_getB b' ⟨m', as', ws', some (c'.plug (e'.cons .nil), cws')⟩ a' hL2.1
      have f2 : (Ctx.within b' m' as' ws' c' cws' a').plug (e'.cons .nil) = b'.append ((⟨m', as', ws', some (c'.plug (e'.cons .nil), cws')⟩ : El).cons a') := rfl
      rw [← f2, hL2.2.1] at t2
      cases c with
      | here b a =>
        cases ps with
        | cons => simp [LeadsBy] at hL
        | nil =>
          obtain ⟨h1, h2⟩ := hL
          have t1 := tops_getB b e a h1
          have f1 : (Ctx.here b a).plug (e.cons .nil) = b.append (e.cons a) := by rw [Ctx.plug, cons_append]; rfl
          rw [← f1, h2, hf, t2] at t1
          simp only [Option.some.injEq, Prod.mk.injEq] at t1
          obtain ⟨-, rfl, -⟩ := t1
          exact ⟨_, _, c', rfl, rfl, hL2.2.2⟩
      | within b m as ws c cws a =>
        cases ps with
        | nil => simp [LeadsBy] at hL
        | cons p2 ps =>
          obtain ⟨h1, h2, h3⟩ := hL
          have t1 := tops_getB b ⟨m, as, ws, some (c.plug (e.cons .nil), cws)⟩ a h1
          have f1 : (Ctx.within b m as ws c cws a).plug (e.cons .nil) = b.append ((⟨m, as, ws, some (c.plug (e.cons .nil), cws)⟩ : El).cons a) := rfl
          rw [← f1, h2, hf, t2] at t1
          simp only [Option.some.injEq, Prod.mk.injEq, El.mk.injEq] at t1
          exact ih h3 hL2.2.2 t1.2.1.2.2.2.1.symm


end Verif
