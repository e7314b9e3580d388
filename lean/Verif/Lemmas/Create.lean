import Verif.Lemmas.Edit
/- Where paths lead, and the creation of missing elements. -/
namespace Verif
open Spec

/-! ### follow -/

theorem follow_cons (n : Bytes) (j : Nat) (ps : List Step) (hp : ps ≠ []) (i : Info) :
    Info.follow ((n, j) :: ps) i = (i.named n)[j]?.bind (fun e => e.kids.follow ps) := by
  cases ps with
  | nil => exact absurd rfl hp
  | cons p ps => rfl

/-- A path that leads to an element leads to it in the sense of `follow`. -/
theorem leads_follow {ps : List Step} {c : Ctx} {e : El} (h : Leads ps c e.name) : (c.plug (e.cons .nil)).info.follow ps = some e.node := by
  induction ps generalizing c with
  | nil => simp [Leads] at h
  | cons p ps ih =>
    obtain ⟨n, j⟩ := p
    cases c with
    | here b a =>
      cases ps with
      | cons => simp [Leads] at h
      | nil =>
        obtain ⟨h1, rfl⟩ := h
        rw [Info.follow, Ctx.plug, append_named, List.getElem?_append_right (Nat.le_refl _), Nat.sub_self, cons_append, Info.named, cons_elems,
          List.filter_cons, if_pos (by simpa [El.node] using h1)]
        rfl
    | within b m as ws c cws a =>
      cases ps with
      | nil => simp [Leads] at h
      | cons p2 ps =>
        obtain ⟨h1, rfl, h2⟩ := h
        rw [follow_cons _ _ _ (by simp), Ctx.plug, append_named, List.getElem?_append_right (Nat.le_refl _), Nat.sub_self, Info.named, Forest.info, Info.elems,
          List.filter_cons, if_pos (by simpa using h1)]
        exact ih h2

theorem named_tops (f : Forest) (n : Bytes) : f.info.named n = ((tops f).filter (fun t => nameMatches n t.2.1.name)).map (fun t => t.2.1.node) := by
  rw [Info.named, ← tops_elems, List.filter_map]; rfl

/-- And conversely: where `follow` finds an element, there is a context to which the path leads. -/
theorem follow_leads {ps : List Step} {f : Forest} {nd : Node} (h : f.info.follow ps = some nd) :
    ∃ c e, f = c.plug (El.cons e .nil) ∧ Leads ps c e.name ∧ e.node = nd := by
  induction ps generalizing f with
  | nil => simp [Info.follow] at h
  | cons p ps ih =>
    obtain ⟨n, j⟩ := p
    cases ps with
    | nil =>
      rw [Info.follow, named_tops, List.getElem?_map] at h
      cases ht : ((tops f).filter (fun t => nameMatches n t.2.1.name))[j]? with
      | none => rw [ht] at h; simp at h
      | some t =>
        rw [ht] at h
        simp only [Option.map_some, Option.some.injEq] at h
        obtain ⟨h1, h2, h3⟩ := tops_count ht
        exact ⟨.here t.1 t.2.2, t.2.1, by rw [Ctx.plug, cons_append]; exact h1, ⟨h2, h3⟩, h⟩
    | cons p2 ps =>
      rw [follow_cons _ _ _ (by simp), named_tops, List.getElem?_map] at h
      cases ht : ((tops f).filter (fun t => nameMatches n t.2.1.name))[j]? with
      | none => rw [ht] at h; simp at h
      | some t =>
        rw [ht] at h
        simp only [Option.map_some, Option.bind_some] at h
        obtain ⟨h1, h2, h3⟩ := tops_count ht
        obtain ⟨b, ⟨m, as, ws, body⟩, a⟩ := t
        cases body with
        | none =>
          obtain ⟨c, e, hk, -⟩ := ih (f := .nil) h
          exfalso
          have hk := congrArg Forest.render hk
          rw [plug_render, cons_render] at hk
          have := congrArg List.length hk
          simp [Forest.render, El.render, El.start, openTag] at this
        | some q =>
          obtain ⟨k, cws⟩ := q
          obtain ⟨c, e, hk, hL, hn⟩ := ih (f := k) h
          exact ⟨.within b m as ws c cws a, e, by rw [Ctx.plug, ← hk]; exact h1, ⟨h2, h3, hL⟩, hn⟩

/-- The first element selected by names is the one `follow` finds, if that finds one. -/
theorem follow_select {pre : List Bytes} {n : Bytes} {i : Info} {nd : Node} (h : i.follow (firsts (pre ++ [n])) = some nd) :
    (i.select pre n).head? = some nd := by
  induction pre generalizing i with
  | nil =>
    rw [Info.select, Info.reach]
    simp only [firsts, List.nil_append, List.map_cons, List.map_nil, Info.follow] at h
    rw [List.flatMap_cons, List.flatMap_nil, List.append_nil, List.head?_eq_getElem?]; exact h
  | cons m pre ih =>
    have e : firsts (m :: pre ++ [n]) = (m, 0) :: firsts (pre ++ [n]) := rfl
    rw [e, follow_cons _ _ _ (by simp [firsts])] at h
    cases hm : i.named m with
    | nil => rw [hm] at h; simp at h
    | cons x xs =>
      rw [hm] at h
      have := ih (i := x.kids) (by simpa using h)
      rw [Info.select, Info.reach, hm, List.flatMap_cons, List.flatMap_append, List.head?_append]
      rw [Info.select] at this
      rw [this]; rfl

/-! ### contexts inside contexts -/

/-- The hole of `c2` inside the element written there, inside `c`. -/
def down : Ctx → Bytes → List Attr → Bytes → Bytes → Ctx → Ctx
  | .here b a, n, as, ws, cws, c2 => .within b n as ws c2 cws a
  | .within b m as' ws' c cws' a, n, as, ws, cws, c2 => .within b m as' ws' (down c n as ws cws c2) cws' a

theorem down_plug (c : Ctx) (n : Bytes) (as : List Attr) (ws cws : Bytes) (c2 : Ctx) (x : Forest) :
    (down c n as ws cws c2).plug x = c.plug (.node n as ws (c2.plug x) cws .nil) := by
  induction c with
  | here b a => simp [down, Ctx.plug, Forest.append]
  | within b m as' ws' c cws' a ih => simp [down, Ctx.plug, ih]

theorem down_depth (c : Ctx) (n : Bytes) (as : List Attr) (ws cws : Bytes) (c2 : Ctx) : (down c n as ws cws c2).depth = c.depth + 1 + c2.depth := by
  induction c with
  | here b a => simp [down, Ctx.depth]; omega
  | within b m as' ws' c cws' a ih => simp [down, Ctx.depth, ih]; omega

theorem down_before (c : Ctx) (n : Bytes) (as : List Attr) (ws cws : Bytes) (c2 : Ctx) :
    (down c n as ws cws c2).before = c.before ++ (openTag n as ws ++ b!">") ++ c2.before := by
  induction c with
  | here b a => simp [down, Ctx.before]
  | within b m as' ws' c cws' a ih => simp [down, Ctx.before, ih]

theorem down_after (c : Ctx) (n : Bytes) (as : List Attr) (ws cws : Bytes) (c2 : Ctx) :
    (down c n as ws cws c2).after = c2.after ++ closeTag n cws ++ c.after := by
  induction c with
  | here b a => simp [down, Ctx.after]
  | within b m as' ws' c cws' a ih => simp [down, Ctx.after, ih]

theorem leads_down {ps qs : List Step} {c c2 : Ctx} {n x : Bytes} {as : List Attr} {ws cws : Bytes} (h1 : Leads ps c n) (h2 : Leads qs c2 x) :
    Leads (ps ++ qs) (down c n as ws cws c2) x := by
  induction ps generalizing c with
  | nil => simp [Leads] at h1
  | cons p ps ih =>
    obtain ⟨m, j⟩ := p
    cases c with
    | here b a =>
      cases ps with
      | cons => simp [Leads] at h1
      | nil =>
        cases qs with
        | nil => simp [Leads] at h2
        | cons q qs => exact ⟨h1.1, h1.2, h2⟩
    | within b m' as' ws' c cws' a =>
      cases ps with
      | nil => simp [Leads] at h1
      | cons p2 ps => exact ⟨h1.1, h1.2.1, ih h1.2.2⟩

/-- A longer path passes through the element its beginning leads to. -/
theorem leads_through {ps qs : List Step} {c c' : Ctx} {e e' : El} (hL : Leads ps c e.name) (hL' : Leads (ps ++ qs) c' e'.name) (hq : qs ≠ [])
    (hf : c.plug (e.cons .nil) = c'.plug (e'.cons .nil)) :
    ∃ k cws c2, e.body = some (k, cws) ∧ k = c2.plug (e'.cons .nil) ∧ Leads qs c2 e'.name := by
  induction ps generalizing c c' with
  | nil => simp [Leads] at hL
  | cons p ps ih =>
    obtain ⟨n, j⟩ := p
    cases c' with
    | here b' a' =>
      exfalso
      cases ps with
      | nil =>
        cases qs with
        | nil => exact hq rfl
        | cons => simp [Leads] at hL'
      | cons => simp [Leads] at hL'
    | within b' m' as' ws' c' cws' a' =>
      have hL2 : nameMatches n m' = true ∧ (b'.info.named n).length = j ∧ Leads (ps ++ qs) c' e'.name := by
        cases hpq : ps ++ qs with
        | nil => simp at hpq; exact absurd hpq.2 hq
        | cons r rs => rw [List.cons_append, hpq] at hL'; exact hL'
      have t2 := tops_get b' ⟨m', as', ws', some (c'.plug (e'.cons .nil), cws')⟩ a' hL2.1
      have f2 : (Ctx.within b' m' as' ws' c' cws' a').plug (e'.cons .nil) = b'.append ((⟨m', as', ws', some (c'.plug (e'.cons .nil), cws')⟩ : El).cons a') := rfl
      rw [← f2, hL2.2.1] at t2
      cases c with
      | here b a =>
        cases ps with
        | cons => simp [Leads] at hL
        | nil =>
          obtain ⟨h1, h2⟩ := hL
          have t1 := tops_get b e a h1
          have f1 : (Ctx.here b a).plug (e.cons .nil) = b.append (e.cons a) := by rw [Ctx.plug, cons_append]; rfl
          rw [← f1, h2, hf, t2] at t1
          simp only [Option.some.injEq, Prod.mk.injEq] at t1
          obtain ⟨-, rfl, -⟩ := t1
          exact ⟨_, _, c', rfl, rfl, hL2.2.2⟩
      | within b m as ws c cws a =>
        cases ps with
        | nil => simp [Leads] at hL
        | cons p2 ps =>
          obtain ⟨h1, h2, h3⟩ := hL
          have t1 := tops_get b ⟨m, as, ws, some (c.plug (e.cons .nil), cws)⟩ a h1
          have f1 : (Ctx.within b m as ws c cws a).plug (e.cons .nil) = b.append ((⟨m, as, ws, some (c.plug (e.cons .nil), cws)⟩ : El).cons a) := rfl
          rw [← f1, h2, hf, t2] at t1
          simp only [Option.some.injEq, Prod.mk.injEq, El.mk.injEq] at t1
          exact ih h3 hL2.2.2 t1.2.1.2.2.2.1.symm

/-! ### chains -/

theorem nameMatches_self (n : Bytes) : nameMatches n n = true := by simp [nameMatches]

theorem stepSegs_names (ns : List Bytes) : StepSegs (firsts ns) (ns.map nameSeg) := by
  induction ns with
  | nil => exact .nil
  | cons n ns ih => exact .name ih

theorem stepSegs_append {ps qs : List Step} {ss ts : List Seg} (h : StepSegs ps ss) (h2 : StepSegs qs ts) : StepSegs (ps ++ qs) (ss ++ ts) := by
  induction h with
  | nil => exact h2
  | name _ ih => exact .name ih
  | index _ ih => exact .index ih

theorem stepsText_names {ns : List Bytes} (h : ∀ n ∈ ns, PlainName n) : StepsText (firsts ns) ns := by
  induction ns with
  | nil => exact .nil
  | cons n ns ih => exact .name (h n (by simp)) (ih (fun m hm => h m (by simp [hm])))

theorem stepsText_append {ps qs : List Step} {a b : List Bytes} (h : StepsText ps a) (h2 : StepsText qs b) : StepsText (ps ++ qs) (a ++ b) := by
  induction h with
  | nil => exact h2
  | name hn _ ih => exact .name hn ih
  | index hn hd hj _ ih => exact .index hn hd hj ih

/-- The code's chain of new elements. -/
theorem buildPath_chain (ns : List Bytes) (hne : ns ≠ []) (w : Bytes) (i : Nat) :
    buildPathFrom [] w i (ns.map nameSeg) = (chain ns (.text w .nil)).render := by
  induction ns generalizing i with
  | nil => exact absurd rfl hne
  | cons n ns ih =>
    simp only [List.map_cons, buildPathFrom, chain, Forest.render, openTag, closeTag]
    cases ns with
    | nil => simp [nameSeg, Seg.isAttr, Seg.value, indentAt, buildPathFrom, chain, Forest.render]
    | cons m ns =>
      rw [ih (by simp)]
      simp [nameSeg, Seg.isAttr, Seg.value, indentAt]

/-- The context of the innermost element of a chain behind `b`. -/
def chainCtx (b : Forest) : List Bytes → Ctx
  | [] => .here b .nil
  | [_] => .here b .nil
  | n :: m :: ns => .within b n [] [] (chainCtx .nil (m :: ns)) [] .nil

theorem chainCtx_plug (b : Forest) (ns : List Bytes) (n : Bytes) (x : Forest) :
    (chainCtx b (ns ++ [n])).plug ((⟨n, [], [], some (x, [])⟩ : El).cons .nil) = b.append (chain (ns ++ [n]) x) := by
  induction ns generalizing b with
  | nil => simp [chainCtx, Ctx.plug, chain, El.cons, append_nil]
  | cons m ns ih =>
    have e : ∃ p q, ns ++ [n] = p :: q := by cases ns <;> simp
    obtain ⟨p, q, e⟩ := e
    rw [List.cons_append, e, chainCtx, Ctx.plug, ← e, ih, chain]; rfl

theorem chainCtx_leads {b : Forest} {ns : List Bytes} {n : Bytes} (h : b.info.named ((ns ++ [n]).head (by simp)) = []) :
    Leads (firsts (ns ++ [n])) (chainCtx b (ns ++ [n])) n := by
  induction ns generalizing b with
  | nil => exact ⟨nameMatches_self n, by simpa using h⟩
  | cons m ns ih =>
    have e : ∃ p q, ns ++ [n] = p :: q := by cases ns <;> simp
    obtain ⟨p, q, e⟩ := e
    have ih := ih (b := .nil) rfl
    rw [List.cons_append, e, chainCtx, firsts, List.map_cons, List.map_cons]
    rw [e] at ih
    exact ⟨nameMatches_self m, by simpa using h, ih⟩

theorem chainCtx_depth (b : Forest) (ns : List Bytes) (n : Bytes) : (chainCtx b (ns ++ [n])).depth = ns.length := by
  induction ns generalizing b with
  | nil => rfl
  | cons m ns ih =>
    have e : ∃ p q, ns ++ [n] = p :: q := by cases ns <;> simp
    obtain ⟨p, q, e⟩ := e
    rw [List.cons_append, e, chainCtx, Ctx.depth, ← e, ih]; rfl

theorem chain_good {ns : List Bytes} {x : Forest} {d : Nat} {t : Bool} (hne : ns ≠ []) (hn : ∀ n ∈ ns, IsName n) (hd : d + ns.length ≤ 100) (hx : x.Legal (d + ns.length))
    (hxt : x.Tame false) (hxn : x.Even) : (chain ns x).Legal d ∧ (chain ns x).Tame t ∧ (chain ns x).Even := by
  induction ns generalizing d t with
  | nil => exact absurd rfl hne
  | cons n ns ih =>
    simp only [List.length_cons] at hd hx
    have hin : (chain ns x).Legal (d + 1) ∧ (chain ns x).Tame false ∧ (chain ns x).Even := by
      cases ns with
      | nil => exact ⟨by simpa [chain] using hx, hxt, hxn⟩
      | cons m ns =>
        refine ih (by simp) (fun k hk => hn k (by simp [hk])) (by omega) ?_
        rw [show d + 1 + (m :: ns).length = d + ((m :: ns).length + 1) by omega]; exact hx
    obtain ⟨h1, h2, h3⟩ := hin
    have h0 : AttrsLegal [] := ⟨by simp, by simp, by simp⟩
    refine ⟨⟨hn n (by simp), h0, by simp, by omega, h1, by simp, trivial⟩, ⟨?_, ?_, h2, trivial⟩, ⟨?_, rfl, h3, trivial⟩⟩
    · intro a ha; simp at ha
    · have := (hn n (by simp)).2.2; simpa using this
    · rfl

/-! ### the deepest existing ancestor -/

theorem deepestParent_at {o : Ord} {data : Bytes} {path : List Seg} {j k : Nat} {l : Loc} (hj0 : 0 < j) (hj : j ≤ k)
    (hf : findLoc o true (path.take j) data 0 = some l) (hn : ∀ i, j < i → i ≤ k → findLoc o true (path.take i) data 0 = none) :
    deepestParent o true data path k = some (j, l) := by
  induction k with
  | zero => omega
  | succ k ih =>
    rw [deepestParent]
    by_cases e : j = k + 1
    · subst e; rw [hf]
    · rw [hn (k + 1) (by omega) (Nat.le_refl _)]
      exact ih (by omega) (fun i h1 h2 => hn i h1 (by omega))

theorem deepestParent_none {o : Ord} {data : Bytes} {path : List Seg} {k : Nat}
    (hn : ∀ i, 0 < i → i ≤ k → findLoc o true (path.take i) data 0 = none) : deepestParent o true data path k = none := by
  induction k with
  | zero => rfl
  | succ k ih =>
    rw [deepestParent, hn (k + 1) (by omega) (Nat.le_refl _)]
    exact ih (fun i h1 h2 => hn i h1 (by omega))

/-- No path into an element beginning with a name none of its children matches. -/
theorem findLoc_missing {o : Ord} (ho : o.IsPerm) {ps : List Step} {ss : List Seg} (hss : StepSegs ps ss) {c : Ctx} {e : El}
    (hL : Leads ps c e.name) (h : Editable (c.plug (e.cons .nil))) {m : Bytes} {ns : List Bytes} (hm : e.kids.info.named m = []) :
    findLoc o true (ss ++ (m :: ns).map nameSeg) (c.plug (e.cons .nil)).render 0 = none := by
  refine findLoc_none ho (stepSegs_append hss (stepSegs_names (m :: ns))) (editable_sim h) h.2.1 h.2.2.1 (by rw [maxPos]; omega) ?_
  intro c' e' hf hL'
  obtain ⟨k, cws, c2, hb, hk, hL2⟩ := leads_through hL hL' (by simp [firsts]) hf
  have hkk : e.kids = k := by simp [El.kids, hb]
  rw [hkk] at hm
  have := leads_follow hL2
  rw [← hk] at this
  cases ns with
  | nil => simp [firsts, Info.follow, hm] at this
  | cons m2 ns =>
    rw [firsts, List.map_cons, follow_cons _ _ _ (by simp), hm] at this
    simp at this

/-! ### attributes written back in some order -/

theorem perm_legal {as : List Attr} {m : Attrs} (hm : m.Perm (attrMap as)) (ha : AttrsLegal as) (hf : AttrsFit as) :
    AttrsLegal (m.map canonAttr) ∧ AttrsFit (m.map canonAttr) ∧ Neat (m.map canonAttr) ∧ attrVal (m.map canonAttr) = attrVal as := by
  have ho : Ord.IsPerm (fun _ a => if a = attrMap as then m else a) := by
    intro r a
    show List.Perm (if a = attrMap as then m else a) a
    split
    · rename_i h; rw [h]; exact hm
    · exact List.Perm.refl _
  have := canon_legal ho ha.loose hf []
  simp only [if_true] at this
  exact ⟨this.2.1 ha, this.2.2.1, canon_neat this.2.2.2.1, this.2.2.2.2⟩

/-! ### Set on missing elements -/

theorem buildElement_names (ns : List Bytes) (hne : ns ≠ []) (w : Bytes) :
    buildElementPath [] (ns.map nameSeg) w = (chain ns (.text w .nil)).render := buildPath_chain ns hne w 0

theorem el_attrs {e : El} {d : Nat} {t : Bool} (hl : (e.cons .nil).Legal d) (ht : (e.cons .nil).Tame t) : AttrsLegal e.attrs ∧ AttrsFit e.attrs := by
  obtain ⟨n, as, ws, body⟩ := e
  rcases body with _ | ⟨k, cws⟩
  · exact ⟨hl.2.1, ht.1⟩
  · exact ⟨hl.2.1, ht.1⟩

theorem render_ne {f : Forest} (h : f.HasElem) : f.render ≠ [] := by
  induction f with
  | nil => exact absurd h (by simp [Forest.HasElem])
  | text b next ih => have := ih h; simp [Forest.render, this]
  | misc m next ih => have := ih h; simp [Forest.render, this]
  | leaf n as ws next => simp [Forest.render, openTag]
  | node n as ws k cws next => simp [Forest.render, openTag]

/-- Whether a first index is written is irrelevant. -/
theorem findLoc_segs (o : Ord) {ps : List Step} {ss ss2 : List Seg} (h : StepSegs ps ss) (h2 : StepSegs ps ss2) (data : Bytes) (base : Int) :
    findLoc o true ss data base = findLoc o true ss2 data base := by
  induction ps generalizing ss ss2 data base with
  | nil => cases h; cases h2; rfl
  | cons p ps ih =>
    by_cases hb : base ≤ maxPositionOffset
    · obtain ⟨t1, g1, g2⟩ := findLoc_step o h
      obtain ⟨t2, k1, k2⟩ := findLoc_step o h2
      rw [g2 data base hb, k2 data base hb]
      simp only [ih g1 k1]
    · have : ∀ {ss}, StepSegs (p :: ps) ss → findLoc o true ss data base = none := by
        intro ss h
        cases h <;> rw [findLoc, if_pos (by omega)]
      rw [this h, this h2]

/-- What createInParent writes. -/
theorem createInParent_at {o : Ord} (ho : o.IsPerm) {c : Ctx} {e : El} (h : Editable (c.plug (e.cons .nil))) {l : Loc} (hl : LocOK l c.before.length e) :
    ∃ as ws, Opened e as ws ∧ ∀ (ns : List Bytes) (_ : ns ≠ []) (w : Bytes),
      createInParent o [] (c.plug (e.cons .nil)).render l (ns.map nameSeg) w =
        .ok (c.before ++ (e.refill as ws (e.kids.append (chain ns (.text w .nil)))).render ++ c.after) := by
  have hg := editable_el h
  obtain ⟨ha, hfit⟩ := el_attrs hg.legal hg.tame
  unfold createInParent
  rw [plug_el_render]
  cases hb : e.body with
  | none =>
    simp only [show l.selfClosing = true by rw [hl.self, hb]; rfl, if_true]
    generalize hdd : List.drop l.contentStart.toNat _ = dd
    have hp : (o dd l.attrs).Perm (attrMap e.attrs) := (ho dd l.attrs).trans hl.attrs
    obtain ⟨p1, p2, p3, p4⟩ := perm_legal hp ha hfit
    refine ⟨(o dd l.attrs).map canonAttr, [], ⟨fun hh => absurd hb hh, fun _ => ⟨p3, rfl, p4, p1, p2⟩⟩, fun ns hne w => ?_⟩
    have e1 : c.before ++ e.start ++ e.inner ++ e.stop ++ c.after = c.before ++ e.start ++ c.after := by simp [El.inner, El.stop, hb]
    rw [buildElement_names ns hne, e1, splice_at hl.start (by rw [hl.cend]; simp [El.inner, hb]), writeAttrs_eq, hl.name]
    simp [expanded, El.refill, El.render, El.start, El.inner, El.stop, openTag, closeTag, El.kids, hb, Forest.append]
  | some q =>
    obtain ⟨k, cws⟩ := q
    have hcws : cws = [] := by
      have := hg.stable
      rw [El.cons, hb] at this
      exact this.1
    subst hcws
    simp only [show l.selfClosing = false by rw [hl.self, hb]; rfl, Bool.false_eq_true, if_false]
    refine ⟨e.attrs, e.ws, ⟨fun _ => ⟨rfl, rfl⟩, fun hh => by rw [hb] at hh; simp at hh⟩, fun ns hne w => ?_⟩
    have e1 : c.before ++ e.start ++ e.inner ++ e.stop ++ c.after = (c.before ++ e.start ++ e.inner) ++ [] ++ (e.stop ++ c.after) := by simp
    rw [buildElement_names ns hne, e1, splice_at (by rw [hl.cend]; simp; omega) (by rw [hl.cend]; simp; omega)]
    simp [El.refill, El.render, El.start, El.inner, El.stop, El.kids, hb, append_render]

/-- Set where the path leads to an existing element and then on by names, the first of which no child matches. -/
theorem set_missing {o : Ord} (ho : o.IsPerm) {ps : List Step} {parts : List Bytes} (hps : StepsText ps parts) {c : Ctx} {e : El}
    (hL : Leads ps c e.name) (h : Editable (c.plug (e.cons .nil))) :
    ∃ as ws, Opened e as ws ∧ ∀ (m : Bytes) (ns : List Bytes) (_ : ∀ n ∈ m :: ns, PlainName n) (_ : parts.length + (m :: ns).length ≤ 100)
      (_ : e.kids.info.named m = []) (v : GoVal) (w : Bytes) (_ : v ≠ .nil) (_ : valueToXML v = some w) (_ : w.length ≤ 5242880),
      set o (c.plug (e.cons .nil)).render (pathOf (parts ++ m :: ns)) v =
        .ret (c.before ++ (e.refill as ws (e.kids.append (chain (m :: ns) (.text w .nil)))).render ++ c.after, none) := by
  have hne := leads_ne hL
  obtain ⟨ss0, hss0, -⟩ := parseParts_steps hps [] [] rfl
  obtain ⟨l, hl, hok⟩ := editable_findLoc ho hss0 hL h
  obtain ⟨as, ws, hopen, hc⟩ := createInParent_at ho h hok
  refine ⟨as, ws, hopen, fun m ns hns hpl hm v w hv0 hv hw => ?_⟩
  have hpp : parseParts (m :: ns) = .ok ((m :: ns).map nameSeg) := by simpa using parseParts_names (m :: ns) [] hns [] rfl
  obtain ⟨ss, hss, hp⟩ := parsePath_steps hps hne (m :: ns) ((m :: ns).map nameSeg) hpp hpl
  have hl : findLoc o true ss (c.plug (e.cons .nil)).render 0 = some l := by
    rw [findLoc_segs o hss hss0]; exact hl
  rw [show fuseFields ((m :: ns).map nameSeg) = (m :: ns).map nameSeg by simpa [fuseFields] using fuseFields_names (m :: ns) []] at hp
  have hss2 := stepSegs_append hss (stepSegs_names (m :: ns))
  rw [set_entry h hp (by simp) v hv0, setElement_steps hss2 (by simp [hne]) hv hw h.1, findLoc_missing ho hss hL h hm]
  simp only
  have hnem := render_ne h.2.2.2.1
  have hss0 : 0 < ss.length := by have := stepSegs_ne hss hne; exact List.length_pos_iff.mpr this
  unfold createElement
  rw [if_neg (by simpa using hnem), deepestParent_at (j := ss.length) (l := l) hss0 (by simp)]
  · simp only [List.drop_left]
    rw [hc _ (by simp), finish_ok (by simp [El.render, el_start_ne])]
  · rw [List.take_left]; exact hl
  · intro i h1 h2
    obtain ⟨t, rfl⟩ : ∃ t, i = ss.length + (t + 1) := ⟨i - ss.length - 1, by omega⟩
    rw [List.take_length_add_append, List.map_cons, List.take_succ_cons, ← List.map_take, ← List.map_cons]
    exact findLoc_missing ho hss hL h hm

/-- Set on the empty document. -/
theorem set_empty (o : Ord) {m : Bytes} {ns : List Bytes} (hns : ∀ n ∈ m :: ns, PlainName n)
    (hpl : (m :: ns).length ≤ 100) {v : GoVal} {w : Bytes} (hv0 : v ≠ .nil) (hv : valueToXML v = some w) (hw : w.length ≤ 5242880) :
    set o [] (pathOf (m :: ns)) v = .ret ((chain (m :: ns) (.text w .nil)).render, none) := by
  have hp := parsePath_names (m :: ns) [] hns (by simp) (by simpa using hpl) [] rfl
  simp only [List.append_nil, fuseFields] at hp
  have hss2 := stepSegs_names (m :: ns)
  unfold set setWithOptions
  rw [if_neg (by simp [docMax]), if_neg (by simp), if_neg hv0]
  have e : (effOpts (some defaultOptions)).caseSensitive = true := rfl
  have e2 : (effOpts (some defaultOptions)).indent = [] := rfl
  rw [e, e2, parseOpt_true hp]
  simp only [List.map_cons]
  rw [← List.map_cons, setElement_steps hss2 (by simp [firsts]) hv hw (by simp)]
  have hf : findLoc o true ((m :: ns).map nameSeg) [] 0 = none := by
    obtain ⟨ss', h1, h2⟩ := findLoc_step o (n := m) (j := 0) hss2
    rw [h2 [] 0 (by rw [maxPos]; omega), topElems_none (by simp [skipToNext])]
    rfl
  rw [hf]
  simp only [createElement, List.isEmpty_nil, if_true, List.nil_append]
  rw [buildElement_names (m :: ns) (by simp), finish_ok (by simp [chain, Forest.render, openTag])]

/-! ### the result is again such a document -/

theorem plain_text {w : Bytes} {d : Nat} (hw : c!"<" ∉ w) (hd : 0 < d) : (Forest.text w .nil).Legal d ∧ (Forest.text w .nil).Tame false ∧ (Forest.text w .nil).Even :=
  ⟨⟨hw, fun h => by omega, trivial⟩, trivial, trivial⟩

theorem refill_good {e : El} {as : List Attr} {ws : Bytes} {k : Forest} {d : Nat} {t n : Bool} (h : GoodEl e d t n) (hr : Opened e as ws) (hk : k.Legal (d + 1))
    (hkt : k.Tame false) (hkn : k.Even) : GoodEl (e.refill as ws k) d t n := by
  obtain ⟨nm, as0, ws0, body⟩ := e
  obtain ⟨h3, h4⟩ := hr
  obtain ⟨g1, g2, g3, g4⟩ := h
  simp only at h3 h4
  rcases body with _ | ⟨k0, cws⟩
  · obtain ⟨p1, rfl, p3, p4, p5⟩ := h4 rfl
    obtain ⟨q1, q2, q3, q4, q5⟩ := g1
    have hl := q1.2.2
    exact ⟨⟨q1, p4, fun c hc => absurd hc List.not_mem_nil, q4, hk, by simp, trivial⟩, ⟨p5, by simpa [El.refill] using hl, hkt, trivial⟩, ⟨rfl, hkn, trivial⟩, fun _ => ⟨neat_even p1, rfl, hkn, trivial⟩⟩
  · obtain ⟨rfl, rfl⟩ := h3 (by simp)
    obtain ⟨q1, q2, q3, q4, q5, q6, q7⟩ := g1
    have hl := q1.2.2
    exact ⟨⟨q1, q2, q3, q4, hk, by simp, trivial⟩, ⟨g2.1, by simpa [El.refill] using hl, hkt, trivial⟩, ⟨rfl, hkn, trivial⟩,
      fun hh => ⟨(g4 hh).1, rfl, hkn, trivial⟩⟩

theorem editable_swapEl {c : Ctx} {e e' : El} (h : Editable (c.plug (e.cons .nil))) (hg : GoodEl e' c.depth (c.depth == 0) (decide (0 < c.depth)))
    (hsz : (c.plug (e'.cons .nil)).render.length ≤ 10485760) : Editable (c.plug (e'.cons .nil)) :=
  editable_swap h hg.legal hg.tame hg.stable (fun hh => hg.even (by simpa using hh)) (plug_hasElem_of (cons_hasElem e' .nil)) hsz

theorem el_kids_good {e : El} {d : Nat} {t n : Bool} (h : GoodEl e d t n) : e.kids.Legal (d + 1) ∧ e.kids.Tame false ∧ e.kids.Even ∧ d < 100 := by
  obtain ⟨nm, as, ws, body⟩ := e
  rcases body with _ | ⟨k0, cws⟩
  · exact ⟨trivial, trivial, trivial, h.legal.2.2.2.1⟩
  · exact ⟨h.legal.2.2.2.2.1, h.tame.2.2.1, h.stable.2.1, h.legal.2.2.2.1⟩

theorem fill_render {e : El} (hb : e.body ≠ none) (c : Ctx) (w : Bytes) :
    (c.plug ((e.fill w).cons .nil)).render = c.before ++ e.start ++ w ++ e.stop ++ c.after := by
  rw [plug_el_render]
  obtain ⟨nm, as, ws, body⟩ := e
  rcases body with _ | ⟨k0, cws⟩
  · exact absurd rfl hb
  · simp [El.fill, El.start, El.inner, El.stop, Forest.render]

theorem fill_refill {c : Ctx} {e : El} (h : Editable (c.plug (e.cons .nil))) (hb : e.body ≠ none) (w : Bytes) : e.fill w = e.refill e.attrs e.ws (.text w .nil) := by
  have hg := editable_el h
  obtain ⟨nm, as, ws, body⟩ := e
  rcases body with _ | ⟨k0, cws⟩
  · exact absurd rfl hb
  · have : cws = [] := hg.stable.1
    subst this
    rfl

theorem opened_kept {e : El} (hb : e.body ≠ none) : Opened e e.attrs e.ws := ⟨fun _ => ⟨rfl, rfl⟩, fun h => absurd h hb⟩

theorem editable_fill {c : Ctx} {e : El} (h : Editable (c.plug (e.cons .nil))) (hb : e.body ≠ none) {w : Bytes} (hw : c!"<" ∉ w)
    (hsz : (c.before ++ e.start ++ w ++ e.stop ++ c.after).length ≤ 10485760) : Editable (c.plug ((e.fill w).cons .nil)) := by
  have hg := editable_el h
  obtain ⟨t1, t2, t3⟩ := plain_text (d := c.depth + 1) hw (by omega)
  refine editable_swapEl h ?_ (by rw [fill_render hb]; exact hsz)
  rw [fill_refill h hb]
  exact refill_good hg (opened_kept hb) t1 t2 t3

theorem editable_created {c : Ctx} {e : El} {as : List Attr} {ws : Bytes} (h : Editable (c.plug (e.cons .nil))) {ns : List Bytes} (hne : ns ≠ []) (hns : ∀ n ∈ ns, IsName n)
    (hd : c.depth + 1 + ns.length ≤ 100) {w : Bytes} (hw : c!"<" ∉ w) (hr : Opened e as ws)
    (hsz : (c.before ++ (e.refill as ws (e.kids.append (chain ns (.text w .nil)))).render ++ c.after).length ≤ 10485760) :
    Editable (c.plug ((e.refill as ws (e.kids.append (chain ns (.text w .nil)))).cons .nil)) := by
  have hg := editable_el h
  obtain ⟨k1, k2, k3, k4⟩ := el_kids_good hg
  obtain ⟨t1, t2, t3⟩ := plain_text (d := c.depth + 1 + ns.length) hw (by omega)
  obtain ⟨c1, c2, c3⟩ := chain_good (t := false) hne hns hd t1 t2 t3
  refine editable_swapEl h (refill_good hg hr ?_ ?_ ?_) ?_
  · rw [append_legal]; exact ⟨k1, c1⟩
  · rw [append_tame]; exact ⟨k2, c2⟩
  · rw [append_even]; exact ⟨k3, c3⟩
  · rw [plug_render, cons_render]; simpa [Forest.render] using hsz

theorem chain_hasElem {ns : List Bytes} (hne : ns ≠ []) (x : Forest) : (chain ns x).HasElem := by
  cases ns with
  | nil => exact absurd rfl hne
  | cons => trivial

theorem editable_chain {ns : List Bytes} (hne : ns ≠ []) (hns : ∀ n ∈ ns, IsName n)
    (hd : ns.length ≤ 100) {w : Bytes} (hw : c!"<" ∉ w) (hsz : (chain ns (.text w .nil)).render.length ≤ 10485760) :
    Editable (chain ns (.text w .nil)) := by
  have hl : 0 < ns.length := List.length_pos_iff.mpr hne
  obtain ⟨t1, t2, t3⟩ := plain_text (d := 0 + ns.length) hw (by omega)
  obtain ⟨c1, c2, c3⟩ := chain_good (d := 0) (t := true) hne hns (by omega) t1 t2 t3
  exact ⟨hsz, c1, c2, chain_hasElem hne _, even_stable c3⟩

theorem editable_newRoot {f : Forest} (h : Editable f) {ns : List Bytes} (hne : ns ≠ []) (hns : ∀ n ∈ ns, IsName n)
    (hd : ns.length ≤ 100) {w : Bytes} (hw : c!"<" ∉ w) (hsz : (f.render ++ (chain ns (.text w .nil)).render).length ≤ 10485760) :
    Editable (f.append (chain ns (.text w .nil))) := by
  obtain ⟨c0, c1, c2, c4, c3⟩ := editable_chain hne hns hd hw (by simp only [List.length_append] at hsz; omega)
  refine ⟨by rw [append_render]; exact hsz, ?_, ?_, ?_, ?_⟩
  · rw [append_legal]; exact ⟨h.2.1, c1⟩
  · rw [append_tame]; exact ⟨h.2.2.1, c2⟩
  · rw [append_hasElem]; exact .inl h.2.2.2.1
  · rw [append_stable]; exact ⟨h.2.2.2.2, c3⟩

/-- The innermost element of a chain. -/
def tip (n w : Bytes) : El := ⟨n, [], [], some (.text w .nil, [])⟩

/-- The created element is where the path leads. -/
theorem created_leads {ps : List Step} {c : Ctx} {e : El} {as : List Attr} {ws : Bytes} (hL : Leads ps c e.name) {ns : List Bytes} {n : Bytes}
    (hm : e.kids.info.named ((ns ++ [n]).head (by simp)) = []) :
    ∃ c2 : Ctx, Leads (ps ++ firsts (ns ++ [n])) c2 n ∧
      ∀ w, c2.plug ((tip n w).cons .nil) = c.plug ((e.refill as ws (e.kids.append (chain (ns ++ [n]) (.text w .nil)))).cons .nil) := by
  refine ⟨down c e.name as ws [] (chainCtx e.kids (ns ++ [n])), leads_down hL (chainCtx_leads hm), fun w => ?_⟩
  rw [down_plug, tip, chainCtx_plug, El.cons]; rfl

theorem newRoot_leads {f : Forest} {ns : List Bytes} {n : Bytes} (hm : f.info.named ((ns ++ [n]).head (by simp)) = []) :
    ∃ c2 : Ctx, Leads (firsts (ns ++ [n])) c2 n ∧ ∀ w, c2.plug ((tip n w).cons .nil) = f.append (chain (ns ++ [n]) (.text w .nil)) :=
  ⟨chainCtx f (ns ++ [n]), chainCtx_leads hm, fun _ => chainCtx_plug f ns n _⟩

/-! ### every path of names leads somewhere or ends at a deepest ancestor -/

theorem leads_depth {ps : List Step} {c : Ctx} {x : Bytes} (h : Leads ps c x) : ps.length = c.depth + 1 := by
  induction ps generalizing c with
  | nil => simp [Leads] at h
  | cons p ps ih =>
    cases c with
    | here b a =>
      cases ps with
      | nil => rfl
      | cons => simp [Leads] at h
    | within b m as ws c cws a =>
      cases ps with
      | nil => simp [Leads] at h
      | cons p2 ps => rw [Ctx.depth, List.length_cons, ih h.2.2]

theorem locate_split (f : Forest) (ns : List Bytes) (n : Bytes) :
    (∃ c e, f = c.plug (El.cons e .nil) ∧ Leads (firsts (ns ++ [n])) c e.name) ∨
    (∃ as bs c e, as ≠ [] ∧ ns = as ++ bs ∧ f = c.plug (El.cons e .nil) ∧ Leads (firsts as) c e.name ∧ e.kids.info.named ((bs ++ [n]).head (by simp)) = []) ∨
    f.info.named ((ns ++ [n]).head (by simp)) = [] := by
  induction hlen : ns.length generalizing ns n with
  | zero =>
    have : ns = [] := List.length_eq_zero_iff.mp hlen
    subst this
    cases h : f.info.named n with
    | nil => right; right; simpa using h
    | cons x xs =>
      left
      obtain ⟨c, e, h1, h2, -⟩ := follow_leads (ps := firsts [n]) (f := f) (nd := x) (by simp [firsts, Info.follow, h])
      exact ⟨c, e, h1, h2⟩
  | succ k ih =>
    obtain ⟨pre, m, rfl⟩ : ∃ pre m, ns = pre ++ [m] := ⟨ns.dropLast, ns.getLast (by intro h; rw [h] at hlen; simp at hlen), (List.dropLast_concat_getLast _).symm⟩
    rcases ih pre m (by simpa using hlen) with ⟨c, e, h1, h2⟩ | ⟨as, bs, c, e, h0, rfl, h1, h2, h3⟩ | h
    · cases hk : e.kids.info.named n with
      | nil => exact .inr (.inl ⟨pre ++ [m], [], c, e, by simp, by simp, h1, h2, by simpa using hk⟩)
      | cons x xs =>
        left
        cases hb : e.body with
        | none => rw [El.kids, hb] at hk; simp [Forest.info, Info.named, Info.elems] at hk
        | some q =>
          obtain ⟨kk, cws⟩ := q
          rw [El.kids, hb] at hk
          obtain ⟨c2, e2, h3, h4, -⟩ := follow_leads (ps := firsts [n]) (f := kk) (nd := x) (by simp only [firsts, List.map_cons, List.map_nil, Info.follow]; rw [hk]; rfl)
          refine ⟨down c e.name e.attrs e.ws cws c2, e2, ?_, ?_⟩
          · rw [down_plug, ← h3, h1, El.cons, hb]
          · rw [firsts, List.map_append]; exact leads_down h2 h4
    · refine .inr (.inl ⟨as, bs ++ [m], c, e, h0, by simp, h1, h2, ?_⟩)
      rw [← h3]; congr 1
      cases bs <;> rfl
    · refine .inr (.inr ?_)
      rw [← h]; congr 1
      cases pre <;> rfl

end Verif
