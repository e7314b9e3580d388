import Verif.Lemmas.LocateOpt
/- Set and Delete with options: as Lemmas/Edit, Lemmas/Create and Lemmas/Effect. -/
namespace Verif
open Spec

/-! ### the path as the options use it -/

theorem agrees_spelling (cs : Bool) (n x : Bytes) : agrees cs (spelling cs n) x = agrees cs n x := by
  cases cs
  · simp [agrees, spelling, foldCase_eq, lower_idem]
  · rfl

theorem namedBy_spelling (cs : Bool) (i : Info) (n : Bytes) : i.namedBy cs (spelling cs n) = i.namedBy cs n := by
  simp only [Info.namedBy, agrees_spelling]

theorem agrees_self (cs : Bool) (n : Bytes) : agrees cs n n = true := by
  cases cs <;> simp [agrees, nameMatches_self]

/-- The steps with the names as the code uses them. -/
def lowSteps (cs : Bool) (ps : List Step) : List Step := ps.map (fun p => (spelling cs p.1, p.2))

/-- The segments with the names as the code uses them. -/
def lowSegs (cs : Bool) (ss : List Seg) : List Seg := if cs then ss else ss.map lowerSeg

theorem lowSegs_append (cs : Bool) (s t : List Seg) : lowSegs cs (s ++ t) = lowSegs cs s ++ lowSegs cs t := by
  cases cs <;> simp [lowSegs]

theorem lowSegs_ne {cs : Bool} {ss : List Seg} (h : ss ≠ []) : lowSegs cs ss ≠ [] := by
  cases cs <;> simpa [lowSegs] using h

theorem lowSegs_name (cs : Bool) (n : Bytes) : lowSegs cs [nameSeg n] = [nameSeg (spelling cs n)] := by
  cases cs <;> rfl

theorem lowSegs_names (cs : Bool) (ns : List Bytes) : lowSegs cs (ns.map nameSeg) = (ns.map (spelling cs)).map nameSeg := by
  induction ns with
  | nil => cases cs <;> rfl
  | cons n ns ih =>
    rw [List.map_cons, ← List.singleton_append, lowSegs_append, ih, lowSegs_name]; rfl

theorem stepSegs_low {cs : Bool} {ps : List Step} {ss : List Seg} (h : StepSegs ps ss) : StepSegs (lowSteps cs ps) (lowSegs cs ss) := by
  induction h with
  | nil => cases cs <;> exact .nil
  | @name n _ ss _ ih =>
    rw [← List.singleton_append (l := ss), lowSegs_append, lowSegs_name]
    exact .name ih
  | @index n j _ ss _ ih =>
    rw [← List.singleton_append (l := _ :: ss), lowSegs_append, lowSegs_name, ← List.singleton_append (l := ss), lowSegs_append]
    have : lowSegs cs [⟨.index j, []⟩] = [⟨.index j, []⟩] := by cases cs <;> rfl
    rw [this]
    exact .index ih

theorem leadsBy_low {cs : Bool} {ps : List Step} {c : Ctx} {x : Bytes} (h : LeadsBy cs ps c x) : LeadsBy cs (lowSteps cs ps) c x := by
  induction ps generalizing c with
  | nil => simp [LeadsBy] at h
  | cons p ps ih =>
    obtain ⟨n, j⟩ := p
    cases c with
    | here b a =>
      cases ps with
      | cons => simp [LeadsBy] at h
      | nil =>
        refine ⟨by rw [agrees_spelling]; exact h.1, ?_⟩
        rw [namedBy_spelling]; exact h.2
    | within b m as ws c cws a =>
      cases ps with
      | nil => simp [LeadsBy] at h
      | cons p2 ps =>
        refine ⟨by rw [agrees_spelling]; exact h.1, ?_, ih h.2.2⟩
        rw [namedBy_spelling]; exact h.2.1

theorem followBy_low (cs : Bool) (ps : List Step) (i : Info) : i.followBy cs (lowSteps cs ps) = i.followBy cs ps := by
  induction ps generalizing i with
  | nil => rfl
  | cons p ps ih =>
    obtain ⟨n, j⟩ := p
    cases ps with
    | nil => simp only [lowSteps, List.map_cons, List.map_nil, Info.followBy, namedBy_spelling]
    | cons p2 ps =>
      rw [follow_consB _ _ _ (by simp)]
      have : lowSteps cs ((n, j) :: p2 :: ps) = (spelling cs n, j) :: lowSteps cs (p2 :: ps) := rfl
      rw [this, follow_consB _ _ _ (by simp [lowSteps]), namedBy_spelling]
      simp only [ih]

theorem parseOpt_low {path : Bytes} {ss : List Seg} (cs : Bool) (h : parsePath path = .ok ss) : parsePathWithOptions path cs = .ok (lowSegs cs ss) := by
  unfold parsePathWithOptions lowSegs
  rw [h]; cases cs <;> rfl

theorem lowSteps_ne {cs : Bool} {ps : List Step} (h : ps ≠ []) : lowSteps cs ps ≠ [] := by simpa [lowSteps] using h

/-- The path of steps followed by more, as the code uses it. -/
theorem parseOpt_steps (cs : Bool) {ps : List Step} {parts : List Bytes} (h : StepsText ps parts) (hne : ps ≠ []) (more : List Bytes) (ms : List Seg)
    (hm : parseParts more = .ok ms) (hl : parts.length + more.length ≤ 100) :
    ∃ ss, StepSegs (lowSteps cs ps) ss ∧ parsePathWithOptions (pathOf (parts ++ more)) cs = .ok (ss ++ lowSegs cs (fuseFields ms)) := by
  obtain ⟨ss, h1, h2⟩ := parsePath_steps h hne more ms hm hl
  exact ⟨_, stepSegs_low h1, by rw [parseOpt_low cs h2, lowSegs_append]⟩

theorem set_entryB {o : Ord} {f : Forest} (h : Editable f) {opts : Options} {path : Bytes} {ss : List Seg} (hp : parsePathWithOptions path opts.caseSensitive = .ok ss)
    (hne : ss ≠ []) (v : GoVal) (hv : v ≠ .nil) :
    setWithOptions o f.render path v (some opts) = finish f.render (setElement o opts.caseSensitive opts.indent f.render ss v) := by
  have h1 := h.1
  have hd := docMax
  unfold setWithOptions
  rw [if_neg (by omega), if_neg (by rw [editable_valid h]; simp), if_neg hv]
  simp only [effOpts, Option.getD_some, hp]

theorem delete_entryB {o : Ord} {xml : Bytes} (hs : xml.length ≤ 10485760) (hv : valid xml = true) {opts : Options} {path : Bytes} {ss : List Seg}
    (hp : parsePathWithOptions path opts.caseSensitive = .ok ss) (hne : ss ≠ []) :
    deleteWithOptions o xml path (some opts) = finish xml (deleteElement o opts.caseSensitive xml ss) := by
  have hd := docMax
  unfold deleteWithOptions
  rw [if_neg (by omega), if_neg (by rw [hv]; simp)]
  simp only [effOpts, Option.getD_some, hp]

theorem lowSegs_nil (cs : Bool) : lowSegs cs [] = [] := by cases cs <;> rfl

/-! ### chains with line breaks -/

theorem indentAt_line (ind : Bytes) (d : Nat) : indentAt ind d = newLine ind d := by
  simp only [indentAt, newLine, List.isEmpty_iff, repeatB]; rfl

theorem buildPath_lines (ind : Bytes) (ns : List Bytes) (hne : ns ≠ []) (w : Bytes) (d : Nat) :
    buildPathFrom ind w d (ns.map nameSeg) = chainLines ind d ns w := by
  induction ns generalizing d with
  | nil => exact absurd rfl hne
  | cons n ns ih =>
    simp only [List.map_cons, buildPathFrom, chainLines, indentAt_line]
    cases ns with
    | nil => simp [nameSeg, Seg.isAttr, Seg.value, buildPathFrom, chainLines]
    | cons m ns =>
      rw [ih (by simp)]
      simp [nameSeg, Seg.isAttr, Seg.value]

theorem buildElement_lines (ind : Bytes) (ns : List Bytes) (hne : ns ≠ []) (w : Bytes) :
    buildElementPath ind (ns.map nameSeg) w = chainLines ind 0 ns w := buildPath_lines ind ns hne w 0

/-- Without indentation it is the plain chain. -/
theorem chainLines_nil (d : Nat) (ns : List Bytes) (w : Bytes) : chainLines [] d ns w = (chain ns (.text w .nil)).render := by
  induction ns generalizing d with
  | nil => simp [chainLines, chain, Forest.render]
  | cons n ns ih => simp [chainLines, chain, Forest.render, newLine, ih, openTag, closeTag]

theorem chainLines_ne (ind : Bytes) (d : Nat) {ns : List Bytes} (h : ns ≠ []) (w : Bytes) : chainLines ind d ns w ≠ [] := by
  cases ns with
  | nil => exact absurd rfl h
  | cons n ns => simp [chainLines]

/-! ### locations -/

theorem namedBy_rep {cs : Bool} {o : Ord} {n xml : Bytes} {i : Info} (h : Reads o xml i) :
    All2 Rep ((topElems o xml).filter (fun e => agrees cs n e.name)) (i.namedBy cs n) :=
  All2.filter h (fun _ _ hr => by simp only [hr.name])

/-- setElement on an ordinary path of steps. -/
theorem setElement_stepsB {cs : Bool} {ind : Bytes} {o : Ord} {data : Bytes} {ps : List Step} {ss : List Seg} (h : StepSegs ps ss) (hne : ps ≠ []) {v : GoVal} {w : Bytes}
    (hv : valueToXML v = some w) (hw : w.length ≤ 5242880) (hd : data.length ≤ 10485760) :
    setElement o cs ind data ss v =
      match findLoc o cs ss data 0 with
      | some l => replaceElement data l w
      | none => createElement o cs ind data ss w := by
  obtain ⟨s, h1, h2⟩ := last_not_attr h hne
  have hd2 := docMax
  have hv2 := valMax
  have hi : indexIntent ss = none := by have := indexIntent_steps h []; simpa [indexIntent] using this
  unfold setElement
  rw [h1]
  simp only [hv]
  rw [if_neg (by omega), if_neg (by omega), hi]
  simp only
  cases hk : s.kind with
  | attr a => exact absurd hk (h2 a)
  | _ => rfl

theorem deleteElement_stepsB {cs : Bool} {o : Ord} {data : Bytes} {ps : List Step} {ss : List Seg} (h : StepSegs ps ss) (hne : ps ≠ [])
    (hd : data.length ≤ 10485760) :
    deleteElement o cs data ss =
      match findLoc o cs ss data 0 with
      | none => .ok data
      | some l =>
        if l.selfClosing then splice data l.startPos l.contentStart []
        else splice data l.startPos (l.endTagPos + l.name.length + 3) [] := by
  obtain ⟨s, h1, h2⟩ := last_not_attr h hne
  have hd2 := docMax
  unfold deleteElement
  rw [h1]
  simp only
  rw [if_neg (by omega)]
  cases hk : s.kind with
  | attr a => exact absurd hk (h2 a)
  | _ => rfl

theorem editable_findLocB {o : Ord} (ho : o.IsPerm) {ps : List Step} {ss : List Seg} (hss : StepSegs ps ss) {c : Ctx} {e : El}
    (hL : LeadsBy cs ps c e.name) (h : Editable (c.plug (e.cons .nil))) :
    ∃ l, findLoc o cs ss (c.plug (e.cons .nil)).render 0 = some l ∧ LocOK l c.before.length e := by
  obtain ⟨l, h1, h2⟩ := findLoc_leadsB ho hss hL rfl (editable_sim h) h.2.1 h.2.2.1 (base := 0) (by omega) (by have := h.1; rw [maxPos]; omega)
  rw [Int.zero_add] at h2
  exact ⟨l, h1, h2⟩

theorem leads_neB {ps : List Step} {c : Ctx} {x : Bytes} (h : LeadsBy cs ps c x) : ps ≠ [] := by
  rintro rfl; simp [LeadsBy] at h

theorem deepestParent_atB {o : Ord} {data : Bytes} {path : List Seg} {j k : Nat} {l : Loc} (hj0 : 0 < j) (hj : j ≤ k)
    (hf : findLoc o cs (path.take j) data 0 = some l) (hn : ∀ i, j < i → i ≤ k → findLoc o cs (path.take i) data 0 = none) :
    deepestParent o cs data path k = some (j, l) := by
  induction k with
  | zero => omega
  | succ k ih =>
    rw [deepestParent]
    by_cases e : j = k + 1
    · subst e; rw [hf]
    · rw [hn (k + 1) (by omega) (Nat.le_refl _)]
      exact ih (by omega) (fun i h1 h2 => hn i h1 (by omega))

theorem deepestParent_noneB {o : Ord} {data : Bytes} {path : List Seg} {k : Nat}
    (hn : ∀ i, 0 < i → i ≤ k → findLoc o cs (path.take i) data 0 = none) : deepestParent o cs data path k = none := by
  induction k with
  | zero => rfl
  | succ k ih =>
    rw [deepestParent, hn (k + 1) (by omega) (Nat.le_refl _)]
    exact ih (fun i h1 h2 => hn i h1 (by omega))

/-- No path into an element beginning with a name none of its children matches. -/
theorem findLoc_missingB {o : Ord} (ho : o.IsPerm) {ps : List Step} {ss : List Seg} (hss : StepSegs ps ss) {c : Ctx} {e : El}
    (hL : LeadsBy cs ps c e.name) (h : Editable (c.plug (e.cons .nil))) {m : Bytes} {ns : List Bytes} (hm : e.kids.info.namedBy cs m = []) :
    findLoc o cs (ss ++ (m :: ns).map nameSeg) (c.plug (e.cons .nil)).render 0 = none := by
  refine findLoc_noneB ho (stepSegs_append hss (stepSegs_names (m :: ns))) (editable_sim h) h.2.1 h.2.2.1 (by rw [maxPos]; omega) ?_
  intro c' e' hf hL'
  obtain ⟨k, cws, c2, hb, hk, hL2⟩ := leads_throughB hL hL' (by simp [firsts]) hf
  have hkk : e.kids = k := by simp [El.kids, hb]
  rw [hkk] at hm
  have := leads_followB hL2
  rw [← hk] at this
  cases ns with
  | nil => simp [firsts, Info.followBy, hm] at this
  | cons m2 ns =>
    rw [firsts, List.map_cons, follow_consB _ _ _ (by simp), hm] at this
    simp at this

/-- Whether a first index is written is irrelevant. -/
theorem findLoc_segsB (o : Ord) {ps : List Step} {ss ss2 : List Seg} (h : StepSegs ps ss) (h2 : StepSegs ps ss2) (data : Bytes) (base : Int) :
    findLoc o cs ss data base = findLoc o cs ss2 data base := by
  induction ps generalizing ss ss2 data base with
  | nil => cases h; cases h2; rfl
  | cons p ps ih =>
    by_cases hb : base ≤ maxPositionOffset
    · obtain ⟨t1, g1, g2⟩ := findLoc_stepB o h
      obtain ⟨t2, k1, k2⟩ := findLoc_stepB o h2
      rw [g2 data base hb, k2 data base hb]
      simp only [ih g1 k1]
    · have : ∀ {ss}, StepSegs (p :: ps) ss → findLoc o cs ss data base = none := by
        intro ss h
        cases h <;> rw [findLoc, if_pos (by omega)]
      rw [this h, this h2]

/-- What createInParent writes. -/
theorem createInParent_atB (ind : Bytes) {o : Ord} (ho : o.IsPerm) {c : Ctx} {e : El} (h : Editable (c.plug (e.cons .nil))) {l : Loc} (hl : LocOK l c.before.length e) :
    ∃ as ws, Opened e as ws ∧ ∀ (ns : List Bytes) (_ : ns ≠ []) (w : Bytes),
      createInParent o ind (c.plug (e.cons .nil)).render l (ns.map nameSeg) w =
        .ok (c.before ++ (openTag e.name as ws ++ b!">" ++ e.inner ++ chainLines ind 0 ns w ++ closeTag e.name []) ++ c.after) := by
  have hg := editable_el h
  obtain ⟨ha, hfit⟩ := el_attrs hg.legal hg.tame
  unfold createInParent
  rw [plug_el_render]
  cases hb : e.body with
  | none =>
    simp only [show l.selfClosing = true by rw [hl.self, hb]; rfl, if_true]
    generalize hdd : List.drop l.contentStart.toNat _ = dd
    have hp : (o dd l.attrs).Perm (attrMap e.attrs) := (ho dd l.attrs).trans hl.attrs
    obtain ⟨p1, p2, p3, p4⟩ := perm_legal hp ha hfit
    refine ⟨(o dd l.attrs).map canonAttr, [], ⟨fun hh => absurd hb hh, fun _ => ⟨p3, rfl, p4, p1, p2⟩⟩, fun ns hne w => ?_⟩
    have e1 : c.before ++ e.start ++ e.inner ++ e.stop ++ c.after = c.before ++ e.start ++ c.after := by simp [El.inner, El.stop, hb]
    rw [buildElement_lines ind ns hne, e1, splice_at hl.start (by rw [hl.cend]; simp [El.inner, hb]), writeAttrs_eq, hl.name]
    simp [expanded, El.inner, openTag, closeTag, hb]
  | some q =>
    obtain ⟨k, cws⟩ := q
    have hcws : cws = [] := by
      have := hg.stable
      rw [El.cons, hb] at this
      exact this.1
    subst hcws
    simp only [show l.selfClosing = false by rw [hl.self, hb]; rfl, Bool.false_eq_true, if_false]
    refine ⟨e.attrs, e.ws, ⟨fun _ => ⟨rfl, rfl⟩, fun hh => by rw [hb] at hh; simp at hh⟩, fun ns hne w => ?_⟩
    have e1 : c.before ++ e.start ++ e.inner ++ e.stop ++ c.after = (c.before ++ e.start ++ e.inner) ++ [] ++ (e.stop ++ c.after) := by simp
    rw [buildElement_lines ind ns hne, e1, splice_at (by rw [hl.cend]; simp; omega) (by rw [hl.cend]; simp; omega)]
    simp [El.start, El.inner, El.stop, hb]

theorem findLoc_follow_noneB {o : Ord} (ho : o.IsPerm) {ps : List Step} {ss : List Seg} (hss : StepSegs ps ss) {data : Bytes} {i : Info} (h : Reads o data i)
    (base : Int) (hn : i.followBy cs ps = none) : findLoc o cs ss data base = none := by
  induction ps generalizing ss data i base with
  | nil => cases hss; rfl
  | cons p ps ih =>
    obtain ⟨n, j⟩ := p
    by_cases hb : base ≤ maxPositionOffset
    · obtain ⟨ss', hss', hstep⟩ := findLoc_stepB o hss
      rw [hstep data base hb]
      have hr := namedBy_rep (cs := cs) (n := n) h
      cases hm : ((topElems o data).filter (fun e => agrees cs n e.name))[j]? with
      | none => rfl
      | some e =>
        obtain ⟨nd, h1, hrep⟩ := hr.get_some_left hm
        cases ps with
        | nil => rw [Info.followBy, h1] at hn; simp at hn
        | cons p2 ps =>
          simp only [reduceCtorEq, if_false]
          split
          · rw [follow_consB _ _ _ (by simp), h1] at hn
            exact ih hss' (writes_reads ho hrep.content) _ (by simpa using hn)
          · rfl
    · cases hss <;> rw [findLoc, if_pos (by omega)]


/-! ### Set and Delete -/

/-- Set on an existing element. (A self-closing one has no content: the value goes behind its tag.) -/
theorem set_existingB {opts : Options} {o : Ord} (ho : o.IsPerm) {ps : List Step} {parts : List Bytes} (hps : StepsText ps parts) (hpl : parts.length ≤ 100) {c : Ctx} {e : El}
    (hL : LeadsBy opts.caseSensitive ps c e.name) (h : Editable (c.plug (e.cons .nil)))  {v : GoVal} {w : Bytes} (hv0 : v ≠ .nil)
    (hv : valueToXML v = some w) (hw : w.length ≤ 5242880) :
    setWithOptions o (c.plug (e.cons .nil)).render (pathOf parts) v (some opts) = .ret (c.before ++ e.start ++ w ++ e.stop ++ c.after, none) := by
  have hne := leads_neB hL
  obtain ⟨ss, hss, hp⟩ := parseOpt_steps opts.caseSensitive hps hne [] [] rfl (by simpa using hpl)
  simp only [List.append_nil, fuseFields, lowSegs_nil] at hp
  obtain ⟨l, hl, hok⟩ := editable_findLocB ho hss (leadsBy_low hL) h
  rw [set_entryB h hp (stepSegs_ne hss (lowSteps_ne hne)) v hv0, setElement_stepsB hss (lowSteps_ne hne) hv hw h.1, hl]
  simp only [replaceElement]
  rw [plug_el_render]
  have e1 : c.before ++ e.start ++ e.inner ++ e.stop ++ c.after = (c.before ++ e.start) ++ e.inner ++ (e.stop ++ c.after) := by simp
  rw [e1, splice_at (by rw [hok.cstart]; simp) (by rw [hok.cend]; simp), finish_ok (by simp [el_start_ne])]
  simp

/-- Delete of an existing element. -/
theorem delete_existingB {opts : Options} {o : Ord} (ho : o.IsPerm) {ps : List Step} {parts : List Bytes} (hps : StepsText ps parts) (hpl : parts.length ≤ 100) {c : Ctx} {e : El}
    (hL : LeadsBy opts.caseSensitive ps c e.name) (h : Editable (c.plug (e.cons .nil))) :
    deleteWithOptions o (c.plug (e.cons .nil)).render (pathOf parts) (some opts) =
      .ret (if c.before ++ c.after = [] then (c.plug (e.cons .nil)).render else c.before ++ c.after, none) := by
  have hne := leads_neB hL
  obtain ⟨ss, hss, hp⟩ := parseOpt_steps opts.caseSensitive hps hne [] [] rfl (by simpa using hpl)
  simp only [List.append_nil, fuseFields, lowSegs_nil] at hp
  obtain ⟨l, hl, hok⟩ := editable_findLocB ho hss (leadsBy_low hL) h
  rw [delete_entryB h.1 (editable_valid h) hp (stepSegs_ne hss (lowSteps_ne hne)), deleteElement_stepsB hss (lowSteps_ne hne) h.1, hl]
  simp only
  have hgood := editable_el h
  have key : (if l.selfClosing then splice (c.plug (e.cons .nil)).render l.startPos l.contentStart []
        else splice (c.plug (e.cons .nil)).render l.startPos (l.endTagPos + l.name.length + 3) []) = .ok (c.before ++ [] ++ c.after) := by
    have hr : (c.plug (e.cons .nil)).render = c.before ++ e.render ++ c.after := by rw [plug_el_render]; simp [El.render]
    rw [hr]
    have hlen := El.render_length e
    cases hbd : e.body with
    | none =>
      have hs : l.selfClosing = true := by rw [hok.self, hbd]; rfl
      rw [if_pos hs, splice_at hok.start]
      rw [hok.cstart, hlen]; simp [El.inner, El.stop, hbd]
    | some q =>
      obtain ⟨k, cws⟩ := q
      have hs : ¬ l.selfClosing = true := by rw [hok.self, hbd]; simp
      have hcws : cws = [] := by
        have := hgood.stable
        rw [El.cons, hbd] at this
        exact this.1
      rw [if_neg hs, splice_at hok.start]
      rw [hok.tend, hlen, hok.name]; simp [El.stop, hbd, closeTag, hcws]; omega
  rw [key]
  simp only [finish, getResult, List.append_nil, List.isEmpty_iff]


theorem delete_missingB {opts : Options} {o : Ord} (ho : o.IsPerm) {xml : Bytes} {i : Info} (h : Says xml i) (hv : valid xml = true) {ps : List Step} {parts : List Bytes}
    (hps : StepsText ps parts) (hne : ps ≠ []) (hpl : parts.length ≤ 100) (hn : i.followBy opts.caseSensitive ps = none) :
    deleteWithOptions o xml (pathOf parts) (some opts) = .ret (xml, none) := by
  obtain ⟨ss, hss, hp⟩ := parseOpt_steps opts.caseSensitive hps hne [] [] rfl (by simpa using hpl)
  simp only [List.append_nil, fuseFields, lowSegs_nil] at hp
  rw [delete_entryB h.1 hv hp (stepSegs_ne hss (lowSteps_ne hne)), deleteElement_stepsB hss (lowSteps_ne hne) h.1, findLoc_follow_noneB ho hss (says_reads ho h) 0 (by rw [followBy_low]; exact hn)]
  simp only [finish, getResult]
  split <;> simp_all

/-- Set where the path leads to an existing element and then on by names, the first of which no child matches. -/
theorem set_missingB {opts : Options} {o : Ord} (ho : o.IsPerm) {ps : List Step} {parts : List Bytes} (hps : StepsText ps parts) {c : Ctx} {e : El}
    (hL : LeadsBy opts.caseSensitive ps c e.name) (h : Editable (c.plug (e.cons .nil))) :
    ∃ as ws, Opened e as ws ∧ ∀ (m : Bytes) (ns : List Bytes) (_ : ∀ n ∈ m :: ns, PlainName n) (_ : parts.length + (m :: ns).length ≤ 100)
      (_ : e.kids.info.namedBy opts.caseSensitive m = []) (v : GoVal) (w : Bytes) (_ : v ≠ .nil) (_ : valueToXML v = some w) (_ : w.length ≤ 5242880),
      setWithOptions o (c.plug (e.cons .nil)).render (pathOf (parts ++ m :: ns)) v (some opts) =
        .ret (c.before ++ (openTag e.name as ws ++ b!">" ++ e.inner ++ chainLines opts.indent 0 ((m :: ns).map (spelling opts.caseSensitive)) w ++ closeTag e.name []) ++ c.after, none) := by
  have hne := leads_neB hL
  obtain ⟨ss0, hss0, -⟩ := parseParts_steps hps [] [] rfl
  have hss0 := stepSegs_low (cs := opts.caseSensitive) hss0
  have hL := leadsBy_low hL
  obtain ⟨l, hl, hok⟩ := editable_findLocB ho hss0 hL h
  obtain ⟨as, ws, hopen, hc⟩ := createInParent_atB opts.indent ho h hok
  refine ⟨as, ws, hopen, fun m ns hns hpl hm v w hv0 hv hw => ?_⟩
  have hpp : parseParts (m :: ns) = .ok ((m :: ns).map nameSeg) := by simpa using parseParts_names (m :: ns) [] hns [] rfl
  obtain ⟨ss, hss, hp⟩ := parseOpt_steps opts.caseSensitive hps hne (m :: ns) ((m :: ns).map nameSeg) hpp hpl
  have hl : findLoc o opts.caseSensitive ss (c.plug (e.cons .nil)).render 0 = some l := by
    rw [findLoc_segsB o hss hss0]; exact hl
  rw [show fuseFields ((m :: ns).map nameSeg) = (m :: ns).map nameSeg by simpa [fuseFields] using fuseFields_names (m :: ns) [], lowSegs_names] at hp
  generalize hs : spelling opts.caseSensitive = sp at hp ⊢
  have hm : e.kids.info.namedBy opts.caseSensitive (sp m) = [] := by rw [← hs, namedBy_spelling]; exact hm
  have hss2 := stepSegs_append hss (stepSegs_names ((m :: ns).map sp))
  simp only [List.map_cons (f := sp)] at hp hss2 ⊢
  rw [set_entryB h hp (by simp) v hv0, setElement_stepsB hss2 (by simp [hne, lowSteps]) hv hw h.1, findLoc_missingB ho hss hL h (ns := ns.map sp) hm]
  simp only
  have hnem := render_ne h.2.2.2.1
  have hss0 : 0 < ss.length := by have := stepSegs_ne hss (lowSteps_ne hne); exact List.length_pos_iff.mpr this
  unfold createElement
  rw [if_neg (by simpa using hnem), deepestParent_atB (j := ss.length) (l := l) hss0 (by simp)]
  · simp only [List.drop_left]
    rw [hc _ (by simp), finish_ok (by simp)]
  · rw [List.take_left]; exact hl
  · intro i h1 h2
    obtain ⟨t, rfl⟩ : ∃ t, i = ss.length + (t + 1) := ⟨i - ss.length - 1, by omega⟩
    rw [List.take_length_add_append, List.map_cons, List.take_succ_cons, ← List.map_take, ← List.map_cons]
    exact findLoc_missingB ho hss hL h hm

/-- Set on the empty document. -/
theorem set_emptyB {opts : Options} (o : Ord) {m : Bytes} {ns : List Bytes} (hns : ∀ n ∈ m :: ns, PlainName n)
    (hpl : (m :: ns).length ≤ 100) {v : GoVal} {w : Bytes} (hv0 : v ≠ .nil) (hv : valueToXML v = some w) (hw : w.length ≤ 5242880) :
    setWithOptions o [] (pathOf (m :: ns)) v (some opts) = .ret (chainLines opts.indent 0 ((m :: ns).map (spelling opts.caseSensitive)) w, none) := by
  have hp := parsePath_names (m :: ns) [] hns (by simp) (by simpa using hpl) [] rfl
  simp only [List.append_nil, fuseFields] at hp
  have hp := parseOpt_low opts.caseSensitive hp
  rw [lowSegs_names] at hp
  generalize hs : spelling opts.caseSensitive = sp at hp ⊢
  simp only [List.map_cons (f := sp)] at hp ⊢
  have hss2 := stepSegs_names (sp m :: ns.map sp)
  unfold setWithOptions
  rw [if_neg (by simp [docMax]), if_neg (by simp), if_neg hv0]
  simp only [effOpts, Option.getD_some, hp]
  show finish [] (setElement o _ _ [] (List.map nameSeg (sp m :: List.map sp ns)) v) = _
  rw [setElement_stepsB hss2 (by simp [firsts]) hv hw (by simp)]
  have hf : findLoc o opts.caseSensitive ((sp m :: ns.map sp).map nameSeg) [] 0 = none := by
    obtain ⟨ss', h1, h2⟩ := findLoc_stepB o (n := sp m) (j := 0) hss2
    rw [h2 [] 0 (by rw [maxPos]; omega), topElems_none (by simp [skipToNext])]
    rfl
  rw [hf]
  simp only [createElement, List.isEmpty_nil, if_true, List.nil_append]
  rw [buildElement_lines _ _ (by simp), finish_ok (chainLines_ne _ _ (by simp) _)]

end Verif
