import Verif.Lemmas.Place
import Verif.Lemmas.AttrOpt
/- Where SetWithOptions and DeleteWithOptions write in documents of any layout: as Place.lean, with the options. -/
namespace Verif
open Spec

variable {cs : Bool}

theorem redo_leadsB {ps : List Step} {c : Ctx} {x : Bytes} (h : LeadsBy cs ps c x) : LeadsBy cs ps c.redo x := by
  induction c generalizing ps with
  | here b a =>
    match ps, h with
    | [(n, j)], h => simpa [LeadsBy, Ctx.redo, redo_info] using h
  | within b m as ws c cws a ih =>
    match ps, h with
    | (n, j) :: ps, h =>
      cases ps with
      | nil =>
        simp only [LeadsBy] at h
        exact h.2.2.elim
      | cons =>
        simp only [LeadsBy, Ctx.redo, redo_info] at h ⊢
        exact ⟨h.1, h.2.1, ih h.2.2⟩

theorem placedT_filterB {es : List Elem} {l : List (Forest × El × Forest)} (h : All2 PlacedT es l) (n : Bytes) :
    All2 PlacedT (es.filter (fun e => agrees cs n e.name)) (l.filter (fun t => agrees cs n t.2.1.name)) :=
  h.filter (fun _ _ hr => by rw [hr.name])

/-- The location found in a document of any layout. -/
theorem findLoc_placeB {o : Ord} (ho : o.IsPerm) {ps : List Step} {ss : List Seg} (hss : StepSegs ps ss) {c : Ctx} {e : El}
    (hL : LeadsBy cs ps c e.name) (h : Sound (c.plug (e.cons .nil))) :
    ∃ l, findLoc o cs ss (c.plug (e.cons .nil)).render 0 = some l ∧ LocAt l c.placeOf (c.seenEl e) := by
  cases ps with
  | nil => simp [LeadsBy] at hL
  | cons p ps =>
    obtain ⟨n, j⟩ := p
    obtain ⟨ss', hss', hstep⟩ := findLoc_stepB o (cs := cs) hss
    rw [hstep _ 0 (by rw [maxPos]; omega)]
    have hpl := placedT_filterB (cs := cs) (topElems_placedT ho h.2.1 h.2.2.1) n
    cases c with
    | here b a =>
      cases ps with
      | cons => simp [LeadsBy] at hL
      | nil =>
        obtain ⟨hn, rfl⟩ := hL
        have hf' : (Ctx.here b a).plug (e.cons .nil) = b.append (e.cons a) := by rw [Ctx.plug, cons_append]; rfl
        have := tops_getB b e a hn
        rw [← hf'] at this
        obtain ⟨m, hm, hP⟩ := hpl.get_some this
        rw [hm]
        exact ⟨_, rfl, locOf_at hP (by rw [hf', append_render, cons_render]; simp; omega)⟩
    | within b nm as ws c cws a =>
      cases ps with
      | nil => simp [LeadsBy] at hL
      | cons p2 ps =>
        obtain ⟨hn, rfl, hL⟩ := hL
        have hf' : (Ctx.within b nm as ws c cws a).plug (e.cons .nil) = b.append ((⟨nm, as, ws, some (c.plug (e.cons .nil), cws)⟩ : El).cons a) := by rw [Ctx.plug]; rfl
        have := tops_getB b ⟨nm, as, ws, some (c.plug (e.cons .nil), cws)⟩ a hn
        rw [← hf'] at this
        obtain ⟨m, hm, hP⟩ := hpl.get_some this
        rw [hm]
        obtain ⟨k', d', htw, hl', ht', hcont⟩ := hP.some _ _ rfl
        have hopen := hP.opn
        simp only [El.inner, El.stop] at hopen
        have h1 := h.1
        have hsub : (c.plug (e.cons .nil)).render.length + b.render.length + (openTag nm as ws).length + 1 ≤ ((Ctx.within b nm as ws c cws a).plug (e.cons .nil)).render.length := by
          rw [hf', append_render, cons_render]; simp [El.render, El.start, El.inner, El.stop]; omega
        have hlen : ((Ctx.within b nm as ws c cws a).plug (e.cons .nil)).render.length = b.render.length + (openTag nm as ws).length + 1 + m.openLen := by
          rw [hf', append_render, cons_render, hopen]
          simp [El.render, El.start, El.inner, El.stop]; omega
        simp only [reduceCtorEq, if_false]
        have hbase : (0 : Int) + ((((Ctx.within b nm as ws c cws a).plug (e.cons .nil)).render.length : Int) - m.openLen) = (b.render.length + (openTag nm as ws).length + 1) := by omega
        have hred := redo_length (c.plug (e.cons .nil))
        have hm2 := maxPos
        rw [if_pos, hcont, hbase]
        · rw [redo_plug, redo_cons] at htw hred
          obtain ⟨l, hl1, hl2⟩ := findLoc_leadsB (base := b.render.length + (openTag nm as ws).length + 1) ho hss' (redo_leadsB (x := e.redo.name) hL) rfl htw.sim hl' ht'
            (by omega) (by simp only [Forest.redo] at hred ⊢; omega)
          refine ⟨l, hl1, ?_⟩
          have e2 : ((Ctx.within b nm as ws c cws a).placeOf : Int) = b.render.length + (openTag nm as ws).length + 1 + c.redo.before.length := by
            simp [Ctx.placeOf, Ctx.seen, Ctx.before]; omega
          rw [e2]; exact hl2.locAt (redo_endWs e)
        · simp only [offsetOk, Bool.not_eq_true', Bool.or_eq_false_iff, decide_eq_false_iff_not]
          omega

theorem set_entrySB {o : Ord} {f : Forest} (h : Sound f) {opts : Options} {path : Bytes} {ss : List Seg} (hp : parsePathWithOptions path opts.caseSensitive = .ok ss)
    (hne : ss ≠ []) (v : GoVal) (hv : v ≠ .nil) :
    setWithOptions o f.render path v (some opts) = finish f.render (setElement o opts.caseSensitive opts.indent f.render ss v) := by
  have h1 := h.1
  have hd := docMax
  unfold setWithOptions
  rw [if_neg (by omega), if_neg (by rw [sound_valid h]; simp), if_neg hv]
  simp only [effOpts, Option.getD_some, hp]

/-- Set on an existing element in a document of any layout. -/
theorem set_placedB {opts : Options} {o : Ord} (ho : o.IsPerm) {ps : List Step} {parts : List Bytes} (hps : StepsText ps parts) (hpl : parts.length ≤ 100) {c : Ctx} {e : El}
    (hL : LeadsBy opts.caseSensitive ps c e.name) (h : Sound (c.plug (e.cons .nil))) {v : GoVal} {w : Bytes} (hv0 : v ≠ .nil) (hv : valueToXML v = some w) (hw : w.length ≤ 5242880)
    {i j : Nat} (hi : i = c.placeOf + (c.seenEl e).start.length) (hj : j = i + (c.seenEl e).inner.length + (c.seenEl e).endWs.length) :
    setWithOptions o (c.plug (e.cons .nil)).render (pathOf parts) v (some opts) =
      if j ≤ (c.plug (e.cons .nil)).render.length then .ret (replaced (c.plug (e.cons .nil)).render i j w, none) else .panic := by
  have hne := leads_neB hL
  obtain ⟨ss, hss, hp⟩ := parseOpt_steps opts.caseSensitive hps hne [] [] rfl (by simpa using hpl)
  simp only [List.append_nil, fuseFields, lowSegs_nil] at hp
  obtain ⟨l, hl, hok⟩ := findLoc_placeB ho hss (leadsBy_low hL) h
  rw [set_entrySB h hp (by first | exact stepSegs_ne hss (lowSteps_ne hne) | simp) v hv0, setElement_stepsB hss (lowSteps_ne hne) hv hw h.1, hl]
  simp only [replaceElement]
  rw [splice_nat (i := i) (j := j) (by rw [hok.cstart]; omega) (by rw [hok.cend]; omega) (by omega)]
  split
  · rename_i hle
    refine finish_ok ?_
    have hs : 0 < (c.seenEl e).start.length := List.length_pos_iff.mpr (el_start_ne _)
    intro hz
    have := congrArg List.length hz
    simp only [replaced, List.length_append, List.length_take, List.length_nil] at this
    omega
  · rfl

/-- Delete of an existing element in a document of any layout. -/
theorem delete_placedB {opts : Options} {o : Ord} (ho : o.IsPerm) {ps : List Step} {parts : List Bytes} (hps : StepsText ps parts) (hpl : parts.length ≤ 100) {c : Ctx} {e : El}
    (hL : LeadsBy opts.caseSensitive ps c e.name) (h : Sound (c.plug (e.cons .nil))) {i j : Nat} (hi : i = c.placeOf) (hj : j = i + (c.seenEl e).render.length) :
    deleteWithOptions o (c.plug (e.cons .nil)).render (pathOf parts) (some opts) =
      if j ≤ (c.plug (e.cons .nil)).render.length then
        .ret (if replaced (c.plug (e.cons .nil)).render i j [] = [] then (c.plug (e.cons .nil)).render else replaced (c.plug (e.cons .nil)).render i j [], none)
      else .panic := by
  have hne := leads_neB hL
  obtain ⟨ss, hss, hp⟩ := parseOpt_steps opts.caseSensitive hps hne [] [] rfl (by simpa using hpl)
  simp only [List.append_nil, fuseFields, lowSegs_nil] at hp
  obtain ⟨l, hl, hok⟩ := findLoc_placeB ho hss (leadsBy_low hL) h
  rw [delete_entryB h.1 (sound_valid h) hp (stepSegs_ne hss (lowSteps_ne hne)), deleteElement_stepsB hss (lowSteps_ne hne) h.1, hl]
  simp only
  have key : (if l.selfClosing then splice (c.plug (e.cons .nil)).render l.startPos l.contentStart []
        else splice (c.plug (e.cons .nil)).render l.startPos (l.endTagPos + l.name.length + 3) []) =
      if j ≤ (c.plug (e.cons .nil)).render.length then .ok (replaced (c.plug (e.cons .nil)).render i j []) else .panic := by
    have hlen := El.render_length (c.seenEl e)
    cases hbd : (c.seenEl e).body with
    | none =>
      have hs : l.selfClosing = true := by rw [hok.self, hbd]; rfl
      rw [if_pos hs, splice_nat (i := i) (j := j) (by rw [hok.start]; omega) _ (by omega)]
      rw [hok.cstart, hj, hlen]; simp [El.inner, El.stop, hbd]; omega
    | some q =>
      obtain ⟨k, cws⟩ := q
      have hs : ¬ l.selfClosing = true := by rw [hok.self, hbd]; simp
      rw [if_neg hs, splice_nat (i := i) (j := j) (by rw [hok.start]; omega) _ (by omega)]
      rw [hok.tend, hok.name, hj, hlen]; simp [El.stop, El.endWs, hbd, closeTag]; omega
  rw [key]
  split
  · simp only [finish, getResult]
    split <;> simp_all
  · rfl

theorem Spec.RetagBy.of_seen {c : Ctx} {e : El} {k : Bytes} {x : Option Bytes} {as : List Attr} (h : RetagBy cs (c.seenEl e) k x as) : RetagBy cs e k x as := by
  have e1 := seenEl_attrVal c e
  obtain ⟨h1, h2, h3, h4, h5, h6⟩ := h
  rw [e1] at h3 h4 h5 h6
  exact ⟨h1, h2, h3, h4, h5, h6⟩

/-- Set on an attribute of an existing element in a document of any layout. -/
theorem set_attr_placedB {opts : Options} {o : Ord} (ho : o.IsPerm) {ps : List Step} {parts : List Bytes} (hps : StepsText ps parts) (hpl : parts.length < 100) {c : Ctx} {e : El}
    (hL : LeadsBy opts.caseSensitive ps c e.name) (h : Sound (c.plug (e.cons .nil))) {k : Bytes} (hk : c!"|" ∉ k) {v : GoVal} {s : Bytes} (hv0 : v ≠ .nil)
    (hv : valueToXML v = some (escapeXML s)) (hw : (escapeXML s).length ≤ 5242880) {i j : Nat} (hi : i = c.placeOf) (hj : j = i + (c.seenEl e).start.length) :
    ∃ as, RetagBy opts.caseSensitive e k (some s) as ∧
      setWithOptions o (c.plug (e.cons .nil)).render (pathOf (parts ++ [c!"@" :: k])) v (some opts) =
        if j ≤ (c.plug (e.cons .nil)).render.length then .ret (replaced (c.plug (e.cons .nil)).render i j (e.retag as).start, none) else .panic := by
  have hne := leads_neB hL
  obtain ⟨ss, hss, hp⟩ := parseOpt_steps opts.caseSensitive hps hne [c!"@" :: k] _ (parseParts_attr hk) (by simp; omega)
  simp only [fuseFields, lowSegs_attr] at hp
  obtain ⟨l, hl, hok⟩ := findLoc_placeB ho hss (leadsBy_low hL) h
  obtain ⟨as, h1, h2⟩ := retag_setB opts.caseSensitive hok.attrs k s
  refine ⟨as, h1.of_seen, ?_⟩
  rw [set_entrySB h hp (by first | exact stepSegs_ne hss (lowSteps_ne hne) | simp) v hv0, setElement_attrB hss hv hw h.1, hl]
  simp only [replaceAttribute]
  rw [h2, splice_nat (i := i) (j := j) (by rw [hok.start]; omega) (by rw [hok.cstart]; omega) (by omega), hok.name, hok.self, seenEl_name, seenEl_none, retag_start]
  split
  · exact finish_ok (by simp [replaced])
  · rfl

/-- Delete on an attribute of an existing element in a document of any layout. -/
theorem delete_attr_placedB {opts : Options} {o : Ord} (ho : o.IsPerm) {ps : List Step} {parts : List Bytes} (hps : StepsText ps parts) (hpl : parts.length < 100) {c : Ctx} {e : El}
    (hL : LeadsBy opts.caseSensitive ps c e.name) (h : Sound (c.plug (e.cons .nil))) {k : Bytes} (hk : c!"|" ∉ k) {i j : Nat} (hi : i = c.placeOf) (hj : j = i + (c.seenEl e).start.length) :
    ((∀ y, sameKey opts.caseSensitive y k → attrVal e.attrs y = none) → deleteWithOptions o (c.plug (e.cons .nil)).render (pathOf (parts ++ [c!"@" :: k])) (some opts) = .ret ((c.plug (e.cons .nil)).render, none)) ∧
    (∀ y, sameKey opts.caseSensitive y k → attrVal e.attrs y ≠ none → ∃ as, RetagBy opts.caseSensitive e k none as ∧
      deleteWithOptions o (c.plug (e.cons .nil)).render (pathOf (parts ++ [c!"@" :: k])) (some opts) =
        if j ≤ (c.plug (e.cons .nil)).render.length then .ret (replaced (c.plug (e.cons .nil)).render i j (e.retag as).start, none) else .panic) := by
  have hne := leads_neB hL
  obtain ⟨ss, hss, hp⟩ := parseOpt_steps opts.caseSensitive hps hne [c!"@" :: k] _ (parseParts_attr hk) (by simp; omega)
  simp only [fuseFields, lowSegs_attr] at hp
  obtain ⟨l, hl, hok⟩ := findLoc_placeB ho hss (leadsBy_low hL) h
  have hany : (l.attrs.map (·.1)).any (fun n => sameAttr opts.caseSensitive n (spelling opts.caseSensitive k)) = true ↔
      ∃ j, sameKey opts.caseSensitive j k ∧ attrVal e.attrs j ≠ none := by
    rw [← seenEl_attrVal c e]
    simp only [List.any_eq_true, sameAttr_key, decide_eq_true_eq]
    refine ⟨fun ⟨x, h1, h2⟩ => ⟨x, h2, ?_⟩, fun ⟨j, h1, h2⟩ => ⟨j, ?_, h1⟩⟩
    · rw [← get?_map hok.attrs, ne_eq, get?_none_iff, Classical.not_not]; exact h1
    · rw [← get?_map hok.attrs, ne_eq, get?_none_iff, Classical.not_not] at h2; exact h2
  have hdel := deleteElement_attrB (o := o) (cs := opts.caseSensitive) (k := spelling opts.caseSensitive k) (stepSegs_ne hss (lowSteps_ne hne)) h.1
  rw [hl] at hdel
  simp only [deleteAttribute] at hdel
  rw [delete_entryB h.1 (sound_valid h) hp (by simp), hdel]
  refine ⟨fun hn => ?_, fun y hj2 hn => ?_⟩
  · rw [if_neg (fun hh => by obtain ⟨j, h1, h2⟩ := hany.mp hh; exact h2 (hn j h1))]
    exact finish_ok (render_ne h.2.2.2)
  · rw [if_pos (hany.mpr ⟨y, hj2, hn⟩)]
    obtain ⟨as, h1, h2⟩ := retag_deleteB opts.caseSensitive hok.attrs k
    refine ⟨as, h1.of_seen, ?_⟩
    rw [h2, splice_nat (i := i) (j := j) (by rw [hok.start]; omega) (by rw [hok.cstart]; omega) (by omega), hok.name, hok.self, seenEl_name, seenEl_none, retag_start]
    split
    · exact finish_ok (by simp [replaced])
    · rfl

theorem findLoc_missingSB {o : Ord} (ho : o.IsPerm) {ps : List Step} {ss : List Seg} (hss : StepSegs ps ss) {c : Ctx} {e : El}
    (hL : LeadsBy cs ps c e.name) (h : Sound (c.plug (e.cons .nil))) {m : Bytes} {ns : List Bytes} (hm : e.kids.info.namedBy cs m = []) :
    findLoc o cs (ss ++ (m :: ns).map nameSeg) (c.plug (e.cons .nil)).render 0 = none := by
  refine findLoc_follow_noneB ho (stepSegs_append hss (stepSegs_names (m :: ns))) (says_reads ho (sound_says h)) 0 ?_
  cases hf : (c.plug (e.cons .nil)).info.followBy cs (ps ++ firsts (m :: ns)) with
  | none => rfl
  | some nd =>
    exfalso
    obtain ⟨c', e', hf, hL', -⟩ := follow_leadsB hf
    obtain ⟨k, cws, c2, hb, hk, hL2⟩ := leads_throughB hL hL' (by simp [firsts]) hf
    have hkk : e.kids = k := by simp [El.kids, hb]
    rw [hkk] at hm
    have := leads_followB hL2
    rw [← hk] at this
    cases ns with
    | nil => simp [firsts, Info.followBy, hm] at this
    | cons m2 ns =>
      rw [firsts, List.map_cons, follow_consB _ _ _ (by simp), hm] at this
      simp at this

theorem findLoc_noRootSB {o : Ord} (ho : o.IsPerm) {f : Forest} (h : Sound f) {m : Bytes} {ns : List Bytes} (hm : f.info.namedBy cs m = []) :
    findLoc o cs ((m :: ns).map nameSeg) f.render 0 = none := by
  refine findLoc_follow_noneB ho (stepSegs_names (m :: ns)) (says_reads ho (sound_says h)) 0 ?_
  cases ns with
  | nil => simp [firsts, Info.followBy, hm]
  | cons m2 ns => rw [firsts, List.map_cons, follow_consB _ _ _ (by simp), hm]; rfl

/-- The place at which a missing chain is inserted, and what replaces an empty tag. -/
theorem createInParent_placedB (ind : Bytes) {o : Ord} (ho : o.IsPerm) {c : Ctx} {e : El} (h : Sound (c.plug (e.cons .nil))) {l : Loc} (hl : LocAt l c.placeOf (c.seenEl e))
    {i j k : Nat} (hi : i = c.placeOf) (hj : j = i + (c.seenEl e).start.length) (hk : k = j + (c.seenEl e).inner.length + (c.seenEl e).endWs.length) :
    ∃ as ws, Opened e as ws ∧ ∀ (ns : List Bytes) (_ : ns ≠ []) (w : Bytes),
      createInParent o ind (c.plug (e.cons .nil)).render l (ns.map nameSeg) w =
        if k ≤ (c.plug (e.cons .nil)).render.length then
          .ok (if e.body = none then replaced (c.plug (e.cons .nil)).render i j (openTag e.name as ws ++ b!">" ++ chainLines ind 0 ns w ++ closeTag e.name [])
            else replaced (c.plug (e.cons .nil)).render k k (chainLines ind 0 ns w))
        else .panic := by
  have hleg : (e.cons .nil).Legal c.depth := by have := (plug_legal h.2.1).1; rwa [Nat.zero_add] at this
  have htame := (plug_tame h.2.2.1).1
  obtain ⟨ha, hfit⟩ := el_attrs hleg htame
  unfold createInParent
  cases hb : e.body with
  | none =>
    have hsn : (c.seenEl e).body = none := by have := seenEl_none c e; rw [hb] at this; simpa using this
    have hkj : k = j := by rw [hk]; simp [El.inner, El.endWs, hsn]
    simp only [show l.selfClosing = true by rw [hl.self, hsn]; rfl, if_true]
    generalize hdd : List.drop l.contentStart.toNat _ = dd
    have hp : (o dd l.attrs).Perm (attrMap e.attrs) := by
      refine ((ho dd l.attrs).trans hl.attrs).trans ?_
      cases c
      · exact List.Perm.refl _
      · exact attrMap_redo_perm e.attrs
    obtain ⟨p1, p2, p3, p4⟩ := perm_legal hp ha hfit
    refine ⟨(o dd l.attrs).map canonAttr, [], ⟨fun hh => absurd hb hh, fun _ => ⟨p3, rfl, p4, p1, p2⟩⟩, fun ns hne w => ?_⟩
    rw [buildElement_lines ind ns hne, splice_nat (i := i) (j := j) (by rw [hl.start]; omega) (by rw [hl.cend]; omega) (by omega), writeAttrs_eq, hl.name, hkj, seenEl_name]
    simp [expanded, openTag, closeTag]
  | some q =>
    have hsn : (c.seenEl e).body.isNone = false := by rw [seenEl_none, hb]; rfl
    simp only [show l.selfClosing = false by rw [hl.self, hsn], Bool.false_eq_true, if_false, reduceCtorEq]
    refine ⟨e.attrs, e.ws, ⟨fun _ => ⟨rfl, rfl⟩, fun hh => by rw [hb] at hh; simp at hh⟩, fun ns hne w => ?_⟩
    rw [buildElement_lines ind ns hne, splice_nat (i := k) (j := k) (by rw [hl.cend]; omega) (by rw [hl.cend]; omega) (by omega)]

/-- Set where the path leads to an existing element and then on by names, the first of which no child matches. -/
theorem set_missing_placedB {opts : Options} {o : Ord} (ho : o.IsPerm) {ps : List Step} {parts : List Bytes} (hps : StepsText ps parts) {c : Ctx} {e : El}
    (hL : LeadsBy opts.caseSensitive ps c e.name) (h : Sound (c.plug (e.cons .nil)))
    {i j k : Nat} (hi : i = c.placeOf) (hj : j = i + (c.seenEl e).start.length) (hk : k = j + (c.seenEl e).inner.length + (c.seenEl e).endWs.length) :
    ∃ as ws, Opened e as ws ∧ ∀ (m : Bytes) (ns : List Bytes) (_ : ∀ n ∈ m :: ns, PlainName n) (_ : parts.length + (m :: ns).length ≤ 100)
      (_ : e.kids.info.namedBy opts.caseSensitive m = []) (v : GoVal) (w : Bytes) (_ : v ≠ .nil) (_ : valueToXML v = some w) (_ : w.length ≤ 5242880),
      setWithOptions o (c.plug (e.cons .nil)).render (pathOf (parts ++ m :: ns)) v (some opts) =
        if k ≤ (c.plug (e.cons .nil)).render.length then
          .ret (if e.body = none then replaced (c.plug (e.cons .nil)).render i j (openTag e.name as ws ++ b!">" ++ chainLines opts.indent 0 ((m :: ns).map (spelling opts.caseSensitive)) w ++ closeTag e.name [])
            else replaced (c.plug (e.cons .nil)).render k k (chainLines opts.indent 0 ((m :: ns).map (spelling opts.caseSensitive)) w), none)
        else .panic := by
  have hne := leads_neB hL
  obtain ⟨ss0, hss0, -⟩ := parseParts_steps hps [] [] rfl
  have hss0 := stepSegs_low (cs := opts.caseSensitive) hss0
  have hL := leadsBy_low hL
  obtain ⟨l, hl, hok⟩ := findLoc_placeB ho hss0 hL h
  obtain ⟨as, ws, hopen, hc⟩ := createInParent_placedB opts.indent ho h hok hi hj hk
  refine ⟨as, ws, hopen, fun m ns hns hpl hm v w hv0 hv hw => ?_⟩
  have hpp : parseParts (m :: ns) = .ok ((m :: ns).map nameSeg) := by simpa using parseParts_names (m :: ns) [] hns [] rfl
  obtain ⟨ss, hss, hp⟩ := parseOpt_steps opts.caseSensitive hps hne (m :: ns) ((m :: ns).map nameSeg) hpp hpl
  have hl : findLoc o opts.caseSensitive ss (c.plug (e.cons .nil)).render 0 = some l := by
    rw [findLoc_segsB o hss hss0]; exact hl
  rw [show fuseFields ((m :: ns).map nameSeg) = (m :: ns).map nameSeg by simpa [fuseFields] using fuseFields_names (m :: ns) [], lowSegs_names] at hp
  generalize hs : spelling opts.caseSensitive = sp at hp ⊢
  have hm : e.kids.info.namedBy opts.caseSensitive (sp m) = [] := by rw [← hs, namedBy_spelling]; exact hm
  have hss2 := stepSegs_append hss (stepSegs_names ((m :: ns).map sp))
  simp only [List.map_cons (f := sp)] at hp hss2 ⊢
  rw [set_entrySB h hp (by first | exact stepSegs_ne hss (lowSteps_ne hne) | simp) v hv0, setElement_stepsB hss2 (by simp [hne, lowSteps]) hv hw h.1, findLoc_missingSB ho hss hL h (ns := ns.map sp) hm]
  simp only
  have hnem := render_ne h.2.2.2
  have hss0 : 0 < ss.length := by have := stepSegs_ne hss (lowSteps_ne hne); exact List.length_pos_iff.mpr this
  unfold createElement
  rw [if_neg (by simpa using hnem), deepestParent_atB (j := ss.length) (l := l) hss0 (by simp)]
  · simp only [List.drop_left]
    rw [hc _ (by simp)]
    split
    · refine finish_ok ?_
      split
      · simp [replaced]
      · have := chainLines_ne opts.indent 0 (ns := sp m :: ns.map sp) (by simp) w
        simp only [replaced, ne_eq, List.append_eq_nil_iff, not_and]
        intro hh; exact absurd hh.2 this
    · rfl
  · rw [List.take_left]; exact hl
  · intro i h1 h2
    obtain ⟨t, rfl⟩ : ∃ t, i = ss.length + (t + 1) := ⟨i - ss.length - 1, by omega⟩
    rw [List.take_length_add_append, List.map_cons, List.take_succ_cons, ← List.map_take, ← List.map_cons]
    exact findLoc_missingSB ho hss hL h hm

/-- Set where no top-level element matches the first name. -/
theorem set_newRootSB {opts : Options} {o : Ord} (ho : o.IsPerm) {f : Forest} (h : Sound f) {m : Bytes} {ns : List Bytes} (hns : ∀ n ∈ m :: ns, PlainName n)
    (hpl : (m :: ns).length ≤ 100) (hm : f.info.namedBy opts.caseSensitive m = []) {v : GoVal} {w : Bytes} (hv0 : v ≠ .nil)
    (hv : valueToXML v = some w) (hw : w.length ≤ 5242880) :
    setWithOptions o f.render (pathOf (m :: ns)) v (some opts) = .ret (f.render ++ chainLines opts.indent 0 ((m :: ns).map (spelling opts.caseSensitive)) w, none) := by
  have hp := parsePath_names (m :: ns) [] hns (by simp) (by simpa using hpl) [] rfl
  simp only [List.append_nil, fuseFields] at hp
  have hp := parseOpt_low opts.caseSensitive hp
  rw [lowSegs_names] at hp
  generalize hs : spelling opts.caseSensitive = sp at hp ⊢
  have hm : f.info.namedBy opts.caseSensitive (sp m) = [] := by rw [← hs, namedBy_spelling]; exact hm
  simp only [List.map_cons (f := sp)] at hp ⊢
  have hss2 := stepSegs_names (sp m :: ns.map sp)
  have hnem := render_ne h.2.2.2
  rw [set_entrySB h hp (by first | exact stepSegs_ne hss (lowSteps_ne hne) | simp) v hv0, setElement_stepsB hss2 (by simp [firsts]) hv hw h.1, findLoc_noRootSB ho h hm]
  simp only
  unfold createElement
  rw [if_neg (by simpa using hnem), deepestParent_noneB]
  · simp only
    unfold createInRoot
    have hsib : shouldCreateSiblingRoot o f.render (sp m) = true := by
      simp only [shouldCreateSiblingRoot, Bool.and_eq_true, Bool.not_eq_true', List.isEmpty_eq_false_iff, List.all_eq_true, decide_eq_true_eq]
      refine ⟨hnem, fun x hx hxm => ?_⟩
      have := namedBy_rep (cs := opts.caseSensitive) (n := sp m) (says_reads ho (sound_says h))
      rw [hm] at this
      have hmem : x ∈ (topElems o f.render).filter (fun e => agrees opts.caseSensitive (sp m) e.name) := by
        rw [List.mem_filter]; exact ⟨hx, by rw [hxm]; exact agrees_self _ _⟩
      cases hz : (topElems o f.render).filter (fun e => agrees opts.caseSensitive (sp m) e.name) with
      | nil => rw [hz] at hmem; simp at hmem
      | cons => rw [hz] at this; cases this
    simp only [List.map_cons, nameSeg]
    rw [hsib, if_pos rfl]
    have := buildElement_lines opts.indent (sp m :: ns.map sp) (by simp) w
    simp only [List.map_cons, nameSeg] at this
    rw [this, finish_ok (by simp [hnem])]
  · intro i h1 h2
    obtain ⟨t, rfl⟩ : ∃ t, i = t + 1 := ⟨i - 1, by omega⟩
    rw [List.map_cons, List.take_succ_cons, ← List.map_take, ← List.map_cons]
    exact findLoc_noRootSB ho h hm

end Verif
