import Verif.Lemmas.SeriesRun
import Verif.Props.Raw
import Verif.Lemmas.Copy
import Verif.Lemmas.TripOpt
import Verif.Lemmas.AppendOpt
import Verif.Props.Trail
/- C88 with options, content with markup, appending, and paths of any kind. -/
namespace Verif.Props
open Verif Verif.Spec

theorem legal_higher {f : Forest} : ∀ {d e : Nat}, f.Legal d → 0 < e → e ≤ d → f.Legal e := by
  induction f with
  | nil => intros; trivial
  | text b next ih => intro d e h he hl; exact ⟨h.1, by omega, ih h.2.2 he hl⟩
  | misc m next ih => intro d e h he hl; exact ⟨h.1, ih h.2 he hl⟩
  | leaf n as ws next ih => intro d e h he hl; obtain ⟨h1, h2, h3, h4, h5⟩ := h; exact ⟨h1, h2, h3, by omega, ih h5 he hl⟩
  | node n as ws k cws next ihk ih =>
    intro d e h he hl; obtain ⟨h1, h2, h3, h4, h5, h6, h7⟩ := h
    exact ⟨h1, h2, h3, by omega, ihk h5 (by omega) (by omega), h6, ih h7 he hl⟩

theorem text_content {d : Nat} {w : Bytes} (hd : 0 < d) (h : c!"<" ∉ w) : Fitting d w :=
  ⟨.text w .nil, by simp [Forest.render], ⟨h, by omega, trivial⟩, trivial, trivial⟩

theorem chainF_text (indent : Bytes) (d : Nat) (ns : List Bytes) (x : Forest) : (chainF indent d ns x).render = chainLines indent d ns x.render := by
  induction ns generalizing d with
  | nil => simp [chainF, chainLines]
  | cons n ns ih => simp [chainF, chainLines, Forest.render, ih, openTag, closeTag]

theorem chainF_open {indent : Bytes} {d : Nat} {ns : List Bytes} (hne : ns ≠ []) (x : Forest) : RootsOpen (chainF indent d ns x) := by
  cases ns with
  | nil => exact absurd rfl hne
  | cons n ns => trivial

/-- Content replaced at an element that is there. -/
theorem replace_kept {c : Ctx} {e : El} (h : Editable (c.plug (e.cons .nil))) (hro : RootsOpen (c.plug (e.cons .nil))) {w : Bytes} (hc : Fitting (c.depth + 1) w) :
    ∃ g : Forest, g.render = c.before ++ e.start ++ w ++ e.stop ++ c.after ∧ Kept g ∧ g.HasElem := by
  obtain ⟨x, rfl, x1, x2, x3⟩ := hc
  have hg := editable_el h
  by_cases hb : e.body = none
  · have hd := open_inside hro hb
    have hE : (c.plug ((e.cons .nil).append x)).HasElem := plug_hasElem_of ((append_hasElem _ _).mpr (.inl (cons_hasElem e .nil)))
    refine ⟨c.plug ((e.cons .nil).append x), ?_, ⟨left_mk hE fun hsz => ?_, plug_open hro (.inr hd)⟩, hE⟩
    · rw [plug_render, append_render, cons_render]; simp [Forest.render, El.render, El.inner, El.stop, hb]
    · refine editable_swap h ?_ ?_ ?_ ?_ hE hsz
      · rw [append_legal]; exact ⟨hg.legal, legal_higher x1 hd (by omega)⟩
      · rw [append_tame, show (c.depth == 0) = false by simpa using (by omega : c.depth ≠ 0)]
        have := hg.tame
        rw [show (c.depth == 0) = false by simpa using (by omega : c.depth ≠ 0)] at this
        exact ⟨this, x2⟩
      · rw [append_stable]; exact ⟨hg.stable, even_stable x3⟩
      · intro hh; rw [append_even]; exact ⟨hg.even (by simpa using hh), x3⟩
  · have hE : (c.plug ((e.refill e.attrs e.ws x).cons .nil)).HasElem := plug_hasElem_of (cons_hasElem _ _)
    refine ⟨c.plug ((e.refill e.attrs e.ws x).cons .nil), ?_, ⟨left_mk hE fun hsz => ?_, plug_open hro (.inl ((cons_open _).mpr (by simp [El.refill])))⟩, hE⟩
    · rw [plug_el_render]
      obtain ⟨nm, as, ws, body⟩ := e
      rcases body with _ | ⟨k0, cws⟩
      · exact absurd rfl hb
      · have : cws = [] := hg.stable.1
        subst this
        simp [El.refill, El.start, El.inner, El.stop]
    · exact editable_swapEl h (refill_good hg (opened_kept hb) x1 x2 x3) hsz

/-- Content added to that of an element that is there. -/
theorem added_kept {c : Ctx} {e : El} {as : List Attr} {ws : Bytes} (h : Editable (c.plug (e.cons .nil))) (hro : RootsOpen (c.plug (e.cons .nil))) (hop : Opened e as ws) {k : Forest}
    (h1 : k.Legal (c.depth + 1)) (h2 : k.Tame false) (h3 : k.Even) :
    ∃ g : Forest, g.render = c.before ++ (openTag e.name as ws ++ b!">" ++ k.render ++ closeTag e.name []) ++ c.after ∧ Kept g ∧ g.HasElem := by
  have hE : (c.plug ((e.refill as ws k).cons .nil)).HasElem := plug_hasElem_of (cons_hasElem _ _)
  refine ⟨c.plug ((e.refill as ws k).cons .nil), ?_, ⟨left_mk hE fun hsz => ?_, plug_open hro (.inl ((cons_open _).mpr (by simp [El.refill])))⟩, hE⟩
  · rw [plug_el_render]
    simp [El.refill, El.start, El.inner, El.stop]
  · exact editable_swapEl h (refill_good (editable_el h) hop h1 h2 h3) hsz

theorem roots_kept {f : Forest} (hE : f.HasElem) (hro : RootsOpen f) (h1 : f.Legal 0) (h2 : f.Tame true) (h3 : f.Stable) : Kept f ∧ f.HasElem :=
  ⟨⟨left_mk hE fun hsz => ⟨hsz, h1, h2, hE, h3⟩, hro⟩, hE⟩

/-- Set of an element at a path of names. -/
theorem set_keptB {o : Ord} (ho : o.IsPerm) {opts : Options} (hi : c!"<" ∉ opts.indent) {f : Forest} (h : Editable f) (hro : RootsOpen f) {ns : List Bytes} {n : Bytes} (hn : ∀ m ∈ ns ++ [n], IsName m)
    (hl : ns.length < 100) {v : GoVal} {w : Bytes} (hv0 : v ≠ .nil) (hv : valueToXML v = some w) (hw : w.length ≤ 5242880) (hc : Fitting (ns.length + 1) w) :
    ∃ g, setWithOptions o f.render (pathOf (ns ++ [n])) v (some opts) = .ret (g.render, none) ∧ Kept g ∧ g.HasElem := by
  have hpn : ∀ m ∈ ns ++ [n], PlainName m := fun m hm => name_plain (hn m hm)
  rcases locate_splitB opts.caseSensitive f ns n with ⟨c, e, rfl, hL⟩ | ⟨as, bs, c, e, h0, rfl, rfl, hL, hm⟩ | hm
  · have hd : c.depth = ns.length := by have := leads_depthB hL; simp [firsts] at this; omega
    obtain ⟨g, g1, g2⟩ := replace_kept h hro (w := w) (by rw [hd]; exact hc)
    exact ⟨g, by rw [g1]; exact set_existingB ho (stepsText_names hpn) (by simp; omega) hL h hv0 hv hw, g2⟩
  · obtain ⟨at', ws', hop, hset⟩ := set_missingB ho (stepsText_names (ns := as) (fun m hm => hpn m (by simp [hm]))) hL h
    have hd : c.depth + 1 = as.length := by have := leads_depthB hL; simp [firsts] at this; omega
    obtain ⟨m, ms, e1⟩ : ∃ m ms, bs ++ [n] = m :: ms := by cases bs <;> simp
    have hmem : ∀ k ∈ m :: ms, k ∈ as ++ bs ++ [n] := by rw [← e1]; intro k hk; simp at hk ⊢; right; exact hk
    have hb : (m :: ms).length = bs.length + 1 := by rw [← e1]; simp
    obtain ⟨x, rfl, x1, x2, x3⟩ := hc
    obtain ⟨c1, c2, c3⟩ := chainF_good (ns := (m :: ms).map (spelling opts.caseSensitive)) (x := x) (d := 0) (k := c.depth + 1) (t := false) hi (by omega) (by simp)
      (fun k hk => by obtain ⟨y, hy, rfl⟩ := List.mem_map.mp hk; exact spelling_name (hn y (hmem y hy))) (by rw [List.length_map, hb]; simp at hl; omega)
      (by rw [List.length_map, hb, hd]; simp at x1; rw [show as.length + (bs.length + 1) = as.length + bs.length + 1 by omega]; exact x1) x2 x3
    obtain ⟨k1, k2, k3, k4⟩ := el_kids_good (editable_el h)
    obtain ⟨g, g1, g2⟩ := added_kept h hro hop (k := e.kids.append (chainF opts.indent 0 ((m :: ms).map (spelling opts.caseSensitive)) x))
      ((append_legal _ _ _).mpr ⟨k1, c1⟩) ((append_tame _ _ _).mpr ⟨k2, c2⟩) ((append_even _ _).mpr ⟨k3, c3⟩)
    refine ⟨g, ?_, g2⟩
    have := hset m ms (fun k hk => hpn k (hmem k hk)) (by rw [hb]; simp at hl ⊢; omega) (by simpa only [e1, List.head_cons] using hm) v _ hv0 hv hw
    rw [List.append_assoc, e1, this, g1, append_render, chainF_text]
    have hin : e.inner = e.kids.render := by obtain ⟨nm, as, ws, body⟩ := e; cases body <;> rfl
    simp [hin]
  · obtain ⟨m, ms, e1⟩ : ∃ m ms, ns ++ [n] = m :: ms := by cases ns <;> simp
    have hb : (m :: ms).length = ns.length + 1 := by rw [← e1]; simp
    obtain ⟨x, rfl, x1, x2, x3⟩ := hc
    obtain ⟨c1, c2, c3⟩ := chainF_good (ns := (m :: ms).map (spelling opts.caseSensitive)) (x := x) (d := 0) (k := 0) (t := true) hi (by omega) (by simp)
      (fun k hk => by obtain ⟨y, hy, rfl⟩ := List.mem_map.mp hk; exact spelling_name (hn y (by rw [e1]; exact hy))) (by rw [List.length_map, hb]; omega)
      (by rw [List.length_map, hb, Nat.zero_add]; exact x1) x2 x3
    refine ⟨f.append (chainF opts.indent 0 ((m :: ms).map (spelling opts.caseSensitive)) x), ?_, roots_kept ?_ ?_ ?_ ?_ ?_⟩
    · rw [e1, set_newRootSB ho (editable_sound h) (by rw [← e1]; exact hpn) (by rw [hb]; omega) (by simpa only [e1, List.head_cons] using hm) hv0 hv hw, append_render, chainF_text]
    · exact (append_hasElem _ _).mpr (.inl h.2.2.2.1)
    · exact (append_open _ _).mpr ⟨hro, chainF_open (by simp) _⟩
    · exact (append_legal _ _ _).mpr ⟨h.2.1, c1⟩
    · exact (append_tame _ _ _).mpr ⟨h.2.2.1, c2⟩
    · exact (append_stable _ _).mpr ⟨h.2.2.2.2, even_stable c3⟩

/-- The same on the empty document. -/
theorem set_empty_keptB (o : Ord) {opts : Options} (hi : c!"<" ∉ opts.indent) {ns : List Bytes} {n : Bytes} (hn : ∀ m ∈ ns ++ [n], IsName m)
    (hl : ns.length < 100) {v : GoVal} {w : Bytes} (hv0 : v ≠ .nil) (hv : valueToXML v = some w) (hw : w.length ≤ 5242880) (hc : Fitting (ns.length + 1) w) :
    ∃ g, setWithOptions o [] (pathOf (ns ++ [n])) v (some opts) = .ret (g.render, none) ∧ Kept g ∧ g.HasElem := by
  have hpn : ∀ m ∈ ns ++ [n], PlainName m := fun m hm => name_plain (hn m hm)
  obtain ⟨m, ms, e1⟩ : ∃ m ms, ns ++ [n] = m :: ms := by cases ns <;> simp
  have hb : (m :: ms).length = ns.length + 1 := by rw [← e1]; simp
  obtain ⟨x, rfl, x1, x2, x3⟩ := hc
  obtain ⟨c1, c2, c3⟩ := chainF_good (ns := (m :: ms).map (spelling opts.caseSensitive)) (x := x) (d := 0) (k := 0) (t := true) hi (by omega) (by simp)
    (fun k hk => by obtain ⟨y, hy, rfl⟩ := List.mem_map.mp hk; exact spelling_name (hn y (by rw [e1]; exact hy))) (by rw [List.length_map, hb]; omega)
    (by rw [List.length_map, hb, Nat.zero_add]; exact x1) x2 x3
  refine ⟨chainF opts.indent 0 ((m :: ms).map (spelling opts.caseSensitive)) x, ?_, roots_kept (chainF_hasElem (by simp) _) (chainF_open (by simp) _) c1 c2 (even_stable c3)⟩
  rw [e1, set_emptyB o (by rw [← e1]; exact hpn) (by rw [hb]; omega) hv0 hv hw, chainF_text]

theorem findLoc_empty (o : Ord) (cs : Bool) (ss : List Seg) (base : Int) : findLoc o cs ss [] base = none := by
  have h : topElems o [] = [] := topElems_none (by simp [skipToNext])
  cases ss with
  | nil => rfl
  | cons s r =>
    cases r with
    | nil => simp [findLoc, h]
    | cons t r =>
      rw [findLoc]
      simp only [h, List.filter_nil, List.getElem?_nil, List.head?_nil]
      repeat' split
      all_goals first | rfl | trivial

theorem set_entry_empty (o : Ord) {opts : Options} {path : Bytes} {ss : List Seg} (hp : parsePathWithOptions path opts.caseSensitive = .ok ss) (hne : ss ≠ []) (v : GoVal) (hv : v ≠ .nil) :
    setWithOptions o [] path v (some opts) = finish [] (setElement o opts.caseSensitive opts.indent [] ss v) := by
  unfold setWithOptions
  rw [if_neg (by simp [docMax]), if_neg (by simp), if_neg hv]
  simp only [effOpts, Option.getD_some]
  rw [hp]
  cases ss with
  | nil => exact absurd rfl hne
  | cons s ss => rfl

theorem follow_none_appendB {cs : Bool} {ps qs : List Step} {i : Info} (h : i.followBy cs ps = none) (hne : ps ≠ []) : i.followBy cs (ps ++ qs) = none := by
  induction ps generalizing i with
  | nil => exact absurd rfl hne
  | cons p ps ih =>
    obtain ⟨n, j⟩ := p
    by_cases hp : ps = []
    · subst hp
      rw [Info.followBy] at h
      cases qs with
      | nil => simpa [Info.followBy] using h
      | cons q qs => simp [Info.followBy, h]
    · have e : ∀ r : List Step, r ≠ [] → i.followBy cs ((n, j) :: r) = ((i.namedBy cs n)[j]?).bind (fun e => e.kids.followBy cs r) := by
        intro r hr; cases r with | nil => exact absurd rfl hr | cons q r => simp [Info.followBy]
      rw [List.cons_append, e _ (by simp [hp])]
      rw [e _ hp] at h
      cases hn : (i.namedBy cs n)[j]? with
      | none => rfl
      | some e => rw [hn] at h; exact ih h hp

theorem append_parsed (opts : Options) {ns : List Bytes} {x : Bytes} (hn : ∀ m ∈ ns ++ [x], PlainName m) (hne : ns ≠ []) (hl : ns.length ≤ 98) :
    parsePathWithOptions (pathOf (ns ++ [x, b!"-1"])) opts.caseSensitive = .ok ((ns.map (spelling opts.caseSensitive)).map nameSeg ++ [nameSeg (spelling opts.caseSensitive x), ⟨.index (-1), []⟩]) ∧
    parsePathWithOptions (pathOf (ns ++ [x])) opts.caseSensitive = .ok ((ns.map (spelling opts.caseSensitive)).map nameSeg ++ [nameSeg (spelling opts.caseSensitive x)]) := by
  have hx := hn x (by simp)
  have hns : ∀ m ∈ ns, PlainName m := fun m hm => hn m (by simp [hm])
  have h1 := parsePath_names ns [x, b!"-1"] hns hne (by simp; omega) _ (parseParts_cons_ok (parsePart_plain _ hx) parse_append)
  have h2 := parsePath_names ns [x] hns hne (by simp; omega) _ (parseParts_cons_ok (parsePart_plain _ hx) rfl)
  constructor
  · rw [parseOpt_low _ h1, lowSegs_append, lowSegs_names]
    exact congrArg (fun z => Parse.ok (_ ++ z)) (lowSegs_append_new _ _)
  · rw [parseOpt_low _ h2, lowSegs_append, lowSegs_names]
    exact congrArg (fun z => Parse.ok (_ ++ z)) (lowSegs_names _ [x])

/-- Appending where the parent is missing is setting without the index. -/
theorem append_as_set {o : Ord} (ho : o.IsPerm) {opts : Options} {f : Forest} (h : Sound f ∨ f.render = []) {ns : List Bytes} {x : Bytes} (hn : ∀ m ∈ ns ++ [x], PlainName m) (hne : ns ≠ []) (hl : ns.length ≤ 98)
    (hm : Sound f → f.info.followBy opts.caseSensitive (firsts ns) = none) {v : GoVal} {w : Bytes} (hv0 : v ≠ .nil) (hv : valueToXML v = some w) (hw : w.length ≤ 5242880) :
    setWithOptions o f.render (pathOf (ns ++ [x, b!"-1"])) v (some opts) = setWithOptions o f.render (pathOf (ns ++ [x])) v (some opts) := by
  obtain ⟨h1, h2⟩ := append_parsed opts hn hne hl
  have hss := stepSegs_names (ns.map (spelling opts.caseSensitive))
  have hss2 := stepSegs_names ((ns ++ [x]).map (spelling opts.caseSensitive))
  have e2 : ((ns ++ [x]).map (spelling opts.caseSensitive)).map nameSeg = (ns.map (spelling opts.caseSensitive)).map nameSeg ++ [nameSeg (spelling opts.caseSensitive x)] := by simp
  have hie : ((ns.map (spelling opts.caseSensitive)).map nameSeg).isEmpty = false := by cases ns <;> simp at hne ⊢
  have hz : f.render.length ≤ 10485760 := by
    rcases h with h | h
    · exact h.1
    · rw [h]; simp
  have hloc : findLoc o opts.caseSensitive ((ns.map (spelling opts.caseSensitive)).map nameSeg) f.render 0 = none ∧
      findLoc o opts.caseSensitive ((ns.map (spelling opts.caseSensitive)).map nameSeg ++ [nameSeg (spelling opts.caseSensitive x)]) f.render 0 = none := by
    rcases h with h | h
    · have key : ∀ qs, f.info.followBy opts.caseSensitive (firsts qs) = none → findLoc o opts.caseSensitive ((qs.map (spelling opts.caseSensitive)).map nameSeg) f.render 0 = none := by
        intro qs hq
        refine findLoc_follow_noneB ho (stepSegs_names _) (says_reads ho (sound_says h)) 0 ?_
        rw [← hq, ← followBy_low _ (firsts qs), lowSteps, firsts, firsts, List.map_map, List.map_map]
        rfl
      refine ⟨key ns (hm h), ?_⟩
      rw [← e2]
      refine key _ ?_
      rw [firsts, List.map_append]
      exact follow_none_appendB (hm h) (by simpa using hne)
    · rw [h]; exact ⟨findLoc_empty _ _ _ _, findLoc_empty _ _ _ _⟩
  have ent : ∀ {p ss}, parsePathWithOptions p opts.caseSensitive = .ok ss → ss ≠ [] → setWithOptions o f.render p v (some opts) = finish f.render (setElement o opts.caseSensitive opts.indent f.render ss v) := by
    intro p ss hp hs
    rcases h with h | h
    · exact set_entrySB h hp hs v hv0
    · rw [h]; exact set_entry_empty o hp hs v hv0
  rw [ent h1 (by simp), ent h2 (by simp), setElement_appendB hss _ hv hw hz, ← e2, setElement_stepsB hss2 (by simp [firsts]) hv hw hz, e2, hie, hloc.1, hloc.2]
  rfl

theorem newLine_text {ind : Bytes} (h : c!"<" ∉ ind) (d : Nat) : c!"<" ∉ newLine ind d := by
  intro hm
  rw [newLine] at hm
  split at hm
  · simp at hm
  · rcases List.mem_append.mp hm with hm | hm
    · revert hm; decide
    · obtain ⟨l, hl, hm⟩ := List.mem_flatten.mp hm
      rw [List.eq_of_mem_replicate hl] at hm
      exact h hm

/-- Appending an element at a path of names. -/
theorem append_keptB {o : Ord} (ho : o.IsPerm) {opts : Options} (hi : c!"<" ∉ opts.indent) {f : Forest} (h : Editable f) (hro : RootsOpen f) {ns : List Bytes} {n : Bytes} (hn : ∀ m ∈ ns ++ [n], IsName m)
    (hl : ns.length ≤ 98) {v : GoVal} {w : Bytes} (hv0 : v ≠ .nil) (hv : valueToXML v = some w) (hw : w.length ≤ 5242880) (hc : Fitting (ns.length + 1) w) :
    ∃ g err, setWithOptions o f.render (pathOf (ns ++ [n, b!"-1"])) v (some opts) = .ret (g.render, err) ∧ (err = none ∨ err = some .invalidValue ∧ g = f) ∧ Kept g ∧ g.HasElem := by
  have hpn : ∀ m ∈ ns ++ [n], PlainName m := fun m hm => name_plain (hn m hm)
  have hself : Kept f ∧ f.HasElem := ⟨⟨left_of h, hro⟩, h.2.2.2.1⟩
  have hx : IsName (spelling opts.caseSensitive n) := spelling_name (hn n (by simp))
  by_cases h0 : ns = []
  · subst h0
    obtain ⟨k1, k2, rfl, hal⟩ := afterLast_existsB (cs := opts.caseSensitive) n f
    obtain ⟨x, rfl, x1, x2, x3⟩ := hc
    obtain ⟨c1, c2, c3⟩ := chainF_good (ns := [spelling opts.caseSensitive n]) (x := x) (d := 0) (k := 0) (t := true) (indent := []) (by simp) (by omega) (by simp)
      (fun k hk => by simp at hk; subst hk; exact hx) (by simp) (by simpa using x1) x2 x3
    have hr : (chainF [] 0 [spelling opts.caseSensitive n] x).render = wrapElem (spelling opts.caseSensitive n) x.render := by
      rw [chainF_text]; simp [chainLines, wrapElem, newLine, openTag, closeTag, writeAttrs]
    have ha := set_append_rootB ho (editable_sound h) (hpn n (by simp)) hal hv0 hv hw
    rw [List.nil_append, ha]
    obtain ⟨l1, l2⟩ := (append_legal _ _ _).mp h.2.1
    obtain ⟨t1, t2⟩ := (append_tame _ _ _).mp h.2.2.1
    obtain ⟨s1, s2⟩ := (append_stable _ _).mp h.2.2.2.2
    obtain ⟨r1, r2⟩ := (append_open _ _).mp hro
    split
    · exact ⟨_, _, rfl, .inr ⟨rfl, rfl⟩, hself⟩
    · refine ⟨k1.append ((chainF [] 0 [spelling opts.caseSensitive n] x).append k2), none, ?_, .inl rfl, roots_kept ?_ ?_ ?_ ?_ ?_⟩
      · rw [append_render, append_render, hr]; simp
      · exact (append_hasElem _ _).mpr (.inr ((append_hasElem _ _).mpr (.inl (chainF_hasElem (by simp) _))))
      · exact (append_open _ _).mpr ⟨r1, (append_open _ _).mpr ⟨chainF_open (by simp) _, r2⟩⟩
      · exact (append_legal _ _ _).mpr ⟨l1, (append_legal _ _ _).mpr ⟨c1, l2⟩⟩
      · exact (append_tame _ _ _).mpr ⟨t1, (append_tame _ _ _).mpr ⟨c2, t2⟩⟩
      · exact (append_stable _ _).mpr ⟨s1, (append_stable _ _).mpr ⟨even_stable c3, s2⟩⟩
  · cases hf : f.info.followBy opts.caseSensitive (firsts ns) with
    | none =>
      rw [append_as_set ho (.inl (editable_sound h)) hpn h0 hl (fun _ => hf) hv0 hv hw]
      obtain ⟨g, h1, h2⟩ := set_keptB ho hi h hro hn (by omega) hv0 hv hw hc
      exact ⟨g, none, h1, .inl rfl, h2⟩
    | some nd =>
      obtain ⟨c, e, rfl, hL, -⟩ := follow_leadsB hf
      obtain ⟨as, ws, hop, hset⟩ := set_appendB ho (stepsText_names (ns := ns) (fun m hm => hpn m (by simp [hm]))) hl hL h
      obtain ⟨k1, k2, hk, hal⟩ := afterLast_existsB (cs := opts.caseSensitive) n e.kids
      have hd : c.depth + 1 = ns.length := by have := leads_depthB hL; simp [firsts] at this; omega
      obtain ⟨x, rfl, x1, x2, x3⟩ := hc
      rw [hset n (hpn n (by simp)) k1 k2 hk hal v _ hv0 hv hw]
      generalize hnl0 : (if k1.render = [] then [] else newLine opts.indent ns.length) = nl
      have hnl : c!"<" ∉ nl := by
        rw [← hnl0]
        split
        · simp
        · exact newLine_text hi _
      split
      · exact ⟨_, _, rfl, .inr ⟨rfl, rfl⟩, hself⟩
      · obtain ⟨l, t, ev, -⟩ := el_kids_good (editable_el h)
        rw [hk] at l t ev
        obtain ⟨l1, l2⟩ := (append_legal _ _ _).mp l
        obtain ⟨t1, t2⟩ := (append_tame _ _ _).mp t
        obtain ⟨e1, e2⟩ := (append_even _ _).mp ev
        obtain ⟨c1, c2, c3⟩ := chainF_good (ns := [spelling opts.caseSensitive n]) (x := x) (d := 0) (k := c.depth + 1) (t := false) (indent := []) (by simp) (by omega) (by simp)
          (fun k hk => by simp at hk; subst hk; exact hx) (by simp; omega) (by rw [hd]; simpa using x1) x2 x3
        have hr : (chainF [] 0 [spelling opts.caseSensitive n] x).render = wrapElem (spelling opts.caseSensitive n) x.render := by
          rw [chainF_text]; simp [chainLines, wrapElem, newLine, openTag, closeTag, writeAttrs]
        obtain ⟨g, g1, g2⟩ := added_kept h hro hop (k := k1.append (.text nl ((chainF [] 0 [spelling opts.caseSensitive n] x).append k2)))
          ((append_legal _ _ _).mpr ⟨l1, hnl, by omega, (append_legal _ _ _).mpr ⟨c1, l2⟩⟩) ((append_tame _ _ _).mpr ⟨t1, (append_tame _ _ _).mpr ⟨c2, t2⟩⟩) ((append_even _ _).mpr ⟨e1, (append_even _ _).mpr ⟨c3, e2⟩⟩)
        refine ⟨g, none, ?_, .inl rfl, g2⟩
        rw [g1, append_render, Forest.render, append_render, hr]
        simp

theorem append_empty_keptB {o : Ord} (ho : o.IsPerm) {opts : Options} (hi : c!"<" ∉ opts.indent) {ns : List Bytes} {n : Bytes} (hn : ∀ m ∈ ns ++ [n], IsName m)
    (hl : ns.length ≤ 98) {v : GoVal} {w : Bytes} (hv0 : v ≠ .nil) (hv : valueToXML v = some w) (hw : w.length ≤ 5242880) (hc : Fitting (ns.length + 1) w) :
    ∃ g, setWithOptions o [] (pathOf (ns ++ [n, b!"-1"])) v (some opts) = .ret (g.render, none) ∧ Kept g ∧ g.HasElem := by
  have hpn : ∀ m ∈ ns ++ [n], PlainName m := fun m hm => name_plain (hn m hm)
  by_cases h0 : ns = []
  · subst h0
    have hp : parsePath (pathOf [n, b!"-1"]) = .ok [nameSeg n, ⟨.index (-1), []⟩] := by
      have := parsePath_names [n] [b!"-1"] (by simpa using hpn n) (by simp) (by simp) _ parse_append
      simpa [fuseFields] using this
    have hp := parseOpt_low opts.caseSensitive hp
    rw [lowSegs_append_new] at hp
    have he := setElement_appendB (o := o) (cs := opts.caseSensitive) (ind := opts.indent) (data := []) StepSegs.nil (spelling opts.caseSensitive n) hv hw (by simp)
    rw [List.nil_append] at he
    obtain ⟨x, rfl, x1, x2, x3⟩ := hc
    obtain ⟨c1, c2, c3⟩ := chainF_good (ns := [spelling opts.caseSensitive n]) (x := x) (d := 0) (k := 0) (t := true) (indent := []) (by simp) (by omega) (by simp)
      (fun k hk => by simp at hk; subst hk; exact spelling_name (hn n (by simp))) (by simp) (by simpa using x1) x2 x3
    refine ⟨chainF [] 0 [spelling opts.caseSensitive n] x, ?_, roots_kept (chainF_hasElem (by simp) _) (chainF_open (by simp) _) c1 c2 (even_stable c3)⟩
    rw [List.nil_append, set_entry_empty o hp (by simp) v hv0, he, chainF_text]
    simp only [List.isEmpty_nil, if_true]
    rw [appendRootElement, if_pos (by rfl), finish_ok (by simp [wrapElem])]
    simp [chainLines, wrapElem, nameSeg, newLine, Seg.value]
  · obtain ⟨g, h1, h2⟩ := set_empty_keptB o hi hn (by omega) hv0 hv hw hc
    refine ⟨g, ?_, h2⟩
    rw [← h1]
    exact append_as_set (f := .nil) ho (.inr rfl) hpn h0 hl (fun h => absurd h.2.2.2 (by simp [Forest.HasElem])) hv0 hv hw

/-- Every run of Set of an element is a run with one order. -/
theorem kept_setB {os : Visits} (hp : os.IsPerm) {g : Forest} (hg : Kept g) {p : Bytes} (hat : c!"@" ∉ p) (v : GoVal) (opts : Options) :
    ∃ o : Ord, o.IsPerm ∧ setWithOptionsF os g.render p v (some opts) = setWithOptions o g.render p v (some opts) := by
  by_cases hE : Editable g
  · exact C75_set_one os hp g (editable_sound hE) _ hat v _
  · refine ⟨_, noOrd_perm, ?_⟩
    by_cases h0 : g.render = []
    · rw [h0, C75_set_empty os (fun _ => fun _ as => as) _ hat, C75_same_set]
    · rw [setF_refused h0 (kept_not hg hE)]; exact (set_refused h0 (kept_not hg hE)).symm

end Verif.Props
