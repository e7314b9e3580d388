import Verif.Props.AppendAny
namespace Verif.Props
open Spec

/-! ## C92 What undoes a write, at any path, with any options -/

theorem chainF_cons (ind : Bytes) (d : Nat) (b : Forest) (m : Bytes) (ns : List Bytes) (x : Forest) :
    b.append (chainF ind d (m :: ns) x) = (b.append (.text (newLine ind d) .nil)).append ((⟨m, [], [], some (chainF ind (d + 1) ns x, [])⟩ : El).cons .nil) := by
  rw [append_assoc]; rfl

/-- C92: Deleting the outermost of the elements that Set created leaves the line break and the indentation before it, and a self-closing element that was opened. -/
theorem C92_created_line {o : Ord} (ho : o.IsPerm) (opts : Options) (hi : c!"<" ∉ opts.indent) {c : Ctx} {e : El} (h : Editable (c.plug (e.cons .nil))) {p q : Bytes} {ps ns : List Bytes} {m : Bytes}
    (hp : PathSteps p (ps ++ m :: ns)) (hn : ∀ n ∈ m :: ns, IsName n) (hq : PathSteps q (ps ++ [m])) (hl : LeadTo opts.caseSensitive ps c e.name) (hm : e.kids.info.count opts.caseSensitive (.name m) = 0) :
    ∃ as ws, Opened e as ws ∧ ∀ (v : GoVal) (w : Bytes), v ≠ .nil → valueToXML v = some w → w.length ≤ 5242880 → c!"<" ∉ w →
      ∃ r, setWithOptions o (c.plug (e.cons .nil)).render p v (some opts) = .ret (r, none) ∧ (r.length ≤ 10485760 →
        deleteWithOptions o r q (some opts) = .ret (c.before ++ (openTag e.name as ws ++ b!">" ++ e.inner ++ newLine opts.indent 0 ++ closeTag e.name []) ++ c.after, none)) := by
  have hD := deepest_of_count hl hn hm
  obtain ⟨as, ws, ho1, ho2⟩ := C79_create ho opts h hp hD (fun x hx => isName_negative (hn x hx)) (slots_isName hn) (by rw [List.getLast?_map]; cases (m :: ns).getLast? <;> simp)
  refine ⟨as, ws, ho1, fun v w hv0 hv hw hlt => ⟨_, ho2 v w hv0 hv hw, fun hsz => ?_⟩⟩
  have hren : (chainF opts.indent 0 ((m :: ns).map (spelling opts.caseSensitive)) (.text w .nil)).render =
      slotLines opts.indent 0 ((m :: ns).map fun m => some (spelling opts.caseSensitive m)) w := by
    rw [chainF_render, ← slotLines_names, List.map_map]; simp [Function.comp_def]
  have e1 : c.before ++ (openTag e.name as ws ++ b!">" ++ e.inner ++ slotLines opts.indent 0 ((m :: ns).map fun m => some (spelling opts.caseSensitive m)) w ++ closeTag e.name []) ++ c.after =
      (c.plug ((e.refill as ws (e.kids.append (chainF opts.indent 0 ((m :: ns).map (spelling opts.caseSensitive)) (.text w .nil)))).cons .nil)).render := by
    rw [plug_el_render, ← hren]
    obtain ⟨nm, eas, ews, bd⟩ := e
    cases bd <;> simp [El.refill, El.start, El.inner, El.stop, El.kids, append_render, Forest.render]
  have hdep : c.depth + 1 + (m :: ns).length ≤ 100 := by
    obtain ⟨hs, ht, hr⟩ := hl
    have h1 := reach_deep hr
    have h2 := trail_short ht _ rfl
    have h3 := pathSteps_short hp
    simp only [List.length_append] at h3
    omega
  have e0 : c.before ++ (e.refill as ws (e.kids.append (chainF opts.indent 0 ((m :: ns).map (spelling opts.caseSensitive)) (.text w .nil)))).render ++ c.after =
      (c.plug ((e.refill as ws (e.kids.append (chainF opts.indent 0 ((m :: ns).map (spelling opts.caseSensitive)) (.text w .nil)))).cons .nil)).render := by
    rw [plug_el_render]; simp [El.render]
  rw [e1] at hsz ⊢
  have hed := editable_createdB hi h (ns := (m :: ns).map (spelling opts.caseSensitive)) (by simp) (fun x hx => by
    obtain ⟨y, h1, rfl⟩ := List.mem_map.mp hx; exact spelling_name (hn y h1)) (by simpa using hdep) hlt ho1 (by rw [e0]; exact hsz)
  have e2 : c.plug ((e.refill as ws (e.kids.append (chainF opts.indent 0 ((m :: ns).map (spelling opts.caseSensitive)) (.text w .nil)))).cons .nil) =
      (down c e.name as ws [] (.here (e.kids.append (.text (newLine opts.indent 0) .nil)) .nil)).plug
        ((⟨spelling opts.caseSensitive m, [], [], some (chainF opts.indent 1 (ns.map (spelling opts.caseSensitive)) (.text w .nil), [])⟩ : El).cons .nil) := by
    rw [down_plug, List.map_cons, chainF_cons]
    simp only [Ctx.plug, append_nil]
    rfl
  rw [e2] at hed ⊢
  have hlead : LeadTo opts.caseSensitive (ps ++ [m]) (down c e.name as ws [] (.here (e.kids.append (.text (newLine opts.indent 0) .nil)) .nil)) (spelling opts.caseSensitive m) := by
    obtain ⟨hs, ht, hr⟩ := hl
    refine ⟨_, trail_more ht (rest := [m]) (by simpa using hn m (by simp)) rfl, reach_down hr ?_⟩
    exact chainFCtx_reach opts.caseSensitive opts.indent 0 (b := e.kids) (ns := []) (n := m) (by simpa using hm)
  rw [C79_delete ho opts hed hq hlead, down_before, down_after]
  have e3 : c.before ++ (openTag e.name as ws ++ b!">") ++ (Ctx.here (e.kids.append (.text (newLine opts.indent 0) .nil)) .nil).before ++
      ((Ctx.here (e.kids.append (.text (newLine opts.indent 0) .nil)) .nil).after ++ closeTag e.name [] ++ c.after) =
      c.before ++ (openTag e.name as ws ++ b!">" ++ e.inner ++ newLine opts.indent 0 ++ closeTag e.name []) ++ c.after := by
    obtain ⟨nm, eas, ews, bd⟩ := e
    cases bd <;> simp [Ctx.before, Ctx.after, append_render, Forest.render, El.inner, El.kids]
  rw [e3, if_neg (by simp)]

/-- C92: Without an indentation, in an element that is not self-closing, the document is as before. -/
theorem C92_created {o : Ord} (ho : o.IsPerm) (opts : Options) (hi : opts.indent = []) {c : Ctx} {e : El} (h : Editable (c.plug (e.cons .nil))) (hb : e.body ≠ none) {p q : Bytes} {ps ns : List Bytes} {m : Bytes}
    (hp : PathSteps p (ps ++ m :: ns)) (hn : ∀ n ∈ m :: ns, IsName n) (hq : PathSteps q (ps ++ [m])) (hl : LeadTo opts.caseSensitive ps c e.name) (hm : e.kids.info.count opts.caseSensitive (.name m) = 0)
    {v : GoVal} {w : Bytes} (hv0 : v ≠ .nil) (hv : valueToXML v = some w) (hw : w.length ≤ 5242880) (hlt : c!"<" ∉ w) :
    ∃ r, setWithOptions o (c.plug (e.cons .nil)).render p v (some opts) = .ret (r, none) ∧
      (r.length ≤ 10485760 → deleteWithOptions o r q (some opts) = .ret ((c.plug (e.cons .nil)).render, none)) := by
  obtain ⟨as, ws, g1, g2⟩ := C92_created_line ho opts (by simp [hi]) h hp hn hq hl hm
  obtain ⟨rfl, rfl⟩ := g1.kept hb
  obtain ⟨r, g3, g4⟩ := g2 v w hv0 hv hw hlt
  refine ⟨r, g3, fun hsz => ?_⟩
  have h1 := refill_same h hb
  rw [g4 hsz]
  congr 2
  rw [← h1, plug_el_render]
  obtain ⟨nm, eas, ews, bd⟩ := e
  cases bd <;> simp [newLine, hi, El.refill, El.start, El.inner, El.stop, El.kids, Forest.render]

/-- C92: The same for a new element at the top level. -/
theorem C92_new_root {o : Ord} (ho : o.IsPerm) (opts : Options) (hi : c!"<" ∉ opts.indent) {f : Forest} (h : Editable f) {p q m : Bytes} {ns : List Bytes} (hp : PathSteps p (m :: ns))
    (hn : ∀ n ∈ m :: ns, IsName n) (hq : PathSteps q [m]) (hm : f.info.count opts.caseSensitive (.name m) = 0)
    {v : GoVal} {w : Bytes} (hv0 : v ≠ .nil) (hv : valueToXML v = some w) (hw : w.length ≤ 5242880) (hlt : c!"<" ∉ w) :
    ∃ r, setWithOptions o f.render p v (some opts) = .ret (r, none) ∧ (r.length ≤ 10485760 → deleteWithOptions o r q (some opts) = .ret (f.render ++ newLine opts.indent 0, none)) := by
  have hno : LeadNowhere opts.caseSensitive [m] f :=
    nowhere_spot (trail_names (rest := [m]) (by simpa using hn m (by simp))) (by simpa [Info.spot, Info.count] using hm)
  refine ⟨_, C79_create_top ho opts (editable_sound h) hp (isName_step (hn m (by simp))).1 hno (fun y hy => isName_negative (hn y hy)) (slots_isName hn) (by
    rw [List.getLast?_map]; cases (m :: ns).getLast? <;> simp) hv0 hv hw, fun hsz => ?_⟩
  have hren : (chainF opts.indent 0 ((m :: ns).map (spelling opts.caseSensitive)) (.text w .nil)).render =
      slotLines opts.indent 0 ((m :: ns).map fun m => some (spelling opts.caseSensitive m)) w := by
    rw [chainF_render, ← slotLines_names, List.map_map]; simp [Function.comp_def]
  rw [← hren] at hsz ⊢
  have hed := editable_newRootB hi h (ns := (m :: ns).map (spelling opts.caseSensitive)) (by simp) (fun x hx => by
    obtain ⟨y, h1, rfl⟩ := List.mem_map.mp hx; exact spelling_name (hn y h1)) (by rw [List.length_map]; exact pathSteps_short hp) hlt hsz
  rw [← append_render]
  have e2 : f.append (chainF opts.indent 0 ((m :: ns).map (spelling opts.caseSensitive)) (.text w .nil)) = (Ctx.here (f.append (.text (newLine opts.indent 0) .nil)) .nil).plug
        ((⟨spelling opts.caseSensitive m, [], [], some (chainF opts.indent 1 (ns.map (spelling opts.caseSensitive)) (.text w .nil), [])⟩ : El).cons .nil) := by
    rw [List.map_cons, chainF_cons]
    simp only [Ctx.plug, append_nil]
  rw [e2] at hed ⊢
  rw [C79_delete ho opts hed hq ⟨_, trail_names (rest := [m]) (by simpa using hn m (by simp)), chainFCtx_reach opts.caseSensitive opts.indent 0 (b := f) (ns := []) (n := m) (by simpa using hm)⟩, if_neg]
  · simp [Ctx.before, Ctx.after, append_render, Forest.render]
  · simp only [Ctx.before, Ctx.after, Forest.render, append_render, List.append_nil]
    intro hh
    exact render_ne h.2.2.2.1 (List.append_eq_nil_iff.mp hh).1

/-- C92: Setting an element to the content it has, as it is written, changes nothing; so doing it after another Set undoes that. -/
theorem C92_set_back {o : Ord} (ho : o.IsPerm) (opts : Options) {c : Ctx} {e : El} (h : Editable (c.plug (e.cons .nil))) (hb : e.body ≠ none) {p : Bytes} {ss : List Bytes} (hp : PathSteps p ss)
    (hl : LeadTo opts.caseSensitive ss c e.name) (hk : e.inner.length ≤ 5242880) :
    setWithOptions o (c.plug (e.cons .nil)).render p (.raw e.inner) (some opts) = .ret ((c.plug (e.cons .nil)).render, none) ∧
    ∀ (v : GoVal) (w : Bytes), v ≠ .nil → valueToXML v = some w → w.length ≤ 5242880 → c!"<" ∉ w →
      ∃ r, setWithOptions o (c.plug (e.cons .nil)).render p v (some opts) = .ret (r, none) ∧
        (r.length ≤ 10485760 → setWithOptions o r p (.raw e.inner) (some opts) = .ret ((c.plug (e.cons .nil)).render, none)) := by
  have h0 : setWithOptions o (c.plug (e.cons .nil)).render p (.raw e.inner) (some opts) = .ret ((c.plug (e.cons .nil)).render, none) := by
    rw [C79_set ho opts h hp hl (v := .raw e.inner) (by simp) rfl hk, plug_el_render]
  refine ⟨h0, fun v w hv0 hv hw hlt => ?_⟩
  obtain ⟨r, g1, g2⟩ := C90_last_wins ho opts h hb hp hl hv0 (v2 := .raw e.inner) (by simp) hv rfl hw hk hlt
  exact ⟨r, g1, fun hsz => by rw [g2 hsz, h0]⟩

/-- C92: A new attribute is undone by Delete, and an old value can be set back, if the start tag is in the layout of the library. (Without regard to case: where no two attributes of the element differ
only in case.) -/
theorem C92_attribute {o : Ord} (ho : o.IsPerm) (opts : Options) {c : Ctx} {e : El} (h : Editable (c.plug (e.cons .nil))) {p : Bytes} {qs : List Bytes} {k : Bytes} (hk : IsName k) (hp : PathSteps p (qs ++ [c!"@" :: k]))
    (hl : LeadTo opts.caseSensitive qs c e.name) (hneat : Neat e.attrs) (hws : e.ws = []) (hsort : (e.attrs.map (·.name)).Pairwise LexBefore)
    (hone : ∀ i j, sameKey opts.caseSensitive i k → sameKey opts.caseSensitive j k → Spec.attrVal e.attrs i ≠ none → Spec.attrVal e.attrs j ≠ none → i = j)
    (hroom : (∃ j, sameKey opts.caseSensitive j k ∧ Spec.attrVal e.attrs j ≠ none) ∨ e.attrs.length < 100)
    {v : GoVal} {s : Bytes} (hv0 : v ≠ .nil) (hv : valueToXML v = some (escapeXML s)) (hw : (escapeXML s).length ≤ 1048576) :
    ∃ r, setWithOptions o (c.plug (e.cons .nil)).render p v (some opts) = .ret (r, none) ∧ (r.length ≤ 10485760 →
      ((∀ j, sameKey opts.caseSensitive j k → Spec.attrVal e.attrs j = none) → deleteWithOptions o r p (some opts) = .ret ((c.plug (e.cons .nil)).render, none)) ∧
      (∀ j t, sameKey opts.caseSensitive j k → Spec.attrVal e.attrs j = some t → (escapeXML t).length ≤ 1048576 →
        setWithOptions o r p (.str t) (some opts) = .ret ((c.plug (e.cons .nil)).render, none))) := by
  have hkb : beforeBar (c!"@" :: k) = c!"@" :: k := beforeBar_plain (by simpa using (name_plain hk).noBar)
  obtain ⟨as, h1, h2⟩ := C79_set_attribute ho opts h hp ⟨k, rfl⟩ hl hv0 hv (by omega)
  rw [hkb, List.drop_one, List.tail_cons] at h1
  have hx : c.before ++ (e.retag as).render ++ c.after = (c.plug ((e.retag as).cons .nil)).render := by rw [plug_el_render]; simp [El.render]
  rw [hx] at h2
  refine ⟨_, h2, fun hsz => ?_⟩
  have hg := editable_el h
  obtain ⟨l1, l2⟩ := el_attrs hg.legal hg.tame
  obtain ⟨f1, f2⟩ := retagBy_fits h1 l1 l2 hk hw hroom
  have hed := editable_retag h f1 f2 h1.neat hsz
  have hback : c.before ++ e.render ++ c.after = (c.plug (e.cons .nil)).render := by rw [plug_el_render]; simp [El.render]
  have hat : (e.retag as).attrs = as := rfl
  have hsame : ∀ bs, Neat bs → (bs.map (·.name)).Pairwise LexBefore → (∀ j, Spec.attrVal bs j = Spec.attrVal e.attrs j) → (e.retag as).retag bs = e := by
    intro bs n1 n2 n3
    have : bs = e.attrs := neat_unique n1 hneat n2 hsort n3
    subst this
    obtain ⟨nm, as0, ws0, body⟩ := e
    simp only at hws
    subst hws
    rfl
  refine ⟨fun hno => ?_, fun j t hj ht hlen => ?_⟩
  · have hself : sameKey opts.caseSensitive (spelling opts.caseSensitive k) k := sameKey_self _ _
    have hnew := h1.new hno _ hself
    rw [if_pos rfl] at hnew
    obtain ⟨bs, b1, b2⟩ := (C79_delete_attribute ho opts (e := e.retag as) hed hp ⟨k, rfl⟩ hl).2 (spelling opts.caseSensitive k) (by rw [hkb]; exact hself) (by rw [hat, hnew]; simp)
    rw [hkb, List.drop_one, List.tail_cons] at b1
    rw [b2, hsame bs b1.neat b1.sorted, hback]
    intro i
    by_cases hi : sameKey opts.caseSensitive i k
    · rw [hno i hi]
      by_cases hz : Spec.attrVal (e.retag as).attrs i = none
      · exact b1.no i hi ⟨_, hself, by rw [hat, hnew]; simp⟩ hz
      · exact b1.this i hi hz
    · rw [b1.others i hi]; exact h1.others i hi
  · have hthis : Spec.attrVal as j = some s := h1.this j hj (by rw [ht]; simp)
    obtain ⟨bs, b1, b2⟩ := C79_set_attribute ho opts (e := e.retag as) hed hp ⟨k, rfl⟩ hl (v := .str t) (s := t) (by simp) rfl (by omega)
    rw [hkb, List.drop_one, List.tail_cons] at b1
    rw [b2, hsame bs b1.neat b1.sorted, hback]
    intro i
    by_cases hi : sameKey opts.caseSensitive i k
    · by_cases hz : Spec.attrVal e.attrs i = none
      · have h3 := h1.no i hi ⟨j, hj, by rw [ht]; simp⟩ hz
        rw [hz]
        exact b1.no i hi ⟨j, hj, by rw [hat, hthis]; simp⟩ h3
      · have : i = j := hone i j hi hj hz (by rw [ht]; simp)
        subst this
        rw [ht]
        exact b1.this i hi (by rw [hat, hthis]; simp)
    · rw [b1.others i hi]; exact h1.others i hi

/-- C92: The other way round: an element without attributes that is the last thing inside another and the only one of its name there comes back, after Delete, by setting its content as it was written
(without an indentation; the name as this Set writes it). -/
theorem C92_deleted {o : Ord} (ho : o.IsPerm) (opts : Options) (hi : opts.indent = []) {c : Ctx} {e : El} {m : Bytes} {k : Forest}
    (h : Editable (c.plug ((e.refill e.attrs e.ws (e.kids.append ((⟨spelling opts.caseSensitive m, [], [], some (k, [])⟩ : El).cons .nil))).cons .nil)))
    {p : Bytes} {ps : List Bytes} (hp : PathSteps p (ps ++ [m])) (hn : IsName m) (hl : LeadTo opts.caseSensitive ps c e.name) (hm : e.kids.info.count opts.caseSensitive (.name m) = 0) (hk : k.render.length ≤ 5242880) :
    ∃ r, deleteWithOptions o (c.plug ((e.refill e.attrs e.ws (e.kids.append ((⟨spelling opts.caseSensitive m, [], [], some (k, [])⟩ : El).cons .nil))).cons .nil)).render p (some opts) = .ret (r, none) ∧
      setWithOptions o r p (.raw k.render) (some opts) =
        .ret ((c.plug ((e.refill e.attrs e.ws (e.kids.append ((⟨spelling opts.caseSensitive m, [], [], some (k, [])⟩ : El).cons .nil))).cons .nil)).render, none) := by
  have e2 : c.plug ((e.refill e.attrs e.ws (e.kids.append ((⟨spelling opts.caseSensitive m, [], [], some (k, [])⟩ : El).cons .nil))).cons .nil) =
      (down c e.name e.attrs e.ws [] (.here e.kids .nil)).plug ((⟨spelling opts.caseSensitive m, [], [], some (k, [])⟩ : El).cons .nil) := by
    rw [down_plug]
    simp only [Ctx.plug, append_nil]
    rfl
  have hlead : LeadTo opts.caseSensitive (ps ++ [m]) (down c e.name e.attrs e.ws [] (.here e.kids .nil)) (spelling opts.caseSensitive m) := by
    obtain ⟨hs, ht, hr⟩ := hl
    refine ⟨_, trail_more ht (rest := [m]) (by simpa using hn) rfl, reach_down hr ⟨agrees_spelled _ _, ?_⟩⟩
    exact hm
  have hg := editable_el h
  obtain ⟨q1, q2, q3, -⟩ := el_kids_good hg
  have hkids : (e.refill e.attrs e.ws (e.kids.append ((⟨spelling opts.caseSensitive m, [], [], some (k, [])⟩ : El).cons .nil))).kids =
    e.kids.append ((⟨spelling opts.caseSensitive m, [], [], some (k, [])⟩ : El).cons .nil) := rfl
  rw [hkids] at q1 q2 q3
  have hop : Opened (e.refill e.attrs e.ws (e.kids.append ((⟨spelling opts.caseSensitive m, [], [], some (k, [])⟩ : El).cons .nil))) e.attrs e.ws :=
    ⟨fun _ => ⟨rfl, rfl⟩, fun h => by simp [El.refill] at h⟩
  have hed : Editable (c.plug ((e.refill e.attrs e.ws e.kids).cons .nil)) := by
    have hgood := refill_good hg hop ((append_legal _ _ _).mp q1).1 ((append_tame _ _ _).mp q2).1 ((append_even _ _).mp q3).1
    refine editable_swapEl h (e' := e.refill e.attrs e.ws e.kids) hgood ?_
    have := h.1
    rw [plug_el_render] at this ⊢
    simp only [El.refill, El.start, El.inner, El.stop, append_render, List.length_append, Option.isNone_some, Bool.false_eq_true, if_false] at this ⊢
    omega
  refine ⟨(c.plug ((e.refill e.attrs e.ws e.kids).cons .nil)).render, ?_, ?_⟩
  · rw [e2] at h ⊢
    rw [C79_delete ho opts h hp hlead, down_before, down_after]
    have e3 : c.before ++ (openTag e.name e.attrs e.ws ++ b!">") ++ (Ctx.here e.kids .nil).before ++ ((Ctx.here e.kids .nil).after ++ closeTag e.name [] ++ c.after) =
        (c.plug ((e.refill e.attrs e.ws e.kids).cons .nil)).render := by
      rw [plug_el_render]
      simp [Ctx.before, Ctx.after, Forest.render, El.refill, El.start, El.inner, El.stop]
    rw [e3, if_neg (by rw [← e3]; simp)]
  · have hD : Deepest opts.caseSensitive (ps ++ [m]) ps [m] c (e.refill e.attrs e.ws e.kids) := deepest_of_count (ns := []) hl (by simpa using hn) hm
    obtain ⟨as, ws, g1, g2⟩ := C79_create ho opts hed hp hD (by simpa using isName_negative hn) (slots_isName (xs := [m]) (by simpa using hn)) (by simp)
    obtain ⟨rfl, rfl⟩ := g1.kept (by simp [El.refill])
    rw [g2 (.raw k.render) _ (by simp) rfl hk, plug_el_render]
    simp [slotLines, newLine, hi, El.refill, El.start, El.inner, El.stop, append_render, cons_render, El.render, Forest.render, openTag, closeTag]

/-! ### cases -/

/-- `*.A.1.P.q`, without regard to case, and `*.A.1.p` deleted again. -/
example : ∃ r, setWithOptions exEnv.ord b!"<!--x--><r v='1' ><a k=\"&lt;\">x</a> <a><b>y</b></a><c j=\"1\"/></r>" b!"*.A.1.P.q" (.str b!"v") (some ciOpts) = .ret (r, none) ∧
    (r.length ≤ 10485760 → deleteWithOptions exEnv.ord r b!"*.A.1.P" (some ciOpts) = .ret (b!"<!--x--><r v='1' ><a k=\"&lt;\">x</a> <a><b>y</b></a><c j=\"1\"/></r>", none)) := by
  have := C92_created exEnv_perm ciOpts rfl exEdit (by decide) (p := b!"*.A.1.P.q") (q := b!"*.A.1.P") (ps := [b!"*", b!"A", b!"1"]) (m := b!"P") (ns := [b!"q"])
    (pathSteps_by (by decide) (by decide) (by decide +kernel) (by decide +kernel)) (by decide) (pathSteps_by (by decide) (by decide) (by decide +kernel) (by decide +kernel))
    ⟨_, exDeep_trail, rfl, by decide +kernel, by decide +kernel, by decide +kernel⟩ (by decide +kernel) (v := .str b!"v") (w := b!"v") (by simp) rfl (by decide) (by decide)
  rw [exEdit_render] at this
  exact this

/-- With an indentation the line break remains, here a lone `\n`. -/
example : ∃ r, setWithOptions exEnv.ord b!"<!--x--><r v='1' ><a k=\"&lt;\">x</a> <a><b>y</b></a><c j=\"1\"/></r>" b!"*.A.1.P.q" (.str b!"v") (some inOpts) = .ret (r, none) ∧
    (r.length ≤ 10485760 → deleteWithOptions exEnv.ord r b!"*.A.1.P" (some inOpts) = .ret (b!"<!--x--><r v='1' ><a k=\"&lt;\">x</a> <a><b>y</b>\n</a><c j=\"1\"/></r>", none)) := by
  obtain ⟨as, ws, h1, h2⟩ := C92_created_line exEnv_perm inOpts (by decide) exEdit (p := b!"*.A.1.P.q") (q := b!"*.A.1.P") (ps := [b!"*", b!"A", b!"1"]) (m := b!"P") (ns := [b!"q"])
    (pathSteps_by (by decide) (by decide) (by decide +kernel) (by decide +kernel)) (by decide) (pathSteps_by (by decide) (by decide) (by decide +kernel) (by decide +kernel))
    ⟨_, exDeep_trail, rfl, by decide +kernel, by decide +kernel, by decide +kernel⟩ (by decide +kernel)
  obtain ⟨rfl, rfl⟩ := h1.1 (by simp [exEl])
  have := h2 (.str b!"v") b!"v" (by simp) rfl (by decide) (by decide)
  rw [exEdit_render] at this
  exact this

/-- Setting the content back as it was written. -/
example : ∃ r, setWithOptions exEnv.ord b!"<!--x--><r v='1' ><a k=\"&lt;\">x</a> <a><b>y</b></a><c j=\"1\"/></r>" b!"*.A.1" (.str b!"v") (some inOpts) = .ret (r, none) ∧
    (r.length ≤ 10485760 → setWithOptions exEnv.ord r b!"*.A.1" (.raw b!"<b>y</b>") (some inOpts) = .ret (b!"<!--x--><r v='1' ><a k=\"&lt;\">x</a> <a><b>y</b></a><c j=\"1\"/></r>", none)) := by
  have := (C92_set_back exEnv_perm inOpts exEdit (by decide) (p := b!"*.A.1") (ss := [b!"*", b!"A", b!"1"]) (pathSteps_by (by decide) (by decide) (by decide +kernel) (by decide +kernel))
    ⟨_, exDeep_trail, rfl, by decide +kernel, by decide +kernel, by decide +kernel⟩ (by decide +kernel)).2 (.str b!"v") b!"v" (by simp) rfl (by decide) (by decide)
  rw [exEdit_render] at this
  exact this

/-- A new attribute, and Delete. -/
example : ∃ r, setWithOptions exEnv.ord b!"<!--x--><r v='1' ><a k=\"&lt;\">x</a> <a><b>y</b></a><c j=\"1\"/></r>" b!"*.A.1.@K" (.str b!"v") (some ciOpts) = .ret (r, none) ∧
    (r.length ≤ 10485760 → deleteWithOptions exEnv.ord r b!"*.A.1.@K" (some ciOpts) = .ret (b!"<!--x--><r v='1' ><a k=\"&lt;\">x</a> <a><b>y</b></a><c j=\"1\"/></r>", none)) := by
  obtain ⟨r, h1, h2⟩ := C92_attribute exEnv_perm ciOpts exEdit (p := b!"*.A.1.@K") (qs := [b!"*", b!"A", b!"1"]) (k := b!"K") (isName_of (by decide) (by decide))
    (pathSteps_by (by decide) (by decide) (by decide +kernel) (by decide +kernel)) ⟨_, exDeep_trail, rfl, by decide +kernel, by decide +kernel, by decide +kernel⟩
    (by simp [Neat, exEl]) rfl (by simp [exEl]) (fun i j _ _ h => absurd rfl h) (.inr (by decide)) (v := .str b!"v") (s := b!"v") (by simp) rfl (by decide)
  rw [exEdit_render] at h1 h2
  exact ⟨r, h1, fun hsz => (h2 hsz).1 fun j _ => rfl⟩

/-- C92: Further cases: an attribute set back where the start tag is in the layout; an element deleted and set back; and what does not come back: a self-closing tag, the spelling of a name, a line break. -/
theorem C92_witness :
    setWithOptions exEnv.ord b!"<r><a K=\"2\" j=\"1\"/></r>" b!"*.A.@k" (.str b!"3") (some ciOpts) = .ret (b!"<r><a K=\"3\" j=\"1\"/></r>", none) ∧
    setWithOptions exEnv.ord b!"<r><a K=\"3\" j=\"1\"/></r>" b!"*.A.@k" (.str b!"2") (some ciOpts) = .ret (b!"<r><a K=\"2\" j=\"1\"/></r>", none) ∧
    deleteWithOptions exEnv.ord b!"<r><x/><a>1<b/></a></r>" b!"*.a" (some ciOpts) = .ret (b!"<r><x/></r>", none) ∧
    setWithOptions exEnv.ord b!"<r><x/></r>" b!"*.a" (.raw b!"1<b/>") (some ciOpts) = .ret (b!"<r><x/><a>1<b/></a></r>", none) ∧
    deleteWithOptions exEnv.ord b!"<r><x/><A>1</A></r>" b!"*.A" (some ciOpts) = .ret (b!"<r><x/></r>", none) ∧
    setWithOptions exEnv.ord b!"<r><x/></r>" b!"*.A" (.raw b!"1") (some ciOpts) = .ret (b!"<r><x/><a>1</a></r>", none) ∧
    setWithOptions exEnv.ord b!"<r><x/></r>" b!"*.x.b" (.str b!"1") (some ciOpts) = .ret (b!"<r><x><b>1</b></x></r>", none) ∧
    deleteWithOptions exEnv.ord b!"<r><x><b>1</b></x></r>" b!"*.x.b" (some ciOpts) = .ret (b!"<r><x></x></r>", none) ∧
    setWithOptions exEnv.ord b!"<r/>" b!"b" (.str b!"1") (some inOpts) = .ret (b!"<r/>\n<b>1</b>", none) ∧
    deleteWithOptions exEnv.ord b!"<r/>\n<b>1</b>" b!"b" (some inOpts) = .ret (b!"<r/>\n", none) := by
  refine ⟨?_, ?_, ?_, ?_, ?_, ?_, ?_, ?_, ?_, ?_⟩ <;> decide +kernel

end Verif.Props
