import Verif.Props.AppendAny
/- Attributes of elements that have to be created first, at any path: C79 and C89. -/
namespace Verif
open Spec Props

/-- An element exchanged for one whose attributes, and those of what is in it, differ in more than case. -/
theorem swap_caseUnique {c : Ctx} {e x : El} (h : (c.plug (e.cons .nil)).info.CaseUnique) (hx : (e.cons .nil).info.CaseUnique → (x.cons .nil).info.CaseUnique) : (c.plug (x.cons .nil)).info.CaseUnique := by
  induction c with
  | here b a =>
    simp only [Ctx.plug, append_caseUnique] at h ⊢
    exact ⟨h.1, hx h.2.1, h.2.2⟩
  | within b n as' ws' c cws' a ih =>
    simp only [Ctx.plug, append_caseUnique, Forest.info, Info.CaseUnique] at h ⊢
    exact ⟨h.1, h.2.1, ih h.2.2.1, h.2.2.2⟩

theorem chainF_caseUnique (ind : Bytes) (d : Nat) (ns : List Bytes) (w : Bytes) : (chainF ind d ns (.text w .nil)).info.CaseUnique := by
  induction ns generalizing d with
  | nil => exact trivial
  | cons n ns ih => exact ⟨by intro x y v w hx; simp [Spec.attrVal] at hx, ih _, trivial⟩

theorem el_caseUnique (e : El) : (e.cons .nil).info.CaseUnique ↔ CU (Spec.attrVal e.attrs) ∧ e.kids.info.CaseUnique := by
  obtain ⟨nm, as, ws, bd⟩ := e
  cases bd <;> simp [El.cons, Forest.info, Info.CaseUnique, El.kids, CU]

theorem nowhere_more {cs : Bool} {f : Forest} {rest : List Bytes} : ∀ {ps : List Bytes}, ps ≠ [] → LeadNowhere cs ps f → (∀ x ∈ rest, IsName x) → LeadNowhere cs (ps ++ rest) f := by
  induction rest with
  | nil => intro ps _ h _; rwa [List.append_nil]
  | cons x rest ih =>
    intro ps h0 h hn
    have := ih (ps := ps ++ [x]) (by simp) (nowhere_snoc h0 h (isName_step (hn x (by simp))).1) fun y hy => hn y (by simp [hy])
    simpa using this

theorem opened_attrs {e : El} {as : List Attr} {ws : Bytes} (h : Opened e as ws) : Spec.attrVal as = Spec.attrVal e.attrs := by
  by_cases hb : e.body = none
  · exact (h.anew hb).2.2.1
  · rw [(h.kept hb).1]

end Verif

namespace Verif.Props
open Verif Spec

/-- C79: If the steps before an attribute lead nowhere, Set writes the element for them first, empty, as Set with the empty string does, and then the attribute. If the document with the empty element is
too large, it reports an error and changes nothing. -/
theorem C79_attribute_missing {o : Ord} (ho : o.IsPerm) (opts : Options) {f : Forest} (h : Editable f) {qs : List Bytes} {x p q : Bytes} (hp : PathSteps p (qs ++ [x])) (hq : PathSteps q qs) (hx : AttrStep x)
    (hno : LeadNowhere opts.caseSensitive qs f) {c : Ctx} {e : El} (hset : setWithOptions o f.render q (.str []) (some opts) = .ret ((c.plug (e.cons .nil)).render, none))
    (hl : LeadTo opts.caseSensitive qs c e.name) (hed : (c.plug (e.cons .nil)).render.length ≤ 10485760 → Editable (c.plug (e.cons .nil)))
    {v : GoVal} {w : Bytes} (hv0 : v ≠ .nil) (hv : valueToXML v = some w) (hw : w.length ≤ 5242880) :
    setWithOptions o f.render p v (some opts) =
      if (c.plug (e.cons .nil)).render.length ≤ 10485760 then setWithOptions o (c.plug (e.cons .nil)).render p v (some opts) else .ret (f.render, some .malformed) := by
  have hd := docMax
  have hv2 := valMax
  have hsnd := editable_sound h
  have hne := leadTo_full hl
  obtain ⟨segs, h1, h2⟩ := parseOpt_reads hp (by simp) opts.caseSensitive
  obtain ⟨segs', h3, h4⟩ := parseOpt_reads hq hne opts.caseSensitive
  obtain ⟨hs, ht, hr⟩ := hl
  obtain ⟨sa, rs, k1, k2, rfl, k3, k4⟩ := trail_split (cs := opts.caseSensitive) ht h2
  cases k2 with | @cons _ t _ rs k2 k5 =>
  cases k5
  have := all2_isSeg_one h4 k1
  subst this
  have hk := isSeg_attr (cs := opts.caseSensitive) k2 hx
  simp only [fuseFields, List.map_cons, List.map_nil] at k4
  rw [k4] at h1
  have hnone := nowhere_none ho (sound_says hsnd) hne hno k1
  have hfs : fuseFields segs' = segs' := by
    have := fuse_left segs' [] (trail_count ht (by simp) k1)
    simpa [fuseFields] using this
  rw [hfs] at h3 hnone
  have hpl := hopSegs_plainly k3 (reach_ne hr)
  revert h1 h3 hnone hpl k3
  generalize hS : segs'.map (lowIf opts.caseSensitive) = ss
  generalize hT : lowIf opts.caseSensitive t = tt at hk
  intro h3 k3 h1 hnone hpl
  have hin0 : indexIntent ss = none := by have := hpl.intent []; rwa [List.append_nil] at this
  have hin : indexIntent (ss ++ [tt]) = none := by rw [hpl.intent]; simp [indexIntent, hk]
  have hcr : setElement o opts.caseSensitive opts.indent f.render ss (.str []) = createElement o opts.caseSensitive opts.indent f.render ss [] := by
    unfold setElement
    cases hz : ss.getLast? with
    | none => exact absurd (List.getLast?_eq_none_iff.mp hz) hpl.ne
    | some z =>
      simp only [valueToXML, escapeXML, hin0]
      rw [if_neg (by simp), if_neg (by have := h.1; omega), hnone]
      cases hkz : z.kind with
      | attr a => exact absurd hkz (hpl.last z a hz)
      | _ => rfl
  rw [set_parsed (sound_valid hsnd) (by simp) h3 hpl.ne, hcr] at hset
  have he : setElement o opts.caseSensitive opts.indent f.render (ss ++ [tt]) v = createElementForAttribute o opts.caseSensitive opts.indent f.render ss (spelling opts.caseSensitive ((beforeBar x).drop 1)) w := by
    unfold setElement
    rw [List.getLast?_concat]
    simp only [hv, hin, hk, List.dropLast_concat, hnone]
    rw [if_neg (by omega), if_neg (by have := h.1; omega)]
  rw [set_parsed (sound_valid hsnd) hv0 h1 (by simp), he]
  unfold createElementForAttribute
  cases hc : createElement o opts.caseSensitive opts.indent f.render ss [] with
  | panic => rw [hc] at hset; simp [finish] at hset
  | err er => rw [hc] at hset; simp [finish] at hset
  | ok r =>
    rw [hc] at hset
    simp only [finish, Outcome.ret.injEq, Prod.mk.injEq, and_true] at hset
    simp only [hset]
    by_cases hsz : (c.plug (e.cons .nil)).render.length ≤ 10485760
    · have hed := hed hsz
      obtain ⟨l, hl2, hok⟩ := leadTo_found ho hed k3 hr
      have he2 : setElement o opts.caseSensitive opts.indent (c.plug (e.cons .nil)).render (ss ++ [tt]) v =
          replaceAttribute opts.caseSensitive (c.plug (e.cons .nil)).render l (spelling opts.caseSensitive ((beforeBar x).drop 1)) w := by
        unfold setElement
        rw [List.getLast?_concat]
        simp only [hv, hin, hk, List.dropLast_concat, hl2]
        rw [if_neg (by omega), if_neg (by omega)]
      rw [if_neg (by omega), if_pos hsz, hl2, set_parsed (sound_valid (editable_sound hed)) hv0 h1 (by simp), he2]
      simp only
      unfold replaceAttribute
      rw [plug_el_render]
      have e1 : ∀ z, c.before ++ e.start ++ e.inner ++ e.stop ++ z = c.before ++ e.start ++ (e.inner ++ e.stop ++ z) := by simp
      rw [e1, splice_at hok.start hok.cstart, finish_ok (by simp), finish_ok (by simp)]
    · rw [if_pos (by omega), if_neg hsz]
      rfl

/-- Where Set with a text without markup creates elements for the names at the end of the path: the new place, where the same path leads. -/
theorem created_place {o : Ord} (ho : o.IsPerm) (opts : Options) (hi : c!"<" ∉ opts.indent) {c : Ctx} {e : El} (h : Editable (c.plug (e.cons .nil))) {p : Bytes} {ss ps rest : List Bytes} (hp : PathSteps p ss)
    (hd : Deepest opts.caseSensitive ss ps rest c e) (hn : ∀ x ∈ rest, IsName x) (hdep : c.depth + 1 + rest.length ≤ 100) :
    ∃ (c' : Ctx) (e' : El), setWithOptions o (c.plug (e.cons .nil)).render p (.str []) (some opts) = .ret ((c'.plug (e'.cons .nil)).render, none) ∧
      ((c'.plug (e'.cons .nil)).render.length ≤ 10485760 → Editable (c'.plug (e'.cons .nil))) ∧ LeadTo opts.caseSensitive ss c' e'.name ∧ e'.attrs = [] ∧ e'.body ≠ none ∧
      ((c.plug (e.cons .nil)).info.CaseUnique → (c'.plug (e'.cons .nil)).info.CaseUnique) := by
  obtain ⟨ns, n, rfl⟩ : ∃ ns n, rest = ns ++ [n] := ⟨rest.dropLast, rest.getLast hd.more, (List.dropLast_concat_getLast _).symm⟩
  obtain ⟨as, ws, ho1, ho2⟩ := C79_create ho opts h hp hd (fun x hx => isName_negative (hn x hx)) (slots_isName hn) (by simp)
  have hset := ho2 (.str []) [] (by simp) rfl (by decide)
  have hcnt : e.kids.info.count opts.caseSensitive (.name ((ns ++ [n]).head (by simp))) = 0 := by
    obtain ⟨y, r', hr'⟩ : ∃ y r', ns ++ [n] = y :: r' := by cases ns <;> exact ⟨_, _, rfl⟩
    simp only [hr', List.head_cons]
    have hs := hd.split
    subst hs
    rw [hr'] at hd
    exact deepest_count hd (hn y (by simp [hr']))
  have hns : (ns ++ [n]).map (spelling opts.caseSensitive) = ns.map (spelling opts.caseSensitive) ++ [spelling opts.caseSensitive n] := by simp
  have hrend : (chainF opts.indent 0 ((ns ++ [n]).map (spelling opts.caseSensitive)) (.text [] .nil)).render =
      slotLines opts.indent 0 ((ns ++ [n]).map fun m => some (spelling opts.caseSensitive m)) [] := by
    rw [chainF_render, ← slotLines_names, List.map_map]; simp [Function.comp_def]
  have hx : c.before ++ (e.refill as ws (e.kids.append (chainF opts.indent 0 ((ns ++ [n]).map (spelling opts.caseSensitive)) (.text [] .nil)))).render ++ c.after =
      c.before ++ (openTag e.name as ws ++ b!">" ++ e.inner ++ slotLines opts.indent 0 ((ns ++ [n]).map fun m => some (spelling opts.caseSensitive m)) [] ++ closeTag e.name []) ++ c.after := by
    rw [← hrend]
    obtain ⟨nm, eas, ews, bd⟩ := e
    cases bd <;> simp [El.refill, El.render, El.start, El.inner, El.stop, El.kids, append_render, Forest.render]
  rw [← hx] at hset
  have e1 : (down c e.name as ws [] (chainFCtx opts.indent 0 e.kids ((ns ++ [n]).map (spelling opts.caseSensitive)))).plug
      ((⟨spelling opts.caseSensitive n, [], [], some (.text [] .nil, [])⟩ : El).cons .nil) =
      c.plug ((e.refill as ws (e.kids.append (chainF opts.indent 0 ((ns ++ [n]).map (spelling opts.caseSensitive)) (.text [] .nil)))).cons .nil) := by
    rw [down_plug, hns, chainFCtx_plug]; rfl
  have e2 : c.before ++ (e.refill as ws (e.kids.append (chainF opts.indent 0 ((ns ++ [n]).map (spelling opts.caseSensitive)) (.text [] .nil)))).render ++ c.after =
      (c.plug ((e.refill as ws (e.kids.append (chainF opts.indent 0 ((ns ++ [n]).map (spelling opts.caseSensitive)) (.text [] .nil)))).cons .nil)).render := by
    rw [plug_el_render]; simp [El.render]
  rw [e2, ← e1] at hset
  obtain ⟨hs, ht, hr⟩ := hd.leads
  refine ⟨_, _, hset, fun hsz => ?_, ⟨_, by rw [hd.split]; exact trail_more ht hn rfl, reach_down hr (chainFCtx_reach opts.caseSensitive opts.indent 0 hcnt)⟩, rfl, by simp, fun hu => ?_⟩
  · rw [e1] at hsz ⊢
    exact editable_createdB hi h (ns := (ns ++ [n]).map (spelling opts.caseSensitive)) (by simp) (fun m hm => by
      obtain ⟨m', h1, rfl⟩ := List.mem_map.mp hm; exact spelling_name (hn m' h1)) (by simpa using hdep) (w := []) (by simp) ho1 (by rw [e2]; exact hsz)
  · rw [e1]
    refine swap_caseUnique hu fun hc => ?_
    rw [el_caseUnique] at hc ⊢
    refine ⟨by show CU (Spec.attrVal as); rw [opened_attrs ho1]; exact hc.1, ?_⟩
    exact (append_caseUnique _ _).mpr ⟨hc.2, chainF_caseUnique _ _ _ _⟩

/-- The same where no root element has the first name. -/
theorem created_top {o : Ord} (ho : o.IsPerm) (opts : Options) (hi : c!"<" ∉ opts.indent) {f : Forest} (h : Editable f) {p : Bytes} {x : Bytes} {rest : List Bytes} (hp : PathSteps p (x :: rest))
    (hno : LeadNowhere opts.caseSensitive [x] f) (hn : ∀ y ∈ x :: rest, IsName y) (hdep : (x :: rest).length ≤ 100) :
    ∃ (c' : Ctx) (e' : El), setWithOptions o f.render p (.str []) (some opts) = .ret ((c'.plug (e'.cons .nil)).render, none) ∧
      ((c'.plug (e'.cons .nil)).render.length ≤ 10485760 → Editable (c'.plug (e'.cons .nil))) ∧ LeadTo opts.caseSensitive (x :: rest) c' e'.name ∧ e'.attrs = [] ∧ e'.body ≠ none ∧
      (f.info.CaseUnique → (c'.plug (e'.cons .nil)).info.CaseUnique) := by
  have hslot := slots_isName (cs := opts.caseSensitive) hn
  have hset := C79_create_top ho opts (editable_sound h) hp (isName_step (hn x (by simp))).1 hno (fun y hy => isName_negative (hn y hy)) hslot (by
    rw [List.getLast?_map]; cases (x :: rest).getLast? <;> simp) (v := .str []) (w := []) (by simp) rfl (by decide)
  obtain ⟨ns, n, hr⟩ : ∃ ns n, x :: rest = ns ++ [n] := ⟨(x :: rest).dropLast, (x :: rest).getLast (by simp), (List.dropLast_concat_getLast _).symm⟩
  have hcnt : f.info.count opts.caseSensitive (.name ((ns ++ [n]).head (by simp))) = 0 := by
    simp only [← hr, List.head_cons]
    cases hsp : f.info.spot opts.caseSensitive [(.name x, 0)] with
    | none => simpa [Info.spot, Info.count] using hsp
    | some nd =>
      obtain ⟨c2, e2, g1, g2, -⟩ := spot_reach hsp
      exact absurd ⟨_, trail_names (rest := [x]) (by simpa using hn x (by simp)), g2⟩ (hno c2 e2 g1)
  have hns : (ns ++ [n]).map (spelling opts.caseSensitive) = ns.map (spelling opts.caseSensitive) ++ [spelling opts.caseSensitive n] := by simp
  have hrend : (chainF opts.indent 0 ((ns ++ [n]).map (spelling opts.caseSensitive)) (.text [] .nil)).render =
      slotLines opts.indent 0 ((x :: rest).map fun m => some (spelling opts.caseSensitive m)) [] := by
    rw [chainF_render, ← slotLines_names, List.map_map, hr]; simp [Function.comp_def]
  have e1 : (chainFCtx opts.indent 0 f ((ns ++ [n]).map (spelling opts.caseSensitive))).plug ((⟨spelling opts.caseSensitive n, [], [], some (.text [] .nil, [])⟩ : El).cons .nil) =
      f.append (chainF opts.indent 0 ((ns ++ [n]).map (spelling opts.caseSensitive)) (.text [] .nil)) := by
    rw [hns, chainFCtx_plug]
  rw [← hrend, ← append_render, ← e1] at hset
  refine ⟨_, _, hset, fun hsz => ?_, ⟨_, trail_names hn, by rw [hr]; exact chainFCtx_reach opts.caseSensitive opts.indent 0 hcnt⟩, rfl, by simp, fun hu => ?_⟩
  · rw [e1] at hsz ⊢
    exact editable_newRootB hi h (ns := (ns ++ [n]).map (spelling opts.caseSensitive)) (by simp) (fun m hm => by
      obtain ⟨m', h1, rfl⟩ := List.mem_map.mp hm; exact spelling_name (hn m' (hr ▸ h1))) (by rw [List.length_map, ← hr]; exact hdep) (w := []) (by simp) (by rw [← append_render]; exact hsz)
  · rw [e1]
    exact (append_caseUnique _ _).mpr ⟨hu, chainF_caseUnique _ _ _ _⟩

/-- C89: The first result after Set of an attribute of an element that is created, with others for the names at the end of the path, is the attribute with the value. (Set fails if the document with the
empty elements is too large.) -/
theorem C89_attribute_create (env : Env) (ho : env.ord.IsPerm) (opts : Options) (hi : c!"<" ∉ opts.indent) {c : Ctx} {e : El} (h : Editable (c.plug (e.cons .nil))) {p q : Bytes} {ss ps rest : List Bytes} {k : Bytes}
    (hk : IsName k) (hp : PathSteps p (ss ++ [c!"@" :: k])) (hq : PathSteps q ss) (hbar : c!"|" ∉ p) (ha : Ahead ss) (hd : Deepest opts.caseSensitive ss ps rest c e) (hn : ∀ x ∈ rest, IsName x)
    (hdep : c.depth + 1 + rest.length ≤ 100) (hu : opts.caseSensitive = false → (c.plug (e.cons .nil)).info.CaseUnique)
    {v : GoVal} {s : Bytes} (hv0 : v ≠ .nil) (hv : valueToXML v = some (escapeXML s)) (hw : (escapeXML s).length ≤ 1048576) :
    ∃ x er, setWithOptions env.ord (c.plug (e.cons .nil)).render p v (some opts) = .ret (x, er) ∧
      (er = none → x.length ≤ 10485760 → ∃ a, getWithOptions env x p (some opts) = .ret a ∧ a.array.head? = some (.ofAttr s)) ∧
      (er ≠ none → x = (c.plug (e.cons .nil)).render ∧ ∃ y, setWithOptions env.ord (c.plug (e.cons .nil)).render q (.str []) (some opts) = .ret (y, none) ∧ 10485760 < y.length) := by
  obtain ⟨c', e', g1, g2, g3, g4, -, g6⟩ := created_place ho opts hi h hq hd hn hdep
  have hno : LeadNowhere opts.caseSensitive ss (c.plug (e.cons .nil)) := hd.longest ss [] (by simp) (by
    rw [hd.split, List.length_append]; have := List.length_pos_iff.mpr hd.more; omega)
  rw [C79_attribute_missing ho opts h hp hq ⟨k, rfl⟩ hno g1 g3 g2 hv0 hv (by omega)]
  by_cases hsz : (c'.plug (e'.cons .nil)).render.length ≤ 10485760
  · rw [if_pos hsz]
    obtain ⟨x, k1, k2⟩ := C89_attribute env ho opts (g2 hsz) hk hp hbar ha g3 (fun hc => g6 (hu hc)) (.inr (by rw [g4]; decide)) hv0 hv hw
    exact ⟨x, none, k1, fun _ hx => k2 hx, fun hh => absurd rfl hh⟩
  · rw [if_neg hsz]
    exact ⟨_, _, rfl, by simp, fun _ => ⟨rfl, _, g1, by omega⟩⟩

/-- C89: the same where no root element has the first name of the path. -/
theorem C89_attribute_top (env : Env) (ho : env.ord.IsPerm) (opts : Options) (hi : c!"<" ∉ opts.indent) {f : Forest} (h : Editable f) {p q : Bytes} {x : Bytes} {rest : List Bytes} {k : Bytes}
    (hk : IsName k) (hp : PathSteps p (x :: rest ++ [c!"@" :: k])) (hq : PathSteps q (x :: rest)) (hbar : c!"|" ∉ p) (hno : LeadNowhere opts.caseSensitive [x] f) (hn : ∀ y ∈ x :: rest, IsName y)
    (hdep : (x :: rest).length ≤ 100) (hu : opts.caseSensitive = false → f.info.CaseUnique)
    {v : GoVal} {s : Bytes} (hv0 : v ≠ .nil) (hv : valueToXML v = some (escapeXML s)) (hw : (escapeXML s).length ≤ 1048576) :
    ∃ d er, setWithOptions env.ord f.render p v (some opts) = .ret (d, er) ∧
      (er = none → d.length ≤ 10485760 → ∃ a, getWithOptions env d p (some opts) = .ret a ∧ a.array.head? = some (.ofAttr s)) ∧
      (er ≠ none → d = f.render ∧ ∃ y, setWithOptions env.ord f.render q (.str []) (some opts) = .ret (y, none) ∧ 10485760 < y.length) := by
  obtain ⟨c', e', g1, g2, g3, g4, -, g6⟩ := created_top ho opts hi h hq hno hn hdep
  have hno2 : LeadNowhere opts.caseSensitive (x :: rest) f := nowhere_more (by simp) hno fun y hy => hn y (by simp [hy])
  rw [C79_attribute_missing ho opts h hp hq ⟨k, rfl⟩ hno2 g1 g3 g2 hv0 hv (by omega)]
  by_cases hsz : (c'.plug (e'.cons .nil)).render.length ≤ 10485760
  · rw [if_pos hsz]
    obtain ⟨x, k1, k2⟩ := C89_attribute env ho opts (g2 hsz) hk hp hbar (ahead_names hn) g3 (fun hc => g6 (hu hc)) (.inr (by rw [g4]; decide)) hv0 hv hw
    exact ⟨x, none, k1, fun _ hx => k2 hx, fun hh => absurd rfl hh⟩
  · rw [if_neg hsz]
    exact ⟨_, _, rfl, by simp, fun _ => ⟨rfl, _, g1, by omega⟩⟩

/-- C89: without an error, for one order of the attributes. -/
theorem C89_attribute_create_witness :
    setWithOptions exEnv.ord b!"<!--x--><r v='1' ><a k=\"&lt;\">x</a> <a><b>y</b></a><c j=\"1\"/></r>" b!"*.a.1.p.q.@K" (.str b!"<") (some inOpts) =
      .ret (b!"<!--x--><r v='1' ><a k=\"&lt;\">x</a> <a><b>y</b>\n<p>\n  <q k=\"&lt;\"></q></p></a><c j=\"1\"/></r>", none) ∧
    setWithOptions exEnv.ord b!"<r><a/></r>" b!"x.y.@k" (.int 7) (some defaultOptions) = .ret (b!"<r><a/></r><x><y k=\"7\"></y></x>", none) := by
  refine ⟨?_, ?_⟩ <;> decide +kernel

/-- `x.y.@k` in `<r><a/></r>` -/
example (env : Env) (ho : env.ord.IsPerm) : ∃ d er, setWithOptions env.ord b!"<r><a/></r>" b!"x.y.@k" (.str b!"<") (some defaultOptions) = .ret (d, er) ∧
    (er = none → d.length ≤ 10485760 → ∃ a, getWithOptions env d b!"x.y.@k" (some defaultOptions) = .ret a ∧ a.array.head? = some (.ofAttr b!"<")) := by
  obtain ⟨d, er, h1, h2, -⟩ := C89_attribute_top env ho defaultOptions (by decide) (f := .node b!"r" [] [] (.leaf b!"a" [] [] .nil) [] .nil) (editable_of (by decide +kernel)) (x := b!"x") (rest := [b!"y"]) (p := b!"x.y.@k") (q := b!"x.y")
    (k := b!"k") (isName_of (by decide) (by decide)) (pathSteps_by (by decide) (by decide) (by decide +kernel) (by decide +kernel)) (pathSteps_by (by decide) (by decide) (by decide +kernel) (by decide +kernel)) (by decide)
    (nowhere_spot (hs := [(.name b!"x", 0)]) (.first (t := some []) (.name (name_step (by decide))) (by simp) .nil) (by decide +kernel))
    (by intro x hx; simp at hx; rcases hx with rfl | rfl <;> exact isName_of (by decide) (by decide)) (by decide) (fun h => by cases h) (v := .str b!"<") (s := b!"<") (by simp) rfl (by decide +kernel)
  exact ⟨d, er, h1, h2⟩

/-- `*.a.1.p.q.@K`, on lines and without regard to case. -/
example (env : Env) (ho : env.ord.IsPerm) : ∃ x er, setWithOptions env.ord b!"<!--x--><r v='1' ><a k=\"&lt;\">x</a> <a><b>y</b></a><c j=\"1\"/></r>" b!"*.a.1.p.q.@K" (.str b!"<") (some inOpts) = .ret (x, er) ∧
    (er = none → x.length ≤ 10485760 → ∃ a, getWithOptions env x b!"*.a.1.p.q.@K" (some inOpts) = .ret a ∧ a.array.head? = some (.ofAttr b!"<")) ∧
    (er ≠ none → x = b!"<!--x--><r v='1' ><a k=\"&lt;\">x</a> <a><b>y</b></a><c j=\"1\"/></r>" ∧ ∃ y, setWithOptions env.ord b!"<!--x--><r v='1' ><a k=\"&lt;\">x</a> <a><b>y</b></a><c j=\"1\"/></r>" b!"*.a.1.p.q" (.str []) (some inOpts) = .ret (y, none) ∧ 10485760 < y.length) := by
  have hn : ∀ x ∈ [b!"p", b!"q"], IsName x := by intro x hx; simp at hx; rcases hx with rfl | rfl <;> exact isName_of (by decide) (by decide)
  have ht : ∀ rest : List Bytes, (∀ x ∈ rest, IsName x) → Trail (exStar ++ rest) (some ([(.any, 0), (.name b!"a", 1)] ++ rest.map fun n => (Pick.name n, 0))) := fun rest hr => trail_more exStar_trail hr rfl
  have hdeep : Deepest inOpts.caseSensitive (exStar ++ [b!"p", b!"q"]) exStar [b!"p", b!"q"] exCtx exEl := by
    refine ⟨rfl, by simp, ⟨_, exStar_trail, rfl, by decide +kernel, by decide +kernel, by decide +kernel⟩, ?_⟩
    intro qs rest h1 h2
    have h3 := congrArg List.length h1
    simp only [exStar, List.cons_append, List.nil_append, List.length_cons, List.length_nil, List.length_append] at h2 h3
    have h4 : qs = exStar ++ [b!"p"] ∨ qs = exStar ++ [b!"p", b!"q"] := by
      have h5 : qs = (exStar ++ [b!"p", b!"q"]).take qs.length := by rw [h1, List.take_left]
      have h6 : qs.length = 4 ∨ qs.length = 5 := by omega
      rcases h6 with h6 | h6 <;> rw [h6] at h5
      · exact .inl h5
      · exact .inr h5
    rcases h4 with rfl | rfl
    · exact nowhere_spot (ht [b!"p"] (by intro x hx; exact hn x (by simp at hx; simp [hx]))) (by decide +kernel)
    · exact nowhere_spot (ht _ hn) (by decide +kernel)
  have h := C89_attribute_create env ho inOpts (by decide) exEdit (k := b!"K") (isName_of (by decide) (by decide)) (p := b!"*.a.1.p.q.@K") (q := b!"*.a.1.p.q") (ss := exStar ++ [b!"p", b!"q"])
    (pathSteps_by (by decide) (by decide) (by decide +kernel) (by decide +kernel)) (pathSteps_by (by decide) (by decide) (by decide +kernel) (by decide +kernel)) (by decide)
    (ahead_more exStar_ahead (by decide) hn) hdeep hn (by decide) (fun _ => exCase) (v := .str b!"<") (s := b!"<") (by simp) rfl (by decide +kernel)
  rw [exEdit_render] at h
  exact h

end Verif.Props
