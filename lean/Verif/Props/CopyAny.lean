import Verif.Props.FirstAttr
import Verif.Props.Copy
/- Well-formed content written with Set at any path and with any options, and copies made that way: C44 and C67. -/
namespace Verif.Props
open Spec

theorem chainF_same {x y : Forest} (h : x.render = y.render) (indent : Bytes) (d : Nat) (ns : List Bytes) : (chainF indent d ns x).render = (chainF indent d ns y).render := by
  induction ns generalizing d with
  | nil => exact h
  | cons n ns ih => simp [chainF, Forest.render, ih]

/-- C44: SetRaw accepts all such content and is then SetWithOptions with it. -/
theorem C44_any_raw (o : Ord) (xml p : Bytes) (g : Forest) (d : Nat) (hg : g.Legal d) (hgt : g.Tame false) (hgn : g.Neat) (hge : g.NoEntity) :
    setRaw o xml p g.render = setWithOptions o xml p (.raw g.render) (some defaultOptions) := by
  rw [setRaw, if_pos (C44_wellformed g _ hg (neat_rawPlain hg hgt hgn hge))]; rfl

/-- C44: content written into the element that any path leads to, with any options, is there afterwards, and is the first thing that Get finds with them if the path is one of C89 (`Ahead`). -/
theorem C44_any_set (env : Env) (ho : env.ord.IsPerm) (opts : Options) {c : Ctx} {e : El} (h : Editable (c.plug (e.cons .nil))) (hb : e.body ≠ none) {p : Bytes} {ss : List Bytes} (hp : PathSteps p ss)
    (hl : LeadTo opts.caseSensitive ss c e.name) (g : Forest) (hg : g.Legal (c.depth + 1)) (hgt : g.Tame false) (hgn : g.Neat) (hw : g.render.length ≤ 5242880) :
    ∃ y, y = c.plug ((e.refill e.attrs e.ws g).cons .nil) ∧
      setWithOptions env.ord (c.plug (e.cons .nil)).render p (.raw g.render) (some opts) = .ret (y.render, none) ∧ y.render = c.before ++ e.start ++ g.render ++ e.stop ++ c.after ∧
      (y.render.length ≤ 10485760 → Editable y ∧ valid y.render = true ∧
        (c!"|" ∉ p → Ahead ss → ∃ a r, getWithOptions env y.render p (some opts) = .ret a ∧ a.array.head? = some r ∧ IsElement r ⟨e.name, Spec.attrVal e.attrs, g.info⟩)) := by
  have hgood := editable_el h
  have h1 := C79_set ho opts h hp hl (v := .raw g.render) (w := g.render) (by simp) rfl hw
  have h2 : (c.plug ((e.refill e.attrs e.ws g).cons .nil)).render = c.before ++ e.start ++ g.render ++ e.stop ++ c.after := by
    rw [plug_el_render]
    obtain ⟨nm, as, ws, body⟩ := e
    rcases body with _ | ⟨k0, cws⟩
    · exact absurd rfl hb
    · have : cws = [] := hgood.stable.1
      subst this
      simp [El.refill, El.start, El.inner, El.stop]
  refine ⟨_, rfl, by rw [h1, h2], h2, fun hsz => ?_⟩
  have he := editable_swapEl h (refill_good hgood (opened_kept hb) hg hgt (neatF_even hgn)) hsz
  refine ⟨he, editable_valid he, fun hbar ha => ?_⟩
  obtain ⟨a, r, g1, g2, g3⟩ := C89_place env ho opts (e := e.refill e.attrs e.ws g) (editable_sound he) hp hbar ha hl
  exact ⟨a, r, g1, g2, g3⟩

/-- C44: the same where elements are created for the names at the end of the path. -/
theorem C44_any_create (env : Env) (ho : env.ord.IsPerm) (opts : Options) (hi : c!"<" ∉ opts.indent) {c : Ctx} {e : El} (h : Editable (c.plug (e.cons .nil))) {p : Bytes} {ss ps rest : List Bytes}
    (hp : PathSteps p ss) (hd : Deepest opts.caseSensitive ss ps rest c e) (hn : ∀ x ∈ rest, IsName x) (hdep : c.depth + 1 + rest.length ≤ 100)
    (g : Forest) (hg : g.Legal (c.depth + 1 + rest.length)) (hgt : g.Tame false) (hgn : g.Neat) (hw : g.render.length ≤ 5242880) :
    ∃ as ws y, Opened e as ws ∧ y = c.plug ((e.refill as ws (e.kids.append (chainF opts.indent 0 (rest.map (spelling opts.caseSensitive)) g))).cons .nil) ∧
      setWithOptions env.ord (c.plug (e.cons .nil)).render p (.raw g.render) (some opts) = .ret (y.render, none) ∧
      (y.render.length ≤ 10485760 → Editable y ∧ valid y.render = true ∧
        (c!"|" ∉ p → Ahead ss → ∃ a r m, getWithOptions env y.render p (some opts) = .ret a ∧ a.array.head? = some r ∧ rest.getLast? = some m ∧
          IsElement r ⟨spelling opts.caseSensitive m, fun _ => none, g.info⟩)) := by
  obtain ⟨ns, n, rfl⟩ : ∃ ns n, rest = ns ++ [n] := ⟨rest.dropLast, rest.getLast hd.more, (List.dropLast_concat_getLast _).symm⟩
  obtain ⟨as, ws, ho1, ho2⟩ := C79_create ho opts h hp hd (fun x hx => isName_negative (hn x hx)) (slots_isName hn) (by simp)
  have hset := ho2 (.raw g.render) g.render (by simp) rfl hw
  have hcnt : e.kids.info.count opts.caseSensitive (.name ((ns ++ [n]).head (by simp))) = 0 := by
    obtain ⟨y, r', hr'⟩ : ∃ y r', ns ++ [n] = y :: r' := by cases ns <;> exact ⟨_, _, rfl⟩
    simp only [hr', List.head_cons]
    have hs := hd.split
    subst hs
    rw [hr'] at hd
    exact deepest_count hd (hn y (by simp [hr']))
  have hns : (ns ++ [n]).map (spelling opts.caseSensitive) = ns.map (spelling opts.caseSensitive) ++ [spelling opts.caseSensitive n] := by simp
  have hrend : (chainF opts.indent 0 ((ns ++ [n]).map (spelling opts.caseSensitive)) g).render =
      slotLines opts.indent 0 ((ns ++ [n]).map fun m => some (spelling opts.caseSensitive m)) g.render := by
    rw [chainF_same (y := .text g.render .nil) (by simp [Forest.render]), chainF_render, ← slotLines_names, List.map_map]; simp [Function.comp_def]
  have hx : (c.plug ((e.refill as ws (e.kids.append (chainF opts.indent 0 ((ns ++ [n]).map (spelling opts.caseSensitive)) g))).cons .nil)).render =
      c.before ++ (openTag e.name as ws ++ b!">" ++ e.inner ++ slotLines opts.indent 0 ((ns ++ [n]).map fun m => some (spelling opts.caseSensitive m)) g.render ++ closeTag e.name []) ++ c.after := by
    rw [← hrend, plug_el_render]
    obtain ⟨nm, eas, ews, bd⟩ := e
    cases bd <;> simp [El.refill, El.start, El.inner, El.stop, El.kids, append_render, Forest.render]
  rw [← hx] at hset
  refine ⟨as, ws, _, ho1, rfl, hset, fun hsz => ?_⟩
  have hgood := editable_el h
  obtain ⟨k1, k2, k3, k4⟩ := el_kids_good hgood
  obtain ⟨c1, c2, c3⟩ := chainF_good (d := 0) (k := c.depth + 1) (t := false) hi (by omega) (ns := (ns ++ [n]).map (spelling opts.caseSensitive)) (x := g) (by simp) (fun m hm => by
    obtain ⟨m', h1, rfl⟩ := List.mem_map.mp hm; exact spelling_name (hn m' h1)) (by simpa using hdep) (by simpa using hg) hgt (neatF_even hgn)
  have hed : Editable (c.plug ((e.refill as ws (e.kids.append (chainF opts.indent 0 ((ns ++ [n]).map (spelling opts.caseSensitive)) g))).cons .nil)) := by
    refine editable_swapEl h (refill_good hgood ho1 ?_ ?_ ?_) hsz
    · rw [append_legal]; exact ⟨k1, c1⟩
    · rw [append_tame]; exact ⟨k2, c2⟩
    · rw [append_even]; exact ⟨k3, c3⟩
  refine ⟨hed, editable_valid hed, fun hbar ha => ?_⟩
  have e1 : (down c e.name as ws [] (chainFCtx opts.indent 0 e.kids ((ns ++ [n]).map (spelling opts.caseSensitive)))).plug ((⟨spelling opts.caseSensitive n, [], [], some (g, [])⟩ : El).cons .nil) =
      c.plug ((e.refill as ws (e.kids.append (chainF opts.indent 0 ((ns ++ [n]).map (spelling opts.caseSensitive)) g))).cons .nil) := by
    rw [down_plug, hns, chainFCtx_plug]; rfl
  rw [← e1] at hed ⊢
  obtain ⟨hs, ht, hr⟩ := hd.leads
  have hlead : LeadTo opts.caseSensitive ss (down c e.name as ws [] (chainFCtx opts.indent 0 e.kids ((ns ++ [n]).map (spelling opts.caseSensitive)))) (spelling opts.caseSensitive n) :=
    ⟨_, by rw [hd.split]; exact trail_more ht hn rfl, reach_down hr (chainFCtx_reach opts.caseSensitive opts.indent 0 hcnt)⟩
  obtain ⟨a, r, g1, g2, g3⟩ := C89_place env ho opts (e := ⟨spelling opts.caseSensitive n, [], [], some (g, [])⟩) (editable_sound hed) hp hbar ha hlead
  exact ⟨a, r, n, g1, g2, by simp, g3⟩

/-- C44: the same where no root element has the first name of the path. -/
theorem C44_any_top (env : Env) (ho : env.ord.IsPerm) (opts : Options) (hi : c!"<" ∉ opts.indent) {f : Forest} (h : Editable f) {p : Bytes} {x : Bytes} {rest : List Bytes} (hp : PathSteps p (x :: rest))
    (hno : LeadNowhere opts.caseSensitive [x] f) (hn : ∀ y ∈ x :: rest, IsName y) (hdep : (x :: rest).length ≤ 100)
    (g : Forest) (hg : g.Legal (x :: rest).length) (hgt : g.Tame false) (hgn : g.Neat) (hw : g.render.length ≤ 5242880) :
    ∃ y, y = f.append (chainF opts.indent 0 ((x :: rest).map (spelling opts.caseSensitive)) g) ∧ setWithOptions env.ord f.render p (.raw g.render) (some opts) = .ret (y.render, none) ∧
      (y.render.length ≤ 10485760 → Editable y ∧ valid y.render = true ∧
        (c!"|" ∉ p → ∃ a r m, getWithOptions env y.render p (some opts) = .ret a ∧ a.array.head? = some r ∧ (x :: rest).getLast? = some m ∧ IsElement r ⟨spelling opts.caseSensitive m, fun _ => none, g.info⟩)) := by
  have hslot := slots_isName (cs := opts.caseSensitive) hn
  have hset := C79_create_top ho opts (editable_sound h) hp (isName_step (hn x (by simp))).1 hno (fun y hy => isName_negative (hn y hy)) hslot (by
    rw [List.getLast?_map]; cases (x :: rest).getLast? <;> simp) (v := .raw g.render) (w := g.render) (by simp) rfl hw
  obtain ⟨ns, n, hr⟩ : ∃ ns n, x :: rest = ns ++ [n] := ⟨(x :: rest).dropLast, (x :: rest).getLast (by simp), (List.dropLast_concat_getLast _).symm⟩
  have hcnt : f.info.count opts.caseSensitive (.name ((ns ++ [n]).head (by simp))) = 0 := by
    simp only [← hr, List.head_cons]
    cases hsp : f.info.spot opts.caseSensitive [(.name x, 0)] with
    | none => simpa [Info.spot, Info.count] using hsp
    | some nd =>
      obtain ⟨c2, e2, g1, g2, -⟩ := spot_reach hsp
      exact absurd ⟨_, trail_names (rest := [x]) (by simpa using hn x (by simp)), g2⟩ (hno c2 e2 g1)
  have hns : (ns ++ [n]).map (spelling opts.caseSensitive) = ns.map (spelling opts.caseSensitive) ++ [spelling opts.caseSensitive n] := by simp
  have hrend : (chainF opts.indent 0 ((ns ++ [n]).map (spelling opts.caseSensitive)) g).render =
      slotLines opts.indent 0 ((x :: rest).map fun m => some (spelling opts.caseSensitive m)) g.render := by
    rw [chainF_same (y := .text g.render .nil) (by simp [Forest.render]), chainF_render, ← slotLines_names, List.map_map, hr]; simp [Function.comp_def]
  have e1 : (chainFCtx opts.indent 0 f ((ns ++ [n]).map (spelling opts.caseSensitive))).plug ((⟨spelling opts.caseSensitive n, [], [], some (g, [])⟩ : El).cons .nil) =
      f.append (chainF opts.indent 0 ((ns ++ [n]).map (spelling opts.caseSensitive)) g) := by
    rw [hns, chainFCtx_plug]
  rw [← hrend, ← append_render] at hset
  refine ⟨_, by rw [hr], hset, fun hsz => ?_⟩
  have hlen : (x :: rest).length = ((ns ++ [n]).map (spelling opts.caseSensitive)).length := by rw [List.length_map, ← hr]
  obtain ⟨c1, c2, c3⟩ := chainF_good (d := 0) (k := 0) (t := true) hi (by omega) (ns := (ns ++ [n]).map (spelling opts.caseSensitive)) (x := g) (by simp) (fun m hm => by
    obtain ⟨m', h1, rfl⟩ := List.mem_map.mp hm; exact spelling_name (hn m' (hr ▸ h1))) (by omega) (by rw [← hlen, Nat.zero_add]; exact hg) hgt (neatF_even hgn)
  have hed : Editable (f.append (chainF opts.indent 0 ((ns ++ [n]).map (spelling opts.caseSensitive)) g)) := by
    refine ⟨hsz, ?_, ?_, ?_, ?_⟩
    · rw [append_legal]; exact ⟨h.2.1, c1⟩
    · rw [append_tame]; exact ⟨h.2.2.1, c2⟩
    · rw [append_hasElem]; exact .inl h.2.2.2.1
    · rw [append_stable]; exact ⟨h.2.2.2.2, even_stable c3⟩
  refine ⟨hed, editable_valid hed, fun hbar => ?_⟩
  rw [← e1] at hed ⊢
  have hlead : LeadTo opts.caseSensitive (x :: rest) (chainFCtx opts.indent 0 f ((ns ++ [n]).map (spelling opts.caseSensitive))) (spelling opts.caseSensitive n) :=
    ⟨_, trail_names hn, by rw [hr]; exact chainFCtx_reach opts.caseSensitive opts.indent 0 hcnt⟩
  obtain ⟨a, r, g1, g2, g3⟩ := C89_place env ho opts (e := ⟨spelling opts.caseSensitive n, [], [], some (g, [])⟩) (editable_sound hed) hp hbar (ahead_names hn) hlead
  exact ⟨a, r, n, g1, g2, by rw [hr]; simp, g3⟩

/-- `raw_content` for any options. -/
theorem raw_content_any (env : Env) (ho : env.ord.IsPerm) (f : Forest) (hl : f.Legal 0) (ht : f.Tame true) (hne : f.NoEntity) (path : Bytes) (hp : c!"|" ∉ path) (opts : Option Options)
    (r : Result) (hr : getWithOptions env f.render path opts = .ret r) (a : Result) (ha : a ∈ r.array) (hta : a.typ = .element) :
    ∃ g : Forest, g.Neat ∧ g.Legal 1 ∧ g.Tame false ∧ g.NoEntity ∧ g.levels < f.levels ∧ g.render = a.raw ∧ ∀ n as, IsElement a ⟨n, as, g.info⟩ := by
  let C : Bytes → Bytes → Prop := fun c s => CopyContent f.levels c ∧ s = unescapeXML (extractTextContent c)
  have : Atoms (CopyContent f.levels) (ResultItem C) := item_atoms fun c hc => ⟨hc, rfl⟩
  have hflat : Flat (ResultItem C) r := getWithOptions_shape (closed_copy ho f.levels) (fun _ => ⟨f, 0, true, hl, ht, hne, Nat.le_refl _, rfl⟩) path opts
    (fun ss hs => hs.elim (fun hs => keeps_none (parsePath_nobar hp hs)) (fun hs => keeps_none (parsePathWithOptions_nobar hp hs))) hr
  have hitem : ResultItem C a := by
    rcases hflat with ⟨h, -⟩ | h | ⟨h, -, h2⟩
    · simp [Result.array, h] at ha
    · have h3 := item_not_array r h
      have h4 : r.typ ≠ .null := by rcases h.typ with h | h | h | h <;> simp [h]
      simp only [Result.array, if_neg h3, if_neg h4, List.mem_singleton] at ha
      rw [ha]; exact h
    · simp only [Result.array, if_pos h] at ha; exact h2 a ha
  obtain ⟨⟨g, h1, h2, h3, h4, h5, h6⟩, hs⟩ := hitem.elem hta
  refine ⟨g, neatF_canon.mpr h1, h2, h3, h4, h5, h6, fun n as => ⟨hta, ?_, ⟨.done g, h2.loose, h3, canonF_plain.mp h1, h6, rfl⟩, hitem.results⟩⟩
  have := stripTags_canon h1 (Forest.Legal.loose h2) h3 []
  simp only [List.append_nil, stripTags] at this
  rw [hs, ← h6, extractTextContent, this]; rfl

/-- What a copy is: the first result of Get with the path is an element that says what `a` says. -/
def CopiedTo (env : Env) (a : Result) (y p : Bytes) (opts : Options) : Prop :=
  ∃ l r nd, getWithOptions env y p (some opts) = .ret l ∧ l.array.head? = some r ∧ IsElement r nd ∧ IsElement a nd ∧ r.toStr = a.toStr

/-- C67: the Raw of any element that any path finds in a valid document, with any options, can be written with any options as the content of any element that any path leads to. The document
stays valid, and if the path is one of C89 (`Ahead`), Get with it and these options then finds, as its first result, an element that says the same. -/
theorem C67_any (env : Env) (ho : env.ord.IsPerm) (f : Forest) (hl : f.Legal 0) (ht : f.Tame true) (hne : f.NoEntity) (path : Bytes) (hp : c!"|" ∉ path) (from_ : Option Options)
    (r : Result) (hr : getWithOptions env f.render path from_ = .ret r) (a : Result) (ha : a ∈ r.array) (hta : a.typ = .element) (hraw : a.raw.length ≤ 5242880)
    (opts : Options) {c : Ctx} {e : El} (h : Editable (c.plug (e.cons .nil))) (hb : e.body ≠ none) {p : Bytes} {ss : List Bytes} (hps : PathSteps p ss)
    (hL : LeadTo opts.caseSensitive ss c e.name) (hd : c.depth + f.levels ≤ 100) :
    ∃ y, setWithOptions env.ord (c.plug (e.cons .nil)).render p (.raw a.raw) (some opts) = .ret (y, none) ∧ y = c.before ++ e.start ++ a.raw ++ e.stop ++ c.after ∧
      (opts = defaultOptions → setRaw env.ord (c.plug (e.cons .nil)).render p a.raw = .ret (y, none)) ∧ (y.length ≤ 10485760 → valid y = true ∧ (c!"|" ∉ p → Ahead ss → CopiedTo env a y p opts)) := by
  obtain ⟨g, h1, h2, h3, h4, h5, h6, h7⟩ := raw_content_any env ho f hl ht hne path hp from_ r hr a ha hta
  have hg : g.Legal (c.depth + 1) := legal_deeper h2 (by omega) (by omega) (by omega)
  obtain ⟨y, -, s1, s2, s3⟩ := C44_any_set env ho opts h hb hps hL g hg h3 h1 (by rw [h6]; exact hraw)
  refine ⟨y.render, by rw [← h6]; exact s1, by rw [← h6]; exact s2, fun hopt => ?_, fun hy => ?_⟩
  · subst hopt; rw [← h6, C44_any_raw _ _ _ g _ hg h3 h1 h4]; exact s1
  · refine ⟨(s3 hy).2.1, fun hbar hah => ?_⟩
    obtain ⟨l, r', t3, t4, t5⟩ := (s3 hy).2.2 hbar hah
    exact ⟨l, r', _, t3, t4, t5, h7 _ _, by rw [t5.str, (h7 [] (fun _ => none)).str]⟩

/-- C67: the same where elements are created for the names at the end of the path. -/
theorem C67_any_create (env : Env) (ho : env.ord.IsPerm) (f : Forest) (hl : f.Legal 0) (ht : f.Tame true) (hne : f.NoEntity) (path : Bytes) (hp : c!"|" ∉ path) (from_ : Option Options)
    (r : Result) (hr : getWithOptions env f.render path from_ = .ret r) (a : Result) (ha : a ∈ r.array) (hta : a.typ = .element) (hraw : a.raw.length ≤ 5242880)
    (opts : Options) (hi : c!"<" ∉ opts.indent) {c : Ctx} {e : El} (h : Editable (c.plug (e.cons .nil))) {p : Bytes} {ss ps rest : List Bytes} (hps : PathSteps p ss)
    (hdp : Deepest opts.caseSensitive ss ps rest c e) (hn : ∀ x ∈ rest, IsName x) (hd : c.depth + rest.length + f.levels ≤ 100) :
    ∃ y, setWithOptions env.ord (c.plug (e.cons .nil)).render p (.raw a.raw) (some opts) = .ret (y, none) ∧
      (opts = defaultOptions → setRaw env.ord (c.plug (e.cons .nil)).render p a.raw = .ret (y, none)) ∧ (y.length ≤ 10485760 → valid y = true ∧ (c!"|" ∉ p → Ahead ss → CopiedTo env a y p opts)) := by
  obtain ⟨g, h1, h2, h3, h4, h5, h6, h7⟩ := raw_content_any env ho f hl ht hne path hp from_ r hr a ha hta
  have hg : g.Legal (c.depth + 1 + rest.length) := legal_deeper h2 (by omega) (by omega) (by omega)
  obtain ⟨-, -, y, -, -, s1, s3⟩ := C44_any_create env ho opts hi h hps hdp hn (by omega) g hg h3 h1 (by rw [h6]; exact hraw)
  refine ⟨y.render, by rw [← h6]; exact s1, fun hopt => ?_, fun hy => ?_⟩
  · subst hopt; rw [← h6, C44_any_raw _ _ _ g _ hg h3 h1 h4]; exact s1
  · refine ⟨(s3 hy).2.1, fun hbar hah => ?_⟩
    obtain ⟨l, r', m, t3, t4, -, t5⟩ := (s3 hy).2.2 hbar hah
    exact ⟨l, r', _, t3, t4, t5, h7 _ _, by rw [t5.str, (h7 [] (fun _ => none)).str]⟩

/-- C67: the same where no root element has the first name of the path. -/
theorem C67_any_top (env : Env) (ho : env.ord.IsPerm) (f : Forest) (hl : f.Legal 0) (ht : f.Tame true) (hne : f.NoEntity) (path : Bytes) (hp : c!"|" ∉ path) (from_ : Option Options)
    (r : Result) (hr : getWithOptions env f.render path from_ = .ret r) (a : Result) (ha : a ∈ r.array) (hta : a.typ = .element) (hraw : a.raw.length ≤ 5242880)
    (opts : Options) (hi : c!"<" ∉ opts.indent) {d : Forest} (h : Editable d) {p x : Bytes} {rest : List Bytes} (hps : PathSteps p (x :: rest))
    (hno : LeadNowhere opts.caseSensitive [x] d) (hn : ∀ y ∈ x :: rest, IsName y) (hd : rest.length + f.levels ≤ 100) :
    ∃ y, setWithOptions env.ord d.render p (.raw a.raw) (some opts) = .ret (y, none) ∧
      (opts = defaultOptions → setRaw env.ord d.render p a.raw = .ret (y, none)) ∧ (y.length ≤ 10485760 → valid y = true ∧ (c!"|" ∉ p → CopiedTo env a y p opts)) := by
  obtain ⟨g, h1, h2, h3, h4, h5, h6, h7⟩ := raw_content_any env ho f hl ht hne path hp from_ r hr a ha hta
  have hg : g.Legal (x :: rest).length := legal_deeper h2 (by simp) (by simp) (by simp; omega)
  obtain ⟨y, -, s1, s3⟩ := C44_any_top env ho opts hi h hps hno hn (by simp; omega) g hg h3 h1 (by rw [h6]; exact hraw)
  refine ⟨y.render, by rw [← h6]; exact s1, fun hopt => ?_, fun hy => ?_⟩
  · subst hopt; rw [← h6, C44_any_raw _ _ _ g _ hg h3 h1 h4]; exact s1
  · refine ⟨(s3 hy).2.1, fun hbar => ?_⟩
    obtain ⟨l, r', m, t3, t4, -, t5⟩ := (s3 hy).2.2 hbar
    exact ⟨l, r', _, t3, t4, t5, h7 _ _, by rw [t5.str, (h7 [] (fun _ => none)).str]⟩

/-! ### cases -/

theorem exCopy : getWithOptions exEnv shapeDoc.render b!"R.*" (some ciOpts) = .ret (.ofArray [.ofContent b!"t<y/>", .ofContent b!"u<!-- c -->"]) := by decide +kernel

theorem exCopy_mem : Result.ofContent b!"t<y/>" ∈ (Result.ofArray [.ofContent b!"t<y/>", .ofContent b!"u<!-- c -->"]).array := by
  simp [Result.array, Result.ofArray, Result.typ, Result.results]

/-- From `R.*` without regard to case to `*.a.1`. -/
example (opts : Options) : ∃ y, setWithOptions exEnv.ord b!"<!--x--><r v='1' ><a k=\"&lt;\">x</a> <a><b>y</b></a><c j=\"1\"/></r>" b!"*.a.1" (.raw b!"t<y/>") (some opts) = .ret (y, none) ∧
    y = b!"<!--x--><r v='1' ><a k=\"&lt;\">x</a> <a>t<y/></a><c j=\"1\"/></r>" ∧ CopiedTo exEnv (.ofContent b!"t<y/>") y b!"*.a.1" opts := by
  obtain ⟨y, h1, h2, -, h3⟩ := C67_any exEnv exEnv_perm shapeDoc shapeDoc_ok.1 shapeDoc_ok.2 (by simp [shapeDoc, Forest.NoEntity]) b!"R.*" (by decide) (some ciOpts) _ exCopy (.ofContent b!"t<y/>") exCopy_mem rfl
    (by decide) opts exEdit (by decide) (p := b!"*.a.1") (ss := exStar) (pathSteps_by (by decide) (by decide) (by decide +kernel) (by decide +kernel))
    ⟨_, exStar_trail, by cases opts.caseSensitive <;> exact ⟨rfl, by decide +kernel, by decide +kernel, by decide +kernel⟩⟩ (by decide +kernel)
  rw [exEdit_render] at h1
  have h4 : y = b!"<!--x--><r v='1' ><a k=\"&lt;\">x</a> <a>t<y/></a><c j=\"1\"/></r>" := by rw [h2]; decide +kernel
  exact ⟨y, h1, h4, (h3 (by rw [h4]; decide)).2 (by decide) exStar_ahead⟩

/-- To `x.y` in `<r><a/></r>`, where there is no `x`. -/
example : ∃ y, setRaw exEnv.ord b!"<r><a/></r>" b!"x.y" b!"t<y/>" = .ret (y, none) ∧ (y.length ≤ 10485760 → CopiedTo exEnv (.ofContent b!"t<y/>") y b!"x.y" defaultOptions) := by
  obtain ⟨y, -, h1, h2⟩ := C67_any_top exEnv exEnv_perm shapeDoc shapeDoc_ok.1 shapeDoc_ok.2 (by simp [shapeDoc, Forest.NoEntity]) b!"R.*" (by decide) (some ciOpts) _ exCopy (.ofContent b!"t<y/>") exCopy_mem rfl
    (by decide) defaultOptions (by decide) (d := .node b!"r" [] [] (.leaf b!"a" [] [] .nil) [] .nil) (editable_of (by decide +kernel)) (p := b!"x.y") (x := b!"x") (rest := [b!"y"])
    (pathSteps_by (by decide) (by decide) (by decide +kernel) (by decide +kernel))
    (nowhere_spot (hs := [(.name b!"x", 0)]) (.first (t := some []) (.name (name_step (by decide))) (by simp) .nil) (by decide +kernel))
    (by intro x hx; simp at hx; rcases hx with rfl | rfl <;> exact isName_of (by decide) (by decide)) (by decide +kernel)
  exact ⟨y, h1 rfl, fun h => (h2 h).2 (by decide)⟩

/-- The documents after copies to a place that is there, to one that is not, and to a new root. -/
theorem C67_any_witness : setWithOptions exEnv.ord b!"<!--x--><r v='1' ><a k=\"&lt;\">x</a> <a><b>y</b></a><c j=\"1\"/></r>" b!"*.A.1.P.q" (.raw b!"t<y/>") (some inOpts) =
      .ret (b!"<!--x--><r v='1' ><a k=\"&lt;\">x</a> <a><b>y</b>\n<p>\n  <q>t<y/></q></p></a><c j=\"1\"/></r>", none) ∧
    setRaw exEnv.ord b!"<r><a/></r>" b!"x.y" b!"t<y/>" = .ret (b!"<r><a/></r><x><y>t<y/></y></x>", none) ∧
    (∃ a, getWithOptions exEnv b!"<!--x--><r v='1' ><a k=\"&lt;\">x</a> <a><b>y</b>\n<p>\n  <q>t<y/></q></p></a><c j=\"1\"/></r>" b!"*.A.1.P.q" (some inOpts) = .ret a ∧ a.array.map Result.raw = [b!"t<y/>"]) := by
  refine ⟨?_, ?_, _, rfl, ?_⟩ <;> decide +kernel

end Verif.Props
