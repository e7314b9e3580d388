import Verif.Lemmas.SeriesAttr
/- C88: documents built with Set and Delete stay valid. -/
namespace Verif.Props
open Verif Verif.Spec

/-- C88: Set of an element at a path of names, with any options and a value that may stand there, in a document none of whose root elements is self-closing: the result is a document of the same kind, unless it is too large. -/
theorem C88_set {o : Ord} (ho : o.IsPerm) {opts : Options} (hi : c!"<" ∉ opts.indent) {f : Forest} (h : Editable f) (hro : RootsOpen f) {ns : List Bytes} {n : Bytes} (hn : ∀ m ∈ ns ++ [n], IsName m) (hl : ns.length < 100)
    {v : GoVal} {w : Bytes} (hv0 : v ≠ .nil) (hv : valueToXML v = some w) (hw : w.length ≤ 5242880) (hf : Fitting (ns.length + 1) w) :
    ∃ g, setWithOptions o f.render (pathOf (ns ++ [n])) v (some opts) = .ret (g.render, none) ∧ RootsOpen g ∧ (g.render.length ≤ 10485760 → Editable g) := by
  obtain ⟨g, h1, h2, h3⟩ := set_keptB ho hi h hro hn hl hv0 hv hw hf
  exact ⟨g, h1, h2.2, h2.1.1 h3⟩

/-- C88: values of the types other than RawXML may stand anywhere. -/
theorem C88_value {d : Nat} (hd : 0 < d) {w : Bytes} (h : c!"<" ∉ w) : Fitting d w := text_content hd h

/-- C88: the same for a further element of that name, behind the last one. -/
theorem C88_append {o : Ord} (ho : o.IsPerm) {opts : Options} (hi : c!"<" ∉ opts.indent) {f : Forest} (h : Editable f) (hro : RootsOpen f) {ns : List Bytes} {n : Bytes} (hn : ∀ m ∈ ns ++ [n], IsName m) (hl : ns.length ≤ 98)
    {v : GoVal} {w : Bytes} (hv0 : v ≠ .nil) (hv : valueToXML v = some w) (hw : w.length ≤ 5242880) (hf : Fitting (ns.length + 1) w) :
    ∃ g err, setWithOptions o f.render (pathOf (ns ++ [n, b!"-1"])) v (some opts) = .ret (g.render, err) ∧ (err = none ∨ err = some .invalidValue ∧ g = f) ∧ RootsOpen g ∧ (g.render.length ≤ 10485760 → Editable g) := by
  obtain ⟨g, err, h1, h0, h2, h3⟩ := append_keptB ho hi h hro hn hl hv0 hv hw hf
  exact ⟨g, err, h1, h0, h2.2, h2.1.1 h3⟩

/-- C88: the same for an element that is there, at any path that leads to it. -/
theorem C88_there {o : Ord} (ho : o.IsPerm) {opts : Options} {c : Ctx} {e : El} (h : Editable (c.plug (e.cons .nil))) (hro : RootsOpen (c.plug (e.cons .nil))) {ss : List Bytes} {p : Bytes} (hp : PathSteps p ss)
    (hl : LeadTo opts.caseSensitive ss c e.name) {v : GoVal} {w : Bytes} (hv0 : v ≠ .nil) (hv : valueToXML v = some w) (hw : w.length ≤ 5242880) (hf : Fitting (c.depth + 1) w) :
    ∃ g, setWithOptions o (c.plug (e.cons .nil)).render p v (some opts) = .ret (g.render, none) ∧ RootsOpen g ∧ (g.render.length ≤ 10485760 → Editable g) := by
  obtain ⟨g, h1, h2, h3⟩ := replace_kept h hro hf
  exact ⟨g, by rw [h1]; exact C79_set ho opts h hp hl hv0 hv hw, h2.2, h2.1.1 h3⟩

/-- C88: the same for an attribute, if there is room for it. -/
theorem C88_set_attribute {o : Ord} (ho : o.IsPerm) {opts : Options} (hi : c!"<" ∉ opts.indent) {f : Forest} (h : Editable f) (hro : RootsOpen f) {ns : List Bytes} {n : Bytes} (hn : ∀ m ∈ ns ++ [n], IsName m) (hl : ns.length < 99)
    {k : Bytes} (hk : IsName k) {v : GoVal} {s : Bytes} (hv0 : v ≠ .nil) (hv : valueToXML v = some (escapeXML s)) (hs : (escapeXML s).length ≤ 1048576) (hroom : Room opts.caseSensitive f.render (firsts (ns ++ [n])) k) :
    ∃ g err, setWithOptions o f.render (pathOf (ns ++ [n] ++ [c!"@" :: k])) v (some opts) = .ret (g.render, err) ∧ (err = none ∨ err = some .malformed ∧ g = f) ∧ RootsOpen g ∧ (g.render.length ≤ 10485760 → Editable g) := by
  obtain ⟨g, err, h1, h2, h3, h4⟩ := setAttr_keptB ho hi (.inl h) hro hn hl hk hv0 hv hs (fun c e h1 h2 => hroom c e (by rw [h1]) (h1 ▸ h) h2)
  exact ⟨g, err, h1, h2, h3.2, h3.1.1 (h4 h.2.2.2.1)⟩

theorem append_no_at {ns : List Bytes} {n : Bytes} (hn : ∀ m ∈ ns ++ [n], IsName m) : c!"@" ∉ pathOf (ns ++ [n, b!"-1"]) := by
  refine joinDots_no_at fun m hm => ?_
  obtain ⟨x, hx, rfl⟩ := List.mem_map.mp hm
  refine escape_no_at fun hh => ?_
  rcases List.mem_append.mp hx with hx | hx
  · have := (hn x (by simp [hx])).2.1 _ hh
    revert this; decide
  · simp at hx
    rcases hx with rfl | rfl
    · have := (hn x (by simp)).2.1 _ hh
      revert this; decide
    · revert hh; decide

theorem thinned_open {f g : Forest} (h : Thinned f g) (hro : RootsOpen f) : RootsOpen g := by
  rcases h with rfl | ⟨c, e, rfl, rfl | ⟨as, rfl⟩⟩
  · exact hro
  · exact plug_open hro (.inl trivial)
  · by_cases hb : e.body = none
    · exact plug_open hro (.inr (open_inside hro hb))
    · exact plug_open hro (.inl ((cons_open _).mpr hb))

theorem call_kept {g : Forest} (hg : Kept g) {xml' : Bytes} (h : EditCall g.render xml') : ∃ g', xml' = g'.render ∧ Kept g' := by
  cases h with
  | set os hp ns n hn hl v w hv0 hv hw hf opts hi err h =>
    obtain ⟨o, ho, hrun⟩ := kept_setB hp hg (names_no_at hn) v opts
    rw [hrun] at h
    by_cases hE : Editable g
    · obtain ⟨g', h1, h2, -⟩ := set_keptB ho hi hE hg.2 hn hl hv0 hv hw hf
      rw [h1] at h; simp at h
      exact ⟨g', h.1.symm, h2⟩
    · by_cases h0 : g.render = []
      · obtain ⟨g', h1, h2, -⟩ := set_empty_keptB o hi hn hl hv0 hv hw hf
        rw [h0, h1] at h
        simp at h
        exact ⟨_, h.1.symm, h2⟩
      · rw [set_refused h0 (kept_not hg hE)] at h
        simp at h
        exact ⟨g, h.1.symm, hg⟩
  | append os hp ns n hn hl v w hv0 hv hw hf opts hi err h =>
    obtain ⟨o, ho, hrun⟩ := kept_setB hp hg (append_no_at hn) v opts
    rw [hrun] at h
    by_cases hE : Editable g
    · obtain ⟨g', err', h1, -, h2, -⟩ := append_keptB ho hi hE hg.2 hn hl hv0 hv hw hf
      rw [h1] at h; simp at h
      exact ⟨g', h.1.symm, h2⟩
    · by_cases h0 : g.render = []
      · obtain ⟨g', h1, h2, -⟩ := append_empty_keptB ho hi hn hl hv0 hv hw hf
        rw [h0, h1] at h
        simp at h
        exact ⟨_, h.1.symm, h2⟩
      · rw [set_refused h0 (kept_not hg hE)] at h
        simp at h
        exact ⟨g, h.1.symm, hg⟩
  | there os hp p ss hps hat opts v w hv0 hv hw c e hx hed hro hlead hf err h =>
    obtain ⟨o, ho, hrun⟩ := kept_setB hp hg hat v opts
    obtain ⟨g', h1, h2, -⟩ := replace_kept hed hro hf
    rw [hrun, hx, C79_set ho opts hed hps hlead hv0 hv hw, ← h1] at h
    simp at h
    exact ⟨g', h.1.symm, h2⟩
  | attr os hp ns n hn hl k hk v s hv0 hv hs opts hi hr err h =>
    obtain ⟨o, ho, hrun⟩ := kept_setAttrB hp hg hn hl hk v opts hi
    rw [hrun] at h
    by_cases hE : Editable g
    · obtain ⟨g', err', h1, -, h2, -⟩ := setAttr_keptB ho hi (.inl hE) hg.2 hn hl hk hv0 hv hs (fun c e h1 h2 => hr c e (by rw [h1]) (h1 ▸ hE) h2)
      rw [h1] at h; simp at h
      exact ⟨g', h.1.symm, h2⟩
    · by_cases h0 : g.render = []
      · obtain ⟨g', err', h1, -, h2, -⟩ := setAttr_keptB (f := .nil) ho hi (.inr rfl) trivial hn hl hk hv0 hv hs (fun c e h1 _ => by
          have : (c.plug (e.cons .nil)).HasElem := plug_hasElem_of (cons_hasElem _ _)
          rw [← h1] at this; exact absurd this (by simp [Forest.HasElem]))
        rw [h0] at h
        rw [show (Forest.nil).render = [] from rfl, h] at h1
        simp at h1
        exact ⟨g', h1.1, h2⟩
      · rw [set_refused h0 (kept_not hg hE)] at h
        simp at h
        exact ⟨g, h.1.symm, hg⟩
  | attrThere os hp p qs x hps hat hk opts v s hv0 hv hs c e hx hed hro hlead hr err h =>
    rw [hx] at h
    obtain ⟨o, ho, hrun⟩ := C75_set_attr_there hp opts hed hps hat hlead v
    obtain ⟨as, h1, h2⟩ := C79_set_attribute ho opts hed hps hat hlead hv0 hv (by omega)
    obtain ⟨g', g1, g2, -⟩ := retag_kept hed hro h1 hk hs hr
    rw [hrun, h2, ← g1] at h
    simp at h
    exact ⟨g', h.1.symm, g2⟩
  | delete os hp p opts err h =>
    obtain ⟨o, ho, hrun⟩ := kept_delete hp hg p opts
    rw [hrun] at h
    by_cases hE : Editable g
    · by_cases hb : BadPath p
      · have : deleteWithOptions o g.render p (some opts) = .panic := by
          rw [deleteWithOptions, if_neg (by have := hE.1; have : maxDocumentSize = 10485760 := rfl; omega), editable_valid hE]
          simp [parsePathWithOptions, parsePath_bad hb]
        rw [this] at h; cases h
      · obtain ⟨g', err', h1, -, h2, -, h3⟩ := C87_delete ho opts hE hb
        rw [h1] at h; simp at h
        exact ⟨g', h.1.symm, h2, thinned_open h3 hg.2⟩
    · rw [delete_refused (kept_not hg hE)] at h
      simp at h
      exact ⟨g, h.1.symm, hg⟩

/-- C88: after any number of calls of Set and Delete, in whatever order, beginning with such a document or the empty one, whatever the order at every iteration of a map: the document at hand is of the same kind, unless it has no element (any more) or is too large; then it is not valid or refused. -/
theorem C88_calls {f : Forest} (h : Editable f ∨ f = .nil) (hro : RootsOpen f) {xml : Bytes} (hc : EditCalls f.render xml) : ∃ g, xml = g.render ∧ Kept g := by
  induction hc with
  | none =>
    refine ⟨f, rfl, ?_, hro⟩
    rcases h with h | rfl
    · exact left_of h
    · exact ⟨fun hh => absurd hh (by simp [Forest.HasElem]), fun _ => by decide⟩
  | more _ hg ih =>
    obtain ⟨g, rfl, hk⟩ := ih
    exact call_kept hk hg

/-- C88: so it is valid as soon as it is not too large and Delete has not taken the last element. -/
theorem C88_valid {f : Forest} (h : Editable f ∨ f = .nil) (hro : RootsOpen f) {xml : Bytes} (hc : EditCalls f.render xml) (hsz : xml.length ≤ 10485760) :
    valid xml = true ∨ ∃ g : Forest, xml = g.render ∧ ¬ g.HasElem := by
  obtain ⟨g, rfl, hk⟩ := C88_calls h hro hc
  by_cases he : g.HasElem
  · exact .inl (editable_valid (hk.1.1 he hsz))
  · exact .inr ⟨g, rfl, he⟩

/-- Pairs of paths and values for SetMany: names, or names and `-1`, and values that may stand there. -/
def FittingPair (q : Bytes × GoVal) : Prop :=
  ∃ ns n w, (q.1 = pathOf (ns ++ [n]) ∨ q.1 = pathOf (ns ++ [n, b!"-1"])) ∧ (∀ m ∈ ns ++ [n], IsName m) ∧ ns.length ≤ 98 ∧ q.2 ≠ .nil ∧ valueToXML q.2 = some w ∧ w.length ≤ 5242880 ∧ Fitting (ns.length + 1) w

/-- Set with such a pair returns. -/
theorem pair_returns {os : Visits} (hp : os.IsPerm) {g : Forest} (hg : Kept g) {q : Bytes × GoVal} (hq : FittingPair q) : setWithOptionsF os g.render q.1 q.2 (some defaultOptions) ≠ .panic := by
  obtain ⟨ns, n, w, h1, h2, h3, hv0, h4, h5, h6⟩ := hq
  have hi : c!"<" ∉ defaultOptions.indent := by simp [defaultOptions]
  have hat : c!"@" ∉ q.1 := by
    rcases h1 with h1 | h1 <;> rw [h1]
    · exact names_no_at h2
    · exact append_no_at h2
  obtain ⟨o, ho, hrun⟩ := kept_setB hp hg hat q.2 defaultOptions
  rw [hrun]
  by_cases hE : Editable g
  · rcases h1 with h1 | h1 <;> rw [h1]
    · obtain ⟨g', e1, -⟩ := set_keptB ho hi hE hg.2 h2 (by omega) hv0 h4 h5 h6
      rw [e1]; simp
    · obtain ⟨g', e, e1, -⟩ := append_keptB ho hi hE hg.2 h2 h3 hv0 h4 h5 h6
      rw [e1]; simp
  · by_cases h0 : g.render = []
    · rw [h0]
      rcases h1 with h1 | h1 <;> rw [h1]
      · obtain ⟨g', e1, -⟩ := set_empty_keptB o hi h2 (by omega) hv0 h4 h5 h6
        rw [e1]; simp
      · obtain ⟨g', e1, -⟩ := append_empty_keptB ho hi h2 h3 hv0 h4 h5 h6
        rw [e1]; simp
    · rw [set_refused h0 (kept_not hg hE)]; simp

theorem setLoop_kept {oss : Nat → Visits} (hp : ∀ i, (oss i).IsPerm) (orig : Bytes) (qs : List (Bytes × GoVal)) (hq : ∀ q ∈ qs, FittingPair q) : ∀ i g, Kept g →
    (∃ err, setManyLoopF oss orig i g.render qs = .ret (orig, some err)) ∨ ∃ g', setManyLoopF oss orig i g.render qs = .ret (g'.render, none) ∧ Kept g' := by
  induction qs with
  | nil => intro i g hg; exact .inr ⟨g, rfl, hg⟩
  | cons q r ih =>
    intro i g hg
    obtain ⟨p, v⟩ := q
    have hq0 := hq (p, v) List.mem_cons_self
    rw [setManyLoopF]
    cases hs : setWithOptionsF (oss i) g.render p v (some defaultOptions) with
    | panic => exact absurd hs (pair_returns (hp i) hg hq0)
    | ret x =>
      obtain ⟨next, err⟩ := x
      cases err with
      | some e => exact .inl ⟨e, rfl⟩
      | none =>
        obtain ⟨ns, n, w, h1, h2, h3, hv0, h4, h5, h6⟩ := hq0
        simp only at h1 h4
        have hi : c!"<" ∉ defaultOptions.indent := by simp [defaultOptions]
        have hk : ∃ g', next = g'.render ∧ Kept g' := by
          rcases h1 with h1 | h1 <;> rw [h1] at hs
          · exact call_kept hg (.set (oss i) (hp i) ns n h2 (by omega) v w hv0 h4 h5 h6 _ hi none hs)
          · exact call_kept hg (.append (oss i) (hp i) ns n h2 h3 v w hv0 h4 h5 h6 _ hi none hs)
        obtain ⟨g', rfl, hk⟩ := hk
        exact ih (fun q hq' => hq q (List.mem_cons_of_mem _ hq')) (i + 1) g' hk

/-- C88: SetRaw at a path of names, with XML that may stand there, leaves the document as it is or is such a call. -/
theorem C88_raw {os : Visits} (hp : os.IsPerm) {xml : Bytes} {ns : List Bytes} {n : Bytes} (hn : ∀ m ∈ ns ++ [n], IsName m) (hl : ns.length < 100) {w : Bytes} (hw : w.length ≤ 5242880) (hf : Fitting (ns.length + 1) w)
    {xml' : Bytes} {err : Option Err} (h : setRawF os xml (pathOf (ns ++ [n])) w = .ret (xml', err)) : xml' = xml ∨ EditCall xml xml' := by
  rw [setRawF] at h
  split at h
  · exact .inr (.set os hp ns n hn hl (.raw w) w (by simp) rfl hw hf _ (by simp [defaultOptions]) err h)
  · simp at h; exact .inl h.1.symm

/-- C75: with one order for all maps it is SetRaw as modelled. -/
theorem C75_same_raw (o : Ord) (xml path raw : Bytes) : setRawF (fun _ => o) xml path raw = setRaw o xml path raw := by
  rw [setRawF, setRaw, C75_same_set]; rfl

/-- C88: SetMany with any number of such paths and values returns the document it was given, with an error, or a document of the same kind, if it is not too large; whatever the order at every iteration of a map. -/
theorem C88_many {oss : Nat → Visits} (hp : ∀ i, (oss i).IsPerm) {f : Forest} (h : Editable f ∨ f = .nil) (hro : RootsOpen f) (paths : List Bytes) (values : List GoVal) (hq : ∀ q ∈ paths.zip values, FittingPair q) :
    (∃ err, setManyF oss f.render paths values = .ret (f.render, some err)) ∨ ∃ g, setManyF oss f.render paths values = .ret (g.render, none) ∧ Kept g := by
  unfold setManyF
  have hk : Kept f := by
    refine ⟨?_, hro⟩
    rcases h with h | rfl
    · exact left_of h
    · exact ⟨fun hh => absurd hh (by simp [Forest.HasElem]), fun _ => by decide⟩
  split
  · exact .inl ⟨_, rfl⟩
  · split
    · exact .inl ⟨_, rfl⟩
    · exact setLoop_kept hp _ _ hq 0 f hk

/-- C88: a self-closing root element is where it fails: the text is written behind it. Inside an element that is valid. (What indices out of range, names that are no names and raw XML do: `C19_index_creates_nameless`, `C19_names_unchecked`, `C29_raw`.) -/
theorem C88_witness :
    setMany exEnv.ord [] [b!"a.b", b!"a.c", b!"a.b"] [.str b!"1<2", .bool true, .str b!"x"] = .ret (b!"<a><b>x</b><c>true</c></a>", none) ∧
    set exEnv.ord b!"<a><b>x</b><c>true</c></a>" b!"a.d.@k" (.str b!"\"") = .ret (b!"<a><b>x</b><c>true</c><d k=\"&quot;\"></d></a>", none) ∧
    delete exEnv.ord b!"<a><b>x</b><c>true</c><d k=\"&quot;\"></d></a>" b!"a.b" = .ret (b!"<a><c>true</c><d k=\"&quot;\"></d></a>", none) ∧
    valid b!"<b/>" = true ∧ set exEnv.ord b!"<b/>" b!"b" (.str b!"v") = .ret (b!"<b/>v", none) ∧ valid b!"<b/>v" = false ∧
    set exEnv.ord b!"<a><b/></a>" b!"a.b" (.str b!"v") = .ret (b!"<a><b/>v</a>", none) ∧ valid b!"<a><b/>v</a>" = true := by decide +kernel

/-- C88: further elements, indented; markup, in an element reached with a wildcard; and raw XML that may not stand there, because `1` is no name: SetRaw takes it, and the document is no longer valid. -/
theorem C88_witness_more :
    setWithOptions exEnv.ord b!"<a><b>x</b></a>" b!"a.b.-1" (.str b!"y") (some { defaultOptions with indent := b!"  " }) = .ret (b!"<a><b>x</b>\n  <b>y</b></a>", none) ∧
    set exEnv.ord b!"<a><b>x</b>\n  <b>y</b></a>" b!"a.*.1" (.raw b!"<c/>t") = .ret (b!"<a><b>x</b>\n  <b><c/>t</b></a>", none) ∧
    set exEnv.ord [] b!"a.-1" (.bool true) = .ret (b!"<a>true</a>", none) ∧
    setRaw exEnv.ord b!"<a>true</a>" b!"a" b!"<1></1>" = .ret (b!"<a><1></1></a>", none) ∧ valid b!"<a><1></1></a>" = false := by decide +kernel

example : Fitting 3 b!"<c/>t" := ⟨.leaf b!"c" [] [] (.text b!"t" .nil), by decide, by simp [Forest.Legal]; decide +kernel, by simp [Forest.Tame]; decide +kernel, by simp [Forest.Even]; decide⟩

example {xml : Bytes} (hc : EditCalls [] xml) (hsz : xml.length ≤ 10485760) : valid xml = true ∨ ∃ g : Forest, xml = g.render ∧ ¬ g.HasElem := C88_valid (f := .nil) (.inr rfl) trivial hc hsz

example : RootsOpen (exCtx.plug (exEl.cons .nil)) := by simp [exCtx, exEl, Ctx.plug, Forest.append, RootsOpen]

example : EditCalls [] b!"<a><b>x</b></a>" :=
  .more .none (.set (fun _ => exEnv.ord) (fun _ => exEnv_perm) [b!"a"] b!"b" (by intro m hm; simp at hm; rcases hm with rfl | rfl <;> decide) (by decide) (.str b!"x") _ (by simp) rfl (by decide) (C88_value (by decide) (by decide)) defaultOptions (by decide) none (by decide +kernel))

end Verif.Props
