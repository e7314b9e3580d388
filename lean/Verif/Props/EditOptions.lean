import Verif.Lemmas.PlaceOpt
import Verif.Lemmas.AttrOpt
import Verif.Lemmas.AppendOpt
import Verif.Props.Attr
import Verif.Props.Options
/-
C48: what SetWithOptions and DeleteWithOptions do with any options. `CaseSensitive` decides how the names of the path are compared with the
document (`LeadsBy`, `Info.namedBy`) and how new names are written (`spelling`); `Indent` puts the new elements on lines of their own
(`chainLines`, `newLine`); nothing else matters.
-/
namespace Verif.Props
open Verif.Spec

/-- C48: of the options, Set reads only CaseSensitive and Indent, Delete only CaseSensitive. All documents, paths and values. -/
theorem C48_fields (o : Ord) (xml path : Bytes) (v : GoVal) (p q : Options) (hc : p.caseSensitive = q.caseSensitive) :
    (p.indent = q.indent → setWithOptions o xml path v (some p) = setWithOptions o xml path v (some q)) ∧
    deleteWithOptions o xml path (some p) = deleteWithOptions o xml path (some q) := by
  constructor
  · intro hi
    simp only [setWithOptions, deleteWithOptions, effOpts, Option.getD_some, hc, hi]
  · simp only [deleteWithOptions, effOpts, Option.getD_some, hc]

/-- C48: with CaseSensitive and without Indent, it is Set and Delete. -/
theorem C48_default (o : Ord) (xml path : Bytes) (v : GoVal) (p : Options) (hc : p.caseSensitive = true) :
    (p.indent = [] → setWithOptions o xml path v (some p) = set o xml path v) ∧ deleteWithOptions o xml path (some p) = delete o xml path :=
  ⟨fun hi => (C48_fields o xml path v p defaultOptions hc).1 hi, (C48_fields o xml path v p defaultOptions hc).2⟩

/-- C48: an existing element: its content, and nothing else, is replaced. -/
theorem C48_set_existing (o : Ord) (ho : o.IsPerm) (opts : Options) (ps : List Step) (parts : List Bytes) (hps : StepsText ps parts) (hpl : parts.length ≤ 100)
    (c : Ctx) (e : El) (hL : LeadsBy opts.caseSensitive ps c e.name) (h : Editable (c.plug (e.cons .nil))) (kids : Forest) (cws : Bytes) (_hb : e.body = some (kids, cws))
    (v : GoVal) (w : Bytes) (hv0 : v ≠ .nil) (hv : valueToXML v = some w) (hw : w.length ≤ 5242880) :
    (c.plug (e.cons .nil)).render = c.before ++ e.start ++ kids.render ++ e.stop ++ c.after ∧
    setWithOptions o (c.plug (e.cons .nil)).render (pathOf parts) v (some opts) = .ret (c.before ++ e.start ++ w ++ e.stop ++ c.after, none) := by
  refine ⟨?_, set_existingB ho hps hpl hL h hv0 hv hw⟩
  rw [plug_el_render]; simp [El.inner, _hb]

/-- C48: where a path of steps leads: `followBy` finds an element exactly if there is such a context. -/
theorem C48_place (cs : Bool) (ps : List Step) (f : Forest) (nd : Node) :
    f.info.followBy cs ps = some nd ↔ ∃ c e, f = c.plug (El.cons e .nil) ∧ LeadsBy cs ps c e.name ∧ e.node = nd :=
  ⟨follow_leadsB, fun ⟨_, _, h1, h2, h3⟩ => by rw [h1, leads_followB h2, h3]⟩

/-- C48: Delete removes exactly the element; if nothing would be left, nothing. -/
theorem C48_delete (o : Ord) (ho : o.IsPerm) (opts : Options) (ps : List Step) (parts : List Bytes) (hps : StepsText ps parts) (hpl : parts.length ≤ 100)
    (c : Ctx) (e : El) (hL : LeadsBy opts.caseSensitive ps c e.name) (h : Editable (c.plug (e.cons .nil))) :
    (c.plug (e.cons .nil)).render = c.before ++ e.render ++ c.after ∧
    deleteWithOptions o (c.plug (e.cons .nil)).render (pathOf parts) (some opts) =
      .ret (if c.before ++ c.after = [] then (c.plug (e.cons .nil)).render else c.before ++ c.after, none) :=
  ⟨by rw [plug_el_render]; simp [El.render], delete_existingB ho hps hpl hL h⟩

/-- C48: Delete at a path that leads nowhere changes nothing, in every document of the query class. -/
theorem C48_delete_missing (o : Ord) (ho : o.IsPerm) (opts : Options) (xml : Bytes) (i : Info) (h : Says xml i) (hv : valid xml = true) (ps : List Step)
    (parts : List Bytes) (hps : StepsText ps parts) (hne : ps ≠ []) (hpl : parts.length ≤ 100) (hn : i.followBy opts.caseSensitive ps = none) :
    deleteWithOptions o xml (pathOf parts) (some opts) = .ret (xml, none) := delete_missingB ho h hv hps hne hpl hn

/-- C48: missing elements are written at the end of the content of the deepest existing one, in the spelling and the layout of the options. -/
theorem C48_set_missing (o : Ord) (ho : o.IsPerm) (opts : Options) (ps : List Step) (parts : List Bytes) (hps : StepsText ps parts) (c : Ctx) (e : El)
    (hL : LeadsBy opts.caseSensitive ps c e.name) (h : Editable (c.plug (e.cons .nil))) :
    ∃ as ws, Opened e as ws ∧ ∀ (m : Bytes) (ns : List Bytes), (∀ n ∈ m :: ns, PlainName n) → parts.length + (m :: ns).length ≤ 100 →
      e.kids.info.namedBy opts.caseSensitive m = [] → ∀ (v : GoVal) (w : Bytes), v ≠ .nil → valueToXML v = some w → w.length ≤ 5242880 →
      setWithOptions o (c.plug (e.cons .nil)).render (pathOf (parts ++ m :: ns)) v (some opts) =
        .ret (c.before ++ (openTag e.name as ws ++ b!">" ++ e.inner ++ chainLines opts.indent 0 ((m :: ns).map (spelling opts.caseSensitive)) w ++ closeTag e.name []) ++ c.after, none) :=
  set_missingB ho hps hL h

/-- C48: when no top-level element matches the first name, the elements are written at the end of the document, whatever its layout, and to the empty document. -/
theorem C48_new_root (o : Ord) (ho : o.IsPerm) (opts : Options) (m : Bytes) (ns : List Bytes) (hns : ∀ n ∈ m :: ns, PlainName n) (hpl : (m :: ns).length ≤ 100)
    (v : GoVal) (w : Bytes) (hv0 : v ≠ .nil) (hv : valueToXML v = some w) (hw : w.length ≤ 5242880) :
    (∀ f, Sound f → f.info.namedBy opts.caseSensitive m = [] → setWithOptions o f.render (pathOf (m :: ns)) v (some opts) =
      .ret (f.render ++ chainLines opts.indent 0 ((m :: ns).map (spelling opts.caseSensitive)) w, none)) ∧
    setWithOptions o [] (pathOf (m :: ns)) v (some opts) = .ret (chainLines opts.indent 0 ((m :: ns).map (spelling opts.caseSensitive)) w, none) :=
  ⟨fun _ h hm => set_newRootSB ho h hns hpl hm hv0 hv hw, set_emptyB o hns hpl hv0 hv hw⟩

/-- C48: Set at an attribute of an existing element writes its start tag anew; every attribute whose name is the same gets the value, and only if there
is none a new one is written. -/
theorem C48_set_attr (o : Ord) (ho : o.IsPerm) (opts : Options) (ps : List Step) (parts : List Bytes) (hps : StepsText ps parts) (hpl : parts.length < 100)
    (c : Ctx) (e : El) (hL : LeadsBy opts.caseSensitive ps c e.name) (h : Editable (c.plug (e.cons .nil))) (k : Bytes) (hk : c!"|" ∉ k)
    (v : GoVal) (s : Bytes) (hv0 : v ≠ .nil) (hv : valueToXML v = some (escapeXML s)) (hw : (escapeXML s).length ≤ 5242880) :
    ∃ as, RetagBy opts.caseSensitive e k (some s) as ∧
      setWithOptions o (c.plug (e.cons .nil)).render (pathOf (parts ++ [c!"@" :: k])) v (some opts) =
        .ret (c.before ++ (openTag e.name as [] ++ (if e.body.isNone then b!"/>" else b!">")) ++ (e.inner ++ e.stop) ++ c.after, none) := by
  obtain ⟨as, h1, h2⟩ := set_attrB ho hps hpl hL h hk hv0 hv hw
  refine ⟨as, h1, ?_⟩
  rw [h2]
  simp [El.retag, El.render, El.start, El.inner, El.stop]

/-- C48: Delete at an attribute removes every attribute of that name; when the element has none, or there is no such element, nothing changes. -/
theorem C48_delete_attr (o : Ord) (ho : o.IsPerm) (opts : Options) (ps : List Step) (parts : List Bytes) (hps : StepsText ps parts) (hpl : parts.length < 100)
    (k : Bytes) (hk : c!"|" ∉ k) :
    (∀ (c : Ctx) (e : El), LeadsBy opts.caseSensitive ps c e.name → Editable (c.plug (e.cons .nil)) →
      ((∀ j, sameKey opts.caseSensitive j k → attrVal e.attrs j = none) →
        deleteWithOptions o (c.plug (e.cons .nil)).render (pathOf (parts ++ [c!"@" :: k])) (some opts) = .ret ((c.plug (e.cons .nil)).render, none)) ∧
      (∀ j, sameKey opts.caseSensitive j k → attrVal e.attrs j ≠ none → ∃ as, RetagBy opts.caseSensitive e k none as ∧
        deleteWithOptions o (c.plug (e.cons .nil)).render (pathOf (parts ++ [c!"@" :: k])) (some opts) =
          .ret (c.before ++ (openTag e.name as [] ++ (if e.body.isNone then b!"/>" else b!">")) ++ (e.inner ++ e.stop) ++ c.after, none))) ∧
    (∀ xml i, Says xml i → valid xml = true → ps ≠ [] → i.followBy opts.caseSensitive ps = none →
      deleteWithOptions o xml (pathOf (parts ++ [c!"@" :: k])) (some opts) = .ret (xml, none)) := by
  refine ⟨fun c e hL h => ?_, fun xml i h hv hne hn => delete_attr_missingB ho h hv hps hne hpl hn hk⟩
  obtain ⟨h1, h2⟩ := delete_attrB ho hps hpl hL h hk
  refine ⟨h1, fun j hj hn => ?_⟩
  obtain ⟨as, g1, g2⟩ := h2 j hj hn
  refine ⟨as, g1, ?_⟩
  rw [g2]
  simp [El.retag, El.render, El.start, El.inner, El.stop]

/-- C48: an appended element goes behind the last child that matches, or to the end. It is put on a line of its own, indented by as many levels as the path to
the parent has parts, unless it is the first thing in the parent. -/
theorem C48_append (o : Ord) (ho : o.IsPerm) (opts : Options) (ps : List Step) (parts : List Bytes) (hps : StepsText ps parts) (hpl : parts.length ≤ 98) (c : Ctx) (e : El)
    (hL : LeadsBy opts.caseSensitive ps c e.name) (h : Editable (c.plug (e.cons .nil))) :
    ∃ as ws, Opened e as ws ∧ ∀ (x : Bytes), PlainName x → ∀ (k1 k2 : Forest), e.kids = k1.append k2 → AfterLastBy opts.caseSensitive x k1 k2 →
      ∀ (v : GoVal) (w : Bytes), v ≠ .nil → valueToXML v = some w → w.length ≤ 5242880 →
      ∃ r, r = c.before ++ (openTag e.name as ws ++ b!">" ++ k1.render ++ (if k1.render = [] then [] else newLine opts.indent parts.length) ++
          (plainEl (spelling opts.caseSensitive x) w).render ++ k2.render ++ closeTag e.name []) ++ c.after ∧
        setWithOptions o (c.plug (e.cons .nil)).render (pathOf (parts ++ [x, b!"-1"])) v (some opts) =
          if e.body ≠ none ∧ r.length > 10485760 then .ret ((c.plug (e.cons .nil)).render, some .invalidValue) else .ret (r, none) := by
  obtain ⟨as, ws, h1, h2⟩ := set_appendB ho hps hpl hL h
  refine ⟨as, ws, h1, fun x hx k1 k2 hk hal v w hv0 hv hw => ⟨_, rfl, ?_⟩⟩
  rw [← wrapElem_render]
  exact h2 x hx k1 k2 hk hal v w hv0 hv hw

/-- C48: the same at the top level, never on a line of its own. -/
theorem C48_append_root (o : Ord) (ho : o.IsPerm) (opts : Options) (k1 k2 : Forest) (h : Sound (k1.append k2)) (x : Bytes) (hx : PlainName x)
    (hal : AfterLastBy opts.caseSensitive x k1 k2) (v : GoVal) (w : Bytes) (hv0 : v ≠ .nil) (hv : valueToXML v = some w) (hw : w.length ≤ 5242880) :
    ∃ r, r = k1.render ++ (plainEl (spelling opts.caseSensitive x) w).render ++ k2.render ∧
      setWithOptions o (k1.append k2).render (pathOf [x, b!"-1"]) v (some opts) =
        if r.length > 10485760 then .ret ((k1.append k2).render, some .invalidValue) else .ret (r, none) := by
  refine ⟨_, rfl, ?_⟩
  rw [← wrapElem_render]
  exact set_append_rootB ho h hx hal hv0 hv hw

/-- C48: and every content has such a place. -/
theorem C48_append_place (cs : Bool) (x : Bytes) (k : Forest) : ∃ k1 k2, k = k1.append k2 ∧ AfterLastBy cs x k1 k2 := afterLast_existsB x k

/-! ### cases -/

def inOpts : Options := ⟨false, b!"  ", false, none⟩

theorem exLeadsCi : LeadsBy false [(b!"R", 0), (b!"A", 1)] exCtx exEl.name := by
  refine ⟨by decide +kernel, by decide +kernel, by decide +kernel, by decide +kernel⟩

theorem exStepsCi : StepsText [(b!"R", 0), (b!"A", 1)] [b!"R", b!"A", b!"1"] :=
  .name (plain_of (by decide)) (.index (plain_of (by decide)) (.digit 49 (by decide)) (by decide) .nil)

example : setWithOptions exEnv.ord b!"<!--x--><r v='1' ><a k=\"&lt;\">x</a> <a><b>y</b></a><c j=\"1\"/></r>" b!"R.A.1" (.str b!"1<2") (some inOpts) =
    .ret (b!"<!--x--><r v='1' ><a k=\"&lt;\">x</a> <a>1&lt;2</a><c j=\"1\"/></r>", none) := by
  have := (C48_set_existing exEnv.ord exEnv_perm inOpts _ _ exStepsCi (by decide) exCtx exEl exLeadsCi exEdit _ _ rfl (.str b!"1<2") _ (by simp) rfl (by decide)).2
  rw [exEdit_render] at this
  exact this

example : setWithOptions exEnv.ord b!"<!--x--><r v='1' ><a k=\"&lt;\">x</a> <a><b>y</b></a><c j=\"1\"/></r>" b!"R.A.1.D.E" (.str b!"v") (some inOpts) =
    .ret (b!"<!--x--><r v='1' ><a k=\"&lt;\">x</a> <a><b>y</b>\n<d>\n  <e>v</e></d></a><c j=\"1\"/></r>", none) := by
  obtain ⟨as, ws, h1, h2⟩ := C48_set_missing exEnv.ord exEnv_perm inOpts _ _ exStepsCi exCtx exEl exLeadsCi exEdit
  obtain ⟨rfl, rfl⟩ := h1.1 (by simp [exEl])
  have := h2 b!"D" [b!"E"] (fun n hn => name_plain ((by decide : ∀ n ∈ [b!"D", b!"E"], IsName n) n hn)) (by decide) (by decide +kernel) (.str b!"v") _ (by simp) rfl (by decide)
  rw [exEdit_render] at this
  exact this

example : setWithOptions exEnv.ord b!"<!--x--><r v='1' ><a k=\"&lt;\">x</a> <a><b>y</b></a><c j=\"1\"/></r>" b!"R.A.1.B.-1" (.str b!"v") (some inOpts) =
    .ret (b!"<!--x--><r v='1' ><a k=\"&lt;\">x</a> <a><b>y</b>\n      <b>v</b></a><c j=\"1\"/></r>", none) := by
  obtain ⟨as, ws, h1, h2⟩ := C48_append exEnv.ord exEnv_perm inOpts _ _ exStepsCi (by decide) exCtx exEl exLeadsCi exEdit
  obtain ⟨rfl, rfl⟩ := h1.1 (by simp [exEl])
  obtain ⟨r, rfl, this⟩ := h2 b!"B" (plain_of (by decide)) exEl.kids .nil rfl (.inl ⟨.nil, ⟨b!"b", [], [], some (.text b!"y" .nil, [])⟩, rfl, by decide +kernel, rfl⟩) (.str b!"v") _ (by simp) rfl (by decide)
  rw [exEdit_render, if_neg (by decide +kernel)] at this
  exact this

example : deleteWithOptions exEnv.ord b!"<a K=\"1\" j=\"2\" k=\"3\"/>" b!"A.@k" (some ciOpts) = .ret (b!"<a j=\"2\"/>", none) := by decide +kernel
example : delete exEnv.ord b!"<a K=\"1\" j=\"2\" k=\"3\"/>" b!"a.@k" = .ret (b!"<a K=\"1\" j=\"2\"/>", none) := by decide +kernel

/-- C48: when several attributes of an element have that name but for the case, all of them get the value. -/
theorem C48_attributes_alike : setWithOptions exEnv.ord b!"<a K=\"1\" k=\"2\" j=\"3\"/>" b!"A.@K" (.str b!"v") (some ciOpts) =
    .ret (b!"<a K=\"v\" j=\"3\" k=\"v\"/>", none) := by decide +kernel

/-- C48: without case sensitivity new names are written in lower case, also below a parent written otherwise. -/
theorem C48_lower : setWithOptions exEnv.ord b!"<Root></Root>" b!"Root.Item.@Key" (.str b!"v") (some ciOpts) =
    .ret (b!"<Root><item key=\"v\"></item></Root>", none) := by decide +kernel

/-- C48: the indentation of new elements starts anew wherever they are, and end tags are not put on lines of their own. -/
theorem C48_layout : setWithOptions exEnv.ord b!"<r>\n  <a>\n  </a>\n</r>" b!"r.a.b.c" (.str b!"v") (some inOpts) =
    .ret (b!"<r>\n  <a>\n  \n<b>\n  <c>v</c></b></a>\n</r>", none) := by decide +kernel

/-- C48: the indentation is written unchecked. -/
theorem C48_indent_unchecked : setWithOptions exEnv.ord b!"<a></a>" b!"a.b" (.str b!"v") (some ⟨true, b!"<", false, none⟩) = .ret (b!"<a>\n<b>v</b></a>", none) ∧
    setWithOptions exEnv.ord b!"<a></a>" b!"a.b.c" (.str b!"v") (some ⟨true, b!"<", false, none⟩) = .ret (b!"<a>\n<b>\n<<c>v</c></b></a>", none) ∧
    valid b!"<a>\n<b>\n<<c>v</c></b></a>" = false := by decide +kernel

end Verif.Props
