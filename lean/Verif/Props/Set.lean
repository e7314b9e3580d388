import Verif.Lemmas.Effect
import Verif.Lemmas.Place
import Verif.Props.Query
/- Properties of Set and Delete: C17-C20, C22, C23, C46. The document is `f.render` for a forest `f` in the layout `Editable`
(Spec/Edit); the place of an element in it is a context `c`. -/
namespace Verif.Props
open Spec

/-! ### examples are checked by deciding the layout -/

instance (as : List Attr) : Decidable (Neat as) :=
  decidable_of_iff ((∀ a ∈ as, a.pre = b!" " ∧ a.mid1 = [] ∧ a.mid2 = [] ∧ a.quote = c!"\"" ∧ a.raw = escapeXML (unescapeXML a.raw)) ∧ (as.map (·.name)).Nodup)
    ⟨fun h => ⟨fun a ha => ⟨(h.1 a ha).1, (h.1 a ha).2.1, (h.1 a ha).2.2.1, (h.1 a ha).2.2.2.1, _, (h.1 a ha).2.2.2.2⟩, h.2⟩,
     fun h => ⟨fun a ha => ⟨(h.1 a ha).1, (h.1 a ha).2.1, (h.1 a ha).2.2.1, (h.1 a ha).2.2.2.1, by
       obtain ⟨v, hv⟩ := (h.1 a ha).2.2.2.2; rw [hv, unescape_escape]⟩, h.2⟩⟩

def decNeat : (f : Forest) → Decidable f.Neat
  | .nil => isTrue trivial
  | .text _ next => decNeat next
  | .misc _ next => decNeat next
  | .leaf _ _ _ next => have := decNeat next; inferInstanceAs (Decidable (_ ∧ _))
  | .node _ _ _ kids _ next => have := decNeat next; have := decNeat kids; inferInstanceAs (Decidable (_ ∧ _))
instance (f : Forest) : Decidable f.Neat := decNeat f

instance (as : List Attr) (ws : Bytes) : Decidable (Even as ws) := inferInstanceAs (Decidable (_ = _))

def decEven : (f : Forest) → Decidable f.Even
  | .nil => isTrue trivial
  | .text _ next => decEven next
  | .misc _ next => decEven next
  | .leaf _ _ _ next => have := decEven next; inferInstanceAs (Decidable (_ ∧ _))
  | .node _ _ _ kids _ next => have := decEven next; have := decEven kids; inferInstanceAs (Decidable (_ ∧ _))
instance (f : Forest) : Decidable f.Even := decEven f

def decStable : (f : Forest) → Decidable f.Stable
  | .nil => isTrue trivial
  | .text _ next => decStable next
  | .misc _ next => decStable next
  | .leaf _ _ _ next => decStable next
  | .node _ _ _ _ _ next => have := decStable next; inferInstanceAs (Decidable (_ ∧ _))
instance (f : Forest) : Decidable f.Stable := decStable f

def decHasElem : (f : Forest) → Decidable f.HasElem
  | .nil => isFalse id
  | .text _ next => decHasElem next
  | .misc _ next => decHasElem next
  | .leaf _ _ _ _ => isTrue trivial
  | .node _ _ _ _ _ _ => isTrue trivial
instance (f : Forest) : Decidable f.HasElem := decHasElem f

/-- Example: `<!--x--><r v='1' ><a k="&lt;">x</a> <a><b>y</b></a><c j="1"/></r>` with a hole for the second `a`. -/
def exCtx : Ctx :=
  .within (.misc (.comment b!"x") .nil) b!"r" [⟨b!" ", b!"v", [], [], c!"'", b!"1"⟩] b!" "
    (.here (.node b!"a" [⟨b!" ", b!"k", [], [], c!"\"", b!"&lt;"⟩] [] (.text b!"x" .nil) [] <| .text b!" " .nil)
      (.leaf b!"c" [⟨b!" ", b!"j", [], [], c!"\"", b!"1"⟩] [] .nil)) [] .nil

/-- The element in the hole. -/
def exEl : El := ⟨b!"a", [], [], some (.node b!"b" [] [] (.text b!"y" .nil) [] .nil, [])⟩

theorem exEdit_render : (exCtx.plug (exEl.cons .nil)).render = b!"<!--x--><r v='1' ><a k=\"&lt;\">x</a> <a><b>y</b></a><c j=\"1\"/></r>" := by decide +kernel
theorem editable_of {f : Forest} (h : f.render.length ≤ 10485760 ∧ f.Legal 0 ∧ f.Tidy true ∧ f.HasElem ∧ f.Stable) : Editable f :=
  ⟨h.1, h.2.1, h.2.2.1.tame, h.2.2.2⟩
theorem exEdit : Editable (exCtx.plug (exEl.cons .nil)) := editable_of (by decide +kernel)
/-- `r.a.1` leads to it. -/
theorem exLeads : Leads [(b!"r", 0), (b!"a", 1)] exCtx exEl.name := by
  refine ⟨by decide +kernel, by decide +kernel, by decide +kernel, by decide +kernel⟩
theorem exSteps : StepsText [(b!"r", 0), (b!"a", 1)] [b!"r", b!"a", b!"1"] :=
  .name (plain_of (by decide)) (.index (plain_of (by decide)) (.digit 49 (by decide)) (by decide) .nil)

/-! ## C18 Set changes only the content of the target -/

/-- C18: when the path leads to an element that is not self-closing, Set replaces the bytes between its tags by the value, and no other byte. -/
theorem C18_set_existing (o : Ord) (ho : o.IsPerm) (ps : List Step) (parts : List Bytes) (hps : StepsText ps parts) (hpl : parts.length ≤ 100)
    (c : Ctx) (e : El) (hL : Leads ps c e.name) (h : Editable (c.plug (e.cons .nil))) (kids : Forest) (cws : Bytes) (_hb : e.body = some (kids, cws))
    (v : GoVal) (w : Bytes) (hv0 : v ≠ .nil) (hv : valueToXML v = some w) (hw : w.length ≤ 5242880) :
    (c.plug (e.cons .nil)).render = c.before ++ e.start ++ kids.render ++ e.stop ++ c.after ∧
    set o (c.plug (e.cons .nil)).render (pathOf parts) v = .ret (c.before ++ e.start ++ w ++ e.stop ++ c.after, none) := by
  refine ⟨?_, set_existing ho hps hpl hL h hv0 hv hw⟩
  rw [plug_el_render]; simp [El.inner, _hb]

/-- C18: what the value is for the types a caller can pass. -/
theorem C18_values (s : Bytes) (i : Int) : valueToXML (.str s) = some (escapeXML s) ∧ valueToXML (.int i) = some (intDec i) ∧
    valueToXML (.bool true) = some b!"true" ∧ valueToXML (.bool false) = some b!"false" ∧ valueToXML (.raw s) = some s ∧ valueToXML .other = none :=
  ⟨rfl, rfl, rfl, rfl, rfl, rfl⟩

/-- C18: every path of steps leads to a definite place or nowhere: `follow` finds an element exactly if there is such a context. -/
theorem C18_place (ps : List Step) (f : Forest) (nd : Node) :
    f.info.follow ps = some nd ↔ ∃ c e, f = c.plug (El.cons e .nil) ∧ Leads ps c e.name ∧ e.node = nd :=
  ⟨follow_leads, fun ⟨_, _, h1, h2, h3⟩ => by rw [h1, leads_follow h2, h3]⟩

example : set exEnv.ord b!"<!--x--><r v='1' ><a k=\"&lt;\">x</a> <a><b>y</b></a><c j=\"1\"/></r>" b!"r.a.1" (.str b!"1<2") =
    .ret (b!"<!--x--><r v='1' ><a k=\"&lt;\">x</a> <a>1&lt;2</a><c j=\"1\"/></r>", none) := by
  have := (C18_set_existing exEnv.ord exEnv_perm _ _ exSteps (by decide) exCtx exEl exLeads exEdit _ _ rfl (.str b!"1<2") _ (by simp) rfl (by decide)).2
  rw [exEdit_render] at this
  exact this

/-- C18: for a self-closing target the value is written behind the tag instead: the content of the element stays empty. -/
theorem C18_self_closing : set exEnv.ord b!"<a><b/></a>" b!"a.b" (.str b!"v") = .ret (b!"<a><b/>v</a>", none) := by decide +kernel

/-- C18: and in documents not in the layout, the bytes replaced may be others: an empty tag written with a blank before it shifts the place
by one, so the `>` of the start tag is overwritten and the old content stays. -/
theorem C18_shifted : valid b!"<a><b /><c>v</c></a>" = true ∧
    set exEnv.ord b!"<a><b /><c>v</c></a>" b!"a.c" (.str b!"x") = .ret (b!"<a><b /><cxv</c></a>", none) ∧ valid b!"<a><b /><cxv</c></a>" = false := by decide +kernel

/-- C18: white space in the end tag of the target shifts the end. -/
theorem C18_end_tag : valid b!"<a>x</a >" = true ∧ set exEnv.ord b!"<a>x</a >" b!"a" (.str b!"y") = .ret (b!"<a>y/a >", none) := by decide +kernel

/-- C18: comments are read for tags too: an element in a comment does no harm when it is written in the layout, otherwise the place is shifted; after an end tag
or a lone `<` in a comment the value is written into the comment or over a tag. -/
theorem C18_comments :
    set exEnv.ord b!"<a><!-- <b/> --><c>v</c></a>" b!"a.c" (.str b!"x") = .ret (b!"<a><!-- <b/> --><c>x</c></a>", none) ∧
    set exEnv.ord b!"<a><!-- <b /> --><c>v</c></a>" b!"a.c" (.str b!"x") = .ret (b!"<a><!-- <b /> --><cxv</c></a>", none) ∧
    set exEnv.ord b!"<a><!-- </a> --><c>v</c></a>" b!"a.c" (.str b!"x") = .ret (b!"<a><!-- <c>x</c></a> --><c>v</c></a>", none) ∧
    set exEnv.ord b!"<a><!-- p < q --><c>v</c></a>" b!"a.c" (.str b!"x") = .ret (b!"<a><!-- p < q -->xc>v</c></a>", none) ∧
    valid b!"<a><!-- <b/> --><c>v</c></a>" = true ∧ valid b!"<a><!-- <b /> --><c>v</c></a>" = true ∧
    valid b!"<a><!-- </a> --><c>v</c></a>" = true ∧ valid b!"<a><!-- p < q --><c>v</c></a>" = true := by decide +kernel

/-- C18: nor with a processing instruction of more than one word inside the element: it is read as a tag and written back shorter, so the
value goes to the wrong place; and a quote in it hides the elements up to the next one from Get. All these documents are valid. -/
theorem C18_instructions :
    set exEnv.ord b!"<a><?p?><c>v</c></a>" b!"a.c" (.str b!"x") = .ret (b!"<a><?p?><c>x</c></a>", none) ∧
    set exEnv.ord b!"<a><?p q?><c>v</c></a>" b!"a.c" (.str b!"x") = .ret (b!"<a><?p q?>xc>v</c></a>", none) ∧
    set exEnv.ord b!"<a><?p q=\"1\"?><c>v</c></a>" b!"a.c" (.str b!"x") = .ret (b!"<a><?p q=\"1\"?><cxv</c></a>", none) ∧
    get exEnv b!"<a><?p q='?><c>v</c><d>it's</d><e>2</e></a>" b!"a.c" = .ret .null ∧
    (∃ r, get exEnv b!"<a><?p q='?><c>v</c><d>it's</d><e>2</e></a>" b!"a.e" = .ret r ∧ r.str = b!"2") ∧
    valid b!"<a><?p?><c>v</c></a>" = true ∧ valid b!"<a><?p q?><c>v</c></a>" = true ∧ valid b!"<a><?p q=\"1\"?><c>v</c></a>" = true ∧
    valid b!"<a><?p q='?><c>v</c><d>it's</d><e>2</e></a>" = true := by
  refine ⟨by decide +kernel, by decide +kernel, by decide +kernel, by decide +kernel, ⟨_, rfl, by decide +kernel⟩, ?_⟩
  decide +kernel

/-- The first of these is in the class. -/
example : Editable (Forest.node b!"a" [] [] (.misc (.pi b!"p?") (.node b!"c" [] [] (.text b!"v" .nil) [] .nil)) [] .nil) ∧
    (Forest.node b!"a" [] [] (.misc (.pi b!"p?") (.node b!"c" [] [] (.text b!"v" .nil) [] .nil)) [] .nil).render = b!"<a><?p?><c>v</c></a>" := by
  refine ⟨⟨by decide +kernel, by decide +kernel, ?_, by decide +kernel, by decide +kernel⟩, by decide +kernel⟩
  exact ⟨by decide +kernel, by decide, ⟨⟨by decide +kernel, by decide⟩, by decide +kernel, by decide, trivial, trivial⟩, trivial⟩

/-- The first document of `C18_comments` is in the class. -/
def shutCtx : Ctx := .within .nil b!"a" [] [] (.here (.misc (.comment b!" <b/> ") .nil) .nil) [] .nil
example : Editable (shutCtx.plug ((⟨b!"c", [], [], some (.text b!"v" .nil, [])⟩ : El).cons .nil)) ∧
    (shutCtx.plug ((⟨b!"c", [], [], some (.text b!"v" .nil, [])⟩ : El).cons .nil)).render = b!"<a><!-- <b/> --><c>v</c></a>" := by
  refine ⟨⟨by decide +kernel, by decide +kernel, ?_, by decide +kernel, by decide +kernel⟩, by decide +kernel⟩
  refine ⟨by decide +kernel, by decide, ⟨⟨⟨.text b!" " (.leaf b!"b" [] [] (.text b!" " .nil)), by decide +kernel, by decide +kernel⟩, by decide, by decide⟩, ?_⟩, trivial⟩
  exact ⟨by decide +kernel, by decide, trivial, trivial⟩

/-- C18: other quotes and other white space between attributes do no harm, as the tags stay as long. -/
def quoteCtx : Ctx := .within .nil b!"r" [] [] (.here (.node b!"a" [⟨b!"\n", b!"k", [], [], c!"'", b!"1"⟩, ⟨b!"\t", b!"j", [], [], c!"'", b!"&lt;"⟩] []
  (.leaf b!"b" [⟨b!"\n", b!"k", [], [], c!"'", b!"1"⟩] [] .nil) [] .nil) .nil) [] .nil
theorem C18_quotes : Editable (quoteCtx.plug ((⟨b!"c", [], [], some (.text b!"v" .nil, [])⟩ : El).cons .nil)) ∧
    (quoteCtx.plug ((⟨b!"c", [], [], some (.text b!"v" .nil, [])⟩ : El).cons .nil)).render = b!"<r><a\nk='1'\tj='&lt;'><b\nk='1'/></a><c>v</c></r>" ∧
    set exEnv.ord b!"<r><a\nk='1'\tj='&lt;'><b\nk='1'/></a><c>v</c></r>" b!"r.c" (.str b!"x") = .ret (b!"<r><a\nk='1'\tj='&lt;'><b\nk='1'/></a><c>x</c></r>", none) :=
  ⟨editable_of (by decide +kernel), by decide +kernel, by decide +kernel⟩

/-! ## C19 creation of missing elements -/

/-- C19: when the path leads to an element `e` and goes on by names of which no child of `e` matches the first one, Set writes the chain of
these elements, around the value, at the end of the content of `e`. All bytes outside `e` are kept, and so are its tag and content; only a
self-closing tag is opened up and written anew, with the same attribute values. -/
theorem C19_set_missing (o : Ord) (ho : o.IsPerm) (ps : List Step) (parts : List Bytes) (hps : StepsText ps parts) (c : Ctx) (e : El)
    (hL : Leads ps c e.name) (h : Editable (c.plug (e.cons .nil))) :
    ∃ as ws, Opened e as ws ∧ ∀ (m : Bytes) (ns : List Bytes), (∀ n ∈ m :: ns, PlainName n) → parts.length + (m :: ns).length ≤ 100 →
      e.kids.info.named m = [] → ∀ (v : GoVal) (w : Bytes), v ≠ .nil → valueToXML v = some w → w.length ≤ 5242880 →
      set o (c.plug (e.cons .nil)).render (pathOf (parts ++ m :: ns)) v =
        .ret (c.before ++ (e.refill as ws (e.kids.append (chain (m :: ns) (.text w .nil)))).render ++ c.after, none) := by
  obtain ⟨as, ws, h1, h2⟩ := set_missing ho hps hL h
  exact ⟨as, ws, h1, h2⟩

/-- C19: when no top-level element matches the first name, the chain is written at the end of the document, whatever its layout. -/
theorem C19_new_root (o : Ord) (ho : o.IsPerm) (f : Forest) (h : Sound f) (m : Bytes) (ns : List Bytes) (hns : ∀ n ∈ m :: ns, PlainName n)
    (hpl : (m :: ns).length ≤ 100) (hm : f.info.named m = []) (v : GoVal) (w : Bytes) (hv0 : v ≠ .nil) (hv : valueToXML v = some w) (hw : w.length ≤ 5242880) :
    set o f.render (pathOf (m :: ns)) v = .ret (f.render ++ (chain (m :: ns) (.text w .nil)).render, none) :=
  set_newRootS ho h hns hpl hm hv0 hv hw

/-- C19: and on the empty document it is the whole result. -/
theorem C19_empty (o : Ord) (m : Bytes) (ns : List Bytes) (hns : ∀ n ∈ m :: ns, PlainName n)
    (hpl : (m :: ns).length ≤ 100) (v : GoVal) (w : Bytes) (hv0 : v ≠ .nil) (hv : valueToXML v = some w) (hw : w.length ≤ 5242880) :
    set o [] (pathOf (m :: ns)) v = .ret ((chain (m :: ns) (.text w .nil)).render, none) :=
  set_empty o hns hpl hv0 hv hw

/-- The part is an attribute part without a modifier. -/
def AttrPart (p : Bytes) : Prop := ∃ a, p = c!"@" :: a ∧ c!"|" ∉ a

/-- Attribute parts do not get an element. -/
def elemParts (ps : List Bytes) : List Bytes := ps.filter (fun p => p.head? ≠ some c!"@")

private theorem at_part {a : Bytes} (h : c!"|" ∉ a) : parsePart (c!"@" :: a) = .seg ⟨.attr a, []⟩ := by
  unfold parsePart
  rw [parseModifiers_plain _ (by simp [h])]
  simp [hasPrefix, List.isPrefixOf]

private def mixSeg (p : Bytes) : Seg := if p.head? = some c!"@" then ⟨.attr (p.drop 1), []⟩ else nameSeg p

private theorem plain_head {p : Bytes} (h : PlainName p) : p.head? ≠ some c!"@" := h.noAt

private theorem mix_parts (ps : List Bytes) (h : ∀ p ∈ ps, PlainName p ∨ AttrPart p) : parseParts ps = .ok (ps.map mixSeg) := by
  induction ps with
  | nil => rfl
  | cons p ps ih =>
    have hp : parsePart p = .seg (mixSeg p) := by
      rcases h p (by simp) with hp | ⟨a, rfl, ha⟩
      · rw [parsePart_plain p hp, mixSeg, if_neg (plain_head hp)]; rfl
      · rw [at_part ha]; simp [mixSeg]
    rw [parseParts, hp]
    simp only
    rw [ih fun q hq => h q (by simp [hq])]
    rfl

private theorem mix_build (ps : List Bytes) (n w : Bytes) (h : n.head? ≠ some c!"@") (i : Nat) :
    buildPathFrom [] w i ((ps ++ [n]).map mixSeg) = (chain (elemParts ps ++ [n]) (.text w .nil)).render := by
  induction ps generalizing i with
  | nil => simp [mixSeg, if_neg h, elemParts, nameSeg, buildPathFrom, Seg.isAttr, Seg.value, indentAt, chain, Forest.render, openTag, closeTag]
  | cons p ps ih =>
    by_cases hp : p.head? = some c!"@"
    · have he : elemParts (p :: ps) = elemParts ps := by simp [elemParts, hp]
      rw [he, ← ih (i + 1)]
      simp [mixSeg, if_pos hp, buildPathFrom, Seg.isAttr]
    · have he : elemParts (p :: ps) = p :: elemParts ps := by simp [elemParts, hp]
      rw [he, List.cons_append, List.cons_append, List.map_cons, buildPathFrom]
      rw [ih (i + 1)]
      simp [mixSeg, if_neg hp, nameSeg, Seg.isAttr, Seg.value, indentAt, chain, Forest.render, openTag, closeTag]

/-- C19: attribute parts in the middle of the path are left out. -/
theorem C19_empty_attrs (o : Ord) (ps : List Bytes) (n : Bytes) (hps : ∀ p ∈ ps, PlainName p ∨ AttrPart p) (hn : PlainName n) (hl : ps.length < 100)
    (v : GoVal) (w : Bytes) (hv0 : v ≠ .nil) (hv : valueToXML v = some w) (hw : w.length ≤ 5242880) :
    set o [] (pathOf (ps ++ [n])) v = .ret ((chain (elemParts ps ++ [n]) (.text w .nil)).render, none) := by
  have hmix : ∀ p ∈ ps ++ [n], PlainName p ∨ AttrPart p := by
    intro p hp
    rcases List.mem_append.mp hp with h | h
    · exact hps p h
    · simp at h; exact h ▸ .inl hn
  have hnn : ps ++ [n] ≠ [[]] := by
    intro h
    cases ps with
    | nil => simp at h; subst h; exact hn.nonempty rfl
    | cons p ps => simp at h
  have hk : ∀ s ∈ (ps ++ [n]).map mixSeg, s.kind ≠ .count ∧ ∀ i, s.kind ≠ .index i := by
    intro s hs
    obtain ⟨p, -, rfl⟩ := List.mem_map.mp hs
    unfold mixSeg; split <;> simp [nameSeg]
  have hp : parsePath (pathOf (ps ++ [n])) = .ok ((ps ++ [n]).map mixSeg) := by
    have h1 := splitPath_pathOf _ hnn
    have h2 : pathOf (ps ++ [n]) ≠ [] := by intro h; rw [h] at h1; simp [splitPath] at h1
    unfold parsePath parsePathInternal
    rw [if_neg (by simpa using h2), h1, if_neg (by simp [maxPathSegments]; omega), mix_parts _ hmix]
    simp only [fuseFields_no_count _ fun s hs => (hk s hs).1]
  have hii : ∀ ss : List Seg, (∀ s ∈ ss, ∀ i, s.kind ≠ .index i) → indexIntent ss = none := by
    intro ss
    induction ss with
    | nil => intro _; rfl
    | cons s ss ih =>
      intro h
      have := h s (by simp)
      unfold indexIntent
      split
      · next i hi => exact absurd hi (this i)
      · exact ih fun x hx => h x (by simp [hx])
  have hlast : ((ps ++ [n]).map mixSeg).getLast? = some (nameSeg n) := by
    simp [mixSeg, if_neg (plain_head hn)]
  have hf : findLoc o true ((ps ++ [n]).map mixSeg) [] 0 = none := by
    cases h : (ps ++ [n]).map mixSeg with
    | nil => rfl
    | cons s ss =>
      unfold findLoc
      rw [topElems_none (by simp [skipToNext])]
      simp only [List.filter_nil, List.head?_nil, Option.map_none, List.getElem?_nil]
      repeat' split
      all_goals rfl
  have he : (effOpts (some defaultOptions)).caseSensitive = true := rfl
  have he2 : (effOpts (some defaultOptions)).indent = [] := rfl
  unfold set setWithOptions
  rw [if_neg (by simp [docMax]), if_neg (by simp), if_neg hv0, he, he2, parseOpt_true hp]
  have hne : (ps ++ [n]).map mixSeg ≠ [] := by simp
  have hset : setElement o true [] [] ((ps ++ [n]).map mixSeg) v = .ok ((chain (elemParts ps ++ [n]) (.text w .nil)).render) := by
    unfold setElement
    rw [hlast, hv, hii _ fun s hs => (hk s hs).2]
    simp only [nameSeg]
    rw [if_neg (by simp only [maxValueSize]; omega), if_neg (by simp [docMax]), hf]
    simp only [createElement, List.isEmpty_nil, if_true, List.nil_append, buildElementPath]
    rw [mix_build ps n w (plain_head hn)]
  split
  · next h => simp at h
  · next h => cases h
  · next h => simp at h
  · next ss _ h =>
    simp only [Parse.ok.injEq] at h
    rw [← h, hset, finish_ok]
    cases hc : elemParts ps with
    | nil => simp [chain, Forest.render, openTag]
    | cons x xs => simp [chain, Forest.render, openTag]

example : set exEnv.ord [] b!"a.@x.b" (.str b!"v") = .ret (b!"<a><b>v</b></a>", none) :=
  C19_empty_attrs _ [b!"a", b!"@x"] b!"b" (by intro p hp; simp at hp; rcases hp with rfl | rfl; exact .inl (plains_of (ns := [b!"a"]) (by decide) _ (by simp)); exact .inr ⟨b!"x", rfl, by simp⟩)
    (plains_of (ns := [b!"b"]) (by decide) _ (by simp)) (by simp) (.str b!"v") _ (by simp) rfl (by decide)

/-- C19: also below an element that is there. -/
theorem C19_inner_attr : set exEnv.ord b!"<r><k/></r>" b!"r.a.@x.b" (.str b!"v") = .ret (b!"<r><k/><a><b>v</b></a></r>", none) ∧
    set exEnv.ord b!"<r x=\"1\"><b>u</b></r>" b!"r.@x.b" (.str b!"v") = .ret (b!"<r x=\"1\"><b>u</b><b>v</b></r>", none) := by decide +kernel

/-- C19: these are all cases for a path of names: it leads to an element, or a proper beginning of it does and its next name is missing there, or
its first name is missing. -/
theorem C19_cases (f : Forest) (ns : List Bytes) (n : Bytes) :
    (∃ c e, f = c.plug (El.cons e .nil) ∧ Leads (firsts (ns ++ [n])) c e.name) ∨
    (∃ as bs c e, as ≠ [] ∧ ns = as ++ bs ∧ f = c.plug (El.cons e .nil) ∧ Leads (firsts as) c e.name ∧ e.kids.info.named ((bs ++ [n]).head (by simp)) = []) ∨
    f.info.named ((ns ++ [n]).head (by simp)) = [] := locate_split f ns n

example : set exEnv.ord b!"<!--x--><r v='1' ><a k=\"&lt;\">x</a> <a><b>y</b></a><c j=\"1\"/></r>" b!"r.a.1.c.d" (.bool true) =
    .ret (b!"<!--x--><r v='1' ><a k=\"&lt;\">x</a> <a><b>y</b><c><d>true</d></c></a><c j=\"1\"/></r>", none) := by
  obtain ⟨as, ws, h1, h2⟩ := C19_set_missing exEnv.ord exEnv_perm _ _ exSteps exCtx exEl exLeads exEdit
  have := h2 b!"c" [b!"d"] (plains_of (by decide)) (by decide) (by decide +kernel) (.bool true) _ (by simp) rfl (by decide +kernel)
  obtain ⟨rfl, rfl⟩ := h1.kept (by decide)
  rw [exEdit_render] at this
  exact this
example : set exEnv.ord b!"<r/>" b!"q.x" (.bool true) = .ret (b!"<r/><q><x>true</x></q>", none) := by decide +kernel

/-- C19: an index that does not exist does not create an element of that index: the code writes an element without a name. -/
theorem C19_index_creates_nameless : set exEnv.ord b!"<r><a>1</a></r>" b!"r.a.1" (.str b!"v") = .ret (b!"<r><a>1<>v</></a></r>", none) ∧
    valid b!"<r><a>1<>v</></a></r>" = false := by decide +kernel

/-- C19: names of new elements are written unchecked. -/
theorem C19_names_unchecked : set exEnv.ord b!"<r/>" b!"r.x><y/><z" (.str b!"v") = .ret (b!"<r><x><y/><z>v</x><y/><z></r>", none) := by decide +kernel

/-! ## the combined statement for paths of names -/

/-- C19: when the first step of the path is no name (here an index), Set writes elements without a name into the first root, keeping its attributes,
and reports no error; the result is not valid. -/
theorem C19_first_step_odd : set exEnv.ord b!"<r k=\"1\"/>" b!"0.x" (.str b!"v") = .ret (b!"<r k=\"1\"><><x>v</x></></r>", none) ∧
    set exEnv.ord b!"<r k=\"1\"><a/></r><q/>" b!"0.x" (.str b!"v") = .ret (b!"<r k=\"1\"><a/><><x>v</x></></r><q/>", none) ∧
    valid b!"<r k=\"1\"><><x>v</x></></r>" = false := by decide +kernel

/-- What Set with a path of names does, in any case: the result is again a document in the layout, and the path now leads to an element
with the value as its only content. The places are the same for all values. -/
theorem set_names (o : Ord) (ho : o.IsPerm) (f : Forest) (h : Editable f) (ns : List Bytes) (n : Bytes) (hn : ∀ m ∈ ns ++ [n], IsName m) (hl : ns.length < 100)
    (hsc : ∀ c e, f = c.plug (El.cons e .nil) → Leads (firsts (ns ++ [n])) c e.name → e.body ≠ none) :
    ∃ (c : Ctx) (x : Bytes) (e : Bytes → El), Leads (firsts (ns ++ [n])) c x ∧
      (∀ w, (e w).name = x ∧ (e w).body = some (.text w .nil, []) ∧ ∀ w', (e w).fill w' = e w') ∧
      ∀ (v : GoVal) (w : Bytes), v ≠ .nil → valueToXML v = some w → w.length ≤ 5242880 →
        set o f.render (pathOf (ns ++ [n])) v = .ret ((c.plug ((e w).cons .nil)).render, none) ∧
        (c!"<" ∉ w → (c.plug ((e w).cons .nil)).render.length ≤ 10485760 → Editable (c.plug ((e w).cons .nil))) := by
  have hpn : ∀ m ∈ ns ++ [n], PlainName m := fun m hm => name_plain (hn m hm)
  rcases locate_split f ns n with ⟨c, e, rfl, hL⟩ | ⟨as, bs, c, e, h0, rfl, rfl, hL, hm⟩ | hm
  · have hb := hsc c e rfl hL
    refine ⟨c, e.name, fun w => e.fill w, hL, fun w => ⟨rfl, ?_, fun w' => by simp [El.fill, Function.comp_def]⟩, fun v w hv0 hv hw => ⟨?_, fun hlt hsz => ?_⟩⟩
    · show (e.fill w).body = _
      rw [fill_refill h hb]; rfl
    · rw [set_existing ho (stepsText_names hpn) (by simp; omega) hL h hv0 hv hw, fill_render hb]
    · exact editable_fill h hb hlt (by rw [← fill_render hb]; exact hsz)
  · obtain ⟨at', ws', hop, hset⟩ := set_missing ho (stepsText_names (ns := as) (fun m hm => hpn m (by simp [hm]))) hL h
    obtain ⟨c2, hL2, hplug⟩ := created_leads (as := at') (ws := ws') hL hm
    have hd : c.depth + 1 = as.length := by have := leads_depth hL; simp [firsts] at this; omega
    obtain ⟨m, ms, e1⟩ : ∃ m ms, bs ++ [n] = m :: ms := by cases bs <;> simp
    refine ⟨c2, n, tip n, ?_, fun w => ⟨rfl, rfl, fun _ => rfl⟩, fun v w hv0 hv hw => ⟨?_, fun hlt hsz => ?_⟩⟩
    · rw [List.append_assoc, firsts, List.map_append]; exact hL2
    · have hmem : ∀ k ∈ m :: ms, k ∈ as ++ bs ++ [n] := by rw [← e1]; intro k hk; simp at hk ⊢; right; exact hk
      have := hset m ms (fun k hk => hpn k (hmem k hk)) (by rw [← e1]; simp at hl ⊢; omega) (by simpa only [e1, List.head_cons] using hm) v w hv0 hv hw
      rw [List.append_assoc, e1, this, hplug, e1, plug_render, cons_render]
      simp [Forest.render]
    · rw [hplug] at hsz ⊢
      have hmem : ∀ k ∈ bs ++ [n], k ∈ as ++ bs ++ [n] := by intro k hk; simp at hk ⊢; right; exact hk
      refine editable_created h (by simp) (fun k hk => hn k (hmem k hk)) (by simp at hl ⊢; omega) hlt hop ?_
      rw [plug_render, cons_render] at hsz
      simpa [Forest.render] using hsz
  · obtain ⟨c2, hL2, hplug⟩ := newRoot_leads (f := f) (ns := ns) (n := n) hm
    obtain ⟨m, ms, e1⟩ : ∃ m ms, ns ++ [n] = m :: ms := by cases ns <;> simp
    refine ⟨c2, n, tip n, hL2, fun w => ⟨rfl, rfl, fun _ => rfl⟩, fun v w hv0 hv hw => ⟨?_, fun hlt hsz => ?_⟩⟩
    · have := set_newRootS ho (editable_sound h) (m := m) (ns := ms) (by rw [← e1]; exact hpn) (by rw [← e1]; simp; omega) (by simpa only [e1, List.head_cons] using hm) hv0 hv hw
      rw [hplug, e1, this, append_render]
    · rw [hplug] at hsz ⊢
      exact editable_newRoot h (by simp) hn (by simp; omega) hlt (by rw [← append_render]; exact hsz)

/-! ## C20 documents stay valid -/

/-- The text written for a value other than raw XML has no `<`: strings are escaped. (`float` carries the text of the number.) -/
theorem C20_no_markup (s : Bytes) : c!"<" ∉ escapeXML s := fun h => (escapeXML_mem h).1 rfl

/-- C20: Set with a path of legal names and a value without markup gives a valid document (if it is not too long), unless the target is self-closing. -/
theorem C20_set_valid (o : Ord) (ho : o.IsPerm) (f : Forest) (h : Editable f) (ns : List Bytes) (n : Bytes) (hn : ∀ m ∈ ns ++ [n], IsName m) (hl : ns.length < 100)
    (hsc : ∀ c e, f = c.plug (El.cons e .nil) → Leads (firsts (ns ++ [n])) c e.name → e.body ≠ none)
    (v : GoVal) (w : Bytes) (hv0 : v ≠ .nil) (hv : valueToXML v = some w) (hw : w.length ≤ 5242880) (hlt : c!"<" ∉ w) :
    ∃ r, set o f.render (pathOf (ns ++ [n])) v = .ret (r, none) ∧ (r.length ≤ 10485760 → valid r = true) := by
  obtain ⟨c, x, e, -, -, hset⟩ := set_names o ho f h ns n hn hl hsc
  obtain ⟨h1, h2⟩ := hset v w hv0 hv hw
  exact ⟨_, h1, fun hsz => editable_valid (h2 hlt hsz)⟩

/-- C20: also with indices, for an existing target; a self-closing one must be inside another element. -/
theorem C20_set_existing (o : Ord) (ho : o.IsPerm) (ps : List Step) (parts : List Bytes) (hps : StepsText ps parts) (hpl : parts.length ≤ 100)
    (c : Ctx) (e : El) (hL : Leads ps c e.name) (h : Editable (c.plug (e.cons .nil))) (hsc : e.body = none → 0 < c.depth)
    (v : GoVal) (w : Bytes) (hv0 : v ≠ .nil) (hv : valueToXML v = some w) (hw : w.length ≤ 5242880) (hlt : c!"<" ∉ w) :
    ∃ r, set o (c.plug (e.cons .nil)).render (pathOf parts) v = .ret (r, none) ∧ (r.length ≤ 10485760 → valid r = true) := by
  refine ⟨_, set_existing ho hps hpl hL h hv0 hv hw, fun hsz => ?_⟩
  cases hb : e.body with
  | some q =>
    have hb : e.body ≠ none := by rw [hb]; simp
    have := editable_valid (editable_fill h hb hlt hsz)
    rwa [fill_render hb] at this
  | none =>
    have hd := hsc hb
    have hg := editable_el h
    have hr : (c.plug ((e.cons .nil).append (.text w .nil))).render = c.before ++ e.start ++ w ++ e.stop ++ c.after := by
      rw [plug_render, append_render, cons_render]; simp [Forest.render, El.render, El.inner, El.stop, hb]
    have he : Editable (c.plug ((e.cons .nil).append (.text w .nil))) := by
      refine editable_swap h ?_ ?_ ?_ ?_ (plug_hasElem_of ((append_hasElem _ _).mpr (.inl (cons_hasElem e .nil)))) (by rw [hr]; exact hsz)
      · rw [append_legal]; exact ⟨hg.legal, hlt, fun hh => by omega, trivial⟩
      · rw [append_tame]; exact ⟨hg.tame, trivial⟩
      · rw [append_stable]; exact ⟨hg.stable, trivial⟩
      · intro hh; rw [append_even]; exact ⟨hg.even (by simpa using hh), trivial⟩
    have := editable_valid he
    rwa [hr] at this

example : ∀ c e, exCtx.plug (exEl.cons .nil) = c.plug (El.cons e .nil) → Leads (firsts [b!"r", b!"a"]) c e.name → e.body ≠ none := by
  intro c e h1 h2 hb
  have h3 := leads_follow h2
  rw [← h1] at h3
  have h4 : ((exCtx.plug (exEl.cons .nil)).info.follow (firsts [b!"r", b!"a"])).map (fun nd => nd.kids.textValue) = some b!"x" := by decide +kernel
  rw [h3] at h4
  simp only [Option.map_some, El.node, hb, Option.some.injEq] at h4
  revert h4; decide +kernel

/-- C20: setting a self-closing root writes text behind it, which is not valid. -/
theorem C20_root_self_closing : valid b!"<b/>" = true ∧ set exEnv.ord b!"<b/>" b!"b" (.str b!"v") = .ret (b!"<b/>v", none) ∧ valid b!"<b/>v" = false := by decide +kernel

/-! ## C17 reading back -/

/-- The value read by String() at a place holding the text `w`. -/
theorem get_at (env : Env) (ho : env.ord.IsPerm) (c : Ctx) (e : El) (w : Bytes) (ns : List Bytes) (n : Bytes) (hn : ∀ m ∈ ns ++ [n], PlainName m)
    (hl : ns.length < 100) (hL : Leads (firsts (ns ++ [n])) c e.name) (hb : e.body = some (.text w .nil, [])) (h : Editable (c.plug (e.cons .nil))) (hgt : c!">" ∉ w) :
    ∃ a, get env (c.plug (e.cons .nil)).render (pathOf (ns ++ [n])) = .ret a ∧ a.typ = .element ∧ a.toStr = unescapeXML (trimSpace w) := by
  have hs := follow_select (leads_follow hL)
  have := C04_get_element env ho _ _ (editable_says h) ns n hn hl
  rw [hs] at this
  obtain ⟨a, h1, h2⟩ := this
  refine ⟨a, h1, h2.typ, ?_⟩
  have hf : w.filter (fun c => c ≠ c!">") = w := List.filter_eq_self.mpr (fun c hc => by simp; intro hh; exact hgt (hh ▸ hc))
  rw [h2.str, El.node, hb]
  simp only [Info.textValue, Forest.info, Info.allText, hf, List.append_nil]

/-- C17: after Set with a string at a path of names, Get with the same path gives the string without leading and trailing white space,
unless the target was self-closing. -/
theorem C17_set_get (env : Env) (ho : env.ord.IsPerm) (f : Forest) (h : Editable f) (ns : List Bytes) (n : Bytes) (hn : ∀ m ∈ ns ++ [n], IsName m) (hl : ns.length < 100)
    (hsc : ∀ c e, f = c.plug (El.cons e .nil) → Leads (firsts (ns ++ [n])) c e.name → e.body ≠ none)
    (s : Bytes) (hw : (escapeXML s).length ≤ 5242880) :
    ∃ r, set env.ord f.render (pathOf (ns ++ [n])) (.str s) = .ret (r, none) ∧
      (r.length ≤ 10485760 → ∃ a, get env r (pathOf (ns ++ [n])) = .ret a ∧ a.typ = .element ∧ a.toStr = trimSpace s) := by
  obtain ⟨c, x, e, hL, he, hset⟩ := set_names env.ord ho f h ns n hn hl hsc
  obtain ⟨h1, h2⟩ := hset (.str s) _ (by simp) rfl hw
  refine ⟨_, h1, fun hsz => ?_⟩
  obtain ⟨e1, e2, -⟩ := he (escapeXML s)
  obtain ⟨a, g1, g2, g3⟩ := get_at env ho c (e (escapeXML s)) _ ns n (fun m hm => name_plain (hn m hm)) hl (by rw [e1]; exact hL) e2 (h2 (C20_no_markup s) hsz)
    (fun hh => (escapeXML_mem hh).2.1 rfl)
  exact ⟨a, g1, g2, by rw [g3, trim_escape, unescape_escape]⟩

example : ∃ r, set exEnv.ord (exCtx.plug (exEl.cons .nil)).render b!"r.q.x" (.str b!" <&> ") = .ret (r, none) ∧
    (r.length ≤ 10485760 → ∃ a, get exEnv r b!"r.q.x" = .ret a ∧ a.typ = .element ∧ a.toStr = b!"<&>") := by
  have := C17_set_get exEnv exEnv_perm _ exEdit [b!"r", b!"q"] b!"x" (by decide) (by decide) (by
    intro c e h1 h2
    have h3 := leads_follow h2
    rw [← h1] at h3
    have h4 : ((exCtx.plug (exEl.cons .nil)).info.follow (firsts [b!"r", b!"q", b!"x"])).isNone = true := by decide +kernel
    have h5 : firsts ([b!"r", b!"q"] ++ [b!"x"]) = firsts [b!"r", b!"q", b!"x"] := rfl
    rw [h5] at h3
    rw [h3] at h4; simp at h4) b!" <&> " (by decide)
  rw [show trimSpace b!" <&> " = b!"<&>" from by decide +kernel] at this
  exact this

/-- C17: a self-closing target does not hold the value afterwards. -/
theorem C17_self_closing : set exEnv.ord b!"<a><b/></a>" b!"a.b" (.str b!"v") = .ret (b!"<a><b/>v</a>", none) ∧
    get exEnv b!"<a><b/>v</a>" b!"a.b" = .ret (.ofContent []) ∧ (Result.ofContent []).toStr = [] := by decide +kernel

/-- C17: Set can succeed on a path whose first match Get skips: Get returns to later elements, Set does not. -/
theorem C17_no_return : set exEnv.ord b!"<r><a/><a><b>1</b></a></r>" b!"r.a.b" (.str b!"2") = .ret (b!"<r><a><b>2</b></a><a><b>1</b></a></r>", none) := by decide +kernel

/-! ## C22 Delete -/

/-- C22: when the path leads to an element, Delete removes exactly its bytes, from the `<` of its start tag to the `>` of its end tag; if nothing
would be left, the document is returned unchanged. -/
theorem C22_delete (o : Ord) (ho : o.IsPerm) (ps : List Step) (parts : List Bytes) (hps : StepsText ps parts) (hpl : parts.length ≤ 100)
    (c : Ctx) (e : El) (hL : Leads ps c e.name) (h : Editable (c.plug (e.cons .nil))) :
    (c.plug (e.cons .nil)).render = c.before ++ e.render ++ c.after ∧
    delete o (c.plug (e.cons .nil)).render (pathOf parts) =
      .ret (if c.before ++ c.after = [] then (c.plug (e.cons .nil)).render else c.before ++ c.after, none) :=
  ⟨by rw [plug_el_render]; simp [El.render], delete_existing ho hps hpl hL h⟩

/-- C22: what is left says what the document said without that element: it is removed from what the path of names selects. -/
theorem C22_removed (o : Ord) (ho : o.IsPerm) (ns : List Bytes) (n : Bytes) (hn : ∀ m ∈ ns ++ [n], PlainName m) (hl : ns.length < 100)
    (c : Ctx) (e : El) (hL : Leads (firsts (ns ++ [n])) c e.name) (h : Editable (c.plug (e.cons .nil))) (hne : c.before ++ c.after ≠ []) :
    delete o (c.plug (e.cons .nil)).render (pathOf (ns ++ [n])) = .ret ((c.plug .nil).render, none) ∧ Says (c.plug .nil).render (c.plug .nil).info ∧
    (c.plug (e.cons .nil)).info.select ns n = e.node :: (c.plug .nil).info.select ns n := by
  have hd := delete_existing ho (stepsText_names hn) (by simp; omega) hL h
  have hr : (c.plug .nil).render = c.before ++ c.after := by rw [plug_render]; simp [Forest.render]
  rw [if_neg hne, ← hr] at hd
  refine ⟨hd, ⟨?_, .done (c.plug .nil), ?_, ?_, rfl, rfl⟩, ?_⟩
  · have := h.1; rw [plug_el_render] at this; rw [hr]; simp only [List.length_append] at this ⊢; omega
  · exact ((plug_legal h.2.1).2 .nil trivial).loose
  · exact (plug_tame h.2.2.1).2 .nil trivial
  · rw [select_eq, select_eq, selectL_removed hL]

/-- C22: so after deleting the only such element the path does not exist. -/
theorem C22_gone (env : Env) (ho : env.ord.IsPerm) (ns : List Bytes) (n : Bytes) (hn : ∀ m ∈ ns ++ [n], PlainName m) (hl : ns.length < 100)
    (c : Ctx) (e : El) (hL : Leads (firsts (ns ++ [n])) c e.name) (h : Editable (c.plug (e.cons .nil))) (hne : c.before ++ c.after ≠ [])
    (h1 : ((c.plug (e.cons .nil)).info.select ns n).length = 1) :
    ∃ r, delete env.ord (c.plug (e.cons .nil)).render (pathOf (ns ++ [n])) = .ret (r, none) ∧ get env r (pathOf (ns ++ [n])) = .ret .null := by
  obtain ⟨g1, g2, g3⟩ := C22_removed env.ord ho ns n hn hl c e hL h hne
  refine ⟨_, g1, ?_⟩
  rw [g3] at h1
  have h2 : (c.plug .nil).info.select ns n = [] := List.length_eq_zero_iff.mp (by simpa using h1)
  have := C04_get_element env ho _ _ g2 ns n hn hl
  rw [h2] at this
  exact this

example : delete exEnv.ord b!"<!--x--><r v='1' ><a k=\"&lt;\">x</a> <a><b>y</b></a><c j=\"1\"/></r>" b!"r.a.1" =
    .ret (b!"<!--x--><r v='1' ><a k=\"&lt;\">x</a> <c j=\"1\"/></r>", none) := by
  have := (C22_delete exEnv.ord exEnv_perm _ _ exSteps (by decide) exCtx exEl exLeads exEdit).2
  rw [exEdit_render] at this
  exact this

/-- C22: the document element itself is not deleted. -/
theorem C22_whole : delete exEnv.ord b!"<a>x</a>" b!"a" = .ret (b!"<a>x</a>", none) := by decide +kernel

/-! ## C23 deleting what is not there -/

/-- C23: deleting a path that leads nowhere changes nothing, in every document of the query class. -/
theorem C23_delete_missing (o : Ord) (ho : o.IsPerm) (xml : Bytes) (i : Info) (h : Says xml i) (hv : valid xml = true) (ps : List Step) (parts : List Bytes)
    (hps : StepsText ps parts) (hne : ps ≠ []) (hpl : parts.length ≤ 100) (hn : i.follow ps = none) :
    delete o xml (pathOf parts) = .ret (xml, none) := delete_missing ho h hv hps hne hpl hn

/-- C23: in particular when Get does not find the path. -/
theorem C23_delete_not_existing (env : Env) (ho : env.ord.IsPerm) (xml : Bytes) (i : Info) (h : Says xml i) (hv : valid xml = true)
    (ns : List Bytes) (n : Bytes) (hn : ∀ m ∈ ns ++ [n], PlainName m) (hl : ns.length < 100) (hg : get env xml (pathOf (ns ++ [n])) = .ret .null) :
    delete env.ord xml (pathOf (ns ++ [n])) = .ret (xml, none) := by
  have := C04_get_element env ho xml i h ns n hn hl
  have hs : i.select ns n = [] := by
    cases hsel : i.select ns n with
    | nil => rfl
    | cons nd r =>
      rw [hsel] at this
      obtain ⟨a, h1, h2⟩ := this
      rw [hg] at h1
      have : a = .null := by simpa using h1.symm
      have h3 := h2.typ
      rw [this] at h3
      simp [Result.null] at h3
  exact delete_missing ho h hv (stepsText_names hn) (by simp [firsts]) (by simp; omega) (follow_none_of_select hs)

example : delete exEnv.ord exDoc.render b!"r.a.c" = .ret (exDoc.render, none) :=
  C23_delete_missing exEnv.ord exEnv_perm _ _ exDoc_says (by decide +kernel) (firsts [b!"r", b!"a", b!"c"]) _ (stepsText_names (plains_of (by decide))) (by decide) (by decide)
    (by
      cases h : exDoc.info.follow (firsts [b!"r", b!"a", b!"c"]) with
      | none => rfl
      | some nd =>
        have : (exDoc.info.follow (firsts [b!"r", b!"a", b!"c"])).isNone = true := by decide +kernel
        rw [h] at this; simp at this)

/-- C23: the converse fails: Delete does nothing on some paths Get finds, because it does not return to later elements. -/
theorem C23_no_return : delete exEnv.ord b!"<r><a/><a><b>1</b></a></r>" b!"r.a.b" = .ret (b!"<r><a/><a><b>1</b></a></r>", none) ∧
    get exEnv b!"<r><a/><a><b>1</b></a></r>" b!"r.a.b" = .ret (.ofContent b!"1") := by decide +kernel

/-! ## C46 later writes win, other reads are unaffected -/

/-- C46: setting the same path of names twice is setting it once with the second value. -/
theorem C46_last_wins (o : Ord) (ho : o.IsPerm) (f : Forest) (h : Editable f) (ns : List Bytes) (n : Bytes) (hn : ∀ m ∈ ns ++ [n], IsName m) (hl : ns.length < 100)
    (hsc : ∀ c e, f = c.plug (El.cons e .nil) → Leads (firsts (ns ++ [n])) c e.name → e.body ≠ none)
    (v1 v2 : GoVal) (w1 w2 : Bytes) (h10 : v1 ≠ .nil) (h20 : v2 ≠ .nil) (hv1 : valueToXML v1 = some w1) (hv2 : valueToXML v2 = some w2)
    (hw1 : w1.length ≤ 5242880) (hw2 : w2.length ≤ 5242880) (hlt : c!"<" ∉ w1) :
    ∃ r, set o f.render (pathOf (ns ++ [n])) v1 = .ret (r, none) ∧
      (r.length ≤ 10485760 → set o r (pathOf (ns ++ [n])) v2 = set o f.render (pathOf (ns ++ [n])) v2) := by
  obtain ⟨c, x, e, hL, he, hset⟩ := set_names o ho f h ns n hn hl hsc
  obtain ⟨h1, h2⟩ := hset v1 w1 h10 hv1 hw1
  obtain ⟨h3, -⟩ := hset v2 w2 h20 hv2 hw2
  refine ⟨_, h1, fun hsz => ?_⟩
  have hed := h2 hlt hsz
  obtain ⟨e1, e2, e3⟩ := he w1
  have hb : (e w1).body ≠ none := by rw [e2]; simp
  rw [h3, set_existing ho (stepsText_names (fun m hm => name_plain (hn m hm))) (by simp; omega) (by rw [e1]; exact hL) hed h20 hv2 hw2, ← fill_render hb, e3]

/-- C46: Set at an existing element does not change what Get says about a path of names that does not go through it or the elements around it. -/
theorem C46_other_reads (env : Env) (ho : env.ord.IsPerm) (ps : List Step) (parts : List Bytes) (hps : StepsText ps parts) (hpl : parts.length ≤ 100)
    (c : Ctx) (e : El) (hL : Leads ps c e.name) (h : Editable (c.plug (e.cons .nil))) (hb : e.body ≠ none)
    (v : GoVal) (w : Bytes) (hv0 : v ≠ .nil) (hv : valueToXML v = some w) (hw : w.length ≤ 5242880) (hlt : c!"<" ∉ w)
    (qs : List Bytes) (q : Bytes) (hq : ∀ m ∈ qs ++ [q], PlainName m) (hl : qs.length < 100) (hmiss : Misses (qs ++ [q]) (c.names ++ [e.name])) :
    ∃ r, set env.ord (c.plug (e.cons .nil)).render (pathOf parts) v = .ret (r, none) ∧ (r.length ≤ 10485760 →
      ∃ a b, get env (c.plug (e.cons .nil)).render (pathOf (qs ++ [q])) = .ret a ∧ get env r (pathOf (qs ++ [q])) = .ret b ∧
        a.typ = b.typ ∧ a.toStr = b.toStr) := by
  refine ⟨_, set_existing ho hps hpl hL h hv0 hv hw, fun hsz => ?_⟩
  have hed := editable_fill h hb hlt hsz
  have hsel := selectL_outside (y := (e.fill w).cons .nil) hmiss (fun m q' hm => selectL_miss (e := e.fill w) hm)
  rw [← select_eq, ← select_eq] at hsel
  have g1 := C04_get_element env ho _ _ (editable_says h) qs q hq hl
  have g2 := C04_get_element env ho _ _ (editable_says hed) qs q hq hl
  rw [hsel] at g2
  rw [fill_render hb] at g2
  cases hh : ((c.plug (e.cons .nil)).info.select qs q).head? with
  | none =>
    rw [hh] at g1 g2
    exact ⟨_, _, g1, g2, rfl, rfl⟩
  | some nd =>
    rw [hh] at g1 g2
    obtain ⟨a, a1, a2⟩ := g1
    obtain ⟨b, b1, b2⟩ := g2
    exact ⟨a, b, a1, b1, by rw [a2.typ, b2.typ], by rw [a2.str, b2.str]⟩

example : ∃ r, set exEnv.ord (exCtx.plug (exEl.cons .nil)).render b!"r.a.1" (.str b!"1<2") = .ret (r, none) ∧ (r.length ≤ 10485760 →
    ∃ a b, get exEnv (exCtx.plug (exEl.cons .nil)).render b!"r.c" = .ret a ∧ get exEnv r b!"r.c" = .ret b ∧ a.typ = b.typ ∧ a.toStr = b.toStr) :=
  C46_other_reads exEnv exEnv_perm _ _ exSteps (by decide) exCtx exEl exLeads exEdit (by decide) (.str b!"1<2") _ (by simp) rfl (by decide) (by decide)
    [b!"r"] b!"c" (plains_of (by decide)) (by decide) ⟨1, b!"c", b!"a", rfl, rfl, by decide⟩

/-- C46: two writes of different paths need not commute: the order of new elements differs. -/
theorem C46_order : set exEnv.ord b!"<r><x>1</x></r>" b!"r.y" (.str b!"2") = .ret (b!"<r><x>1</x><y>2</y></r>", none) ∧
    set exEnv.ord b!"<r><x>1</x><y>2</y></r>" b!"r.z" (.str b!"3") = .ret (b!"<r><x>1</x><y>2</y><z>3</z></r>", none) ∧
    set exEnv.ord b!"<r><x>1</x></r>" b!"r.z" (.str b!"3") = .ret (b!"<r><x>1</x><z>3</z></r>", none) ∧
    set exEnv.ord b!"<r><x>1</x><z>3</z></r>" b!"r.y" (.str b!"2") = .ret (b!"<r><x>1</x><z>3</z><y>2</y></r>", none) := by decide +kernel

end Verif.Props
