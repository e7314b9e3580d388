import Verif.Lemmas.Prefix
import Verif.Props.Query
import Verif.Props.Set
/- C73: what is found does not depend on what follows it. -/
namespace Verif.Props
open Spec

/-- A query by names is answered by the element at the place, whatever bytes follow it. -/
theorem named_at {o : Ord} (ho : o.IsPerm) {n : Bytes} {nd : Node} (hn : nameMatches n nd.name = true) {R : Bytes} (h : Begins nd R) :
    ∃ m ms, namedE o n R = m :: ms ∧ Rep m nd := by
  obtain ⟨m, ms, h1, h2⟩ := h.top ho
  exact ⟨m, _, by rw [namedE, h1, List.filter_cons, h2.name, if_pos hn], h2⟩

theorem leads_name {ps : List Step} {n x : Bytes} {j : Nat} {c : Ctx} (h : Leads (ps ++ [(n, j)]) c x) : nameMatches n x = true := by
  induction ps generalizing c with
  | nil =>
    cases c with
    | here b a => exact h.1
    | within b m as ws c cws a => exact absurd h.2.2 (by simp [Leads])
  | cons p ps ih =>
    cases c with
    | here b a =>
      obtain ⟨q, qs, hq⟩ := List.exists_cons_of_ne_nil (show ps ++ [(n, j)] ≠ [] by simp)
      rw [List.cons_append, hq] at h
      simp only [Leads] at h
    | within b m as ws c cws a =>
      refine ih (c := c) ?_
      obtain ⟨q, qs, hq⟩ := List.exists_cons_of_ne_nil (show ps ++ [(n, j)] ≠ [] by simp)
      rw [List.cons_append, hq] at h
      rw [hq]
      exact h.2.2

theorem node_name (e : El) : e.node.name = e.name := by
  obtain ⟨n, as, ws, body⟩ := e
  cases body <;> rfl

theorem firsts_snoc (pre : List Bytes) (n : Bytes) : firsts (pre ++ [n]) = firsts pre ++ [(n, 0)] := by simp [firsts]

/-- C73: when a path of names leads to an element, `Get` finds it whatever bytes follow it: nothing, more elements, closing tags that do not fit, any bytes at all. -/
theorem C73_element (env : Env) (ho : env.ord.IsPerm) (c : Ctx) (hc : c.Readable true) (e : El) (he : e.Readable) (pre : List Bytes) (n : Bytes)
    (hp : ∀ m ∈ pre ++ [n], PlainName m) (hl : pre.length < 100) (hle : Leads (firsts (pre ++ [n])) c e.name) (t : Bytes)
    (hlen : (c.before ++ (e.render ++ t)).length ≤ 10485760) :
    ∃ r, get env (c.before ++ (e.render ++ t)) (pathOf (pre ++ [n])) = .ret r ∧ IsElement r e.node := by
  rw [firsts_snoc] at hle
  obtain ⟨r, h1, h2⟩ := get_prefix env ho (S := Begins e.node) (fun name d R hq hd h => h.copied ho hq hd) hc hle ⟨e, t, he, rfl, rfl⟩ hlen hp [] (by simp; omega) [] rfl
    (Q := fun r => IsElementW r e.node) (fun r h => by rw [h.typ]; simp) (by
      intro y R' es hS hes hn
      obtain ⟨m, ms, k1, k2⟩ := named_at (o := env.ord) ho (n := n) (by rw [node_name]; exact leads_name hle) hS
      rw [List.eq_nil_of_length_eq_zero hes, List.nil_append, k1] at hn
      rw [show fuseFields [] = [] from rfl, execQ]
      simp only [execBody, nameSeg, isFragmentQuery, Bool.and_false, Bool.false_eq_true, if_false, execElem]
      rw [namedE_filter, hn, firstMatch, runMods_nil]
      exact ofContent_is k2.content)
  rw [List.append_nil] at h1
  exact ⟨r, h1, h2.spec⟩

/-- C73: so does the own text of the element. -/
theorem C73_text (env : Env) (ho : env.ord.IsPerm) (c : Ctx) (hc : c.Readable true) (e : El) (he : e.Readable) (pre : List Bytes) (n : Bytes)
    (hp : ∀ m ∈ pre ++ [n], PlainName m) (hl : pre.length < 99) (hle : Leads (firsts (pre ++ [n])) c e.name) (t : Bytes)
    (hlen : (c.before ++ (e.render ++ t)).length ≤ 10485760) :
    ∃ r, get env (c.before ++ (e.render ++ t)) (pathOf (pre ++ [n] ++ [b!"%"])) = .ret r ∧ IsOwnText r e.node := by
  rw [firsts_snoc] at hle
  exact get_prefix env ho (S := Begins e.node) (fun name d R hq hd h => h.copied ho hq hd) hc hle ⟨e, t, he, rfl, rfl⟩ hlen hp [b!"%"] (by simp; omega) [⟨.text, []⟩] rfl
    (Q := fun r => IsOwnText r e.node) (fun r h => by rw [h.typ]; simp) (by
      intro y R' es hS hes hn
      obtain ⟨m, ms, k1, k2⟩ := named_at (o := env.ord) ho (n := n) (by rw [node_name]; exact leads_name hle) hS
      rw [List.eq_nil_of_length_eq_zero hes, List.nil_append, k1] at hn
      rw [show fuseFields [⟨.text, []⟩] = [⟨.text, []⟩] from rfl, execQ]
      simp only [execBody, nameSeg, isFragmentQuery, SegKind.isRootOp, Bool.and_false, Bool.false_eq_true, if_false, execElem]
      rw [namedE_filter, hn, firstMatch]
      simp only [runMods_nil]
      exact ofText_is k2.content)

/-- C73: and, below the top of the document, the element of a number. -/
theorem C73_index (env : Env) (ho : env.ord.IsPerm) (c : Ctx) (hc : c.Readable true) (e : El) (he : e.Readable) (pre : List Bytes) (hne : pre ≠ []) (n ds : Bytes) (j : Nat)
    (hj : Decimal ds j) (hj2 : j < 1000) (hp : ∀ m ∈ pre ++ [n], PlainName m) (hl : pre.length < 99) (hle : Leads (firsts pre ++ [(n, j)]) c e.name) (t : Bytes)
    (hlen : (c.before ++ (e.render ++ t)).length ≤ 10485760) :
    ∃ r, get env (c.before ++ (e.render ++ t)) (pathOf (pre ++ [n] ++ [ds])) = .ret r ∧ IsElement r e.node := by
  have hs : parseParts [ds] = .ok [⟨.index (j : Int), []⟩] := by
    simp only [parseParts, parsePart_decimal hj]
    split <;> simp_all
    all_goals omega
  obtain ⟨r, h1, h2⟩ := get_prefix env ho (S := Begins e.node) (fun name d R hq hd h => h.copied ho hq hd) hc hle ⟨e, t, he, rfl, rfl⟩ hlen hp [ds] (by simp; omega) _ hs
    (Q := fun r => IsElementW r e.node) (fun r h => by rw [h.typ]; simp) (by
      intro y R' es hS hes hn
      obtain ⟨m, ms, k1, k2⟩ := named_at (o := env.ord) ho (n := n) (by rw [node_name]; exact leads_name hle) hS
      rw [k1] at hn
      have hroot : pre.isEmpty = false := by cases pre <;> simp_all
      rw [show fuseFields [⟨.index (j : Int), []⟩] = [⟨.index (j : Int), []⟩] from rfl, hroot, execQ]
      simp only [execBody, nameSeg, isFragmentQuery, Bool.false_and, Bool.false_eq_true, if_false, execElem]
      rw [namedE_filter, hn]
      have hg : ((es ++ m :: ms).take maxWildcardResults)[j]? = some m := by
        rw [List.getElem?_take, if_pos (by rw [maxWild]; exact hj2), List.getElem?_append_right (by omega), hes, Nat.sub_self]; rfl
      unfold arrayOp
      rw [if_neg (by intro h; rw [List.isEmpty_iff] at h; rw [h] at hg; simp at hg)]
      have hj : ¬ ((j : Int) < 0) := by omega
      simp only [hj, if_false, Int.toNat_natCast, runMods_nil, hg]
      exact ofContent_is k2.content)
  exact ⟨r, h1, h2.spec⟩

/-- C73: for an attribute it is enough that the document goes up to the end of the start tag. -/
theorem C73_attribute (env : Env) (ho : env.ord.IsPerm) (c : Ctx) (hc : c.Readable true) (x : Bytes) (hx : TagName x) (as : List Attr) (ha : AttrsLoose as) (hf : AttrsFit as)
    (ws : Bytes) (hws : ∀ b ∈ ws, IsWs b) (pre : List Bytes) (n k v : Bytes) (hv : attrVal as k = some v) (hk : c!"|" ∉ k)
    (hp : ∀ m ∈ pre ++ [n], PlainName m) (hl : pre.length < 99) (hle : Leads (firsts (pre ++ [n])) c x) (t : Bytes)
    (hlen : (c.before ++ (openTag x as ws ++ c!">" :: t)).length ≤ 10485760) :
    get env (c.before ++ (openTag x as ws ++ c!">" :: t)) (pathOf (pre ++ [n] ++ [c!"@" :: k])) = .ret (.ofAttr v) := by
  have hs : parseParts [c!"@" :: k] = .ok [⟨.attr k, []⟩] := by
    have : parsePart (c!"@" :: k) = .seg ⟨.attr k, []⟩ := by
      unfold parsePart
      rw [parseModifiers_plain _ (by simp [hk])]
      simp [hasPrefix, List.isPrefixOf]
    simp [parseParts, this]
  rw [firsts_snoc] at hle
  obtain ⟨r, h1, h2⟩ := get_prefix env ho (S := BeginsTag x (attrVal as)) (fun name d R hq hd h => h.copied ho) hc hle ⟨as, ws, t, hx, ha, hf, hws, rfl, rfl⟩ hlen hp
    [c!"@" :: k] (by simp; omega) _ hs (Q := fun r => r = .ofAttr v) (fun r h => by rw [h]; simp) (by
      intro y R' es hS hes hn
      obtain ⟨m, ms, k1, k2, k3⟩ := hS.top (o := env.ord)
      rw [List.eq_nil_of_length_eq_zero hes, List.nil_append, namedE, namedE, k1, List.filter_cons, k2, if_pos (leads_name hle)] at hn
      rw [show fuseFields [⟨.attr k, []⟩] = [⟨.attr k, []⟩] from rfl, execQ]
      simp only [execBody, nameSeg, isFragmentQuery, SegKind.isRootOp, Bool.and_false, Bool.false_eq_true, if_false, execElem]
      rw [namedE_filter, namedE, hn, firstMatch]
      simp only [k3, hv, List.isEmpty_nil, if_true]
      rw [runMods_nil])
  rw [h1, h2]

/-! ### documents that the editing operations take -/

theorem plug_readable {c : Ctx} {e : El} {d : Nat} {top : Bool} (h1 : (c.plug (e.cons .nil)).Legal d) (h2 : (c.plug (e.cons .nil)).Tame top) : c.Readable top ∧ e.Readable := by
  induction c generalizing d top with
  | here b a =>
    simp only [Ctx.plug, append_legal, append_tame] at h1 h2
    refine ⟨⟨h1.1.loose, h2.1⟩, h1.2.1.loose, ?_⟩
    obtain ⟨n, as, ws, body⟩ := e
    cases body with
    | none => exact h2.2.1
    | some p => exact h2.2.1
  | within b n as ws c cws a ih =>
    simp only [Ctx.plug, append_legal, append_tame, Forest.Legal, Forest.Tame] at h1 h2
    obtain ⟨g0, g1, g2, g3, g4, g5, g6, g7⟩ := h1
    obtain ⟨f0, f1, f2, f3, f4⟩ := h2
    obtain ⟨i1, i2⟩ := ih g5 f3
    exact ⟨⟨g0.loose, f0, g1.tag, g2.loose, f1, g3, i1⟩, i2⟩

/-- C73: `Get` finds the same element in a document, in the document cut off behind the element, and in it with any other bytes there. -/
theorem C73_document (env : Env) (ho : env.ord.IsPerm) (c : Ctx) (e : El) (h : Editable (c.plug (e.cons .nil))) (pre : List Bytes) (n : Bytes)
    (hp : ∀ m ∈ pre ++ [n], PlainName m) (hl : pre.length < 100) (hle : Leads (firsts (pre ++ [n])) c e.name) :
    (∃ r, get env (c.plug (e.cons .nil)).render (pathOf (pre ++ [n])) = .ret r ∧ IsElement r e.node) ∧
    (∃ r, get env (c.before ++ e.render) (pathOf (pre ++ [n])) = .ret r ∧ IsElement r e.node) ∧
    ∀ t, (c.before ++ e.render ++ t).length ≤ 10485760 → ∃ r, get env (c.before ++ e.render ++ t) (pathOf (pre ++ [n])) = .ret r ∧ IsElement r e.node := by
  obtain ⟨h1, h2⟩ := plug_readable h.2.1 h.2.2.1
  have key : ∀ t, (c.before ++ e.render ++ t).length ≤ 10485760 → ∃ r, get env (c.before ++ e.render ++ t) (pathOf (pre ++ [n])) = .ret r ∧ IsElement r e.node := by
    intro t ht
    rw [List.append_assoc] at ht ⊢
    exact C73_element env ho c h1 e h2 pre n hp hl hle t ht
  have hr : (c.plug (e.cons .nil)).render = c.before ++ e.render ++ c.after := by rw [plug_render, el_render]
  have hs := h.1
  rw [hr] at hs ⊢
  refine ⟨key _ hs, ?_, key⟩
  have := key [] (by simp only [List.length_append, List.length_nil] at hs ⊢; omega)
  rwa [List.append_nil] at this

/-- `r.a` in the example, with wrong closing tags, half a tag and a null byte behind the element. -/
example : ∃ r, get exEnv b!"<!--x--><r v='1' ><b/><a>1<c>2</c></a></q></r></r><<a <!-- \x00" b!"r.a" = .ret r ∧ r.toStr = b!"12" :=
  ⟨.ofContent b!"1<c>2</c>", by decide +kernel, by decide +kernel⟩

/-- The theorem for the example document and the path `r.c`, the last element of the root, cut off behind it. -/
def exCut : Ctx := .within (.misc (.comment b!"x") .nil) b!"r" [⟨b!" ", b!"v", [], [], c!"'", b!"1"⟩] b!" " (.here (.leaf b!"b" [] [] .nil) (.leaf b!"d" [] [] .nil)) [] .nil
theorem exCut_witness : ∃ r, get exEnv (exCut.before ++ exEl.render ++ b!"<") b!"r.a" = .ret r ∧ IsElement r exEl.node :=
  (C73_document exEnv exEnv_perm exCut exEl (editable_of (by decide +kernel)) [b!"r"] b!"a" (plains_of (by decide)) (by decide)
    ⟨by decide +kernel, by decide +kernel, by decide +kernel, by decide +kernel⟩).2.2 b!"<" (by decide +kernel)
theorem exCut_text : exCut.before ++ exEl.render ++ b!"<" = b!"<!--x--><r v='1' ><b/><a><b>y</b></a><" := by decide +kernel

/-! ### an element cut off inside -/

/-- The text is a start tag of that name, some content that says `i`, and a cut. -/
def BeginsOpen (n : Bytes) (i : Info) (cut R : Bytes) : Prop :=
  ∃ (as : List Attr) (ws : Bytes) (f : Forest), TagName n ∧ AttrsLoose as ∧ AttrsFit as ∧ (∀ x ∈ ws, IsWs x) ∧ f.Loose ∧ f.Tame false ∧ f.info = i ∧
    R = openTag n as ws ++ c!">" :: (f.render ++ cut)

theorem contentLoop_cut {o : Ord} {name : Bytes} {d : Nat} {cut : Bytes} (h : cut = [] ∨ cut = b!"<") : contentLoop o name d cut = (cut, []) := by
  rcases h with rfl | rfl
  · rw [contentLoop]
  · rw [contentLoop]; simp

theorem BeginsOpen.copied {o : Ord} (ho : o.IsPerm) {n : Bytes} {i : Info} {cut : Bytes} (hcut : cut = [] ∨ cut = b!"<") {name : Bytes} (hq : name.head? ≠ some c!"?") {d : Nat} (hd : 1 ≤ d)
    {R : Bytes} (h : BeginsOpen n i cut R) : BeginsOpen n i cut (contentLoop o name d R).1 := by
  obtain ⟨as, ws, f, h1, h2, h3, h4, h5, h6, h7, rfl⟩ := h
  obtain ⟨c1, -, c2, -, c4⟩ := canon_legal ho h2 h3 (f.render ++ cut)
  rw [contentLoop_open o name d h1 h2 h4]
  obtain ⟨g, -, k1, k2, k3, -, k4⟩ := contentLoop_forest ho hq h5 h6 (if n = name then d + 1 else d) (by split <;> omega) cut
  rw [k4, contentLoop_cut hcut]
  exact ⟨_, [], g, h1, c1, c2, by simp, k1.1, k2, k3.trans h7, by simp only [prepend, List.append_assoc]; rfl⟩

/-- C73: an element that is cut off inside its content is found with what there is of it; a `<` at the cut stays. -/
theorem C73_unfinished (env : Env) (ho : env.ord.IsPerm) (c : Ctx) (hc : c.Readable true) (x : Bytes) (hx : TagName x) (as : List Attr) (ha : AttrsLoose as) (hf : AttrsFit as)
    (ws : Bytes) (hws : ∀ b ∈ ws, IsWs b) (f : Forest) (hfl : f.Loose) (hft : f.Tame false) (cut : Bytes) (hcut : cut = [] ∨ cut = b!"<") (pre : List Bytes) (n : Bytes)
    (hp : ∀ m ∈ pre ++ [n], PlainName m) (hl : pre.length < 100) (hle : Leads (firsts (pre ++ [n])) c x)
    (hlen : (c.before ++ (openTag x as ws ++ c!">" :: (f.render ++ cut))).length ≤ 10485760) :
    ∃ g : Forest, g.Loose ∧ g.Tame false ∧ g.Plain ∧ g.info = f.info ∧
      get env (c.before ++ (openTag x as ws ++ c!">" :: (f.render ++ cut))) (pathOf (pre ++ [n])) = .ret (.ofContent (g.render ++ cut)) := by
  rw [firsts_snoc] at hle
  obtain ⟨r, h1, g, g1, g2, g3, g4, h2⟩ := get_prefix env ho (S := BeginsOpen x f.info cut) (fun name d R hq hd h => h.copied ho hcut hq hd) hc hle
    ⟨as, ws, f, hx, ha, hf, hws, hfl, hft, rfl, rfl⟩ hlen hp [] (by simp; omega) [] rfl
    (Q := fun r => ∃ g : Forest, g.Loose ∧ g.Tame false ∧ g.Plain ∧ g.info = f.info ∧ r = .ofContent (g.render ++ cut)) (fun r ⟨g, _, _, _, _, h⟩ => by rw [h]; simp) (by
      intro y R' es hS hes hn
      obtain ⟨as', ws', f', k1, k2, k3, k4, k5, k6, k7, rfl⟩ := hS
      obtain ⟨g, j0, j1, j2, j3, -, j4⟩ := contentLoop_forest (name := x) ho k1.2.2.2.1 k5 k6 1 (by omega) cut
      obtain ⟨e1, e2⟩ := elemAt_content (o := env.ord) (t := f'.render ++ cut) k1 k2 k4
      rw [List.eq_nil_of_length_eq_zero hes, List.nil_append, namedE, namedE, topElems_some (skipToNext_open k1 as' ws' _), List.filter_cons, e1, if_pos (leads_name hle)] at hn
      refine ⟨g, j1.1, j2, canonF_plain.mp j0, j3.trans k7, ?_⟩
      rw [show fuseFields [] = [] from rfl, execQ]
      simp only [execBody, nameSeg, isFragmentQuery, Bool.and_false, Bool.false_eq_true, if_false, execElem]
      rw [namedE_filter, namedE, hn, firstMatch, runMods_nil, e2, j4, contentLoop_cut hcut]; rfl)
  rw [List.append_nil, h2] at h1
  exact ⟨g, g1, g2, g3, g4, h1⟩

/-- C73: other queries do depend on what follows: a count, a list of results, an attribute that the first element does not have, a query that finds nothing. -/
theorem C73_limits :
    get exEnv b!"<r><a/>" b!"r.a.#" = .ret (.ofCount 1) ∧ get exEnv b!"<r><a/><a/>" b!"r.a.#" = .ret (.ofCount 2) ∧
    get exEnv b!"<r><a/>" b!"r.b" = .ret .null ∧ get exEnv b!"<r><a/><b/>" b!"r.b" = .ret (.ofContent []) ∧
    get exEnv b!"<r><p><a/></p>" b!"r.p.a.@k" = .ret .null ∧ get exEnv b!"<r><p><a/></p><p><a k=\"1\"/></p>" b!"r.p.a.@k" = .ret (.ofAttr b!"1") := by decide +kernel

/-- C73: and the element has to be complete: cut off inside, it is found with what there is of it, but cut off inside its start tag it may have another name. -/
theorem C73_inside : get exEnv b!"<r><a>12<b>3" b!"r.a" = .ret (.ofContent b!"12<b>3") ∧ get exEnv b!"<r><ab" b!"r.a" = .ret .null ∧
    get exEnv b!"<r><a" b!"r.a" = .ret (.ofContent []) ∧ get exEnv b!"<r><a k='1'>12<" b!"r.a" = .ret (.ofContent b!"12<") := by decide +kernel

end Verif.Props
