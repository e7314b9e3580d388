import Verif.Lemmas.PrefixFold
import Verif.Lemmas.TripOpt
import Verif.Props.Prefix
import Verif.Props.Options
/- C73 with options. -/
namespace Verif.Props
open Verif Verif.Spec

theorem namedF_at {o : Ord} (ho : o.IsPerm) {n : Bytes} {nd : Node} (hn : agrees false n nd.name = true) {R : Bytes} (h : Begins nd R) :
    ∃ m ms, namedF o n R = m :: ms ∧ Rep m nd := by
  obtain ⟨m, ms, h1, h2⟩ := h.top ho
  exact ⟨m, _, by rw [namedF, h1, List.filter_cons, h2.name, if_pos (show nameMatches (foldCase n) (foldCase nd.name) = true from hn)], h2⟩

theorem leadsBy_name {cs : Bool} {ps : List Step} {n x : Bytes} {j : Nat} {c : Ctx} (h : LeadsBy cs (ps ++ [(n, j)]) c x) : agrees cs n x = true := by
  induction ps generalizing c with
  | nil =>
    cases c with
    | here b a => exact h.1
    | within b m as ws c cws a => exact absurd h.2.2 (by simp [LeadsBy])
  | cons p ps ih =>
    cases c with
    | here b a =>
      obtain ⟨q, qs, hq⟩ := List.exists_cons_of_ne_nil (show ps ++ [(n, j)] ≠ [] by simp)
      rw [List.cons_append, hq] at h
      simp only [LeadsBy] at h
    | within b m as ws c cws a =>
      refine ih (c := c) ?_
      obtain ⟨q, qs, hq⟩ := List.exists_cons_of_ne_nil (show ps ++ [(n, j)] ≠ [] by simp)
      rw [List.cons_append, hq] at h
      rw [hq]
      exact h.2.2

theorem cs_names (env : Env) (xml : Bytes) {ns parts : List Bytes} (hn : ∀ m ∈ ns, PlainName m) (hp : ∀ p ∈ parts, c!"|" ∉ p ∧ p ≠ b!"*" ∧ p ≠ b!"**") (opts : Options)
    (hc : opts.caseSensitive = true) : getWithOptions env xml (pathOf (ns ++ parts)) (some opts) = get env xml (pathOf (ns ++ parts)) := by
  refine C30_get_cs env xml (ns ++ parts) ?_ (.inl ?_) opts hc
  · intro p h; rcases List.mem_append.mp h with h | h
    · exact (hn p h).noBar
    · exact (hp p h).1
  · intro p h; rcases List.mem_append.mp h with h | h
    · exact ⟨(hn p h).notStar, (hn p h).notStar2⟩
    · exact (hp p h).2

/-- C73: with any options, the element a path of names leads to is found whatever bytes follow it. -/
theorem C73_element_options (env : Env) (ho : env.ord.IsPerm) (opts : Options) (c : Ctx) (hc : c.Readable true) (e : El) (he : e.Readable) (pre : List Bytes) (n : Bytes)
    (hp : ∀ m ∈ pre ++ [n], PlainName m) (hl : pre.length < 100) (hle : LeadsBy opts.caseSensitive (firsts (pre ++ [n])) c e.name) (t : Bytes)
    (hlen : (c.before ++ (e.render ++ t)).length ≤ 10485760) :
    ∃ r, getWithOptions env (c.before ++ (e.render ++ t)) (pathOf (pre ++ [n])) (some opts) = .ret r ∧ IsElement r e.node := by
  cases hcs : opts.caseSensitive with
  | true =>
    rw [hcs, leadsBy_true] at hle
    have := cs_names env (c.before ++ (e.render ++ t)) hp (parts := []) (by simp) opts hcs
    rw [List.append_nil] at this
    rw [this]
    exact C73_element env ho c hc e he pre n hp hl hle t hlen
  | false =>
    rw [hcs, firsts_snoc] at hle
    obtain ⟨r, h1, h2⟩ := getOpt_prefix env ho hcs (S := Begins e.node) (fun name d R hq hd h => h.copied ho hq hd) hc hle ⟨e, t, he, rfl, rfl⟩ hlen hp [] (by simp; omega) [] rfl
      (Q := fun r => IsElementW r e.node) (fun r h => by rw [h.typ]; simp) (by
        intro y R' es hS hes hn
        obtain ⟨m, ms, k1, k2⟩ := namedF_at (o := env.ord) ho (n := n) (by rw [node_name]; exact leadsBy_name hle) hS
        rw [List.eq_nil_of_length_eq_zero hes, List.nil_append, k1] at hn
        rw [show (fuseFields []).map lowerSeg = [] from rfl, execQOpt]
        simp only [execBodyOpt, lowName, nameSeg, Bool.and_false, Bool.false_eq_true, if_false, execElemOpt, namedF_filter]
        rw [hn, firstMatchOpt]
        exact ofContent_is k2.content)
    rw [List.append_nil] at h1
    exact ⟨r, h1, h2.spec⟩

/-- C73: so is its own text. -/
theorem C73_text_options (env : Env) (ho : env.ord.IsPerm) (opts : Options) (c : Ctx) (hc : c.Readable true) (e : El) (he : e.Readable) (pre : List Bytes) (n : Bytes)
    (hp : ∀ m ∈ pre ++ [n], PlainName m) (hl : pre.length < 99) (hle : LeadsBy opts.caseSensitive (firsts (pre ++ [n])) c e.name) (t : Bytes)
    (hlen : (c.before ++ (e.render ++ t)).length ≤ 10485760) :
    ∃ r, getWithOptions env (c.before ++ (e.render ++ t)) (pathOf (pre ++ [n] ++ [b!"%"])) (some opts) = .ret r ∧ IsOwnText r e.node := by
  cases hcs : opts.caseSensitive with
  | true =>
    rw [hcs, leadsBy_true] at hle
    rw [cs_names env (c.before ++ (e.render ++ t)) hp (parts := [b!"%"]) (by simp) opts hcs]
    exact C73_text env ho c hc e he pre n hp hl hle t hlen
  | false =>
    rw [hcs, firsts_snoc] at hle
    exact getOpt_prefix env ho hcs (S := Begins e.node) (fun name d R hq hd h => h.copied ho hq hd) hc hle ⟨e, t, he, rfl, rfl⟩ hlen hp [b!"%"] (by simp; omega) [⟨.text, []⟩] rfl
      (Q := fun r => IsOwnText r e.node) (fun r h => by rw [h.typ]; simp) (by
        intro y R' es hS hes hn
        obtain ⟨m, ms, k1, k2⟩ := namedF_at (o := env.ord) ho (n := n) (by rw [node_name]; exact leadsBy_name hle) hS
        rw [List.eq_nil_of_length_eq_zero hes, List.nil_append, k1] at hn
        rw [show (fuseFields [⟨.text, []⟩]).map lowerSeg = [⟨.text, []⟩] from rfl, execQOpt]
        simp only [execBodyOpt, lowName, nameSeg, Bool.and_false, Bool.false_eq_true, if_false, execElemOpt, namedF_filter]
        rw [hn, firstMatchOpt]
        exact ofText_is k2.content)

/-- C73: and the element of a number below the top of the document; without regard to case also at the top. -/
theorem C73_index_options (env : Env) (ho : env.ord.IsPerm) (opts : Options) (c : Ctx) (hc : c.Readable true) (e : El) (he : e.Readable) (pre : List Bytes)
    (hne : opts.caseSensitive = true → pre ≠ []) (n ds : Bytes) (j : Nat)
    (hj : Decimal ds j) (hj2 : j < 1000) (hp : ∀ m ∈ pre ++ [n], PlainName m) (hl : pre.length < 99) (hle : LeadsBy opts.caseSensitive (firsts pre ++ [(n, j)]) c e.name) (t : Bytes)
    (hlen : (c.before ++ (e.render ++ t)).length ≤ 10485760) :
    ∃ r, getWithOptions env (c.before ++ (e.render ++ t)) (pathOf (pre ++ [n] ++ [ds])) (some opts) = .ret r ∧ IsElement r e.node := by
  have hD : ∀ (ds : Bytes) (j : Nat), Decimal ds j → ∀ d ∈ ds, 48 ≤ d ∧ d ≤ 57 := by
    intro ds j h
    induction h with
    | digit d h => simpa using h
    | snoc _ hd ih => intro d hm; rcases List.mem_append.mp hm with hm | hm
                      · exact ih d hm
                      · rw [List.mem_singleton.mp hm]; exact hd
  cases hcs : opts.caseSensitive with
  | true =>
    rw [hcs, leadsBy_true] at hle
    rw [cs_names env (c.before ++ (e.render ++ t)) hp (parts := [ds]) (by
      intro p hp'; simp only [List.mem_singleton] at hp'; subst hp'
      exact ⟨fun h => absurd (hD p j hj _ h) (by decide), fun h => absurd (hD p j hj c!"*" (by rw [h]; simp)) (by decide),
        fun h => absurd (hD p j hj c!"*" (by rw [h]; simp)) (by decide)⟩) opts hcs]
    exact C73_index env ho c hc e he pre (hne hcs) n ds j hj hj2 hp hl hle t hlen
  | false =>
    rw [hcs] at hle
    have hs : parseParts [ds] = .ok [⟨.index (j : Int), []⟩] := by
      simp only [parseParts, parsePart_decimal hj]
      split <;> simp_all
      all_goals omega
    obtain ⟨r, h1, h2⟩ := getOpt_prefix env ho hcs (S := Begins e.node) (fun name d R hq hd h => h.copied ho hq hd) hc hle ⟨e, t, he, rfl, rfl⟩ hlen hp [ds] (by simp; omega) _ hs
      (Q := fun r => IsElementW r e.node) (fun r h => by rw [h.typ]; simp) (by
        intro y R' es hS hes hn
        obtain ⟨m, ms, k1, k2⟩ := namedF_at (o := env.ord) ho (n := n) (by rw [node_name]; exact leadsBy_name hle) hS
        rw [k1] at hn
        rw [show (fuseFields [⟨.index (j : Int), []⟩]).map lowerSeg = [⟨.index (j : Int), []⟩] from rfl, execQOpt]
        simp only [execBodyOpt, lowName, nameSeg, Bool.and_false, Bool.false_eq_true, if_false, execElemOpt, namedF_filter]
        rw [hn]
        have hg : ((es ++ m :: ms).take maxWildcardResults)[j]? = some m := by
          rw [List.getElem?_take, if_pos (by rw [maxWild]; exact hj2), List.getElem?_append_right (by omega), hes, Nat.sub_self]; rfl
        unfold arrayOpOpt
        rw [if_neg (by intro h; rw [List.isEmpty_iff] at h; rw [h] at hg; simp at hg)]
        have hj : ¬ ((j : Int) < 0) := by omega
        simp only [hj, if_false, Int.toNat_natCast, hg]
        exact ofContent_is k2.content)
    exact ⟨r, h1, h2.spec⟩

/-- C73: for an attribute it is enough that the document goes up to the end of the start tag; without regard to case no two attributes of the tag may be alike. -/
theorem C73_attribute_options (env : Env) (ho : env.ord.IsPerm) (opts : Options) (c : Ctx) (hc : c.Readable true) (x : Bytes) (hx : TagName x) (as : List Attr) (ha : AttrsLoose as)
    (hf : AttrsFit as) (ws : Bytes) (hws : ∀ b ∈ ws, IsWs b) (pre : List Bytes) (n k j v : Bytes) (hj : sameKey opts.caseSensitive j k) (hv : Spec.attrVal as j = some v)
    (hone : opts.caseSensitive = false → ∀ a b u w, Spec.attrVal as a = some u → Spec.attrVal as b = some w → foldCase a = foldCase b → a = b) (hk : c!"|" ∉ k)
    (hp : ∀ m ∈ pre ++ [n], PlainName m) (hl : pre.length < 99) (hle : LeadsBy opts.caseSensitive (firsts (pre ++ [n])) c x) (t : Bytes)
    (hlen : (c.before ++ (openTag x as ws ++ c!">" :: t)).length ≤ 10485760) :
    getWithOptions env (c.before ++ (openTag x as ws ++ c!">" :: t)) (pathOf (pre ++ [n] ++ [c!"@" :: k])) (some opts) = .ret (.ofAttr v) := by
  cases hcs : opts.caseSensitive with
  | true =>
    rw [hcs, leadsBy_true] at hle
    rw [hcs] at hj
    have : j = k := by simpa [sameKey] using hj
    subst this
    rw [cs_names env _ hp (parts := [c!"@" :: j]) (by simp [hk]) opts hcs]
    exact C73_attribute env ho c hc x hx as ha hf ws hws pre n j v hv hk hp hl hle t hlen
  | false =>
    have hone := hone hcs
    rw [hcs] at hj
    have hj : foldCase j = foldCase k := by simpa [sameKey] using hj
    have hs : parseParts [c!"@" :: k] = .ok [⟨.attr k, []⟩] := by
      have : parsePart (c!"@" :: k) = .seg ⟨.attr k, []⟩ := by
        unfold parsePart
        rw [parseModifiers_plain _ (by simp [hk])]
        simp [hasPrefix, List.isPrefixOf]
      simp [parseParts, this]
    rw [hcs, firsts_snoc] at hle
    obtain ⟨r, h1, h2⟩ := getOpt_prefix env ho hcs (S := BeginsTag x (Spec.attrVal as)) (fun name d R hq hd h => h.copied ho) hc hle ⟨as, ws, t, hx, ha, hf, hws, rfl, rfl⟩ hlen hp
      [c!"@" :: k] (by simp; omega) _ hs (Q := fun r => r = .ofAttr v) (fun r h => by rw [h]; simp) (by
        intro y R' es hS hes hn
        obtain ⟨as', ws', t', g1, g2, g3, g4, g5, rfl⟩ := hS
        have e : (openTag x as' ws' ++ c!">" :: t').drop 1 = x ++ as'.flatMap Attr.render ++ ws' ++ c!">" :: t' := by simp [openTag]
        have e1 : (elemAt env.ord (openTag x as' ws' ++ c!">" :: t')).1.name = x ∧ (elemAt env.ord (openTag x as' ws' ++ c!">" :: t')).1.attrs = attrMap as' := by
          unfold elemAt
          rw [e, parseTag_open g1 g2 g4]
          exact ⟨rfl, rfl⟩
        have hnm : nameMatches (foldCase n) (foldCase x) = true := leadsBy_name hle
        rw [List.eq_nil_of_length_eq_zero hes, List.nil_append, namedF, namedF, topElems_some (skipToNext_open g1 as' ws' _), List.filter_cons, e1.1, if_pos hnm] at hn
        rw [show (fuseFields [⟨.attr k, []⟩]).map lowerSeg = [⟨.attr (toLowerASCII k), []⟩] from rfl, execQOpt]
        simp only [execBodyOpt, lowName, nameSeg, Bool.and_false, Bool.false_eq_true, if_false, execElemOpt, namedF_filter]
        rw [namedF, hn, firstMatchOpt]
        simp only
        rw [attrsOpt_tag (at' := Spec.attrVal as) ho (by rw [e1.2]; exact attrMap_uniq as') (by intro k; rw [e1.2, attrMap_get, g5]) hone hj hv]
        simp)
    rw [h1, h2]

/-- Upper case in the document and in the path, and nonsense behind the element. -/
theorem C73_options_witness :
    getWithOptions exEnv b!"<R><A K='1'>x</A></q></r><<" b!"r.a" (some ciOpts) = .ret (.ofContent b!"x") ∧
    getWithOptions exEnv b!"<R><A K='1'>x</A></q></r><<" b!"r.a.%" (some ciOpts) = .ret (.ofText b!"x") ∧
    getWithOptions exEnv b!"<R><A/><A K='1'>x</A></q></r><<" b!"r.a.1" (some ciOpts) = .ret (.ofContent b!"x") ∧
    getWithOptions exEnv b!"<R><A K='1'></A" b!"r.a.@k" (some ciOpts) = .ret (.ofAttr b!"1") ∧
    getWithOptions exEnv b!"<R/><r/><A" b!"r.1" (some ciOpts) = .ret (.ofContent []) := by
  refine ⟨?_, ?_, ?_, ?_, ?_⟩ <;> decide +kernel

/-- By the theorem, for any bytes behind it: the document of `exCut` with the path in upper case. -/
example (t : Bytes) (h : t.length ≤ 10000000) : ∃ r, getWithOptions exEnv (exCut.before ++ (exEl.render ++ t)) b!"R.A" (some ciOpts) = .ret r ∧ IsElement r exEl.node := by
  obtain ⟨_, h1, h2, _⟩ := editable_of (f := exCut.plug (exEl.cons .nil)) (by decide +kernel)
  have hr := plug_readable h1 h2
  refine C73_element_options exEnv exEnv_perm ciOpts exCut hr.1 exEl hr.2 [b!"R"] b!"A" (plains_of (by decide)) (by decide)
    ⟨by decide +kernel, by decide +kernel, by decide +kernel, by decide +kernel⟩ t ?_
  have h3 : exCut.before.length + exEl.render.length ≤ 1000 := by decide +kernel
  simp only [List.length_append]
  omega

end Verif.Props
