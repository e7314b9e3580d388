import Verif.Props.Rewritten
import Verif.Props.PrefixOptions
/- C100: an attribute of an inner element that outgrows the token limit when it is escaped anew. -/
namespace Verif.Props
open Verif Verif.Spec

/-! Long attributes of inner elements (parser.go:123-347; get.go:433-488). -/

/-- What is left over of a value that was cut off is no attribute. -/
theorem attrs_rest {n : Nat} {acc : Attrs} {w t : Bytes} {z : UInt8} (hz : z = c!"/" ∨ z = c!">") (hw : ∀ c ∈ w, isAttrDelim c = false) : (parseAttrsN (n + 1) acc (w ++ z :: t)).1 = acc := by
  cases w with
  | nil =>
    rw [List.nil_append, parseAttrsN, skipWs_cons (by rcases hz with rfl | rfl <;> simp [IsWs])]
    rcases hz with rfl | rfl <;> simp
  | cons c cs =>
    have hc := hw c (by simp)
    have h1 : ¬ IsWs c := fun hh => by rcases hh with rfl | rfl | rfl | rfl <;> revert hc <;> decide
    have h2 : c ≠ c!">" := by rintro rfl; revert hc; decide
    have h3 : c ≠ c!"/" := by rintro rfl; revert hc; decide
    rw [List.cons_append, parseAttrsN, skipWs_cons h1]
    simp only
    rw [if_neg (by simp [h2, h3]), ← List.cons_append]
    by_cases hl : (c :: cs).length ≤ 1048576
    · rw [readUntilP_of hw (by rcases hz with rfl | rfl <;> decide) hl t]
      simp only [List.isEmpty_cons, Bool.false_eq_true, if_false]
      rw [skipWs_cons (by rcases hz with rfl | rfl <;> simp [IsWs])]
      rcases hz with rfl | rfl <;> simp
    · have e : (c :: cs) ++ z :: t = (c :: cs).take 1048577 ++ ((c :: cs).drop 1048577 ++ z :: t) := by
        rw [← List.append_assoc, List.take_append_drop]
      obtain ⟨d, t', hd⟩ : ∃ d t', (c :: cs).drop 1048577 ++ z :: t = d :: t' := by
        cases (c :: cs).drop 1048577 with
        | nil => exact ⟨_, _, rfl⟩
        | cons d l => exact ⟨_, _, rfl⟩
      have hr : (readUntilP isAttrDelim ((c :: cs) ++ z :: t)).1 = [] := by
        rw [e, hd]
        unfold readUntilP
        rw [readAux_over (fun x hx => hw x (List.mem_of_mem_take hx)) (by rw [List.length_take]; omega)]
        rfl
      rw [if_pos (by rw [hr]; rfl)]

/-- A start tag whose only attribute is too long for the parser: the attribute is read as empty. -/
theorem long_tag {x k E t : Bytes} {z : UInt8} (hz : z = c!"/" ∨ z = c!">") (hx : TagName x) (hk : AttrName k) (hq : c!"\"" ∉ E) (hE : ∀ c ∈ E, isAttrDelim c = false) (hl : 1048576 < E.length) :
    (parseTag (x ++ (b!" " ++ k ++ b!"=" ++ c!"\"" :: (E ++ c!"\"" :: z :: t)))).1.name = x ∧
      (parseTag (x ++ (b!" " ++ k ++ b!"=" ++ c!"\"" :: (E ++ c!"\"" :: z :: t)))).1.attrs = [(k, [])] := by
  have hr : ∀ t, readUntilP isNameDelim (x ++ c!" " :: t) = (x, c!" " :: t) := fun t => readUntilP_of (TagName.not_delim hx) (by decide) hx.2.2.2.2.2 t
  obtain ⟨c, w, hc, hw⟩ : ∃ c w, E.drop 1048577 ++ c!"\"" :: z :: t = c :: (w ++ z :: t) ∧ ∀ d ∈ w, isAttrDelim d = false := by
    cases hd : E.drop 1048577 with
    | nil => exact ⟨_, [], rfl, by simp⟩
    | cons d l =>
      refine ⟨d, l ++ [c!"\""], by simp, fun y hy => ?_⟩
      rcases List.mem_append.mp hy with hy | hy
      · exact hE y (List.mem_of_mem_drop (i := 1048577) (by rw [hd]; exact List.mem_cons_of_mem _ hy))
      · simp only [List.mem_cons, List.not_mem_nil, or_false] at hy
        subst hy; decide
  have hs : E ++ c!"\"" :: z :: t = E.take 1048577 ++ c :: (w ++ z :: t) := by
    rw [← hc, ← List.append_assoc, List.take_append_drop]
  have hat : (parseAttributes (b!" " ++ k ++ b!"=" ++ c!"\"" :: (E ++ c!"\"" :: z :: t))).1 = [(k, [])] := by
    unfold parseAttributes
    rw [maxAttrs, hs, parseAttrsN_long (by simp [IsWs]) hk (.inl rfl) (fun hh => hq (List.mem_of_mem_take hh)) (by rw [List.length_take]; omega), attrs_rest hz hw]
    rfl
  have e : x ++ (b!" " ++ k ++ b!"=" ++ c!"\"" :: (E ++ c!"\"" :: z :: t)) = x ++ c!" " :: (k ++ b!"=" ++ c!"\"" :: (E ++ c!"\"" :: z :: t)) := by simp
  unfold parseTag
  rw [e, hr]
  have e2 : c!" " :: (k ++ b!"=" ++ c!"\"" :: (E ++ c!"\"" :: z :: t)) = b!" " ++ k ++ b!"=" ++ c!"\"" :: (E ++ c!"\"" :: z :: t) := by simp
  simp only
  rw [e2, hat]
  simp

theorem escape_plain {u : Bytes} (h : ∀ c ∈ u, ¬ IsWs c ∧ c ≠ c!"/" ∧ c ≠ c!"=") : ∀ c ∈ escapeXML u, isAttrDelim c = false := by
  induction u with
  | nil => simp [escapeXML]
  | cons d ds ih =>
    have ih := ih fun c hc => h c (List.mem_cons_of_mem _ hc)
    have hd := h d List.mem_cons_self
    intro c hc
    simp only [escapeXML, List.mem_append] at hc
    rcases hc with hc | hc
    · unfold escByte at hc
      repeat' split at hc
      all_goals simp only [List.mem_cons, List.not_mem_nil, or_false] at hc
      case isFalse.isFalse.isFalse.isFalse.isFalse => 
        subst hc
        simp only [IsWs, not_or] at hd
        simp [isAttrDelim, isNameDelim, isWs, *]
      all_goals (repeat' rcases hc with rfl | hc) <;> first | decide | (subst hc; decide)
    · exact ih c hc

/-- The outer and the inner element as the code reads them. -/
theorem inner_elems {o : Ord} (ho : o.IsPerm) {n x k : Bytes} {as : List Attr} {ws ws' rest : Bytes} {a : Attr} (b : Bool) (hn : TagName n) (ha : AttrsLoose as) (hws : ∀ c ∈ ws, IsWs c)
    (hx : TagName x) (hal : AttrsLoose [a]) (hak : a.name = k) (hws' : ∀ c ∈ ws', IsWs c)
    (hE : ∀ c ∈ unescapeXML a.raw, ¬ IsWs c ∧ c ≠ c!"/" ∧ c ≠ c!"=") (hl : 1048576 < (escapeXML (unescapeXML a.raw)).length) :
    ∃ f fs e es, topElems o (openTag n as ws ++ c!">" :: (openTag x [a] ws' ++ ((if b then b!"/>" else b!">") ++ rest))) = f :: fs ∧ f.name = n ∧
      topElems o f.content = e :: es ∧ e.name = x ∧ e.attrs = [(k, [])] := by
  have hm1 : o rest (attrMap [a]) = [(k, unescapeXML a.raw)] := by
    have : attrMap [a] = [(k, unescapeXML a.raw)] := by simp [attrMap, attrMapAux, Attrs.set, hak]
    rw [this]
    exact List.perm_singleton.mp (ho _ _)
  have hE' := escape_plain hE
  generalize hu : escapeXML (unescapeXML a.raw) = E at *
  have hq : c!"\"" ∉ E := by rw [← hu]; exact fun hh => (escapeXML_mem hh).2.2.1 rfl
  obtain ⟨z, t, hzz, hcon⟩ : ∃ z t, (z = c!"/" ∨ z = c!">") ∧ (contentLoop o n 1 (openTag x [a] ws' ++ ((if b then b!"/>" else b!">") ++ rest))).1 =
      openTag x [canonAttr (k, unescapeXML a.raw)] [] ++ z :: t := by
    cases b with
    | true =>
      have hcl := contentLoop_self o n 1 (ws := ws') hx hal hws' rest
      rw [hm1] at hcl
      exact ⟨c!"/", c!">" :: (contentLoop o n 1 rest).1, .inl rfl, by simp only [if_true, List.cons_append, List.nil_append]; rw [hcl]; simp [prepend]⟩
    | false =>
      have hcl := contentLoop_open o n 1 (ws := ws') hx hal hws' rest
      rw [hm1] at hcl
      exact ⟨c!">", _, .inr rfl, by simp only [Bool.false_eq_true, if_false, List.cons_append, List.nil_append]; rw [hcl]; simp [prepend]; rfl⟩
  have hin : ∃ e es, topElems o (contentLoop o n 1 (openTag x [a] ws' ++ ((if b then b!"/>" else b!">") ++ rest))).1 = e :: es ∧ e.name = x ∧ e.attrs = [(k, [])] := by
    rw [hcon, topElems_some (skipToNext_open hx _ _ _)]
    refine ⟨_, _, rfl, ?_⟩
    have hd : (openTag x [canonAttr (k, unescapeXML a.raw)] [] ++ z :: t).drop 1 =
        x ++ (b!" " ++ k ++ b!"=" ++ c!"\"" :: (E ++ c!"\"" :: z :: t)) := by
      simp [openTag, canonAttr, Attr.render, hu]
    have hlt := long_tag (t := t) hzz hx (hak ▸ (hal.2.1 a (by simp)).2.1) hq hE' hl
    unfold elemAt
    rw [hd]
    simp only
    split
    · exact hlt
    · exact hlt
  obtain ⟨e, es, he, hen, hea⟩ := hin
  have hout : ∃ e es, topElems o (openTag n as ws ++ c!">" :: (openTag x [a] ws' ++ ((if b then b!"/>" else b!">") ++ rest))) = e :: es ∧ e.name = n ∧
      e.content = (contentLoop o n 1 (openTag x [a] ws' ++ ((if b then b!"/>" else b!">") ++ rest))).1 := by
    rw [topElems_some (skipToNext_open hn _ _ _)]
    refine ⟨_, _, rfl, ?_⟩
    have hd : (openTag n as ws ++ c!">" :: (openTag x [a] ws' ++ ((if b then b!"/>" else b!">") ++ rest))).drop 1 = n ++ as.flatMap Attr.render ++ ws ++ c!">" :: (openTag x [a] ws' ++ ((if b then b!"/>" else b!">") ++ rest)) := by
      simp [openTag]
    unfold elemAt
    rw [hd, parseTag_open hn ha hws]
    simp [parseElementContent]
  obtain ⟨f, fs, hf, hfn, hfc⟩ := hout
  exact ⟨f, fs, e, es, hf, hfn, by rw [hfc]; exact he, hen, hea⟩

/-- **C100.** Get hands each element's content on with its attributes escaped anew. An attribute within the root that is over 1 MiB when escaped anew is read as empty,
although it is in the document, within the limits, and there is no error. So it is with any options. -/
theorem C100_options (env : Env) (ho : env.ord.IsPerm) (opts : Options) {n x m y k : Bytes} {as : List Attr} {ws ws' rest : Bytes} {a : Attr} (b : Bool) (hn : TagName n) (ha : AttrsLoose as)
    (hws : ∀ c ∈ ws, IsWs c) (hx : TagName x) (hal : AttrsLoose [a]) (hws' : ∀ c ∈ ws', IsWs c)
    (hm : PlainName m) (hmn : agrees opts.caseSensitive m n = true) (hy : PlainName y) (hyx : agrees opts.caseSensitive y x = true) (hk : c!"|" ∉ k) (hak : sameKey opts.caseSensitive a.name k)
    (hE : ∀ c ∈ unescapeXML a.raw, ¬ IsWs c ∧ c ≠ c!"/" ∧ c ≠ c!"=") (hl : 1048576 < (escapeXML (unescapeXML a.raw)).length)
    (hz : (openTag n as ws ++ c!">" :: (openTag x [a] ws' ++ ((if b then b!"/>" else b!">") ++ rest))).length ≤ 10485760) :
    getWithOptions env (openTag n as ws ++ c!">" :: (openTag x [a] ws' ++ ((if b then b!"/>" else b!">") ++ rest))) (pathOf [m, y, c!"@" :: k]) (some opts) = .ret (.ofAttr []) := by
  have hpl : ∀ i ∈ [m, y], PlainName i := by
    intro i hi; simp only [List.mem_cons, List.not_mem_nil, or_false] at hi; rcases hi with rfl | rfl <;> assumption
  have hp := parsePath_names [m, y] [c!"@" :: k] hpl (by simp) (by simp) _ (parseParts_attr hk)
  simp only [List.cons_append, List.nil_append, List.map_cons, List.map_nil, fuseFields] at hp
  obtain ⟨f, fs, e, es, hf, hfn, he, hen, hea⟩ := inner_elems (rest := rest) ho b hn ha hws hx hal rfl hws' hE hl
  generalize openTag n as ws ++ c!">" :: (openTag x [a] ws' ++ ((if b then b!"/>" else b!">") ++ rest)) = doc at hf hz ⊢
  cases hcs : opts.caseSensitive with
  | true =>
    rw [hcs] at hmn hyx hak
    simp only [agrees, sameKey, if_true] at hmn hyx hak
    have := cs_names env doc hpl (parts := [c!"@" :: k]) (by simp [hk]) opts hcs
    simp only [List.cons_append, List.nil_append] at this
    rw [this]
    unfold get
    rw [if_neg (by have := docMax; omega), hp]
    simp only
    congr 1
    rw [hak] at hea
    have hg : Attrs.get? k e.attrs = some [] := by rw [hea]; simp [Attrs.get?]
    have hsec : execQ env (evalFilter env) [nameSeg y, ⟨.attr k, []⟩] false f.content = .ofAttr [] := by
      simp [execQ, execBody, execElem, isFragmentQuery, nameSeg, Seg.matches, he, hen, hyx, firstMatch, hg, applyModifiers, runMods]
    unfold executeQuery
    simp only [execQ] at hsec ⊢
    simp [execBody, execElem, isFragmentQuery, nameSeg, SegKind.isRootOp, Seg.matches, hf, hfn, hmn, firstMatch] at hsec ⊢
    simp [hsec, Result.ofAttr]
  | false =>
    rw [hcs] at hmn hyx hak
    simp only [agrees, sameKey, Bool.false_eq_true, if_false] at hmn hyx hak
    have hdef : isDefaultOptions (some opts) = false := by simp [isDefaultOptions, hcs]
    unfold getWithOptions
    rw [if_neg (by have := docMax; omega), hdef]
    simp only [Bool.false_eq_true, if_false, Option.getD_some, hcs, parsePathWithOptions, hp]
    have hg : attrsOpt env.ord false (toLowerASCII k) e = [[]] := by
      unfold attrsOpt
      rw [hea, List.perm_singleton.mp (ho _ _)]
      have : toLowerASCII a.name = toLowerASCII k := hak
      simp [this]
    have hm' : nameMatches (toLowerASCII m) (toLowerASCII n) = true := hmn
    have hy' : nameMatches (toLowerASCII y) (toLowerASCII x) = true := hyx
    have hF : ∀ {i z : Bytes} {R : Bytes} {g : Elem} {gs : List Elem}, nameMatches (toLowerASCII i) (toLowerASCII z) = true → topElems env.ord R = g :: gs → g.name = z → ∃ hs, namedF env.ord i R = g :: hs := by
      intro i z R g gs h1 h2 h3
      exact ⟨_, by rw [namedF, h2, List.filter_cons, h3, if_pos (show nameMatches (foldCase i) (foldCase z) = true from h1)]⟩
    obtain ⟨fs', hf'⟩ := hF hm' hf hfn
    obtain ⟨es', he'⟩ := hF hy' he hen
    have hsec : execQOpt env (evalFilter env) false [lowName y, ⟨.attr (toLowerASCII k), []⟩] false f.content = .ofAttr [] := by
      simp only [execQOpt, execBodyOpt, lowName, nameSeg, Bool.and_false, Bool.false_eq_true, if_false, execElemOpt, namedF_filter]
      rw [he', firstMatchOpt]
      simp [hg]
    change Outcome.ret (execBodyOpt env (evalFilter env) false true (lowName m) [lowName y, ⟨.attr (toLowerASCII k), []⟩] (execQOpt env (evalFilter env) false [lowName y, ⟨.attr (toLowerASCII k), []⟩] false)
      (execQOpt env (evalFilter env) false [⟨.attr (toLowerASCII k), []⟩] false) doc) = _
    congr 1
    simp only [execBodyOpt, lowName, nameSeg, Bool.and_false, Bool.false_eq_true, if_false, execElemOpt, namedF_filter]
    rw [hf', firstMatchOpt]
    simp only [lowName, nameSeg] at hsec
    simp [hsec, Result.ofAttr]

/-- **C100.** The same for Get. -/
theorem C100_nested (env : Env) (ho : env.ord.IsPerm) {n x m y : Bytes} {as : List Attr} {ws ws' rest : Bytes} {a : Attr} (b : Bool) (hn : TagName n) (ha : AttrsLoose as)
    (hws : ∀ c ∈ ws, IsWs c) (hx : TagName x) (hal : AttrsLoose [a]) (hws' : ∀ c ∈ ws', IsWs c)
    (hm : PlainName m) (hmn : nameMatches m n = true) (hy : PlainName y) (hyx : nameMatches y x = true) (hk : c!"|" ∉ a.name)
    (hE : ∀ c ∈ unescapeXML a.raw, ¬ IsWs c ∧ c ≠ c!"/" ∧ c ≠ c!"=") (hl : 1048576 < (escapeXML (unescapeXML a.raw)).length)
    (hz : (openTag n as ws ++ c!">" :: (openTag x [a] ws' ++ ((if b then b!"/>" else b!">") ++ rest))).length ≤ 10485760) :
    get env (openTag n as ws ++ c!">" :: (openTag x [a] ws' ++ ((if b then b!"/>" else b!">") ++ rest))) (pathOf [m, y, c!"@" :: a.name]) = .ret (.ofAttr []) := by
  rw [← (C30_get_default env _ _).2]
  exact C100_options env ho defaultOptions b hn ha hws hx hal hws' hm hmn hy hyx hk rfl hE hl hz

/-- **C100.** Without anything around it the same element gives the value. -/
theorem C100_top (env : Env) {x k : Bytes} {ws' rest : Bytes} {a : Attr} (b : Bool) (hx : TagName x) (hpx : PlainName x) (hal : AttrsLoose [a]) (hak : a.name = k) (hws' : ∀ c ∈ ws', IsWs c) (hk : c!"|" ∉ k)
    (hz : (openTag x [a] ws' ++ ((if b then b!"/>" else b!">") ++ rest)).length ≤ 10485760) :
    get env (openTag x [a] ws' ++ ((if b then b!"/>" else b!">") ++ rest)) (pathOf [x, c!"@" :: k]) = .ret (.ofAttr (unescapeXML a.raw)) := by
  have hp := parsePath_names [x] [c!"@" :: k] (by intro m hm; simp only [List.mem_cons, List.not_mem_nil, or_false] at hm; rcases hm with rfl; assumption) (by simp) (by simp) _ (parseParts_attr hk)
  simp only [List.cons_append, List.nil_append, List.map_cons, List.map_nil, fuseFields] at hp
  unfold get
  rw [if_neg (by have := docMax; omega), hp]
  simp only
  congr 1
  have hout : ∃ e es, topElems env.ord (openTag x [a] ws' ++ ((if b then b!"/>" else b!">") ++ rest)) = e :: es ∧ e.name = x ∧ e.attrs = attrMap [a] := by
    rw [topElems_some (skipToNext_open hx _ _ _)]
    refine ⟨_, _, rfl, ?_⟩
    have hd : (openTag x [a] ws' ++ ((if b then b!"/>" else b!">") ++ rest)).drop 1 = x ++ [a].flatMap Attr.render ++ ws' ++ ((if b then b!"/>" else b!">") ++ rest) := by
      simp [openTag]
    unfold elemAt
    rw [hd]
    cases b with
    | true =>
      have h1 := parseTag_self (r := rest) hx hal hws'
      simp only [if_true, List.cons_append, List.nil_append]
      rw [h1]; simp
    | false =>
      have h1 := parseTag_open (r := rest) hx hal hws'
      simp only [Bool.false_eq_true, if_false, List.cons_append, List.nil_append]
      rw [h1]; simp
  obtain ⟨f, fs, hf, hfn, hfc⟩ := hout
  have hg : Attrs.get? k (attrMap [a]) = some (unescapeXML a.raw) := by
    simp [attrMap, attrMapAux, Attrs.set, hak, Attrs.get?]
  simp [executeQuery, execQ, execBody, execElem, isFragmentQuery, nameSeg, SegKind.isRootOp, Seg.matches, hf, hfn, hfc, nameMatches_self, firstMatch, hg, applyModifiers, runMods]

/-- **C100.** The same with any options. -/
theorem C100_top_options (env : Env) (ho : env.ord.IsPerm) (opts : Options) {x y k ws' rest : Bytes} {a : Attr} (b : Bool) (hx : TagName x) (hal : AttrsLoose [a]) (hws' : ∀ c ∈ ws', IsWs c)
    (hy : PlainName y) (hyx : agrees opts.caseSensitive y x = true) (hk : c!"|" ∉ k) (hak : sameKey opts.caseSensitive a.name k)
    (hz : (openTag x [a] ws' ++ ((if b then b!"/>" else b!">") ++ rest)).length ≤ 10485760) :
    getWithOptions env (openTag x [a] ws' ++ ((if b then b!"/>" else b!">") ++ rest)) (pathOf [y, c!"@" :: k]) (some opts) = .ret (.ofAttr (unescapeXML a.raw)) := by
  have hpl : ∀ i ∈ [y], PlainName i := by
    intro i hi; simp only [List.mem_cons, List.not_mem_nil, or_false] at hi; rcases hi with rfl; assumption
  have hp := parsePath_names [y] [c!"@" :: k] hpl (by simp) (by simp) _ (parseParts_attr hk)
  simp only [List.cons_append, List.nil_append, List.map_cons, List.map_nil, fuseFields] at hp
  have hout : ∃ e es, topElems env.ord (openTag x [a] ws' ++ ((if b then b!"/>" else b!">") ++ rest)) = e :: es ∧ e.name = x ∧ e.attrs = [(a.name, unescapeXML a.raw)] := by
    rw [topElems_some (skipToNext_open hx _ _ _)]
    refine ⟨_, _, rfl, ?_⟩
    have hd : (openTag x [a] ws' ++ ((if b then b!"/>" else b!">") ++ rest)).drop 1 = x ++ [a].flatMap Attr.render ++ ws' ++ ((if b then b!"/>" else b!">") ++ rest) := by
      simp [openTag]
    unfold elemAt
    rw [hd]
    cases b with
    | true =>
      have h1 := parseTag_self (r := rest) hx hal hws'
      simp only [if_true, List.cons_append, List.nil_append]
      rw [h1]; simp [attrMap, attrMapAux, Attrs.set]
    | false =>
      have h1 := parseTag_open (r := rest) hx hal hws'
      simp only [Bool.false_eq_true, if_false, List.cons_append, List.nil_append]
      rw [h1]; simp [attrMap, attrMapAux, Attrs.set]
  obtain ⟨e, es, he, hen, hea⟩ := hout
  generalize openTag x [a] ws' ++ ((if b then b!"/>" else b!">") ++ rest) = doc at he hz ⊢
  cases hcs : opts.caseSensitive with
  | true =>
    rw [hcs] at hyx hak
    simp only [agrees, sameKey, if_true] at hyx hak
    have := cs_names env doc hpl (parts := [c!"@" :: k]) (by simp [hk]) opts hcs
    simp only [List.cons_append, List.nil_append] at this
    rw [this]
    unfold get
    rw [if_neg (by have := docMax; omega), hp]
    simp only
    congr 1
    rw [hak] at hea
    have hg : Attrs.get? k e.attrs = some (unescapeXML a.raw) := by rw [hea]; simp [Attrs.get?]
    simp [executeQuery, execQ, execBody, execElem, isFragmentQuery, nameSeg, SegKind.isRootOp, Seg.matches, he, hen, hyx, firstMatch, hg, applyModifiers, runMods]
  | false =>
    rw [hcs] at hyx hak
    simp only [agrees, sameKey, Bool.false_eq_true, if_false] at hyx hak
    have hdef : isDefaultOptions (some opts) = false := by simp [isDefaultOptions, hcs]
    unfold getWithOptions
    rw [if_neg (by have := docMax; omega), hdef]
    simp only [Bool.false_eq_true, if_false, Option.getD_some, hcs, parsePathWithOptions, hp]
    have hg : attrsOpt env.ord false (toLowerASCII k) e = [unescapeXML a.raw] := by
      unfold attrsOpt
      rw [hea, List.perm_singleton.mp (ho _ _)]
      have : toLowerASCII a.name = toLowerASCII k := hak
      simp [this]
    have he' : ∃ hs, namedF env.ord y doc = e :: hs := ⟨_, by rw [namedF, he, List.filter_cons, hen, if_pos hyx]⟩
    obtain ⟨es', he'⟩ := he'
    change Outcome.ret (execBodyOpt env (evalFilter env) false true (lowName y) [⟨.attr (toLowerASCII k), []⟩] (execQOpt env (evalFilter env) false [⟨.attr (toLowerASCII k), []⟩] false)
      (execQOpt env (evalFilter env) false [] false) doc) = _
    congr 1
    simp only [execBodyOpt, lowName, nameSeg, Bool.and_false, Bool.false_eq_true, if_false, execElemOpt, namedF_filter]
    rw [he', firstMatchOpt]
    simp [hg]

/-- The element `<x a="'''..."/>` with `m` apostrophes. -/
def quotesIn (m : Nat) : Bytes := b!"<x a=\"" ++ List.replicate m c!"'" ++ b!"\"/>"

/-- Beside it: with 174763 to 1048576 apostrophes `<x a="'''..."/>` is valid alone and within `<r>`; alone the attribute is read, within `<r>` it is read as empty, also without regard to case. -/
theorem C100_witness (m : Nat) (h1 : 174763 ≤ m) (h2 : m ≤ 1048576) : valid (quotesIn m) = true ∧ valid (b!"<r>" ++ quotesIn m ++ b!"</r>") = true ∧
    get exEnv (quotesIn m) b!"x.@a" = .ret (.ofAttr (List.replicate m c!"'")) ∧ get exEnv (b!"<r>" ++ quotesIn m ++ b!"</r>") b!"r.x.@a" = .ret (.ofAttr []) ∧
    getWithOptions exEnv (b!"<r>" ++ quotesIn m ++ b!"</r>") b!"R.X.@A" (some ciOpts) = .ret (.ofAttr []) := by
  have hun : ∀ m, unescapeXML (List.replicate m c!"'") = List.replicate m c!"'" := by
    intro m
    induction m with
    | zero => simp [unescapeXML]
    | succ m ih =>
      rw [List.replicate_succ, unescapeXML]
      simp [ih]
  have hes : ∀ m, (escapeXML (List.replicate m c!"'")).length = 6 * m := by
    intro m
    induction m with
    | zero => rfl
    | succ m ih => rw [List.replicate_succ, escapeXML, List.length_append, ih]; simp [escByte]; omega
  let a : Attr := ⟨b!" ", b!"a", [], [], c!"\"", List.replicate m c!"'"⟩
  have hr : IsName b!"r" := by decide
  have hx : IsName b!"x" := by decide
  have ha : IsName b!"a" := by decide
  have hleg : AttrsLegal [a] := by
    refine ⟨by simp, ?_, by simp [a]⟩
    intro y hy
    simp only [List.mem_cons, List.not_mem_nil, or_false] at hy
    subst hy
    exact ⟨by simp [a, IsWs], ha, by simp [a], by simp [a], .inl rfl, fun hh => absurd (List.eq_of_mem_replicate hh) (by simp [a]), by simpa [a] using h2⟩
  have hnil : AttrsLegal [] := ⟨by simp, by simp, by simp⟩
  have e1 : quotesIn m = openTag b!"x" [a] [] ++ c!"/" :: c!">" :: [] := by simp [quotesIn, openTag, a, Attr.render]
  have e2 : b!"<r>" ++ quotesIn m ++ b!"</r>" = openTag b!"r" [] [] ++ c!">" :: (openTag b!"x" [a] [] ++ c!"/" :: c!">" :: b!"</r>") := by simp [quotesIn, openTag, a, Attr.render]
  have p1 : pathOf [b!"x", c!"@" :: b!"a"] = b!"x.@a" := by decide +kernel
  have p2 : pathOf [b!"r", b!"x", c!"@" :: b!"a"] = b!"r.x.@a" := by decide +kernel
  have p3 : pathOf [b!"R", b!"X", c!"@" :: b!"A"] = b!"R.X.@A" := by decide +kernel
  refine ⟨?_, ?_, ?_, ?_, ?_⟩
  · rw [e1, C02_valid_iff_document]
    refine ⟨by simp [openTag, a, Attr.render]; omega, .leaf b!"x" [a] [] .nil, ⟨hx, hleg, by simp, by simp, trivial⟩, trivial, ?_⟩
    simp [Forest.render]
  · rw [e2, C02_valid_iff_document]
    refine ⟨by simp [openTag, a, Attr.render]; omega, .node b!"r" [] [] (.leaf b!"x" [a] [] .nil) [] .nil, ?_, ?_, ?_⟩
    · exact ⟨hr, hnil, by simp, by simp, ⟨hx, hleg, by simp, by simp, trivial⟩, by simp, trivial⟩
    · trivial
    · simp [Forest.render, openTag, closeTag]
  · rw [e1, ← p1]
    have := C100_top exEnv (rest := []) true hx.tag (plain_of (by decide)) hleg.loose (k := b!"a") (ws' := []) rfl (by simp) (by simp) (by simp [openTag, a, Attr.render]; omega)
    rw [hun] at this
    exact this
  · rw [e2, ← p2]
    refine C100_nested exEnv (a := a) (rest := b!"</r>") ?_ true hr.tag hnil.loose (by simp) hx.tag hleg.loose (by simp) (plain_of (by decide)) (by decide) (plain_of (by decide)) (by decide) (by simp [a]) ?_ (by rw [hun, hes]; omega) (by simp [openTag, a, Attr.render]; omega)
    · intro _ _; exact List.Perm.refl _
    · rw [hun]
      intro c hc
      rw [List.eq_of_mem_replicate hc]
      decide
  · rw [e2, ← p3]
    refine C100_options exEnv ?_ ciOpts (a := a) (rest := b!"</r>") true hr.tag hnil.loose (by simp) hx.tag hleg.loose (by simp) (plain_of (by decide)) (by decide) (plain_of (by decide)) (by decide) (by decide)
      (show foldCase b!"a" = foldCase b!"A" by decide) ?_ (by rw [hun, hes]; omega) (by simp [openTag, a, Attr.render]; omega)
    · intro _ _; exact List.Perm.refl _
    · rw [hun]
      intro c hc
      rw [List.eq_of_mem_replicate hc]
      decide

end Verif.Props
