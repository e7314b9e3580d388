import Verif.Props.Crowded
import Verif.Lemmas.AppendOpt
import Verif.Lemmas.AskBy
import Verif.Props.Valid
/- C99: writing one attribute anew writes all of them anew, in documents of any kind. -/
namespace Verif.Props
open Verif Verif.Spec

/-- The location of the tag a document begins with, whatever follows it. -/
theorem first_loc {o : Ord} (cs : Bool) {n m : Bytes} {as : List Attr} {ws rest : Bytes} (b : Bool) (hn : TagName n) (ha : AttrsLoose as) (hws : ∀ c ∈ ws, IsWs c) (hm : agrees cs m n = true) :
    ∃ l, findLoc o cs [nameSeg m] (openTag n as ws ++ (if b then b!"/>" else b!">") ++ rest) 0 = some l ∧ l.startPos = 0 ∧
      l.contentStart = (openTag n as ws ++ (if b then b!"/>" else b!">")).length ∧ l.name = n ∧ l.attrs = attrMap as ∧ l.selfClosing = b := by
  rw [List.append_assoc]
  have e : (openTag n as ws ++ ((if b then b!"/>" else b!">") ++ rest)).drop 1 = n ++ as.flatMap Attr.render ++ ws ++ ((if b then b!"/>" else b!">") ++ rest) := by simp [openTag]
  have hpt : parseTag ((openTag n as ws ++ ((if b then b!"/>" else b!">") ++ rest)).drop 1) = (⟨n, attrMap as, b, true⟩, rest) := by
    rw [e]
    cases b with
    | true => exact parseTag_self hn ha hws
    | false => exact parseTag_open hn ha hws
  unfold findLoc
  rw [topElems_some (skipToNext_open hn as ws _), if_neg (by simp [maxPositionOffset])]
  have hnm : (elemAt o (openTag n as ws ++ ((if b then b!"/>" else b!">") ++ rest))).1.name = n := by
    unfold elemAt; rw [hpt]; cases b <;> rfl
  simp only [List.filter_cons, hnm, matchesOpt_agrees, hm, if_true, List.head?_cons, Option.map_some]
  refine ⟨_, rfl, ?_⟩
  unfold elemAt locOf
  rw [hpt]
  cases b <;> simp <;> omega

/-- **C99.** In every valid document that begins with a tag, Set of an attribute of that tag writes the tag anew, with all attributes escaped anew and sorted, and leaves the rest. -/
theorem C99_set {o : Ord} (opts : Options) {n m k : Bytes} {as : List Attr} {ws rest : Bytes} (b : Bool) (hn : TagName n) (ha : AttrsLoose as) (hws : ∀ c ∈ ws, IsWs c)
    (hval : valid (openTag n as ws ++ (if b then b!"/>" else b!">") ++ rest) = true) (hm : PlainName m) (hmn : agrees opts.caseSensitive m n = true) (hk : c!"|" ∉ k)
    {v : GoVal} {s : Bytes} (hv0 : v ≠ .nil) (hv : valueToXML v = some (escapeXML s)) (hw : (escapeXML s).length ≤ 5242880) :
    ∃ as', RetagBy opts.caseSensitive ⟨n, as, ws, none⟩ k (some s) as' ∧
      setWithOptions o (openTag n as ws ++ (if b then b!"/>" else b!">") ++ rest) (pathOf [m, c!"@" :: k]) v (some opts) = .ret (openTag n as' [] ++ (if b then b!"/>" else b!">") ++ rest, none) := by
  obtain ⟨ss, hss, hsl, hp⟩ := parseOpt_stepsLen opts.caseSensitive (.name hm .nil) (by simp) [c!"@" :: k] _ (parseParts_attr hk) (by simp)
  simp only [fuseFields, lowSegs_attr, List.cons_append, List.nil_append] at hp
  have hss1 : ss = [nameSeg (spelling opts.caseSensitive m)] := by
    cases hss with
    | name h => cases h; rfl
    | index h => cases h; simp at hsl
  have hag : agrees opts.caseSensitive (spelling opts.caseSensitive m) n = true := by
    rw [← matchesOpt_agrees, matchesOpt_spelled]; exact hmn
  obtain ⟨l, hl, l1, l2, l3, l4, l5⟩ := first_loc (o := o) opts.caseSensitive (rest := rest) b hn ha hws hag
  obtain ⟨as', g1, g2⟩ := retag_setB opts.caseSensitive (e := ⟨n, as, ws, none⟩) (m := attrMap as) (List.Perm.refl _) k s
  refine ⟨as', g1, ?_⟩
  have hsz : (openTag n as ws ++ (if b then b!"/>" else b!">") ++ rest).length ≤ 10485760 := by
    refine Classical.byContradiction fun hz => ?_
    unfold valid validate at hval
    rw [if_pos (by have := docMax; omega)] at hval
    cases hval
  rw [set_parsed hval hv0 hp (by simp), setElement_attrB hss hv hw hsz, hss1, hl]
  simp only
  unfold replaceAttribute
  rw [l3, l4, l5, g2]
  have := splice_at (a := []) (m := openTag n as ws ++ (if b then b!"/>" else b!">")) (z := rest) (i := l.startPos) (j := l.contentStart)
    (mid := b!"<" ++ n ++ as'.flatMap Attr.render ++ tagClose b) (by rw [l1]; rfl) (by rw [l2]; simp)
  rw [List.nil_append] at this
  rw [this, finish_ok (by simp)]
  cases b <;> simp [openTag, tagClose]

/-- **C99.** So does Delete of an attribute that is there. -/
theorem C99_delete {o : Ord} (opts : Options) {n m k : Bytes} {as : List Attr} {ws rest : Bytes} (b : Bool) (hn : TagName n) (ha : AttrsLoose as) (hws : ∀ c ∈ ws, IsWs c)
    (hval : valid (openTag n as ws ++ (if b then b!"/>" else b!">") ++ rest) = true) (hm : PlainName m) (hmn : agrees opts.caseSensitive m n = true) (hk : c!"|" ∉ k)
    {j : Bytes} (hj : sameKey opts.caseSensitive j k) (hj2 : Spec.attrVal as j ≠ none) :
    ∃ as', RetagBy opts.caseSensitive ⟨n, as, ws, none⟩ k none as' ∧
      deleteWithOptions o (openTag n as ws ++ (if b then b!"/>" else b!">") ++ rest) (pathOf [m, c!"@" :: k]) (some opts) = .ret (openTag n as' [] ++ (if b then b!"/>" else b!">") ++ rest, none) := by
  obtain ⟨ss, hss, hsl, hp⟩ := parseOpt_stepsLen opts.caseSensitive (.name hm .nil) (by simp) [c!"@" :: k] _ (parseParts_attr hk) (by simp)
  simp only [fuseFields, lowSegs_attr, List.cons_append, List.nil_append] at hp
  have hss1 : ss = [nameSeg (spelling opts.caseSensitive m)] := by
    cases hss with
    | name h => cases h; rfl
    | index h => cases h; simp at hsl
  have hag : agrees opts.caseSensitive (spelling opts.caseSensitive m) n = true := by
    rw [← matchesOpt_agrees, matchesOpt_spelled]; exact hmn
  obtain ⟨l, hl, l1, l2, l3, l4, l5⟩ := first_loc (o := o) opts.caseSensitive (rest := rest) b hn ha hws hag
  obtain ⟨as', g1, g2⟩ := retag_deleteB opts.caseSensitive (e := ⟨n, as, ws, none⟩) (m := attrMap as) (List.Perm.refl _) k
  refine ⟨as', g1, ?_⟩
  have hsz : (openTag n as ws ++ (if b then b!"/>" else b!">") ++ rest).length ≤ 10485760 := by
    refine Classical.byContradiction fun hz => ?_
    unfold valid validate at hval
    rw [if_pos (by have := docMax; omega)] at hval
    cases hval
  rw [delete_parsed hval hp (by simp), deleteElement_attrB (by rw [hss1]; simp) hsz, hss1, hl]
  simp only [deleteAttribute]
  have hany : (l.attrs.map (·.1)).any (fun n => sameAttr opts.caseSensitive n (spelling opts.caseSensitive k)) = true := by
    rw [List.any_eq_true]
    refine ⟨j, ?_, ?_⟩
    · rw [l4]
      have h2 := hj2
      rw [← attrMap_get, ne_eq, get?_none_iff, Classical.not_not] at h2
      exact h2
    · rw [sameAttr_key]; exact decide_eq_true hj
  rw [if_pos hany, l3, l4, l5, g2]
  have := splice_at (a := []) (m := openTag n as ws ++ (if b then b!"/>" else b!">")) (z := rest) (i := l.startPos) (j := l.contentStart)
    (mid := b!"<" ++ n ++ as'.flatMap Attr.render ++ tagClose b) (by rw [l1]; rfl) (by rw [l2]; simp)
  rw [List.nil_append] at this
  rw [this, finish_ok (by simp)]
  cases b <;> simp [openTag, tagClose]

/-- The attributes left by Delete have names of XML. -/
theorem retagBy_old {cs : Bool} {e : El} {k : Bytes} {as : List Attr} (h : RetagBy cs e k none as) (hl : AttrsLegal e.attrs) {a : Attr} (ha : a ∈ as) : IsName a.name := by
  have hv := attrVal_nodup h.neat.2 ha
  by_cases hn : Spec.attrVal e.attrs a.name = none
  · exfalso
    by_cases hkk : sameKey cs a.name k
    · by_cases hx : ∃ j', sameKey cs j' k ∧ Spec.attrVal e.attrs j' ≠ none
      · rw [h.no _ hkk hx hn] at hv; cases hv
      · rw [h.new (fun j hj => Classical.byContradiction fun hh => hx ⟨j, hj, hh⟩) _ hkk] at hv
        split at hv <;> cases hv
    · rw [h.others _ hkk, hn] at hv; cases hv
  · obtain ⟨v, hv'⟩ := Option.ne_none_iff_exists'.mp hn
    obtain ⟨b, hb, hb2, -⟩ := attrVal_mem hv'
    rw [← hb2]
    exact (hl.2.1 b hb).2.1

/-- After rewriting, an attribute that is too long as the code writes it makes the document invalid. -/
theorem retagBy_long {cs : Bool} {e : El} {k : Bytes} {x : Option Bytes} {as : List Attr} (h : RetagBy cs e k x as) {n : Bytes} (hn : IsName n) (hall : ∀ a ∈ as, IsName a.name)
    {j u : Bytes} (hj : ¬ sameKey cs j k) (hu : Spec.attrVal e.attrs j = some u) (hlen : 1048576 < (escapeXML u).length) (t : Bytes) : valid (openTag n as [] ++ t) = false := by
  by_cases hz : (openTag n as [] ++ t).length ≤ 10485760
  · obtain ⟨a, ha, -, h3⟩ := attrVal_mem ((h.others j hj).trans hu)
    obtain ⟨-, -, -, -, v, hv⟩ := h.neat.1 a ha
    rw [hv, unescape_escape] at h3
    obtain ⟨q, m, hf⟩ := excess_fault (st := []) (by simp) hn t as [] (by simp) (by simp)
      (fun a ha => by
        have ha : a ∈ as := by simpa using ha
        obtain ⟨n1, n2, n3, n4, v, n5⟩ := h.neat.1 a ha
        exact ⟨n1, n2, n3, n4, by rw [n5]; exact escape_no_quote v, hall a ha⟩)
      (fun hh => by have := hh.2 a (by simpa using ha); rw [hv, h3] at this; omega)
    rw [List.nil_append] at hf
    have := fault_validate Begun.start (.tag hf) (by simpa using hz) (by simp [openTag])
    rw [List.nil_append] at this
    unfold valid
    rw [this]
    rfl
  · unfold valid validate
    rw [if_pos (by have := docMax; omega)]
    rfl

/-- **C99.** So an attribute that is too long when escaped anew makes the document invalid when another attribute is set or deleted. -/
theorem C99_outgrown {o : Ord} (opts : Options) {n m k : Bytes} {as : List Attr} {ws rest : Bytes} (b : Bool) (hn : IsName n) (ha : AttrsLegal as) (hws : ∀ c ∈ ws, IsWs c)
    (hval : valid (openTag n as ws ++ (if b then b!"/>" else b!">") ++ rest) = true) (hm : PlainName m) (hmn : agrees opts.caseSensitive m n = true) (hk : IsName k)
    {j u : Bytes} (hj : ¬ sameKey opts.caseSensitive j k) (hu : Spec.attrVal as j = some u) (hlen : 1048576 < (escapeXML u).length) :
    (∀ (v : GoVal) (s : Bytes), v ≠ .nil → valueToXML v = some (escapeXML s) → (escapeXML s).length ≤ 5242880 →
      ∃ r, setWithOptions o (openTag n as ws ++ (if b then b!"/>" else b!">") ++ rest) (pathOf [m, c!"@" :: k]) v (some opts) = .ret (r, none) ∧ valid r = false) ∧
    (∀ i, sameKey opts.caseSensitive i k → Spec.attrVal as i ≠ none →
      ∃ r, deleteWithOptions o (openTag n as ws ++ (if b then b!"/>" else b!">") ++ rest) (pathOf [m, c!"@" :: k]) (some opts) = .ret (r, none) ∧ valid r = false) := by
  have hbar : c!"|" ∉ k := fun hh => by
    have := hk.2.1 _ hh
    rw [← isNameChar_iff] at this
    revert this; decide
  constructor
  · intro v s hv0 hv hw
    obtain ⟨as', h1, h2⟩ := C99_set (o := o) opts b hn.tag ha.loose hws hval hm hmn hbar hv0 hv hw
    refine ⟨_, h2, ?_⟩
    rw [List.append_assoc]
    exact retagBy_long h1 hn (fun a h => retagBy_name h1 ha hk h) hj hu hlen _
  · intro i hi hi2
    obtain ⟨as', h1, h2⟩ := C99_delete (o := o) opts b hn.tag ha.loose hws hval hm hmn hbar hi hi2
    refine ⟨_, h2, ?_⟩
    rw [List.append_assoc]
    exact retagBy_long h1 hn (fun a h => retagBy_old h1 ha h) hj hu hlen _

/-- The document `<r a="'''..." b=""/>` with `m` apostrophes. -/
def quotes (m : Nat) : Bytes := b!"<r a=\"" ++ List.replicate m c!"'" ++ b!"\" b=\"\"/>"

/-- Beside it: `<r a="'''..." b=""/>` with 174763 to 1048576 apostrophes is valid; Set and Delete of `b` succeed, and what they return is not valid. -/
theorem C99_witness (o : Ord) (m : Nat) (h1 : 174763 ≤ m) (h2 : m ≤ 1048576) : valid (quotes m) = true ∧
    (∃ r, set o (quotes m) b!"r.@b" (.str b!"1") = .ret (r, none) ∧ valid r = false) ∧ ∃ r, delete o (quotes m) b!"r.@b" = .ret (r, none) ∧ valid r = false := by
  have hun : ∀ m, unescapeXML (List.replicate m c!"'") = List.replicate m c!"'" := by
    intro m
    induction m with
    | zero => simp [unescapeXML]
    | succ m ih =>
      rw [List.replicate_succ, unescapeXML]
      simp [ih]
  have hes : ∀ m, (escapeXML (List.replicate m c!"'")).length = 6 * m := by
    intro m
    induction m with
    | zero => rfl
    | succ m ih => rw [List.replicate_succ, escapeXML, List.length_append, ih]; simp [escByte]; omega
  let as : List Attr := [⟨b!" ", b!"a", [], [], c!"\"", List.replicate m c!"'"⟩, ⟨b!" ", b!"b", [], [], c!"\"", []⟩]
  have hq : quotes m = openTag b!"r" as [] ++ (if true then b!"/>" else b!">") ++ [] := by simp [quotes, openTag, as, Attr.render]
  have hr : IsName b!"r" := by decide
  have ha : IsName b!"a" := by decide
  have hb : IsName b!"b" := by decide
  have hleg : AttrsLegal as := by
    refine ⟨by simp [as], ?_, by simp [as]⟩
    intro a ham
    simp only [as, List.mem_cons, List.not_mem_nil, or_false] at ham
    rcases ham with rfl | rfl
    · exact ⟨by simp [IsWs], ha, by simp, by simp, .inl rfl, fun hh => absurd (List.eq_of_mem_replicate hh) (by simp), by simpa using h2⟩
    · exact ⟨by decide, hb, by simp, by simp, .inl rfl, by simp, by simp⟩
  have hval : valid (openTag b!"r" as [] ++ (if true then b!"/>" else b!">") ++ []) = true := by
    rw [C02_valid_iff_document]
    refine ⟨by simp [openTag, as, Attr.render]; omega, .leaf b!"r" as [] .nil, ⟨hr, hleg, by simp, by simp, trivial⟩, trivial, ?_⟩
    simp [Forest.render]
  have hp : pathOf [b!"r", c!"@" :: b!"b"] = b!"r.@b" := by decide +kernel
  have key := C99_outgrown (o := o) defaultOptions (m := b!"r") (k := b!"b") true hr hleg (by simp) hval (plain_of (by decide)) (by decide) hb (j := b!"a") (u := List.replicate m c!"'") (by decide)
    (by simp [as, Spec.attrVal, hun]) (by rw [hes]; omega)
  rw [hp, ← hq] at key
  refine ⟨by rw [hq]; exact hval, key.1 (.str b!"1") b!"1" (by simp) rfl (by decide), key.2 b!"b" (by decide) (by simp [as, Spec.attrVal])⟩
end Verif.Props
