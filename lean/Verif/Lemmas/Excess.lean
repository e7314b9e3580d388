import Verif.Lemmas.Prolog
import Verif.Lemmas.Top
import Verif.Model.GetOpt
/- The limits of the reader: tags with more than 100 attributes and tokens of more than 1 MiB. -/
namespace Verif
open Spec

/-! ### queries see a document only through its outermost elements -/

theorem execBody_top {env : Env} {ev : Filter → Elem → Bool} {x y : Bytes} (h : topElems env.ord x = topElems env.ord y) (root : Bool) (cur : Seg) (rest : List Seg)
    (k1 k2 : Bytes → Result) : execBody env ev root cur rest k1 k2 x = execBody env ev root cur rest k1 k2 y := by
  unfold execBody
  split
  · rw [h]; simp only [execElem, h]
  · rw [h]
  · rfl
  · rfl
  · rfl
  · rfl
  · rfl
  · unfold handleRecursive
    split
    · rfl
    · simp only [recSearch, h]
  · simp only [h]

theorem execQ_top {env : Env} {ev : Filter → Elem → Bool} {x y : Bytes} (h : topElems env.ord x = topElems env.ord y) (ss : List Seg) (root : Bool) :
    execQ env ev ss root x = execQ env ev ss root y := by
  match ss with
  | [] => rfl
  | [s] => exact execBody_top h ..
  | s :: t :: ss => exact execBody_top h ..

theorem execBodyOpt_top {env : Env} {ev : Filter → Elem → Bool} {x y : Bytes} (cs : Bool) (h : topElems env.ord x = topElems env.ord y) (root : Bool) (cur : Seg) (rest : List Seg)
    (k1 k2 : Bytes → Result) : execBodyOpt env ev cs root cur rest k1 k2 x = execBodyOpt env ev cs root cur rest k1 k2 y := by
  unfold execBodyOpt
  split
  · rw [h]; simp only [execElemOpt, h]
  · rw [h]
  · rfl
  · rfl
  · rfl
  · rfl
  · rfl
  · unfold handleRecursiveOpt
    split
    · rfl
    · simp only [recSearch, h]
  · simp only [h]

theorem execQOpt_top {env : Env} {ev : Filter → Elem → Bool} {x y : Bytes} (cs : Bool) (h : topElems env.ord x = topElems env.ord y) (ss : List Seg) (root : Bool) :
    execQOpt env ev cs ss root x = execQOpt env ev cs ss root y := by
  match ss with
  | [] => rfl
  | [s] => exact execBodyOpt_top cs h ..
  | s :: t :: ss => exact execBodyOpt_top cs h ..

theorem get_top {env : Env} {x y : Bytes} (hl : x.length > maxDocumentSize ↔ y.length > maxDocumentSize) (h : topElems env.ord x = topElems env.ord y) (path : Bytes) :
    get env x path = get env y path := by
  unfold get
  simp only [executeQuery, execQ_top h, hl]

theorem getWithOptions_top {env : Env} {x y : Bytes} (hl : x.length > maxDocumentSize ↔ y.length > maxDocumentSize) (h : topElems env.ord x = topElems env.ord y) (path : Bytes)
    (opts : Option Options) : getWithOptions env x path opts = getWithOptions env y path opts := by
  unfold getWithOptions
  simp only [executeQuery, execQ_top h, execQOpt_top _ h, hl]

/-! ### more than 100 attributes -/

theorem parseAttrsN_full {acc : Attrs} {as : List Attr} {ws r : Bytes} {c : UInt8} (ha : ∀ a ∈ as, a.Loose)
    (hws : ∀ c ∈ ws, IsWs c) (hcw : ¬ IsWs c) :
    parseAttrsN as.length acc (as.flatMap Attr.render ++ ws ++ c :: r) = (attrMapAux acc as, c :: r) := by
  induction as generalizing acc with
  | nil =>
    simp only [List.flatMap_nil, List.nil_append, List.length_nil]
    rw [parseAttrsN, skipWs_ws hws, skipWs_cons hcw]; rfl
  | cons a as ih =>
    obtain ⟨hpre, hname, hm1, hm2, hq, hraw, hlen⟩ := ha a (by simp)
    have ih := fun acc => ih (acc := acc) (fun b hb => ha b (by simp [hb]))
    simp only [List.append_assoc] at ih
    obtain ⟨x, xs, hx⟩ := List.exists_cons_of_ne_nil hname.1
    obtain ⟨hxw, hx2, hx1, -⟩ := hname.2.1 x (by simp [hx])
    have e1 : (a :: as).flatMap Attr.render ++ ws ++ c :: r =
        a.pre ++ (a.name ++ (a.mid1 ++ c!"=" :: (a.mid2 ++ a.quote :: (a.raw ++ a.quote :: (as.flatMap Attr.render ++ (ws ++ c :: r)))))) := by
      simp [Attr.render]
    rw [e1]
    have hread : ∀ t, readUntilP isAttrDelim (a.name ++ (a.mid1 ++ c!"=" :: t)) = (a.name, a.mid1 ++ c!"=" :: t) := by
      intro t
      have hd : ∀ x ∈ a.name, isAttrDelim x = false := AttrName.not_attrDelim hname
      cases hmid : a.mid1 with
      | nil => exact readUntilP_of hd (by decide) hname.2.2 t
      | cons y ys =>
        rw [List.cons_append]
        refine readUntilP_of hd ?_ hname.2.2 _
        simp [isAttrDelim, IsWs.delim (hm1 y (by simp [hmid]))]
    rw [List.length_cons, parseAttrsN, skipWs_ws hpre, hx, List.cons_append, skipWs_cons hxw]
    simp only
    rw [if_neg (by simp [hx1, hx2]), ← List.cons_append, ← hx, hread]
    simp only
    rw [if_neg (by simp [hname.1]), skipWs_ws hm1, skipWs_cons eq_not_ws]
    simp only [ne_eq, not_true_eq_false, if_false]
    rw [skipWs_ws hm2, skipWs_cons (quote_ne hq)]
    simp only
    rw [if_pos (by rcases hq with h | h <;> simp [h]), readUntil_of hraw hlen]
    simp only [List.drop_succ_cons, List.drop_zero]
    rw [ih]; rfl

theorem parseTag_full {n : Bytes} {as : List Attr} {r : Bytes} {w c : UInt8} (hn : TagName n) (ha : AttrsLoose as) (hl : as.length = 100) (hw : IsWs w)
    (hcw : ¬ IsWs c) (h1 : c ≠ c!">") (h2 : c ≠ c!"/") : parseTag (n ++ as.flatMap Attr.render ++ w :: c :: r) = (⟨n, attrMap as, false, false⟩, c :: r) := by
  have hr : readUntilP isNameDelim (n ++ as.flatMap Attr.render ++ w :: c :: r) = (n, as.flatMap Attr.render ++ w :: c :: r) := by
    obtain ⟨a, as', rfl⟩ : ∃ a as', as = a :: as' := by cases as with | nil => simp at hl | cons a as' => exact ⟨a, as', rfl⟩
    have hp := ha.2.2 a rfl
    have hl := (ha.2.1 a (by simp)).1
    obtain ⟨p, ps, hpe⟩ := List.exists_cons_of_ne_nil hp
    rw [hpe] at hl
    have e : n ++ (a :: as').flatMap Attr.render ++ w :: c :: r = n ++ p :: (ps ++ (a.name ++ (a.mid1 ++ c!"=" :: (a.mid2 ++ a.quote :: (a.raw ++ a.quote :: (as'.flatMap Attr.render ++ w :: c :: r)))))) := by
      simp [Attr.render, hpe]
    rw [e, readUntilP_of (TagName.not_delim hn) (IsWs.delim (hl p (by simp))) hn.2.2.2.2.2]
    simp [Attr.render, hpe]
  unfold parseTag
  rw [hr]
  simp only [parseAttributes, maxAttrs]
  have := parseAttrsN_full (acc := []) (ws := [w]) (c := c) (r := r) ha.2.1 (by simpa using hw) hcw
  rw [hl] at this
  simp only [List.append_assoc, List.cons_append, List.nil_append] at this
  rw [this]
  simp [tagTail, h1, h2, attrMap]

theorem topElems_full (o : Ord) {pro n : Bytes} {as : List Attr} {r : Bytes} {w c : UInt8} (hpro : Prolog pro) (hn : TagName n) (ha : AttrsLoose as) (hl : as.length = 100)
    (hw : IsWs w) (hcw : ¬ IsWs c) (h1 : c ≠ c!">") (h2 : c ≠ c!"/") :
    topElems o (pro ++ (c!"<" :: (n ++ as.flatMap Attr.render ++ w :: c :: r))) = topElems o (pro ++ (c!"<" :: (n ++ as.flatMap Attr.render ++ c!">" :: c :: r))) := by
  rw [topElems_skip (skipToNext_prolog hpro _), topElems_skip (skipToNext_prolog hpro _)]
  have hs : ∀ t, skipToNext (c!"<" :: (n ++ t)) = some (c!"<" :: (n ++ t)) := by
    intro t
    obtain ⟨x, xs, rfl⟩ := List.exists_cons_of_ne_nil hn.1
    rw [List.cons_append, skipToNext.eq_def]
    simp [TagName.not_special hn]
  have t1 := parseTag_full (r := r) hn ha hl hw hcw h1 h2
  have t2 := parseTag_open (ws := []) (r := c :: r) hn ha (by simp)
  simp only [List.append_nil] at t2
  have e : elemAt o (c!"<" :: (n ++ as.flatMap Attr.render ++ w :: c :: r)) = elemAt o (c!"<" :: (n ++ as.flatMap Attr.render ++ c!">" :: c :: r)) := by
    unfold elemAt
    simp only [List.drop_succ_cons, List.drop_zero]
    rw [t1, t2]
    simp
  rw [List.append_assoc] at e ⊢
  rw [topElems_some (hs _), List.append_assoc, topElems_some (hs _)]
  rw [List.append_assoc] at e
  rw [e]

/-! ### tokens of more than 1 MiB -/

theorem readAux_over {stop : UInt8 → Bool} {k : Nat} {w r : Bytes} {c : UInt8} (hw : ∀ x ∈ w, stop x = false) (hk : k + w.length = 1048577) :
    readAux stop k (w ++ c :: r) = (none, c :: r) := by
  have hm := maxTok
  induction w generalizing k with
  | nil =>
    simp only [List.length_nil] at hk
    simp only [List.nil_append, readAux]
    rw [if_pos (by omega)]
  | cons x xs ih =>
    simp only [List.length_cons] at hk
    simp only [List.cons_append, readAux]
    rw [if_neg (by omega), if_neg (by simp [hw x (by simp)]), ih (fun y hy => hw y (by simp [hy])) (by omega)]
    rfl

theorem readUntil_over {d : UInt8} {w r : Bytes} {c : UInt8} (hw : d ∉ w) (hk : w.length = 1048577) : readUntil d (w ++ c :: r) = ([], c :: r) := by
  unfold readUntil readUntilP
  rw [readAux_over (by intro x hx; simp only [beq_eq_false_iff_ne, ne_eq]; rintro rfl; exact hw hx) (by omega)]
  rfl

/-- A processing instruction that is too long ends after 1 MiB. -/
theorem skipToNext_longPi {b r : Bytes} {c : UInt8} (hb : c!">" ∉ b) (hl : b.length = 1048575) : skipToNext (b!"<?" ++ b ++ c :: r) = skipToNext r := by
  have h := readUntil_over (d := c!">") (w := b!"<?" ++ b) (c := c) (r := r) (by simp [hb]) (by simp [hl])
  simp only [List.cons_append, List.nil_append] at h ⊢
  rw [skipToNext.eq_def]
  simp [h]

/-- An attribute value that is too long is empty, and reading goes on inside it. -/
theorem parseAttrsN_long {n : Nat} {acc : Attrs} {pre k v r : Bytes} {q c : UInt8} (hpre : ∀ c ∈ pre, IsWs c) (hk : AttrName k) (hq : q = c!"\"" ∨ q = c!"'") (hv : q ∉ v)
    (hl : v.length = 1048577) : parseAttrsN (n + 1) acc (pre ++ k ++ b!"=" ++ q :: (v ++ c :: r)) = parseAttrsN n (acc.set k []) r := by
  obtain ⟨x, xs, hx⟩ := List.exists_cons_of_ne_nil hk.1
  obtain ⟨hxw, hx2, hx1, -⟩ := hk.2.1 x (by simp [hx])
  have hread : ∀ t, readUntilP isAttrDelim (k ++ c!"=" :: t) = (k, c!"=" :: t) := fun t => readUntilP_of (AttrName.not_attrDelim hk) (by decide) hk.2.2 t
  simp only [List.append_assoc, List.cons_append, List.nil_append]
  rw [parseAttrsN, skipWs_ws hpre, hx, List.cons_append, skipWs_cons hxw]
  simp only
  rw [if_neg (by simp [hx1, hx2]), ← List.cons_append, ← hx, hread]
  simp only
  rw [if_neg (by simp [hk.1]), skipWs_cons eq_not_ws]
  simp only [ne_eq, not_true_eq_false, if_false]
  rw [skipWs_cons (quote_ne hq)]
  simp only
  rw [if_pos (by rcases hq with h | h <;> simp [h]), readUntil_over hv hl]
  simp [unescapeXML]

theorem topElems_long (o : Ord) {pro n k v r : Bytes} {q c : UInt8} (hpro : Prolog pro) (hn : TagName n) (hk : AttrName k) (hq : q = c!"\"" ∨ q = c!"'") (hv : q ∉ v)
    (hl : v.length = 1048577) :
    topElems o (pro ++ (c!"<" :: (n ++ (b!" " ++ k ++ b!"=" ++ q :: (v ++ c :: r))))) =
      topElems o (pro ++ (c!"<" :: (n ++ ((b!" " ++ List.replicate 1048577 c!" ") ++ k ++ b!"=" ++ q :: q :: r)))) := by
  rw [topElems_skip (skipToNext_prolog hpro _), topElems_skip (skipToNext_prolog hpro _)]
  have hs : ∀ t, skipToNext (c!"<" :: (n ++ t)) = some (c!"<" :: (n ++ t)) := by
    intro t
    obtain ⟨x, xs, rfl⟩ := List.exists_cons_of_ne_nil hn.1
    rw [List.cons_append, skipToNext.eq_def]
    simp [TagName.not_special hn]
  have hr : ∀ t, readUntilP isNameDelim (n ++ c!" " :: t) = (n, c!" " :: t) := fun t => readUntilP_of (TagName.not_delim hn) (by decide) hn.2.2.2.2.2 t
  have ht : parseTag (n ++ (b!" " ++ k ++ b!"=" ++ q :: (v ++ c :: r))) = parseTag (n ++ ((b!" " ++ List.replicate 1048577 c!" ") ++ k ++ b!"=" ++ q :: q :: r)) := by
    have e1 := parseAttrsN_long (n := 99) (acc := []) (pre := b!" ") (k := k) (v := v) (r := r) (q := q) (c := c) (by simp [IsWs]) hk hq hv hl
    have e2 : parseAttrsN (99 + 1) [] ((b!" " ++ List.replicate 1048577 c!" ") ++ k ++ b!"=" ++ q :: q :: r) = parseAttrsN 99 (Attrs.set k [] []) r := by
      obtain ⟨x, xs, hx⟩ := List.exists_cons_of_ne_nil hk.1
      obtain ⟨hxw, hx2, hx1, -⟩ := hk.2.1 x (by simp [hx])
      have hread : ∀ t, readUntilP isAttrDelim (k ++ c!"=" :: t) = (k, c!"=" :: t) := fun t => readUntilP_of (AttrName.not_attrDelim hk) (by decide) hk.2.2 t
      have hws : ∀ c ∈ b!" " ++ List.replicate 1048577 c!" ", IsWs c := by
        intro c hc
        simp only [List.cons_append, List.nil_append, List.mem_cons, List.mem_replicate] at hc
        rcases hc with rfl | ⟨-, rfl⟩ <;> simp [IsWs]
      simp only [List.append_assoc, List.cons_append, List.nil_append] at hws ⊢
      rw [parseAttrsN, ← List.cons_append, skipWs_ws hws, hx, List.cons_append, skipWs_cons hxw]
      simp only
      rw [if_neg (by simp [hx1, hx2]), ← List.cons_append, ← hx, hread]
      simp only
      rw [if_neg (by simp [hk.1]), skipWs_cons eq_not_ws]
      simp only [ne_eq, not_true_eq_false, if_false]
      rw [skipWs_cons (quote_ne hq)]
      simp only
      have := readUntil_of (d := q) (w := []) (by simp) (by simp) r
      simp only [List.nil_append] at this
      rw [if_pos (by rcases hq with h | h <;> simp [h]), this]
      simp [unescapeXML]
    unfold parseTag parseAttributes
    rw [maxAttrs]
    simp only [List.append_assoc, List.cons_append, List.nil_append] at e1 e2 ⊢
    rw [hr, hr]
    simp only
    rw [show (100 : Nat) = 99 + 1 from rfl, e1, e2]
  have e : elemAt o (c!"<" :: (n ++ (b!" " ++ k ++ b!"=" ++ q :: (v ++ c :: r)))) =
      elemAt o (c!"<" :: (n ++ ((b!" " ++ List.replicate 1048577 c!" ") ++ k ++ b!"=" ++ q :: q :: r))) := by
    unfold elemAt
    simp only [List.drop_succ_cons, List.drop_zero]
    rw [ht]
    have hlen : (c!"<" :: (n ++ (b!" " ++ k ++ b!"=" ++ q :: (v ++ c :: r)))).length =
        (c!"<" :: (n ++ ((b!" " ++ List.replicate 1048577 c!" ") ++ k ++ b!"=" ++ q :: q :: r))).length := by
      simp only [List.length_cons, List.length_append, List.length_replicate, List.length_nil]; omega
    rw [hlen]
  rw [topElems_some (hs _), topElems_some (hs _), e]

end Verif
