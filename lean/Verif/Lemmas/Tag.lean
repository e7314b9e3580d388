import Verif.Lemmas.Lex
import Verif.Lemmas.Escape
import Verif.Spec.Tree
/- The parser's tag scanners on tags of the grammar. -/
namespace Verif
open Spec

theorem readAux_of {stop : UInt8 → Bool} {k : Nat} {w : Bytes} {c : UInt8} (hw : ∀ x ∈ w, stop x = false)
    (hc : stop c = true) (hk : k + w.length ≤ 1048576) (r : Bytes) :
    readAux stop k (w ++ c :: r) = (some w, c :: r) := by
  have hm := maxTok
  induction w generalizing k with
  | nil =>
    simp only [List.length_nil] at hk
    simp only [List.nil_append, readAux]
    rw [if_neg (by omega), if_pos hc]
  | cons x xs ih =>
    simp only [List.length_cons] at hk
    simp only [List.cons_append, readAux]
    rw [if_neg (by omega), if_neg (by simp [hw x (by simp)]), ih (fun y hy => hw y (by simp [hy])) (by omega)]
    rfl

theorem readUntilP_of {stop : UInt8 → Bool} {w : Bytes} {c : UInt8} (hw : ∀ x ∈ w, stop x = false)
    (hc : stop c = true) (hk : w.length ≤ 1048576) (r : Bytes) :
    readUntilP stop (w ++ c :: r) = (w, c :: r) := by
  unfold readUntilP
  rw [readAux_of hw hc (by omega)]
  rfl

theorem readUntil_of {d : UInt8} {w : Bytes} (hw : d ∉ w) (hk : w.length ≤ 1048576) (r : Bytes) :
    readUntil d (w ++ d :: r) = (w, d :: r) := by
  unfold readUntil
  refine readUntilP_of ?_ (by simp) hk r
  intro x hx
  simp only [beq_eq_false_iff_ne, ne_eq]
  rintro rfl; exact hw hx

theorem NameChar.not_delim {c : UInt8} (h : NameChar c) : isNameDelim c = false := by
  have h1 : isWs c = false := by
    rw [Bool.eq_false_iff]; exact fun h2 => NameChar.not_ws h ((isWs_iff c).mp h2)
  have h2 : c ≠ c!"/" := by rintro rfl; exact slash_not_name h
  have h3 : c ≠ c!">" := by rintro rfl; exact gt_not_name h
  simp [isNameDelim, h1, h2, h3]

theorem NameChar.not_attrDelim {c : UInt8} (h : NameChar c) : isAttrDelim c = false := by
  have h2 : c ≠ c!"=" := by rintro rfl; exact eq_not_name h
  simp [isAttrDelim, NameChar.not_delim h, h2]

theorem IsWs.delim {c : UInt8} (h : IsWs c) : isNameDelim c = true := by
  simp [isNameDelim, (isWs_iff c).mpr h]

theorem TagName.not_delim {n : Bytes} (h : TagName n) : ∀ c ∈ n, isNameDelim c = false := by
  intro c hc
  obtain ⟨h1, h2, h3, -⟩ := h.2.1 c hc
  have h1 : isWs c = false := by rw [Bool.eq_false_iff]; exact fun h2 => h1 ((isWs_iff c).mp h2)
  simp [isNameDelim, h1, h2, h3]

theorem AttrName.not_attrDelim {n : Bytes} (h : AttrName n) : ∀ c ∈ n, isAttrDelim c = false := by
  intro c hc
  obtain ⟨h1, h2, h3, -, h4⟩ := h.2.1 c hc
  have h1 : isWs c = false := by rw [Bool.eq_false_iff]; exact fun h2 => h1 ((isWs_iff c).mp h2)
  simp [isAttrDelim, isNameDelim, h1, h2, h3, h4]

/-- The attribute map of a list of attributes, as the parser builds it. -/
def attrMapAux (acc : Attrs) (as : List Attr) : Attrs :=
  as.foldl (fun m a => m.set a.name (unescapeXML a.raw)) acc

def attrMap (as : List Attr) : Attrs := attrMapAux [] as

theorem parseAttrsN_of {n : Nat} {acc : Attrs} {as : List Attr} {ws r : Bytes} {c : UInt8} (ha : ∀ a ∈ as, a.Loose)
    (hn : as.length ≤ n) (hws : ∀ c ∈ ws, IsWs c) (hc : c = c!">" ∨ c = c!"/") :
    parseAttrsN n acc (as.flatMap Attr.render ++ ws ++ c :: r) = (attrMapAux acc as, c :: r) := by
  have hcw : ¬ IsWs c := by
    rcases hc with rfl | rfl
    · exact gt_not_ws
    · exact slash_not_ws
  induction as generalizing n acc with
  | nil =>
    simp only [List.flatMap_nil, List.nil_append]
    cases n with
    | zero => rw [parseAttrsN, skipWs_ws hws, skipWs_cons hcw]; rfl
    | succ n =>
      rw [parseAttrsN, skipWs_ws hws, skipWs_cons hcw]
      simp only
      rw [if_pos (by simpa using hc)]; rfl
  | cons a as ih =>
    obtain ⟨hpre, hname, hm1, hm2, hq, hraw, hlen⟩ := ha a (by simp)
    cases n with
    | zero => simp at hn
    | succ n =>
      simp only [List.length_cons, Nat.add_le_add_iff_right] at hn
      have ih := fun acc => ih (acc := acc) (fun b hb => ha b (by simp [hb])) hn
      simp only [List.append_assoc] at ih
      obtain ⟨x, xs, hx⟩ := List.exists_cons_of_ne_nil hname.1
      obtain ⟨hxw, hx2, hx1, -⟩ := hname.2.1 x (by simp [hx])
      have e1 : (a :: as).flatMap Attr.render ++ ws ++ c :: r =
          a.pre ++ (a.name ++ (a.mid1 ++ c!"=" :: (a.mid2 ++ a.quote :: (a.raw ++ a.quote :: (as.flatMap Attr.render ++ (ws ++ c :: r)))))) := by
        simp [Attr.render]
      rw [e1]
      have hread : ∀ t, readUntilP isAttrDelim (a.name ++ (a.mid1 ++ c!"=" :: t)) = (a.name, a.mid1 ++ c!"=" :: t) := by
        intro t
        have hd : ∀ x ∈ a.name, isAttrDelim x = false := AttrName.not_attrDelim hname
        cases hmid : a.mid1 with
        | nil => exact readUntilP_of hd (by decide) hname.2.2 t
        | cons y ys =>
          rw [List.cons_append]
          refine readUntilP_of hd ?_ hname.2.2 _
          simp [isAttrDelim, IsWs.delim (hm1 y (by simp [hmid]))]
      rw [parseAttrsN, skipWs_ws hpre, hx, List.cons_append, skipWs_cons hxw]
      simp only
      rw [if_neg (by simp [hx1, hx2]), ← List.cons_append, ← hx, hread]
      simp only
      rw [if_neg (by simp [hname.1]), skipWs_ws hm1, skipWs_cons eq_not_ws]
      simp only [ne_eq, not_true_eq_false, if_false]
      rw [skipWs_ws hm2, skipWs_cons (quote_ne hq)]
      simp only
      rw [if_pos (by rcases hq with h | h <;> simp [h]), readUntil_of hraw hlen]
      simp only [List.drop_succ_cons, List.drop_zero]
      rw [ih]; rfl

/-- First byte after the name in a tag. -/
theorem tag_delim {as : List Attr} {ws r : Bytes} {c : UInt8} (ha : AttrsLoose as) (hws : ∀ c ∈ ws, IsWs c)
    (hc : c = c!">" ∨ c = c!"/") :
    ∃ d t, as.flatMap Attr.render ++ ws ++ c :: r = d :: t ∧ isNameDelim d = true := by
  cases as with
  | nil =>
    cases ws with
    | nil => exact ⟨c, r, rfl, by rcases hc with rfl | rfl <;> decide⟩
    | cons w ws => exact ⟨w, ws ++ c :: r, rfl, IsWs.delim (hws w (by simp))⟩
  | cons a as =>
    have hp := ha.2.2 a rfl
    have hl := (ha.2.1 a (by simp)).1
    obtain ⟨p, ps, hpe⟩ := List.exists_cons_of_ne_nil hp
    rw [hpe] at hl
    refine ⟨p, ps ++ (a.name ++ (a.mid1 ++ c!"=" :: (a.mid2 ++ a.quote :: (a.raw ++ a.quote :: (as.flatMap Attr.render ++ (ws ++ c :: r)))))), ?_, IsWs.delim (hl p (by simp))⟩
    simp [Attr.render, hpe]

theorem maxAttrs : maxAttributes = 100 := rfl

theorem parseTag_aux {n : Bytes} {as : List Attr} {ws r : Bytes} {c : UInt8} (hn : TagName n) (ha : AttrsLoose as)
    (hws : ∀ c ∈ ws, IsWs c) (hc : c = c!">" ∨ c = c!"/") :
    parseTag (n ++ as.flatMap Attr.render ++ ws ++ c :: r) =
      (⟨n, attrMap as, (tagTail (c :: r)).1, (tagTail (c :: r)).2.1⟩, (tagTail (c :: r)).2.2) := by
  obtain ⟨d, t, h1, h2⟩ := tag_delim (r := r) ha hws hc
  have hr : readUntilP isNameDelim (n ++ as.flatMap Attr.render ++ ws ++ c :: r) =
      (n, as.flatMap Attr.render ++ ws ++ c :: r) := by
    have e : n ++ as.flatMap Attr.render ++ ws ++ c :: r = n ++ (as.flatMap Attr.render ++ ws ++ c :: r) := by
      simp only [List.append_assoc]
    rw [e, h1]
    exact readUntilP_of (TagName.not_delim hn) h2 hn.2.2.2.2.2 t
  unfold parseTag
  rw [hr]
  simp only [parseAttributes, maxAttrs]
  rw [parseAttrsN_of ha.2.1 ha.1 hws hc]
  rfl

theorem parseTag_open {n : Bytes} {as : List Attr} {ws r : Bytes} (hn : TagName n) (ha : AttrsLoose as)
    (hws : ∀ c ∈ ws, IsWs c) :
    parseTag (n ++ as.flatMap Attr.render ++ ws ++ c!">" :: r) = (⟨n, attrMap as, false, true⟩, r) := by
  rw [parseTag_aux hn ha hws (.inl rfl)]; simp [tagTail]

theorem parseTag_self {n : Bytes} {as : List Attr} {ws r : Bytes} (hn : TagName n) (ha : AttrsLoose as)
    (hws : ∀ c ∈ ws, IsWs c) :
    parseTag (n ++ as.flatMap Attr.render ++ ws ++ c!"/" :: c!">" :: r) = (⟨n, attrMap as, true, true⟩, r) := by
  rw [parseTag_aux hn ha hws (.inr rfl)]; simp [tagTail]

/-! ### closing tags -/

theorem NameChar.range {c : UInt8} (h : NameChar c) : 0x2D ≤ c ∧ c ≤ 0x7A := by
  simp only [NameChar, NameStart, Letter] at h
  have e1 : (c!":" : UInt8) = 0x3A := rfl
  have e2 : (c!"_" : UInt8) = 0x5F := rfl
  have e3 : (c!"." : UInt8) = 0x2E := rfl
  have e4 : (c!"-" : UInt8) = 0x2D := rfl
  simp only [UInt8.le_iff_toNat_le, ← UInt8.toNat_inj, UInt8.reduceToNat] at *
  omega

theorem spaceLen_ascii {c : UInt8} (h1 : 0x21 ≤ c) (h2 : c ≤ 0x7F) (cs : Bytes) : spaceLen (c :: cs) = 0 := by
  have a1 : ((9 ≤ c && c ≤ 13) || c = 32) = false := by
    simp only [UInt8.le_iff_toNat_le, ← UInt8.toNat_inj, UInt8.reduceToNat, Bool.or_eq_false_iff, Bool.and_eq_false_iff, decide_eq_false_iff_not] at *
    omega
  have a2 : c ≠ 0xC2 := by rintro rfl; exact absurd h2 (by decide)
  have a3 : c ≠ 0xE1 := by rintro rfl; exact absurd h2 (by decide)
  have a4 : c ≠ 0xE2 := by rintro rfl; exact absurd h2 (by decide)
  have a5 : c ≠ 0xE3 := by rintro rfl; exact absurd h2 (by decide)
  simp [spaceLen, a1, a2, a3, a4, a5]

/-- A string of printable ASCII does not end in white space. -/
theorem spaceLenRev_ascii {c : UInt8} {cs : Bytes} (h : ∀ x ∈ c :: cs, 0x21 ≤ x ∧ x ≤ 0x7F) : spaceLenRev (c :: cs) = 0 := by
  have a1 : ((9 ≤ c && c ≤ 13) || c = 32) = false := by
    have := h c (by simp)
    simp only [UInt8.le_iff_toNat_le, ← UInt8.toNat_inj, UInt8.reduceToNat, Bool.or_eq_false_iff, Bool.and_eq_false_iff, decide_eq_false_iff_not] at *
    omega
  have hne : ∀ x ∈ c :: cs, x ≠ 0xC2 ∧ x ≠ 0xE1 ∧ x ≠ 0xE2 ∧ x ≠ 0xE3 := by
    intro x hx
    have := (h x hx).2
    refine ⟨?_, ?_, ?_, ?_⟩ <;> (rintro rfl; exact absurd this (by decide))
  cases cs with
  | nil => simp [spaceLenRev, a1]
  | cons d ds =>
    have hd := hne d (by simp)
    cases ds with
    | nil => simp [spaceLenRev, a1, hd.1]
    | cons e es =>
      have he := hne e (by simp)
      simp [spaceLenRev, a1, hd.1, he]

theorem trimFront_zero {len : Bytes → Nat} {s : Bytes} (h : len s = 0) : trimFront len s = s := by
  rw [trimFront]; simp [h]

theorem trimFront_ws {w s : Bytes} (hw : ∀ c ∈ w, IsWs c) : trimFront spaceLenRev (w ++ s) = trimFront spaceLenRev s := by
  induction w with
  | nil => rfl
  | cons c cs ih =>
    have h1 : spaceLenRev (c :: (cs ++ s)) = 1 := by
      have := hw c (by simp)
      rcases this with rfl | rfl | rfl | rfl <;> simp [spaceLenRev]
    rw [List.cons_append, trimFront]
    simp only [h1, List.length_cons, Nat.zero_lt_succ, and_self, dite_true, List.drop_succ_cons, List.drop_zero]
    exact ih (fun d hd => hw d (by simp [hd]))

theorem trimSpace_name {n w : Bytes} (hn : IsName n) (hw : ∀ c ∈ w, IsWs c) : trimSpace (n ++ w) = n := by
  obtain ⟨⟨c, cs, rfl, -⟩, hc, -⟩ := hn
  have hr : ∀ x ∈ c :: cs, 0x21 ≤ x ∧ x ≤ 0x7F := by
    intro x hx
    have := NameChar.range (hc x hx)
    simp only [UInt8.le_iff_toNat_le, UInt8.reduceToNat] at *
    omega
  unfold trimSpace
  rw [List.cons_append, trimFront_zero (spaceLen_ascii (hr c (by simp)).1 (hr c (by simp)).2 _), ← List.cons_append,
    List.reverse_append, trimFront_ws (by simpa using hw)]
  obtain ⟨d, ds, hd⟩ := List.exists_cons_of_ne_nil (l := (c :: cs).reverse) (by simp)
  rw [hd, trimFront_zero (spaceLenRev_ascii (by intro x hx; rw [← hd] at hx; exact hr x (List.mem_reverse.mp hx))), ← hd, List.reverse_reverse]

theorem isWs_ascii {x : UInt8} (h : IsWs x) : x < 0x80 := by
  rcases h with rfl | rfl | rfl | rfl <;> decide

/-- A space of several bytes does not reach over an ASCII byte. -/
theorem spaceLen_cut {n w : Bytes} (hn : n ≠ []) (hw : ∀ c, w.head? = some c → IsWs c) : spaceLen (n ++ w) = spaceLen n := by
  have hk : ∀ {x : UInt8}, IsWs x → x ≠ 0x85 ∧ x ≠ 0xA0 ∧ x ≠ 0x9A ∧ x ≠ 0x80 ∧ x ≠ 0x81 ∧ ¬ (0x80 ≤ x ∧ x ≤ 0x8A) ∧ x ≠ 0xA8 ∧ x ≠ 0xA9 ∧ x ≠ 0xAF ∧ x ≠ 0x9F := by
    rintro x (rfl | rfl | rfl | rfl) <;> decide
  match n, hn with
  | c :: d :: e :: t, _ => simp [spaceLen]
  | [c, d], _ =>
    cases w with
    | nil => simp
    | cons x w =>
      have := hk (hw x rfl)
      simp only [spaceLen, List.cons_append, List.nil_append]
      simp [this]
  | [c], _ =>
    cases w with
    | nil => simp
    | cons x w =>
      have := hk (hw x rfl)
      simp only [spaceLen, List.cons_append, List.nil_append]
      cases w <;> simp [this]

theorem trimFront_length (len : Bytes → Nat) (s : Bytes) : (trimFront len s).length ≤ s.length := by
  fun_induction trimFront len s with
  | case1 s h ih => simp only [List.length_drop] at ih; omega
  | case2 s h => exact Nat.le_refl _

theorem trimSpace_fixed {n : Bytes} (hn : n ≠ []) (h : trimSpace n = n) : spaceLen n = 0 ∧ trimFront spaceLenRev n.reverse = n.reverse := by
  have h0 : spaceLen n = 0 := by
    apply Decidable.byContradiction
    intro hc
    have hl := congrArg List.length h
    have := List.length_pos_iff.mpr hn
    rw [trimSpace, List.length_reverse, trimFront.eq_def spaceLen, dif_pos ⟨by omega, this⟩] at hl
    have h1 := trimFront_length spaceLenRev (trimFront spaceLen (n.drop (spaceLen n))).reverse
    have h2 := trimFront_length spaceLen (n.drop (spaceLen n))
    simp only [List.length_reverse, List.length_drop] at h1 h2
    omega
  refine ⟨h0, ?_⟩
  rw [trimSpace, trimFront_zero h0] at h
  rw [← List.reverse_reverse (trimFront spaceLenRev n.reverse), h]

theorem trimFront_over {x : UInt8} (hx : IsWs x) (v R : Bytes) :
    (∃ u, trimFront spaceLenRev (v ++ x :: R) = u ++ x :: R) ∨ trimFront spaceLenRev (v ++ x :: R) = trimFront spaceLenRev R := by
  have hk : x ≠ 0xC2 ∧ x ≠ 0xE1 ∧ x ≠ 0xE2 ∧ x ≠ 0xE3 ∧ x ≠ 0x9A ∧ x ≠ 0x80 ∧ x ≠ 0x81 := by
    rcases hx with rfl | rfl | rfl | rfl <;> decide
  induction hl : v.length using Nat.strongRecOn generalizing v with
  | _ m ih =>
    have step : spaceLenRev (v ++ x :: R) ≤ v.length ∨ v = [] := by
      match v with
      | [] => exact .inr rfl
      | [c] =>
        left
        simp only [spaceLenRev, List.cons_append, List.nil_append, List.length_singleton]
        split
        · omega
        · rw [if_neg hk.1]
          cases R with
          | nil => simp
          | cons r R => simp [hk]
      | [c, d] =>
        left
        simp only [spaceLenRev, List.cons_append, List.nil_append, List.length_cons, List.length_nil]
        split
        · omega
        · split
          · split <;> omega
          · simp [hk]
      | c :: d :: e :: t =>
        left
        simp only [List.length_cons]
        have : ∀ l, spaceLenRev l ≤ 3 := by
          intro l
          unfold spaceLenRev
          repeat' split
          all_goals omega
        have := this (c :: d :: e :: t ++ x :: R)
        omega
    rcases step with hs | rfl
    · by_cases h0 : spaceLenRev (v ++ x :: R) = 0
      · left; exact ⟨v, trimFront_zero h0⟩
      · rw [trimFront.eq_def, dif_pos ⟨by omega, by simp; omega⟩, List.drop_append_of_le_length hs]
        exact ih (v.drop (spaceLenRev (v ++ x :: R))).length (by rw [List.length_drop]; omega) _ rfl
    · right
      have := trimFront_ws (w := [x]) (s := R) (by simpa using hx)
      simpa using this

theorem takeWhile_name {n : Bytes} (hn : ∀ c ∈ n, ¬ IsWs c) (t : Bytes) (ht : ∀ c, t.head? = some c → IsWs c) :
    (n ++ t).takeWhile (fun c => !isWs c) = n := by
  induction n with
  | nil =>
    cases t with
    | nil => rfl
    | cons x t => simp [(isWs_iff x).mpr (ht x rfl)]
  | cons c cs ih =>
    have : isWs c = false := by rw [Bool.eq_false_iff]; exact fun h => hn c (by simp) ((isWs_iff c).mp h)
    rw [List.cons_append, List.takeWhile_cons, this]
    simp only [Bool.not_false, if_true]
    rw [ih (fun d hd => hn d (by simp [hd]))]

theorem closeName_tag {n w : Bytes} (hn : TagName n) (hw : EndTail w) : closeName (n ++ w) = n := by
  obtain ⟨h1, h2⟩ := trimSpace_fixed hn.1 hn.2.2.2.2.1
  have h3 : ∀ c ∈ n, ¬ IsWs c := fun c hc => (hn.2.1 c hc).1
  unfold closeName trimSpace
  rw [trimFront_zero ((spaceLen_cut hn.1 hw.2).trans h1)]
  cases w with
  | nil =>
    rw [List.append_nil, h2, List.reverse_reverse]
    simpa using takeWhile_name h3 [] (by simp)
  | cons x w =>
    have hx := hw.2 x rfl
    have e : (n ++ x :: w).reverse = w.reverse ++ x :: n.reverse := by simp
    rw [e]
    rcases trimFront_over hx w.reverse n.reverse with ⟨u, hu⟩ | hu
    · rw [hu]
      have e2 : (u ++ x :: n.reverse).reverse = n ++ x :: u.reverse := by simp
      rw [e2]
      exact takeWhile_name h3 _ (by simpa using hx)
    · rw [hu, h2, List.reverse_reverse]
      simpa using takeWhile_name h3 [] (by simp)

/-! ### legal is loose -/

theorem Spec.IsName.tag {n : Bytes} (h : IsName n) : TagName n := by
  have ht := trimSpace_name h (w := []) (by simp)
  obtain ⟨⟨c, cs, rfl, hs⟩, hall, hlen⟩ := h
  have hx : ∀ x : UInt8, NameChar x → ¬ IsWs x ∧ x ≠ c!"/" ∧ x ≠ c!">" ∧ x ≠ c!"<" := by
    intro x hx
    refine ⟨NameChar.not_ws hx, ?_, ?_, ?_⟩ <;> (rintro rfl; rw [← isNameChar_iff] at hx; exact absurd hx (by decide))
  have hb : c ≠ c!"!" ∧ c ≠ c!"?" := by
    refine ⟨?_, ?_⟩ <;> (rintro rfl; exact absurd ((isNameStart_iff _).mpr hs) (by decide))
  exact ⟨by simp, fun x h => hx x (hall x h), by simpa using hb.1, by simpa using hb.2, by simpa using ht, hlen⟩

theorem Spec.IsName.attr {n : Bytes} (h : IsName n) : AttrName n := by
  obtain ⟨h1, h2, -, -, -, h3⟩ := h.tag
  refine ⟨h1, fun c hc => ?_, h3⟩
  obtain ⟨a, b, d, e⟩ := h2 c hc
  refine ⟨a, b, d, e, ?_⟩
  rintro rfl; exact eq_not_name (h.2.1 _ hc)

theorem Spec.AttrsLegal.loose {as : List Attr} (h : AttrsLegal as) : AttrsLoose as :=
  ⟨h.1, fun a ha => let ⟨h1, h2, h3⟩ := h.2.1 a ha; ⟨h1, h2.attr, h3⟩, h.2.2⟩

theorem Spec.EndTail.ws {w : Bytes} (h : ∀ c ∈ w, IsWs c) : EndTail w :=
  ⟨fun hm => gt_not_ws (h _ hm), fun c hc => h c (List.mem_of_mem_head? hc)⟩

/-- Legal, or a mark that what follows does not change. -/
def ReadBefore (m : Misc) (r : Bytes) : Prop :=
  m.Legal ∨ (∃ b, m = .comment b ∧ ¬ b!"-->" <:+: b!"--" ++ b ++ b!"--") ∨ ∃ b, m = .mark b ∧ c!"<" ∉ b ∧ ¬ DoctypeLike b ∧ ¬ b!"--" <+: b ∧ (c!">" ∈ b ∨ r.head? = some c!"<")

theorem Spec.Misc.render_head (m : Misc) : m.render.head? = some c!"<" := by cases m <;> simp [Misc.render]

theorem Spec.Forest.Sharp.head {f : Forest} (h : f.Sharp) (R : Bytes) : (f.render ++ R).head? = some c!"<" := by
  cases f with
  | nil => exact h.elim
  | text b next => exact h.elim
  | misc m next =>
    have := m.render_head
    rw [Forest.render]
    cases hm : m.render with
    | nil => rw [hm] at this; simp at this
    | cons x xs => rw [hm] at this; simpa using this
  | leaf n as ws next => simp [Forest.render, openTag]
  | node n as ws kids cws next => simp [Forest.render, openTag]

theorem Spec.Misc.Opens.read {m : Misc} {next : Forest} (h : m.Opens next) (R : Bytes) : ReadBefore m (next.render ++ R) := by
  cases m with
  | mark b => exact .inr (.inr ⟨b, rfl, h.1, h.2.1, h.2.2.1, h.2.2.2.imp_right (·.head R)⟩)
  | comment b => exact .inr (.inl ⟨b, rfl, h⟩)
  | _ => exact h.elim

theorem Spec.Misc.Opens.mono {m : Misc} {f g : Forest} (h : m.Opens f) (hs : f.Sharp → g.Sharp) : m.Opens g := by
  cases m with
  | mark b => exact ⟨h.1, h.2.1, h.2.2.1, h.2.2.2.imp_right hs⟩
  | comment b => exact h
  | _ => exact h.elim

theorem readBefore {m : Misc} {next : Forest} (h : m.Legal ∨ m.Opens next) (R : Bytes) : ReadBefore m (next.render ++ R) :=
  h.elim .inl (·.read R)

theorem Spec.Forest.Legal.loose {f : Forest} {d : Nat} (h : f.Legal d) : f.Loose := by
  induction f generalizing d with
  | nil => trivial
  | text b next ih => exact ⟨h.1, ih h.2.2⟩
  | misc m next ih => exact ⟨.inl h.1, ih h.2⟩
  | leaf n as ws next ih => obtain ⟨h1, h2, h3, -, h4⟩ := h; exact ⟨h1.tag, h2.loose, h3, ih h4⟩
  | node n as ws kids cws next ihk ihn =>
    obtain ⟨h1, h2, h3, -, h4, h5, h6⟩ := h
    exact ⟨h1.tag, h2.loose, h3, ihk h4, .ws h5, ihn h6⟩

/-! ### attribute maps -/

/-- Keys occur once. -/
def Attrs.Uniq (m : Attrs) : Prop := (m.map Prod.fst).Nodup

theorem Attrs.get?_set (k v k' : Bytes) (m : Attrs) :
    Attrs.get? k' (Attrs.set k v m) = if k' = k then some v else Attrs.get? k' m := by
  induction m with
  | nil => simp only [Attrs.set, Attrs.get?]; grind
  | cons x xs ih =>
    obtain ⟨a, b⟩ := x
    simp only [Attrs.set]
    split
    · simp only [Attrs.get?]; grind
    · simp only [Attrs.get?, ih]; grind

theorem Attrs.keys_set (k v : Bytes) (m : Attrs) :
    (Attrs.set k v m).map Prod.fst = if k ∈ m.map Prod.fst then m.map Prod.fst else m.map Prod.fst ++ [k] := by
  induction m with
  | nil => simp [Attrs.set]
  | cons x xs ih =>
    obtain ⟨a, b⟩ := x
    simp only [Attrs.set]
    split
    · rename_i h; simp [h]
    · rename_i h
      simp only [List.map_cons, ih, List.mem_cons]
      have : k ≠ a := fun e => h e.symm
      simp only [this, false_or]
      split <;> simp

theorem Attrs.Uniq.set {m : Attrs} (h : m.Uniq) (k v : Bytes) : (Attrs.set k v m).Uniq := by
  unfold Attrs.Uniq at *
  rw [Attrs.keys_set]
  split
  · exact h
  · rename_i hk
    rw [List.nodup_append]
    refine ⟨h, by simp, ?_⟩
    intro a ha b hb
    simp only [List.mem_singleton] at hb
    rintro rfl; subst hb; exact hk ha

theorem Attrs.mem_set {k v : Bytes} {m : Attrs} {p : Bytes × Bytes} (h : p ∈ Attrs.set k v m) : p = (k, v) ∨ p ∈ m := by
  induction m with
  | nil => simp [Attrs.set] at h; left; exact h
  | cons x xs ih =>
    obtain ⟨a, b⟩ := x
    simp only [Attrs.set] at h
    split at h
    · rcases List.mem_cons.mp h with h | h
      · left; exact h
      · right; simp [h]
    · rcases List.mem_cons.mp h with h | h
      · right; simp [h]
      · rcases ih h with h | h
        · left; exact h
        · right; simp [h]

theorem Attrs.length_set (k v : Bytes) (m : Attrs) : (Attrs.set k v m).length ≤ m.length + 1 := by
  induction m with
  | nil => simp [Attrs.set]
  | cons x xs ih =>
    obtain ⟨a, b⟩ := x
    simp only [Attrs.set]
    split
    · simp
    · simp only [List.length_cons]; omega

theorem Attrs.get?_eq_some {m : Attrs} (h : m.Uniq) (k v : Bytes) : Attrs.get? k m = some v ↔ (k, v) ∈ m := by
  unfold Attrs.Uniq at h
  induction m with
  | nil => simp [Attrs.get?]
  | cons x xs ih =>
    obtain ⟨a, b⟩ := x
    simp only [List.map_cons, List.nodup_cons] at h
    simp only [Attrs.get?]
    split
    · rename_i hk
      subst hk
      simp only [Option.some.injEq, List.mem_cons, Prod.mk.injEq, true_and]
      constructor
      · intro e; left; exact e.symm
      · rintro (e | e)
        · exact e.symm
        · exact absurd (List.mem_map_of_mem (f := Prod.fst) e) h.1
    · rename_i hk
      rw [ih h.2]
      simp only [List.mem_cons, Prod.mk.injEq]
      constructor
      · intro e; right; exact e
      · rintro (⟨e, -⟩ | e)
        · exact absurd e.symm hk
        · exact e

theorem Attrs.get?_perm {m m' : Attrs} (hp : m.Perm m') (h : m'.Uniq) (k : Bytes) : Attrs.get? k m = Attrs.get? k m' := by
  have hu : m.Uniq := (hp.map Prod.fst).nodup_iff.mpr h
  cases e : Attrs.get? k m' with
  | some v => rw [Attrs.get?_eq_some hu, hp.mem_iff, ← Attrs.get?_eq_some h, e]
  | none =>
    cases e2 : Attrs.get? k m with
    | none => rfl
    | some v =>
      rw [Attrs.get?_eq_some hu, hp.mem_iff, ← Attrs.get?_eq_some h, e] at e2
      simp at e2

theorem attrMapAux_uniq {acc : Attrs} (h : acc.Uniq) (as : List Attr) : (attrMapAux acc as).Uniq := by
  induction as generalizing acc with
  | nil => exact h
  | cons a as ih => exact ih (h.set _ _)

theorem attrMap_uniq (as : List Attr) : (attrMap as).Uniq := attrMapAux_uniq (by simp [Attrs.Uniq]) as

theorem attrMapAux_length (acc : Attrs) (as : List Attr) : (attrMapAux acc as).length ≤ acc.length + as.length := by
  induction as generalizing acc with
  | nil => exact Nat.le_refl _
  | cons a as ih =>
    refine Nat.le_trans (ih _) ?_
    have := Attrs.length_set a.name (unescapeXML a.raw) acc
    simp only [List.length_cons]; omega

theorem attrMapAux_mem {acc : Attrs} {as : List Attr} {p : Bytes × Bytes} (h : p ∈ attrMapAux acc as) :
    p ∈ acc ∨ ∃ a ∈ as, p = (a.name, unescapeXML a.raw) := by
  induction as generalizing acc with
  | nil => left; exact h
  | cons a as ih =>
    rcases ih (acc := acc.set a.name (unescapeXML a.raw)) h with h | ⟨b, hb, h⟩
    · rcases Attrs.mem_set h with h | h
      · right; exact ⟨a, by simp, h⟩
      · left; exact h
    · right; exact ⟨b, by simp [hb], h⟩

theorem attrMapAux_get (acc : Attrs) (as : List Attr) (k : Bytes) :
    Attrs.get? k (attrMapAux acc as) = (attrVal as k).or (Attrs.get? k acc) := by
  induction as generalizing acc with
  | nil => simp [attrMapAux, attrVal]
  | cons a as ih =>
    have h := ih (acc.set a.name (unescapeXML a.raw))
    have e : attrMapAux acc (a :: as) = attrMapAux (acc.set a.name (unescapeXML a.raw)) as := rfl
    rw [e, h, Attrs.get?_set]
    unfold attrVal
    by_cases hk : a.name = k
    · simp only [List.filter_cons, hk, decide_true, if_true]
      cases hl : (as.filter (fun a => decide (a.name = k))) with
      | nil => simp
      | cons b bs => simp [List.getLast?_cons]
    · have : ¬ k = a.name := fun e => hk e.symm
      simp [hk, this]

theorem attrMap_get (as : List Attr) (k : Bytes) : Attrs.get? k (attrMap as) = attrVal as k := by
  rw [attrMap, attrMapAux_get]; simp [Attrs.get?]

/-- The attribute as the parser writes it back. -/
def canonAttr (p : Bytes × Bytes) : Attr := ⟨b!" ", p.1, [], [], c!"\"", escapeXML p.2⟩

theorem writeAttrs_eq (m : Attrs) : writeAttrs m = (m.map canonAttr).flatMap Attr.render := by
  induction m with
  | nil => rfl
  | cons x xs ih =>
    obtain ⟨k, v⟩ := x
    simp only [writeAttrs, ih, List.map_cons, List.flatMap_cons, canonAttr, Attr.render]
    simp

theorem Attrs.set_append {k v : Bytes} {acc : Attrs} (h : k ∉ acc.map Prod.fst) : Attrs.set k v acc = acc ++ [(k, v)] := by
  induction acc with
  | nil => rfl
  | cons x xs ih =>
    obtain ⟨a, b⟩ := x
    simp only [List.map_cons, List.mem_cons, not_or] at h
    simp only [Attrs.set]
    rw [if_neg (fun e => h.1 e.symm), ih h.2]; rfl

theorem attrMapAux_canon (acc m : Attrs) (h : (acc ++ m).Uniq) : attrMapAux acc (m.map canonAttr) = acc ++ m := by
  induction m generalizing acc with
  | nil => simp [attrMapAux]
  | cons x xs ih =>
    obtain ⟨k, v⟩ := x
    have hk : k ∉ acc.map Prod.fst := by
      unfold Attrs.Uniq at h
      rw [List.map_append, List.nodup_append] at h
      intro hm
      exact h.2.2 k hm k (by simp) rfl
    have e : attrMapAux acc (((k, v) :: xs).map canonAttr) = attrMapAux (acc.set k (unescapeXML (escapeXML v))) (xs.map canonAttr) := rfl
    rw [e, unescape_escape, Attrs.set_append hk, ih]
    · simp
    · simpa using h

theorem attrMap_canon (m : Attrs) (h : m.Uniq) : attrMap (m.map canonAttr) = m := by
  rw [attrMap, attrMapAux_canon [] m (by simpa using h)]; rfl

end Verif
