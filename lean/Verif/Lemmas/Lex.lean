import Verif.Lemmas.ValidPure
import Verif.Spec.Xml
/- Scanners against the grammar: white space, names, quoted values, comments, declarations, attributes. -/
namespace Verif
open Spec

theorem isWs_iff (c : UInt8) : isWs c = true ↔ IsWs c := by
  simp [isWs, IsWs, or_assoc]

theorem isNameChar_iff (c : UInt8) : VPos.isNameChar c = true ↔ NameChar c := by
  simp only [VPos.isNameChar, isAlpha, isDigit, NameChar, NameStart, Letter, Bool.or_eq_true, Bool.and_eq_true, decide_eq_true_eq]
  grind

theorem isNameStart_iff (c : UInt8) : (isAlpha c || c = c!"_" || c = c!":") = true ↔ NameStart c := by
  simp only [isAlpha, NameStart, Letter, Bool.or_eq_true, Bool.and_eq_true, decide_eq_true_eq, or_assoc]
  constructor
  · rintro (h | h | h | h) <;> simp [h]
  · rintro (h | h | h | h) <;> simp [h]

theorem IsWs.not_nameChar {c : UInt8} (h : IsWs c) : ¬ NameChar c := by
  rw [← isNameChar_iff]; rcases h with rfl | rfl | rfl | rfl <;> decide

theorem NameChar.not_ws {c : UInt8} (h : NameChar c) : ¬ IsWs c := fun h2 => IsWs.not_nameChar h2 h

theorem NameStart.char {c : UInt8} (h : NameStart c) : NameChar c := .inl h

/-! ### white space -/

theorem skipWs_ws {w : Bytes} (hw : ∀ c ∈ w, IsWs c) (r : Bytes) : skipWs (w ++ r) = skipWs r := by
  induction w with
  | nil => rfl
  | cons c cs ih =>
    simp only [List.cons_append, skipWs]
    rw [if_pos ((isWs_iff c).mpr (hw c (by simp)))]
    exact ih (fun d hd => hw d (by simp [hd]))

theorem skipWs_cons {c : UInt8} (h : ¬ IsWs c) (r : Bytes) : skipWs (c :: r) = c :: r := by
  rw [skipWs, if_neg (fun h2 => h ((isWs_iff c).mp h2))]

theorem skipWs_split (r : Bytes) : ∃ w, (∀ c ∈ w, IsWs c) ∧ r = w ++ skipWs r ∧ ∀ c t, skipWs r = c :: t → ¬ IsWs c := by
  induction r with
  | nil => exact ⟨[], by simp, rfl, by simp [skipWs]⟩
  | cons c cs ih =>
    by_cases h : IsWs c
    · obtain ⟨w, h1, h2, h3⟩ := ih
      refine ⟨c :: w, ?_, ?_, ?_⟩
      · intro d hd
        rcases List.mem_cons.mp hd with rfl | hd
        · exact h
        · exact h1 d hd
      · rw [skipWs, if_pos ((isWs_iff c).mpr h), List.cons_append, ← h2]
      · rw [skipWs, if_pos ((isWs_iff c).mpr h)]; exact h3
    · refine ⟨[], by simp, by rw [skipWs_cons h]; rfl, ?_⟩
      rw [skipWs_cons h]
      intro d t hd
      simp only [List.cons.injEq] at hd
      rw [← hd.1]; exact h

/-! ### names -/

theorem maxTok : maxTokenSize = 1048576 := rfl

theorem nameR_of {k : Nat} {n r : Bytes} (hn : ∀ c ∈ n, NameChar c) (hk : k + n.length ≤ 1048576)
    (hr : ∀ c t, r = c :: t → ¬ NameChar c) : nameR k (n ++ r) = (some n, r) := by
  have hm := maxTok
  induction n generalizing k with
  | nil =>
    cases r with
    | nil => rfl
    | cons c t =>
      simp only [List.length_nil] at hk
      simp only [List.nil_append, nameR]
      rw [if_neg (by omega), if_neg (fun h => hr c t rfl ((isNameChar_iff c).mp h))]
  | cons c cs ih =>
    simp only [List.length_cons] at hk
    simp only [List.cons_append, nameR]
    rw [if_neg (by omega), if_pos ((isNameChar_iff c).mpr (hn c (by simp))),
      ih (fun d hd => hn d (by simp [hd])) (by omega)]
    rfl

theorem nameR_inv {k : Nat} {r n r' : Bytes} (h : nameR k r = (some n, r')) :
    r = n ++ r' ∧ (∀ c ∈ n, NameChar c) ∧ (∀ c t, r' = c :: t → ¬ NameChar c) ∧ (r' ≠ [] → k + n.length ≤ 1048576) := by
  have hm := maxTok
  induction r generalizing k n with
  | nil =>
    simp only [nameR, Prod.mk.injEq, Option.some.injEq] at h
    obtain ⟨rfl, rfl⟩ := h
    simp
  | cons c cs ih =>
    simp only [nameR] at h
    split at h
    · simp at h
    · rename_i hk
      split at h
      · rename_i hc
        simp only [Prod.mk.injEq, Option.map_eq_some_iff] at h
        obtain ⟨⟨m, hm1, rfl⟩, h2⟩ := h
        obtain ⟨e1, e2, e3, e4⟩ := ih (k := k + 1) (n := m) (Prod.ext hm1 h2)
        refine ⟨by rw [e1]; rfl, ?_, e3, ?_⟩
        · intro d hd
          rcases List.mem_cons.mp hd with rfl | hd
          · exact (isNameChar_iff _).mp hc
          · exact e2 d hd
        · intro hne; have := e4 hne; simp only [List.length_cons]; omega
      · rename_i hc
        simp only [Prod.mk.injEq, Option.some.injEq] at h
        obtain ⟨rfl, rfl⟩ := h
        refine ⟨rfl, by simp, ?_, by simp only [List.length_nil]; omega⟩
        intro d t hd
        simp only [List.cons.injEq] at hd
        rw [← hd.1]; exact fun hx => hc ((isNameChar_iff _).mpr hx)

theorem validName_iff (n : Bytes) : validName n = true ↔ (∃ c cs, n = c :: cs ∧ NameStart c) ∧ (∀ c ∈ n, NameChar c) := by
  cases n with
  | nil => simp [validName]
  | cons c cs =>
    simp only [validName, Bool.and_eq_true]
    rw [isNameStart_iff]
    simp only [List.all_eq_true, isNameChar_iff, List.cons.injEq, List.mem_cons, forall_eq_or_imp]
    constructor
    · rintro ⟨h1, h2⟩; exact ⟨⟨c, cs, ⟨rfl, rfl⟩, h1⟩, NameStart.char h1, h2⟩
    · rintro ⟨⟨d, ds, ⟨rfl, rfl⟩, h1⟩, -, h2⟩; exact ⟨h1, h2⟩

theorem IsName.ne_nil {n : Bytes} (h : IsName n) : n ≠ [] := by
  obtain ⟨⟨c, cs, rfl, -⟩, -⟩ := h; simp

theorem IsName.valid {n : Bytes} (h : IsName n) : validName n = true := (validName_iff n).mpr ⟨h.1, h.2.1⟩

theorem isName_of {n : Bytes} (h : validName n = true) (hl : n.length ≤ 1048576) : IsName n :=
  ⟨((validName_iff n).mp h).1, ((validName_iff n).mp h).2, hl⟩

/-! ### up to a delimiter -/

theorem untilR_of {d : UInt8} {k : Nat} {w : Bytes} (hw : d ∉ w) (hk : k + w.length ≤ 1048576) (r : Bytes) :
    untilR d k (w ++ d :: r) = some r := by
  have hm := maxTok
  induction w generalizing k with
  | nil =>
    simp only [List.length_nil] at hk
    simp only [List.nil_append, untilR]
    rw [if_neg (by omega)]; simp
  | cons c cs ih =>
    simp only [List.mem_cons, not_or] at hw
    simp only [List.length_cons] at hk
    simp only [List.cons_append, untilR]
    rw [if_neg (by omega), if_neg (fun e => hw.1 e.symm)]
    exact ih hw.2 (by omega)

theorem untilR_inv {d : UInt8} {k : Nat} {r r' : Bytes} (h : untilR d k r = some r') :
    ∃ w, r = w ++ d :: r' ∧ d ∉ w ∧ k + w.length ≤ 1048576 := by
  have hm := maxTok
  induction r generalizing k with
  | nil => simp [untilR] at h
  | cons c cs ih =>
    simp only [untilR] at h
    split at h
    · simp at h
    · split at h
      · rename_i hc
        simp only [Option.some.injEq] at h
        subst hc h
        exact ⟨[], rfl, by simp, by simp only [List.length_nil]; omega⟩
      · rename_i hc
        obtain ⟨w, e1, e2, e3⟩ := ih h
        refine ⟨c :: w, by rw [e1]; rfl, by simp [e2, Ne.symm hc], by simp only [List.length_cons]; omega⟩

/-! ### comments, CDATA, DOCTYPE -/

theorem not_infix_cons {w : Bytes} {c : UInt8} {cs : Bytes} (h : ¬ w <:+: c :: cs) : ¬ w <:+: cs :=
  fun hi => h (hi.trans (List.suffix_cons c cs).isInfix)

theorem commentR_of {b : Bytes} (h : ¬ b!"--" <:+: b ++ b!"-") (r : Bytes) : commentR (b ++ b!"-->" ++ r) = some r := by
  induction b with
  | nil => simp [commentR]
  | cons c cs ih =>
    have ih := ih (not_infix_cons h)
    have : ∃ d e t, cs ++ b!"-->" ++ r = d :: e :: t := by
      cases cs with
      | nil => exact ⟨_, _, _, rfl⟩
      | cons d cs => cases cs with
        | nil => exact ⟨_, _, _, rfl⟩
        | cons e cs => exact ⟨_, _, _, rfl⟩
    obtain ⟨d, e, t, ht⟩ := this
    have hne : ¬ ((decide (c = c!"-") && decide (d = c!"-")) = true) := by
      intro hcd
      simp only [Bool.and_eq_true, decide_eq_true_eq] at hcd
      obtain ⟨rfl, rfl⟩ := hcd
      apply h
      cases cs with
      | nil => exact ⟨[], [], rfl⟩
      | cons d' cs =>
        simp only [List.cons_append, List.cons.injEq] at ht
        rw [ht.1]
        exact ⟨[], cs ++ b!"-", rfl⟩
    simp only [List.cons_append] at *
    rw [ht, commentR, if_neg hne, ← ht]
    exact ih

theorem commentR_inv {r r' : Bytes} (h : commentR r = some r') : ∃ b, r = b ++ b!"-->" ++ r' ∧ ¬ b!"--" <:+: b ++ b!"-" := by
  fun_induction commentR r with
  | case1 =>
    rename_i hab
    simp only [Option.some.injEq] at h
    simp only [Bool.and_eq_true, decide_eq_true_eq] at hab
    obtain ⟨rfl, rfl⟩ := hab
    subst h
    exact ⟨[], rfl, by decide⟩
  | case2 => simp at h
  | case3 a b c r hab ih =>
    obtain ⟨w, e1, e2⟩ := ih h
    refine ⟨a :: w, by rw [e1]; rfl, ?_⟩
    intro hi
    rcases List.infix_cons_iff.mp hi with hp | hi
    · obtain ⟨t, ht⟩ := hp
      simp only [List.cons_append, List.nil_append, List.cons.injEq] at ht
      apply hab
      simp only [Bool.and_eq_true, decide_eq_true_eq]
      refine ⟨ht.1.symm, ?_⟩
      cases w with
      | nil => simp only [List.nil_append, List.cons_append, List.cons.injEq] at e1; exact e1.1
      | cons x xs =>
        have h2 : c!"-" :: t = x :: (xs ++ b!"-") := ht.2
        simp only [List.cons_append, List.cons.injEq] at e1 h2
        rw [e1.1, ← h2.1]
    · exact e2 hi
  | case4 => simp at h

theorem cdataR_of {b : Bytes} (h : ¬ b!"]]>" <:+: b) (r : Bytes) : cdataR (b ++ b!"]]>" ++ r) = some r := by
  induction b with
  | nil => simp [cdataR]
  | cons c cs ih =>
    have ih := ih (not_infix_cons h)
    have : ∃ d e t, cs ++ b!"]]>" ++ r = d :: e :: t := by
      cases cs with
      | nil => exact ⟨_, _, _, rfl⟩
      | cons d cs => cases cs with
        | nil => exact ⟨_, _, _, rfl⟩
        | cons e cs => exact ⟨_, _, _, rfl⟩
    obtain ⟨d, e, t, ht⟩ := this
    have hne : ¬ ((decide (c = c!"]") && decide (d = c!"]") && decide (e = c!">")) = true) := by
      intro hcd
      simp only [Bool.and_eq_true, decide_eq_true_eq] at hcd
      obtain ⟨⟨rfl, rfl⟩, rfl⟩ := hcd
      cases cs with
      | nil => simp at ht
      | cons d' cs => cases cs with
        | nil => simp at ht
        | cons e' cs =>
          simp only [List.cons_append, List.cons.injEq] at ht
          obtain ⟨rfl, rfl, -⟩ := ht
          exact h ⟨[], cs, rfl⟩
    simp only [List.cons_append] at *
    rw [ht, cdataR, if_neg hne, ← ht]
    exact ih

theorem cdataR_inv {r r' : Bytes} (h : cdataR r = some r') : ∃ b, r = b ++ b!"]]>" ++ r' ∧ ¬ b!"]]>" <:+: b := by
  fun_induction cdataR r with
  | case1 a b c r hab =>
    simp only [Option.some.injEq] at h
    simp only [Bool.and_eq_true, decide_eq_true_eq] at hab
    obtain ⟨⟨rfl, rfl⟩, rfl⟩ := hab
    subst h
    exact ⟨[], rfl, by decide⟩
  | case2 a b c r hab ih =>
    obtain ⟨w, e1, e2⟩ := ih h
    refine ⟨a :: w, by rw [e1]; rfl, ?_⟩
    intro hi
    rcases List.infix_cons_iff.mp hi with hp | hi
    · obtain ⟨t, ht⟩ := hp
      apply hab
      simp only [Bool.and_eq_true, decide_eq_true_eq]
      cases w with
      | nil => simp at ht
      | cons x xs => cases xs with
        | nil => simp at ht
        | cons y ys =>
          simp only [List.cons_append, List.nil_append, List.cons.injEq] at e1 ht
          obtain ⟨rfl, rfl, rfl, -⟩ := ht
          obtain ⟨rfl, rfl, -⟩ := e1
          exact ⟨⟨rfl, rfl⟩, rfl⟩
    · exact e2 hi
  | case3 => simp at h

theorem brackets_cons (c : UInt8) (b : Bytes) :
    brackets (c :: b) = (if c = c!"[" then 1 else 0) - (if c = c!"]" then 1 else 0) + brackets b := by
  unfold brackets
  simp only [List.count_cons, beq_iff_eq]
  split <;> split <;> simp_all <;> omega

theorem doctypeR_of {d : Int} {b : Bytes} (h0 : d + brackets b = 0) (h : ∀ p, p ++ b!">" <+: b → d + brackets p ≠ 0) (r : Bytes) :
    doctypeR d (b ++ c!">" :: r) = some r := by
  induction b generalizing d with
  | nil =>
    simp only [brackets, List.count_nil] at h0
    have : d = 0 := by omega
    simp [doctypeR, this]
  | cons c cs ih =>
    have hp : ∀ p, p ++ b!">" <+: cs → d + brackets (c :: p) ≠ 0 := by
      intro p ⟨t, ht⟩
      exact h (c :: p) ⟨t, by rw [← ht]; rfl⟩
    rw [brackets_cons] at h0
    simp only [List.cons_append, doctypeR]
    by_cases h1 : c = c!"["
    · rw [if_pos h1]
      apply ih
      · rw [if_pos h1, if_neg (by rw [h1]; decide)] at h0; omega
      · intro p hpp; have := hp p hpp; rw [brackets_cons, if_pos h1, if_neg (by rw [h1]; decide)] at this; omega
    · rw [if_neg h1] at h0 ⊢
      by_cases h2 : c = c!"]"
      · rw [if_pos h2] at h0 ⊢
        apply ih
        · omega
        · intro p hpp; have := hp p hpp; rw [brackets_cons, if_neg h1, if_pos h2] at this; omega
      · rw [if_neg h2] at h0 ⊢
        have h3 : ¬ ((decide (c = c!">") && d == 0) = true) := by
          intro h3
          simp only [Bool.and_eq_true, decide_eq_true_eq, beq_iff_eq] at h3
          exact h [] ⟨cs, by rw [h3.1]; rfl⟩ (by rw [h3.2]; rfl)
        rw [if_neg h3]
        apply ih
        · omega
        · intro p hpp; have := hp p hpp; rw [brackets_cons, if_neg h1, if_neg h2] at this; omega

theorem doctypeR_inv {d : Int} {r r' : Bytes} (h : doctypeR d r = some r') :
    ∃ b, r = b ++ c!">" :: r' ∧ d + brackets b = 0 ∧ ∀ p, p ++ b!">" <+: b → d + brackets p ≠ 0 := by
  induction r generalizing d with
  | nil => simp [doctypeR] at h
  | cons c cs ih =>
    have step : ∀ d' : Int, d' = d + ((if c = c!"[" then 1 else 0) - (if c = c!"]" then 1 else 0)) →
        ¬ (c = c!">" ∧ d = 0) → doctypeR d' cs = some r' →
        ∃ b, c :: cs = b ++ c!">" :: r' ∧ d + brackets b = 0 ∧ ∀ p, p ++ b!">" <+: b → d + brackets p ≠ 0 := by
      intro d' hd' hg hh
      obtain ⟨b, e1, e2, e3⟩ := ih hh
      refine ⟨c :: b, by rw [e1]; rfl, by rw [brackets_cons]; omega, ?_⟩
      rintro p ⟨t, ht⟩
      cases p with
      | nil =>
        simp only [List.nil_append, List.cons_append, List.cons.injEq] at ht
        intro h0
        simp only [brackets, List.count_nil] at h0
        exact hg ⟨ht.1.symm, by omega⟩
      | cons x xs =>
        simp only [List.cons_append, List.cons.injEq] at ht
        obtain ⟨rfl, ht⟩ := ht
        have := e3 xs ⟨t, ht⟩
        rw [brackets_cons]; omega
    simp only [doctypeR] at h
    by_cases h1 : c = c!"["
    · rw [if_pos h1] at h
      exact step (d + 1) (by rw [if_pos h1, if_neg (by rw [h1]; decide)]; omega) (by rw [h1]; simp) h
    · rw [if_neg h1] at h
      by_cases h2 : c = c!"]"
      · rw [if_pos h2] at h
        exact step (d - 1) (by rw [if_neg h1, if_pos h2]; omega) (by rw [h2]; simp) h
      · rw [if_neg h2] at h
        by_cases h3 : (decide (c = c!">") && d == 0) = true
        · rw [if_pos h3] at h
          simp only [Bool.and_eq_true, decide_eq_true_eq, beq_iff_eq] at h3
          obtain ⟨rfl, rfl⟩ := h3
          simp only [Option.some.injEq] at h
          subst h
          exact ⟨[], rfl, rfl, by rintro p ⟨t, ht⟩; simp at ht⟩
        · rw [if_neg h3] at h
          exact step d (by rw [if_neg h1, if_neg h2]; omega) (by simpa using h3) h

/-! ### attributes -/

theorem quote_ne {q : UInt8} (h : q = c!"\"" ∨ q = c!"'") : ¬ IsWs q := by
  rw [← isWs_iff]; rcases h with rfl | rfl <;> decide

theorem eq_not_ws : ¬ IsWs c!"=" := by rw [← isWs_iff]; decide
theorem eq_not_name : ¬ NameChar c!"=" := by rw [← isNameChar_iff]; decide
theorem gt_not_name : ¬ NameChar c!">" := by rw [← isNameChar_iff]; decide
theorem slash_not_name : ¬ NameChar c!"/" := by rw [← isNameChar_iff]; decide
theorem gt_not_ws : ¬ IsWs c!">" := by rw [← isWs_iff]; decide
theorem slash_not_ws : ¬ IsWs c!"/" := by rw [← isWs_iff]; decide
theorem lt_not_ws : ¬ IsWs c!"<" := by rw [← isWs_iff]; decide

/-- After white space, a byte that is not a name byte. -/
theorem ws_head_not_name {w r : Bytes} (hw : ∀ c ∈ w, IsWs c) (hr : ∀ c t, r = c :: t → ¬ NameChar c) :
    ∀ c t, w ++ r = c :: t → ¬ NameChar c := by
  intro c t h
  cases w with
  | nil => exact hr c t h
  | cons x xs =>
    simp only [List.cons_append, List.cons.injEq] at h
    rw [← h.1]; exact IsWs.not_nameChar (hw x (by simp))

theorem attrsR_of {n : Nat} {as : List Attr} {ws r : Bytes} {c : UInt8} (ha : ∀ a ∈ as, a.Legal) (hn : as.length ≤ n)
    (hws : ∀ c ∈ ws, IsWs c) (hc : c = c!">" ∨ c = c!"/") :
    attrsR n (as.flatMap Attr.render ++ ws ++ c :: r) = some (c :: r) := by
  have hcw : ¬ IsWs c := by
    rcases hc with rfl | rfl
    · exact gt_not_ws
    · exact slash_not_ws
  induction as generalizing n with
  | nil =>
    simp only [List.flatMap_nil, List.nil_append]
    unfold attrsR
    rw [skipWs_ws hws, skipWs_cons hcw]
    simp only
    rw [if_pos (by simpa using hc)]
  | cons a as ih =>
    obtain ⟨hpre, hname, hm1, hm2, hq, hraw, hlen⟩ := ha a (by simp)
    cases n with
    | zero => simp at hn
    | succ n =>
      simp only [List.length_cons, Nat.add_le_add_iff_right] at hn
      have ih := ih (fun b hb => ha b (by simp [hb])) hn
      simp only [List.append_assoc] at ih
      obtain ⟨x, xs, hx, hstart⟩ := hname.1
      have hxw : ¬ IsWs x := NameChar.not_ws (NameStart.char hstart)
      have hx1 : x ≠ c!">" := fun e => gt_not_name (e ▸ NameStart.char hstart)
      have hx2 : x ≠ c!"/" := fun e => slash_not_name (e ▸ NameStart.char hstart)
      have e1 : (a :: as).flatMap Attr.render ++ ws ++ c :: r =
          a.pre ++ (a.name ++ (a.mid1 ++ c!"=" :: (a.mid2 ++ a.quote :: (a.raw ++ a.quote :: (as.flatMap Attr.render ++ (ws ++ c :: r)))))) := by
        simp [Attr.render]
      rw [e1]
      unfold attrsR
      rw [skipWs_ws hpre, hx, List.cons_append, skipWs_cons hxw]
      simp only
      rw [if_neg (by simp [hx1, hx2]), ← List.cons_append, ← hx,
        nameR_of hname.2.1 (by have := hname.2.2; omega)
          (ws_head_not_name hm1 (by intro c t h; simp only [List.cons.injEq] at h; rw [← h.1]; exact eq_not_name))]
      simp only [Option.getD_some, IsName.valid hname, Bool.not_true, Bool.false_eq_true, if_false]
      rw [skipWs_ws hm1, skipWs_cons eq_not_ws]
      simp only [ne_eq, not_true_eq_false, if_false]
      rw [skipWs_ws hm2, skipWs_cons (quote_ne hq)]
      simp only
      rw [if_neg (by rcases hq with h | h <;> simp [h]), untilR_of hraw (by omega)]
      exact ih

theorem attrsR_inv {n : Nat} {r r' : Bytes} (h : attrsR n r = some r') :
    ∃ (as : List Attr) (ws : Bytes) (c : UInt8) (t : Bytes), r = as.flatMap Attr.render ++ ws ++ r' ∧ (∀ a ∈ as, a.Legal) ∧ as.length ≤ n ∧ (∀ c ∈ ws, IsWs c) ∧
      r' = c :: t ∧ (c = c!">" ∨ c = c!"/") := by
  induction n generalizing r with
  | zero =>
    unfold attrsR at h
    obtain ⟨w, h1, h2, h3⟩ := skipWs_split r
    cases hs : skipWs r with
    | nil => rw [hs] at h; simp at h
    | cons c cs =>
      rw [hs] at h h2
      simp only at h
      split at h
      · rename_i hc
        simp only [Option.some.injEq] at h
        subst h
        exact ⟨[], w, c, cs, by simpa using h2, by simp, by simp, h1, rfl, by simpa using hc⟩
      · simp at h
  | succ n ih =>
    unfold attrsR at h
    obtain ⟨w, h1, h2, h3⟩ := skipWs_split r
    cases hs : skipWs r with
    | nil => rw [hs] at h; simp at h
    | cons c cs =>
      rw [hs] at h h2
      simp only at h
      split at h
      · rename_i hc
        simp only [Option.some.injEq] at h
        subst h
        exact ⟨[], w, c, cs, by simpa using h2, by simp, by simp, h1, rfl, by simpa using hc⟩
      · split at h
        · simp at h
        · rename_i hv
          simp only [Bool.not_eq_true, Bool.not_eq_false, Bool.not_eq_eq_eq_not, Bool.not_true] at hv
          cases hn1 : (nameR 0 (c :: cs)).1 with
          | none => rw [hn1] at hv; simp [validName] at hv
          | some nm =>
            rw [hn1] at hv
            simp only [Option.getD_some] at hv
            obtain ⟨e1, e2, e3, e4⟩ := nameR_inv (r' := (nameR 0 (c :: cs)).2) (Prod.ext hn1 rfl)
            generalize (nameR 0 (c :: cs)).2 = r1 at *
            obtain ⟨w1, f1, f2, f3⟩ := skipWs_split r1
            cases hs1 : skipWs r1 with
            | nil => rw [hs1] at h; simp at h
            | cons e r2 =>
              rw [hs1] at h f2
              simp only at h
              split at h
              · simp at h
              · rename_i he
                simp only [ne_eq, Decidable.not_not] at he
                subst he
                obtain ⟨w2, g1, g2, g3⟩ := skipWs_split r2
                cases hs2 : skipWs r2 with
                | nil => rw [hs2] at h; simp at h
                | cons q r3 =>
                  rw [hs2] at h g2
                  simp only at h
                  split at h
                  · simp at h
                  · rename_i hq
                    have hq : q = c!"\"" ∨ q = c!"'" := by
                      simp only [Bool.and_eq_true, decide_eq_true_eq, not_and, Decidable.not_not] at hq
                      by_cases hh : q = c!"\""
                      · exact .inl hh
                      · exact .inr (hq hh)
                    cases hu : untilR q 0 r3 with
                    | none => rw [hu] at h; simp at h
                    | some r4 =>
                      rw [hu] at h
                      simp only at h
                      obtain ⟨v, u1, u2, u3⟩ := untilR_inv hu
                      obtain ⟨as, ws, c', t, a1, a2, a3, a4, a5, a6⟩ := ih h
                      have hl : nm.length ≤ 1048576 := by
                        have := e4 (by rw [f2]; simp); omega
                      refine ⟨⟨w, nm, w1, w2, q, v⟩ :: as, ws, c', t, ?_, ?_, ?_, a4, a5, a6⟩
                      · rw [h2, e1, f2, g2, u1, a1]; simp [Attr.render]
                      · intro a ha
                        rcases List.mem_cons.mp ha with rfl | ha
                        · exact ⟨h1, isName_of hv hl, f1, g1, hq, u2, by simp only; omega⟩
                        · exact a2 a ha
                      · simp only [List.length_cons]; omega

end Verif
