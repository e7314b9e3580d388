import Verif.Lemmas.Recursive
import Verif.Lemmas.Pattern
import Verif.Spec.Filter
/- Filter conditions. -/
namespace Verif
open Spec

/-! ### numbers -/

theorem isNumericAux_tail (hasDigit hasDot : Bool) (s : Bytes) :
    isNumericAux false hasDigit hasDot s = true ↔
      ∃ body tail : Bytes, s = body ++ tail ∧ (∀ c ∈ body, (48 ≤ c ∧ c ≤ 57) ∨ c = c!".") ∧
        body.count c!"." ≤ (if hasDot then 0 else 1) ∧ (hasDigit = true ∨ ∃ c ∈ body, 48 ≤ c ∧ c ≤ 57) ∧
        (tail = [] ∨ ∃ t, tail = c!"e" :: t ∨ tail = c!"E" :: t) := by
  induction s generalizing hasDigit hasDot with
  | nil =>
    simp only [isNumericAux]
    constructor
    · intro h; exact ⟨[], [], rfl, by simp, by simp, .inl h, .inl rfl⟩
    · rintro ⟨body, tail, h, -, -, h4, -⟩
      simp only [List.nil_eq, List.append_eq_nil_iff] at h
      rw [h.1] at h4
      simpa using h4
  | cons c cs ih =>
    simp only [isNumericAux]
    -- a body that is empty: the tail starts here
    have hsplit : ∀ P : Bytes → Bytes → Prop, (∃ body tail : Bytes, c :: cs = body ++ tail ∧ P body tail) ↔
        (P [] (c :: cs) ∨ ∃ body tail : Bytes, cs = body ++ tail ∧ P (c :: body) tail) := by
      intro P
      constructor
      · rintro ⟨body, tail, h, hP⟩
        cases body with
        | nil => left; simp only [List.nil_append] at h; rw [h]; exact hP
        | cons b body =>
          simp only [List.cons_append, List.cons.injEq] at h
          right; rw [h.1]; exact ⟨body, tail, h.2, hP⟩
      · rintro (h | ⟨body, tail, h, hP⟩)
        · exact ⟨[], _, rfl, h⟩
        · exact ⟨c :: body, tail, by rw [h]; rfl, hP⟩
    rw [hsplit]
    by_cases hd : isDigit c = true
    · have hd' : 48 ≤ c ∧ c ≤ 57 := by simpa [isDigit] using hd
      have hdot : c ≠ c!"." := by rintro rfl; exact absurd hd (by decide)
      have hee : c ≠ c!"e" ∧ c ≠ c!"E" := by constructor <;> (rintro rfl; exact absurd hd (by decide))
      rw [if_pos hd, ih]
      constructor
      · rintro ⟨body, tail, h1, h2, h3, -, h5⟩
        refine .inr ⟨body, tail, h1, ?_, ?_, .inr ⟨c, by simp, hd'⟩, h5⟩
        · intro x hx; rcases List.mem_cons.mp hx with rfl | hx
          · exact .inl hd'
          · exact h2 x hx
        · rw [List.count_cons_of_ne hdot]; exact h3
      · rintro (⟨-, -, -, h5⟩ | ⟨body, tail, h1, h2, h3, -, h5⟩)
        · rcases h5 with h5 | ⟨t, h5 | h5⟩
          · simp at h5
          · simp only [List.cons.injEq] at h5; exact absurd h5.1 hee.1
          · simp only [List.cons.injEq] at h5; exact absurd h5.1 hee.2
        · rw [List.count_cons_of_ne hdot] at h3
          exact ⟨body, tail, h1, fun x hx => h2 x (by simp [hx]), h3, .inl rfl, h5⟩
    · have hd' : ¬ (48 ≤ c ∧ c ≤ 57) := by simpa [isDigit] using hd
      rw [if_neg hd]
      by_cases hdot : c = c!"."
      · subst hdot
        rw [if_pos rfl]
        have hno : ¬ ((∀ x ∈ ([] : Bytes), (48 ≤ x ∧ x ≤ 57) ∨ x = c!".") ∧ ([] : Bytes).count c!"." ≤ (if hasDot then 0 else 1) ∧
            (hasDigit = true ∨ ∃ x ∈ ([] : Bytes), 48 ≤ x ∧ x ≤ 57) ∧ (c!"." :: cs = [] ∨ ∃ t, c!"." :: cs = c!"e" :: t ∨ c!"." :: cs = c!"E" :: t)) := by
          rintro ⟨-, -, -, h | ⟨t, h | h⟩⟩
          · simp at h
          · simp at h
          · simp at h
        cases hasDot with
        | true =>
          simp only [if_true, Bool.false_eq_true, false_iff]
          rintro (h | ⟨body, tail, -, -, h3, -⟩)
          · exact hno (by simp at h)
          · simp [List.count_cons_self] at h3
        | false =>
          simp only [Bool.false_eq_true, if_false]
          rw [ih]
          constructor
          · rintro ⟨body, tail, h1, h2, h3, h4, h5⟩
            refine .inr ⟨body, tail, h1, ?_, ?_, ?_, h5⟩
            · intro x hx; rcases List.mem_cons.mp hx with rfl | hx
              · exact .inr rfl
              · exact h2 x hx
            · simp only [if_true] at h3; rw [List.count_cons_self]; omega
            · rcases h4 with h4 | ⟨x, hx, h4⟩
              · exact .inl h4
              · exact .inr ⟨x, by simp [hx], h4⟩
          · rintro (h | ⟨body, tail, h1, h2, h3, h4, h5⟩)
            · simp at h
            · refine ⟨body, tail, h1, fun x hx => h2 x (by simp [hx]), ?_, ?_, h5⟩
              · rw [List.count_cons_self] at h3; simp only [if_true]; omega
              · rcases h4 with h4 | ⟨x, hx, h4⟩
                · exact .inl h4
                · rcases List.mem_cons.mp hx with rfl | hx
                  · exact absurd h4 hd'
                  · exact .inr ⟨x, hx, h4⟩
      · rw [if_neg hdot]
        have hbody : ¬ ∃ body tail : Bytes, cs = body ++ tail ∧ (∀ x ∈ c :: body, (48 ≤ x ∧ x ≤ 57) ∨ x = c!".") ∧
            (c :: body).count c!"." ≤ (if hasDot then 0 else 1) ∧
            (hasDigit = true ∨ ∃ x ∈ c :: body, 48 ≤ x ∧ x ≤ 57) ∧ (tail = [] ∨ ∃ t, tail = c!"e" :: t ∨ tail = c!"E" :: t) := by
          rintro ⟨body, tail, -, h2, -⟩
          rcases h2 c (by simp) with h | h
          · exact hd' h
          · exact hdot h
        rw [or_iff_left hbody]
        by_cases hsgn : (decide (c = c!"-") || decide (c = c!"+")) = true
        · rw [if_pos hsgn, if_neg (by simp)]
          simp only [Bool.false_eq_true, false_iff]
          rintro ⟨-, -, -, h | ⟨t, h | h⟩⟩
          · simp at h
          · simp only [List.cons.injEq] at h; rw [h.1] at hsgn; exact absurd hsgn (by decide)
          · simp only [List.cons.injEq] at h; rw [h.1] at hsgn; exact absurd hsgn (by decide)
        · rw [if_neg hsgn]
          by_cases he : (decide (c = c!"e") || decide (c = c!"E")) = true
          · rw [if_pos he]
            constructor
            · intro h
              refine ⟨by simp, by simp, .inl h, .inr ⟨cs, ?_⟩⟩
              simp only [Bool.or_eq_true, decide_eq_true_eq] at he
              rcases he with rfl | rfl
              · exact .inl rfl
              · exact .inr rfl
            · rintro ⟨-, -, h | ⟨x, hx, -⟩, -⟩
              · exact h
              · simp at hx
          · rw [if_neg he]
            simp only [Bool.false_eq_true, false_iff]
            simp only [Bool.or_eq_true, decide_eq_true_eq, not_or] at he
            rintro ⟨-, -, -, h | ⟨t, h | h⟩⟩
            · simp at h
            · simp only [List.cons.injEq] at h; exact he.1 h.1
            · simp only [List.cons.injEq] at h; exact he.2 h.1

theorem isNumericAux_first (s : Bytes) (h : ∀ c, s.head? = some c → c ≠ c!"-" ∧ c ≠ c!"+") :
    isNumericAux true false false s = isNumericAux false false false s := by
  cases s with
  | nil => rfl
  | cons c cs =>
    have := h c rfl
    simp [isNumericAux, this.1, this.2]

theorem isNumericValue_iff (s : Bytes) : isNumericValue s = true ↔ NumericShape s := by
  have hbody : ∀ r : Bytes, (∃ body tail : Bytes, r = body ++ tail ∧ (∀ c ∈ body, (48 ≤ c ∧ c ≤ 57) ∨ c = c!".") ∧
        body.count c!"." ≤ (if false then 0 else 1) ∧ (false = true ∨ ∃ c ∈ body, 48 ≤ c ∧ c ≤ 57) ∧
        (tail = [] ∨ ∃ t, tail = c!"e" :: t ∨ tail = c!"E" :: t)) ↔
      (∃ body tail : Bytes, r = body ++ tail ∧ (∀ c ∈ body, (48 ≤ c ∧ c ≤ 57) ∨ c = c!".") ∧ body.count c!"." ≤ 1 ∧ (∃ c ∈ body, 48 ≤ c ∧ c ≤ 57) ∧
        (tail = [] ∨ ∃ t, tail = c!"e" :: t ∨ tail = c!"E" :: t)) := by
    intro r; simp
  unfold isNumericValue NumericShape
  by_cases hs : s.head? = some c!"-" ∨ s.head? = some c!"+"
  · obtain ⟨c, cs, rfl⟩ : ∃ c cs, s = c :: cs := by
      cases s with
      | nil => simp at hs
      | cons c cs => exact ⟨c, cs, rfl⟩
    simp only [List.head?_cons, Option.some.injEq] at hs
    have hstep : isNumericAux true false false (c :: cs) = isNumericAux false false false cs := by
      rcases hs with rfl | rfl <;> simp [isNumericAux, isDigit]
    rw [hstep, isNumericAux_tail, hbody]
    constructor
    · rintro ⟨body, tail, h1, h2⟩
      refine ⟨[c], body, tail, by rw [h1]; rfl, ?_, h2⟩
      rcases hs with rfl | rfl <;> simp
    · rintro ⟨sign, body, tail, h1, hsg, h2, h3, h4, h5⟩
      cases sign with
      | nil =>
        exfalso
        cases body with
        | nil => simp at h4
        | cons b body =>
          simp only [List.nil_append, List.cons_append, List.cons.injEq] at h1
          have := h2 b (by simp)
          rw [← h1.1] at this
          rcases hs with rfl | rfl <;> exact absurd this (by decide)
      | cons d sign =>
        have : sign = [] := by rcases hsg with h | h | h <;> simp_all
        subst this
        simp only [List.cons_append, List.nil_append, List.cons.injEq] at h1
        exact ⟨body, tail, h1.2, h2, h3, h4, h5⟩
  · rw [isNumericAux_first s (by
      intro c hc
      rw [hc] at hs
      simpa using hs), isNumericAux_tail, hbody]
    constructor
    · rintro ⟨body, tail, h1, h2⟩
      exact ⟨[], body, tail, h1, .inl rfl, h2⟩
    · rintro ⟨sign, body, tail, h1, hsg, h2⟩
      rcases hsg with rfl | rfl | rfl
      · exact ⟨body, tail, h1, h2⟩
      · exact absurd (by rw [h1]; simp) hs
      · exact absurd (by rw [h1]; simp) hs

/-! ### comparison -/

theorem compareNumeric_iff (pf : Bytes → Option FVal) (op : FilterOp) (a v : Bytes) :
    compareNumeric pf op a v = true ↔ ∃ x y, NumberIs pf a x ∧ NumberIs pf v y ∧ cmpOp op x y = true := by
  unfold compareNumeric NumberIs
  rw [← isNumericValue_iff, ← isNumericValue_iff]
  constructor
  · intro h
    split at h
    · simp at h
    · rename_i hn
      simp only [Bool.or_eq_true, Bool.not_eq_true', not_or, Bool.not_eq_false] at hn
      split at h
      · rename_i x y hx hy
        exact ⟨x, y, ⟨hn.1, hx⟩, ⟨hn.2, hy⟩, h⟩
      · simp at h
  · rintro ⟨x, y, ⟨h1, h2⟩, ⟨h3, h4⟩, h5⟩
    simp [h1, h2, h3, h4, h5]

theorem containsAny_glob (v : Bytes) : containsAny v b!"*?\\" = true ↔ ∃ c ∈ v, c = c!"*" ∨ c = c!"?" ∨ c = c!"\\" := by
  simp [containsAny]

theorem comparePattern_iff (op : FilterOp) (ho : op = .pat ∨ op = .npat) (a v : Bytes) :
    comparePattern op a v = true ↔ Globs v a (some (decide (op = .pat))) := by
  unfold comparePattern Globs
  have hm : maxPatternIterations = 10000 := rfl
  by_cases hc : containsAny v b!"*?\\" = true
  · rw [if_neg (by simp [hc]), if_pos ((containsAny_glob v).mp hc)]
    have hsp := patternMatch_spec a v maxPatternIterations
    simp only
    split
    · rename_i hst
      have := hsp.1.mp hst
      rw [hm] at this
      rw [if_pos (by have := this.2; omega)]
      simp
    · rename_i hst
      have hns : (patternMatch a v maxPatternIterations).2 = false := by simpa using hst
      have hle : ¬ ((tokens (runes v)).length * (runes a).length > 10000) := by
        intro hgt
        exact hst (hsp.1.mpr ⟨by omega, by rw [hm]; omega⟩)
      rw [if_neg hle]
      have h2 := hsp.2.1 hns
      constructor
      · intro h
        refine ⟨_, rfl, ?_⟩
        rcases ho with rfl | rfl
        · simp only [if_true] at h; simp only [decide_true, true_iff]; exact h2.mp h
        · simp at h; simp only [reduceCtorEq, decide_false, Bool.false_eq_true, false_iff]; intro hin
          rw [h2.mpr hin] at h; simp at h
      · rintro ⟨b, hb, hiff⟩
        simp only [Option.some.injEq] at hb
        subst hb
        rcases ho with rfl | rfl
        · simp only [decide_true, true_iff] at hiff; simp only [if_true]; exact h2.mpr hiff
        · simp only [reduceCtorEq, decide_false, Bool.false_eq_true, false_iff] at hiff
          simp only [reduceCtorEq, if_false, Bool.not_eq_true']
          rw [Bool.eq_false_iff]; intro h; exact hiff (h2.mp h)
  · rw [if_pos (by simpa using hc), if_neg (fun h => hc ((containsAny_glob v).mpr h))]
    rcases ho with rfl | rfl
    · by_cases h : a = v <;> simp [h]
    · by_cases h : a = v <;> simp [h]

theorem compareFilter_iff (pf : Bytes → Option FVal) (f : Filter) (actual : Option Bytes) :
    compareFilter pf f actual = true ↔ Holds pf f.op f.value actual := by
  obtain ⟨p, op, v⟩ := f
  cases actual with
  | none => cases op <;> simp [compareFilter, Holds]
  | some a =>
    cases op with
    | ex => simp [compareFilter, Holds]
    | eq => simp [compareFilter, Holds]
    | ne => simp [compareFilter, Holds]
    | lt => simp only [compareFilter, Holds, compareNumeric_iff, cmpOp, decide_eq_true_eq]
    | gt => simp only [compareFilter, Holds, compareNumeric_iff, cmpOp, decide_eq_true_eq, gt_iff_lt]
    | le => simp only [compareFilter, Holds, compareNumeric_iff, cmpOp, decide_eq_true_eq]
    | ge => simp only [compareFilter, Holds, compareNumeric_iff, cmpOp, decide_eq_true_eq, ge_iff_le]
    | pat => simp only [compareFilter, Holds]; rw [comparePattern_iff _ (.inl rfl)]; simp
    | npat => simp only [compareFilter, Holds]; rw [comparePattern_iff _ (.inr rfl)]; simp

/-! ### filter text -/

theorem spaceLenRev_ascii1 {c : UInt8} (h1 : 0x21 ≤ c) (h2 : c ≤ 0x7F) (cs : Bytes) : spaceLenRev (c :: cs) = 0 := by
  have a1 : ((9 ≤ c && c ≤ 13) || c = 32) = false := by
    simp only [UInt8.le_iff_toNat_le, ← UInt8.toNat_inj, UInt8.reduceToNat, Bool.or_eq_false_iff, Bool.and_eq_false_iff, decide_eq_false_iff_not] at *
    omega
  have ha : ∀ k : UInt8, 0x80 ≤ k → c ≠ k := by
    rintro k hk rfl
    simp only [UInt8.le_iff_toNat_le, UInt8.reduceToNat] at *
    omega
  have hr : (decide (0x80 ≤ c) && decide (c ≤ 0x8A)) = false := by
    simp only [UInt8.le_iff_toNat_le, UInt8.reduceToNat, Bool.and_eq_false_iff, decide_eq_false_iff_not] at *
    omega
  cases cs with
  | nil => simp [spaceLenRev, a1]
  | cons d ds =>
    cases ds with
    | nil => simp [spaceLenRev, a1, ha 0x85 (by decide), ha 0xA0 (by decide)]
    | cons e es =>
      simp [spaceLenRev, a1, ha 0x85 (by decide), ha 0xA0 (by decide), ha 0x80 (by decide), ha 0x9F (by decide), ha 0xA8 (by decide),
        ha 0xA9 (by decide), ha 0xAF (by decide), hr]

/-- Text that begins and ends with a printable ASCII byte is not trimmed. -/
theorem trimSpace_ends {s : Bytes} (h1 : ∀ c, s.head? = some c → 0x21 ≤ c ∧ c ≤ 0x7F) (h2 : ∀ c, s.getLast? = some c → 0x21 ≤ c ∧ c ≤ 0x7F) :
    trimSpace s = s := by
  cases s with
  | nil => rw [trimSpace, trimFront_zero (len := spaceLen) (by rfl), List.reverse_nil, trimFront_zero (by rfl)]; rfl
  | cons c cs =>
    have hc := h1 c rfl
    unfold trimSpace
    rw [trimFront_zero (spaceLen_ascii hc.1 hc.2 cs)]
    obtain ⟨d, ds, hd⟩ := List.exists_cons_of_ne_nil (l := (c :: cs).reverse) (by simp)
    have hl : (c :: cs).getLast? = some d := by rw [← List.head?_reverse, hd]; rfl
    have := h2 d hl
    rw [hd, trimFront_zero (spaceLenRev_ascii1 this.1 this.2 ds), ← hd, List.reverse_reverse]

/-- No operator character. -/
def OpFree (p : Bytes) : Prop := ∀ c ∈ p, c ≠ c!"=" ∧ c ≠ c!"!" ∧ c ≠ c!"<" ∧ c ≠ c!">" ∧ c ≠ c!"%"

theorem findOp2_skip {p : Bytes} (hp : OpFree p) (d : UInt8) (r : Bytes) :
    findOp2 (p ++ d :: r) = (findOp2 (d :: r)).map (fun x => (x.1 + p.length, x.2)) := by
  induction p with
  | nil => simp
  | cons c cs ih =>
    have hc := hp c (by simp)
    have ih' := ih (fun x hx => hp x (by simp [hx]))
    obtain ⟨e, es, he⟩ : ∃ e es, cs ++ d :: r = e :: es := by
      cases cs with
      | nil => exact ⟨d, r, rfl⟩
      | cons x xs => exact ⟨x, xs ++ d :: r, rfl⟩
    rw [List.cons_append, he, findOp2]
    simp only [hc.1, hc.2.1, hc.2.2.1, hc.2.2.2.1, decide_false, Bool.false_and, Bool.false_eq_true, if_false]
    rw [← he, ih', Option.map_map]
    congr 1

theorem findOp2_none {s : Bytes} (h1 : c!"=" ∉ s) (h2 : c!"%" ∉ s.tail) : findOp2 s = none := by
  induction s with
  | nil => rfl
  | cons c cs ih =>
    cases cs with
    | nil => rfl
    | cons d ds =>
      simp only [List.mem_cons, not_or, List.tail_cons] at h1 h2
      have ih' := ih (by simp [h1.2.1, h1.2.2]) (by simpa using h2.2)
      rw [findOp2]
      simp only [Ne.symm h1.2.1, Ne.symm h2.1, decide_false, Bool.and_false, Bool.false_eq_true, if_false]
      rw [ih']; rfl

theorem findOp1_skip {p : Bytes} (hp : OpFree p) (r : Bytes) : findOp1 (p ++ r) = (findOp1 r).map (fun x => (x.1 + p.length, x.2)) := by
  induction p with
  | nil => simp
  | cons c cs ih =>
    have hc := hp c (by simp)
    have ih' := ih (fun x hx => hp x (by simp [hx]))
    rw [List.cons_append, findOp1]
    simp only [hc.2.2.1, hc.2.2.2.1, hc.2.2.2.2, if_false]
    rw [ih', Option.map_map]
    congr 1

theorem findOp_text {p : Bytes} (hp : OpFree p) (op : FilterOp) (hop : op ≠ .ex) (t : Bytes) (ht : t ≠ [])
    (h1 : (op = .lt ∨ op = .gt ∨ op = .pat) → c!"=" ∉ t ∧ c!"%" ∉ t) :
    findOp (p ++ opText op ++ t) = some (p.length, (opText op).length, op) := by
  obtain ⟨x, xs, rfl⟩ := List.exists_cons_of_ne_nil ht
  have single : ∀ o : UInt8, (o = c!"<" ∨ o = c!">" ∨ o = c!"%") → c!"=" ∉ x :: xs ∧ c!"%" ∉ x :: xs → findOp2 (p ++ o :: (x :: xs)) = none := by
    intro o ho hx
    rw [findOp2_skip hp, findOp2_none]
    · rfl
    · simp only [List.mem_cons, not_or] at hx ⊢
      refine ⟨?_, hx.1⟩
      rcases ho with rfl | rfl | rfl <;> decide
    · simpa using hx.2
  unfold findOp
  rw [List.append_assoc]
  cases op with
  | ex => exact absurd rfl hop
  | eq => simp only [opText, List.cons_append, List.nil_append]; rw [findOp2_skip hp]; simp [findOp2]
  | ne => simp only [opText, List.cons_append, List.nil_append]; rw [findOp2_skip hp]; simp [findOp2]
  | le => simp only [opText, List.cons_append, List.nil_append]; rw [findOp2_skip hp]; simp [findOp2]
  | ge => simp only [opText, List.cons_append, List.nil_append]; rw [findOp2_skip hp]; simp [findOp2]
  | npat => simp only [opText, List.cons_append, List.nil_append]; rw [findOp2_skip hp]; simp [findOp2]
  | lt =>
    simp only [opText, List.cons_append, List.nil_append]
    rw [single c!"<" (by simp) (h1 (by simp)), findOp1_skip hp]; simp [findOp1]
  | gt =>
    simp only [opText, List.cons_append, List.nil_append]
    rw [single c!">" (by simp) (h1 (by simp)), findOp1_skip hp]; simp [findOp1]
  | pat =>
    simp only [opText, List.cons_append, List.nil_append]
    rw [single c!"%" (by simp) (h1 (by simp)), findOp1_skip hp]; simp [findOp1]

theorem fpt_opFree {p : Bytes} (h : FilterPathText p) : OpFree p := fun c hc => by
  have := h.2 c hc; exact ⟨this.2.2.1, this.2.2.2.1, this.2.2.2.2.1, this.2.2.2.2.2.1, this.2.2.2.2.2.2.1⟩

theorem range_7F {c : UInt8} (h : 0x21 ≤ c ∧ c ≤ 0x7E) : 0x21 ≤ c ∧ c ≤ 0x7F := by
  simp only [UInt8.le_iff_toNat_le, UInt8.reduceToNat] at *; omega

theorem fpt_ends {p : Bytes} (h : FilterPathText p) :
    (∀ c, p.head? = some c → 0x21 ≤ c ∧ c ≤ 0x7F) ∧ (∀ c, p.getLast? = some c → 0x21 ≤ c ∧ c ≤ 0x7F) := by
  constructor
  · intro c hc
    have := h.2 c (List.mem_of_head? hc)
    exact range_7F ⟨this.1, this.2.1⟩
  · intro c hc
    have := h.2 c (List.mem_of_getLast? hc)
    exact range_7F ⟨this.1, this.2.1⟩

theorem fvt_ne_nil {op : FilterOp} {t v : Bytes} (h : FilterValueText op t v) : t ≠ [] := by
  rcases h.1 with (h | h) | h
  · rw [h]; simp
  · rw [h]; simp
  · rw [h.1]; exact h.2.1

theorem fvt_ends {op : FilterOp} {t v : Bytes} (h : FilterValueText op t v) :
    (∀ c, t.head? = some c → 0x21 ≤ c ∧ c ≤ 0x7F) ∧ (∀ c, t.getLast? = some c → 0x21 ≤ c ∧ c ≤ 0x7F) := by
  rcases h.1 with (h | h) | ⟨rfl, h2, h3⟩
  · subst h
    refine ⟨?_, ?_⟩
    · intro c hc; simp at hc; subst hc; decide
    · intro c hc; rw [List.getLast?_append] at hc; simp at hc; subst hc; decide
  · subst h
    refine ⟨?_, ?_⟩
    · intro c hc; simp at hc; subst hc; decide
    · intro c hc; rw [List.getLast?_append] at hc; simp at hc; subst hc; decide
  · refine ⟨?_, ?_⟩
    · intro c hc
      have := h3 c (List.mem_of_head? hc)
      exact range_7F ⟨this.1, this.2.1⟩
    · intro c hc
      have := h3 c (List.mem_of_getLast? hc)
      exact range_7F ⟨this.1, this.2.1⟩

theorem fvt_mem {op : FilterOp} {t v : Bytes} (h : FilterValueText op t v) {c : UInt8} (hc : c ∈ t) :
    c ∈ v ∨ c = c!"'" ∨ c = c!"\"" := by
  rcases h.1 with (h | h) | h
  · rw [h] at hc; simp at hc; rcases hc with hc | hc | hc <;> simp [hc]
  · rw [h] at hc; simp at hc; rcases hc with hc | hc | hc <;> simp [hc]
  · rw [h.1] at hc; exact .inl hc

theorem stripQuotes_text {op : FilterOp} {t v : Bytes} (h : FilterValueText op t v) : stripQuotes t = .ok v := by
  unfold stripQuotes
  rcases h.1 with (h | h) | ⟨rfl, h2, h3⟩
  · subst h
    rw [if_pos, if_neg]
    · rw [List.cons_append, List.drop_succ_cons, List.drop_zero, List.dropLast_concat]
    · simp
    · simp [hasPrefix, hasSuffix, List.isPrefixOf]
  · subst h
    rw [if_pos, if_neg]
    · rw [List.cons_append, List.drop_succ_cons, List.drop_zero, List.dropLast_concat]
    · simp
    · simp [hasPrefix, hasSuffix, List.isPrefixOf]
  · obtain ⟨c, cs, rfl⟩ := List.exists_cons_of_ne_nil h2
    have := h3 c (by simp)
    rw [if_neg]
    simp [hasPrefix, List.isPrefixOf, Ne.symm this.2.2.1, Ne.symm this.2.2.2]

theorem containsAny_false {s set : Bytes} (h : ∀ c ∈ s, c ∉ set) : containsAny s set = false := by
  simp only [containsAny, List.any_eq_false, List.contains_eq_mem, decide_eq_true_eq]
  exact h

theorem parseFilterCondition_text {p t v : Bytes} {op : FilterOp} (hp : FilterPathText p) (hop : op ≠ .ex) (hv : FilterValueText op t v)
    (hl : (p ++ opText op ++ t).length ≤ 256) : parseFilterCondition (p ++ opText op ++ t) = .ok ⟨p, op, v⟩ := by
  have hm : maxFilterExpressionLength = 256 := rfl
  have hpe := fpt_ends hp
  have hve := fvt_ends hv
  obtain ⟨x, xs, rfl⟩ := List.exists_cons_of_ne_nil hp.1
  have htrim : trimSpace (x :: xs ++ opText op ++ t) = x :: xs ++ opText op ++ t := by
    apply trimSpace_ends
    · intro c hc; exact hpe.1 c (by simpa using hc)
    · intro c hc
      rw [List.getLast?_append] at hc
      obtain ⟨y, ys, hy⟩ := List.exists_cons_of_ne_nil (fvt_ne_nil hv)
      have : ∃ z, t.getLast? = some z := by rw [hy]; exact ⟨_, List.getLast?_eq_some_getLast (by simp)⟩
      obtain ⟨z, hz⟩ := this
      rw [hz] at hc
      simp at hc
      subst hc
      exact hve.2 _ hz
  have hzero : (x :: xs ++ opText op ++ t).contains 0 = false := by
    rw [List.contains_eq_mem, decide_eq_false_iff_not]
    intro h0
    rw [List.mem_append, List.mem_append] at h0
    rcases h0 with (h0 | h0) | h0
    · exact absurd (hp.2 0 h0).1 (by decide)
    · revert h0; cases op <;> simp [opText]
    · rcases fvt_mem hv h0 with h0 | h0 | h0
      · exact (hv.2.1 0 h0).1 rfl
      · simp at h0
      · simp at h0
  have hops : containsAny (x :: xs ++ opText op ++ t) b!"=!<>%" = true := by
    simp only [containsAny, List.any_append, Bool.or_eq_true]
    left; right
    cases op <;> first | exact absurd rfl hop | decide
  have hfind := findOp_text (fpt_opFree hp) op hop t (fvt_ne_nil hv) (by
    intro h
    have := hv.2.2 h
    constructor
    · intro hc; rcases fvt_mem hv hc with hc | hc | hc
      · exact this.1 hc
      · simp at hc
      · simp at hc
    · intro hc; rcases fvt_mem hv hc with hc | hc | hc
      · exact this.2 hc
      · simp at hc
      · simp at hc)
  unfold parseFilterCondition
  rw [if_neg (by omega), if_neg (by rw [hzero]; simp)]
  simp only [htrim]
  rw [if_neg (by simp), if_neg (by rw [hops]; simp), hfind]
  simp only
  have e1 : (x :: xs ++ opText op ++ t).take (x :: xs).length = x :: xs := by
    rw [List.append_assoc, List.take_left']; rfl
  have e2 : (x :: xs ++ opText op ++ t).drop ((x :: xs).length + (opText op).length) = t := by
    rw [← List.length_append, List.drop_left']; rfl
  rw [e1, e2, trimSpace_ends hpe.1 hpe.2, trimSpace_ends hve.1 hve.2]
  rw [if_neg, if_neg, if_neg, stripQuotes_text hv]
  · simp only
    rw [if_neg]
    rw [containsAny_false]
    · simp
    · intro c hc; have := hv.2.1 c hc; simp [this]
  · rw [containsAny_false]
    · simp
    · intro c hc; have := (fpt_opFree hp) c hc; simp [this]
  · have := (fvt_ne_nil hv); cases t <;> simp_all
  · rw [containsAny_false]
    · simp
    · intro c hc
      have := (hp.2 c hc).1
      simp only [List.mem_cons, List.not_mem_nil, or_false, not_or]
      refine ⟨?_, ?_, ?_, ?_⟩ <;> (rintro rfl; exact absurd this (by decide))

theorem parseFilterCondition_exists {p : Bytes} (hp : FilterPathText p) (hl : p.length ≤ 256) : parseFilterCondition p = .ok ⟨p, .ex, []⟩ := by
  have hm : maxFilterExpressionLength = 256 := rfl
  unfold parseFilterCondition
  have h0 : p.contains 0 = false := by
    rw [List.contains_eq_mem, decide_eq_false_iff_not]; intro h; exact absurd (hp.2 0 h).1 (by decide)
  rw [if_neg (by omega), if_neg (by rw [h0]; simp)]
  simp only [trimSpace_ends (fpt_ends hp).1 (fpt_ends hp).2]
  rw [if_neg (by simpa using hp.1), if_pos]
  rw [containsAny_false]
  · rfl
  · intro c hc; have := (fpt_opFree hp) c hc; simp [this]

theorem parsePart_filter {expr : Bytes} {f : Filter} (all : Bool) (hb : c!"|" ∉ expr) (hne : expr ≠ []) (h : parseFilterCondition expr = .ok f) :
    parsePart (filterPart expr all) = .seg ⟨.filter f all, []⟩ := by
  unfold parsePart
  have hbar : c!"|" ∉ filterPart expr all := by unfold filterPart; cases all <;> simp [hb]
  have hlen : 0 < expr.length := List.length_pos_iff.mpr hne
  simp only [parseModifiers_plain _ hbar]
  rw [if_neg (by simp [filterPart]), if_pos (by simp [filterPart, hasPrefix, List.isPrefixOf])]
  unfold parseFilterPart filterPart
  cases all with
  | true =>
    have e : ((b!"#(" ++ expr ++ b!")#").take ((b!"#(" ++ expr ++ b!")#").length - 2)).drop 2 = expr := by
      rw [List.take_left' (by simp)]; rfl
    simp only [if_true]
    have hs1 : hasSuffix (b!"#(" ++ expr ++ b!")#") b!")#" = true := by
      unfold hasSuffix; rw [List.isSuffixOf_iff_suffix]; exact ⟨b!"#(" ++ expr, rfl⟩
    rw [if_pos hs1, if_neg (by simp; omega), e, h]
  | false =>
    have e : ((b!"#(" ++ expr ++ b!")").take ((b!"#(" ++ expr ++ b!")").length - 1)).drop 2 = expr := by
      rw [List.take_left' (by simp)]; rfl
    simp only [Bool.false_eq_true, if_false]
    have hs1 : hasSuffix (b!"#(" ++ expr ++ b!")") b!")" = true := by
      unfold hasSuffix; rw [List.isSuffixOf_iff_suffix]; exact ⟨b!"#(" ++ expr, rfl⟩
    have hs2 : ¬ hasSuffix (b!"#(" ++ expr ++ b!")") b!")#" = true := by
      unfold hasSuffix; rw [List.isSuffixOf_iff_suffix]; rintro ⟨w, hw⟩
      have := congrArg List.getLast? hw
      rw [List.getLast?_append, List.getLast?_append] at this
      simp at this
    rw [if_neg hs2, if_pos hs1, if_neg (by simp; omega), e, h]

end Verif
