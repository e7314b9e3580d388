import Verif.Lemmas.Panic
/- Which texts are conditions, and what they mean. -/
namespace Verif
open Spec

theorem longOp_text {op : FilterOp} (h : LongOp op) : ∃ c d, opText op = [c, d] := by
  rcases h with rfl | rfl | rfl | rfl | rfl <;> exact ⟨_, _, rfl⟩

theorem longOp_of_text {op : FilterOp} (h : (opText op).length = 2) : LongOp op := by
  cases op <;> simp_all [opText, LongOp]

theorem shortOp_of_text {op : FilterOp} (h : (opText op).length = 1) : ShortOp op := by
  cases op <;> simp_all [opText, ShortOp]

theorem opText_inj {a b : FilterOp} (h : opText a = opText b) : a = b := by
  cases a <;> cases b <;> first | rfl | (exact absurd h (by decide))

theorem findOp2_before {e : Bytes} (l : Bytes) (op : FilterOp) (r : Bytes) (ho : LongOp op) (he : e = l ++ opText op ++ r) :
    ∃ i op', findOp2 e = some (i, op') ∧ i ≤ l.length := by
  fun_induction findOp2 e generalizing l with
  | case6 c d rr h1 h2 h3 h4 h5 ih =>
    cases l with
    | nil =>
      exfalso
      rcases ho with rfl | rfl | rfl | rfl | rfl <;> simp [opText] at he <;> obtain ⟨rfl, rfl, rfl⟩ := he <;> simp_all
    | cons x l =>
      simp only [List.cons_append, List.cons.injEq] at he
      obtain ⟨i, op', g1, g2⟩ := ih l he.2
      exact ⟨i + 1, op', by rw [g1]; rfl, by simpa using g2⟩
  | case7 e hno =>
    exfalso
    obtain ⟨c, d, hcd⟩ := longOp_text ho
    rw [hcd] at he
    cases l with
    | nil => exact hno c d r (by simpa using he)
    | cons x l =>
      cases l with
      | nil => exact hno x c (d :: r) (by simpa using he)
      | cons y l => exact hno x y _ (by simpa using he)
  | _ => exact ⟨0, _, rfl, by omega⟩

theorem findOp1_before {e : Bytes} {i : Nat} {op : FilterOp} (h : findOp1 e = some (i, op)) : ∀ c ∈ e.take i, c ≠ c!"<" ∧ c ≠ c!">" ∧ c ≠ c!"%" := by
  induction e generalizing i with
  | nil => simp [findOp1] at h
  | cons x r ih =>
    simp only [findOp1] at h
    repeat' split at h
    all_goals first
      | (simp only [Option.map_eq_some_iff] at h
         obtain ⟨⟨j, o⟩, hj, he⟩ := h
         simp only [Prod.mk.injEq] at he
         obtain ⟨rfl, rfl⟩ := he
         intro c hc
         rw [List.take_succ_cons, List.mem_cons] at hc
         rcases hc with rfl | hc
         · exact ⟨by assumption, by assumption, by assumption⟩
         · exact ih hj c hc)
      | (simp only [Option.some.injEq, Prod.mk.injEq] at h
         obtain ⟨rfl, rfl⟩ := h
         simp)

theorem findOp1_none {e : Bytes} (h : findOp1 e = none) : ∀ c ∈ e, c ≠ c!"<" ∧ c ≠ c!">" ∧ c ≠ c!"%" := by
  induction e with
  | nil => simp
  | cons x r ih =>
    simp only [findOp1] at h
    repeat' split at h
    all_goals first
      | (simp only [Option.map_eq_none_iff] at h
         intro c hc
         rcases List.mem_cons.mp hc with rfl | hc
         · exact ⟨by assumption, by assumption, by assumption⟩
         · exact ih h c hc)
      | simp at h

theorem findOp_divides {e : Bytes} {i n : Nat} {op : FilterOp} (h : findOp e = some (i, n, op)) : DividesAt e (e.take i) op (e.drop (i + n)) := by
  unfold findOp at h
  split at h
  · rename_i j o h2
    simp only [Option.some.injEq, Prod.mk.injEq] at h
    obtain ⟨rfl, rfl, rfl⟩ := h
    obtain ⟨g1, g2, g3⟩ := findOp2_text h2
    refine .long (longOp_of_text g2) g3 fun l' op' r' ho' he' => ?_
    obtain ⟨i', op'', g4, g5⟩ := findOp2_before l' op' r' ho' he'
    rw [h2] at g4
    simp only [Option.some.injEq, Prod.mk.injEq] at g4
    rw [List.length_take]; omega
  · rename_i h2
    split at h
    · rename_i j o h1
      simp only [Option.some.injEq, Prod.mk.injEq] at h
      obtain ⟨rfl, rfl, rfl⟩ := h
      obtain ⟨g1, g2, g3⟩ := findOp1_text h1
      refine .short (shortOp_of_text g2) g3 (fun l' op' r' ho' he' => ?_) (findOp1_before h1)
      obtain ⟨i', op'', g4, g5⟩ := findOp2_before l' op' r' ho' he'
      rw [h2] at g4; cases g4
    · simp at h

theorem divides_findOp {e l r : Bytes} {op : FilterOp} (h : DividesAt e l op r) : ∃ x, findOp e = some x := by
  unfold findOp
  split
  · exact ⟨_, rfl⟩
  · rename_i h2
    split
    · exact ⟨_, rfl⟩
    · rename_i h1
      exfalso
      cases h with
      | long ho he hf => obtain ⟨i', op'', g4, g5⟩ := findOp2_before l op r ho he; rw [h2] at g4; cases g4
      | short ho he hn hf =>
        have := findOp1_none h1
        rcases ho with rfl | rfl | rfl
        · exact (this c!"<" (by rw [he]; simp [opText])).1 rfl
        · exact (this c!">" (by rw [he]; simp [opText])).2.1 rfl
        · exact (this c!"%" (by rw [he]; simp [opText])).2.2 rfl

theorem shortOp_text {op : FilterOp} (h : ShortOp op) : ∃ c, opText op = [c] ∧ (c = c!"<" ∨ c = c!">" ∨ c = c!"%") := by
  rcases h with rfl | rfl | rfl <;> exact ⟨_, rfl, by simp⟩

theorem split_first {c d : UInt8} {l r l' r' : Bytes} {P : UInt8 → Prop} (h : l ++ c :: r = l' ++ d :: r') (hl : ∀ x ∈ l, ¬ P x) (hl' : ∀ x ∈ l', ¬ P x) (hc : P c) (hd : P d) :
    l = l' ∧ c = d ∧ r = r' := by
  induction l generalizing l' with
  | nil =>
    cases l' with
    | nil => simpa using h
    | cons y l' => simp only [List.nil_append, List.cons_append, List.cons.injEq] at h; exact absurd (h.1 ▸ hc) (hl' y (by simp))
  | cons x l ih =>
    cases l' with
    | nil => simp only [List.nil_append, List.cons_append, List.cons.injEq] at h; exact absurd (h.1 ▸ hd) (hl x (by simp))
    | cons y l' =>
      simp only [List.cons_append, List.cons.injEq] at h
      obtain ⟨h1, h2⟩ := h
      have := ih h2 (fun z hz => hl z (by simp [hz])) (fun z hz => hl' z (by simp [hz]))
      exact ⟨by rw [h1, this.1], this.2⟩

theorem divides_unique {e l r l' r' : Bytes} {op op' : FilterOp} (h : DividesAt e l op r) (h' : DividesAt e l' op' r') : l = l' ∧ op = op' ∧ r = r' := by
  cases h with
  | long ho he hf =>
    cases h' with
    | long ho' he' hf' =>
      have h1 := hf l' op' r' ho' he'
      have h2 := hf' l op r ho he
      obtain ⟨c, d, hc⟩ := longOp_text ho
      obtain ⟨c', d', hc'⟩ := longOp_text ho'
      have e1 := he.symm.trans he'
      rw [List.append_assoc, List.append_assoc] at e1
      obtain ⟨e2, e3⟩ := List.append_inj e1 (by omega)
      obtain ⟨e4, e5⟩ := List.append_inj e3 (by rw [hc, hc']; rfl)
      exact ⟨e2, opText_inj e4, e5⟩
    | short ho' he' hn' hf' => exact absurd he (hn' _ _ _ ho)
  | short ho he hn hf =>
    cases h' with
    | long ho' he' hf' => exact absurd he' (hn _ _ _ ho')
    | short ho' he' hn' hf' =>
      obtain ⟨c, hc, hc2⟩ := shortOp_text ho
      obtain ⟨d, hd, hd2⟩ := shortOp_text ho'
      have e1 := he.symm.trans he'
      rw [hc, hd, List.append_assoc, List.append_assoc] at e1
      have := split_first (P := fun x => x = c!"<" ∨ x = c!">" ∨ x = c!"%") e1 (fun x hx => by have := hf x hx; simp [this]) (fun x hx => by have := hf' x hx; simp [this]) hc2 hd2
      refine ⟨this.1, opText_inj ?_, this.2.2⟩
      rw [hc, hd, this.2.1]

theorem divides_iff {e l r : Bytes} {op : FilterOp} : DividesAt e l op r ↔ ∃ i n, findOp e = some (i, n, op) ∧ l = e.take i ∧ r = e.drop (i + n) := by
  constructor
  · intro h
    obtain ⟨⟨i, n, op'⟩, hx⟩ := divides_findOp h
    obtain ⟨h1, rfl, h3⟩ := divides_unique h (findOp_divides hx)
    exact ⟨i, n, hx, h1, h3⟩
  · rintro ⟨i, n, h, rfl, rfl⟩; exact findOp_divides h

theorem containsAny_iff {s set : Bytes} : containsAny s set = false ↔ ∀ c ∈ s, c ∉ set := by
  simp [containsAny, List.contains_eq_mem]

theorem noOperator_iff {s : Bytes} : containsAny s b!"=!<>%" = false ↔ NoOperator s := by
  rw [containsAny_iff]; simp [NoOperator]

theorem noControl_iff {s : Bytes} : containsAny s [0, 10, 13, 9] = false ↔ NoControl s := by
  rw [containsAny_iff]
  simp only [NoControl, List.mem_cons, List.not_mem_nil, or_false, not_or]
  exact forall_congr' fun c => forall_congr' fun _ => by constructor <;> (rintro ⟨a, b, c, d⟩; exact ⟨a, by assumption, by assumption, by assumption⟩)

theorem surrounds {q : UInt8} {t : Bytes} : (hasPrefix t [q] && hasSuffix t [q]) = true ↔ t.head? = some q ∧ t.getLast? = some q := by
  rw [Bool.and_eq_true, hasPrefix, hasSuffix, List.isPrefixOf_iff_prefix, List.isSuffixOf_iff_suffix]
  constructor
  · rintro ⟨⟨a, rfl⟩, ⟨b, hb⟩⟩
    exact ⟨rfl, by rw [← hb]; simp⟩
  · rintro ⟨h1, h2⟩
    obtain ⟨l, hl⟩ := List.getLast?_eq_some_iff.mp h2
    obtain ⟨l', hl'⟩ := List.head?_eq_some_iff.mp h1
    exact ⟨⟨l', hl'.symm⟩, ⟨l, hl.symm⟩⟩

theorem quoted_iff {q : UInt8} {t : Bytes} (h : t.head? = some q ∧ t.getLast? = some q) (hl : 2 ≤ t.length) (v : Bytes) : (t.drop 1).dropLast = v ↔ t = q :: v ++ [q] := by
  obtain ⟨h1, h2⟩ := h
  obtain ⟨l, rfl⟩ := List.head?_eq_some_iff.mp h1
  have hne : l ≠ [] := by rintro rfl; simp at hl
  have h3 : l.getLast? = some q := by rw [List.getLast?_cons] at h2; cases hh : l.getLast? with | none => simp at hh; exact absurd hh hne | some z => rw [hh] at h2; simpa using h2
  obtain ⟨m, rfl⟩ := List.getLast?_eq_some_iff.mp h3
  simp

theorem stripQuotes_iff {t v : Bytes} : stripQuotes t = .ok v ↔ Unquotes t v := by
  unfold stripQuotes Unquotes
  by_cases h1 : t.head? = some c!"'" ∧ t.getLast? = some c!"'"
  · rw [if_pos (by rw [Bool.or_eq_true]; exact .inl (surrounds.mpr h1))]
    by_cases hl : t.length < 2
    · rw [if_pos hl]
      simp only [reduceCtorEq, false_iff, not_or]
      refine ⟨by rintro rfl; simp at hl; omega, by rintro rfl; simp at hl; omega, fun h => h.2.1 h1⟩
    · rw [if_neg hl, Parse.ok.injEq, quoted_iff h1 (by omega)]
      constructor
      · exact .inl
      · rintro (h | h | h)
        · exact h
        · rw [h] at h1; simp at h1
        · exact absurd h1 h.2.1
  · by_cases h2 : t.head? = some c!"\"" ∧ t.getLast? = some c!"\""
    · rw [if_pos (by rw [Bool.or_eq_true]; exact .inr (surrounds.mpr h2))]
      by_cases hl : t.length < 2
      · rw [if_pos hl]
        simp only [reduceCtorEq, false_iff, not_or]
        refine ⟨by rintro rfl; simp at hl; omega, by rintro rfl; simp at hl; omega, fun h => h.2.2 h2⟩
      · rw [if_neg hl, Parse.ok.injEq, quoted_iff h2 (by omega)]
        constructor
        · exact fun h => .inr (.inl h)
        · rintro (h | h | h)
          · rw [h] at h2; simp at h2
          · exact h
          · exact absurd h2 h.2.2
    · rw [if_neg (by rw [Bool.or_eq_true, surrounds, surrounds]; exact fun h => h.elim h1 h2), Parse.ok.injEq]
      constructor
      · exact fun h => .inr (.inr ⟨h, h1, h2⟩)
      · rintro (h | h | h)
        · rw [h] at h1; exact absurd ⟨rfl, List.getLast?_concat⟩ h1
        · rw [h] at h2; exact absurd ⟨rfl, List.getLast?_concat⟩ h2
        · exact h.1

theorem stripQuotes_noerr (t : Bytes) : stripQuotes t ≠ .err := by
  unfold stripQuotes; repeat' split
  all_goals simp

theorem not_of_false {b : Bool} (h : b = false) : ¬ b = true := by simp [h]

theorem contains_iff {x : Bytes} : x.contains 0 = false ↔ (0 : UInt8) ∉ x := by simp

/-- The parser on a text with an operator. -/
theorem parseFilterCondition_cmp {expr : Bytes} (hl : expr.length ≤ 256) (h0 : 0 ∉ expr) {l r : Bytes} {op : FilterOp} (hd : DividesAt (trimSpace expr) l op r) :
    parseFilterCondition expr = if containsAny l [0, 10, 13, 9] then .err else if (trimSpace l).isEmpty || (trimSpace r).isEmpty then .err
      else if containsAny (trimSpace l) b!"=!<>%" then .err
      else match stripQuotes (trimSpace r) with
        | .panic => .panic
        | .err => .err
        | .ok v => if containsAny v [0, 10, 13, 9] then .err else .ok ⟨trimSpace l, op, v⟩ := by
  obtain ⟨i, n, h1, rfl, rfl⟩ := divides_iff.mp hd
  have h2 := (findOp_split h1).2
  have h3 := (findOp_split h1).1
  have hne : trimSpace expr ≠ [] := by
    intro h
    rw [h] at h1; cases h1
  have hops : containsAny (trimSpace expr) b!"=!<>%" = true := by
    rw [h2]
    simp only [containsAny, List.any_append, Bool.or_eq_true]
    left; right
    cases op <;> first | exact absurd rfl h3 | decide
  unfold parseFilterCondition
  rw [if_neg (by simp only [maxFilterExpressionLength]; omega), if_neg (not_of_false (contains_iff.mpr h0))]
  simp only
  rw [if_neg (by simpa using hne), if_neg (by rw [hops]; simp), h1]
  rfl

/-- A text that is not a condition with an operator. -/
theorem parseFilterCondition_nodiv {expr : Bytes} (hl : expr.length ≤ 256) (h0 : 0 ∉ expr) (hn : ∀ l op r, ¬ DividesAt (trimSpace expr) l op r) :
    parseFilterCondition expr = if (trimSpace expr).isEmpty then .err else if !containsAny (trimSpace expr) b!"=!<>%" then .ok ⟨trimSpace expr, .ex, []⟩ else .err := by
  have h1 : findOp (trimSpace expr) = none := by
    cases h : findOp (trimSpace expr) with
    | none => rfl
    | some x => obtain ⟨i, n, op⟩ := x; exact absurd (findOp_divides h) (hn _ _ _)
  unfold parseFilterCondition
  rw [if_neg (by simp only [maxFilterExpressionLength]; omega), if_neg (not_of_false (contains_iff.mpr h0))]
  simp only [h1]

theorem divides_op {e l r : Bytes} {op : FilterOp} (h : DividesAt e l op r) : op ≠ .ex ∧ ¬ NoOperator e := by
  obtain ⟨i, n, h1, rfl, rfl⟩ := divides_iff.mp h
  obtain ⟨h2, h3⟩ := findOp_split h1
  refine ⟨h2, fun hn => ?_⟩
  rw [h3] at hn
  have : ∀ c ∈ opText op, _ := fun c hc => hn c (by simp [hc])
  cases op <;> first | exact absurd rfl h2 | simp [opText] at this

theorem condition_iff {expr p v : Bytes} {op : FilterOp} : parseFilterCondition expr = .ok ⟨p, op, v⟩ ↔ Condition expr p op v := by
  by_cases hl : expr.length ≤ 256
  · by_cases h0 : (0 : UInt8) ∉ expr
    · by_cases hd : ∃ l op r, DividesAt (trimSpace expr) l op r
      · obtain ⟨l, op', r, hd⟩ := hd
        rw [parseFilterCondition_cmp hl h0 hd]
        constructor
        · intro h
          split at h
          · cases h
          · rename_i h1
            split at h
            · cases h
            · rename_i h2
              split at h
              · cases h
              · rename_i h3
                split at h
                · cases h
                · cases h
                · rename_i w hw
                  split at h
                  · cases h
                  · rename_i h4
                    simp only [Parse.ok.injEq, Filter.mk.injEq] at h
                    obtain ⟨rfl, rfl, rfl⟩ := h
                    simp only [Bool.not_eq_true] at h1 h3 h4
                    simp only [Bool.or_eq_true, List.isEmpty_iff, not_or] at h2
                    exact .cmp hl h0 hd (noControl_iff.mp h1) h2.1 (noOperator_iff.mp h3) h2.2 (stripQuotes_iff.mp hw) (noControl_iff.mp h4)
        · intro h
          cases h with
          | ex hl' h0' hne ho => exact absurd ho (divides_op hd).2
          | cmp hl' h0' hd' hc hne ho hr hq hv =>
            obtain ⟨rfl, rfl, rfl⟩ := divides_unique hd hd'
            rw [if_neg (not_of_false (noControl_iff.mpr hc)), if_neg (by simp [hne, hr]), if_neg (not_of_false (noOperator_iff.mpr ho)), stripQuotes_iff.mpr hq]
            simp only
            rw [if_neg (not_of_false (noControl_iff.mpr hv))]
      · have hn : ∀ l op r, ¬ DividesAt (trimSpace expr) l op r := fun l op r h => hd ⟨l, op, r, h⟩
        rw [parseFilterCondition_nodiv hl h0 hn]
        constructor
        · intro h
          split at h
          · cases h
          · rename_i h1
            split at h
            · rename_i h2
              simp only [Parse.ok.injEq, Filter.mk.injEq] at h
              obtain ⟨rfl, rfl, rfl⟩ := h
              exact .ex hl h0 (by simpa using h1) (noOperator_iff.mp (by simpa using h2))
            · cases h
        · intro h
          cases h with
          | ex hl' h0' hne ho => rw [if_neg (by simpa using hne), if_pos (by rw [noOperator_iff.mpr ho]; rfl)]
          | cmp hl' h0' hd' => exact absurd hd' (hn _ _ _)
    · constructor
      · intro h
        unfold parseFilterCondition at h
        rw [if_neg (by simp only [maxFilterExpressionLength]; omega), if_pos (by simpa using h0)] at h
        cases h
      · intro h; cases h <;> contradiction
  · constructor
    · intro h
      unfold parseFilterCondition at h
      rw [if_pos (by simp only [maxFilterExpressionLength]; omega)] at h
      cases h
    · intro h; cases h <;> contradiction

theorem lone_ne {t : Bytes} (h : t = b!"'" ∨ t = b!"\"") : t ≠ [] := by rcases h with rfl | rfl <;> simp

theorem badQuote_iff {expr : Bytes} : parseFilterCondition expr = .panic ↔ BadQuote expr := by
  by_cases hl : expr.length ≤ 256
  · by_cases h0 : (0 : UInt8) ∉ expr
    · by_cases hd : ∃ l op r, DividesAt (trimSpace expr) l op r
      · obtain ⟨l, op', r, hd⟩ := hd
        rw [parseFilterCondition_cmp hl h0 hd]
        constructor
        · intro h
          split at h
          · cases h
          · rename_i h1
            split at h
            · cases h
            · rename_i h2
              split at h
              · cases h
              · rename_i h3
                simp only [Bool.not_eq_true] at h1 h3
                simp only [Bool.or_eq_true, List.isEmpty_iff, not_or] at h2
                split at h
                · rename_i hw
                  exact ⟨hl, h0, l, op', r, hd, noControl_iff.mp h1, h2.1, noOperator_iff.mp h3, (stripQuotes_panic _).mp hw⟩
                · cases h
                · split at h <;> cases h
        · rintro ⟨-, -, l', op'', r', hd', hc, hne, ho, hq⟩
          obtain ⟨rfl, rfl, rfl⟩ := divides_unique hd hd'
          rw [if_neg (not_of_false (noControl_iff.mpr hc)), if_neg (by simp [hne, lone_ne hq]), if_neg (not_of_false (noOperator_iff.mpr ho)), (stripQuotes_panic _).mpr hq]
      · have hn : ∀ l op r, ¬ DividesAt (trimSpace expr) l op r := fun l op r h => hd ⟨l, op, r, h⟩
        rw [parseFilterCondition_nodiv hl h0 hn]
        constructor
        · intro h
          repeat' split at h
          all_goals cases h
        · rintro ⟨-, -, l', op'', r', hd', -⟩; exact absurd hd' (hn _ _ _)
    · constructor
      · intro h
        unfold parseFilterCondition at h
        rw [if_neg (by simp only [maxFilterExpressionLength]; omega), if_pos (by simpa using h0)] at h
        cases h
      · intro h; exact absurd h.2.1 h0
  · constructor
    · intro h
      unfold parseFilterCondition at h
      rw [if_pos (by simp only [maxFilterExpressionLength]; omega)] at h
      cases h
    · intro h; exact absurd h.1 hl

theorem condition_unique {expr p v p' v' : Bytes} {op op' : FilterOp} (h : Condition expr p op v) (h' : Condition expr p' op' v') : p = p' ∧ op = op' ∧ v = v' := by
  have := (condition_iff.mpr h).symm.trans (condition_iff.mpr h')
  simpa using this

theorem condition_ne {expr p v : Bytes} {op : FilterOp} (h : Condition expr p op v) : expr ≠ [] := by
  rintro rfl
  have := condition_iff.mpr h
  have h2 : parseFilterCondition [] = .err := by decide +kernel
  rw [h2] at this; cases this

/-- Conditions without white space, as they are usually written. -/
theorem cond_exists {p : Bytes} (hp : FilterPathText p) (hl : p.length ≤ 256) : CondText p p .ex [] :=
  ⟨fun hm => (hp.2 _ hm).2.2.2.2.2.2.2 rfl, condition_iff.mp (parseFilterCondition_exists hp hl)⟩

theorem cond_text {p t v : Bytes} {op : FilterOp} (hp : FilterPathText p) (hop : op ≠ .ex) (hv : FilterValueText op t v)
    (hl : (p ++ opText op ++ t).length ≤ 256) : CondText (p ++ opText op ++ t) p op v := by
  refine ⟨?_, condition_iff.mp (parseFilterCondition_text hp hop hv hl)⟩
  simp only [List.mem_append, not_or]
  refine ⟨⟨fun hm => (hp.2 _ hm).2.2.2.2.2.2.2 rfl, by cases op <;> simp [opText]⟩, fun hm => ?_⟩
  rcases fvt_mem hv hm with h | h | h
  · exact (hv.2.1 _ h).2.2.2.2 rfl
  · simp at h
  · simp at h

end Verif
