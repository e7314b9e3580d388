import Verif.Lemmas.Value
/- C37: the accessors of results. -/
namespace Verif.Props
open Spec

/-- C37: Array is the array's items; a missing result has no items; anything else is its own single item. -/
theorem C37_array (r : Result) : (r.isArray = true → r.array = r.results) ∧ (r.exists? = false → r.array = []) ∧
    (r.exists? = true → r.isArray = false → r.array = [r]) := by
  obtain ⟨t, raw, s, n, l⟩ := r
  cases t <;> simp [Result.array, Result.isArray, Result.exists?, Result.typ, Result.results]

/-- C37: Array is empty exactly for missing results and empty arrays. -/
theorem C37_array_empty (r : Result) : r.array = [] ↔ r.exists? = false ∨ (r.isArray = true ∧ r.results = []) := by
  obtain ⟨t, raw, s, n, l⟩ := r
  cases t <;> simp [Result.array, Result.isArray, Result.exists?, Result.typ, Result.results]

/-- C37: ForEach calls its callback on the items of Array, numbered from 0, until it says stop. -/
theorem C37_forEach {σ : Type} (r : Result) (f : σ → Nat → Result → σ × Bool) (s : σ) : r.forEach f s = callsOn f s 0 r.array := by
  have key : ∀ (l : List Result) (s : σ) (i : Nat), Result.forEachL f s i l = callsOn f s i l := by
    intro l
    induction l with
    | nil => intro s i; rfl
    | cons a l ih =>
      intro s i
      rw [Result.forEachL, callsOn]
      rcases h : f s i a with ⟨s', b⟩
      cases b
      · rfl
      · simp [ih]
  obtain ⟨t, raw, st, n, l⟩ := r
  have one : ∀ x : Result, (f s 0 x).1 = callsOn f s 0 [x] := by
    intro x
    rw [callsOn]
    rcases h : f s 0 x with ⟨s', b⟩
    cases b <;> rfl
  cases t <;> simp [Result.array, Result.forEach, Result.typ, Result.results, key, one] <;> rfl

/-- In particular a callback that never stops sees all of Array, in order and with the right indices. -/
theorem C37_forEach_all (r : Result) : r.forEach (fun log i v => (log ++ [(v, i)], true)) [] = r.array.zipIdx := by
  rw [C37_forEach]
  have key : ∀ (l : List Result) (log : List (Result × Nat)) (i : Nat), callsOn (fun log i v => (log ++ [(v, i)], true)) log i l = log ++ l.zipIdx i := by
    intro l
    induction l with
    | nil => intro log i; simp [callsOn]
    | cons a l ih => intro log i; rw [callsOn]; simp [ih]
  simpa using key r.array [] 0

/-- and one that stops at the second item sees two. -/
example : (Result.ofArray [.ofAttr b!"a", .ofAttr b!"b", .ofAttr b!"c"]).forEach (fun log i v => (log ++ [v.str], i < 1)) [] = [b!"a", b!"b"] := by decide

/-- C37: String() of an array is the quoted list of the String() of its items. -/
theorem C37_string_array (r : Result) (ha : r.isArray = true) (hu : ∀ x ∈ r.results, Utf8 x.toStr) : r.toStr = listText (r.results.map Result.toStr) := by
  rw [toStr_array r (by simpa [Result.isArray] using ha), joinItems_utf8 (by simpa using hu), listText]

/-- C37: and for items that are not UTF-8, with every byte that is not part of a character replaced by U+FFFD. -/
theorem C37_string_any (r : Result) (ha : r.isArray = true) : r.toStr = listText (r.results.map (fun x => wellFormed x.toStr)) := by
  rw [toStr_array r (by simpa [Result.isArray] using ha), joinItems_any, listText]
  simp only [List.map_map]; rfl

/-- The replacement leaves UTF-8 as it is; a stray byte becomes three. -/
theorem C37_wellFormed (s : Bytes) (h : Utf8 s) : wellFormed s = s := wellFormed_utf8 h

example : (Result.ofArray [.ofAttr [97, 0xFF], .ofAttr b!"b"]).toStr = b!"[\"a" ++ [0xEF, 0xBF, 0xBD] ++ b!"\",\"b\"]" := by decide +kernel

/-- C37: and this text determines the items: two arrays with the same String() have the same items' String(). -/
theorem C37_string_unambiguous (r r' : Result) (ha : r.isArray = true) (ha' : r'.isArray = true) (hu : ∀ x ∈ r.results, Utf8 x.toStr)
    (hu' : ∀ x ∈ r'.results, Utf8 x.toStr) (h : r.toStr = r'.toStr) : r.results.map Result.toStr = r'.results.map Result.toStr := by
  rw [C37_string_array r ha hu, C37_string_array r' ha' hu'] at h
  exact listText_inj h

/-- C37: other results are their Str; a missing one is empty. -/
theorem C37_string_single (r : Result) : (r.exists? = false → r.toStr = []) ∧ (r.exists? = true → r.isArray = false → r.toStr = r.str) := by
  obtain ⟨t, raw, s, n, l⟩ := r
  cases t <;> simp [Result.toStr, Result.isArray, Result.exists?, Result.typ, Result.str]

example : (Result.ofArray [.ofAttr b!"a\"b", .ofAttr b!"é\\"]).toStr = b!"[\"a\\\"b\",\"é\\\\\"]" := by decide +kernel
example : Utf8 b!"é\\" := ⟨['é', '\\'], by decide⟩

/-- C37, why UTF-8: bytes that are not are all replaced by U+FFFD, so different items look alike. -/
theorem C37_string_invalid : (Result.ofArray [.ofAttr [0x80]]).toStr = (Result.ofArray [.ofAttr [0xFF]]).toStr := by decide +kernel

/-- Results whose value is text. -/
def IsText (r : Result) : Prop := r.typ = .string ∨ r.typ = .element ∨ r.typ = .attribute

theorem parseInt_decimal {s : Bytes} {n : Int} (h : DecimalInt s n) : Result.parseInt64 s = if -(2 ^ 63) ≤ n ∧ n < 2 ^ 63 then some n else none := by
  have dig : ∀ {s : Bytes} {n : Nat}, Decimal s n → s ≠ [] ∧ s.all isDigit = true ∧ digitsVal s = n ∧ s.head? ≠ some c!"-" ∧ s.head? ≠ some c!"+" := by
    intro s n h
    obtain ⟨h1, h2, h3⟩ := decimal_facts h
    refine ⟨h1, by simpa [isDigit] using h2, h3, ?_, ?_⟩ <;>
    · intro hh
      have := h2 _ (List.mem_of_mem_head? hh)
      revert this; decide
  cases h with
  | @plain s n h =>
    obtain ⟨h1, h2, h3, h4, h5⟩ := dig h
    cases s with
    | nil => exact absurd rfl h1
    | cons c cs =>
      simp only [List.head?_cons, ne_eq, Option.some.injEq] at h4 h5
      simp only [Result.parseInt64, h4, h5, if_false, h2, h3, List.isEmpty_cons, Bool.not_true, Bool.or_self, Bool.false_eq_true]
      by_cases hn : n ≥ 2 ^ 63
      · rw [if_pos hn, if_neg (by omega)]
      · rw [if_neg hn, if_pos (by omega)]
  | @plus s n h =>
    obtain ⟨h1, h2, h3, h4, h5⟩ := dig h
    have hp : (c!"+" : UInt8) ≠ c!"-" := by decide
    have he : s.isEmpty = false := by cases s <;> simp_all
    simp only [Result.parseInt64, hp, if_false, if_true, h2, h3, he, Bool.not_true, Bool.or_self, Bool.false_eq_true]
    by_cases hn : n ≥ 2 ^ 63
    · rw [if_pos hn, if_neg (by omega)]
    · rw [if_neg hn, if_pos (by omega)]
  | @minus s n h =>
    obtain ⟨h1, h2, h3, h4, h5⟩ := dig h
    have he : s.isEmpty = false := by cases s <;> simp_all
    simp only [Result.parseInt64, if_true, h2, h3, he, Bool.not_true, Bool.or_self, Bool.false_eq_true, if_false]
    by_cases hn : n > 2 ^ 63
    · rw [if_pos hn, if_neg (by omega)]
    · rw [if_neg hn, if_pos (by omega)]

theorem decimal_of {s : Bytes} (h1 : s ≠ []) (h2 : s.all isDigit = true) : Decimal s (digitsVal s) := by
  have key : ∀ (n : Nat) (s : Bytes), s.length = n → s ≠ [] → s.all isDigit = true → Decimal s (digitsVal s) := by
    intro n
    induction n with
    | zero => intro s h h1; exact absurd (List.length_eq_zero_iff.mp h) h1
    | succ n ih =>
      intro s h h1 h2
      rcases List.eq_nil_or_concat s with rfl | ⟨t, d, rfl⟩
      · exact absurd rfl h1
      · rw [List.concat_eq_append] at *
        simp only [List.all_append, List.all_cons, List.all_nil, Bool.and_true, Bool.and_eq_true] at h2
        have hd : 48 ≤ d ∧ d ≤ 57 := by simpa [isDigit] using h2.2
        cases t with
        | nil => simpa [digitsVal] using Decimal.digit d hd
        | cons a t =>
          rw [digitsVal_append, Nat.mul_comm]
          exact Decimal.snoc (ih (a :: t) (by simpa using h) (by simp) h2.1) hd
  exact key s.length s rfl h1 h2

/-- C37: Int of a textual result is the integer written there, if it is one that fits 64 bits, and 0 otherwise. -/
theorem C37_int (r : Result) (ht : IsText r) : (∀ n, DecimalInt r.str n → r.toInt = if -(2 ^ 63) ≤ n ∧ n < 2 ^ 63 then n else 0) ∧
    ((¬ ∃ n, DecimalInt r.str n) → r.toInt = 0) := by
  have e : r.toInt = (Result.parseInt64 r.str).getD 0 := by
    obtain ⟨t, raw, s, n, l⟩ := r
    rcases ht with h | h | h <;> (simp only [Result.typ] at h; subst h; rfl)
  rw [e]
  generalize r.str = s
  refine ⟨fun n h => ?_, fun h => ?_⟩
  · rw [parseInt_decimal h]; split <;> rfl
  · have key : ∀ ds : Bytes, (∀ n, ¬ Decimal ds n) → (ds.isEmpty || !ds.all isDigit) = true := by
      intro ds hd
      cases hx : (ds.isEmpty || !ds.all isDigit) with
      | true => rfl
      | false =>
        simp only [Bool.or_eq_false_iff, List.isEmpty_eq_false_iff, Bool.not_eq_false'] at hx
        exact absurd (decimal_of hx.1 hx.2) (hd _)
    cases s with
    | nil => rfl
    | cons c cs =>
      by_cases h1 : c = c!"-"
      · subst h1
        simp only [Result.parseInt64, if_true]
        rw [if_pos (key cs fun n hn => h ⟨_, .minus hn⟩)]; rfl
      · by_cases h2 : c = c!"+"
        · subst h2
          simp only [Result.parseInt64, h1, if_false, if_true]
          rw [if_pos (key cs fun n hn => h ⟨_, .plus hn⟩)]; rfl
        · simp only [Result.parseInt64, h1, h2, if_false]
          rw [if_pos (key (c :: cs) fun n hn => h ⟨_, .plain hn⟩)]; rfl

example : (Result.ofAttr b!"-042").toInt = -42 ∧ DecimalInt b!"-042" (-42) :=
  ⟨by decide +kernel, .minus (n := 42) (.snoc (j := 4) (.snoc (j := 0) (.digit 48 (by decide)) (d := 52) (by decide)) (d := 50) (by decide))⟩
example : (Result.ofAttr b!"9223372036854775808").toInt = 0 := by decide +kernel

/-- C37: a count is its own Int. -/
theorem C37_int_count (n : Nat) (h : n < 2 ^ 63) : (Result.ofCount n).toInt = n := by
  simp only [Result.ofCount, Result.toInt, Result.typ, Result.num, Result.truncInt64]
  have h0 : (0 : Rat) ≤ (n : Rat) := by exact_mod_cast Nat.zero_le n
  rw [if_pos h0]
  have hf : (n : Rat).floor = n := Rat.floor_intCast (n : Int)
  rw [hf, if_pos (by omega)]

/-- C37: missing results and arrays have Int 0, Bool false. -/
theorem C37_default (r : Result) (h : r.exists? = false ∨ r.isArray = true) : r.toInt = 0 ∧ r.toBool = false := by
  obtain ⟨t, raw, s, n, l⟩ := r
  cases t <;> simp [Result.isArray, Result.exists?, Result.typ, Result.toInt, Result.toBool] at *

/-- C37: Bool of a textual result is true for seven words, which are mapped to 1 by Int only for `1`. -/
theorem C37_bool (r : Result) (ht : IsText r) : r.toBool = true ↔
    r.str = b!"true" ∨ r.str = b!"1" ∨ r.str = b!"yes" ∨ r.str = b!"True" ∨ r.str = b!"YES" ∨ r.str = b!"t" ∨ r.str = b!"T" := by
  obtain ⟨t, raw, s, n, l⟩ := r
  rcases ht with h | h | h <;>
    (simp only [Result.typ] at h; subst h; simp only [Result.toBool, Result.typ, Result.str, List.contains_eq_mem, decide_eq_true_eq, List.mem_cons, List.not_mem_nil, or_false])

/-- C37: Value is nil exactly for missing results, the text for textual ones, the items for arrays. -/
theorem C37_value (r : Result) : (r.value = .nil ↔ r.exists? = false) ∧ (IsText r → r.value = .str r.toStr) ∧ (r.isArray = true → r.value = .results r.array) := by
  obtain ⟨t, raw, s, n, l⟩ := r
  cases t <;> simp [Result.value, IsText, Result.toStr, Result.isArray, Result.exists?, Result.typ, Result.str, Result.array, Result.results]

/-- C37: a result of type True or False is that through Bool and Value. -/
theorem C37_truth (pf : Bytes → Option FVal) (r : Result) :
    (r.typ = .true → r.toBool = true ∧ r.value = .bool true ∧ r.toInt = 1 ∧ r.toFloat pf = .fin 1) ∧
    (r.typ = .false → r.toBool = false ∧ r.value = .bool false ∧ r.toInt = 0 ∧ r.toFloat pf = .fin 0) := by
  obtain ⟨t, raw, s, n, l⟩ := r
  cases t <;> simp [Result.toBool, Result.value, Result.typ, Result.toInt, Result.toFloat]

/-- C37: a Number result has its number as Float and as Value, and is true as Bool unless it is 0. -/
theorem C37_number (pf : Bytes → Option FVal) (r : Result) (h : r.typ = .number) :
    r.toFloat pf = r.num ∧ r.value = .float r.num ∧ (r.toBool = true ↔ r.num ≠ .fin 0) ∧ (∀ n : Int, r.num = .fin n → -(2 ^ 63) ≤ n → n < 2 ^ 63 → r.toInt = n) := by
  obtain ⟨t, raw, s, n, l⟩ := r
  simp only [Result.typ] at h; subst h
  refine ⟨rfl, rfl, by simp only [Result.toBool, Result.typ, Result.num]; exact decide_eq_true_iff, fun m hm h1 h2 => ?_⟩
  simp only [Result.num] at hm; subst hm
  simp only [Result.toInt, Result.typ, Result.num, Result.truncInt64, Rat.floor_intCast, Rat.ceil_intCast, ite_self]
  rw [if_pos ⟨h1, h2⟩]

theorem natDec_decimal (n : Nat) : Decimal (natDec n) n := by
  induction n using Nat.strongRecOn with
  | _ n ih =>
    have hd : ∀ k, k < 10 → (48 ≤ UInt8.ofNat (48 + k) ∧ UInt8.ofNat (48 + k) ≤ 57) ∧ (UInt8.ofNat (48 + k)).toNat - 48 = k := by decide
    rw [natDec]
    split
    · rename_i h
      have := Decimal.digit _ (hd n h).1
      rwa [(hd n h).2] at this
    · have hk := hd (n % 10) (by omega)
      have := Decimal.snoc (ih (n / 10) (by omega)) hk.1
      rw [hk.2] at this
      rwa [show 10 * (n / 10) + n % 10 = n by omega] at this

/-- C37: so a count is the same number through Int, Float, Value and String. -/
theorem C37_count (pf : Bytes → Option FVal) (n : Nat) (h : n < 2 ^ 63) : (Result.ofCount n).toInt = n ∧ (Result.ofCount n).toFloat pf = .fin n ∧
    (Result.ofCount n).value = .float (.fin n) ∧ Decimal (Result.ofCount n).toStr n ∧ (Result.ofCount n).exists? = true := by
  obtain ⟨h1, h2, -, -⟩ := C37_number pf (Result.ofCount n) rfl
  refine ⟨C37_int_count n h, h1, h2, ?_, rfl⟩
  rw [(C37_string_single _).2 rfl rfl]
  exact natDec_decimal n

/-- C37: Float of a textual result is what ParseFloat reads, 0 if it is no number; of missing results and arrays it is 0. -/
theorem C37_float (pf : Bytes → Option FVal) (r : Result) : (IsText r → r.toFloat pf = (pf r.str).getD (.fin 0)) ∧
    (r.exists? = false ∨ r.isArray = true → r.toFloat pf = .fin 0) := by
  obtain ⟨t, raw, s, n, l⟩ := r
  cases t <;> simp [Result.toFloat, IsText, Result.isArray, Result.exists?, Result.typ, Result.str]

example : (Result.ofCount 12).toFloat (fun _ => none) = .fin 12 ∧ (Result.ofCount 12).toStr = b!"12" ∧ (Result.ofCount 0).toBool = false := by decide +kernel

end Verif.Props
