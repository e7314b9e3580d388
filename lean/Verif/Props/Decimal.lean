import Verif.Lemmas.Float
import Verif.Props.Filter
import Verif.Props.SetTyped
import Verif.Props.Modifier
/- Decimal numbers: what filters, @sort, Float and Set with a float do with them, given that ParseFloat rounds to the nearest float64 (C12, C33, C37, C50). -/
namespace Verif
open Spec

theorem takeWhile_until (p : UInt8 → Bool) (a b : Bytes) (ha : ∀ c ∈ a, p c = true) (hb : ∀ c, b.head? = some c → p c = false) :
    (a ++ b).takeWhile p = a := by
  induction a with
  | nil => cases b with
    | nil => rfl
    | cons c b => simp [hb c rfl]
  | cons c a ih => simp [ha c (by simp), ih (fun d hd => ha d (by simp [hd]))]

theorem numeralValue_of {s : Bytes} {n : Nat} {q : Rat} (h : Numeral s n q) : numeralValue s = some q := by
  obtain ⟨sg, w, dt, f, rfl, hs, hd, hc, hl, hn, hq⟩ := h
  have hdig : ∀ c ∈ w ++ f, c ≠ c!"." ∧ c ≠ c!"-" ∧ c ≠ c!"+" := by
    intro c hc'
    have := hc c hc'
    refine ⟨?_, ?_, ?_⟩ <;> rintro rfl <;> revert this <;> decide
  have hhead : ∀ c, (w ++ dt ++ f).head? = some c → c ≠ c!"-" ∧ c ≠ c!"+" := by
    intro c h
    cases w with
    | cons x w => simp at h; subst h; exact (hdig _ (by simp)).2
    | nil =>
      rcases hd with ⟨rfl, rfl⟩ | rfl
      · simp at h
      · simp at h; subst h; decide
  have hrest : (if (sg ++ w ++ dt ++ f).head? = some c!"-" ∨ (sg ++ w ++ dt ++ f).head? = some c!"+" then (sg ++ w ++ dt ++ f).drop 1 else sg ++ w ++ dt ++ f) = w ++ dt ++ f ∧
      ((sg ++ w ++ dt ++ f).head? = some c!"-" ↔ sg = b!"-") := by
    rcases hs with rfl | rfl | rfl
    · constructor
      · rw [if_neg]
        · simp
        · rintro (h | h)
          · exact (hhead _ (by simpa using h)).1 rfl
          · exact (hhead _ (by simpa using h)).2 rfl
      · constructor
        · intro h; exact absurd rfl (hhead _ (by simpa using h)).1
        · intro h; cases h
    · exact ⟨by simp, by simp⟩
    · exact ⟨by simp, by simp⟩
  have htw : (w ++ dt ++ f).takeWhile (· ≠ c!".") = w := by
    rw [List.append_assoc]
    refine takeWhile_until _ w _ (fun c h => by simpa using (hdig c (by simp [h])).1) ?_
    intro c h
    rcases hd with ⟨rfl, rfl⟩ | rfl
    · simp at h
    · simp at h; subst h; decide
  have hpart : ((w ++ dt ++ f).drop w.length).drop 1 = f := by
    rcases hd with ⟨rfl, rfl⟩ | rfl <;> simp
  unfold numeralValue
  simp only
  rw [hrest.1, htw, hpart, if_pos ⟨by intro h; rw [h] at hl; simp at hl; omega, hc⟩]
  have hP : (10 : Rat) ^ f.length ≠ 0 := Rat.ne_of_gt (Rat.pow_pos (by decide))
  have e : ∀ a : Rat, q * 10 ^ f.length = a → a / 10 ^ f.length = q := by
    rintro a rfl
    exact Rat.mul_div_cancel hP
  congr 1
  refine e _ (hq.trans ?_)
  by_cases hm : sg = b!"-"
  · rw [if_pos hm, if_pos (hrest.2.2 hm), Rat.intCast_neg]; rfl
  · rw [if_neg hm, if_neg (fun h => hm (hrest.2.1 h))]; rfl

theorem parse64_reads : ReadsNumerals parse64 round64 :=
  ⟨round64_rounds, fun s n q h _ => by simp [parse64, numeralValue_of h]⟩

theorem numeral_shape {s : Bytes} {n : Nat} {q : Rat} (h : Numeral s n q) : NumericShape s := by
  obtain ⟨sg, w, dt, f, rfl, hs, hd, hc, hl, hn, hq⟩ := h
  refine ⟨sg, w ++ dt ++ f, [], by simp, ?_, ?_, ?_, ?_, .inl rfl⟩
  · rcases hs with h | h | h <;> simp [h]
  · intro c h
    rcases hd with ⟨rfl, rfl⟩ | rfl
    · exact .inl (hc c (by simpa using h))
    · simp only [List.mem_append, List.mem_singleton] at h
      rcases h with (h | h) | h
      · exact .inl (hc c (by simp [h]))
      · exact .inr h
      · exact .inl (hc c (by simp [h]))
  · have hz : ∀ l : Bytes, (∀ c ∈ l, 48 ≤ c ∧ c ≤ 57) → l.count c!"." = 0 := by
      intro l hl
      refine List.count_eq_zero.2 (fun h => ?_)
      have := hl _ h
      revert this; decide
    rw [List.count_append, List.count_append, hz w (fun c h => hc c (by simp [h])), hz f (fun c h => hc c (by simp [h]))]
    rcases hd with ⟨rfl, rfl⟩ | rfl <;> decide
  · cases hwf : w ++ f with
    | nil => rw [hwf] at hl; simp at hl; omega
    | cons x r =>
      have hx : x ∈ w ++ f := by rw [hwf]; simp
      refine ⟨x, ?_, hc x hx⟩
      simp only [List.mem_append] at hx ⊢
      rcases hx with h | h
      · exact .inl (.inl h)
      · exact .inr h

theorem numeral_number {pf : Bytes → Option FVal} {rnd : Rat → Rat} (hpf : ReadsNumerals pf rnd) {s : Bytes} {n : Nat} {q : Rat} (h : Numeral s n q)
    (h1 : Moderate q) (x : Rat) : NumberIs pf s x ↔ x = rnd q := by
  constructor
  · rintro ⟨-, h3⟩
    rw [hpf.2 s n q h h1] at h3
    injection h3 with h3; injection h3 with h3; exact h3.symm
  · rintro rfl
    exact ⟨numeral_shape h, hpf.2 s n q h h1⟩

theorem tested_unique {p : Bytes} {nd : Node} {a b : Option Bytes} (h : Tested p nd a) (h' : Tested p nd b) : a = b := by
  cases h with
  | attr k =>
    generalize hp : c!"@" :: k = p at h'
    cases h' with
    | attr k' => simp only [List.cons.injEq, true_and] at hp; subst hp; rfl
    | path pre n _ hpl _ =>
      have := pathOf_not_at hpl
      rw [← hp] at this
      simp [hasPrefix, List.isPrefixOf] at this
  | path pre n _ hp _ =>
    generalize hq : pathOf (pre ++ [n]) = p at h'
    cases h' with
    | attr k =>
      have := pathOf_not_at hp
      rw [hq] at this
      simp [hasPrefix, List.isPrefixOf] at this
    | path pre' n' _ hpl _ =>
      have e := congrArg splitPath hq
      have hnn : ∀ (q : List Bytes) (m : Bytes), (∀ x ∈ q ++ [m], PlainName x) → q ++ [m] ≠ [[]] := by
        intro q m hq e
        exact (hq [] (by rw [e]; simp)).nonempty rfl
      rw [splitPath_pathOf _ (hnn _ _ hp), splitPath_pathOf _ (hnn _ _ hpl)] at e
      obtain ⟨rfl, e2⟩ := List.append_inj' e rfl
      simp only [List.cons.injEq, and_true] at e2
      subst e2
      rfl

end Verif

namespace Verif.Props
open Spec

/-- C12: two numerals of at most 15 digits are compared by a filter exactly as the decimal numbers they stand for. -/
theorem C12_decimal {pf : Bytes → Option FVal} {rnd : Rat → Rat} (hpf : ReadsNumerals pf rnd) {a v : Bytes} {n n' : Nat} {x y : Rat}
    (ha : Numeral a n x) (hv : Numeral v n' y) (hn : n ≤ 15) (hn' : n' ≤ 15) :
    (Holds pf .lt v (some a) ↔ x < y) ∧ (Holds pf .gt v (some a) ↔ x > y) ∧ (Holds pf .le v (some a) ↔ x ≤ y) ∧ (Holds pf .ge v (some a) ↔ x ≥ y) := by
  obtain ⟨d, c, -, hq, hc⟩ := numeral_grid ha hn
  obtain ⟨d', c', -, hq', hc'⟩ := numeral_grid hv hn'
  have k1 := numeral_number hpf ha (grid_bound hq (by omega))
  have k2 := numeral_number hpf hv (grid_bound hq' (by omega))
  have l1 := numeral_lt hpf.1 ha hv hn hn'
  have l2 := numeral_lt hpf.1 hv ha hn' hn
  have key : ∀ R : Rat → Rat → Prop, (∃ x y, NumberIs pf a x ∧ NumberIs pf v y ∧ R x y) ↔ R (rnd x) (rnd y) := by
    intro R
    constructor
    · rintro ⟨x', y', h1, h2, h3⟩
      rw [(k1 x').1 h1, (k2 y').1 h2] at h3
      exact h3
    · intro h
      exact ⟨_, _, (k1 _).2 rfl, (k2 _).2 rfl, h⟩
  refine ⟨?_, ?_, ?_, ?_⟩
  · exact (key (· < ·)).trans l1
  · exact (key (· > ·)).trans l2
  · refine (key (· ≤ ·)).trans ?_
    rw [← Rat.not_lt, ← Rat.not_lt, l2]
  · refine (key (· ≥ ·)).trans ?_
    show rnd y ≤ rnd x ↔ y ≤ x
    rw [← Rat.not_lt, ← Rat.not_lt, l1]

/-- C12: numerals of any length are never compared the wrong way round: < and > hold only if they hold of the numbers, and <= and >= whenever they hold of the numbers. -/
theorem C12_decimal_long {pf : Bytes → Option FVal} {rnd : Rat → Rat} (hpf : ReadsNumerals pf rnd) {a v : Bytes} {n n' : Nat} {x y : Rat}
    (ha : Numeral a n x) (hv : Numeral v n' y) (h1 : Moderate x) (h2 : Moderate y) :
    (Holds pf .lt v (some a) → x < y) ∧ (Holds pf .gt v (some a) → x > y) ∧ (x ≤ y → Holds pf .le v (some a)) ∧ (x ≥ y → Holds pf .ge v (some a)) := by
  have k1 := numeral_number hpf ha h1
  have k2 := numeral_number hpf hv h2
  have m1 := @rounds_mono rnd hpf.1 x y h1 h2
  have m2 := @rounds_mono rnd hpf.1 y x h2 h1
  refine ⟨?_, ?_, ?_, ?_⟩
  · rintro ⟨x', y', e1, e2, e3⟩
    rw [(k1 x').1 e1, (k2 y').1 e2] at e3
    exact Rat.not_le.1 (fun h => Rat.not_lt.2 (m2 h) e3)
  · rintro ⟨x', y', e1, e2, e3⟩
    rw [(k1 x').1 e1, (k2 y').1 e2] at e3
    exact Rat.not_le.1 (fun h => Rat.not_lt.2 (m1 h) e3)
  · intro h
    exact ⟨_, _, (k1 _).2 rfl, (k2 _).2 rfl, m1 h⟩
  · intro h
    exact ⟨_, _, (k1 _).2 rfl, (k2 _).2 rfl, m2 h⟩

/-- C12: a numeric filter on elements whose tested values are numerals of at most 15 digits selects exactly those whose number stands in the relation. -/
theorem C12_select (env : Env) (ho : env.ord.IsPerm) {rnd : Rat → Rat} (hpf : ReadsNumerals env.parseFloat rnd) (xml : Bytes) (i : Info) (h : Says xml i)
    (pre : List Bytes) (n : Bytes) (hp : ∀ m ∈ pre ++ [n], PlainName m) (hl : pre.length < 99)
    {expr p v : Bytes} {op : FilterOp} (hc : CondText expr p op v) (ht : Testable p) {d : Nat} {y : Rat} (hv : Numeral v d y) (hd : d ≤ 15)
    (num : Node → Rat) (hnum : ∀ nd ∈ i.select pre n, ∃ a m, Tested p nd (some a) ∧ Numeral a m (num nd) ∧ m ≤ 15) (rel : Rat → Rat → Bool)
    (hop : (op = .lt ∧ rel = fun x y => decide (x < y)) ∨ (op = .gt ∧ rel = fun x y => decide (x > y)) ∨
      (op = .le ∧ rel = fun x y => decide (x ≤ y)) ∨ (op = .ge ∧ rel = fun x y => decide (x ≥ y))) :
    match (i.reach pre).find? (fun k => !(((k.named n).take 1000).filter (fun nd => rel (num nd) y)).isEmpty) with
    | none => get env xml (pathOf (pre ++ [n] ++ [filterPart expr true])) = .ret .null
    | some k => ∃ r, get env xml (pathOf (pre ++ [n] ++ [filterPart expr true])) = .ret r ∧
        IsArrayOf IsElement r (((k.named n).take 1000).filter (fun nd => rel (num nd) y)) := by
  classical
  have h1 := C11_filter_all env ho xml i h pre n hp hl hc ht (fun nd => decide (Satisfies env.parseFloat p op v nd)) (fun nd => by simp)
  have key : ∀ k ∈ i.reach pre, ((k.named n).take 1000).filter (fun nd => decide (Satisfies env.parseFloat p op v nd)) =
      ((k.named n).take 1000).filter (fun nd => rel (num nd) y) := by
    intro k hk
    refine List.filter_congr (fun nd hnd => ?_)
    obtain ⟨a, m, ha, hm, hm15⟩ := hnum nd (by rw [Info.select, List.mem_flatMap]; exact ⟨k, hk, List.mem_of_mem_take hnd⟩)
    obtain ⟨c1, c2, c3, c4⟩ := C12_decimal hpf hm hv hm15 hd
    have e : Satisfies env.parseFloat p op v nd ↔ Holds env.parseFloat op v (some a) := by
      constructor
      · rintro ⟨b, hb, hh⟩
        rw [tested_unique ha hb]; exact hh
      · intro hh; exact ⟨_, ha, hh⟩
    rw [Bool.eq_iff_iff, decide_eq_true_eq, e]
    rcases hop with ⟨rfl, rfl⟩ | ⟨rfl, rfl⟩ | ⟨rfl, rfl⟩ | ⟨rfl, rfl⟩
    · simpa using c1
    · simpa using c2
    · simpa using c3
    · simpa using c4
  have e : (i.reach pre).find? (fun k => !(((k.named n).take 1000).filter (fun nd => decide (Satisfies env.parseFloat p op v nd))).isEmpty) =
      (i.reach pre).find? (fun k => !(((k.named n).take 1000).filter (fun nd => rel (num nd) y)).isEmpty) := by
    generalize i.reach pre = l at key
    induction l with
    | nil => rfl
    | cons k l ih =>
      simp only [List.find?_cons, key k (by simp)]
      rw [ih (fun k' hk' => key k' (by simp [hk']))]
  rw [e] at h1
  revert h1
  cases hf : (i.reach pre).find? (fun k => !(((k.named n).take 1000).filter (fun nd => rel (num nd) y)).isEmpty) with
  | none => exact id
  | some k =>
    simp only
    rw [key k (List.mem_of_find?_eq_some hf)]
    exact id

/-- An environment whose ParseFloat rounds like IEEE 754 (ties to even). -/
def roundEnv : Env := ⟨fun _ a => a, fun _ => none, parse64⟩

theorem numeral_of {s sign whole dot part : Bytes} {q : Rat} (h1 : s = sign ++ whole ++ dot ++ part) (h2 : sign = [] ∨ sign = b!"+" ∨ sign = b!"-")
    (h3 : (dot = [] ∧ part = []) ∨ dot = b!".") (h4 : ∀ c ∈ whole ++ part, 48 ≤ c ∧ c ≤ 57) (h5 : (whole ++ part).length ≠ 0)
    (h6 : q * 10 ^ part.length = (if sign = b!"-" then -(digitsNat (whole ++ part) : Int) else (digitsNat (whole ++ part) : Int) : Int)) :
    Numeral s (whole ++ part).length q := ⟨sign, whole, dot, part, h1, h2, h3, h4, rfl, h5, h6⟩

example : ReadsNumerals roundEnv.parseFloat round64 := parse64_reads
example : Numeral b!"44.99" 4 (4499 / 100) := numeral_of (whole := b!"44") (dot := b!".") (part := b!"99") rfl (.inl rfl) (.inr rfl) (by decide) (by decide) (by decide +kernel)
example : Numeral b!"-.5" 1 (-1 / 2) := numeral_of (sign := b!"-") (whole := []) (dot := b!".") (part := b!"5") rfl (.inr (.inr rfl)) (.inr rfl) (by decide) (by decide) (by decide +kernel)
/-- 44.99 is not a float64, nor is 44.990: both are read as the same one. -/
example : parse64 b!"44.99" = parse64 b!"+044.990" ∧ parse64 b!"44.99" ≠ some (.fin (4499 / 100)) := by decide +kernel
example : get roundEnv b!"<r><x p=\"44.99\">a</x><x p=\"45\">b</x><x p=\"-7.5\">c</x></r>" b!"r.x.#(@p<44\\.991)#" =
    .ret (.ofArray [.ofContent b!"a", .ofContent b!"c"]) := by decide +kernel

/-- C12: 15 digits are needed. 2^53 and 2^53 + 1 (16 digits) are neither less nor greater than each other, so the filter for more than 2^53 misses 2^53 + 1. -/
theorem C12_digits : Numeral b!"9007199254740993" 16 9007199254740993 ∧ Numeral b!"9007199254740992" 16 9007199254740992 ∧
    parse64 b!"9007199254740993" = parse64 b!"9007199254740992" ∧
    get roundEnv b!"<r><x p=\"9007199254740993\">a</x></r>" b!"r.x.#(@p>9007199254740992)#" = .ret .null ∧
    get roundEnv b!"<r><x p=\"9007199254740993\">a</x></r>" b!"r.x.#(@p<=9007199254740992)#" = .ret (.ofArray [.ofContent b!"a"]) :=
  ⟨numeral_of (whole := b!"9007199254740993") (dot := []) (part := []) rfl (.inl rfl) (.inl ⟨rfl, rfl⟩) (by decide) (by decide) (by decide +kernel),
   numeral_of (whole := b!"9007199254740992") (dot := []) (part := []) rfl (.inl rfl) (.inl ⟨rfl, rfl⟩) (by decide) (by decide) (by decide +kernel),
   by decide +kernel, by decide +kernel, by decide +kernel⟩

/-- C12: == and != compare texts, not numbers, so equal numbers written differently are less-or-equal, greater-or-equal and unequal. -/
theorem C12_equal_text : get roundEnv b!"<r><x p=\"10.0\">a</x></r>" b!"r.x.#(@p==10)#" = .ret .null ∧
    get roundEnv b!"<r><x p=\"10.0\">a</x></r>" b!"r.x.#(@p!=10)#" = .ret (.ofArray [.ofContent b!"a"]) ∧
    get roundEnv b!"<r><x p=\"10.0\">a</x></r>" b!"r.x.#(@p<=10)#" = .ret (.ofArray [.ofContent b!"a"]) ∧
    get roundEnv b!"<r><x p=\"10.0\">a</x></r>" b!"r.x.#(@p>=10)#" = .ret (.ofArray [.ofContent b!"a"]) := by decide +kernel

/-- C33: @sort puts elements whose texts are numerals of at most 15 digits in the order of the numbers. -/
theorem C33_sort_decimal (srt : Sorter) (hs : SortContract srt) {pf : Bytes → Option FVal} {rnd : Rat → Rat} (hpf : ReadsNumerals pf rnd) (r : Result)
    (h : r.isArray = true) (num : Result → Rat)
    (hnum : ∀ x ∈ r.array, (x.typ = .string ∨ x.typ = .element ∨ x.typ = .attribute) ∧ ∃ m, Numeral x.str m (num x) ∧ m ≤ 15) :
    (sortMod srt pf r).array.Perm r.array ∧ (sortMod srt pf r).array.Pairwise (fun a b => num a ≤ num b) := by
  have key : ∀ x ∈ r.array, numberOf pf x = some (.fin (rnd (num x))) := by
    intro x hx
    obtain ⟨ht, m, hm, h15⟩ := hnum x hx
    obtain ⟨d, c, -, hq, hc⟩ := numeral_grid hm h15
    have hne : x.typ ≠ .number := by rcases ht with e | e | e <;> rw [e] <;> decide
    rw [numberOf, if_neg hne, if_pos ht]
    exact hpf.2 _ _ _ hm (grid_bound hq (by omega))
  have hp := (C33_sort_perm srt hs pf r).2
  refine ⟨hp, ?_⟩
  have h2 := C33_sort_numeric srt hs pf r h (fun x hx => ⟨_, key x hx, by simp⟩)
  refine List.Pairwise.imp_of_mem ?_ h2
  intro a b ha hb hab
  have ha' := hp.mem_iff.1 ha
  have hb' := hp.mem_iff.1 hb
  obtain ⟨-, m, hm, h15⟩ := hnum a ha'
  obtain ⟨-, m', hm', h15'⟩ := hnum b hb'
  have h3 := hab _ _ (key a ha') (key b hb')
  refine Rat.not_lt.1 (fun hlt => h3 (.fin ?_))
  exact (numeral_lt hpf.1 hm' hm h15' h15).2 hlt

/-- The hypothesis about the numbers is needed: a text read as NaN is neither below nor above, and then the comparison is not an order. -/
theorem C33_sort_nan : ¬ StrictWeakOn (sortLess (fun s => if s = b!"nan" then some .nan else parse64 s) [.ofAttr b!"2", .ofAttr b!"nan", .ofAttr b!"1"])
    [.ofAttr b!"2", .ofAttr b!"nan", .ofAttr b!"1"] := by
  intro h
  have := (h.incomp (.ofAttr b!"2") (by simp) (.ofAttr b!"nan") (by simp) (.ofAttr b!"1") (by simp) (by decide +kernel) (by decide +kernel) (by decide +kernel) (by decide +kernel)).2
  revert this
  decide +kernel

/-- C37: Float of a text that is a numeral is a nearest float64 to the number, and the number itself if a float64 can hold it. A text ParseFloat rejects has Float 0. -/
theorem C37_float_decimal {pf : Bytes → Option FVal} {rnd : Rat → Rat} (hpf : ReadsNumerals pf rnd) (r : Result) (ht : r.typ = .string ∨ r.typ = .element ∨ r.typ = .attribute) :
    (∀ n q, Numeral r.str n q → Moderate q → ∃ x, r.toFloat pf = .fin x ∧ Nearest q x ∧ (IsFloat q → x = q)) ∧ (pf r.str = none → r.toFloat pf = .fin 0) := by
  have e : r.toFloat pf = (pf r.str).getD (.fin 0) := by
    obtain ⟨t, raw, s, n, l⟩ := r
    rcases ht with h | h | h <;> (simp only [Result.typ] at h; subst h; rfl)
  refine ⟨fun n q hn hq => ⟨rnd q, ?_, hpf.1 q hq, fun hf => ?_⟩, fun h => by rw [e, h]; rfl⟩
  · rw [e, hpf.2 _ _ _ hn hq]; rfl
  · have := (hpf.1 q hq).2 q hf
    unfold gap at this
    grind

/-- Whole numbers below 2^53 are float64s. -/
theorem isFloat_int (i : Int) (h : i.natAbs < 2 ^ 53) : IsFloat i := by
  refine ⟨i, 1074, h, by omega, ?_⟩
  rw [Rat.intCast_mul, Rat.intCast_pow]
  rfl

/-- C50: a float written by Set at a path of names (as the text that %g gives) has the Float that ParseFloat makes of that text, with any options. -/
theorem C50_set_float (opts : Options) (hi : c!"<" ∉ opts.indent) (env : Env) (ho : env.ord.IsPerm) (f : Forest) (h : Editable f) (ns : List Bytes) (n : Bytes) (hn : ∀ m ∈ ns ++ [n], IsName m)
    (hl : ns.length < 100) (hsc : ∀ c e, f = c.plug (El.cons e .nil) → LeadsBy opts.caseSensitive (firsts (ns ++ [n])) c e.name → e.body ≠ none)
    (t : Bytes) (ht : ∀ c ∈ t, c ∈ b!"0123456789+-.eEINafn") (htl : t.length ≤ 5000000) (x : FVal) (hx : env.parseFloat t = some x) :
    ∃ r, setWithOptions env.ord f.render (pathOf (ns ++ [n])) (.float t) (some opts) = .ret (r, none) ∧
      (r.length ≤ 10485760 → ∃ a, getWithOptions env r (pathOf (ns ++ [n])) (some opts) = .ret a ∧ a.exists? = true ∧ a.toFloat env.parseFloat = x) := by
  have hd : Dull t := by
    intro c hc
    have := ht c hc
    revert this
    have key : ∀ c ∈ b!"0123456789+-.eEINafn", 33 ≤ c ∧ c ≤ 122 ∧ c ≠ c!"<" ∧ c ≠ c!">" ∧ c ≠ c!"&" ∧ c ≠ c!"\"" ∧ c ≠ c!"'" := by decide
    exact key c
  obtain ⟨r, g1, g2⟩ := C49_set_get opts hi env ho f h ns n hn hl hsc t (by rw [dull_escape hd]; omega)
  refine ⟨r, ?_, fun hr => ?_⟩
  · rw [← g1]
    exact value_alike _ _ _ _ _ _ (by simp only [valueToXML, dull_escape hd]) (by simp) (by simp)
  · obtain ⟨a, a1, a2, a3⟩ := g2 hr
    refine ⟨a, a1, ?_, ?_⟩
    · obtain ⟨t, raw, s, n, l⟩ := a
      simp only [Result.typ] at a2; subst a2; rfl
    · rw [dull_trim hd, str_of_element a2] at a3
      obtain ⟨ty, raw, s, n, l⟩ := a
      simp only [Result.typ] at a2; subst a2
      simp only [Result.str] at a3; subst a3
      simp [Result.toFloat, Result.typ, Result.str, hx]

example : set roundEnv.ord b!"<r><n>x</n></r>" b!"r.n" (.float b!"-0.5") = .ret (b!"<r><n>-0.5</n></r>", none) ∧
    (∃ a, get roundEnv b!"<r><n>-0.5</n></r>" b!"r.n" = .ret a ∧ a.toFloat roundEnv.parseFloat = .fin (-1 / 2)) :=
  ⟨by decide +kernel, .mk .element b!"-0.5" b!"-0.5" (.fin 0) [], by decide +kernel⟩

end Verif.Props
