import Verif.Lemmas.Step
import Verif.Spec.Value
/- Lemmas about result accessors: UTF-8, quoting, decimal text. -/
namespace Verif
open Spec

theorem ofNat_toNat {n : Nat} (h : n < 256) : (UInt8.ofNat n).toNat = n := by simp [UInt8.toNat_ofNat']; omega

theorem char_range (ch : Char) : ch.val.toNat < 0xD800 ∨ (0xDFFF < ch.val.toNat ∧ ch.val.toNat < 0x110000) := by
  have := ch.valid
  simpa [UInt32.isValidChar, Nat.isValidChar] using this

theorem encodeRune_char (ch : Char) : encodeRune ch.val.toNat = String.utf8EncodeChar ch := by
  have h := char_range ch
  unfold encodeRune String.utf8EncodeChar
  simp only
  generalize ch.val.toNat = v at *
  by_cases h1 : v < 0x80
  · rw [if_pos h1, if_pos (show v ≤ 0x7f by omega)]
  · rw [if_neg h1, if_neg (show ¬ v ≤ 0x7f by omega)]
    by_cases h2 : v < 0x800
    · rw [if_pos h2, if_pos (show v ≤ 0x7ff by omega), Nat.mod_eq_of_lt (a := v / 64) (by omega)]
      simp only [Nat.add_comm]
    · rw [if_neg h2, if_neg (show ¬ v ≤ 0x7ff by omega)]
      by_cases h3 : v < 0x10000
      · rw [if_pos h3, if_pos (show v ≤ 0xffff by omega), Nat.mod_eq_of_lt (a := v / 4096) (by omega)]
        simp only [Nat.add_comm]
      · rw [if_neg h3, if_neg (show ¬ v ≤ 0xffff by omega), Nat.mod_eq_of_lt (a := v / 262144) (by omega)]
        simp only [Nat.add_comm]

theorem le_ofNat {n : Nat} (h : n < 256) (k : UInt8) : k ≤ UInt8.ofNat n ↔ k.toNat ≤ n := by
  rw [UInt8.le_iff_toNat_le, ofNat_toNat h]
theorem ofNat_le {n : Nat} (h : n < 256) (k : UInt8) : UInt8.ofNat n ≤ k ↔ n ≤ k.toNat := by
  rw [UInt8.le_iff_toNat_le, ofNat_toNat h]
theorem ofNat_lt {n : Nat} (h : n < 256) (k : UInt8) : UInt8.ofNat n < k ↔ n < k.toNat := by
  rw [UInt8.lt_iff_toNat_lt, ofNat_toNat h]
theorem ofNat_eq {n : Nat} (h : n < 256) (k : UInt8) : UInt8.ofNat n = k ↔ n = k.toNat := by
  rw [← UInt8.toNat_inj, ofNat_toNat h]

theorem isCont_ofNat (n : Nat) : isCont (UInt8.ofNat (0x80 + n % 64)) = true := by
  simp only [isCont, le_ofNat (n := 0x80 + n % 64) (by omega), ofNat_le (n := 0x80 + n % 64) (by omega), Bool.and_eq_true, decide_eq_true_eq]
  have : UInt8.toNat 0x80 = 128 := rfl
  have : UInt8.toNat 0xBF = 191 := rfl
  omega

/-- Decoding undoes encoding. -/
theorem decodeRune_encode (v : Nat) (h : v < 0xD800 ∨ (0xDFFF < v ∧ v < 0x110000)) (r : Bytes) :
    ∃ c cs, encodeRune v ++ r = c :: cs ∧ decodeRune c cs = (v, r) := by
  have e : ∀ k : Nat, k < 256 → (OfNat.ofNat k : UInt8).toNat = k := fun k hk => ofNat_toNat hk
  have t80 : UInt8.toNat 0x80 = 0x80 := rfl
  have tC2 : UInt8.toNat 0xC2 = 0xC2 := rfl
  have tDF : UInt8.toNat 0xDF = 0xDF := rfl
  have tE0 : UInt8.toNat 0xE0 = 0xE0 := rfl
  have tED : UInt8.toNat 0xED = 0xED := rfl
  have tEF : UInt8.toNat 0xEF = 0xEF := rfl
  have tF0 : UInt8.toNat 0xF0 = 0xF0 := rfl
  have tF4 : UInt8.toNat 0xF4 = 0xF4 := rfl
  have tA0 : UInt8.toNat 0xA0 = 0xA0 := rfl
  have tBF : UInt8.toNat 0xBF = 0xBF := rfl
  have t9F : UInt8.toNat 0x9F = 0x9F := rfl
  have t90 : UInt8.toNat 0x90 = 0x90 := rfl
  have t8F : UInt8.toNat 0x8F = 0x8F := rfl
  unfold encodeRune
  by_cases h1 : v < 0x80
  · rw [if_pos h1]
    refine ⟨_, _, rfl, ?_⟩
    rw [decodeRune.eq_def, if_pos (by rw [ofNat_lt (by omega)]; omega), ofNat_toNat (by omega)]; rfl
  · rw [if_neg h1]
    by_cases h2 : v < 0x800
    · rw [if_pos h2]
      refine ⟨_, _, rfl, ?_⟩
      rw [decodeRune.eq_def, if_neg (by rw [ofNat_lt (by omega)]; omega),
        if_pos (by simp only [le_ofNat (n := 0xC0 + v / 64) (by omega), ofNat_le (n := 0xC0 + v / 64) (by omega), Bool.and_eq_true, decide_eq_true_eq]; omega)]
      simp only [List.append_eq, List.cons_append, List.nil_append]
      rw [if_pos (isCont_ofNat v), ofNat_toNat (by omega), ofNat_toNat (by omega)]
      refine Prod.ext ?_ rfl; show _ = v; omega
    · rw [if_neg h2]
      by_cases h3 : v < 0x10000
      · rw [if_pos h3]
        refine ⟨_, _, rfl, ?_⟩
        have a1 : 0xE0 + v / 4096 < 256 := by omega
        have a2 : 0x80 + v / 64 % 64 < 256 := by omega
        rw [decodeRune.eq_def, if_neg (by rw [ofNat_lt (by omega)]; omega),
          if_neg (by simp only [le_ofNat a1, ofNat_le a1, Bool.and_eq_true, decide_eq_true_eq]; omega),
          if_pos (by simp only [le_ofNat a1, ofNat_le a1, Bool.and_eq_true, decide_eq_true_eq]; omega)]
        simp only [List.append_eq, List.cons_append, List.nil_append]
        rw [if_pos]
        · rw [ofNat_toNat a1, ofNat_toNat a2, ofNat_toNat (by omega)]
          refine Prod.ext ?_ rfl; show _ = v; omega
        · rw [isCont_ofNat v, Bool.and_true]
          split
          · rename_i hc; rw [ofNat_eq a1] at hc
            simp only [le_ofNat a2, ofNat_le a2, Bool.and_eq_true, decide_eq_true_eq]; omega
          · split
            · rename_i hc; rw [ofNat_eq a1] at hc
              simp only [le_ofNat a2, ofNat_le a2, Bool.and_eq_true, decide_eq_true_eq]; omega
            · exact isCont_ofNat _
      · rw [if_neg h3]
        refine ⟨_, _, rfl, ?_⟩
        have a1 : 0xF0 + v / 262144 < 256 := by omega
        have a2 : 0x80 + v / 4096 % 64 < 256 := by omega
        rw [decodeRune.eq_def, if_neg (by rw [ofNat_lt (by omega)]; omega),
          if_neg (by simp only [le_ofNat a1, ofNat_le a1, Bool.and_eq_true, decide_eq_true_eq]; omega),
          if_neg (by simp only [le_ofNat a1, ofNat_le a1, Bool.and_eq_true, decide_eq_true_eq]; omega),
          if_pos (by simp only [le_ofNat a1, ofNat_le a1, Bool.and_eq_true, decide_eq_true_eq]; omega)]
        simp only [List.append_eq, List.cons_append, List.nil_append]
        rw [if_pos]
        · rw [ofNat_toNat a1, ofNat_toNat a2, ofNat_toNat (by omega), ofNat_toNat (by omega)]
          refine Prod.ext ?_ rfl; show _ = v; omega
        · rw [isCont_ofNat v, isCont_ofNat (v / 64), Bool.and_true, Bool.and_true]
          split
          · rename_i hc; rw [ofNat_eq a1] at hc
            simp only [le_ofNat a2, ofNat_le a2, Bool.and_eq_true, decide_eq_true_eq]; omega
          · split
            · rename_i hc; rw [ofNat_eq a1] at hc
              simp only [le_ofNat a2, ofNat_le a2, Bool.and_eq_true, decide_eq_true_eq]; omega
            · exact isCont_ofNat _

theorem runes_chars (cs : List Char) : runes (cs.flatMap String.utf8EncodeChar) = cs.map (·.val.toNat) := by
  induction cs with
  | nil => rw [List.flatMap_nil, runes]; rfl
  | cons ch cs ih =>
    obtain ⟨c, t, h1, h2⟩ := decodeRune_encode _ (char_range ch) (cs.flatMap String.utf8EncodeChar)
    rw [encodeRune_char] at h1
    rw [List.flatMap_cons, h1, runes, h2]
    simp only [ih, List.map_cons]

/-- The escaped form of one byte. -/
def escQ (c : UInt8) : Bytes := if c = c!"\"" ∨ c = c!"\\" then [c!"\\", c] else [c]

/-- Escaping rune by rune is escaping byte by byte. -/
theorem escQ_rune (v : Nat) (h : v < 0x110000) :
    (if v = 34 then b!"\\\"" else if v = 92 then b!"\\\\" else encodeRune v) = (encodeRune v).flatMap escQ := by
  have t1 : UInt8.toNat c!"\"" = 34 := rfl
  have t2 : UInt8.toNat c!"\\" = 92 := rfl
  have key : ∀ n, 0x80 ≤ n → n < 256 → escQ (UInt8.ofNat n) = [UInt8.ofNat n] := by
    intro n h1 h2
    rw [escQ, if_neg]
    rw [ofNat_eq h2, ofNat_eq h2]; omega
  by_cases h34 : v = 34
  · subst h34; rfl
  by_cases h92 : v = 92
  · subst h92; rfl
  rw [if_neg h34, if_neg h92]
  unfold encodeRune
  by_cases h1 : v < 0x80
  · rw [if_pos h1]
    simp only [List.flatMap_cons, List.flatMap_nil, List.append_nil]
    rw [escQ, if_neg]
    rw [ofNat_eq (by omega), ofNat_eq (by omega)]; omega
  · rw [if_neg h1]
    split
    · simp only [List.flatMap_cons, List.flatMap_nil, List.append_nil]
      rw [key _ (by omega) (by omega), key _ (by omega) (by omega)]; rfl
    · split
      · simp only [List.flatMap_cons, List.flatMap_nil, List.append_nil]
        rw [key _ (by omega) (by omega), key _ (by omega) (by omega), key _ (by omega) (by omega)]; rfl
      · simp only [List.flatMap_cons, List.flatMap_nil, List.append_nil]
        rw [key _ (by omega) (by omega), key _ (by omega) (by omega), key _ (by omega) (by omega), key _ (by omega) (by omega)]; rfl

theorem quoteItem_utf8 {s : Bytes} (h : Utf8 s) : Result.quoteItem s = s.flatMap escQ := by
  obtain ⟨cs, rfl⟩ := h
  rw [Result.quoteItem, runes_chars, List.flatMap_map, List.flatMap_assoc]
  congr 1; funext ch
  have := char_range ch
  rw [escQ_rune _ (by omega), encodeRune_char]

theorem joinItems_utf8 {l : List Bytes} (h : ∀ s ∈ l, Utf8 s) : Result.joinItems l = List.intercalate b!"," (l.map quoted) := by
  induction l with
  | nil => rfl
  | cons s l ih =>
    cases l with
    | nil => simp only [Result.joinItems, quoteItem_utf8 (h s (by simp))]; simp [quoted]; rfl
    | cons t r =>
      rw [Result.joinItems, quoteItem_utf8 (h s (by simp)), ih (fun x hx => h x (List.mem_cons_of_mem _ hx))]
      simp [quoted, List.intercalate]; rfl

theorem decodeRune_bound (c : UInt8) (cs : Bytes) : (decodeRune c cs).1 < 0x110000 := by
  have hc := c.toNat_lt
  have key : ∀ (b : Prop) [Decidable b] (x y : Nat × Bytes), (b → x.1 < 0x110000) → y.1 < 0x110000 → (if b then x else y).1 < 0x110000 := by
    intro b _ x y h1 h2
    split
    · exact h1 ‹_›
    · exact h2
  unfold decodeRune
  refine key _ _ _ (fun _ => by show c.toNat < _; omega) (key _ _ _ (fun h => ?_) (key _ _ _ (fun h => ?_) (key _ _ _ (fun h => ?_) (by show 0xFFFD < 0x110000; decide))))
  · simp only [Bool.and_eq_true, decide_eq_true_eq, UInt8.le_iff_toNat_le] at h
    split
    · rename_i d r
      have := d.toNat_lt
      refine key _ _ _ (fun _ => ?_) (by show 0xFFFD < 0x110000; decide)
      simp at h ⊢; omega
    · show 0xFFFD < 0x110000; decide
  · simp only [Bool.and_eq_true, decide_eq_true_eq, UInt8.le_iff_toNat_le] at h
    split
    · rename_i d e r
      have := d.toNat_lt
      have := e.toNat_lt
      refine key _ _ _ (fun _ => ?_) (by show 0xFFFD < 0x110000; decide)
      simp at h ⊢; omega
    · show 0xFFFD < 0x110000; decide
  · simp only [Bool.and_eq_true, decide_eq_true_eq, UInt8.le_iff_toNat_le] at h
    split
    · rename_i d e f r
      refine key _ _ _ (fun h2 => ?_) (by show 0xFFFD < 0x110000; decide)
      have he := e.toNat_lt
      have hf := f.toNat_lt
      rw [Bool.and_eq_true, Bool.and_eq_true] at h2
      obtain ⟨⟨h3, h4⟩, h5⟩ := h2
      have key2 : d.toNat ≤ 0xBF ∧ (c.toNat = 0xF4 → d.toNat ≤ 0x8F) := by
        split at h3
        · rename_i h6
          simp only [Bool.and_eq_true, decide_eq_true_eq, UInt8.le_iff_toNat_le] at h3
          subst h6
          simp at h3 ⊢; omega
        · split at h3
          · rename_i h6
            simp only [Bool.and_eq_true, decide_eq_true_eq, UInt8.le_iff_toNat_le] at h3
            simp at h3; omega
          · rename_i h6 h7
            simp only [isCont, Bool.and_eq_true, decide_eq_true_eq, UInt8.le_iff_toNat_le] at h3
            refine ⟨by simp at h3; omega, fun h8 => absurd (UInt8.toNat_inj.mp h8) h7⟩
      simp only [isCont, Bool.and_eq_true, decide_eq_true_eq, UInt8.le_iff_toNat_le] at h4 h5
      simp at h h4 h5 ⊢
      omega
    · show 0xFFFD < 0x110000; decide

theorem runes_bound (s : Bytes) : ∀ v ∈ runes s, v < 0x110000 := by
  fun_induction runes s with
  | case1 => simp
  | case2 c cs ih =>
    intro v hv
    rcases List.mem_cons.mp hv with rfl | hv
    · exact decodeRune_bound c cs
    · exact ih v hv

theorem quoteItem_any (s : Bytes) : Result.quoteItem s = (wellFormed s).flatMap escQ := by
  have hb := runes_bound s
  rw [Result.quoteItem, wellFormed, List.flatMap_assoc]
  generalize runes s = l at hb
  induction l with
  | nil => rfl
  | cons v l ih => rw [List.flatMap_cons, List.flatMap_cons, ih (fun x hx => hb x (by simp [hx])), escQ_rune v (hb v (by simp))]

theorem joinItems_any (l : List Bytes) : Result.joinItems l = List.intercalate b!"," ((l.map wellFormed).map quoted) := by
  induction l with
  | nil => rfl
  | cons s l ih =>
    cases l with
    | nil => simp only [Result.joinItems, quoteItem_any]; simp [quoted]; rfl
    | cons t r =>
      rw [Result.joinItems, quoteItem_any, ih]
      simp [quoted, List.intercalate]; rfl

theorem wellFormed_utf8 {s : Bytes} (h : Utf8 s) : wellFormed s = s := by
  obtain ⟨cs, rfl⟩ := h
  rw [wellFormed, runes_chars, List.flatMap_map]
  simp only [encodeRune_char]

theorem toStr_array (r : Result) (h : r.typ = .array) : r.toStr = b!"[" ++ Result.joinItems (r.results.map Result.toStr) ++ b!"]" := by
  obtain ⟨t, raw, s, n, l⟩ := r
  simp only [Result.typ] at h
  subst h
  rw [Result.toStr]
  simp [Result.results]

/-- Quoted strings can be read back: at the start of a text, the quoted string is determined. -/
theorem escQ_inj {s t : Bytes} {x y : Bytes} (h : s.flatMap escQ ++ c!"\"" :: x = t.flatMap escQ ++ c!"\"" :: y) : s = t ∧ x = y := by
  induction s generalizing t with
  | nil =>
    cases t with
    | nil => simpa using h
    | cons d t =>
      simp only [List.flatMap_nil, List.nil_append, List.flatMap_cons, escQ] at h
      split at h
      · simp at h
      · rename_i hd
        simp only [List.cons_append, List.nil_append, List.cons.injEq] at h
        exact absurd (.inl h.1.symm) hd
  | cons c s ih =>
    cases t with
    | nil =>
      simp only [List.flatMap_nil, List.nil_append, List.flatMap_cons, escQ] at h
      split at h
      · simp at h
      · rename_i hd
        simp only [List.cons_append, List.nil_append, List.cons.injEq] at h
        exact absurd (.inl h.1) hd
    | cons d t =>
      simp only [List.flatMap_cons, List.append_assoc] at h
      have hc : c = d ∧ s.flatMap escQ ++ c!"\"" :: x = t.flatMap escQ ++ c!"\"" :: y := by
        generalize s.flatMap escQ ++ c!"\"" :: x = X at h ⊢
        generalize t.flatMap escQ ++ c!"\"" :: y = Y at h ⊢
        unfold escQ at h
        split at h <;> split at h
        · simpa using h
        · rename_i _ hd
          simp only [List.cons_append, List.nil_append, List.cons.injEq] at h
          exact absurd (.inr h.1.symm) hd
        · rename_i hd _
          simp only [List.cons_append, List.nil_append, List.cons.injEq] at h
          exact absurd (.inr h.1) hd
        · simpa using h
      obtain ⟨rfl, hc⟩ := hc
      obtain ⟨rfl, h2⟩ := ih hc
      exact ⟨rfl, h2⟩

theorem quoted_inj {s t x y : Bytes} (h : quoted s ++ x = quoted t ++ y) : s = t ∧ x = y := by
  have e : ∀ s x : Bytes, quoted s ++ x = c!"\"" :: (s.flatMap escQ ++ c!"\"" :: x) := by
    intro s x
    simp only [quoted, List.append_assoc, List.cons_append, List.nil_append]
    rfl
  rw [e, e] at h
  exact escQ_inj (List.cons.inj h).2

/-- The items of a list can be read back from its text. -/
theorem listText_inj {l m : List Bytes} (h : listText l = listText m) : l = m := by
  have key : ∀ (l m : List Bytes) (x y : Bytes), List.intercalate b!"," (l.map quoted) ++ c!"]" :: x = List.intercalate b!"," (m.map quoted) ++ c!"]" :: y → l = m := by
    intro l
    induction l with
    | nil =>
      intro m x y h
      cases m with
      | nil => rfl
      | cons t m =>
        exfalso
        cases m <;> simp [List.intercalate, List.intersperse, quoted] at h
    | cons s l ih =>
      intro m x y h
      cases m with
      | nil =>
        exfalso
        cases l <;> simp [List.intercalate, List.intersperse, quoted] at h
      | cons t m =>
        have e : ∀ (s : Bytes) (l : List Bytes) (x : Bytes), ∃ z, List.intercalate b!"," ((s :: l).map quoted) ++ c!"]" :: x = quoted s ++ z ∧
            ((l = [] ∧ z = c!"]" :: x) ∨ (l ≠ [] ∧ z = c!"," :: (List.intercalate b!"," (l.map quoted) ++ c!"]" :: x))) := by
          intro s l x
          cases l with
          | nil => exact ⟨c!"]" :: x, by simp [List.intercalate, List.intersperse], .inl ⟨rfl, rfl⟩⟩
          | cons u l => exact ⟨_, by simp [List.intercalate, List.intersperse]; rfl, .inr ⟨by simp, by simp [List.intercalate, List.intersperse]⟩⟩
        obtain ⟨z, e1, h1⟩ := e s l x
        obtain ⟨w, e2, h2⟩ := e t m y
        rw [e1, e2] at h
        obtain ⟨rfl, rfl⟩ := quoted_inj h
        rcases h1 with ⟨rfl, h1⟩ | ⟨_, h1⟩ <;> rcases h2 with ⟨rfl, h2⟩ | ⟨_, h2⟩
        · rfl
        · rw [h1] at h2; simp at h2
        · rw [h1] at h2; simp at h2
        · rw [h1] at h2
          rw [ih m x y (List.cons.inj h2).2]
  refine key l m [] [] ?_
  have := h
  simp only [listText, List.append_assoc, List.cons_append, List.nil_append, List.cons.injEq, true_and] at this
  exact this

end Verif
