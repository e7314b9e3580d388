import Verif.Spec.White
import Verif.Model.GoLib
/- strings.TrimSpace takes away exactly the white space at both ends. -/
namespace Verif
open Spec

/-- The white space characters in UTF-8. -/
def whites : List Bytes := whiteSpace.map String.utf8EncodeChar

theorem whites_eq : whites = [[9], [10], [11], [12], [13], [32], [0xC2, 0x85], [0xC2, 0xA0], [0xE1, 0x9A, 0x80], [0xE2, 0x80, 0x80], [0xE2, 0x80, 0x81], [0xE2, 0x80, 0x82],
    [0xE2, 0x80, 0x83], [0xE2, 0x80, 0x84], [0xE2, 0x80, 0x85], [0xE2, 0x80, 0x86], [0xE2, 0x80, 0x87], [0xE2, 0x80, 0x88], [0xE2, 0x80, 0x89], [0xE2, 0x80, 0x8A],
    [0xE2, 0x80, 0xA8], [0xE2, 0x80, 0xA9], [0xE2, 0x80, 0xAF], [0xE2, 0x81, 0x9F], [0xE3, 0x80, 0x80]] := by decide +kernel

theorem byte_cases (P : UInt8 → Bool) (h : ∀ n < 256, P (UInt8.ofNat n) = true) (c : UInt8) : P c = true := by
  have := h c.toNat c.toNat_lt
  simpa using this

theorem spaceLen_white {e : Bytes} (he : e ∈ whites) (r : Bytes) : spaceLen (e ++ r) = e.length := by
  rw [whites_eq] at he
  simp only [List.mem_cons, List.not_mem_nil, or_false] at he
  repeat' (first | (rcases he with rfl | he) | subst he)
  all_goals rfl

theorem spaceLenRev_white {e : Bytes} (he : e ∈ whites) (r : Bytes) : spaceLenRev (e.reverse ++ r) = e.length := by
  rw [whites_eq] at he
  simp only [List.mem_cons, List.not_mem_nil, or_false] at he
  repeat' (first | (rcases he with rfl | he) | subst he)
  all_goals rfl

theorem one_white {c : UInt8} (h : ((9 ≤ c && c ≤ 13) || c = 32) = true) : [c] ∈ whites := by
  rw [whites_eq]
  revert h
  have := byte_cases (fun c => !((9 ≤ c && c ≤ 13) || decide (c = 32)) || decide ([c] ∈ [[9], [10], [11], [12], [13], [(32 : UInt8)]])) (by decide +kernel) c
  simp only [Bool.or_eq_true, Bool.not_eq_true', decide_eq_true_eq] at this
  intro h
  rcases this with h' | h'
  · rw [h] at h'; cases h'
  · simp only [List.mem_cons, List.not_mem_nil, or_false] at h'
    rcases h' with h' | h' | h' | h' | h' | h' <;> simp [h']

theorem three_white {c : UInt8} (h : ((0x80 ≤ c && c ≤ 0x8A) || c = 0xA8 || c = 0xA9 || c = 0xAF) = true) : [0xE2, 0x80, c] ∈ whites := by
  rw [whites_eq]
  have := byte_cases (fun c => !((0x80 ≤ c && c ≤ 0x8A) || decide (c = 0xA8) || decide (c = 0xA9) || decide (c = 0xAF)) ||
    decide ([0xE2, 0x80, c] ∈ [[0xE2, 0x80, 0x80], [0xE2, 0x80, 0x81], [0xE2, 0x80, 0x82],
    [0xE2, 0x80, 0x83], [0xE2, 0x80, 0x84], [0xE2, 0x80, 0x85], [0xE2, 0x80, 0x86], [0xE2, 0x80, 0x87], [0xE2, 0x80, 0x88], [0xE2, 0x80, 0x89], [0xE2, 0x80, 0x8A],
    [0xE2, 0x80, 0xA8], [0xE2, 0x80, 0xA9], [(0xE2 : UInt8), 0x80, 0xAF]])) (by decide +kernel) c
  simp only [Bool.or_eq_true, Bool.not_eq_true', decide_eq_true_eq] at this
  rcases this with h' | h'
  · simp only [Bool.or_eq_true, Bool.and_eq_true, decide_eq_true_eq] at h
    simp only [Bool.or_eq_false_iff, Bool.and_eq_false_iff, decide_eq_false_iff_not] at h'
    grind
  · simp only [List.mem_cons, List.not_mem_nil, or_false] at h' ⊢
    grind

theorem white_of_spaceLen {s : Bytes} (h : 0 < spaceLen s) : ∃ e ∈ whites, ∃ r, s = e ++ r := by
  have hw := whites_eq
  unfold spaceLen at h
  split at h
  · omega
  · next c cs =>
    split at h
    · next h1 => exact ⟨[c], one_white h1, cs, rfl⟩
    split at h
    · next h1 =>
      subst h1
      split at h
      · next d r =>
        split at h
        · next h2 =>
          refine ⟨[0xC2, d], ?_, r, rfl⟩
          simp only [Bool.or_eq_true, decide_eq_true_eq] at h2
          rw [hw]; rcases h2 with rfl | rfl <;> simp
        · omega
      · omega
    split at h
    · next h1 =>
      subst h1
      split at h
      · next d e r =>
        split at h
        · next h2 =>
          refine ⟨[0xE1, d, e], ?_, r, rfl⟩
          simp only [Bool.and_eq_true, decide_eq_true_eq] at h2
          rw [hw, h2.1, h2.2]; simp
        · omega
      · omega
    split at h
    · next h1 =>
      subst h1
      split at h
      · next d e r =>
        split at h
        · next h2 =>
          rw [Bool.and_eq_true, decide_eq_true_eq] at h2
          refine ⟨[0xE2, d, e], ?_, r, rfl⟩
          rw [h2.1]; exact three_white h2.2
        · split at h
          · next h2 =>
            refine ⟨[0xE2, d, e], ?_, r, rfl⟩
            simp only [Bool.and_eq_true, decide_eq_true_eq] at h2
            rw [hw, h2.1, h2.2]; simp
          · omega
      · omega
    split at h
    · next h1 =>
      subst h1
      split at h
      · next d e r =>
        split at h
        · next h2 =>
          refine ⟨[0xE3, d, e], ?_, r, rfl⟩
          simp only [Bool.and_eq_true, decide_eq_true_eq] at h2
          rw [hw, h2.1, h2.2]; simp
        · omega
      · omega
    · omega

theorem white_of_spaceLenRev {s : Bytes} (h : 0 < spaceLenRev s) : ∃ e ∈ whites, ∃ r, s = e.reverse ++ r := by
  have hw := whites_eq
  unfold spaceLenRev at h
  split at h
  · omega
  · next c cs =>
    split at h
    · next h1 => exact ⟨[c], one_white h1, cs, rfl⟩
    split at h
    · omega
    · next d ds =>
      split at h
      · next h1 =>
        subst h1
        split at h
        · next h2 =>
          refine ⟨[0xC2, c], ?_, ds, rfl⟩
          simp only [Bool.or_eq_true, decide_eq_true_eq] at h2
          rw [hw]; rcases h2 with rfl | rfl <;> simp
        · omega
      split at h
      · omega
      · next e r =>
        split at h
        · next h1 =>
          subst h1
          split at h
          · next h2 =>
            refine ⟨[0xE1, d, c], ?_, r, rfl⟩
            simp only [Bool.and_eq_true, decide_eq_true_eq] at h2
            rw [hw, h2.1, h2.2]; simp
          · omega
        split at h
        · next h1 =>
          subst h1
          split at h
          · next h2 =>
            rw [Bool.and_eq_true, decide_eq_true_eq] at h2
            refine ⟨[0xE2, d, c], ?_, r, rfl⟩
            rw [h2.1]; exact three_white h2.2
          · split at h
            · next h2 =>
              refine ⟨[0xE2, d, c], ?_, r, rfl⟩
              simp only [Bool.and_eq_true, decide_eq_true_eq] at h2
              rw [hw, h2.1, h2.2]; simp
            · omega
        split at h
        · next h1 =>
          subst h1
          split at h
          · next h2 =>
            refine ⟨[0xE3, d, c], ?_, r, rfl⟩
            simp only [Bool.and_eq_true, decide_eq_true_eq] at h2
            rw [hw, h2.1, h2.2]; simp
          · omega
        · omega

/-- A text made of pieces from `W`. -/
inductive Made (W : List Bytes) : Bytes → Prop
  | nil : Made W []
  | cons {e r : Bytes} : e ∈ W → Made W r → Made W (e ++ r)

theorem made_append {W : List Bytes} {a b : Bytes} (ha : Made W a) (hb : Made W b) : Made W (a ++ b) := by
  induction ha with
  | nil => exact hb
  | cons he _ ih => rw [List.append_assoc]; exact .cons he ih

theorem white_made {s : Bytes} : White s ↔ Made whites s := by
  constructor
  · rintro ⟨cs, h, rfl⟩
    induction cs with
    | nil => exact .nil
    | cons c cs ih =>
      rw [List.flatMap_cons]
      exact .cons (List.mem_map_of_mem (h c (by simp))) (ih (fun d hd => h d (by simp [hd])))
  · intro h
    induction h with
    | nil => exact ⟨[], by simp, rfl⟩
    | cons he _ ih =>
      obtain ⟨c, hc, rfl⟩ := List.mem_map.1 he
      obtain ⟨cs, h1, rfl⟩ := ih
      exact ⟨c :: cs, by simpa using ⟨hc, h1⟩, by simp⟩

theorem made_reverse {s : Bytes} (h : Made whites s) : Made (whites.map List.reverse) s.reverse := by
  induction h with
  | nil => exact .nil
  | cons he _ ih =>
    rw [List.reverse_append]
    refine made_append ih ?_
    have := Made.cons (W := whites.map List.reverse) (List.mem_map_of_mem he) .nil
    simpa using this

theorem made_unreverse {s : Bytes} (h : Made (whites.map List.reverse) s) : Made whites s.reverse := by
  induction h with
  | nil => exact .nil
  | cons he _ ih =>
    obtain ⟨f, hf, rfl⟩ := List.mem_map.1 he
    rw [List.reverse_append, List.reverse_reverse]
    refine made_append ih ?_
    have := Made.cons (W := whites) hf .nil
    simpa using this

theorem whites_nonempty : ∀ e ∈ whites, e ≠ [] := by rw [whites_eq]; decide

theorem trimFront_made {W : List Bytes} {len : Bytes → Nat} (hne : ∀ e ∈ W, e ≠ []) (h1 : ∀ e ∈ W, ∀ r, len (e ++ r) = e.length)
    {a : Bytes} (ha : Made W a) (t : Bytes) (ht : len t = 0) : trimFront len (a ++ t) = t := by
  induction ha with
  | nil => rw [List.nil_append, trimFront.eq_def, dif_neg (by omega)]
  | @cons e r he _ ih =>
    have := hne e he
    have hl : 0 < e.length := by cases e with | nil => exact absurd rfl this | cons => simp
    rw [List.append_assoc, trimFront.eq_def, h1 e he, dif_pos ⟨hl, by simp; omega⟩, List.drop_left, ih]

theorem trimFront_cut {W : List Bytes} {len : Bytes → Nat} (hne : ∀ e ∈ W, e ≠ []) (h1 : ∀ e ∈ W, ∀ r, len (e ++ r) = e.length)
    (h2 : ∀ s, 0 < len s → ∃ e ∈ W, ∃ r, s = e ++ r) (s : Bytes) : ∃ a, Made W a ∧ s = a ++ trimFront len s ∧ len (trimFront len s) = 0 := by
  induction hn : s.length using Nat.strongRecOn generalizing s with
  | _ n ih =>
    by_cases h : 0 < len s
    · obtain ⟨e, he, r, rfl⟩ := h2 s h
      have hl : 0 < e.length := by
        have := hne e he
        cases e with | nil => exact absurd rfl this | cons => simp
      obtain ⟨a, a1, a2, a3⟩ := ih r.length (by simp at hn; omega) r rfl
      have e1 : trimFront len (e ++ r) = trimFront len r := by
        rw [trimFront.eq_def, h1 e he, dif_pos ⟨hl, by simp; omega⟩, List.drop_left]
      refine ⟨e ++ a, .cons he a1, ?_, ?_⟩
      · rw [e1, List.append_assoc, ← a2]
      · rw [e1]; exact a3
    · have e1 : trimFront len s = s := by rw [trimFront.eq_def, dif_neg (by omega)]
      exact ⟨[], .nil, by rw [e1]; rfl, by rw [e1]; omega⟩

/-- The later bytes of a white space character are not the first byte of one. -/
theorem whites_sync : ∀ e ∈ whites, ∀ f ∈ whites, ∀ x ∈ e.tail, f.head? ≠ some x := by
  rw [whites_eq]; decide +kernel

theorem spaceLen_zero {t : Bytes} : spaceLen t = 0 ↔ ∀ e ∈ whites, ¬ e <+: t := by
  constructor
  · rintro h e he ⟨r, rfl⟩
    rw [spaceLen_white he] at h
    exact whites_nonempty e he (List.length_eq_zero_iff.1 h)
  · intro h
    refine Nat.eq_zero_of_not_pos (fun hp => ?_)
    obtain ⟨e, he, r, rfl⟩ := white_of_spaceLen hp
    exact h e he ⟨r, rfl⟩

theorem spaceLenRev_zero {t : Bytes} : spaceLenRev t.reverse = 0 ↔ ∀ e ∈ whites, ¬ e <:+ t := by
  constructor
  · rintro h e he ⟨r, rfl⟩
    rw [List.reverse_append, spaceLenRev_white he] at h
    exact whites_nonempty e he (List.length_eq_zero_iff.1 h)
  · intro h
    refine Nat.eq_zero_of_not_pos (fun hp => ?_)
    obtain ⟨e, he, r, hr⟩ := white_of_spaceLenRev hp
    refine h e he ⟨r.reverse, ?_⟩
    rw [← List.reverse_reverse t, hr, List.reverse_append, List.reverse_reverse]

theorem trims_iff (s t : Bytes) : trimSpace s = t ↔ Trims s t := by
  have r1 : ∀ e ∈ whites.map List.reverse, e ≠ [] := by
    intro e he
    obtain ⟨f, hf, rfl⟩ := List.mem_map.1 he
    simpa using whites_nonempty f hf
  have r2 : ∀ e ∈ whites.map List.reverse, ∀ r, spaceLenRev (e ++ r) = e.length := by
    intro e he r
    obtain ⟨f, hf, rfl⟩ := List.mem_map.1 he
    rw [spaceLenRev_white hf, List.length_reverse]
  have r3 : ∀ s, 0 < spaceLenRev s → ∃ e ∈ whites.map List.reverse, ∃ r, s = e ++ r := by
    intro s h
    obtain ⟨e, he, r, hr⟩ := white_of_spaceLenRev h
    exact ⟨e.reverse, List.mem_map_of_mem he, r, hr⟩
  have mem : ∀ c ∈ whiteSpace, String.utf8EncodeChar c ∈ whites := fun c hc => List.mem_map_of_mem hc
  unfold trimSpace
  constructor
  · rintro rfl
    obtain ⟨a, a1, a2, a3⟩ := trimFront_cut whites_nonempty (fun e he r => spaceLen_white he r) (fun s => white_of_spaceLen) s
    obtain ⟨b, b1, b2, b3⟩ := trimFront_cut r1 r2 r3 (trimFront spaceLen s).reverse
    have hu : trimFront spaceLen s = (trimFront spaceLenRev (trimFront spaceLen s).reverse).reverse ++ b.reverse := by
      rw [← List.reverse_append, ← b2, List.reverse_reverse]
    refine ⟨a, b.reverse, ?_, white_made.2 a1, white_made.2 (made_unreverse b1), fun c hc => ⟨fun hp => ?_, fun hp => ?_⟩⟩
    · rw [List.append_assoc, ← hu]; exact a2
    · refine spaceLen_zero.1 a3 _ (mem c hc) ?_
      rw [hu]
      exact hp.trans (List.prefix_append ..)
    · refine spaceLenRev_zero.1 ?_ _ (mem c hc) hp
      rw [List.reverse_reverse]; exact b3
  · rintro ⟨a, b, rfl, ha, hb, ht⟩
    have hw : ∀ e ∈ whites, ¬ e <+: t ∧ ¬ e <:+ t := by
      intro e he
      obtain ⟨c, hc, rfl⟩ := List.mem_map.1 he
      exact ht c hc
    rw [white_made] at ha hb
    by_cases h0 : t = []
    · subst h0
      have hab := made_append ha hb
      have := trimFront_made whites_nonempty (fun e he r => spaceLen_white he r) hab [] rfl
      rw [List.append_nil] at this
      rw [List.append_nil, this, List.reverse_nil, trimFront.eq_def, dif_neg (by simp [spaceLenRev])]
      rfl
    · have hz : spaceLen (t ++ b) = 0 := by
        rw [spaceLen_zero]
        intro e he hp
        rcases Nat.lt_or_ge t.length e.length with h | h
        · obtain ⟨x, rfl⟩ := List.prefix_of_prefix_length_le (List.prefix_append t b) hp (Nat.le_of_lt h)
          have hx : x <+: b := (List.prefix_append_right_inj t).1 hp
          cases t with
          | nil => exact h0 rfl
          | cons y t =>
            cases x with
            | nil => simp at h
            | cons z x =>
              cases hb with
              | nil => simp at hx
              | @cons f r hf hr =>
                refine whites_sync _ he f hf z (by simp) ?_
                have := whites_nonempty f hf
                cases f with
                | nil => exact absurd rfl this
                | cons w f =>
                  have := (List.cons_prefix_cons.1 hx).1
                  simp [this]
        · exact (hw e he).1 (List.prefix_of_prefix_length_le hp (List.prefix_append t b) h)
      rw [List.append_assoc, trimFront_made whites_nonempty (fun e he r => spaceLen_white he r) ha _ hz, List.reverse_append,
        trimFront_made r1 r2 (made_reverse hb) _ (spaceLenRev_zero.2 (fun e he => (hw e he).2)), List.reverse_reverse]

end Verif
