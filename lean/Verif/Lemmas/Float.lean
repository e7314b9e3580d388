import Verif.Spec.Float
/- Rounding to float64: it respects the order, and numbers of at most 15 digits stay apart. -/
namespace Verif
open Spec

theorem gap_le_iff (a b : Rat) : 0 ≤ gap a b ∧ (gap a b = a - b ∨ gap a b = b - a) ∧ a - b ≤ gap a b ∧ b - a ≤ gap a b := by
  unfold gap; grind

theorem nearest_mono {q q' r r' : Rat} (h : Nearest q r) (h' : Nearest q' r') (hq : q < q') : r ≤ r' := by
  have h1 := h.2 r' h'.1
  have h2 := h'.2 r h.1
  unfold gap at h1 h2
  grind

/-- Every whole number is, up to the bits below the highest 53, one of those a float64 can hold. -/
theorem top_bits_at (n : Nat) : n / 2 ^ (n.log2 - 52) < 2 ^ 53 ∧ n / 2 ^ (n.log2 - 52) * 2 ^ (n.log2 - 52) ≤ n ∧ n < (n / 2 ^ (n.log2 - 52) + 1) * 2 ^ (n.log2 - 52) ∧
    (n.log2 - 52 = 0 ∨ 2 ^ 52 ≤ n / 2 ^ (n.log2 - 52)) ∧ (∀ b, n ≤ 2 ^ b → 52 ≤ b → n.log2 - 52 ≤ b - 52) := by
  refine ⟨?_, Nat.div_mul_le_self .., ?_, ?_, ?_⟩
  · rw [Nat.div_lt_iff_lt_mul (Nat.two_pow_pos _), ← Nat.pow_add]
    exact Nat.lt_of_lt_of_le Nat.lt_log2_self (Nat.pow_le_pow_right (by omega) (by omega))
  · rw [Nat.mul_comm]; exact Nat.lt_mul_div_succ n (Nat.two_pow_pos _)
  · by_cases hk : n.log2 ≤ 52
    · left; omega
    · right
      rw [Nat.le_div_iff_mul_le (Nat.two_pow_pos _), ← Nat.pow_add]
      have : 52 + (n.log2 - 52) = n.log2 := by omega
      rw [this]
      exact Nat.log2_self_le (by rintro rfl; exact hk (by decide))
  · intro b hb h52
    by_cases h0 : n = 0
    · subst h0; exact Nat.zero_le _
    · have : n.log2 < b + 1 := (Nat.log2_lt h0).2 (Nat.lt_of_le_of_lt hb (Nat.pow_lt_pow_right (by omega) (by omega)))
      omega

theorem top_bits (n : Nat) : ∃ m k : Nat, m < 2 ^ 53 ∧ m * 2 ^ k ≤ n ∧ n < (m + 1) * 2 ^ k ∧ (k = 0 ∨ 2 ^ 52 ≤ m) ∧ (∀ b, n ≤ 2 ^ b → 52 ≤ b → k ≤ b - 52) :=
  ⟨_, _, top_bits_at n⟩

theorem pow_pos_rat (n : Nat) : (0 : Rat) < 2 ^ n := Rat.pow_pos (by decide)

theorem pow_add_rat (x : Rat) (a b : Nat) : x ^ a * x ^ b = x ^ (a + b) := by
  induction b with
  | zero => rw [Rat.pow_zero, Rat.mul_one, Nat.add_zero]
  | succ b ih => rw [Rat.pow_succ, ← Rat.mul_assoc, ih, ← Nat.add_assoc, Rat.pow_succ]

theorem isFloat_neg {r : Rat} (h : IsFloat r) : IsFloat (-r) := by
  obtain ⟨m, k, h1, h2, h3⟩ := h
  refine ⟨-m, k, by simpa using h1, h2, ?_⟩
  rw [Rat.neg_mul, h3, Int.neg_mul, Rat.intCast_neg]

theorem cast_nat (n : Nat) : ((n : Int) : Rat) = (n : Rat) := rfl

/-- The float64 next below a number. -/
theorem below_pos (q T : Rat) (hT : 0 < T) (h0 : 0 ≤ q) (b : Nat) (hb : q * T ≤ 2 ^ b) (h52 : 52 ≤ b) :
    ∃ m k : Nat, m < 2 ^ 53 ∧ k ≤ b - 52 ∧ ((m * 2 ^ k : Nat) : Rat) ≤ q * T ∧ q * T < (((m + 1) * 2 ^ k : Nat) : Rat) ∧ (k = 0 ∨ 2 ^ 52 ≤ m) := by
  have hx : 0 ≤ q * T := Rat.mul_nonneg h0 (Rat.le_of_lt hT)
  have hf : 0 ≤ (q * T).floor := by rw [Rat.le_floor_iff]; exact hx
  obtain ⟨n, hn⟩ : ∃ n : Nat, (q * T).floor = n := ⟨(q * T).floor.toNat, by omega⟩
  have hle := Rat.floor_le (q * T)
  have hlt := Rat.lt_floor_add_one (q * T)
  rw [hn] at hle hlt
  obtain ⟨m, k, h1, h2, h3, h4, h5⟩ := top_bits n
  refine ⟨m, k, h1, h5 b ?_ h52, Rat.le_trans (Rat.natCast_le_natCast.2 h2) hle, ?_, h4⟩
  · have : (n : Rat) ≤ ((2 ^ b : Nat) : Rat) := Rat.le_trans hle (by rw [Rat.natCast_pow]; exact hb)
    exact Rat.natCast_le_natCast.1 this
  · have : ((n : Int) + 1 : Int) = ((n + 1 : Nat) : Int) := rfl
    rw [this] at hlt
    have h6 := Rat.natCast_le_natCast.2 h3
    have e : (((n + 1 : Nat) : Int) : Rat) = ((n + 1 : Nat) : Rat) := rfl
    rw [e] at hlt
    have : n.succ = n + 1 := rfl
    rw [this] at h6
    grind

theorem near_pos (q : Rat) (h0 : 0 ≤ q) (h1 : q ≤ (2 : Rat) ^ 1023) : ∃ r, IsFloat r ∧ r ≤ q ∧ (q - r) * 2 ^ 1074 ≤ q * 2 ^ 1074 / 2 ^ 52 + 1 := by
  have hb : q * 2 ^ 1074 ≤ (2 : Rat) ^ 2097 := by
    have := Rat.mul_le_mul_of_nonneg_right h1 (Rat.le_of_lt (pow_pos_rat 1074))
    rw [pow_add_rat] at this; exact this
  obtain ⟨m, k, hm, hk, h2, h3, h4⟩ := below_pos q (2 ^ 1074) (pow_pos_rat _) h0 2097 hb (by omega)
  generalize hT : (2 : Rat) ^ 1074 = T at *
  have hTp : 0 < T := hT ▸ pow_pos_rat _
  have hr : ((m * 2 ^ k : Nat) : Rat) / T * T = ((m * 2 ^ k : Nat) : Rat) := Rat.div_mul_cancel (Rat.ne_of_gt hTp)
  refine ⟨((m * 2 ^ k : Nat) : Rat) / T, ⟨m, k, by simpa using hm, by omega, ?_⟩, ?_, ?_⟩
  · rw [hT, hr]; simp [Rat.intCast_mul, Rat.intCast_pow, Rat.natCast_mul, Rat.natCast_pow]; rfl
  · refine Rat.le_of_mul_le_mul_right ?_ hTp
    rw [hr]; exact h2
  · have e : (q - ((m * 2 ^ k : Nat) : Rat) / T) * T = q * T - ((m * 2 ^ k : Nat) : Rat) := by grind
    rw [e]
    have h5 : (((m + 1) * 2 ^ k : Nat) : Rat) = ((m * 2 ^ k : Nat) : Rat) + ((2 ^ k : Nat) : Rat) := by
      rw [← Rat.natCast_add, Nat.add_mul, Nat.one_mul]
    rw [h5] at h3
    rcases h4 with rfl | h4
    · have : 0 ≤ q * T / 2 ^ 52 := by
        have : 0 ≤ q * T := Rat.mul_nonneg h0 (Rat.le_of_lt hTp)
        grind
      simp only [Nat.pow_zero] at h3 ⊢
      grind
    · have h6 : ((2 ^ 52 * 2 ^ k : Nat) : Rat) ≤ ((m * 2 ^ k : Nat) : Rat) := Rat.natCast_le_natCast.2 (Nat.mul_le_mul_right _ h4)
      rw [Rat.natCast_mul (2 ^ 52)] at h6
      have h7 : ((2 ^ 52 : Nat) : Rat) = (2 : Rat) ^ 52 := by rw [Rat.natCast_pow]; rfl
      rw [h7] at h6
      grind

theorem near (q : Rat) (hl : -(2 : Rat) ^ 1023 ≤ q) (hu : q ≤ (2 : Rat) ^ 1023) (B : Rat) (hb : -B ≤ q) (hB : q ≤ B) :
    ∃ r, IsFloat r ∧ gap q r * 2 ^ 1074 ≤ B * 2 ^ 1074 / 2 ^ 52 + 1 := by
  have hT := pow_pos_rat 1074
  by_cases h : 0 ≤ q
  · obtain ⟨r, h1, h2, h3⟩ := near_pos q h hu
    refine ⟨r, h1, ?_⟩
    have e : gap q r = q - r := by unfold gap; grind
    rw [e]
    have := Rat.mul_le_mul_of_nonneg_right hB (Rat.le_of_lt hT)
    generalize (2 : Rat) ^ 1074 = T at *
    grind
  · obtain ⟨r, h1, h2, h3⟩ := near_pos (-q) (by grind) (by generalize (2 : Rat) ^ 1023 = U at *; grind)
    refine ⟨-r, isFloat_neg h1, ?_⟩
    have e : gap q (-r) = -q - r := by unfold gap; grind
    rw [e]
    have : -q ≤ B := by grind
    have := Rat.mul_le_mul_of_nonneg_right this (Rat.le_of_lt hT)
    generalize (2 : Rat) ^ 1074 = T at *
    grind

/-- Two different multiples of 10^-D, both at most 10^15 * 10^-D, are not rounded to the same number. -/
theorem apart {x y r r' : Rat} {D : Nat} (hD : D ≤ 15) {a b : Int} (hx : x * 10 ^ D = a) (hy : y * 10 ^ D = b) (ha : a.natAbs ≤ 10 ^ 15) (hb : b.natAbs ≤ 10 ^ 15)
    (hr : Nearest x r) (hr' : Nearest y r') (hab : a < b) : r < r' := by
  have hP : (0 : Rat) < 10 ^ D := Rat.pow_pos (by decide)
  have hP1 : (1 : Rat) ≤ 10 ^ D := by
    have : ((1 : Nat) : Rat) ≤ ((10 ^ D : Nat) : Rat) := Rat.natCast_le_natCast.2 (Nat.pow_pos (by omega))
    rw [Rat.natCast_pow] at this; exact this
  have hP2 : (10 : Rat) ^ D ≤ 10 ^ 15 := by
    have : ((10 ^ D : Nat) : Rat) ≤ ((10 ^ 15 : Nat) : Rat) := Rat.natCast_le_natCast.2 (Nat.pow_le_pow_right (by omega) hD)
    rw [Rat.natCast_pow, Rat.natCast_pow] at this; exact this
  have hbig : (10 : Rat) ^ 15 ≤ 2 ^ 1023 := by decide +kernel
  have bound : ∀ (z : Rat) (c : Int), z * 10 ^ D = c → c.natAbs ≤ 10 ^ 15 → -((10 : Rat) ^ 15) ≤ z * 10 ^ D ∧ z * 10 ^ D ≤ (10 : Rat) ^ 15 := by
    intro z c hz hc
    rw [hz]
    have h1 : ((-(10 ^ 15) : Int) : Rat) ≤ (c : Rat) := Rat.intCast_le_intCast.2 (by omega)
    have h2 : (c : Rat) ≤ ((10 ^ 15 : Int) : Rat) := Rat.intCast_le_intCast.2 (by omega)
    exact ⟨h1, h2⟩
  obtain ⟨hx1, hx2⟩ := bound x a hx ha
  obtain ⟨hy1, hy2⟩ := bound y b hy hb
  have hd : (1 : Rat) ≤ y * 10 ^ D - x * 10 ^ D := by
    rw [hx, hy]
    have : ((a + 1 : Int) : Rat) ≤ (b : Rat) := Rat.intCast_le_intCast.2 (by omega)
    rw [Rat.intCast_add] at this
    have e : ((1 : Int) : Rat) = 1 := rfl
    rw [e] at this
    grind
  have hBe : (10 : Rat) ^ 15 / 10 ^ D * 10 ^ D = 10 ^ 15 := Rat.div_mul_cancel (Rat.ne_of_gt hP)
  have hnum : 2 * ((10 : Rat) ^ 15 * 2 ^ 1074 / 2 ^ 52 + 10 ^ 15) < 2 ^ 1074 := by decide +kernel
  have close : ∀ (z s : Rat), -((10 : Rat) ^ 15) ≤ z * 10 ^ D → z * 10 ^ D ≤ (10 : Rat) ^ 15 → Nearest z s →
      gap z s * 10 ^ D * 2 ^ 1074 ≤ (10 : Rat) ^ 15 * 2 ^ 1074 / 2 ^ 52 + 10 ^ D := by
    intro z s h1 h2 hs
    have hz1 : -((10 : Rat) ^ 15 / 10 ^ D) ≤ z := by
      refine Rat.le_of_mul_le_mul_right ?_ hP
      rw [Rat.neg_mul, hBe]; exact h1
    have hz2 : z ≤ (10 : Rat) ^ 15 / 10 ^ D := by
      refine Rat.le_of_mul_le_mul_right ?_ hP
      rw [hBe]; exact h2
    have hB0 : (10 : Rat) ^ 15 / 10 ^ D ≤ 10 ^ 15 := by
      refine Rat.le_of_mul_le_mul_right ?_ hP
      rw [hBe]
      have := Rat.mul_le_mul_of_nonneg_left hP1 (show (0 : Rat) ≤ 10 ^ 15 by decide)
      rw [Rat.mul_one] at this; exact this
    obtain ⟨t, h3, h4⟩ := near z (by generalize (2 : Rat) ^ 1023 = U at *; generalize (10 : Rat) ^ 15 / 10 ^ D = V at *; grind)
      (by generalize (2 : Rat) ^ 1023 = U at *; generalize (10 : Rat) ^ 15 / 10 ^ D = V at *; grind) _ hz1 hz2
    have h5 := Rat.mul_le_mul_of_nonneg_right (Rat.le_trans (Rat.mul_le_mul_of_nonneg_right (hs.2 t h3) (Rat.le_of_lt (pow_pos_rat 1074))) h4) (Rat.le_of_lt hP)
    generalize (2 : Rat) ^ 1074 = T at *
    generalize (10 : Rat) ^ 15 / 10 ^ D = V at *
    generalize (10 : Rat) ^ D = P at *
    have e1 : (V * T / 2 ^ 52 + 1) * P = (V * P) * T / 2 ^ 52 + P := by grind
    rw [e1, hBe] at h5
    have e2 : gap z s * P * T = gap z s * T * P := by grind
    rw [e2]; exact h5
  have h1 := close x r hx1 hx2 hr
  have h2 := close y r' hy1 hy2 hr'
  have g1 := (gap_le_iff x r).2.2.2
  have g2 := (gap_le_iff y r').2.2.1
  have hT := pow_pos_rat 1074
  have g1' := Rat.mul_le_mul_of_nonneg_right g1 (Rat.le_of_lt (Rat.mul_pos hP hT))
  have g2' := Rat.mul_le_mul_of_nonneg_right g2 (Rat.le_of_lt (Rat.mul_pos hP hT))
  have hd' := Rat.mul_le_mul_of_nonneg_right hd (Rat.le_of_lt hT)
  refine Rat.lt_of_mul_lt_mul_right (c := 10 ^ D * 2 ^ 1074) ?_ (Rat.le_of_lt (Rat.mul_pos hP hT))
  generalize hK : (10 : Rat) ^ 15 * 2 ^ 1074 / 2 ^ 52 = K at *
  generalize (2 : Rat) ^ 1074 = T at *
  generalize (10 : Rat) ^ 15 = F at *
  generalize (10 : Rat) ^ D = P at *
  generalize gap x r = gx at *
  generalize gap y r' = gy at *
  clear hx hy hK close bound hBe hbig
  grind

theorem digitsNat_lt_aux (l : Bytes) (h : ∀ c ∈ l, 48 ≤ c ∧ c ≤ 57) (a : Nat) :
    l.foldl (fun n (c : UInt8) => 10 * n + (c.toNat - 48)) a < (a + 1) * 10 ^ l.length := by
  induction l generalizing a with
  | nil => simp
  | cons c l ih =>
    have h1 := h c (by simp)
    have h2 : c.toNat ≤ 57 := UInt8.le_iff_toNat_le.1 h1.2
    have := ih (fun d hd => h d (by simp [hd])) (10 * a + (c.toNat - 48))
    simp only [List.foldl_cons, List.length_cons]
    refine Nat.lt_of_lt_of_le this ?_
    rw [Nat.pow_succ, Nat.mul_comm (10 ^ l.length) 10, ← Nat.mul_assoc]
    exact Nat.mul_le_mul_right _ (by omega)

theorem digitsNat_lt (l : Bytes) (h : ∀ c ∈ l, 48 ≤ c ∧ c ≤ 57) : digitsNat l < 10 ^ l.length := by
  have := digitsNat_lt_aux l h 0
  simpa [digitsNat] using this

/-- A numeral of at most 15 digits is a multiple of 10^-d below 10^15 * 10^-d. -/
theorem numeral_grid {s : Bytes} {n : Nat} {q : Rat} (h : Numeral s n q) (hn : n ≤ 15) :
    ∃ (d : Nat) (c : Int), d ≤ 15 ∧ q * 10 ^ d = c ∧ c.natAbs < 10 ^ 15 := by
  obtain ⟨sg, w, dt, f, -, -, -, hd, hl, -, hq⟩ := h
  have h1 := digitsNat_lt _ hd
  have h2 : 10 ^ (w ++ f).length ≤ 10 ^ 15 := Nat.pow_le_pow_right (by omega) (by omega)
  refine ⟨f.length, _, by simp at hl; omega, hq, ?_⟩
  split <;> omega

theorem grid_bound {q : Rat} {d : Nat} {c : Int} (h : q * 10 ^ d = c) (hc : c.natAbs ≤ 10 ^ 15) :
    Moderate q := by
  have hP : (0 : Rat) < 10 ^ d := Rat.pow_pos (by decide)
  have hP1 : (1 : Rat) ≤ 10 ^ d := by
    have : ((1 : Nat) : Rat) ≤ ((10 ^ d : Nat) : Rat) := Rat.natCast_le_natCast.2 (Nat.pow_pos (by omega))
    rw [Rat.natCast_pow] at this; exact this
  have hbig : (10 : Rat) ^ 15 ≤ 2 ^ 1023 := by decide +kernel
  have h1 : ((-(10 ^ 15) : Int) : Rat) ≤ (c : Rat) := Rat.intCast_le_intCast.2 (by omega)
  have h2 : (c : Rat) ≤ ((10 ^ 15 : Int) : Rat) := Rat.intCast_le_intCast.2 (by omega)
  have h1' : -((10 : Rat) ^ 15) ≤ q * 10 ^ d := by rw [h]; exact h1
  have h2' : q * 10 ^ d ≤ (10 : Rat) ^ 15 := by rw [h]; exact h2
  have h3 := Rat.mul_le_mul_of_nonneg_left hP1 (show (0 : Rat) ≤ 10 ^ 15 by decide)
  rw [Rat.mul_one] at h3
  have h4 : -((10 : Rat) ^ 15) ≤ q := by
    refine Rat.le_of_mul_le_mul_right ?_ hP
    rw [Rat.neg_mul]
    generalize (10 : Rat) ^ 15 * 10 ^ d = V at *
    grind
  have h5 : q ≤ (10 : Rat) ^ 15 := by
    refine Rat.le_of_mul_le_mul_right ?_ hP
    generalize (10 : Rat) ^ 15 * 10 ^ d = V at *
    grind
  unfold Moderate
  generalize (2 : Rat) ^ 1023 = U at *
  exact ⟨by grind, by grind⟩

theorem scale_up {q : Rat} {d D : Nat} {c : Int} (h : q * 10 ^ d = c) (hd : d ≤ D) : q * 10 ^ D = ((c * 10 ^ (D - d) : Int) : Rat) := by
  have : D = d + (D - d) := by omega
  rw [this, ← pow_add_rat, ← Rat.mul_assoc, h, ← this, Rat.intCast_mul, Rat.intCast_pow]
  rfl

theorem rounds_lt {rnd : Rat → Rat} (hr : Rounds rnd) {q q' : Rat} {d d' : Nat} {c c' : Int} (hd : d ≤ 15) (hd' : d' ≤ 15)
    (hq : q * 10 ^ d = c) (hq' : q' * 10 ^ d' = c') (hc : c.natAbs < 10 ^ 15) (hc' : c'.natAbs < 10 ^ 15) (hlt : q < q') : rnd q < rnd q' := by
  have hN := hr q (grid_bound hq (by omega))
  have hN' := hr q' (grid_bound hq' (by omega))
  have scaled : ∀ (D : Nat) (a a' : Int) (u u' : Rat), u * 10 ^ D = a → u' * 10 ^ D = a' → (u < u' ↔ a < a') := by
    intro D a a' u u' h h'
    have hP : (0 : Rat) < 10 ^ D := Rat.pow_pos (by decide)
    rw [← Rat.mul_lt_mul_right hP, h, h', Rat.intCast_lt_intCast]
  have edge : ∀ (D : Nat) (e : Int), (e : Rat) / 10 ^ D * 10 ^ D = e := by
    intro D e
    exact Rat.div_mul_cancel (Rat.ne_of_gt (Rat.pow_pos (by decide)))
  by_cases hdd : d ≤ d'
  · have hqD := scale_up hq hdd
    generalize c * 10 ^ (d' - d) = a at hqD
    have hac := (scaled d' a c' q q' hqD hq').1 hlt
    by_cases ha : a.natAbs ≤ 10 ^ 15
    · exact apart hd' hqD hq' ha (by omega) hN hN' hac
    · have hw := edge d' (-(10 ^ 15))
      have hW := hr _ (grid_bound hw (by omega))
      have m1 := nearest_mono hN hW ((scaled d' a _ q _ hqD hw).2 (by omega))
      have m2 := apart hd' hw hq' (by omega) (by omega) hW hN' (by omega)
      grind
  · have hqD := scale_up hq' (show d' ≤ d by omega)
    generalize c' * 10 ^ (d - d') = a at hqD
    have hac := (scaled d c a q q' hq hqD).1 hlt
    by_cases ha : a.natAbs ≤ 10 ^ 15
    · exact apart hd hq hqD (by omega) ha hN hN' hac
    · have hw := edge d (10 ^ 15)
      have hW := hr _ (grid_bound hw (by omega))
      have m1 := nearest_mono hW hN' ((scaled d _ a _ q' hw hqD).2 (by omega))
      have m2 := apart hd hq hw (by omega) (by omega) hN hW (by omega)
      grind

/-- Rounding keeps the order of numerals of at most 15 digits, strictly. -/
theorem numeral_lt {rnd : Rat → Rat} (hr : Rounds rnd) {s s' : Bytes} {n n' : Nat} {q q' : Rat} (h : Numeral s n q) (h' : Numeral s' n' q')
    (hn : n ≤ 15) (hn' : n' ≤ 15) : rnd q < rnd q' ↔ q < q' := by
  obtain ⟨d, c, hd, hq, hc⟩ := numeral_grid h hn
  obtain ⟨d', c', hd', hq', hc'⟩ := numeral_grid h' hn'
  constructor
  · intro hlt
    refine Classical.byContradiction (fun hge => ?_)
    rcases Rat.le_iff_lt_or_eq.1 (Rat.not_lt.1 hge) with h1 | h1
    · have := rounds_lt hr hd' hd hq' hq hc' hc h1
      grind
    · rw [h1] at hlt; exact Rat.lt_irrefl hlt
  · exact rounds_lt hr hd hd' hq hq' hc hc'

/-- Rounding never turns the order of two numbers round. -/
theorem rounds_mono {rnd : Rat → Rat} (hr : Rounds rnd) {q q' : Rat} (h1 : Moderate q) (h2 : Moderate q') (h : q ≤ q') : rnd q ≤ rnd q' := by
  rcases Rat.le_iff_lt_or_eq.1 h with h | h
  · exact nearest_mono (hr q h1) (hr q' h2) h
  · rw [h]; exact Rat.le_refl

/-! `round64` rounds. -/

/-- No float64 lies strictly between two neighbours. -/
theorem float_between {m k : Nat} (h4 : k = 0 ∨ 2 ^ 52 ≤ m) (m' : Int) (k' : Nat) (hm' : m'.natAbs < 2 ^ 53) :
    m' * 2 ^ k' ≤ (m * 2 ^ k : Nat) ∨ ((m + 1) * 2 ^ k : Nat) ≤ m' * 2 ^ k' := by
  by_cases hk : k ≤ k'
  · have e : m' * 2 ^ k' = m' * 2 ^ (k' - k) * 2 ^ k := by
      rw [Int.mul_assoc, ← Int.pow_add]; congr 2; omega
    have hp : (0 : Int) ≤ 2 ^ k := Int.le_of_lt (Int.pow_pos (by omega))
    rw [e, Int.natCast_mul, Int.natCast_mul, Int.natCast_pow]
    by_cases hj : m' * 2 ^ (k' - k) ≤ m
    · left; exact Int.mul_le_mul_of_nonneg_right hj hp
    · right; exact Int.mul_le_mul_of_nonneg_right (by omega) hp
  · left
    have h5 : 2 ^ 52 ≤ m := by omega
    have h6 : m' * 2 ^ k' ≤ (2 ^ 53 : Nat) * 2 ^ k' := Int.mul_le_mul_of_nonneg_right (by omega) (Int.le_of_lt (Int.pow_pos (by omega)))
    have h7 : 2 ^ 53 * 2 ^ k' ≤ m * 2 ^ k := by
      calc 2 ^ 53 * 2 ^ k' = 2 ^ 52 * 2 ^ (k' + 1) := by rw [← Nat.pow_add, ← Nat.pow_add]; congr 1; omega
        _ ≤ 2 ^ 52 * 2 ^ k := Nat.mul_le_mul_left _ (Nat.pow_le_pow_right (by omega) (by omega))
        _ ≤ m * 2 ^ k := Nat.mul_le_mul_right _ h5
    have h8 : ((2 ^ 53 : Nat) : Int) * 2 ^ k' = ((2 ^ 53 * 2 ^ k' : Nat) : Int) := by rw [Int.natCast_mul, Int.natCast_pow 2 k']; rfl
    rw [h8] at h6
    exact Int.le_trans h6 (Int.ofNat_le.2 h7)

theorem isFloat_of {m k : Nat} {T : Rat} (hT : (2 : Rat) ^ 1074 = T) (hm : m < 2 ^ 53) (hk : k ≤ 2045) : IsFloat (((m * 2 ^ k : Nat) : Rat) / T) := by
  have hTp : 0 < T := hT ▸ pow_pos_rat _
  refine ⟨m, k, by simpa using hm, hk, ?_⟩
  rw [hT, Rat.div_mul_cancel (Rat.ne_of_gt hTp)]
  simp [Rat.intCast_mul, Rat.intCast_pow, Rat.natCast_mul, Rat.natCast_pow]; rfl

theorem roundPos_nearest (q : Rat) (h0 : 0 ≤ q) (h1 : q ≤ (2 : Rat) ^ 1023) : Nearest q (roundPos q) := by
  have hb : q * 2 ^ 1074 ≤ (2 : Rat) ^ 2097 := by
    have := Rat.mul_le_mul_of_nonneg_right h1 (Rat.le_of_lt (pow_pos_rat 1074))
    rw [pow_add_rat] at this; exact this
  have hx : 0 ≤ q * 2 ^ 1074 := Rat.mul_nonneg h0 (Rat.le_of_lt (pow_pos_rat _))
  have hf : 0 ≤ (q * 2 ^ 1074).floor := by rw [Rat.le_floor_iff]; exact hx
  have hle := Rat.floor_le (q * 2 ^ 1074)
  have hlt := Rat.lt_floor_add_one (q * 2 ^ 1074)
  unfold roundPos
  simp only
  obtain ⟨n, hn⟩ : ∃ n : Nat, (q * 2 ^ 1074).floor = (n : Int) := ⟨(q * 2 ^ 1074).floor.toNat, by omega⟩
  rw [hn] at hle hlt ⊢
  rw [Int.toNat_natCast]
  have hn2 : n ≤ 2 ^ 2097 := by
    have : (n : Rat) ≤ ((2 ^ 2097 : Nat) : Rat) := Rat.le_trans hle (by rw [Rat.natCast_pow]; exact hb)
    exact Rat.natCast_le_natCast.1 this
  obtain ⟨m1, m2, m3, m4, m5⟩ := top_bits_at n
  generalize hk : n.log2 - 52 = k at *
  generalize hm : n / 2 ^ k = m at *
  have m5 := m5 2097 hn2 (by omega)
  have hlo : ((m * 2 ^ k : Nat) : Rat) ≤ q * 2 ^ 1074 := Rat.le_trans (Rat.natCast_le_natCast.2 m2) hle
  have hhi : q * 2 ^ 1074 < (((m + 1) * 2 ^ k : Nat) : Rat) := by
    have h6 := Rat.natCast_le_natCast.2 (show n + 1 ≤ (m + 1) * 2 ^ k from m3)
    have e : (((n : Int) + 1 : Int) : Rat) = ((n + 1 : Nat) : Rat) := rfl
    rw [e] at hlt
    grind
  generalize hT : (2 : Rat) ^ 1074 = T at *
  have hTp : 0 < T := hT ▸ pow_pos_rat _
  have flo : IsFloat (((m * 2 ^ k : Nat) : Rat) / T) := isFloat_of hT m1 (by omega)
  have fhi : IsFloat ((((m + 1) * 2 ^ k : Nat) : Rat) / T) := by
    by_cases hm1 : m + 1 < 2 ^ 53
    · exact isFloat_of hT hm1 (by omega)
    · have e : (m + 1) * 2 ^ k = 2 ^ 52 * 2 ^ (k + 1) := by
        have : m + 1 = 2 ^ 53 := by omega
        rw [this, ← Nat.pow_add, ← Nat.pow_add, show 53 + k = 52 + (k + 1) by omega]
      rw [e]
      refine isFloat_of hT (by omega) ?_
      have h7 : 2 ^ 52 * 2 ^ k < 2 ^ 2097 :=
        Nat.lt_of_lt_of_le (Nat.mul_lt_mul_of_pos_right (show 2 ^ 52 < m by omega) (Nat.two_pow_pos k)) (Nat.le_trans m2 hn2)
      rw [← Nat.pow_add] at h7
      have := (Nat.pow_lt_pow_iff_right (by omega)).1 h7
      omega
  have hdiv : ∀ a : Rat, a / T * T = a := fun a => Rat.div_mul_cancel (Rat.ne_of_gt hTp)
  have key : ∀ z : Rat, (z = ((m * 2 ^ k : Nat) : Rat) ∨ z = (((m + 1) * 2 ^ k : Nat) : Rat)) →
      gap (q * T) z ≤ gap (q * T) ((m * 2 ^ k : Nat) : Rat) → gap (q * T) z ≤ gap (q * T) (((m + 1) * 2 ^ k : Nat) : Rat) →
      ∀ r', IsFloat r' → gap q (z / T) ≤ gap q r' := by
    intro z hz h1 h2 r' ⟨m', k', hm', hk', hr'⟩
    have hb := float_between m4 m' k' hm'
    rw [hT] at hr'
    have hsc : ∀ r, gap q r * T = gap (q * T) (r * T) := by
      intro r
      have : q * T ≤ r * T ↔ q ≤ r := ⟨fun h => Rat.le_of_mul_le_mul_right h hTp, fun h => Rat.mul_le_mul_of_nonneg_right h (Rat.le_of_lt hTp)⟩
      unfold gap
      by_cases hq : q ≤ r
      · rw [if_pos hq, if_pos (this.2 hq)]; grind
      · rw [if_neg hq, if_neg (fun h => hq (this.1 h))]; grind
    refine Rat.le_of_mul_le_mul_right ?_ hTp
    rw [hsc, hsc, hdiv, hr']
    have hb' : ((m' * 2 ^ k' : Int) : Rat) ≤ ((m * 2 ^ k : Nat) : Rat) ∨ (((m + 1) * 2 ^ k : Nat) : Rat) ≤ ((m' * 2 ^ k' : Int) : Rat) := by
      rcases hb with hb | hb
      · left; exact Rat.intCast_le_intCast.2 hb
      · right; exact Rat.intCast_le_intCast.2 hb
    generalize ((m' * 2 ^ k' : Int) : Rat) = z' at *
    generalize ((m * 2 ^ k : Nat) : Rat) = lo at *
    generalize (((m + 1) * 2 ^ k : Nat) : Rat) = hi at *
    generalize q * T = x at *
    clear hsc hdiv flo fhi
    unfold gap at h1 h2 ⊢
    grind
  split
  · next hc =>
    refine ⟨flo, key _ (.inl rfl) Rat.le_refl ?_⟩
    generalize ((m * 2 ^ k : Nat) : Rat) = lo at *
    generalize (((m + 1) * 2 ^ k : Nat) : Rat) = hi at *
    generalize q * T = x at *
    unfold gap; grind
  · next hc =>
    refine ⟨fhi, key _ (.inr rfl) ?_ Rat.le_refl⟩
    generalize ((m * 2 ^ k : Nat) : Rat) = lo at *
    generalize (((m + 1) * 2 ^ k : Nat) : Rat) = hi at *
    generalize q * T = x at *
    have hc' : ¬ (x - lo < hi - x) := fun h => hc (.inl h)
    unfold gap; grind

theorem round64_rounds : Rounds round64 := by
  intro q ⟨h1, h2⟩
  unfold round64
  split
  · next h => exact roundPos_nearest q h h2
  · next h =>
    have hn := roundPos_nearest (-q) (by grind) (by generalize (2 : Rat) ^ 1023 = U at *; grind)
    refine ⟨isFloat_neg hn.1, fun r' hr' => ?_⟩
    have := hn.2 (-r') (isFloat_neg hr')
    unfold gap at this ⊢
    grind

end Verif
