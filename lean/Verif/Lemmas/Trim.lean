import Verif.Lemmas.Escape
/- Escaping and trimming white space commute. -/
namespace Verif

/-- Bytes with a special place in escaping: replaced, or first or last byte of a replacement. -/
def Marked (c : UInt8) : Prop := c = c!"&" ∨ c = c!"<" ∨ c = c!">" ∨ c = c!"\"" ∨ c = c!"'" ∨ c = c!";"

/-- Bytewise encodings that keep a byte or replace a marked one by something starting with a marked one. -/
def Keeps (g : UInt8 → Bytes) : Prop := ∀ c, g c = [c] ∨ (Marked c ∧ ∃ x t, g c = x :: t ∧ Marked x)

theorem keeps_esc : Keeps escByte := by
  intro c
  unfold escByte Marked
  repeat' split
  all_goals simp_all

theorem keeps_rev : Keeps (fun c => (escByte c).reverse) := by
  intro c
  simp only [escByte, Marked]
  repeat' split
  all_goals simp_all

theorem escape_flatMap (s : Bytes) : escapeXML s = s.flatMap escByte := by
  induction s with
  | nil => rfl
  | cons c cs ih => simp [escapeXML, ih]

theorem escape_reverse (s : Bytes) : (escapeXML s).reverse = s.reverse.flatMap (fun c => (escByte c).reverse) := by
  rw [escape_flatMap, List.reverse_flatMap]; rfl

/-- A length function of space runes at the front: zero if a marked byte is there, and never reaching over a marked byte. -/
structure SpaceFn (len : Bytes → Nat) : Prop where
  first : ∀ c cs, Marked c → len (c :: cs) = 0
  nil : len [] = 0
  second : ∀ a c cs, Marked c → len (a :: c :: cs) = len [a]
  third : ∀ a b c cs, Marked c → len (a :: b :: c :: cs) = len [a, b]
  far : ∀ a b c cs, len (a :: b :: c :: cs) = len [a, b, c]
  le1 : ∀ a, len [a] ≤ 1
  le2 : ∀ a b, len [a, b] ≤ 2
  le3 : ∀ a b c, len [a, b, c] ≤ 3

theorem spaceLen_fn : SpaceFn spaceLen := by
  constructor
  · rintro c cs (rfl | rfl | rfl | rfl | rfl | rfl) <;> rfl
  · rfl
  · rintro a c cs (rfl | rfl | rfl | rfl | rfl | rfl) <;> (simp only [spaceLen]; cases cs <;> simp)
  · rintro a b c cs (rfl | rfl | rfl | rfl | rfl | rfl) <;> (simp only [spaceLen]; simp)
  · intro a b c cs; simp only [spaceLen]
  · intro a; simp only [spaceLen]; repeat' split
    all_goals omega
  · intro a b; simp only [spaceLen]; repeat' split
    all_goals omega
  · intro a b c; simp only [spaceLen]; repeat' split
    all_goals omega

theorem spaceLenRev_fn : SpaceFn spaceLenRev := by
  constructor
  · rintro c cs (rfl | rfl | rfl | rfl | rfl | rfl) <;> (simp only [spaceLenRev]; cases cs with
      | nil => simp
      | cons d ds => cases ds <;> simp)
  · rfl
  · rintro a c cs (rfl | rfl | rfl | rfl | rfl | rfl) <;> (simp only [spaceLenRev]; cases cs <;> simp)
  · rintro a b c cs (rfl | rfl | rfl | rfl | rfl | rfl) <;> (simp only [spaceLenRev]; simp)
  · intro a b c cs; simp only [spaceLenRev]
  · intro a; simp only [spaceLenRev]; repeat' split
    all_goals omega
  · intro a b; simp only [spaceLenRev]; repeat' split
    all_goals omega
  · intro a b c; simp only [spaceLenRev]; repeat' split
    all_goals omega

theorem len_enc {len : Bytes → Nat} (hl : SpaceFn len) {g : UInt8 → Bytes} (hg : Keeps g) (s : Bytes) :
    len (s.flatMap g) = len s ∧ len s ≤ s.length ∧ (s.flatMap g).drop (len s) = (s.drop (len s)).flatMap g := by
  match s with
  | [] => simp [hl.nil]
  | a :: s1 =>
    rcases hg a with ha | ⟨hm, x, t, ha, hx⟩
    · simp only [List.flatMap_cons, ha, List.singleton_append]
      match s1 with
      | [] =>
        simp only [List.flatMap_nil]
        have := hl.le1 a
        have h : len [a] = 0 ∨ len [a] = 1 := by omega
        rcases h with h | h <;> rw [h] <;> simp [ha]
      | b :: s2 =>
        rcases hg b with hb | ⟨hm, x, t, hb, hx⟩
        · simp only [List.flatMap_cons, hb, List.singleton_append]
          match s2 with
          | [] =>
            simp only [List.flatMap_nil]
            have := hl.le2 a b
            have h : len [a, b] = 0 ∨ len [a, b] = 1 ∨ len [a, b] = 2 := by omega
            rcases h with h | h | h <;> rw [h] <;> simp [ha, hb]
          | c :: s3 =>
            rcases hg c with hc | ⟨hm, x, t, hc, hx⟩
            · simp only [List.flatMap_cons, hc, List.singleton_append]
              rw [hl.far a b c s3, hl.far a b c (s3.flatMap g)]
              have := hl.le3 a b c
              have h : len [a, b, c] = 0 ∨ len [a, b, c] = 1 ∨ len [a, b, c] = 2 ∨ len [a, b, c] = 3 := by omega
              rcases h with h | h | h | h <;> rw [h] <;> simp [ha, hb, hc]
            · simp only [List.flatMap_cons, hc, List.cons_append]
              rw [hl.third a b c s3 hm, hl.third a b x _ hx]
              have := hl.le2 a b
              have h : len [a, b] = 0 ∨ len [a, b] = 1 ∨ len [a, b] = 2 := by omega
              rcases h with h | h | h <;> rw [h] <;> simp [ha, hb, hc]
        · simp only [List.flatMap_cons, hb, List.cons_append]
          rw [hl.second a b s2 hm, hl.second a x _ hx]
          have := hl.le1 a
          have h : len [a] = 0 ∨ len [a] = 1 := by omega
          rcases h with h | h <;> rw [h] <;> simp [ha, hb]
    · simp only [List.flatMap_cons, ha, List.cons_append]
      rw [hl.first _ _ hm, hl.first _ _ hx]
      simp [ha]

theorem trimFront_enc {len : Bytes → Nat} (hl : SpaceFn len) {g : UInt8 → Bytes} (hg : Keeps g) (s : Bytes) :
    trimFront len (s.flatMap g) = (trimFront len s).flatMap g := by
  induction hn : s.length using Nat.strongRecOn generalizing s with
  | _ n ih =>
    obtain ⟨h1, h2, h3⟩ := len_enc hl hg s
    by_cases h : 0 < len s
    · have hpos : 0 < (s.flatMap g).length := by
        cases s with
        | nil => simp at h2; omega
        | cons c cs =>
          simp only [List.flatMap_cons, List.length_append]
          have : 0 < (g c).length := by rcases hg c with h | ⟨_, x, t, h, _⟩ <;> rw [h] <;> simp
          omega
      rw [trimFront.eq_def len s, dif_pos ⟨h, by omega⟩, trimFront.eq_def len (s.flatMap g), dif_pos ⟨by omega, hpos⟩, h1, h3,
        ih (s.drop (len s)).length (by simp; omega) _ rfl]
    · rw [trimFront.eq_def len s, dif_neg (by omega), trimFront.eq_def len (s.flatMap g), dif_neg (by omega)]

/-- Escaping and trimming commute. -/
theorem trim_escape (s : Bytes) : trimSpace (escapeXML s) = escapeXML (trimSpace s) := by
  unfold trimSpace
  rw [escape_flatMap s, trimFront_enc spaceLen_fn keeps_esc, ← escape_flatMap, escape_reverse, trimFront_enc spaceLenRev_fn keeps_rev]
  generalize trimFront spaceLenRev (trimFront spaceLen s).reverse = x
  rw [← List.reverse_reverse x, ← escape_reverse]
  simp

end Verif
