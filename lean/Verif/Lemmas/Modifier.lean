import Verif.Model.Modifier
import Verif.Spec.Modifier
namespace Verif
open Spec

/-! ### compactXML -/

theorem compact_text (b rest : Bytes) (h : c!"<" ∉ b) :
    compactLoop false false (b ++ rest) = (Piece.text b).squeezed ++ compactLoop false false rest := by
  induction b with
  | nil => simp [Piece.squeezed]
  | cons c cs ih =>
    simp only [List.mem_cons, not_or] at h
    have hc : c ≠ c!"<" := fun e => h.1 e.symm
    have ih := ih h.2
    simp only [Piece.squeezed, List.cons_append] at *
    rw [compactLoop]
    have hp : b!"<![CDATA[".isPrefixOf (c :: (cs ++ rest)) = false := by simp [List.isPrefixOf, Ne.symm hc]
    simp only [hp, hc, Bool.and_false, Bool.false_eq_true, Bool.false_and, if_false, ih, isWs]
    by_cases hg : c = c!">"
    · subst hg; simp
    · simp only [hg, if_false]
      by_cases hw : (c = c!" " || c = 9 || c = 10 || c = 13) = true
      · rw [if_neg (by simp [hw]), List.filter_cons, if_neg (by simp [hw])]
      · rw [if_pos (by simp [hw]), List.filter_cons, if_pos (by simp [hw])]; rfl

theorem compact_tag (b rest : Bytes) (h : c!">" ∉ b) :
    compactLoop true false (b ++ b!">" ++ rest) = b ++ b!">" ++ compactLoop false false rest := by
  induction b with
  | nil => simp only [List.nil_append, List.cons_append]; rw [compactLoop]; simp
  | cons c cs ih =>
    simp only [List.mem_cons, not_or] at h
    have hc : c ≠ c!">" := fun e => h.1 e.symm
    simp only [List.cons_append]
    rw [compactLoop]
    simp only [Bool.not_true, Bool.false_and, Bool.false_eq_true, if_false, hc, if_true]
    have ih := ih h.2
    simp only [List.append_assoc, List.cons_append, List.nil_append] at ih ⊢
    split <;> rw [ih]

theorem compact_tag_open (b : Bytes) (h : c!">" ∉ b) : compactLoop true false b = b := by
  induction b with
  | nil => rw [compactLoop]
  | cons c cs ih =>
    simp only [List.mem_cons, not_or] at h
    have hc : c ≠ c!">" := fun e => h.1 e.symm
    rw [compactLoop]
    simp only [Bool.not_true, Bool.false_and, Bool.false_eq_true, if_false, hc, if_true]
    split <;> rw [ih h.2]

theorem infix_tail {w : Bytes} {c : UInt8} {cs : Bytes} (h : ¬ w <:+: c :: cs) : ¬ w <:+: cs :=
  fun hi => h (hi.trans (List.suffix_cons c cs).isInfix)

theorem infix_drop {w cs : Bytes} (n : Nat) (h : ¬ w <:+: cs) : ¬ w <:+: cs.drop n :=
  fun hi => h (hi.trans (List.drop_suffix n cs).isInfix)

/-- A prefix without `]` of `b ++ ]...` lies in `b`. -/
theorem prefix_before (w b rest : Bytes) (hw : c!"]" ∉ w) (h : w.isPrefixOf (b ++ c!"]" :: rest) = true) :
    ∃ t, b = w ++ t := by
  induction w generalizing b with
  | nil => exact ⟨b, rfl⟩
  | cons x xs ih =>
    simp only [List.mem_cons, not_or] at hw
    cases b with
    | nil =>
      simp only [List.nil_append, List.isPrefixOf, Bool.and_eq_true, beq_iff_eq] at h
      exact absurd h.1.symm hw.1
    | cons y ys =>
      simp only [List.cons_append, List.isPrefixOf, Bool.and_eq_true, beq_iff_eq] at h
      obtain ⟨t, ht⟩ := ih ys hw.2 h.2
      exact ⟨t, by rw [h.1, ht]; rfl⟩

theorem close_not_prefix (b rest : Bytes) (h : ¬ b!"]]>" <:+: b) (hne : b ≠ []) :
    b!"]]>".isPrefixOf (b ++ b!"]]>" ++ rest) = false := by
  rcases b with _ | ⟨x, _ | ⟨y, _ | ⟨z, t⟩⟩⟩
  · exact absurd rfl hne
  · simp [List.isPrefixOf]
  · simp [List.isPrefixOf]
  · by_cases hp : b!"]]>".isPrefixOf (x :: y :: z :: t) = true
    · exact absurd (List.isPrefixOf_iff_prefix.mp hp).isInfix h
    · simp only [List.isPrefixOf, List.cons_append, Bool.not_eq_true] at hp ⊢
      exact hp

theorem compact_cdata (b rest : Bytes) (h : ¬ b!"]]>" <:+: b) :
    compactLoop false true (b ++ b!"]]>" ++ rest) = b ++ b!"]]>" ++ compactLoop false false rest := by
  induction hn : b.length using Nat.strongRecOn generalizing b with
  | ind n ih =>
    cases b with
    | nil =>
      simp only [List.nil_append, List.cons_append]
      rw [compactLoop]; simp [List.isPrefixOf]
    | cons c cs =>
      have hcl := close_not_prefix (c :: cs) rest h (by simp)
      simp only [List.cons_append] at hcl ⊢
      rw [compactLoop]
      simp only [Bool.not_false, Bool.true_and, if_true, hcl, Bool.false_eq_true, if_false]
      split
      · rename_i hp
        simp only [List.append_assoc, List.cons_append, List.nil_append] at hp
        obtain ⟨t, ht⟩ := prefix_before b!"<![CDATA[" (c :: cs) (c!"]" :: c!">" :: rest) (by decide) hp
        simp only [List.cons_append, List.nil_append, List.cons.injEq] at ht
        obtain ⟨rfl, rfl⟩ := ht
        have ht' : ¬ b!"]]>" <:+: t := by
          have := infix_drop 9 h
          simpa using this
        have := ih t.length (by rw [← hn]; simp only [List.length_cons]; omega) t ht' rfl
        simp only [List.cons_append, List.append_assoc, List.nil_append, List.drop_succ_cons, List.drop_zero] at this ⊢
        rw [this]
      · have := ih cs.length (by rw [← hn]; simp) cs (infix_tail h) rfl
        rw [this]

theorem compact_cdata_open (b : Bytes) (h : ¬ b!"]]>" <:+: b) : compactLoop false true b = b := by
  induction hn : b.length using Nat.strongRecOn generalizing b with
  | ind n ih =>
    cases b with
    | nil => rw [compactLoop]
    | cons c cs =>
      have hcl : b!"]]>".isPrefixOf (c :: cs) = false := by
        cases hq : b!"]]>".isPrefixOf (c :: cs) with
        | false => rfl
        | true => exact absurd (List.isPrefixOf_iff_prefix.mp hq).isInfix h
      rw [compactLoop]
      simp only [Bool.not_false, Bool.true_and, if_true, hcl, Bool.false_eq_true, if_false]
      split
      · rename_i hp
        obtain ⟨t, ht⟩ := List.isPrefixOf_iff_prefix.mp hp
        simp only [List.cons_append, List.nil_append, List.cons.injEq] at ht
        obtain ⟨rfl, rfl⟩ := ht
        have ht' : ¬ b!"]]>" <:+: t := by
          have := infix_drop 9 h
          simpa using this
        have := ih t.length (by rw [← hn]; simp only [List.length_cons]; omega) t ht' rfl
        simp only [List.cons_append, List.drop_succ_cons, List.drop_zero, List.nil_append] at this ⊢
        rw [this]
      · rw [ih cs.length (by rw [← hn]; simp) cs (infix_tail h) rfl]

theorem not_cdata_prefix {b rest : Bytes} (h1 : c!">" ∉ b) (h : ¬ b!"![CDATA[" <+: b) :
    b!"<![CDATA[".isPrefixOf (c!"<" :: (b ++ c!">" :: rest)) = false := by
  cases hq : b!"<![CDATA[".isPrefixOf (c!"<" :: (b ++ c!">" :: rest)) with
  | false => rfl
  | true =>
    exfalso
    simp only [List.isPrefixOf, beq_self_eq_true, Bool.true_and] at hq
    apply h
    have key : ∀ (w b : Bytes), c!">" ∉ w → w.isPrefixOf (b ++ c!">" :: rest) = true → w <+: b := by
      intro w
      induction w with
      | nil => intro b _ _; exact List.nil_prefix
      | cons x xs ih =>
        intro b hw hp
        simp only [List.mem_cons, not_or] at hw
        cases b with
        | nil => simp only [List.nil_append, List.isPrefixOf, Bool.and_eq_true, beq_iff_eq] at hp; exact absurd hp.1.symm hw.1
        | cons y ys =>
          simp only [List.cons_append, List.isPrefixOf, Bool.and_eq_true, beq_iff_eq] at hp
          rw [hp.1]; exact List.cons_prefix_cons.mpr ⟨rfl, ih ys hw.2 hp.2⟩
    exact key _ b (by decide) hq

theorem compact_pieces (ps : List Piece) (t : Tail) (h : ∀ p ∈ ps, p.Ok) (ht : t.Ok) :
    compactXML (ps.flatMap Piece.bytes ++ t.bytes) = ps.flatMap Piece.squeezed ++ t.bytes := by
  unfold compactXML
  induction ps with
  | nil =>
    simp only [List.flatMap_nil, List.nil_append]
    cases t with
    | none => simp [Tail.bytes, compactLoop]
    | tag b =>
      obtain ⟨h1, h2⟩ := ht
      simp only [Tail.bytes, List.cons_append, List.nil_append]
      rw [compactLoop]
      have : b!"<![CDATA[".isPrefixOf (c!"<" :: b) = false := by
        cases hq : b!"<![CDATA[".isPrefixOf (c!"<" :: b) with
        | false => rfl
        | true =>
          simp only [List.isPrefixOf, beq_self_eq_true, Bool.true_and] at hq
          exact absurd (List.isPrefixOf_iff_prefix.mp hq) h2
      simp only [this, Bool.and_false, Bool.false_eq_true, if_false, Bool.false_and, if_true, compact_tag_open b h1]
    | cdata b =>
      simp only [Tail.bytes, List.cons_append, List.nil_append]
      rw [compactLoop]
      simp [List.isPrefixOf, compact_cdata_open b ht]
  | cons p ps ih =>
    have ih := ih (fun q hq => h q (List.mem_cons_of_mem _ hq))
    have hp := h p List.mem_cons_self
    simp only [List.flatMap_cons, List.append_assoc]
    cases p with
    | text b => rw [show (Piece.text b).bytes = b from rfl, compact_text _ _ hp, ih]
    | tag b =>
      obtain ⟨h1, h2⟩ := hp
      simp only [Piece.bytes, Piece.squeezed, List.cons_append, List.nil_append, List.append_assoc]
      rw [compactLoop]
      simp only [not_cdata_prefix h1 h2, Bool.and_false, Bool.false_eq_true, if_false, Bool.false_and, if_true]
      have := compact_tag b (ps.flatMap Piece.bytes ++ t.bytes) h1
      simp only [List.append_assoc, List.cons_append, List.nil_append] at this
      rw [this, ih]
    | cdata b =>
      simp only [Piece.bytes, Piece.squeezed, List.cons_append, List.nil_append, List.append_assoc]
      rw [compactLoop]
      simp only [List.isPrefixOf, beq_self_eq_true, Bool.true_and, Bool.not_false, if_true, List.drop_succ_cons, List.drop_zero]
      have := compact_cdata b (ps.flatMap Piece.bytes ++ t.bytes) hp
      simp only [List.append_assoc, List.cons_append, List.nil_append] at this
      rw [this, ih]
      simp

/-- First occurrence of a byte. -/
theorem split_at (c : UInt8) (s : Bytes) (h : c ∈ s) : ∃ a b, s = a ++ c :: b ∧ c ∉ a := by
  induction s with
  | nil => simp at h
  | cons x xs ih =>
    by_cases hx : x = c
    · exact ⟨[], xs, by rw [hx]; rfl, by simp⟩
    · have : c ∈ xs := by
        rcases List.mem_cons.mp h with h | h
        · exact absurd h.symm hx
        · exact h
      obtain ⟨a, b, he, hn⟩ := ih this
      exact ⟨x :: a, b, by rw [he]; rfl, by simp [hn, Ne.symm hx]⟩

/-- First occurrence of `]]>`. -/
theorem split_close (s : Bytes) (h : b!"]]>" <:+: s) : ∃ a b, s = a ++ b!"]]>" ++ b ∧ ¬ b!"]]>" <:+: a := by
  induction s with
  | nil => simp [List.infix_nil] at h
  | cons x xs ih =>
    by_cases hp : b!"]]>" <+: x :: xs
    · obtain ⟨t, ht⟩ := hp
      exact ⟨[], t, by rw [← ht]; rfl, by simp [List.infix_nil]⟩
    · have h' : b!"]]>" <:+: xs := by
        rcases List.infix_cons_iff.mp h with h | h
        · exact absurd h hp
        · exact h
      obtain ⟨a, b, he, hn⟩ := ih h'
      refine ⟨x :: a, b, by rw [he]; rfl, ?_⟩
      intro hi
      rcases List.infix_cons_iff.mp hi with h2 | h2
      · apply hp
        rw [he]
        obtain ⟨t, ht⟩ := h2
        exact ⟨t ++ b!"]]>" ++ b, by
          have := congrArg (· ++ (b!"]]>" ++ b)) ht
          simpa [List.append_assoc] using this⟩
      · exact hn h2

theorem pieces_exist (s : Bytes) : ∃ (ps : List Piece) (t : Tail), (∀ p ∈ ps, Piece.Ok p) ∧ Tail.Ok t ∧ s = ps.flatMap Piece.bytes ++ t.bytes := by
  induction hn : s.length using Nat.strongRecOn generalizing s with
  | ind n ih =>
    cases s with
    | nil => exact ⟨[], .none, by simp, trivial, rfl⟩
    | cons c cs =>
      by_cases hc : c = c!"<"
      · subst hc
        by_cases hp : b!"![CDATA[" <+: cs
        · obtain ⟨r, rfl⟩ := hp
          by_cases hcl : b!"]]>" <:+: r
          · obtain ⟨a, b, rfl, ha⟩ := split_close r hcl
            obtain ⟨ps, t, h1, h2, h3⟩ := ih b.length (by rw [← hn]; simp only [List.length_cons, List.length_append]; omega) b rfl
            refine ⟨.cdata a :: ps, t, ?_, h2, ?_⟩
            · intro p hp
              rcases List.mem_cons.mp hp with rfl | hp
              · exact ha
              · exact h1 p hp
            · simp only [List.flatMap_cons, Piece.bytes, List.append_assoc]
              rw [← h3]; simp
          · exact ⟨[], .cdata r, by simp, hcl, by simp [Tail.bytes]⟩
        · by_cases hg : c!">" ∈ cs
          · obtain ⟨a, b, rfl, ha⟩ := split_at _ cs hg
            obtain ⟨ps, t, h1, h2, h3⟩ := ih b.length (by rw [← hn]; simp only [List.length_cons, List.length_append]; omega) b rfl
            refine ⟨.tag a :: ps, t, ?_, h2, ?_⟩
            · intro p hp'
              rcases List.mem_cons.mp hp' with rfl | hp'
              · exact ⟨ha, fun h => hp (h.trans (List.prefix_append a _))⟩
              · exact h1 p hp'
            · simp only [List.flatMap_cons, Piece.bytes, List.append_assoc]
              rw [← h3]; simp
          · exact ⟨[], .tag cs, by simp, ⟨hg, hp⟩, by simp [Tail.bytes]⟩
      · obtain ⟨ps, t, h1, h2, h3⟩ := ih cs.length (by rw [← hn]; simp) cs rfl
        refine ⟨.text [c] :: ps, t, ?_, h2, ?_⟩
        · intro p hp
          rcases List.mem_cons.mp hp with rfl | hp
          · simp [Piece.Ok, Ne.symm hc]
          · exact h1 p hp
        · simp only [List.flatMap_cons, Piece.bytes, List.append_assoc]
          rw [← h3]; rfl

/-- The squeezed piece, as a piece. -/
def Piece.squeeze : Piece → Piece
  | .text b => .text (Piece.text b).squeezed
  | .tag b => .tag b
  | .cdata b => .cdata b

theorem squeeze_bytes (p : Piece) : (Piece.squeeze p).bytes = p.squeezed := by cases p <;> rfl
theorem squeeze_squeezed (p : Piece) : (Piece.squeeze p).squeezed = p.squeezed := by
  cases p <;> simp [Piece.squeeze, Piece.squeezed, List.filter_filter]
theorem squeeze_ok (p : Piece) (h : p.Ok) : (Piece.squeeze p).Ok := by
  cases p with
  | text b => exact fun hm => h ((List.mem_filter.mp hm).1)
  | tag b => exact h
  | cdata b => exact h

/-! ### sorting -/

theorem bytesLt_irrefl (a : Bytes) : bytesLt a a = false := by
  induction a with
  | nil => rfl
  | cons x xs ih => simp [bytesLt, ih, UInt8.lt_irrefl]

theorem bytesLt_trans {a b c : Bytes} (h1 : bytesLt a b = true) (h2 : bytesLt b c = true) : bytesLt a c = true := by
  induction a generalizing b c with
  | nil =>
    cases b with
    | nil => simp [bytesLt] at h1
    | cons y ys =>
      cases c with
      | nil => simp [bytesLt] at h2
      | cons z zs => rfl
  | cons x xs ih =>
    cases b with
    | nil => simp [bytesLt] at h1
    | cons y ys =>
      cases c with
      | nil => simp [bytesLt] at h2
      | cons z zs =>
        simp only [bytesLt] at h1 h2 ⊢
        by_cases hxy : x < y
        · by_cases hyz : y < z
          · simp [UInt8.lt_trans hxy hyz]
          · simp only [hyz, if_false] at h2
            by_cases hzy : z < y
            · simp [hzy] at h2
            · have : y = z := by
                apply UInt8.toNat_inj.mp
                rw [UInt8.lt_iff_toNat_lt] at hyz hzy; omega
              subst this; simp [hxy]
        · simp only [hxy, if_false] at h1
          by_cases hyx : y < x
          · simp [hyx] at h1
          · have : x = y := by
              apply UInt8.toNat_inj.mp
              rw [UInt8.lt_iff_toNat_lt] at hxy hyx; omega
            subst this
            simp only [UInt8.lt_irrefl, if_false] at h1
            by_cases hyz : x < z
            · simp [hyz]
            · simp only [hyz, if_false] at h2 ⊢
              by_cases hzy : z < x
              · simp [hzy] at h2
              · simp only [hzy, if_false] at h2 ⊢
                exact ih h1 h2

theorem bytesLt_tri (a b : Bytes) (h1 : bytesLt a b = false) (h2 : bytesLt b a = false) : a = b := by
  induction a generalizing b with
  | nil => cases b with
    | nil => rfl
    | cons y ys => simp [bytesLt] at h1
  | cons x xs ih => cases b with
    | nil => simp [bytesLt] at h2
    | cons y ys =>
      simp only [bytesLt] at h1 h2
      by_cases hxy : x < y
      · simp [hxy] at h1
      · by_cases hyx : y < x
        · simp [hyx] at h2
        · have : x = y := by
            apply UInt8.toNat_inj.mp
            rw [UInt8.lt_iff_toNat_lt] at hxy hyx; omega
          subst this
          simp only [UInt8.lt_irrefl, if_false, Bool.false_eq_true] at h1 h2
          rw [ih ys h1 h2]

theorem FVal.lt_irrefl (a : FVal) : a.lt a = false := by
  cases a with
  | fin q => simp [FVal.lt, Rat.lt_irrefl]
  | inf n => cases n <;> rfl
  | nan => rfl

theorem FVal.lt_trans {a b c : FVal} (h1 : a.lt b = true) (h2 : b.lt c = true) : a.lt c = true := by
  cases a with
  | nan => simp [FVal.lt] at h1
  | fin q => cases b with
    | nan => simp [FVal.lt] at h1
    | fin r => cases c with
      | nan => simp [FVal.lt] at h2
      | fin s => simp only [FVal.lt, decide_eq_true_eq] at *; exact Rat.not_le.mp (fun h => Rat.not_le.mpr h1 (Rat.le_trans (Rat.le_of_lt h2) h))
      | inf n => simpa [FVal.lt] using h2
    | inf n => cases c with
      | nan => simp [FVal.lt] at h2
      | fin s => cases n <;> simp [FVal.lt] at h1 h2
      | inf m => cases n <;> cases m <;> simp_all [FVal.lt]
  | inf n => cases b with
    | nan => simp [FVal.lt] at h1
    | fin r => cases c with
      | nan => simp [FVal.lt] at h2
      | fin s => simpa [FVal.lt] using h1
      | inf m => cases n <;> cases m <;> simp_all [FVal.lt]
    | inf m => cases c with
      | nan => simp [FVal.lt] at h2
      | fin s => cases n <;> cases m <;> simp_all [FVal.lt]
      | inf k => cases n <;> cases m <;> cases k <;> simp_all [FVal.lt]

theorem FVal.lt_tri (a b : FVal) (ha : a ≠ .nan) (hb : b ≠ .nan) (h1 : a.lt b = false) (h2 : b.lt a = false) : a = b := by
  cases a with
  | nan => exact absurd rfl ha
  | fin q => cases b with
    | nan => exact absurd rfl hb
    | fin r =>
      simp only [FVal.lt, decide_eq_false_iff_not, Rat.not_lt] at h1 h2
      rw [Rat.le_antisymm h2 h1]
    | inf n => cases n <;> simp_all [FVal.lt]
  | inf n => cases b with
    | nan => exact absurd rfl hb
    | fin r => cases n <;> simp_all [FVal.lt]
    | inf m => cases n <;> cases m <;> simp_all [FVal.lt]

end Verif
namespace Verif
open Spec

theorem FVal.lt_iff (a b : FVal) : a.lt b = true ↔ Below a b := by
  constructor
  · intro h
    cases a with
    | nan => simp [FVal.lt] at h
    | fin q => cases b with
      | nan => simp [FVal.lt] at h
      | fin r => exact .fin (by simpa [FVal.lt] using h)
      | inf n => cases n
                 · exact .finPos
                 · simp [FVal.lt] at h
    | inf n => cases n with
      | false => cases b <;> simp [FVal.lt] at h
      | true => cases b with
        | nan => simp [FVal.lt] at h
        | fin r => exact .negFin
        | inf m => cases m
                   · exact .negPos
                   · simp [FVal.lt] at h
  · intro h; cases h <;> simp_all [FVal.lt]

theorem bytesLt_iff (a b : Bytes) : bytesLt a b = true ↔ LexBefore a b := by
  induction a generalizing b with
  | nil => cases b with
    | nil => simp only [bytesLt, Bool.false_eq_true, false_iff]; intro h; cases h
    | cons y ys => simp only [bytesLt, true_iff]; exact .nil y ys
  | cons x xs ih => cases b with
    | nil => simp only [bytesLt, Bool.false_eq_true, false_iff]; intro h; cases h
    | cons y ys =>
      simp only [bytesLt]
      by_cases hxy : x < y
      · simp only [hxy, if_true, true_iff]; exact .head xs ys hxy
      · simp only [hxy, if_false]
        by_cases hyx : y < x
        · simp only [hyx, if_true, Bool.false_eq_true, false_iff]
          intro h
          cases h with
          | head _ _ h => exact hxy h
          | tail _ h => exact UInt8.lt_irrefl _ hyx
        · have : x = y := by
            apply UInt8.toNat_inj.mp
            rw [UInt8.lt_iff_toNat_lt] at hxy hyx; omega
          subst this
          simp only [hyx, if_false]
          rw [ih]
          constructor
          · exact .tail x
          · intro h
            cases h with
            | head _ _ h => exact absurd h hxy
            | tail _ h => exact h

theorem numberOf_eq (pf : Bytes → Option FVal) (r : Result) : sortNum pf r = numberOf pf r := by
  unfold sortNum numberOf
  cases r.typ <;> simp

theorem sortLess_weak (pf : Bytes → Option FVal) (l : List Result)
    (hn : (∀ r ∈ l, (numberOf pf r).isSome) → ∀ r ∈ l, numberOf pf r ≠ some .nan) :
    StrictWeakOn (sortLess pf l) l := by
  unfold sortLess
  by_cases h : l.all (fun r => (sortNum pf r).isSome) = true
  · rw [if_pos h]
    have h2 : ∀ r ∈ l, ∃ x, sortNum pf r = some x ∧ x ≠ .nan := by
      simp only [List.all_eq_true] at h
      intro r hr
      obtain ⟨x, hx⟩ := Option.isSome_iff_exists.mp (h r hr)
      refine ⟨x, hx, ?_⟩
      have := hn (fun r hr => by rw [← numberOf_eq]; exact h r hr) r hr
      rw [← numberOf_eq, hx] at this
      rintro rfl; exact this rfl
    refine ⟨?_, ?_, ?_⟩
    · intro a ha; obtain ⟨x, hx, -⟩ := h2 a ha; simp only [hx]; exact FVal.lt_irrefl x
    · intro a ha b hb c hc
      obtain ⟨x, hx, -⟩ := h2 a ha; obtain ⟨y, hy, -⟩ := h2 b hb; obtain ⟨z, hz, -⟩ := h2 c hc
      simp only [hx, hy, hz]; exact FVal.lt_trans
    · intro a ha b hb c hc
      obtain ⟨x, hx, nx⟩ := h2 a ha; obtain ⟨y, hy, ny⟩ := h2 b hb; obtain ⟨z, hz, nz⟩ := h2 c hc
      simp only [hx, hy, hz]
      intro h1 h2 h3 h4
      have e1 := FVal.lt_tri x y nx ny h1 h2
      have e2 := FVal.lt_tri y z ny nz h3 h4
      subst e1 e2
      exact ⟨h1, h1⟩
  · rw [if_neg h]
    refine ⟨fun a _ => bytesLt_irrefl _, fun a _ b _ c _ => bytesLt_trans, ?_⟩
    intro a _ b _ c _ h1 h2 h3 h4
    have e1 := bytesLt_tri _ _ h1 h2
    have e2 := bytesLt_tri _ _ h3 h4
    rw [e1, e2]
    exact ⟨bytesLt_irrefl _, bytesLt_irrefl _⟩

/-! ### pipelines -/

theorem runMods_pipeline (mods : Bytes → Option (Result → Result)) (r out : Result) (ns : List Bytes) :
    runMods mods r ns = out ↔ Pipeline mods r ns out := by
  induction ns generalizing r with
  | nil =>
    simp only [runMods]
    constructor
    · rintro rfl; exact .done _
    · intro h; cases h; rfl
  | cons n ns ih =>
    simp only [runMods]
    cases hm : mods n with
    | none =>
      simp only
      constructor
      · rintro rfl; exact .unknown _ _ _ hm
      · intro h; cases h <;> simp_all
    | some m =>
      simp only
      by_cases hx : (m r).typ = .null
      · rw [if_pos hx]
        have he : (m r).exists? = false := by simp [Result.exists?, hx]
        constructor
        · rintro rfl; exact .stop _ _ _ _ hm he
        · intro h; cases h <;> simp_all
      · rw [if_neg hx]
        have he : (m r).exists? = true := by simp [Result.exists?, hx]
        rw [ih]
        constructor
        · exact .next _ _ _ _ _ hm he
        · intro h; cases h <;> simp_all

/-! ### registry -/

/-- The registry after one call. -/
def RegOp.run {M : Type} (reg : Registry M) : RegOp M → Registry M
  | .register n m => (registerModifier reg n m).1
  | .unregister n => (unregisterModifier reg n).1

theorem run_builtin {M : Type} (reg : Registry M) (h : List (RegOp M)) (n : Bytes) (hb : isBuiltin n = true)
    (x : Option M) (hr : reg n = some x) : h.foldl RegOp.run reg n = some x := by
  induction h generalizing reg with
  | nil => exact hr
  | cons op h ih =>
    simp only [List.foldl_cons]
    apply ih
    cases op with
    | register k m =>
      simp only [RegOp.run, registerModifier]
      split
      · exact hr
      · split
        · exact hr
        · rename_i _ hk
          simp only
          rw [if_neg]; · exact hr
          rintro rfl; rw [hr] at hk; simp at hk
    | unregister k =>
      simp only [RegOp.run, unregisterModifier]
      split
      · exact hr
      · rename_i hk
        simp only
        rw [if_neg]; · exact hr
        rintro rfl; exact hk hb

theorem run_custom {M : Type} (reg : Registry M) (h : List (RegOp M)) (n : Bytes) (hb : isBuiltin n = false)
    (hne : n ≠ []) (hr : reg n = none) (m : Option M) :
    h.foldl RegOp.run reg n = some m ↔ LeftRegistered h n m := by
  have hemp : n.isEmpty = false := by simpa using hne
  -- by induction on the history from its end
  suffices hs : ∀ (k : List (RegOp M)), (∀ m, k.reverse.foldl RegOp.run reg n = some m ↔ LeftRegistered k.reverse n m) by
    have := hs h.reverse m; rwa [List.reverse_reverse] at this
  intro k
  induction k with
  | nil =>
    intro m
    simp only [List.reverse_nil, List.foldl_nil, hr, reduceCtorEq, false_iff]
    rintro ⟨h1, h2, he, -⟩
    simp at he
  | cons op k ih =>
    intro m
    simp only [List.reverse_cons, List.foldl_append, List.foldl_cons, List.foldl_nil]
    have other : (∀ m', op ≠ .register n m') → op ≠ .unregister n →
        (LeftRegistered (k.reverse ++ [op]) n m ↔ LeftRegistered k.reverse n m) := by
      intro hnr hnu
      constructor
      · rintro ⟨h1, h2, he, h3, h4⟩
        rcases List.eq_nil_or_concat h2 with rfl | ⟨h2', x, rfl⟩
        · have := List.append_inj_right' he (by simp)
          simp only [List.cons.injEq, and_true] at this
          exact absurd this (hnr m)
        · rw [List.concat_eq_append] at he h3
          have he2 : k.reverse ++ [op] = (h1 ++ RegOp.register n m :: h2') ++ [x] := by simpa using he
          obtain ⟨e1, -⟩ := List.append_inj' he2 (by simp)
          exact ⟨h1, h2', e1, fun o ho => h3 o (by simp [ho]), h4⟩
      · rintro ⟨h1, h2, he, h3, h4⟩
        refine ⟨h1, h2 ++ [op], by rw [he]; simp, ?_, h4⟩
        intro o ho
        rcases List.mem_append.mp ho with ho | ho
        · exact h3 o ho
        · simp only [List.mem_singleton] at ho; subst ho; exact hnu
    cases op with
    | unregister x =>
      by_cases hx : x = n
      · subst hx
        simp only [RegOp.run, unregisterModifier, hb, Bool.false_eq_true, if_false, if_true, reduceCtorEq, false_iff]
        rintro ⟨h1, h2, he, h3, -⟩
        rcases List.eq_nil_or_concat h2 with rfl | ⟨h2', y, rfl⟩
        · have := List.append_inj_right' he (by simp)
          simp at this
        · rw [List.concat_eq_append] at he h3
          have he2 : k.reverse ++ [RegOp.unregister x] = (h1 ++ RegOp.register x m :: h2') ++ [y] := by simpa using he
          obtain ⟨-, e2⟩ := List.append_inj' he2 (by simp)
          simp only [List.cons.injEq, and_true] at e2
          exact h3 y (by simp) e2.symm
      · rw [other (by simp) (by simp [hx]), ← ih]
        simp only [RegOp.run, unregisterModifier]
        split
        · rfl
        · simp only; rw [if_neg (fun e => hx e.symm)]
    | register x m' =>
      by_cases hx : x = n
      · subst hx
        simp only [RegOp.run, registerModifier, hemp, Bool.false_eq_true, if_false]
        cases hreg : k.reverse.foldl RegOp.run reg x with
        | some y =>
          simp only [Option.isSome_some, if_true, hreg, Option.some.injEq]
          have hy := (ih y).mp hreg
          constructor
          · rintro rfl
            obtain ⟨h1, h2, he, h3, h4⟩ := hy
            refine ⟨h1, h2 ++ [.register x m'], by rw [he]; simp, ?_, h4⟩
            intro o ho
            rcases List.mem_append.mp ho with ho | ho
            · exact h3 o ho
            · simp only [List.mem_singleton] at ho; subst ho; simp
          · rintro ⟨h1, h2, he, h3, h4⟩
            rcases List.eq_nil_or_concat h2 with rfl | ⟨h2', z, rfl⟩
            · obtain ⟨e1, e2⟩ := List.append_inj' he (by simp)
              obtain ⟨g1, g2, ge, g3, g4⟩ := hy
              rw [← e1] at h4
              obtain ⟨o, ho, hoe⟩ := h4 g1 g2 y ge
              exact absurd hoe (g3 o ho)
            · rw [List.concat_eq_append] at he h3
              have he2 : k.reverse ++ [RegOp.register x m'] = (h1 ++ RegOp.register x m :: h2') ++ [z] := by simpa using he
              obtain ⟨e1, -⟩ := List.append_inj' he2 (by simp)
              have := (ih m).mpr ⟨h1, h2', e1, fun o ho => h3 o (by simp [ho]), h4⟩
              rw [hreg] at this
              simpa using this
        | none =>
          simp only [Option.isSome_none, Bool.false_eq_true, if_false, if_true, Option.some.injEq]
          have hno : ∀ y, ¬ LeftRegistered k.reverse x y := fun y hy => by
            have := (ih y).mpr hy; rw [hreg] at this; simp at this
          constructor
          · rintro rfl
            refine ⟨k.reverse, [], rfl, by simp, ?_⟩
            intro k1 k2 m'' hk
            -- otherwise the first such registration would still be there
            apply Classical.byContradiction
            intro hcon
            replace hcon : ∀ op ∈ k2, op ≠ .unregister x := fun op ho he => hcon ⟨op, ho, he⟩
            clear hreg ih other
            -- the earliest registration after the last unregistration
            have : ∃ y, LeftRegistered k.reverse x y := by
              generalize k.reverse = kk at hk
              clear hno
              induction hl : k1.length using Nat.strongRecOn generalizing k1 k2 m'' with
              | ind L ihL =>
                by_cases hall : ∀ a b m3, k1 = a ++ RegOp.register x m3 :: b → ∃ op ∈ b, op = .unregister x
                · exact ⟨m'', k1, k2, hk, hcon, hall⟩
                · simp only [Classical.not_forall] at hall
                  obtain ⟨a, b, m3, hab, hb2⟩ := hall
                  have hb2 : ∀ op ∈ b, op ≠ RegOp.unregister x := fun op ho he => hb2 ⟨op, ho, he⟩
                  refine ihL a.length ?_ a (b ++ RegOp.register x m'' :: k2) m3 ?_ ?_ rfl
                  · rw [← hl, hab]; simp
                  · intro o ho
                    rcases List.mem_append.mp ho with ho | ho
                    · exact hb2 o ho
                    · rcases List.mem_cons.mp ho with rfl | ho
                      · simp
                      · exact hcon o ho
                  · rw [hk, hab]; simp
            obtain ⟨y, hy⟩ := this
            exact hno y hy
          · rintro ⟨h1, h2, he, h3, h4⟩
            rcases List.eq_nil_or_concat h2 with rfl | ⟨h2', z, rfl⟩
            · obtain ⟨-, e2⟩ := List.append_inj' he (by simp)
              simp only [List.cons.injEq, RegOp.register.injEq, true_and, and_true] at e2
              exact e2
            · rw [List.concat_eq_append] at he h3
              have he2 : k.reverse ++ [RegOp.register x m'] = (h1 ++ RegOp.register x m :: h2') ++ [z] := by simpa using he
              obtain ⟨e1, -⟩ := List.append_inj' he2 (by simp)
              exact absurd ⟨h1, h2', e1, fun o ho => h3 o (by simp [ho]), h4⟩ (hno m)
      · rw [other (by simp [hx]) (by simp), ← ih]
        simp only [RegOp.run, registerModifier]
        split
        · rfl
        · split
          · rfl
          · simp only; rw [if_neg (fun e => hx e.symm)]

end Verif
