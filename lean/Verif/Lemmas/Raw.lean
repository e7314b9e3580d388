import Verif.Spec.Raw
import Verif.Model.Set
/- validateRawXML reads tokens. -/
namespace Verif
open Spec

/-! ### indexOf -/

theorem isPrefixOf_iff {p s : Bytes} : p.isPrefixOf s = true ↔ p <+: s := List.isPrefixOf_iff_prefix

theorem indexOf_some {p : Bytes} (hp : p ≠ []) {s : Bytes} {n : Nat} :
    indexOf p s = some n ↔ p <+: s.drop n ∧ ∀ m < n, ¬ p <+: s.drop m := by
  induction s generalizing n with
  | nil =>
    have : ∀ m : Nat, ¬ p <+: ([] : Bytes).drop m := by intro m h; simp at h; exact hp h
    simp [indexOf, hp]
  | cons c cs ih =>
    rw [indexOf]
    by_cases h : p.isPrefixOf (c :: cs) = true
    · rw [if_pos h]
      rw [isPrefixOf_iff] at h
      constructor
      · rintro ⟨⟩; exact ⟨h, by omega⟩
      · rintro ⟨-, h2⟩
        cases n with
        | zero => rfl
        | succ n => exact absurd h (h2 0 (by omega))
    · rw [if_neg h]
      rw [isPrefixOf_iff] at h
      cases n with
      | zero => simp [h]
      | succ n =>
        simp only [Option.map_eq_some_iff, Nat.add_right_cancel_iff, exists_eq_right, ih, List.drop_succ_cons]
        constructor
        · rintro ⟨h1, h2⟩
          refine ⟨h1, fun m hm => ?_⟩
          cases m with
          | zero => exact h
          | succ m => exact h2 m (by omega)
        · rintro ⟨h1, h2⟩
          exact ⟨h1, fun m hm => h2 (m + 1) (by omega)⟩

theorem indexOf_none {p : Bytes} {s : Bytes} : indexOf p s = none ↔ ¬ p <:+: s := by
  induction s with
  | nil => simp [indexOf]
  | cons c cs ih =>
    rw [indexOf, List.infix_cons_iff, ← isPrefixOf_iff]
    by_cases h : p.isPrefixOf (c :: cs) = true
    · simp [h]
    · simp [h, ih]

theorem indexOf_end {p : Bytes} (hp : p ≠ []) {b : Bytes} (h : OnlyAtEnd p b) (r : Bytes) : indexOf p (b ++ r) = some (b.length - p.length) := by
  obtain ⟨⟨a, rfl⟩, h2⟩ := h
  rw [indexOf_some hp]
  have e : (a ++ p).length - p.length = a.length := by simp
  rw [e]
  refine ⟨⟨r, by simp⟩, fun m hm ⟨t, ht⟩ => ?_⟩
  have hlen : m + p.length < (a ++ p).length := by simp; omega
  have hd : (a ++ p ++ r).drop m = (a ++ p).drop m ++ r := List.drop_append_of_le_length (by simp; omega)
  rw [hd] at ht
  have h3 : p <+: (a ++ p).drop m := by
    refine List.prefix_of_prefix_length_le ⟨t, ht⟩ ⟨r, rfl⟩ ?_
    simp; omega
  obtain ⟨c, hc⟩ := h3
  have h4 := h2 ((a ++ p).take m) c (by rw [List.append_assoc, hc, List.take_append_drop])
  subst h4
  have := congrArg List.length hc
  simp only [List.append_nil, List.length_drop] at this
  omega

theorem onlyAtEnd_of_indexOf {p : Bytes} (hp : p ≠ []) {s : Bytes} {n : Nat} (h : indexOf p s = some n) :
    OnlyAtEnd p (s.take (n + p.length)) ∧ n + p.length ≤ s.length := by
  obtain ⟨⟨t, ht⟩, h2⟩ := (indexOf_some hp).mp h
  have hl := congrArg List.length ht
  have hp0 : 0 < p.length := List.length_pos_iff.mpr hp
  simp only [List.length_append, List.length_drop] at hl
  have e : s.take (n + p.length) = s.take n ++ p := by
    rw [List.take_add, ← ht]; simp
  refine ⟨⟨⟨s.take n, e.symm⟩, fun a c hc => ?_⟩, by omega⟩
  by_cases hcl : c = []
  · exact hcl
  have hc0 : 0 < c.length := List.length_pos_iff.mpr hcl
  have hlen := congrArg List.length hc
  simp only [List.length_append, List.length_take] at hlen
  refine absurd ?_ (h2 a.length (by omega))
  refine ⟨c ++ s.drop (n + p.length), ?_⟩
  have : s = a ++ (p ++ (c ++ s.drop (n + p.length))) := by
    rw [← List.append_assoc, ← List.append_assoc, hc, List.take_append_drop]
  conv => rhs; rw [this]
  simp

/-! ### each token -/

/-- What the loop does at `<`. -/
theorem rawLoop_lt (stack : List Bytes) (d : UInt8) (ds : Bytes) : rawLoop stack (c!"<" :: d :: ds) =
        if d = c!"/" then
          match stack with
          | [] => false
          | t :: ts =>
            if t = ds.takeWhile rawCloseChar then rawLoop ts (afterGt (ds.dropWhile rawCloseChar)) else false
        else if d = c!"!" || d = c!"?" then
          if ds.head? = some c!"-" then
            match indexOf b!"-->" (c!"<" :: d :: ds) with
            | none => false
            | some n => rawLoop stack ((d :: ds).drop (n + 2))
          else if b!"<![CDATA[".isPrefixOf (c!"<" :: d :: ds) then
            match indexOf b!"]]>" (ds.drop 7) with
            | none => false
            | some n =>
              if (indexOf b!"<![CDATA[" ((ds.drop 7).take n)).isSome then false
              else rawLoop stack (ds.drop (7 + n + 3))
          else if b!"<!DOCTYPE".isPrefixOf (c!"<" :: d :: ds) then false
          else if b!"<!ENTITY".isPrefixOf (c!"<" :: d :: ds) then false
          else
            match indexOf b!">" (c!"<" :: d :: ds) with
            | none => false
            | some n => rawLoop stack ((d :: ds).drop n)
        else if ((d :: ds).takeWhile rawOpenChar).isEmpty then false
        else
          rawLoop
            (if (rawTagEnd ((d :: ds).dropWhile rawOpenChar)).1 then stack
             else (d :: ds).takeWhile rawOpenChar :: stack)
            (rawTagEnd ((d :: ds).dropWhile rawOpenChar)).2 := by
  rw [rawLoop.eq_def]
  rfl

theorem rawLoop_text {b : Bytes} (h : c!"<" ∉ b) (st : List Bytes) (r : Bytes) : rawLoop st (b ++ r) = rawLoop st r := by
  induction b with
  | nil => rfl
  | cons c b ih =>
    simp only [List.mem_cons, not_or] at h
    rw [List.cons_append, rawLoop.eq_def]
    simp only
    rw [if_neg (Ne.symm h.1), ih h.2]

theorem takeWhile_stop {p : UInt8 → Bool} {n r : Bytes} (hn : ∀ c ∈ n, p c = true) (hr : ∀ c, r.head? = some c → p c = false) :
    (n ++ r).takeWhile p = n ∧ (n ++ r).dropWhile p = r := by
  induction n with
  | nil =>
    cases r with
    | nil => simp
    | cons c r => have := hr c rfl; simp [this]
  | cons c n ih =>
    have hc := hn c (by simp)
    have := ih (fun x hx => hn x (by simp [hx]))
    simp [hc, this.1, this.2]

theorem rawTagEnd_self {r : Bytes} (h : c!">" ∉ r) (t : Bytes) : rawTagEnd (r ++ c!"/" :: c!">" :: t) = (true, t) := by
  induction r with
  | nil => simp [rawTagEnd]
  | cons c r ih =>
    simp only [List.mem_cons, not_or] at h
    rw [List.cons_append, rawTagEnd, if_neg, if_neg (Ne.symm h.1), ih h.2]
    cases r with
    | nil => simp
    | cons d r => simp only [List.mem_cons, not_or] at h; simp [Ne.symm h.2.1]

theorem rawTagEnd_open {r : Bytes} (h : c!">" ∉ r) (hl : r.getLast? ≠ some c!"/") (t : Bytes) : rawTagEnd (r ++ c!">" :: t) = (false, t) := by
  induction r with
  | nil => simp [rawTagEnd]
  | cons c r ih =>
    simp only [List.mem_cons, not_or] at h
    cases r with
    | nil =>
      simp only [List.getLast?_singleton, ne_eq, Option.some.injEq] at hl
      simp [rawTagEnd, hl, Ne.symm h.1]
    | cons d r =>
      rw [List.cons_append, rawTagEnd, if_neg, if_neg (Ne.symm h.1), ih h.2 (by simpa [List.getLast?_cons_cons] using hl)]
      simp only [List.mem_cons, not_or] at h; simp [Ne.symm h.2.1]

theorem afterGt_skip {r : Bytes} (h : c!">" ∉ r) (t : Bytes) : afterGt (r ++ c!">" :: t) = t := by
  induction r with
  | nil => simp [afterGt]
  | cons c r ih =>
    simp only [List.mem_cons, not_or] at h
    rw [List.cons_append, afterGt, if_neg (Ne.symm h.1), ih h.2]

theorem rest_stop {r t : Bytes} {x : UInt8} (hr : r = [] ∨ r.head? = some c!" " ∨ r.head? = some c!"/") (hx : rawOpenChar x = false) :
    ∀ c, (r ++ x :: t).head? = some c → rawOpenChar c = false := by
  intro c hc
  cases r with
  | nil => simp at hc; rw [← hc]; exact hx
  | cons d r =>
    simp at hc hr
    subst hc
    rcases hr with rfl | rfl <;> decide

theorem rawName_char {n : Bytes} (h : RawName n) : ∀ c ∈ n, rawOpenChar c = true := by
  intro c hc
  have := h.1 c hc
  simp [rawOpenChar, this.1, this.2.1, this.2.2]

/-- The name of a start tag is taken off. -/
theorem rawLoop_open {n : Bytes} (h : RawName n) {q : Bytes} (hq : ∀ c, q.head? = some c → rawOpenChar c = false) (st : List Bytes) :
    rawLoop st (c!"<" :: (n ++ q)) = rawLoop (if (rawTagEnd q).1 then st else n :: st) (rawTagEnd q).2 := by
  obtain ⟨t1, t2⟩ := takeWhile_stop (rawName_char h) hq
  obtain ⟨d, ds, rfl⟩ := List.exists_cons_of_ne_nil h.2.1
  have h3 := (h.1 d (by simp)).2.2
  have h4 : d ≠ c!"!" := by simpa using h.2.2.1
  have h5 : d ≠ c!"?" := by simpa using h.2.2.2
  rw [List.cons_append] at t1 t2 ⊢
  rw [rawLoop_lt]
  rw [if_neg h3, if_neg (by simp [h4, h5]), t1, t2, if_neg (by simp)]

theorem rawLoop_close {n q : Bytes} (hn : ∀ c ∈ n, c ≠ c!">" ∧ c ≠ c!" ") (hq : ∀ c, q.head? = some c → rawCloseChar c = false) (st : List Bytes) :
    rawLoop st (c!"<" :: c!"/" :: (n ++ q)) = match st with | [] => false | t :: ts => if t = n then rawLoop ts (afterGt q) else false := by
  obtain ⟨t1, t2⟩ := takeWhile_stop (p := rawCloseChar) (n := n) (fun c hc => by have := hn c hc; simp [rawCloseChar, this.1, this.2]) hq
  rw [rawLoop_lt]
  rw [if_pos rfl, t1, t2]

theorem rawLoop_misc {b : Bytes} (h : RawMisc b) (st : List Bytes) (r : Bytes) : rawLoop st (b ++ r) = rawLoop st r := by
  cases h with
  | comment hb he =>
    have hi := indexOf_end (by simp) he r
    have hl : b!"-->".length ≤ b.length := he.1.length_le
    obtain ⟨d, x, hd, rfl⟩ : ∃ d x, (d = c!"!" ∨ d = c!"?") ∧ b = c!"<" :: d :: c!"-" :: x := by
      rcases hb with ⟨x, rfl⟩ | ⟨x, rfl⟩
      · exact ⟨_, x, Or.inl rfl, rfl⟩
      · exact ⟨_, x, Or.inr rfl, rfl⟩
    simp only [List.cons_append] at hi ⊢
    rw [rawLoop_lt]
    rw [if_neg (by rcases hd with rfl | rfl <;> decide), if_pos (by rcases hd with rfl | rfl <;> decide), if_pos (by simp), hi]
    simp only [List.length_cons, List.length_nil] at hl ⊢
    congr 1
    rw [show x.length + 1 + 1 + 1 - (0 + 1 + 1 + 1) + 2 = x.length + 2 by omega]
    simp
  | @cdata x he hn =>
    have hi := indexOf_end (by simp) he r
    have e : b!"<![CDATA[" ++ x ++ b!"]]>" ++ r = c!"<" :: c!"!" :: (b!"[CDATA[" ++ (x ++ b!"]]>" ++ r)) := by simp
    rw [e, rawLoop_lt]
    rw [if_neg (by decide), if_pos (by decide), if_neg (by simp), if_pos (by simp [List.isPrefixOf])]
    have e2 : (b!"[CDATA[" ++ (x ++ b!"]]>" ++ r)).drop 7 = x ++ b!"]]>" ++ r := rfl
    rw [e2, hi]
    have e3 : (x ++ b!"]]>").length - b!"]]>".length = x.length := by simp
    simp only [e3]
    have e4 : (x ++ b!"]]>" ++ r).take x.length = x := by simp
    rw [e4, indexOf_none.mpr hn]
    simp only [Option.isSome_none, Bool.false_eq_true, if_false]
    congr 1
    rw [show 7 + x.length + 3 = b!"[CDATA[".length + (x.length + 3) from by simp; omega, ← List.drop_drop, List.drop_left, ← List.drop_drop]
    simp
  | other hb hd hc h1 h2 he =>
    have hi := indexOf_end (by simp) he r
    have hl : b!">".length ≤ b.length := he.1.length_le
    obtain ⟨d, x, hd', rfl⟩ : ∃ d x, (d = c!"!" ∨ d = c!"?") ∧ b = c!"<" :: d :: x := by
      rcases hb with ⟨x, rfl⟩ | ⟨x, rfl⟩
      · exact ⟨_, x, Or.inl rfl, rfl⟩
      · exact ⟨_, x, Or.inr rfl, rfl⟩
    have hx : x ≠ [] := by
      rintro rfl
      obtain ⟨⟨a, ha⟩, -⟩ := he
      have := congrArg List.getLast? ha
      rcases hd' with rfl | rfl <;> simp at this
    obtain ⟨y, ys, rfl⟩ := List.exists_cons_of_ne_nil hx
    have hpre : ∀ p : Bytes, c!">" ∉ p → p.isPrefixOf (c!"<" :: d :: y :: ys ++ r) = true → p <+: (c!"<" :: d :: y :: ys) := by
      intro p hp h
      rw [isPrefixOf_iff] at h
      by_cases hle : p.length ≤ (c!"<" :: d :: y :: ys).length
      · exact List.prefix_of_prefix_length_le h ⟨r, rfl⟩ hle
      · exfalso
        have h3 : (c!"<" :: d :: y :: ys) <+: p := List.prefix_of_prefix_length_le ⟨r, rfl⟩ h (by omega)
        exact hp (h3.subset (he.1.subset (by simp)))
    simp only [List.cons_append] at hi hpre ⊢
    rw [rawLoop_lt]
    rw [if_neg (by rcases hd' with rfl | rfl <;> decide), if_pos (by rcases hd' with rfl | rfl <;> decide), if_neg (by simpa using hd),
      if_neg (fun h => hc (hpre _ (by decide) h)), if_neg (fun h => h1 (hpre _ (by decide) h)), if_neg (fun h => h2 (hpre _ (by decide) h)), hi]
    simp only [List.length_cons, List.length_nil]
    congr 1
    simp


/-- The tokens are read one by one. -/
theorem rawLoop_tokens {ts : List RawTok} (h : ∀ t ∈ ts, t.Legal) (st : List Bytes) (r : Bytes) :
    rawLoop st (rawText ts ++ r) = match openAfter st ts with | none => false | some st' => rawLoop st' r := by
  induction ts generalizing st with
  | nil => simp [rawText, openAfter]
  | cons t ts ih =>
    have ht := h t (by simp)
    have ih := fun st => ih (fun t ht => h t (by simp [ht])) st
    have e : rawText (t :: ts) ++ r = t.render ++ (rawText ts ++ r) := by simp [rawText]
    rw [e]
    cases t with
    | text b => rw [RawTok.render, rawLoop_text ht, ih, openAfter]
    | misc b => rw [RawTok.render, rawLoop_misc ht, ih, openAfter]
    | start n q =>
      obtain ⟨h1, h2, h3, h4⟩ := ht
      have e : (RawTok.start n q).render ++ (rawText ts ++ r) = c!"<" :: (n ++ (q ++ c!">" :: (rawText ts ++ r))) := by simp [RawTok.render]
      rw [e, rawLoop_open h1 (rest_stop h3 (by decide)), rawTagEnd_open h2 h4]
      simp only [Bool.false_eq_true, if_false]
      rw [ih, openAfter]
    | empty n q =>
      obtain ⟨h1, h2, h3⟩ := ht
      have e : (RawTok.empty n q).render ++ (rawText ts ++ r) = c!"<" :: (n ++ (q ++ c!"/" :: c!">" :: (rawText ts ++ r))) := by simp [RawTok.render]
      rw [e, rawLoop_open h1 (rest_stop h3 (by decide)), rawTagEnd_self h2]
      simp only [if_true]
      rw [ih, openAfter]
    | stop n q =>
      obtain ⟨h1, h2, h3⟩ := ht
      have e : (RawTok.stop n q).render ++ (rawText ts ++ r) = c!"<" :: c!"/" :: (n ++ (q ++ c!">" :: (rawText ts ++ r))) := by simp [RawTok.render]
      have hq : ∀ c, (q ++ c!">" :: (rawText ts ++ r)).head? = some c → rawCloseChar c = false := by
        intro c hc
        cases q with
        | nil => simp at hc; subst hc; decide
        | cons d q => simp at hc h3; subst hc; subst h3; decide
      rw [e, rawLoop_close h1 hq, afterGt_skip h2]
      cases st with
      | nil => simp [openAfter]
      | cons o st =>
        simp only [openAfter]
        by_cases hon : o = n
        · rw [if_pos hon, if_pos hon, ih]
        · rw [if_neg hon, if_neg hon]

/-- The fragment is these tokens, possibly without the last byte `>` of a last end tag. -/
def Covers (raw : Bytes) (ts : List RawTok) : Prop :=
  raw = rawText ts ∨ raw ++ b!">" = rawText ts ∧ ∃ ts' n q, ts = ts' ++ [.stop n q]

theorem covers_cons {raw : Bytes} {ts : List RawTok} (h : Covers raw ts) (t : RawTok) : Covers (t.render ++ raw) (t :: ts) := by
  rcases h with rfl | ⟨h, ts', n, q, rfl⟩
  · exact Or.inl (by simp [rawText])
  · exact Or.inr ⟨by simp [rawText] at h ⊢; rw [h], t :: ts', n, q, rfl⟩

theorem takeWhile_all {p : UInt8 → Bool} {l : Bytes} : ∀ c ∈ l.takeWhile p, p c = true := by
  intro c hc
  induction l with
  | nil => simp at hc
  | cons d l ih =>
    rw [List.takeWhile_cons] at hc
    split at hc
    · rcases List.mem_cons.mp hc with rfl | hc
      · assumption
      · exact ih hc
    · simp at hc

theorem dropWhile_head {p : UInt8 → Bool} {l : Bytes} : ∀ c, (l.dropWhile p).head? = some c → p c = false := by
  intro c hc
  induction l with
  | nil => simp at hc
  | cons d l ih =>
    rw [List.dropWhile_cons] at hc
    split at hc
    · exact ih hc
    · simp at hc; subst hc; simp_all

/-- Where a tag ends. -/
theorem split_gt (q : Bytes) : c!">" ∉ q ∨ ∃ a t, q = a ++ c!">" :: t ∧ c!">" ∉ a := by
  induction q with
  | nil => exact Or.inl (by simp)
  | cons c q ih =>
    by_cases h : c = c!">"
    · exact Or.inr ⟨[], q, by simp [h], by simp⟩
    · rcases ih with ih | ⟨a, t, rfl, ha⟩
      · exact Or.inl (by simp [Ne.symm h, ih])
      · exact Or.inr ⟨c :: a, t, by simp, by simp [Ne.symm h, ha]⟩

theorem rawTagEnd_none {q : Bytes} (h : c!">" ∉ q) : rawTagEnd q = (false, []) := by
  induction q with
  | nil => rfl
  | cons c q ih =>
    simp only [List.mem_cons, not_or] at h
    rw [rawTagEnd, if_neg, if_neg (Ne.symm h.1), ih h.2]
    cases q with
    | nil => simp
    | cons d q => simp only [List.mem_cons, not_or] at h; simp [Ne.symm h.2.1]

theorem afterGt_none {q : Bytes} (h : c!">" ∉ q) : afterGt q = [] := by
  induction q with
  | nil => rfl
  | cons c q ih =>
    simp only [List.mem_cons, not_or] at h
    rw [afterGt, if_neg (Ne.symm h.1), ih h.2]

theorem rawLoop_complete (k : Nat) : ∀ (raw : Bytes) (st : List Bytes), raw.length ≤ k → rawLoop st raw = true →
    ∃ ts, (∀ t ∈ ts, t.Legal) ∧ openAfter st ts = some [] ∧ Covers raw ts := by
  induction k with
  | zero =>
    intro raw st hk h
    have : raw = [] := List.length_eq_zero_iff.mp (by omega)
    subst this
    rw [rawLoop.eq_def] at h
    have : st = [] := by simpa using h
    subst this
    exact ⟨[], by simp, rfl, Or.inl rfl⟩
  | succ k ih =>
    intro raw st hk h
    -- one token and the rest
    have step : ∀ (t : RawTok) (st' : List Bytes) (r : Bytes), raw = t.render ++ r → t.Legal → (∀ ts, openAfter st (t :: ts) = openAfter st' ts) →
        1 ≤ t.render.length → rawLoop st' r = true → ∃ ts, (∀ t ∈ ts, t.Legal) ∧ openAfter st ts = some [] ∧ Covers raw ts := by
      intro t st' r hr ht ho hlen h'
      have hl := congrArg List.length hr
      simp only [List.length_append] at hl
      obtain ⟨ts, h1, h2, h3⟩ := ih r st' (by omega) h'
      refine ⟨t :: ts, ?_, by rw [ho, h2], hr ▸ covers_cons h3 t⟩
      intro t' ht'
      rcases List.mem_cons.mp ht' with rfl | ht'
      · exact ht
      · exact h1 t' ht'
    match raw, hk, h, step with
    | [], _, h, _ =>
      rw [rawLoop.eq_def] at h
      have : st = [] := by simpa using h
      subst this
      exact ⟨[], by simp, rfl, Or.inl rfl⟩
    | c :: cs, hk, h, step =>
      by_cases hc : c = c!"<"
      · subst hc
        match cs, hk, h, step with
        | [], _, h, _ => rw [rawLoop.eq_def] at h; simp at h
        | d :: ds, hk, h, step =>
          rw [rawLoop_lt] at h
          by_cases h1 : d = c!"/"
          · subst h1
            rw [if_pos rfl] at h
            cases st with
            | nil => simp at h
            | cons t ts =>
              simp only at h
              by_cases h2 : t = ds.takeWhile rawCloseChar
              · rw [if_pos h2] at h
                have hds : ds.takeWhile rawCloseChar ++ ds.dropWhile rawCloseChar = ds := List.takeWhile_append_dropWhile
                have hn : ∀ c ∈ t, c ≠ c!">" ∧ c ≠ c!" " := by
                  intro c hc; rw [h2] at hc
                  have := takeWhile_all c hc
                  simpa [rawCloseChar] using this
                rw [← h2] at hds
                have hh := @dropWhile_head rawCloseChar ds
                generalize ds.dropWhile rawCloseChar = q at h hds hh
                have hq : ∀ c, q.head? = some c → c = c!">" ∨ c = c!" " := by
                  intro c hc
                  have := hh c hc
                  simp only [rawCloseChar, Bool.and_eq_false_iff, decide_eq_false_iff_not, Classical.not_not, ne_eq] at this
                  exact this
                rcases split_gt q with hg | ⟨a, r, rfl, ha⟩
                · rw [afterGt_none hg, rawLoop.eq_def] at h
                  have : ts = [] := by simpa using h
                  subst this
                  refine ⟨[.stop t q], ?_, by simp [openAfter], Or.inr ⟨by simp [rawText, RawTok.render, ← hds], [], t, q, rfl⟩⟩
                  intro t' ht'
                  simp only [List.mem_singleton] at ht'
                  subst ht'
                  refine ⟨hn, hg, ?_⟩
                  cases q with
                  | nil => exact Or.inl rfl
                  | cons x q =>
                    rcases hq x rfl with rfl | rfl
                    · simp at hg
                    · exact Or.inr rfl
                · rw [afterGt_skip ha] at h
                  refine step (.stop t a) ts r (by simp [RawTok.render, ← hds]) ⟨hn, ha, ?_⟩ (fun _ => by simp [openAfter]) (by simp [RawTok.render]) h
                  cases a with
                  | nil => exact Or.inl rfl
                  | cons x a =>
                    rcases hq x rfl with rfl | rfl
                    · simp at ha
                    · exact Or.inr rfl
              · rw [if_neg h2] at h; simp at h
          · rw [if_neg h1] at h
            by_cases h2 : (d = c!"!" || d = c!"?") = true
            · rw [if_pos h2] at h
              have h2' : b!"<!" <+: (c!"<" :: d :: ds) ∨ b!"<?" <+: (c!"<" :: d :: ds) := by
                simp only [Bool.or_eq_true, decide_eq_true_eq] at h2
                rcases h2 with rfl | rfl
                · exact Or.inl ⟨ds, rfl⟩
                · exact Or.inr ⟨ds, rfl⟩
              by_cases h3 : ds.head? = some c!"-"
              · rw [if_pos h3] at h
                obtain ⟨y, ys, rfl⟩ : ∃ y ys, ds = y :: ys := by cases ds with | nil => simp at h3 | cons y ys => exact ⟨y, ys, rfl⟩
                simp only [List.head?_cons, Option.some.injEq] at h3
                subst h3
                cases hi : indexOf b!"-->" (c!"<" :: d :: c!"-" :: ys) with
                | none => rw [hi] at h; simp at h
                | some n =>
                  rw [hi] at h
                  simp only at h
                  obtain ⟨o1, o2⟩ := onlyAtEnd_of_indexOf (by simp) hi
                  refine step (.misc ((c!"<" :: d :: c!"-" :: ys).take (n + 3))) st ((d :: c!"-" :: ys).drop (n + 2)) ?_ (.comment ?_ o1) (fun _ => by simp [openAfter]) ?_ h
                  · have := List.take_append_drop (n + 3) (c!"<" :: d :: c!"-" :: ys)
                    rw [List.drop_succ_cons] at this
                    exact this.symm
                  · simp only [Bool.or_eq_true, decide_eq_true_eq] at h2
                    have : (c!"<" :: d :: c!"-" :: ys).take (n + 3) = c!"<" :: d :: c!"-" :: ys.take n := by simp
                    rw [this]
                    rcases h2 with rfl | rfl
                    · exact Or.inl ⟨_, rfl⟩
                    · exact Or.inr ⟨_, rfl⟩
                  · simp only [RawTok.render]; rw [List.length_take]; simp
              · rw [if_neg h3] at h
                by_cases h4 : b!"<![CDATA[".isPrefixOf (c!"<" :: d :: ds) = true
                · rw [if_pos h4] at h
                  obtain ⟨x, hx⟩ := isPrefixOf_iff.mp h4
                  simp only [List.cons_append, List.nil_append, List.cons.injEq, true_and] at hx
                  obtain ⟨rfl, rfl⟩ := hx
                  have e7 : (c!"[" :: c!"C" :: c!"D" :: c!"A" :: c!"T" :: c!"A" :: c!"[" :: x).drop 7 = x := rfl
                  rw [e7] at h
                  cases hi : indexOf b!"]]>" x with
                  | none => rw [hi] at h; simp at h
                  | some n =>
                    rw [hi] at h
                    simp only at h
                    by_cases h5 : (indexOf b!"<![CDATA[" (x.take n)).isSome = true
                    · rw [if_pos h5] at h; simp at h
                    · rw [if_neg h5] at h
                      obtain ⟨o1, o2⟩ := onlyAtEnd_of_indexOf (by simp) hi
                      have o3 : x.take (n + 3) = x.take n ++ b!"]]>" := by
                        obtain ⟨⟨t, ht⟩, -⟩ := (indexOf_some (by simp)).mp hi
                        rw [List.take_add, ← ht]; rfl
                      have o1' : OnlyAtEnd b!"]]>" (x.take (n + 3)) := o1
                      rw [o3] at o1'
                      refine step (.misc (b!"<![CDATA[" ++ x.take n ++ b!"]]>")) st (x.drop (n + 3)) ?_ (.cdata o1' ?_) (fun _ => by simp [openAfter]) (by simp [RawTok.render]) ?_
                      · have := List.take_append_drop (n + 3) x
                        rw [o3] at this
                        simp only [RawTok.render]
                        conv => lhs; rw [← this]
                        simp
                      · rw [← indexOf_none]; simpa using h5
                      · rw [show 7 + n + 3 = 7 + (n + 3) by omega, ← List.drop_drop, e7] at h
                        exact h
                · rw [if_neg h4] at h
                  by_cases h5 : b!"<!DOCTYPE".isPrefixOf (c!"<" :: d :: ds) = true
                  · rw [if_pos h5] at h; simp at h
                  · rw [if_neg h5] at h
                    by_cases h6 : b!"<!ENTITY".isPrefixOf (c!"<" :: d :: ds) = true
                    · rw [if_pos h6] at h; simp at h
                    · rw [if_neg h6] at h
                      rw [isPrefixOf_iff] at h4 h5 h6
                      cases hi : indexOf b!">" (c!"<" :: d :: ds) with
                      | none => rw [hi] at h; simp at h
                      | some n =>
                        rw [hi] at h
                        simp only at h
                        obtain ⟨o1, o2⟩ := onlyAtEnd_of_indexOf (by simp) hi
                        have hpre : ∀ p : Bytes, p <+: (c!"<" :: d :: ds).take (n + 1) → p <+: (c!"<" :: d :: ds) := fun p hp => hp.trans (List.take_prefix _ _)
                        have hn2 : 2 ≤ n := by
                          simp only [Bool.or_eq_true, decide_eq_true_eq] at h2
                          obtain ⟨⟨t, ht⟩, -⟩ := (indexOf_some (by simp)).mp hi
                          match n, ht with
                          | 0, ht => simp at ht
                          | 1, ht => rcases h2 with rfl | rfl <;> simp at ht
                          | n + 2, _ => omega
                        refine step (.misc ((c!"<" :: d :: ds).take (n + 1))) st ((d :: ds).drop n) ?_ (.other ?_ ?_ ?_ ?_ ?_ o1) (fun _ => by simp [openAfter]) ?_ h
                        · have := List.take_append_drop (n + 1) (c!"<" :: d :: ds)
                          rw [List.drop_succ_cons] at this
                          exact this.symm
                        · refine h2'.imp (fun hh => ?_) (fun hh => ?_)
                          · exact List.prefix_of_prefix_length_le hh (List.take_prefix _ _) (by simp; omega)
                          · exact List.prefix_of_prefix_length_le hh (List.take_prefix _ _) (by simp; omega)
                        · rw [List.getElem?_take_of_lt (by omega)]
                          simpa [List.head?_eq_getElem?] using h3
                        · exact fun hh => h4 (hpre _ hh)
                        · exact fun hh => h5 (hpre _ hh)
                        · exact fun hh => h6 (hpre _ hh)
                        · simp [RawTok.render]
            · rw [if_neg h2] at h
              by_cases h3 : ((d :: ds).takeWhile rawOpenChar).isEmpty = true
              · rw [if_pos h3] at h; simp at h
              · rw [if_neg h3] at h
                have hds : (d :: ds).takeWhile rawOpenChar ++ (d :: ds).dropWhile rawOpenChar = d :: ds := List.takeWhile_append_dropWhile
                have hall := @takeWhile_all rawOpenChar (d :: ds)
                have hh := @dropWhile_head rawOpenChar (d :: ds)
                generalize (d :: ds).takeWhile rawOpenChar = n at h hds hall h3
                generalize (d :: ds).dropWhile rawOpenChar = q at h hds hh
                have hq : ∀ c, q.head? = some c → c = c!">" ∨ c = c!" " ∨ c = c!"/" := by
                  intro c hc
                  have := hh c hc
                  simp only [rawOpenChar, Bool.and_eq_false_iff, decide_eq_false_iff_not, Classical.not_not, ne_eq] at this
                  rcases this with (h | h) | h
                  · exact Or.inl h
                  · exact Or.inr (Or.inl h)
                  · exact Or.inr (Or.inr h)
                have hne : n ≠ [] := by simpa using h3
                have hn : RawName n := by
                  obtain ⟨d', n', rfl⟩ := List.exists_cons_of_ne_nil hne
                  simp only [List.cons_append, List.cons.injEq] at hds
                  obtain ⟨rfl, -⟩ := hds
                  simp only [Bool.or_eq_true, decide_eq_true_eq, not_or] at h2
                  refine ⟨fun c hc => ?_, by simp, by simpa using h2.1, by simpa using h2.2⟩
                  have := hall c hc
                  simp only [rawOpenChar, Bool.and_eq_true, decide_eq_true_eq] at this
                  exact ⟨this.1.1, this.1.2, this.2⟩
                rcases split_gt q with hg | ⟨a, r, rfl, ha⟩
                · rw [rawTagEnd_none hg, rawLoop.eq_def] at h
                  simp at h
                · by_cases hlast : a.getLast? = some c!"/"
                  · obtain ⟨a', rfl⟩ : ∃ a', a = a' ++ [c!"/"] := List.getLast?_eq_some_iff.mp hlast
                    have ha' : c!">" ∉ a' := fun hm => ha (by simp [hm])
                    have e : a' ++ [c!"/"] ++ c!">" :: r = a' ++ c!"/" :: c!">" :: r := by simp
                    rw [e, rawTagEnd_self ha'] at h
                    refine step (.empty n a') st r (by simp [RawTok.render, ← hds]) ⟨hn, ha', ?_⟩ (fun _ => by simp [openAfter]) (by simp [RawTok.render]) h
                    cases a' with
                    | nil => exact Or.inl rfl
                    | cons x a' =>
                      rcases hq x rfl with rfl | rfl | rfl
                      · simp at ha'
                      · exact Or.inr (Or.inl rfl)
                      · exact Or.inr (Or.inr rfl)
                  · rw [rawTagEnd_open ha hlast] at h
                    refine step (.start n a) (n :: st) r (by simp [RawTok.render, ← hds]) ⟨hn, ha, ?_, hlast⟩ (fun _ => by simp [openAfter]) (by simp [RawTok.render]) h
                    cases a with
                    | nil => exact Or.inl rfl
                    | cons x a =>
                      rcases hq x rfl with rfl | rfl | rfl
                      · simp at ha
                      · exact Or.inr (Or.inl rfl)
                      · exact Or.inr (Or.inr rfl)
      · rw [rawLoop.eq_def] at h
        simp only at h
        rw [if_neg hc] at h
        exact step (.text [c]) st cs rfl (by simp [RawTok.Legal, Ne.symm hc]) (fun _ => by simp [openAfter]) (by simp [RawTok.render]) h

end Verif
