import Verif.Model.Pattern
import Verif.Spec.Glob
/- The table of Match holds language membership. -/
namespace Verif
open Spec

/-- Reading of a processed pattern rune. -/
def PChar.tok (c : PChar) : Tok :=
  if c.isStar then .star else if c.isQuery then .any else .lit c.rune

theorem tokens_eq (l : List Nat) : tokens l = (processEscapes l).map PChar.tok := by
  fun_induction processEscapes l with
  | case1 => rfl
  | case2 c => simp [tokens, PChar.tok, PChar.isStar, PChar.isQuery]
  | case3 => rename_i ih; simp [tokens, PChar.tok, PChar.isStar, PChar.isQuery, ih]
  | case4 => rename_i h ih; simp [tokens, PChar.tok, PChar.isStar, PChar.isQuery, ih, h]

theorem Fits.snoc {ts us t u} (h : Fits ts us) (hu : Tok.Admits t u) : Fits (ts ++ [t]) (us ++ [u]) := by
  induction h with
  | nil => exact .cons hu .nil
  | cons h _ ih => exact .cons h ih

theorem Fits.of_snoc {ts : List Tok} {us : List (List Nat)} {t : Tok} (h : Fits (ts ++ [t]) us) :
    ∃ vs u, us = vs ++ [u] ∧ Fits ts vs ∧ t.Admits u := by
  induction ts generalizing us with
  | nil =>
    cases h with
    | cons h1 h2 => cases h2; exact ⟨[], _, rfl, .nil, h1⟩
  | cons t' ts ih =>
    cases h with
    | cons h1 h2 =>
      obtain ⟨vs, u, rfl, h3, h4⟩ := ih h2
      exact ⟨_ :: vs, u, rfl, .cons h1 h3, h4⟩

theorem inLang_snoc (ts : List Tok) (t : Tok) (s : List Nat) :
    InLang (ts ++ [t]) s ↔ ∃ v u, s = v ++ u ∧ InLang ts v ∧ t.Admits u := by
  constructor
  · rintro ⟨us, h, rfl⟩
    obtain ⟨vs, u, rfl, h1, h2⟩ := Fits.of_snoc h
    exact ⟨vs.flatten, u, by simp, ⟨vs, h1, rfl⟩, h2⟩
  · rintro ⟨v, u, rfl, ⟨vs, h, rfl⟩, h2⟩
    exact ⟨vs ++ [u], Fits.snoc h h2, by simp⟩

theorem inLang_nil (s : List Nat) : InLang [] s ↔ s = [] := by
  constructor
  · rintro ⟨us, h, rfl⟩; cases h; rfl
  · rintro rfl; exact ⟨[], .nil, rfl⟩

theorem inLang_star_nil (ts : List Tok) : InLang (ts ++ [.star]) [] ↔ InLang ts [] := by
  rw [inLang_snoc]
  constructor
  · rintro ⟨v, u, h, h1, -⟩
    have : v = [] := by cases v <;> simp_all
    subst this; exact h1
  · intro h; exact ⟨[], [], rfl, h, trivial⟩

theorem inLang_single_nil (ts : List Tok) (t : Tok) (ht : t ≠ .star) : ¬ InLang (ts ++ [t]) [] := by
  rw [inLang_snoc]
  rintro ⟨v, u, h, -, h2⟩
  have : u = [] := by cases u <;> simp_all
  subst this
  cases t <;> simp_all [Tok.Admits]

theorem inLang_star_snoc (ts : List Tok) (s : List Nat) (x : Nat) :
    InLang (ts ++ [.star]) (s ++ [x]) ↔ InLang ts (s ++ [x]) ∨ InLang (ts ++ [.star]) s := by
  simp only [inLang_snoc]
  constructor
  · rintro ⟨v, u, h, h1, -⟩
    rcases List.eq_nil_or_concat u with rfl | ⟨u', y, rfl⟩
    · left; simp at h; rw [h]; exact h1
    · right
      rw [List.concat_eq_append, ← List.append_assoc] at h
      have := List.append_inj_left' h rfl
      exact ⟨v, u', this, h1, trivial⟩
  · rintro (h | ⟨v, u, rfl, h1, -⟩)
    · exact ⟨s ++ [x], [], by simp, h, trivial⟩
    · exact ⟨v, u ++ [x], by simp, h1, trivial⟩

theorem inLang_any_snoc (ts : List Tok) (s : List Nat) (x : Nat) :
    InLang (ts ++ [.any]) (s ++ [x]) ↔ InLang ts s := by
  rw [inLang_snoc]
  constructor
  · rintro ⟨v, u, h, h1, h2⟩
    simp only [Tok.Admits] at h2
    obtain ⟨y, rfl⟩ := List.length_eq_one_iff.mp h2
    rw [List.append_inj_left' h rfl]; exact h1
  · intro h; exact ⟨s, [x], rfl, h, rfl⟩

theorem inLang_lit_snoc (ts : List Tok) (s : List Nat) (r x : Nat) :
    InLang (ts ++ [.lit r]) (s ++ [x]) ↔ r = x ∧ InLang ts s := by
  rw [inLang_snoc]
  constructor
  · rintro ⟨v, u, h, h1, h2⟩
    simp only [Tok.Admits] at h2
    subst h2
    have := List.append_inj h (by have := congrArg List.length h; simpa using this)
    simp at this
    exact ⟨this.2.symm, this.1 ▸ h1⟩
  · rintro ⟨rfl, h⟩; exact ⟨s, [r], rfl, h, rfl⟩

/-- `row` lists, from the position after `done` on, whether each prefix of the pattern matches `s`. -/
def RowFrom (s : List Nat) (done : List PChar) : List PChar → List Bool → Prop
  | [], row => ∃ b, row = [b] ∧ (b = true ↔ InLang (done.map PChar.tok) s)
  | c :: cs, row => ∃ b r, row = b :: r ∧ (b = true ↔ InLang (done.map PChar.tok) s) ∧
      RowFrom s (done ++ [c]) cs r

theorem RowFrom.head {s done cs row} (h : RowFrom s done cs row) :
    ∃ b r, row = b :: r ∧ (b = true ↔ InLang (done.map PChar.tok) s) := by
  cases cs with
  | nil => obtain ⟨b, rfl, h⟩ := h; exact ⟨b, [], rfl, h⟩
  | cons c cs => obtain ⟨b, r, rfl, h, -⟩ := h; exact ⟨b, r, rfl, h⟩

theorem RowFrom.last {s done cs row} (h : RowFrom s done cs row) :
    row.getLastD false = true ↔ InLang ((done ++ cs).map PChar.tok) s := by
  induction cs generalizing done row with
  | nil => obtain ⟨b, rfl, h⟩ := h; simpa using h
  | cons c cs ih =>
    obtain ⟨b, r, rfl, -, h⟩ := h
    have := ih h
    obtain ⟨b', r', rfl, -⟩ := h.head
    rw [List.append_assoc] at this
    simpa using this

theorem dpRow0_spec (done cs : List PChar) (left : Bool)
    (hl : left = true ↔ InLang (done.map PChar.tok) []) :
    RowFrom [] done cs (left :: dpRow0 left cs) := by
  induction cs generalizing done left with
  | nil => exact ⟨left, rfl, hl⟩
  | cons c cs ih =>
    refine ⟨left, _, rfl, hl, ?_⟩
    apply ih
    simp only [List.map_append, List.map_cons, List.map_nil, Bool.and_eq_true]
    by_cases hs : c.isStar = true
    · have : c.tok = .star := by simp [PChar.tok, hs]
      rw [this, inLang_star_nil, ← hl]; simp [hs]
    · have : c.tok ≠ .star := by unfold PChar.tok; rw [if_neg hs]; split <;> simp
      simp [hs, inLang_single_nil _ _ this]

theorem dpCell_spec (done : List PChar) (c : PChar) (s : List Nat) (ch : Nat) (left diag up : Bool)
    (hl : left = true ↔ InLang (done.map PChar.tok) (s ++ [ch]))
    (hd : diag = true ↔ InLang (done.map PChar.tok) s)
    (hu : up = true ↔ InLang ((done ++ [c]).map PChar.tok) s) :
    dpCell c ch left diag up = true ↔ InLang ((done ++ [c]).map PChar.tok) (s ++ [ch]) := by
  simp only [List.map_append, List.map_cons, List.map_nil] at hu ⊢
  unfold dpCell
  by_cases hs : c.isStar = true
  · have : c.tok = .star := by simp [PChar.tok, hs]
    rw [this] at hu ⊢
    rw [inLang_star_snoc, ← hl, ← hu]; simp [hs]
  · by_cases hq : c.isQuery = true
    · have : c.tok = .any := by simp [PChar.tok, hs, hq]
      rw [this, inLang_any_snoc, ← hd]; simp [hs, hq]
    · have : c.tok = .lit c.rune := by simp [PChar.tok, hs, hq]
      rw [this, inLang_lit_snoc, ← hd]; simp [hs, hq]

/-- One row: it stops exactly when the counter passes the limit, otherwise it holds membership. -/
theorem dpRow_spec (max : Int) (s : List Nat) (ch : Nat) (done cs : List PChar) (it : Nat) (left : Bool)
    (above : List Bool)
    (hl : left = true ↔ InLang (done.map PChar.tok) (s ++ [ch]))
    (ha : RowFrom s done cs above) :
    (((it + cs.length : Nat) : Int) > max ∧ 0 < cs.length → dpRow max ch it left cs above = none) ∧
    ((((it + cs.length : Nat) : Int) ≤ max ∨ cs.length = 0) → ∃ row, dpRow max ch it left cs above = some (row, it + cs.length) ∧
      RowFrom (s ++ [ch]) done cs (left :: row)) := by
  induction cs generalizing done it left above with
  | nil => exact ⟨by simp, fun _ => ⟨[], by simp [dpRow], left, rfl, hl⟩⟩
  | cons c cs ih =>
    obtain ⟨diag, r, rfl, hd, hr⟩ := ha
    obtain ⟨up, r', rfl, hu⟩ := hr.head
    have hc := dpCell_spec done c s ch left diag up hl hd hu
    obtain ⟨ih1, ih2⟩ := ih (done ++ [c]) (it + 1) (dpCell c ch left diag up) (up :: r') hc hr
    simp only [List.length_cons] at *
    constructor
    · rintro ⟨h, -⟩
      rw [dpRow]
      split
      · rfl
      · have : dpRow max ch (it + 1) (dpCell c ch left diag up) cs (up :: r') = none := by
          apply ih1
          constructor <;> omega
        rw [this]
    · rintro (h | h)
      · obtain ⟨row, h1, h2⟩ := ih2 (by left; omega)
        refine ⟨dpCell c ch left diag up :: row, ?_, left, _, rfl, hl, h2⟩
        rw [dpRow, if_neg (by omega), h1]
        simp only [Option.some.injEq, Prod.mk.injEq, true_and]; omega
      · omega

theorem dpRows_spec (max : Int) (p : List PChar) (s t : List Nat) (it : Nat) (above : List Bool)
    (ha : RowFrom s [] p above) :
    (0 < p.length * t.length ∧ ((it + p.length * t.length : Nat) : Int) > max → dpRows max p it above t = none) ∧
    ((p.length * t.length = 0 ∨ ((it + p.length * t.length : Nat) : Int) ≤ max) →
      ∃ row, dpRows max p it above t = some row ∧ RowFrom (s ++ t) [] p row) := by
  induction t generalizing s it above with
  | nil => exact ⟨by simp, fun _ => ⟨above, rfl, by simpa using ha⟩⟩
  | cons ch t ih =>
    have hl : (false = true ↔ InLang (([] : List PChar).map PChar.tok) (s ++ [ch])) := by
      simp [inLang_nil]
    obtain ⟨h1, h2⟩ := dpRow_spec max s ch [] p it false above hl ha
    simp only [List.length_cons]
    have hm : p.length * (t.length + 1) = p.length * t.length + p.length := by
      rw [Nat.mul_add, Nat.mul_one]
    by_cases hp : p.length = 0
    · constructor
      · rintro ⟨h, -⟩; rw [hp] at h; omega
      · intro _
        obtain ⟨row, e, hr⟩ := h2 (.inr hp)
        obtain ⟨-, ih2⟩ := ih (s ++ [ch]) (it + p.length) (false :: row) hr
        obtain ⟨row', e', hr'⟩ := ih2 (.inl (by rw [hp]; omega))
        exact ⟨row', by rw [dpRows, e]; exact e', by simpa using hr'⟩
    · by_cases hle : ((it + p.length : Nat) : Int) ≤ max
      · obtain ⟨row, e, hr⟩ := h2 (.inl hle)
        obtain ⟨ih1, ih2⟩ := ih (s ++ [ch]) (it + p.length) (false :: row) hr
        constructor
        · rintro ⟨-, h⟩
          rw [dpRows, e]
          apply ih1
          constructor <;> omega
        · intro h
          obtain ⟨row', e', hr'⟩ := ih2 (.inr (by omega))
          exact ⟨row', by rw [dpRows, e]; exact e', by simpa using hr'⟩
      · constructor
        · intro _
          rw [dpRows, h1 ⟨by omega, by omega⟩]
        · intro h; omega

theorem patternMatch_spec (str pat : Bytes) (max : Int) :
    let n := (tokens (runes pat)).length * (runes str).length
    ((patternMatch str pat max).2 = true ↔ 0 < n ∧ (n : Int) > max) ∧
    ((patternMatch str pat max).2 = false →
      ((patternMatch str pat max).1 = true ↔ InLang (tokens (runes pat)) (runes str))) ∧
    ((patternMatch str pat max).2 = true → (patternMatch str pat max).1 = false) := by
  have h0 : RowFrom [] [] (processEscapes (runes pat)) (true :: dpRow0 true (processEscapes (runes pat))) :=
    dpRow0_spec [] _ true (by simp [inLang_nil])
  obtain ⟨h1, h2⟩ := dpRows_spec max (processEscapes (runes pat)) [] (runes str) 0 _ h0
  simp only [tokens_eq, List.length_map, Nat.zero_add] at *
  unfold patternMatch
  simp only
  by_cases h : 0 < (processEscapes (runes pat)).length * (runes str).length ∧
      (((processEscapes (runes pat)).length * (runes str).length : Nat) : Int) > max
  · rw [h1 h]; simp; exact h
  · obtain ⟨row, e, hr⟩ := h2 (by omega)
    rw [e]
    have := hr.last
    simp only [List.nil_append] at this
    refine ⟨⟨fun h' => by simp at h', fun h' => absurd h' h⟩, fun _ => this, fun h' => by simp at h'⟩

end Verif
