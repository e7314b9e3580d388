import Verif.Model.Path
import Verif.Spec.Path
/- Lemmas about path splitting, parsing and name matching. -/
namespace Verif
open Spec

theorem splitPathAux_escapeName (n rest : Bytes) :
    splitPathAux false (escapeName n ++ rest) =
      (n ++ (splitPathAux false rest).1, (splitPathAux false rest).2) := by
  induction n with
  | nil => rfl
  | cons c cs ih =>
    simp only [escapeName]
    split
    · simp [splitPathAux, ih]
    · rename_i h
      simp only [Bool.or_eq_true, decide_eq_true_eq, not_or] at h
      simp [splitPathAux, h.1, h.2, ih]

theorem splitPathAux_join (names : List Bytes) (h : names ≠ []) :
    splitPathAux false (joinDots (names.map escapeName)) = (names.head h, names.tail) := by
  induction names with
  | nil => exact absurd rfl h
  | cons n ns ih =>
    cases ns with
    | nil =>
      have := splitPathAux_escapeName n []
      simpa [joinDots, splitPathAux] using this
    | cons m ns =>
      simp only [List.map_cons, joinDots]
      rw [splitPathAux_escapeName]
      have := ih (by simp)
      simp only [List.map_cons, List.head_cons, List.tail_cons] at this
      simp [splitPathAux, this]

theorem escapeName_eq_nil {n : Bytes} (h : escapeName n = []) : n = [] := by
  cases n with
  | nil => rfl
  | cons c cs => simp only [escapeName] at h; split at h <;> simp at h

theorem pathOf_eq_nil {names : List Bytes} (h : pathOf names = []) : names = [] ∨ names = [[]] := by
  cases names with
  | nil => left; rfl
  | cons n ns =>
    right
    cases ns with
    | nil => simp only [pathOf, List.map_cons, List.map_nil, joinDots] at h; rw [escapeName_eq_nil h]
    | cons m ns => simp [pathOf, joinDots] at h

theorem splitPath_pathOf (names : List Bytes) (h : names ≠ [[]]) : splitPath (pathOf names) = names := by
  unfold splitPath
  cases hn : names with
  | nil => rfl
  | cons n ns =>
    have hne : pathOf names ≠ [] := by
      intro he
      rcases pathOf_eq_nil he with h1 | h1
      · rw [hn] at h1; simp at h1
      · exact h h1
    rw [hn] at hne
    have h2 := splitPathAux_join (n :: ns) (by simp)
    unfold pathOf at *
    rw [h2]
    cases hj : joinDots ((n :: ns).map escapeName) with
    | nil => exact absurd hj hne
    | cons => simp

theorem splitPathAux_length (r : Bytes) :
    (splitPathAux false r).2.length = unescapedDots r := by
  fun_induction unescapedDots r with
  | case1 => rfl
  | case2 => simp [splitPathAux]
  | case3 c h =>
    simp only [splitPathAux]; repeat' split
    all_goals simp_all
  | case4 => rename_i ih; simp [splitPathAux, ih]
  | case5 =>
    rename_i ih
    simp only [splitPathAux] at ih ⊢
    repeat' split
    all_goals simp_all <;> omega
  
theorem splitPath_length (r : Bytes) (h : r ≠ []) : (splitPath r).length = unescapedDots r + 1 := by
  unfold splitPath
  cases r with
  | nil => exact absurd rfl h
  | cons c cs => simp [splitPathAux_length]

theorem unescapedDots_pos_ne {r : Bytes} (h : 0 < unescapedDots r) : r ≠ [] := by
  rintro rfl; simp [unescapedDots] at h

theorem parsePath_too_long (r : Bytes) (h : 100 ≤ unescapedDots r) : parsePath r = .err := by
  have hne := unescapedDots_pos_ne (r := r) (by omega)
  unfold parsePath parsePathInternal
  rw [splitPath_length r hne]
  simp only [maxPathSegments]
  have : ¬ r.isEmpty := by simpa using hne
  simp [this]; omega

theorem parseParts_length (ps : List Bytes) (ss : List Seg) (h : parseParts ps = .ok ss) :
    ss.length ≤ ps.length := by
  induction ps generalizing ss with
  | nil => simp [parseParts] at h; simp [← h]
  | cons p ps ih =>
    simp only [parseParts] at h
    split at h
    · simp at h
    · simp at h
    · have := ih _ h; simp; omega
    · split at h
      · simp at h
      · simp at h
      · rename_i h2
        have := ih _ h2
        simp only [Parse.ok.injEq] at h
        simp [← h]; omega

theorem fuseFields_length (ss : List Seg) : (fuseFields ss).length ≤ ss.length := by
  fun_induction fuseFields ss with
  | case1 => simp
  | case2 => simp
  | case3 => simp_all; omega
  | case4 => simp_all
  | case5 => simp_all
  | case6 => simp_all

theorem parsePath_length (r : Bytes) (ss : List Seg) (h : parsePath r = .ok ss) : ss.length ≤ 100 := by
  unfold parsePath parsePathInternal at h
  split at h
  · simp at h
  split at h
  · simp at h
  · rename_i hl
    split at h
    · simp at h
    · simp at h
    · rename_i ss' h2
      simp only [Parse.ok.injEq] at h
      have h3 := parseParts_length _ _ h2
      have h4 := fuseFields_length ss'
      rw [← h]
      simp only [maxPathSegments] at hl
      omega

theorem parseParts_replicate_nil (n : Nat) : parseParts (List.replicate n []) = .ok [] := by
  induction n with
  | zero => rfl
  | succ n ih => rw [List.replicate_succ, parseParts]; simp [parsePart, ih]

theorem splitPathAux_dots (n : Nat) :
    splitPathAux false (List.replicate n c!".") = ([], List.replicate n []) := by
  induction n with
  | zero => rfl
  | succ n ih => rw [List.replicate_succ, splitPathAux]; simp [ih, List.replicate_succ]

/-- A path of dots only has no segment. -/
theorem parsePath_dots (n : Nat) : parsePath (List.replicate n c!".") = .err ∨
    parsePath (List.replicate n c!".") = .ok [] := by
  cases n with
  | zero => left; rfl
  | succ n =>
    by_cases h : 100 ≤ n + 1
    · left
      unfold parsePath parsePathInternal splitPath
      have h1 : (List.replicate (n + 1) c!".").isEmpty = false := by simp [List.replicate_succ]
      rw [h1, splitPathAux_dots]
      simp [maxPathSegments]; omega
    · right
      unfold parsePath parsePathInternal splitPath
      have h1 : (List.replicate (n + 1) c!".").isEmpty = false := by simp [List.replicate_succ]
      rw [h1, splitPathAux_dots]
      have h2 : parseParts ([] :: List.replicate (n + 1) []) = .ok [] := parseParts_replicate_nil (n + 2)
      simp only [Bool.false_eq_true, if_false, h2]
      simp [maxPathSegments, fuseFields]; omega

/-! Plain names parse to element segments -/

theorem splitOn_of_not_mem (sep : UInt8) (s : Bytes) (h : sep ∉ s) : splitOn sep s = [s] := by
  induction s with
  | nil => rfl
  | cons c cs ih =>
    simp only [List.mem_cons, not_or] at h
    simp only [splitOn]
    rw [if_neg (Ne.symm h.1), ih h.2]

theorem parseModifiers_plain (n : Bytes) (h : c!"|" ∉ n) : parseModifiers n = (n, []) := by
  unfold parseModifiers
  rw [splitOn_of_not_mem _ _ h]
  rfl

theorem parsePart_plain (n : Bytes) (h : PlainName n) : parsePart n = .seg ⟨.elem n, []⟩ := by
  unfold parsePart
  obtain ⟨c, cs, rfl⟩ := List.exists_cons_of_ne_nil h.nonempty
  have h1 := h.noAt
  have h2 := h.noHash
  have hnum : isNumeric (c :: cs) = false := by
    obtain ⟨d, hd, hn⟩ := h.notNum
    rw [Bool.eq_false_iff]
    intro ht
    unfold isNumeric at ht
    simp only [Bool.and_eq_true, List.all_eq_true] at ht
    have := ht.2 d hd
    apply hn
    simp only [isDigit, Bool.or_eq_true, Bool.and_eq_true, decide_eq_true_eq] at this
    rcases this with h' | h'
    · left; exact h'
    · right; exact ⟨h'.1, by have := h'.2; omega⟩
  simp only [List.head?_cons, ne_eq, Option.some.injEq] at h1 h2
  simp only [parseModifiers_plain _ h.noBar]
  have h3 : c :: cs ≠ b!"#" := by rintro h'; simp at h'; exact h2 h'.1
  simp [hasPrefix, List.isPrefixOf, Ne.symm h1, Ne.symm h2, hnum, h.notPct, h.notStar, h.notStar2, h3]

theorem parseParts_plain (ns : List Bytes) (h : ∀ n ∈ ns, PlainName n) :
    parseParts ns = .ok (ns.map fun n => ⟨.elem n, []⟩) := by
  induction ns with
  | nil => rfl
  | cons n ns ih =>
    simp only [parseParts]
    rw [parsePart_plain n (h n (by simp)), ih (fun m hm => h m (by simp [hm]))]
    rfl

theorem fuseFields_no_count (ss : List Seg) (h : ∀ s ∈ ss, s.kind ≠ .count) : fuseFields ss = ss := by
  fun_induction fuseFields ss with
  | case1 => rfl
  | case2 => rfl
  | case3 => simp_all
  | case4 => simp_all
  | case5 => simp_all
  | case6 => rename_i ih; rw [ih]; intro s hs; exact h s (by simp [hs])

theorem parsePath_plain (ns : List Bytes) (hne : ns ≠ []) (hl : ns.length ≤ 100) (h : ∀ n ∈ ns, PlainName n) :
    parsePath (pathOf ns) = .ok (ns.map fun n => ⟨.elem n, []⟩) := by
  have hns : ns ≠ [[]] := by rintro rfl; exact (h [] (by simp)).nonempty rfl
  have hp : pathOf ns ≠ [] := by
    intro he
    rcases pathOf_eq_nil he with h1 | h1
    · exact hne h1
    · exact hns h1
  unfold parsePath parsePathInternal
  rw [splitPath_pathOf ns hns, parseParts_plain ns h]
  have : ¬ (pathOf ns).isEmpty := by simpa using hp
  rw [if_neg (by simpa using hp), if_neg (by simp only [maxPathSegments]; omega)]
  simp only
  rw [fuseFields_no_count]
  simp

/-! Namespaces -/

theorem idxOf?_colon (p l : Bytes) (h : c!":" ∉ p) : (p ++ c!":" :: l).idxOf? c!":" = some p.length := by
  induction p with
  | nil => simp [List.idxOf?_cons]
  | cons c cs ih =>
    simp only [List.mem_cons, not_or] at h
    rw [List.cons_append, List.idxOf?_cons]
    have : (c == c!":") = false := by simpa using Ne.symm h.1
    rw [this, ih h.2]; rfl

theorem splitNamespace_good (p l : Bytes) (h : GoodPrefix p) : splitNamespace (p ++ c!":" :: l) = (p, l) := by
  unfold splitNamespace
  rw [idxOf?_colon p l h.noColon]
  simp only [maxNamespacePrefixLength]
  have h1 : ¬ p.length > 256 := by have := h.short; omega
  have h2 : (p.any fun c => decide (c < 0x20) || decide (c = 0x7F)) = false := by
    rw [Bool.eq_false_iff]
    intro ht
    simp only [List.any_eq_true, Bool.or_eq_true, decide_eq_true_eq] at ht
    obtain ⟨c, hc, hb⟩ := ht
    obtain ⟨h3, h4⟩ := h.printable c hc
    rcases hb with hb | hb
    · exact absurd hb (by rw [UInt8.not_lt]; exact h3)
    · exact h4 hb
  simp [h1, h2]

theorem splitNamespace_noColon (n : Bytes) (h : c!":" ∉ n) : splitNamespace n = ([], n) := by
  unfold splitNamespace
  rw [List.idxOf?_eq_none_iff.mpr h]

theorem splitNamespace_bad (p l : Bytes) (hc : c!":" ∉ p) (h : ¬ GoodPrefix p) :
    splitNamespace (p ++ c!":" :: l) = ([], p ++ c!":" :: l) := by
  unfold splitNamespace
  rw [idxOf?_colon p l hc]
  have hm : maxNamespacePrefixLength = 256 := rfl
  simp only
  by_cases hl : p.length > maxNamespacePrefixLength
  · rw [if_pos hl]
  · rw [if_neg hl]
    by_cases hb : (((p ++ c!":" :: l).take p.length).any fun c => decide (c < 0x20) || decide (c = 0x7F)) = true
    · rw [if_pos hb]
    · exfalso; apply h
      refine ⟨hc, by omega, ?_⟩
      intro c hcp
      simp only [List.take_left', List.any_eq_true, not_exists, not_and, Bool.or_eq_true,
        decide_eq_true_eq, not_or] at hb
      have := hb c hcp
      exact ⟨by rw [← UInt8.not_lt]; exact this.1, this.2⟩

/-- Every name is unprefixed, or has a good prefix, or a colon after a bad one. -/
theorem name_cases (n : Bytes) : (c!":" ∉ n) ∨ (∃ p l, n = p ++ c!":" :: l ∧ c!":" ∉ p) := by
  induction n with
  | nil => left; simp
  | cons c cs ih =>
    by_cases h : c = c!":"
    · right; exact ⟨[], cs, by simp [h], by simp⟩
    · rcases ih with h1 | ⟨p, l, rfl, h1⟩
      · left; simp [Ne.symm h, h1]
      · right; exact ⟨c :: p, l, by simp, by simp [Ne.symm h, h1]⟩

theorem splitNamespace_cases (n : Bytes) :
    (splitNamespace n = ([], n) ∧ ∀ p l, n = p ++ c!":" :: l → ¬ GoodPrefix p) ∨
    (∃ p l, n = p ++ c!":" :: l ∧ GoodPrefix p ∧ splitNamespace n = (p, l)) := by
  rcases name_cases n with h | ⟨p, l, rfl, h⟩
  · left; refine ⟨splitNamespace_noColon n h, ?_⟩
    rintro p l rfl; simp at h
  · by_cases hg : GoodPrefix p
    · right; exact ⟨p, l, rfl, hg, splitNamespace_good p l hg⟩
    · left
      refine ⟨splitNamespace_bad p l h hg, ?_⟩
      intro p' l' he hg'
      have h1 := idxOf?_colon p l h
      have h2 := idxOf?_colon p' l' hg'.noColon
      rw [he, h2] at h1
      simp only [Option.some.injEq] at h1
      have := List.append_inj_left he h1.symm
      exact hg (this ▸ hg')

end Verif
