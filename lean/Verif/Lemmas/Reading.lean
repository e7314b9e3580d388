import Verif.Lemmas.FilterStep
import Verif.Lemmas.Panic
import Verif.Spec.Reading
/- Every text is a path of steps, no path, or makes the parser panic; which of them is decided as in Spec/Reading. -/
namespace Verif
open Spec

theorem parts_aux (s : Bytes) : Parts s ((splitPathAux false s).1 :: (splitPathAux false s).2) ∧
    ∀ c, Parts (c!"\\" :: c :: s) ((c :: (splitPathAux false s).1) :: (splitPathAux false s).2) := by
  have key : ∀ n (s : Bytes), s.length ≤ n → Parts s ((splitPathAux false s).1 :: (splitPathAux false s).2) := by
    intro n
    induction n with
    | zero =>
      intro s hs
      have h0 : s = [] := List.eq_nil_of_length_eq_zero (by omega)
      subst h0; exact .done
    | succ n ih =>
      intro s hs
      match s with
      | [] => exact .done
      | c :: cs =>
        simp only [List.length_cons] at hs
        by_cases h1 : c = c!"\\"
        · subst h1
          match cs with
          | [] => exact .lone
          | d :: r =>
            have := Parts.esc d (ih r (by simp at hs; omega))
            simpa [splitPathAux] using this
        · by_cases h2 : c = c!"."
          · subst h2
            have := Parts.dot (ih cs (by omega))
            simpa [splitPathAux] using this
          · have := Parts.plain c h2 h1 (ih cs (by omega))
            simpa [splitPathAux, h1, h2] using this
  exact ⟨key _ s (Nat.le_refl _), fun c => .esc c (key _ s (Nat.le_refl _))⟩

theorem parts_fun {s : Bytes} {ps : List Bytes} (h : Parts s ps) : ps = (splitPathAux false s).1 :: (splitPathAux false s).2 := by
  induction h with
  | done => rfl
  | lone => rfl
  | dot h ih => simp [splitPathAux, ih]
  | esc c h ih => injection ih with h1 h2; simp [splitPathAux, h1, h2]
  | plain c h1 h2 h ih => injection ih with h3 h4; simp [splitPathAux, h1, h2, h3, h4]

theorem parts_iff {s : Bytes} {ps : List Bytes} : Parts s ps ↔ ps = (splitPathAux false s).1 :: (splitPathAux false s).2 :=
  ⟨parts_fun, fun h => h ▸ (parts_aux s).1⟩

/-- The parts of a text that is not empty. -/
theorem parts_split {s : Bytes} {ps : List Bytes} (hs : s ≠ []) : Parts s ps ↔ ps = splitPath s := by
  rw [parts_iff, splitPath, if_neg (by simpa using hs)]

theorem beforeBar_eq (p : Bytes) : (parseModifiers p).1 = beforeBar p := by
  have : ∀ s : Bytes, ∃ ps, splitOn c!"|" s = beforeBar s :: ps := by
    intro s
    induction s with
    | nil => exact ⟨[], rfl⟩
    | cons c cs ih =>
      obtain ⟨ps, ih⟩ := ih
      by_cases h : c = c!"|"
      · subst h; exact ⟨splitOn c!"|" cs, by simp [splitOn, beforeBar]⟩
      · exact ⟨ps, by simp [splitOn, h, ih, beforeBar]⟩
  obtain ⟨ps, h⟩ := this p
  unfold parseModifiers
  rw [h]

theorem prefix_beforeBar {z : Bytes} (hz : c!"|" ∉ z) {p : Bytes} : z <+: p ↔ z <+: beforeBar p := by
  constructor
  · rintro ⟨t, rfl⟩
    refine ⟨beforeBar t, ?_⟩
    induction z with
    | nil => rfl
    | cons c cs ih =>
      simp only [List.mem_cons, not_or] at hz
      have := ih hz.2
      simp only [beforeBar, List.cons_append] at this ⊢
      rw [List.takeWhile_cons_of_pos (by simpa using Ne.symm hz.1), this]
  · exact fun h => h.trans (List.takeWhile_prefix _)

theorem filterPart_inj {e e' : Bytes} {a a' : Bool} (h : filterPart e a = filterPart e' a') : e = e' ∧ a = a' := by
  unfold filterPart at h
  have hl := congrArg List.getLast? h
  simp only [List.getLast?_append] at hl
  cases a <;> cases a'
  · simpa using h
  · simp at hl
  · simp at hl
  · simpa using h

/-- The decision of `parseFilterPart` on texts that begin like a filter. -/
theorem parseFilterPart_body {p : Bytes} {mods : List Bytes} (hp : hasPrefix p b!"#(" = true) :
    (∃ e all, e ≠ [] ∧ p = filterPart e all ∧ parseFilterPart p mods =
      match parseFilterCondition e with
      | .panic => .panic
      | .err => .reject
      | .ok f => .seg ⟨.filter f all, mods⟩) ∨
    ((¬ ∃ e all, e ≠ [] ∧ p = filterPart e all) ∧ parseFilterPart p mods = .skip) := by
  unfold parseFilterPart
  simp only
  by_cases h1 : hasSuffix p b!")#" = true
  · rw [if_pos h1]
    by_cases hk : p.length - 2 ≤ 2
    · right
      refine ⟨?_, by rw [if_pos hk]⟩
      rintro ⟨e, all, he, rfl⟩
      have := List.length_pos_iff.mpr he
      cases all
      · have h1' := List.isSuffixOf_iff_suffix.mp h1
        obtain ⟨w, hw⟩ := h1'
        have := congrArg List.getLast? hw
        unfold filterPart at this
        rw [List.getLast?_append, List.getLast?_append] at this
        simp at this
      · simp only [filterPart, List.length_append, List.length_cons, List.length_nil] at hk; simp at hk; omega
    · left
      have hs := filterPart_split hp (z := b!")#") rfl h1 hk
      refine ⟨_, true, ?_, hs, by rw [if_neg hk]; rfl⟩
      intro h0
      have := congrArg List.length h0
      simp at this; omega
  · rw [if_neg h1]
    by_cases h2 : hasSuffix p b!")" = true
    · rw [if_pos h2]
      by_cases hk : p.length - 1 ≤ 2
      · right
        refine ⟨?_, by rw [if_pos hk]⟩
        rintro ⟨e, all, he, rfl⟩
        have := List.length_pos_iff.mpr he
        cases all
        · simp only [filterPart, List.length_append, List.length_cons, List.length_nil] at hk; simp at hk; omega
        · exact h1 (List.isSuffixOf_iff_suffix.mpr ⟨b!"#(" ++ e, rfl⟩)
      · left
        have hs := filterPart_split hp (z := b!")") rfl h2 hk
        refine ⟨_, false, ?_, hs, by rw [if_neg hk]; rfl⟩
        intro h0
        have := congrArg List.length h0
        simp at this; omega
    · right
      refine ⟨?_, by rw [if_neg h2]⟩
      rintro ⟨e, all, he, rfl⟩
      cases all
      · exact h2 (List.isSuffixOf_iff_suffix.mpr ⟨b!"#(" ++ e, rfl⟩)
      · exact h1 (List.isSuffixOf_iff_suffix.mpr ⟨b!"#(" ++ e, rfl⟩)

theorem beforeBar_nil : beforeBar [] = [] := rfl

theorem filterPart_pre (e : Bytes) (all : Bool) : b!"#(" <+: filterPart e all := ⟨e ++ (if all then b!")#" else b!")"), by simp [filterPart]⟩

theorem badQuote_ne {expr : Bytes} (hq : BadQuote expr) : expr ≠ [] := by
  rintro rfl
  have := badQuote_iff.mpr hq
  have h2 : parseFilterCondition [] = .err := by decide +kernel
  rw [h2] at this; cases this

/-- What becomes of each part. -/
theorem parsePart_class (p : Bytes) :
    (parsePart p = .panic ↔ StrayQuote p) ∧ (parsePart p = .reject ↔ Rejected p) ∧ (parsePart p = .skip ↔ Idle p) := by
  by_cases h0 : p = []
  · subst h0
    have hn : ∀ e, ¬ FilterBody [] e := by
      rintro e ⟨all, h⟩; simp [beforeBar, filterPart] at h
    refine ⟨⟨fun h => by simp [parsePart] at h, ?_⟩, ⟨fun h => by simp [parsePart] at h, ?_⟩, ⟨fun _ => .inl rfl, fun _ => rfl⟩⟩
    · rintro ⟨e, h, _⟩; exact absurd h (hn e)
    · rintro ⟨e, _, h, _⟩; exact absurd h (hn e)
  · by_cases h1 : b!"#(" <+: p
    · have h2 : hasPrefix (beforeBar p) b!"#(" = true := by
        rw [hasPrefix, List.isPrefixOf_iff_prefix]; exact (prefix_beforeBar (by decide)).mp h1
      have e1 : parsePart p = parseFilterPart (beforeBar p) (parseModifiers p).2 := by
        unfold parsePart; rw [if_neg (by simpa using h0)]; simp only [beforeBar_eq]; rw [if_pos h2]
      rcases parseFilterPart_body (mods := (parseModifiers p).2) h2 with ⟨e, all, he, hb, hr⟩ | ⟨hb, hr⟩
      · have hb' : ∀ {e'}, FilterBody p e' → e' = e := by
          rintro e' ⟨a', h⟩; exact (filterPart_inj (h.symm.trans hb)).1
        rw [e1, hr]
        have hbody : FilterBody p e := ⟨all, hb⟩
        have hid : ¬ Idle p := by
          rintro (h | ⟨_, h⟩)
          · exact h0 h
          · exact h ⟨e, he, hbody⟩
        cases hc : parseFilterCondition e with
        | panic =>
          have hq := badQuote_iff.mp hc
          refine ⟨⟨fun _ => ⟨e, hbody, hq⟩, fun _ => rfl⟩, ⟨fun h => by simp at h, ?_⟩, ⟨fun h => by simp at h, fun h => absurd h hid⟩⟩
          rintro ⟨e', _, h', _, hn⟩; rw [hb' h'] at hn; exact absurd hq hn
        | err =>
          have hq : ¬ BadQuote e := fun h => by rw [badQuote_iff.mpr h] at hc; cases hc
          have hn : ∀ p op v, ¬ Condition e p op v := fun p op v h => by rw [condition_iff.mpr h] at hc; cases hc
          refine ⟨⟨fun h => by simp at h, ?_⟩, ⟨fun _ => ⟨e, he, hbody, hn, hq⟩, fun _ => rfl⟩, ⟨fun h => by simp at h, fun h => absurd h hid⟩⟩
          rintro ⟨e', h', hq'⟩; rw [hb' h'] at hq'; exact absurd hq' hq
        | ok f =>
          obtain ⟨p', op, v⟩ := f
          have hcd := condition_iff.mp hc
          refine ⟨⟨fun h => by simp at h, ?_⟩, ⟨fun h => by simp at h, ?_⟩, ⟨fun h => by simp at h, fun h => absurd h hid⟩⟩
          · rintro ⟨e', h', hq'⟩; rw [hb' h', ← badQuote_iff, hc] at hq'; cases hq'
          · rintro ⟨e', _, h', hn, _⟩; rw [hb' h'] at hn; exact absurd hcd (hn _ _ _)
      · rw [e1, hr]
        have hno : ∀ e, e ≠ [] → ¬ FilterBody p e := fun e he ⟨all, h⟩ => hb ⟨e, all, he, h⟩
        refine ⟨⟨fun h => by simp at h, ?_⟩, ⟨fun h => by simp at h, ?_⟩, ⟨fun _ => .inr ⟨h1, fun ⟨e, he, h⟩ => hno e he h⟩, fun _ => rfl⟩⟩
        · rintro ⟨e, h, hq⟩; exact absurd h (hno e (badQuote_ne hq))
        · rintro ⟨e, he, h, _⟩; exact absurd h (hno e he)
    · have hno : ∀ e, ¬ FilterBody p e := by
        rintro e ⟨all, h⟩
        exact h1 ((prefix_beforeBar (by decide)).mpr (h ▸ filterPart_pre e all))
      have hs : ∃ s, parsePart p = .seg s := by
        have hn : ¬ hasPrefix (beforeBar p) b!"#(" = true := by
          rw [hasPrefix, List.isPrefixOf_iff_prefix]; exact fun h => h1 ((prefix_beforeBar (by decide)).mpr h)
        unfold parsePart
        rw [if_neg (by simpa using h0)]
        simp only [beforeBar_eq]
        rw [if_neg hn]
        repeat' split
        all_goals exact ⟨_, rfl⟩
      obtain ⟨s, hs⟩ := hs
      rw [hs]
      refine ⟨⟨fun h => by simp at h, ?_⟩, ⟨fun h => by simp at h, ?_⟩, ⟨fun h => by simp at h, ?_⟩⟩
      · rintro ⟨e, h, _⟩; exact absurd h (hno e)
      · rintro ⟨e, _, h, _⟩; exact absurd h (hno e)
      · rintro (h | ⟨h, _⟩)
        · exact absurd h h0
        · exact absurd h h1

/-- The segment a part stands for. -/
def IsSeg (p : Bytes) (s : Seg) : Prop := parsePart p = .seg s

theorem parsePart_seg {p : Bytes} (h1 : ¬ Rejected p) (h2 : ¬ StrayQuote p) (h3 : ¬ Idle p) : ∃ s, IsSeg p s := by
  have hc := parsePart_class p
  unfold IsSeg
  cases h : parsePart p with
  | panic => exact absurd (hc.1.mp h) h2
  | reject => exact absurd (hc.2.1.mp h) h1
  | skip => exact absurd (hc.2.2.mp h) h3
  | seg s => exact ⟨s, rfl⟩

theorem parseParts_busy {ps ss : List Bytes} (h : Busy ps ss) (hp : ∀ p ∈ ps, ¬ Rejected p ∧ ¬ StrayQuote p) :
    ∃ segs, parseParts ps = .ok segs ∧ All2 IsSeg ss segs := by
  induction h with
  | nil => exact ⟨[], rfl, .nil⟩
  | idle hi h ih =>
    obtain ⟨segs, e, ha⟩ := ih fun p hm => hp p (by simp [hm])
    exact ⟨segs, by rw [parseParts, (parsePart_class _).2.2.mpr hi]; exact e, ha⟩
  | @busy p ps ss hi h ih =>
    obtain ⟨segs, e, ha⟩ := ih fun p hm => hp p (by simp [hm])
    obtain ⟨s, hs⟩ := parsePart_seg (hp p (by simp)).1 (hp p (by simp)).2 hi
    exact ⟨s :: segs, by rw [parseParts, hs, e], .cons hs ha⟩

theorem busy_total (ps : List Bytes) : ∃ ss, Busy ps ss := by
  induction ps with
  | nil => exact ⟨[], .nil⟩
  | cons p ps ih =>
    obtain ⟨ss, h⟩ := ih
    rcases Classical.em (Idle p) with hi | hi
    · exact ⟨ss, .idle hi h⟩
    · exact ⟨p :: ss, .busy hi h⟩

/-- The first unacceptable part decides. -/
theorem parseParts_fault {pre post : List Bytes} {p : Bytes} (hp : ∀ q ∈ pre, ¬ Rejected q ∧ ¬ StrayQuote q) :
    (Rejected p → parseParts (pre ++ p :: post) = .err) ∧ (StrayQuote p → parseParts (pre ++ p :: post) = .panic) := by
  induction pre with
  | nil =>
    constructor
    · intro h; rw [List.nil_append, parseParts, (parsePart_class _).2.1.mpr h]
    · intro h; rw [List.nil_append, parseParts, (parsePart_class _).1.mpr h]
  | cons q pre ih =>
    have ih := ih fun x hx => hp x (by simp [hx])
    have hq := hp q (by simp)
    rcases Classical.em (Idle q) with hi | hi
    · rw [List.cons_append, parseParts, (parsePart_class _).2.2.mpr hi]; exact ih
    · obtain ⟨s, hs⟩ := parsePart_seg hq.1 hq.2 hi
      rw [List.cons_append, parseParts, hs]
      exact ⟨fun h => by simp [ih.1 h], fun h => by simp [ih.2 h]⟩

/-- Either all parts are acceptable or there is a first that is not. -/
theorem parts_first (ps : List Bytes) : (∀ p ∈ ps, ¬ Rejected p ∧ ¬ StrayQuote p) ∨
    ∃ pre p post, ps = pre ++ p :: post ∧ (∀ q ∈ pre, ¬ Rejected q ∧ ¬ StrayQuote q) ∧ (Rejected p ∨ StrayQuote p) := by
  induction ps with
  | nil => left; simp
  | cons p ps ih =>
    rcases Classical.em (Rejected p ∨ StrayQuote p) with h | h
    · exact .inr ⟨[], p, ps, rfl, by simp, h⟩
    · have h' : ¬ Rejected p ∧ ¬ StrayQuote p := ⟨fun x => h (.inl x), fun x => h (.inr x)⟩
      rcases ih with ih | ⟨pre, q, post, rfl, h2, h3⟩
      · left; intro x hx; rcases List.mem_cons.mp hx with rfl | hx
        · exact h'
        · exact ih x hx
      · right; refine ⟨p :: pre, q, post, rfl, ?_, h3⟩
        intro x hx; rcases List.mem_cons.mp hx with rfl | hx
        · exact h'
        · exact h2 x hx

theorem parsePath_nil : parsePath [] = .err := rfl

theorem idle_nil : Idle [] := .inl rfl

theorem pathSteps_nil : PathSteps [] [] :=
  ⟨[[]], .done, by simp, by
    intro p hp
    rw [List.mem_singleton.mp hp]
    have hc := parsePart_class []
    exact ⟨fun h => by have := hc.2.1.mpr h; simp [parsePart] at this, fun h => by have := hc.1.mpr h; simp [parsePart] at this⟩, .idle idle_nil .nil⟩

theorem busy_fun {ps ss ss' : List Bytes} (h : Busy ps ss) (h' : Busy ps ss') : ss = ss' := by
  induction h generalizing ss' with
  | nil => cases h'; rfl
  | idle hi h ih => cases h' with
    | idle _ h' => exact ih h'
    | busy hn _ => exact absurd hi hn
  | busy hi h ih => cases h' with
    | idle hn _ => exact absurd hn hi
    | busy _ h' => rw [ih h']

theorem pathSteps_fun {path : Bytes} {ss ss' : List Bytes} (h : PathSteps path ss) (h' : PathSteps path ss') : ss = ss' := by
  obtain ⟨ps, h1, _, _, h2⟩ := h
  obtain ⟨ps', h1', _, _, h2'⟩ := h'
  rw [parts_fun h1] at h2
  rw [parts_fun h1'] at h2'
  exact busy_fun h2 h2'

/-- A path of steps is read as the segments they stand for. -/
theorem parsePath_reads {path : Bytes} {ss : List Bytes} (h : PathSteps path ss) :
    (path = [] ∧ ss = []) ∨ ∃ segs, parsePath path = .ok (fuseFields segs) ∧ All2 IsSeg ss segs := by
  by_cases h0 : path = []
  · subst h0; exact .inl ⟨rfl, pathSteps_fun h pathSteps_nil⟩
  · right
    obtain ⟨ps, h1, h2, h3, h4⟩ := h
    obtain ⟨segs, he, ha⟩ := parseParts_busy h4 h3
    refine ⟨segs, ?_, ha⟩
    rw [(parts_split h0).mp h1] at h2 he
    unfold parsePath parsePathInternal
    rw [if_neg (by simpa using h0), if_neg (by simp [maxPathSegments]; omega), he]

theorem parsePath_none {path : Bytes} (h : NoPath path) : parsePath path = .err := by
  by_cases h0 : path = []
  · subst h0; rfl
  · obtain ⟨ps, h1, h2⟩ := h
    rw [(parts_split h0).mp h1] at h2
    unfold parsePath parsePathInternal
    rw [if_neg (by simpa using h0)]
    rcases h2 with h2 | ⟨pre, p, post, e, hp, hr⟩
    · rw [if_pos (by simp [maxPathSegments]; omega)]
    · rw [e, (parseParts_fault hp).1 hr]; split <;> rfl

theorem parsePath_bad {path : Bytes} (h : BadPath path) : parsePath path = .panic := by
  obtain ⟨ps, h1, h2, pre, p, post, e, hp, hr⟩ := h
  by_cases h0 : path = []
  · subst h0
    have := (parts_fun h1).symm.trans e
    have hn : ∀ e, ¬ FilterBody [] e := by rintro e ⟨all, h⟩; simp [beforeBar, filterPart] at h
    cases pre with
    | nil =>
      simp only [splitPathAux, List.nil_append, List.cons.injEq] at this
      rw [← this.1] at hr
      obtain ⟨e, h, _⟩ := hr
      exact absurd h (hn e)
    | cons a as => simp [splitPathAux] at this
  · rw [(parts_split h0).mp h1] at h2 e
    unfold parsePath parsePathInternal
    rw [if_neg (by simpa using h0), if_neg (by simp [maxPathSegments]; omega), e, (parseParts_fault hp).2 hr]

/-- Every text is one of the three. -/
theorem path_total (path : Bytes) : (∃ ss, PathSteps path ss) ∨ NoPath path ∨ BadPath path := by
  have hp := (parts_aux path).1
  by_cases hl : ((splitPathAux false path).1 :: (splitPathAux false path).2).length ≤ 100
  · rcases parts_first ((splitPathAux false path).1 :: (splitPathAux false path).2) with h | ⟨pre, p, post, e, h, hr⟩
    · obtain ⟨ss, hb⟩ := busy_total ((splitPathAux false path).1 :: (splitPathAux false path).2)
      exact .inl ⟨ss, _, hp, hl, h, hb⟩
    · rcases hr with hr | hr
      · exact .inr (.inl ⟨_, hp, .inr ⟨pre, p, post, e, h, hr⟩⟩)
      · exact .inr (.inr ⟨_, hp, hl, pre, p, post, e, h, hr⟩)
  · exact .inr (.inl ⟨_, hp, .inl (by omega)⟩)

end Verif
