import Verif.Lemmas.FilterStep
import Verif.Props.Panic
/- C57: which texts are filter conditions. -/
namespace Verif.Props
open Spec

/-- C57: a text is a condition in one way at most, and then it has no stray quote. What it means is C11, C51 and C55. -/
theorem C57_unique (expr p v p' v' : Bytes) (op op' : FilterOp) (h : Condition expr p op v) : (Condition expr p' op' v' → p = p' ∧ op = op' ∧ v = v') ∧ ¬ BadQuote expr := by
  refine ⟨condition_unique h, fun hb => ?_⟩
  have := (badQuote_iff.mpr hb).symm.trans (condition_iff.mpr h)
  cases this

/-- The part does not begin like a filter. -/
def NoFilter (part : Bytes) : Prop := ¬ b!"#(" <+: part

theorem parsePart_noFilter {p : Bytes} (h : NoFilter p) : parsePart p = .skip ∨ ∃ s, parsePart p = .seg s := by
  unfold parsePart
  split
  · exact .inl rfl
  · right
    have hn : hasPrefix (parseModifiers p).1 b!"#(" = false := by
      rw [Bool.eq_false_iff, ne_eq, hasPrefix, List.isPrefixOf_iff_prefix]
      intro hp
      obtain ⟨t, ht⟩ := parseModifiers_prefix p
      exact h (hp.trans ⟨t, ht⟩)
    simp only [hn, Bool.false_eq_true, if_false]
    repeat' split
    all_goals exact ⟨_, rfl⟩

/-- The parts before decide nothing. -/
theorem parseParts_at {pre : List Bytes} (hp : ∀ q ∈ pre, NoFilter q) (a : Bytes) (post : List Bytes) :
    (parsePart a = .reject → parseParts (pre ++ a :: post) = .err) ∧ (parsePart a = .panic → parseParts (pre ++ a :: post) = .panic) ∧
    (parsePart a = .skip → parseParts (pre ++ a :: post) = parseParts (pre ++ post)) := by
  induction pre with
  | nil => refine ⟨?_, ?_, ?_⟩ <;> (intro h; simp only [List.nil_append]; rw [parseParts, h])
  | cons q pre ih =>
    have ih := ih fun x hx => hp x (by simp [hx])
    simp only [List.cons_append]
    rcases parsePart_noFilter (hp q (by simp)) with hq | ⟨s, hq⟩
    · refine ⟨fun h => ?_, fun h => ?_, fun h => ?_⟩
      · rw [parseParts, hq]; exact ih.1 h
      · rw [parseParts, hq]; exact ih.2.1 h
      · rw [parseParts, hq]; simp only; rw [ih.2.2 h, parseParts.eq_def (q :: (pre ++ post))]; simp only [hq]
    · refine ⟨fun h => ?_, fun h => ?_, fun h => ?_⟩
      · rw [parseParts, hq]; simp only; rw [ih.1 h]
      · rw [parseParts, hq]; simp only; rw [ih.2.1 h]
      · rw [parseParts, hq]; simp only; rw [ih.2.2 h, parseParts.eq_def (q :: (pre ++ post))]; simp only [hq]

theorem parseParts_same {a b : Bytes} (h : parsePart a = parsePart b) (pre post : List Bytes) : parseParts (pre ++ a :: post) = parseParts (pre ++ b :: post) := by
  induction pre with
  | nil => simp only [List.nil_append]; rw [parseParts, parseParts, h]
  | cons q pre ih => simp only [List.cons_append]; rw [parseParts, parseParts, ih]

theorem filterPart_ne (expr : Bytes) (all : Bool) : filterPart expr all ≠ [] := by simp [filterPart]

theorem split_with {pre post : List Bytes} {a : Bytes} (ha : a ≠ []) : splitPath (pathOf (pre ++ a :: post)) = pre ++ a :: post ∧ pathOf (pre ++ a :: post) ≠ [] := by
  have h : pre ++ a :: post ≠ [[]] := by
    intro h
    cases pre with
    | nil => simp at h; exact ha h.1
    | cons n ns => simp at h
  have h1 := splitPath_pathOf _ h
  refine ⟨h1, fun h2 => ?_⟩
  rw [h2] at h1
  simp [splitPath] at h1

theorem parsePath_with {pre post : List Bytes} {a : Bytes} (ha : a ≠ []) (hl : pre.length + 1 + post.length ≤ 100) : parsePath (pathOf (pre ++ a :: post)) =
    match parseParts (pre ++ a :: post) with
    | .panic => .panic
    | .err => .err
    | .ok ss => .ok (fuseFields ss) := by
  obtain ⟨h1, h2⟩ := split_with (pre := pre) (post := post) ha
  unfold parsePath parsePathInternal
  rw [if_neg (by simpa using h2), h1, if_neg (by simp [maxPathSegments]; omega)]
  rfl

theorem parsePart_rejected {expr : Bytes} (all : Bool) (hne : expr ≠ []) (hb : c!"|" ∉ expr) (hc : ∀ p op v, ¬ Condition expr p op v) (hq : ¬ BadQuote expr) :
    parsePart (filterPart expr all) = .reject := by
  have h : parseFilterCondition expr = .err := by
    cases h : parseFilterCondition expr with
    | err => rfl
    | panic => exact absurd (badQuote_iff.mp h) hq
    | ok f => obtain ⟨p, op, v⟩ := f; exact absurd (condition_iff.mp h) (hc _ _ _)
  unfold parsePart
  have hbar : c!"|" ∉ filterPart expr all := by unfold filterPart; cases all <;> simp [hb]
  have hlen : 0 < expr.length := List.length_pos_iff.mpr hne
  simp only [parseModifiers_plain _ hbar]
  rw [if_neg (by simp [filterPart]), if_pos (by simp [filterPart, hasPrefix, List.isPrefixOf])]
  unfold parseFilterPart filterPart
  cases all with
  | true =>
    have e : ((b!"#(" ++ expr ++ b!")#").take ((b!"#(" ++ expr ++ b!")#").length - 2)).drop 2 = expr := by
      rw [List.take_left' (by simp)]; rfl
    simp only [if_true]
    have hs1 : hasSuffix (b!"#(" ++ expr ++ b!")#") b!")#" = true := by
      unfold hasSuffix; rw [List.isSuffixOf_iff_suffix]; exact ⟨b!"#(" ++ expr, rfl⟩
    rw [if_pos hs1, if_neg (by simp; omega), e, h]
  | false =>
    have e : ((b!"#(" ++ expr ++ b!")").take ((b!"#(" ++ expr ++ b!")").length - 1)).drop 2 = expr := by
      rw [List.take_left' (by simp)]; rfl
    simp only [Bool.false_eq_true, if_false]
    have hs1 : hasSuffix (b!"#(" ++ expr ++ b!")") b!")" = true := by
      unfold hasSuffix; rw [List.isSuffixOf_iff_suffix]; exact ⟨b!"#(" ++ expr, rfl⟩
    have hs2 : ¬ hasSuffix (b!"#(" ++ expr ++ b!")") b!")#" = true := by
      unfold hasSuffix; rw [List.isSuffixOf_iff_suffix]; rintro ⟨w, hw⟩
      have := congrArg List.getLast? hw
      rw [List.getLast?_append, List.getLast?_append] at this
      simp at this
    rw [if_neg hs2, if_pos hs1, if_neg (by simp; omega), e, h]

theorem parsePath_rejected (pre post : List Bytes) (hp : ∀ q ∈ pre, NoFilter q) (expr : Bytes) (all : Bool) (hne : expr ≠ []) (hb : c!"|" ∉ expr)
    (hc : ∀ p op v, ¬ Condition expr p op v) (hq : ¬ BadQuote expr) : parsePath (pathOf (pre ++ filterPart expr all :: post)) = .err := by
  by_cases hl : pre.length + 1 + post.length ≤ 100
  · rw [parsePath_with (filterPart_ne _ _) hl, (parseParts_at hp _ post).1 (parsePart_rejected all hne hb hc hq)]
  · obtain ⟨h1, h2⟩ := split_with (pre := pre) (post := post) (filterPart_ne expr all)
    unfold parsePath parsePathInternal
    rw [if_neg (by simpa using h2), h1, if_pos (by simp [maxPathSegments]; omega)]

/-- C57: a filter whose text is not a condition makes the whole path find nothing, in every document and whatever follows. -/
theorem C57_rejected (env : Env) (xml : Bytes) (pre post : List Bytes) (hp : ∀ q ∈ pre, NoFilter q) (expr : Bytes) (all : Bool) (hne : expr ≠ []) (hb : c!"|" ∉ expr)
    (hc : ∀ p op v, ¬ Condition expr p op v) (hq : ¬ BadQuote expr) : get env xml (pathOf (pre ++ filterPart expr all :: post)) = .ret .null := by
  unfold get
  rw [parsePath_rejected pre post hp expr all hne hb hc hq]
  simp

/-- C57: with any options. -/
theorem C57_rejected_options (env : Env) (xml : Bytes) (opts : Option Options) (pre post : List Bytes) (hp : ∀ q ∈ pre, NoFilter q) (expr : Bytes) (all : Bool) (hne : expr ≠ [])
    (hb : c!"|" ∉ expr) (hc : ∀ p op v, ¬ Condition expr p op v) (hq : ¬ BadQuote expr) : getWithOptions env xml (pathOf (pre ++ filterPart expr all :: post)) opts = .ret .null := by
  unfold getWithOptions parsePathWithOptions
  rw [parsePath_rejected pre post hp expr all hne hb hc hq]
  simp

/-- C57: and Set and Delete report an invalid path and change nothing. -/
theorem C57_rejected_set (o : Ord) (xml : Bytes) (hx : xml.length ≤ 10485760) (hv : valid xml = true) (v : GoVal) (pre post : List Bytes)
    (hp : ∀ q ∈ pre, NoFilter q) (expr : Bytes) (all : Bool) (hne : expr ≠ []) (hb : c!"|" ∉ expr) (hc : ∀ p op v, ¬ Condition expr p op v) (hq : ¬ BadQuote expr) :
    set o xml (pathOf (pre ++ filterPart expr all :: post)) v = .ret (xml, some .invalidPath) ∧ delete o xml (pathOf (pre ++ filterPart expr all :: post)) = .ret (xml, some .invalidPath) := by
  have h1 : ¬ xml.length > maxDocumentSize := Nat.not_lt.mpr hx
  have h2 : ¬ ((!xml.isEmpty && !valid xml) = true) := by simp [hv]
  have hd : delete o xml (pathOf (pre ++ filterPart expr all :: post)) = .ret (xml, some .invalidPath) := by
    unfold delete deleteWithOptions parsePathWithOptions
    rw [parsePath_rejected pre post hp expr all hne hb hc hq, if_neg h1, if_neg (by simp [hv])]
  refine ⟨?_, hd⟩
  unfold set setWithOptions
  rw [if_neg h1, if_neg h2]
  split
  · exact hd
  · unfold parsePathWithOptions
    rw [parsePath_rejected pre post hp expr all hne hb hc hq]

/-- C57: a condition with a single quote character as value makes every query panic, in every document that is not too large. -/
theorem C57_panics (env : Env) (xml : Bytes) (hx : xml.length ≤ 10485760) (pre post : List Bytes) (hp : ∀ q ∈ pre, NoFilter q) (hl : pre.length + 1 + post.length ≤ 100)
    (expr : Bytes) (all : Bool) (hb : c!"|" ∉ expr) (hq : BadQuote expr) : get env xml (pathOf (pre ++ filterPart expr all :: post)) = .panic := by
  rw [get_panic_iff]
  refine ⟨hx, ?_⟩
  have hne : expr ≠ [] := by
    rintro rfl
    have := badQuote_iff.mpr hq
    have h2 : parseFilterCondition [] = .err := by decide +kernel
    rw [h2] at this; cases this
  rw [parsePath_with (filterPart_ne _ _) hl, (parseParts_at hp _ post).2.1 (parsePart_filter_panic all hb hne (badQuote_iff.mpr hq))]

/-- C57: two texts of the same condition are interchangeable everywhere. -/
theorem C57_same (env : Env) (xml : Bytes) (pre post : List Bytes) (expr expr' p v : Bytes) (op : FilterOp) (all : Bool) (h : CondText expr p op v) (h' : CondText expr' p op v) :
    get env xml (pathOf (pre ++ filterPart expr all :: post)) = get env xml (pathOf (pre ++ filterPart expr' all :: post)) := by
  have hs := parseParts_same ((parsePart_cond h all).trans (parsePart_cond h' all).symm) pre post
  have : parsePath (pathOf (pre ++ filterPart expr all :: post)) = parsePath (pathOf (pre ++ filterPart expr' all :: post)) := by
    obtain ⟨h1, h2⟩ := split_with (pre := pre) (post := post) (filterPart_ne expr all)
    obtain ⟨h3, h4⟩ := split_with (pre := pre) (post := post) (filterPart_ne expr' all)
    unfold parsePath parsePathInternal
    have e2 : (pathOf (pre ++ filterPart expr all :: post)).isEmpty = false := by simpa using h2
    have e4 : (pathOf (pre ++ filterPart expr' all :: post)).isEmpty = false := by simpa using h4
    rw [e2, e4, h1, h3, hs]
    simp only [List.length_append, List.length_cons]
  unfold get
  rw [this]

/-- C57: a part that begins like a filter but is not closed, or has no condition at all, is ignored. -/
theorem C57_ignored (env : Env) (xml : Bytes) (pre post : List Bytes) (hp : ∀ q ∈ pre, NoFilter q) (hl : pre.length + 1 + post.length ≤ 100) (hn : pre ++ post ≠ [[]])
    (part : Bytes) (h1 : b!"#(" <+: part) (hb : c!"|" ∉ part) (h2 : (¬ b!")" <:+ part ∧ ¬ b!")#" <:+ part) ∨ part = b!"#()" ∨ part = b!"#()#") :
    get env xml (pathOf (pre ++ part :: post)) = get env xml (pathOf (pre ++ post)) := by
  have hne : part ≠ [] := by rintro rfl; simp at h1
  have hskip : parsePart part = .skip := by
    unfold parsePart
    rw [if_neg (by simpa using hne), parseModifiers_plain _ hb]
    simp only
    rw [if_pos (by rw [hasPrefix, List.isPrefixOf_iff_prefix]; exact h1)]
    rcases h2 with ⟨h2, h3⟩ | rfl | rfl
    · unfold parseFilterPart
      simp only
      rw [if_neg (by rw [hasSuffix, List.isSuffixOf_iff_suffix]; exact h3), if_neg (by rw [hasSuffix, List.isSuffixOf_iff_suffix]; exact h2)]
    · decide
    · decide
  have e : parsePath (pathOf (pre ++ part :: post)) = parsePath (pathOf (pre ++ post)) ∨ (pre ++ post = [] ∧ parsePath (pathOf (pre ++ part :: post)) = .ok []) := by
    rw [parsePath_with hne hl, (parseParts_at hp _ post).2.2 hskip]
    by_cases h0 : pre ++ post = []
    · right; rw [h0]; exact ⟨rfl, rfl⟩
    · left
      have h3 := splitPath_pathOf _ hn
      have h4 : pathOf (pre ++ post) ≠ [] := by intro h4; rw [h4] at h3; exact h0 (h3.symm.trans (by simp [splitPath]))
      unfold parsePath parsePathInternal
      rw [if_neg (by simpa using h4), h3, if_neg (by simp [maxPathSegments]; omega)]
      rfl
  rcases e with e | ⟨h0, e⟩
  · unfold get; rw [e]
  · unfold get; rw [e, h0]; rfl

private def sample : Bytes := b!"<r><i><n>a==b</n><p>5</p></i><i><n>x</n><p>7</p></i></r>"

/-- White space around the condition and inside a path does not matter or is kept; line feeds inside a comparison are rejected although the same text
is a condition with a blank; a two-character operator inside the value is found before the one-character operator that was meant. -/
example : Condition b!"\n p > 5\t" b!"p" .gt b!"5" ∧ Condition b!"p>5" b!"p" .gt b!"5" ∧ Condition b!"a\nb" b!"a\nb" .ex [] ∧ Condition b!"n == ''" b!"n" .eq [] ∧
    Condition b!"n=='a==b'" b!"n" .eq b!"a==b" ∧ BadQuote b!"n=='" := by
  simp only [← condition_iff, ← badQuote_iff]
  decide +kernel

example : (∀ p op v, ¬ Condition b!"p\n>5" p op v) ∧ (∀ p op v, ¬ Condition b!"n%'a==b'" p op v) ∧ (∀ p op v, ¬ Condition b!"n=1" p op v) ∧ (∀ p op v, ¬ Condition b!"n==" p op v) ∧
    (∀ p op v, ¬ Condition b!"==5" p op v) ∧ (∀ p op v, ¬ Condition (List.replicate 257 c!"a") p op v) ∧ (∀ p op v, ¬ Condition b!"p>5>6>=7" p op v) := by
  refine ⟨?_, ?_, ?_, ?_, ?_, ?_, ?_⟩ <;>
  · intro p op v h
    have h := condition_iff.mpr h
    revert h
    first
      | (rw [show parseFilterCondition _ = .err from by decide +kernel]; intro h; cases h)

example (env : Env) : get env sample b!"r.i.#(p\n>5).n" = .ret .null := by
  refine C57_rejected env sample [b!"r", b!"i"] [b!"n"] (by simp [NoFilter]) b!"p\n>5" false (by simp) (by simp) ?_ ?_
  · intro p op v h
    have h := condition_iff.mpr h
    rw [show parseFilterCondition b!"p\n>5" = .err from by decide +kernel] at h; cases h
  · intro h
    have h := badQuote_iff.mpr h
    rw [show parseFilterCondition b!"p\n>5" = .err from by decide +kernel] at h; cases h

/-- The dot of a path inside a condition must be escaped; otherwise the two halves are no filters: the first is ignored, the second is a name. -/
example (env : Env) : get env b!"<r><c==1)>v</c==1)></r>" b!"r.#(b.c==1)" = get env b!"<r><c==1)>v</c==1)></r>" b!"r.c==1)" :=
  C57_ignored env _ [b!"r"] [b!"c==1)"] (by simp [NoFilter]) (by simp) (by simp) b!"#(b" ⟨b!"b", rfl⟩ (by simp) (.inl (by simp [List.suffix_cons_iff]))

end Verif.Props
