import Verif.Props.Bar
/- Filter conditions in Set, Delete and with options (C57, continued). -/
namespace Verif.Props
open Verif Verif.Spec

/-- No call can tell the two paths apart. -/
def Interchangeable (p q : Bytes) : Prop :=
  ∀ xml : Bytes, (∀ env, get env xml p = get env xml q) ∧ (∀ env opts, getWithOptions env xml p opts = getWithOptions env xml q opts) ∧
    (∀ o v opts, setWithOptions o xml p v opts = setWithOptions o xml q v opts) ∧ (∀ o opts, deleteWithOptions o xml p opts = deleteWithOptions o xml q opts)

theorem parsePathWithOptions_congr {p q : Bytes} (h : parsePath p = parsePath q) (cs : Bool) : parsePathWithOptions p cs = parsePathWithOptions q cs := by
  unfold parsePathWithOptions; rw [h]

theorem interchangeable_of_eq {p q : Bytes} (h : parsePath p = parsePath q) : Interchangeable p q := by
  intro xml
  have hd : ∀ o opts, deleteWithOptions o xml p opts = deleteWithOptions o xml q opts := by
    intro o opts; unfold deleteWithOptions; rw [parsePathWithOptions_congr h]
  refine ⟨fun env => by unfold get; rw [h], fun env opts => ?_, fun o v opts => ?_, hd⟩
  · unfold getWithOptions; simp only; rw [h, parsePathWithOptions_congr h]
  · unfold setWithOptions; rw [parsePathWithOptions_congr h, hd]

theorem interchangeable_empty {p q : Bytes} (hp : parsePath p = .ok [] ∨ parsePath p = .err) (hq : parsePath q = .ok [] ∨ parsePath q = .err) : Interchangeable p q := by
  have key : ∀ (x : Bytes), (parsePath x = .ok [] ∨ parsePath x = .err) → ∀ cs, parsePathWithOptions x cs = .ok [] ∨ parsePathWithOptions x cs = .err := by
    intro x hx cs
    unfold parsePathWithOptions
    rcases hx with hx | hx <;> rw [hx]
    · cases cs <;> exact .inl rfl
    · exact .inr rfl
  intro xml
  have hd : ∀ o opts, deleteWithOptions o xml p opts = deleteWithOptions o xml q opts := by
    intro o opts; unfold deleteWithOptions
    rcases key p hp (effOpts opts).caseSensitive with h1 | h1 <;> rcases key q hq (effOpts opts).caseSensitive with h2 | h2 <;> rw [h1, h2]
  refine ⟨fun env => ?_, fun env opts => ?_, fun o v opts => ?_, hd⟩
  · unfold get; rcases hp with h1 | h1 <;> rcases hq with h2 | h2 <;> rw [h1, h2]
  · unfold getWithOptions; simp only
    rcases key p hp (opts.getD defaultOptions).caseSensitive with h3 | h3 <;> rcases key q hq (opts.getD defaultOptions).caseSensitive with h4 | h4 <;>
      rcases hp with h1 | h1 <;> rcases hq with h2 | h2 <;> rw [h1, h2, h3, h4]
  · unfold setWithOptions; rw [hd]
    rcases key p hp (effOpts opts).caseSensitive with h1 | h1 <;> rcases key q hq (effOpts opts).caseSensitive with h2 | h2 <;> rw [h1, h2]

theorem interchangeable_skip {pre post : List Bytes} (hp : ∀ q ∈ pre, NoFilter q) (hl : pre.length + 1 + post.length ≤ 100) (hn : pre ++ post ≠ [[]]) {part : Bytes} (hne : part ≠ [])
    (hskip : parsePart part = .skip) : Interchangeable (pathOf (pre ++ part :: post)) (pathOf (pre ++ post)) := by
  by_cases h0 : pre ++ post = []
  · refine interchangeable_empty (.inl ?_) ?_
    · rw [parsePath_with hne hl, (parseParts_at hp _ post).2.2 hskip, h0]; rfl
    · rw [h0]; decide
  · refine interchangeable_of_eq ?_
    rw [parsePath_with hne hl, (parseParts_at hp _ post).2.2 hskip]
    have h3 := splitPath_pathOf _ hn
    have h4 : pathOf (pre ++ post) ≠ [] := by intro h4; rw [h4] at h3; exact h0 (h3.symm.trans (by simp [splitPath]))
    unfold parsePath parsePathInternal
    rw [if_neg (by simpa using h4), h3, if_neg (by simp [maxPathSegments]; omega)]
    rfl

/-- C57: two texts of the same condition are interchangeable in every call. -/
theorem C57_same_all (pre post : List Bytes) (expr expr' p v : Bytes) (op : FilterOp) (all : Bool) (h : CondText expr p op v) (h' : CondText expr' p op v) :
    Interchangeable (pathOf (pre ++ filterPart expr all :: post)) (pathOf (pre ++ filterPart expr' all :: post)) := by
  have hs := parseParts_same ((parsePart_cond h all).trans (parsePart_cond h' all).symm) pre post
  refine interchangeable_of_eq ?_
  obtain ⟨h1, h2⟩ := split_with (pre := pre) (post := post) (filterPart_ne expr all)
  obtain ⟨h3, h4⟩ := split_with (pre := pre) (post := post) (filterPart_ne expr' all)
  unfold parsePath parsePathInternal
  have e2 : (pathOf (pre ++ filterPart expr all :: post)).isEmpty = false := by simpa using h2
  have e4 : (pathOf (pre ++ filterPart expr' all :: post)).isEmpty = false := by simpa using h4
  rw [e2, e4, h1, h3, hs]
  simp only [List.length_append, List.length_cons]

/-- C57: a part that begins like a filter but is not closed, or has no condition at all, is ignored by every call. -/
theorem C57_ignored_all (pre post : List Bytes) (hp : ∀ q ∈ pre, NoFilter q) (hl : pre.length + 1 + post.length ≤ 100) (hn : pre ++ post ≠ [[]])
    (part : Bytes) (h1 : b!"#(" <+: part) (hb : c!"|" ∉ part) (h2 : (¬ b!")" <:+ part ∧ ¬ b!")#" <:+ part) ∨ part = b!"#()" ∨ part = b!"#()#") :
    Interchangeable (pathOf (pre ++ part :: post)) (pathOf (pre ++ post)) := by
  have hne : part ≠ [] := by rintro rfl; simp at h1
  refine interchangeable_skip hp hl hn hne ?_
  rcases h2 with ⟨h2, h3⟩ | rfl | rfl
  · have hbb : beforeBar part = part := by
      have : ∀ l : Bytes, c!"|" ∉ l → l.takeWhile (· ≠ c!"|") = l := by
        intro l hl
        induction l with
        | nil => rfl
        | cons c l ih =>
          rw [List.takeWhile_cons, if_pos (by simp; rintro rfl; simp at hl), ih (by intro h; exact hl (by simp [h]))]
      exact this part hb
    exact parsePart_bar h1 (by rw [hbb]; exact h2) (by rw [hbb]; exact h3)
  · decide
  · decide

/-- C57: a filter with a bar in its condition is ignored by every call: Set and Delete go where the path without it leads. -/
theorem C57_bar_all (pre post : List Bytes) (hp : ∀ q ∈ pre, NoFilter q) (hl : pre.length + 1 + post.length ≤ 100) (hn : pre ++ post ≠ [[]])
    (x y : Bytes) (all : Bool) (hx : c!"|" ∉ x) (h2 : ¬ b!")" <:+ x) (h3 : ¬ b!")#" <:+ x) :
    Interchangeable (pathOf (pre ++ filterPart (x ++ c!"|" :: y) all :: post)) (pathOf (pre ++ post)) := by
  refine interchangeable_skip hp hl hn (filterPart_ne _ _) ?_
  have hpart : ∃ z, filterPart (x ++ c!"|" :: y) all = b!"#(" ++ x ++ c!"|" :: z := by
    cases all
    · exact ⟨y ++ b!")", by simp [filterPart]⟩
    · exact ⟨y ++ b!")#", by simp [filterPart]⟩
  obtain ⟨z, hz⟩ := hpart
  have hbb : beforeBar (b!"#(" ++ x ++ c!"|" :: z) = b!"#(" ++ x := by
    unfold beforeBar
    rw [List.takeWhile_append_of_pos (by intro c hc; rcases List.mem_append.mp hc with h | h; · simp only [List.mem_cons, List.not_mem_nil, or_false] at h; rcases h with rfl | rfl <;> decide
                                         · simp; rintro rfl; exact hx h)]
    simp
  have hs2 : ¬ b!")" <:+ b!"#(" ++ x := by
    intro h
    rcases x.eq_nil_or_concat with rfl | ⟨x', c, rfl⟩
    · revert h; decide
    rw [List.concat_eq_append] at *
    · obtain ⟨t, ht⟩ := h
      rw [← List.append_assoc] at ht
      have := (List.append_inj' ht rfl).2
      exact h2 ⟨x', by rw [this]⟩
  have hs3 : ¬ b!")#" <:+ b!"#(" ++ x := by
    intro h
    rcases x.eq_nil_or_concat with rfl | ⟨x', c, rfl⟩
    · revert h; decide
    rw [List.concat_eq_append] at *
    · rcases x'.eq_nil_or_concat with rfl | ⟨x'', d, rfl⟩
      · obtain ⟨t, ht⟩ := h
        have := (List.append_inj' (t₁ := b!")#") (t₂ := [c!"(", c]) (s₂ := b!"#") (by simpa using ht) rfl).2
        simp at this
      rw [List.concat_eq_append] at *
      · obtain ⟨t, ht⟩ := h
        have := (List.append_inj' (t₁ := b!")#") (t₂ := [d, c]) (s₂ := b!"#(" ++ x'') (by simpa using ht) rfl).2
        exact h3 ⟨x'', by rw [this]; simp⟩
  rw [hz]
  exact parsePart_bar ⟨x ++ c!"|" :: z, by simp⟩ (by rw [hbb]; exact hs2) (by rw [hbb]; exact hs3)

/-- C57: a condition that is none makes Set and Delete report an invalid path with any options. -/
theorem C57_rejected_all (o : Ord) (xml : Bytes) (hx : xml.length ≤ 10485760) (hv : valid xml = true) (v : GoVal) (opts : Option Options) (pre post : List Bytes)
    (hp : ∀ q ∈ pre, NoFilter q) (expr : Bytes) (all : Bool) (hne : expr ≠ []) (hb : c!"|" ∉ expr) (hc : ∀ p op v, ¬ Condition expr p op v) (hq : ¬ BadQuote expr) :
    setWithOptions o xml (pathOf (pre ++ filterPart expr all :: post)) v opts = .ret (xml, some .invalidPath) ∧
    deleteWithOptions o xml (pathOf (pre ++ filterPart expr all :: post)) opts = .ret (xml, some .invalidPath) := by
  have h1 : ¬ xml.length > maxDocumentSize := Nat.not_lt.mpr hx
  have h2 : ¬ ((!xml.isEmpty && !valid xml) = true) := by simp [hv]
  have hd : deleteWithOptions o xml (pathOf (pre ++ filterPart expr all :: post)) opts = .ret (xml, some .invalidPath) := by
    unfold deleteWithOptions parsePathWithOptions
    rw [parsePath_rejected pre post hp expr all hne hb hc hq, if_neg h1, if_neg (by simp [hv])]
  refine ⟨?_, hd⟩
  unfold setWithOptions
  rw [if_neg h1, if_neg h2]
  split
  · exact hd
  · unfold parsePathWithOptions
    rw [parsePath_rejected pre post hp expr all hne hb hc hq]

/-- C57: a condition with a single quote character as value makes every call panic, on every valid document that is not too large. -/
theorem C57_panics_all (xml : Bytes) (hx : xml.length ≤ 10485760) (hv : valid xml = true) (pre post : List Bytes) (hp : ∀ q ∈ pre, NoFilter q) (hl : pre.length + 1 + post.length ≤ 100)
    (expr : Bytes) (all : Bool) (hb : c!"|" ∉ expr) (hq : BadQuote expr) (opts : Option Options) :
    (∀ env, getWithOptions env xml (pathOf (pre ++ filterPart expr all :: post)) opts = .panic) ∧
    (∀ o v, setWithOptions o xml (pathOf (pre ++ filterPart expr all :: post)) v opts = .panic) ∧
    (∀ o, deleteWithOptions o xml (pathOf (pre ++ filterPart expr all :: post)) opts = .panic) := by
  have hne : expr ≠ [] := by
    rintro rfl
    have := badQuote_iff.mpr hq
    have h2 : parseFilterCondition [] = .err := by decide +kernel
    rw [h2] at this; cases this
  have hpan : parsePath (pathOf (pre ++ filterPart expr all :: post)) = .panic := by
    rw [parsePath_with (filterPart_ne _ _) hl, (parseParts_at hp _ post).2.1 (parsePart_filter_panic all hb hne (badQuote_iff.mpr hq))]
  have hw : ∀ cs, parsePathWithOptions (pathOf (pre ++ filterPart expr all :: post)) cs = .panic := by intro cs; unfold parsePathWithOptions; rw [hpan]
  have h1 : ¬ xml.length > maxDocumentSize := Nat.not_lt.mpr hx
  have hd : ∀ o, deleteWithOptions o xml (pathOf (pre ++ filterPart expr all :: post)) opts = .panic := by
    intro o; unfold deleteWithOptions; rw [if_neg h1, if_neg (by simp [hv]), hw]
  refine ⟨fun env => ?_, fun o v => ?_, hd⟩
  · unfold getWithOptions; simp only; rw [if_neg h1, hpan, hw]; simp
  · unfold setWithOptions; rw [if_neg h1, if_neg (by simp [hv]), hd, hw]; simp

/-- So a Delete that is meant for one entry takes another. -/
theorem C57_all_witness :
    delete exEnv.ord b!"<r><i><n>x</n></i><i><n>a|b</n></i></r>" b!"r.i.#(n=='a|b').n" = .ret (b!"<r><i></i><i><n>a|b</n></i></r>", none) ∧
    setWithOptions exEnv.ord b!"<r><i><n>x</n></i></r>" b!"R.I.#(n=='a|b').N" (.str b!"1") (some { defaultOptions with caseSensitive := false }) = .ret (b!"<r><i><n>1</n></i></r>", none) ∧
    delete exEnv.ord b!"<r><i/></r>" b!"r.#(i=1)" = .ret (b!"<r><i/></r>", some .invalidPath) ∧
    delete exEnv.ord b!"<r><i/></r>" b!"r.#(i=='" = delete exEnv.ord b!"<r><i/></r>" b!"r" ∧
    delete exEnv.ord b!"<r><i/></r>" b!"r.#(i==')" = .panic := by
  refine ⟨?_, ?_, ?_, ?_, ?_⟩ <;> decide +kernel

/-- The same by the theorem, for every document. -/
example (o : Ord) (xml : Bytes) (v : GoVal) : setWithOptions o xml b!"r.i.#(n=='a|b')#.n" v none = setWithOptions o xml b!"r.i.n" v none :=
  (C57_bar_all [b!"r", b!"i"] [b!"n"] (by simp [NoFilter]) (by simp) (by simp) b!"n=='a" b!"b'" true (by simp) (by simp [List.suffix_cons_iff]) (by simp [List.suffix_cons_iff]) xml).2.2.1 o v none

end Verif.Props
