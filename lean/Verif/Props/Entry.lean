import Verif.Lemmas.Entry
import Verif.Lemmas.Path
import Verif.Spec.Batch
/- Properties of the entry points: C14, C15, C21, C24, C25, C26, C41, C42, C43. -/
namespace Verif.Props
open Spec

/-! ## C14 path escaping -/

/-- C14: escaping dots and backslashes and joining with dots gives a path that splits back into exactly those
names. The single empty name is excluded: its path is the empty string, which is "no path". -/
theorem C14_split_join (names : List Bytes) (h : names ≠ [[]]) : splitPath (pathOf names) = names :=
  splitPath_pathOf names h

example : splitPath (pathOf [b!"a.b", b!"c\\d", b!"", b!"e"]) = [b!"a.b", b!"c\\d", b!"", b!"e"] := by decide
example : pathOf [b!"a.b", b!"c\\d"] = b!"a\\.b.c\\\\d" := by decide

/-- C14: so any list of ordinary names can be addressed: the path parses to these element segments. -/
theorem C14_parse_join (names : List Bytes) (hne : names ≠ []) (hl : names.length ≤ 100)
    (h : ∀ n ∈ names, PlainName n) :
    parsePath (pathOf names) = .ok (names.map fun n => ⟨.elem n, []⟩) :=
  parsePath_plain names hne hl h

example : PlainName b!"a.b" :=
  ⟨by decide, by decide, by decide, by decide, by decide, by decide, by decide, ⟨c!"a", by decide, by decide⟩⟩
example : parsePath b!"a\\.b.c" = .ok [⟨.elem b!"a.b", []⟩, ⟨.elem b!"c", []⟩] := by decide

/-! ## C15 path limits -/

/-- C15: a path with 100 or more separating dots (so more than 100 parts) finds nothing. -/
theorem C15_long_get (env : Env) (xml path : Bytes) (h : 100 ≤ unescapedDots path) :
    get env xml path = .ret .null := by
  unfold get; rw [parsePath_too_long path h]; simp

/-- C15: and is refused by Set with ErrInvalidPath (on documents Set accepts), the document unchanged. -/
theorem C15_long_set (o : Ord) (xml path : Bytes) (v : GoVal) (opts : Option Options) (h : 100 ≤ unescapedDots path)
    (hx : xml.length ≤ 10485760) (hv : valid xml = true) :
    setWithOptions o xml path v opts = .ret (xml, some .invalidPath) := by
  have hd : maxDocumentSize = 10485760 := rfl
  unfold setWithOptions deleteWithOptions parsePathWithOptions
  rw [parsePath_too_long path h]
  simp [hv, hd, Nat.not_lt.mpr hx]

/-- C15: the same for Delete. -/
theorem C15_long_delete (o : Ord) (xml path : Bytes) (opts : Option Options) (h : 100 ≤ unescapedDots path)
    (hx : xml.length ≤ 10485760) (hv : valid xml = true) :
    deleteWithOptions o xml path opts = .ret (xml, some .invalidPath) := by
  have hd : maxDocumentSize = 10485760 := rfl
  unfold deleteWithOptions parsePathWithOptions
  rw [parsePath_too_long path h]
  simp [hv, hd, Nat.not_lt.mpr hx]

/-- C15: a path made of dots only (or empty) has no usable segment. -/
theorem C15_empty_get (env : Env) (xml : Bytes) (n : Nat) : get env xml (List.replicate n c!".") = .ret .null := by
  unfold get
  split
  · rfl
  · rcases parsePath_dots n with h | h <;> rw [h]

/-- C15: and Set refuses it. -/
theorem C15_empty_set (o : Ord) (xml : Bytes) (v : GoVal) (opts : Option Options) (n : Nat)
    (hx : xml.length ≤ 10485760) (hv : valid xml = true) :
    setWithOptions o xml (List.replicate n c!".") v opts = .ret (xml, some .invalidPath) := by
  have hd : maxDocumentSize = 10485760 := rfl
  unfold setWithOptions deleteWithOptions parsePathWithOptions
  rcases parsePath_dots n with h | h <;> rw [h] <;> simp [hv, hd, Nat.not_lt.mpr hx] <;>
    (cases (effOpts opts).caseSensitive <;> simp)

/-- C15: no parsed path has more than 100 segments. -/
theorem C15_segments (path : Bytes) (ss : List Seg) (h : parsePath path = .ok ss) : ss.length ≤ 100 :=
  parsePath_length path ss h

example : unescapedDots (List.replicate 100 c!".") = 100 := by decide +kernel
example : unescapedDots b!"a\\.b.c" = 1 := by decide
example : valid b!"<a/>" = true := by decide +kernel

/-! ## C41 namespaces -/

/-- C41: a path name with a (non-empty, usable) prefix matches exactly itself. -/
theorem C41_prefixed (p l elemName : Bytes) (hp : GoodPrefix p) (hne : p ≠ []) :
    nameMatches (p ++ c!":" :: l) elemName = true ↔ elemName = p ++ c!":" :: l := by
  unfold nameMatches
  rw [splitNamespace_good p l hp]
  simp only [ne_eq, hne, not_false_eq_true, if_true, Bool.and_eq_true, decide_eq_true_eq]
  constructor
  · rintro ⟨h1, h2⟩
    rcases splitNamespace_cases elemName with ⟨h3, -⟩ | ⟨p', l', rfl, -, h3⟩
    · rw [h3] at h1; exact absurd h1 hne
    · rw [h3] at h1 h2; simp only at h1 h2; rw [h1, h2]
  · rintro rfl; rw [splitNamespace_good p l hp]; exact ⟨rfl, rfl⟩

/-- C41: a path name without usable prefix matches the elements with that local name, whatever
their prefix. This covers names whose prefix is over-long or has control characters: they are one name. -/
theorem C41_unprefixed (n elemName : Bytes) (hn : ∀ p l, n = p ++ c!":" :: l → ¬ GoodPrefix p) :
    nameMatches n elemName = true ↔
      elemName = n ∨ ∃ p, GoodPrefix p ∧ elemName = p ++ c!":" :: n := by
  have h0 : splitNamespace n = ([], n) := by
    rcases splitNamespace_cases n with ⟨h, -⟩ | ⟨p, l, he, hg, -⟩
    · exact h
    · exact absurd hg (hn p l he)
  unfold nameMatches
  rw [h0]
  simp only [ne_eq, not_true_eq_false, if_false, decide_eq_true_eq]
  constructor
  · intro h
    rcases splitNamespace_cases elemName with ⟨h3, -⟩ | ⟨p', l', rfl, hg, h3⟩
    · rw [h3] at h; left; exact h.symm
    · rw [h3] at h; right; exact ⟨p', hg, by rw [h]⟩
  · rintro (rfl | ⟨p, hg, rfl⟩)
    · rw [h0]
    · rw [splitNamespace_good p n hg]

/-- C41: a leading colon is an empty prefix, which is no prefix. -/
theorem C41_leading_colon (l elemName : Bytes) :
    nameMatches (c!":" :: l) elemName = decide ((splitNamespace elemName).2 = l) := by
  have := splitNamespace_good [] l ⟨by simp, by simp, by simp⟩
  unfold nameMatches
  simp only [List.nil_append] at this
  rw [this]
  simp [eq_comm]

/-- C41: segments use this matching, in Get and (case-sensitively) in Set and Delete. -/
theorem C41_segment (v elemName : Bytes) (mods : List Bytes) :
    (Seg.mk (.elem v) mods).matches elemName = nameMatches v elemName ∧
    (Seg.mk (.elem v) mods).matchesOpt elemName true = nameMatches v elemName := by
  constructor
  · rfl
  · simp only [Seg.matchesOpt, nameMatchesOpt, nameMatches, if_true]

example : GoodPrefix b!"soap" := ⟨by decide, by decide, by decide⟩
example : nameMatches b!"soap:Body" b!"soap:Body" = true := by decide
example : nameMatches b!"soap:Body" b!"x:Body" = false := by decide
example : nameMatches b!"Body" b!"x:Body" = true := by decide
/-- Deviation: a count, index or field extraction on the first path segment compares whole names. -/
theorem C41_fragment_exact : get ⟨fun _ a => a, fun _ => none, fun _ => none⟩ b!"<n:a/><n:a/>" b!"a.#" = .ret .null ∧
    get ⟨fun _ a => a, fun _ => none, fun _ => none⟩ b!"<n:a/><n:a/>" b!"a" = .ret (.ofContent []) := by
  decide +kernel

/-! ## C21 nil is delete -/

/-- C21: setting nil is deleting: same document, same error, on every document and path. -/
theorem C21_set_nil (o : Ord) (xml path : Bytes) (opts : Option Options) :
    setWithOptions o xml path .nil opts = deleteWithOptions o xml path opts := by
  unfold setWithOptions
  by_cases h1 : xml.length > maxDocumentSize
  · simp [deleteWithOptions, h1]
  · by_cases h0 : xml.isEmpty
    · simp [h1, h0]
    · by_cases h2 : valid xml = true
      · simp [h1, h2]
      · simp [deleteWithOptions, h1, h2, h0]

example : setWithOptions (fun _ a => a) b!"<r><a/><b/></r>" b!"r.a" .nil none = .ret (b!"<r><b/></r>", none) := by
  decide +kernel

/-! ## C24 batches -/

/-- One successful / failing Set and Delete. -/
def SetOk (o : Ord) (d : Bytes) (op : Bytes × GoVal) (d' : Bytes) : Prop := set o d op.1 op.2 = .ret (d', none)
def SetErr (o : Ord) (d : Bytes) (op : Bytes × GoVal) (e : Err) : Prop := ∃ d', set o d op.1 op.2 = .ret (d', some e)
def DelOk (o : Ord) (d : Bytes) (p : Bytes) (d' : Bytes) : Prop := delete o d p = .ret (d', none)
def DelErr (o : Ord) (d : Bytes) (p : Bytes) (e : Err) : Prop := ∃ d', delete o d p = .ret (d', some e)

theorem setManyLoop_ok (o : Ord) (orig cur d : Bytes) (l : List (Bytes × GoVal)) :
    setManyLoop o orig cur l = .ret (d, none) ↔ Seq (SetOk o) cur l d := by
  induction l generalizing cur with
  | nil =>
    simp only [setManyLoop, Outcome.ret.injEq, Prod.mk.injEq, and_true]
    constructor
    · rintro rfl; exact .nil _
    · intro h; cases h; rfl
  | cons x l ih =>
    obtain ⟨p, v⟩ := x
    simp only [setManyLoop]
    constructor
    · intro h
      split at h
      · simp at h
      · simp at h
      · rename_i h1; exact .cons h1 ((ih _).mp h)
    · intro h
      cases h with
      | cons h1 h2 => simp only [SetOk] at h1; rw [h1]; exact (ih _).mpr h2

theorem setManyLoop_fail (o : Ord) (orig cur : Bytes) (l : List (Bytes × GoVal)) (e : Err) :
    setManyLoop o orig cur l = .ret (orig, some e) ↔ SeqFails (SetOk o) (SetErr o) cur l e := by
  induction l generalizing cur with
  | nil =>
    simp only [setManyLoop, Outcome.ret.injEq, Prod.mk.injEq, reduceCtorEq, and_false, false_iff]
    intro h; cases h
  | cons x l ih =>
    obtain ⟨p, v⟩ := x
    simp only [setManyLoop]
    constructor
    · intro h
      split at h
      · simp at h
      · rename_i d' e' h1
        simp only [Outcome.ret.injEq, Prod.mk.injEq, Option.some.injEq, true_and] at h
        exact .here ⟨d', h ▸ h1⟩
      · rename_i h1; exact .later h1 ((ih _).mp h)
    · intro h
      cases h with
      | here h1 => obtain ⟨d', h1⟩ := h1; simp only at h1; rw [h1]
      | later h1 h2 => simp only [SetOk] at h1; rw [h1]; exact (ih _).mpr h2

/-- C24: SetMany succeeds with `d` iff the lists have the same length, the document is within the
size limit, and the Sets performed one after the other all succeed and lead to `d`. -/
theorem C24_setMany_ok (o : Ord) (xml d : Bytes) (paths : List Bytes) (values : List GoVal) :
    setMany o xml paths values = .ret (d, none) ↔
      xml.length ≤ 10485760 ∧ paths.length = values.length ∧ Seq (SetOk o) xml (paths.zip values) d := by
  have hd : maxDocumentSize = 10485760 := rfl
  unfold setMany
  by_cases h1 : xml.length > maxDocumentSize
  · simp [h1]; omega
  · by_cases h2 : paths.length = values.length
    · rw [if_neg h1, if_neg (by simpa using h2), setManyLoop_ok]
      constructor
      · intro h; exact ⟨by omega, h2, h⟩
      · rintro ⟨-, -, h⟩; exact h
    · simp [h1, h2]

/-- C24: otherwise (unless an operation panics) the original document comes back with an error: of the length
check, or of the first Set that fails. -/
theorem C24_setMany_err (o : Ord) (xml d : Bytes) (paths : List Bytes) (values : List GoVal) (e : Err) :
    setMany o xml paths values = .ret (d, some e) ↔ d = xml ∧
      ((xml.length > 10485760 ∧ e = .malformed) ∨
       (xml.length ≤ 10485760 ∧ paths.length ≠ values.length ∧ e = .invalidPath) ∨
       (xml.length ≤ 10485760 ∧ paths.length = values.length ∧
         SeqFails (SetOk o) (SetErr o) xml (paths.zip values) e)) := by
  have hd : maxDocumentSize = 10485760 := rfl
  unfold setMany
  by_cases h1 : xml.length > maxDocumentSize
  · have : ¬ xml.length ≤ 10485760 := by omega
    simp [h1, this, show xml.length > 10485760 by omega, eq_comm]
  · have : xml.length ≤ 10485760 := by omega
    by_cases h2 : paths.length = values.length
    · rw [if_neg h1, if_neg (by simpa using h2)]
      constructor
      · intro h
        have hx := setManyLoop_err h
        subst hx
        exact ⟨rfl, .inr (.inr ⟨this, h2, (setManyLoop_fail o _ _ _ e).mp h⟩)⟩
      · rintro ⟨rfl, h | h | h⟩
        · omega
        · exact absurd h2 h.2.1
        · exact (setManyLoop_fail o _ _ _ e).mpr h.2.2
    · simp [h1, h2, this, eq_comm, show ¬ 10485760 < xml.length by omega]

theorem deleteManyLoop_ok (o : Ord) (orig cur d : Bytes) (l : List Bytes) :
    deleteManyLoop o orig cur l = .ret (d, none) ↔ Seq (DelOk o) cur l d := by
  induction l generalizing cur with
  | nil =>
    simp only [deleteManyLoop, Outcome.ret.injEq, Prod.mk.injEq, and_true]
    constructor
    · rintro rfl; exact .nil _
    · intro h; cases h; rfl
  | cons p l ih =>
    simp only [deleteManyLoop]
    constructor
    · intro h
      split at h
      · simp at h
      · simp at h
      · rename_i h1; exact .cons h1 ((ih _).mp h)
    · intro h
      cases h with
      | cons h1 h2 => simp only [DelOk] at h1; rw [h1]; exact (ih _).mpr h2

theorem deleteManyLoop_fail (o : Ord) (orig cur : Bytes) (l : List Bytes) (e : Err) :
    deleteManyLoop o orig cur l = .ret (orig, some e) ↔ SeqFails (DelOk o) (DelErr o) cur l e := by
  induction l generalizing cur with
  | nil =>
    simp only [deleteManyLoop, Outcome.ret.injEq, Prod.mk.injEq, reduceCtorEq, and_false, false_iff]
    intro h; cases h
  | cons p l ih =>
    simp only [deleteManyLoop]
    constructor
    · intro h
      split at h
      · simp at h
      · rename_i d' e' h1
        simp only [Outcome.ret.injEq, Prod.mk.injEq, Option.some.injEq, true_and] at h
        exact .here ⟨d', h ▸ h1⟩
      · rename_i h1; exact .later h1 ((ih _).mp h)
    · intro h
      cases h with
      | here h1 => obtain ⟨d', h1⟩ := h1; rw [h1]
      | later h1 h2 => simp only [DelOk] at h1; rw [h1]; exact (ih _).mpr h2

/-- C24: DeleteMany succeeds with `d` iff the Deletes of the paths, without repetitions and in order of
first occurrence, all succeed and lead to `d`. -/
theorem C24_deleteMany_ok (o : Ord) (xml d : Bytes) (paths : List Bytes) :
    deleteMany o xml paths = .ret (d, none) ↔
      xml.length ≤ 10485760 ∧ Seq (DelOk o) xml paths.eraseDups d := by
  have hd : maxDocumentSize = 10485760 := rfl
  unfold deleteMany
  rw [dedup_nil]
  by_cases h1 : xml.length > maxDocumentSize
  · simp [h1]; omega
  · rw [if_neg h1, deleteManyLoop_ok]
    constructor
    · intro h; exact ⟨by omega, h⟩
    · rintro ⟨-, h⟩; exact h

/-- C24: on failure DeleteMany returns the original document and the error of the first failing Delete. -/
theorem C24_deleteMany_err (o : Ord) (xml d : Bytes) (paths : List Bytes) (e : Err) :
    deleteMany o xml paths = .ret (d, some e) ↔ d = xml ∧
      ((xml.length > 10485760 ∧ e = .malformed) ∨
       (xml.length ≤ 10485760 ∧ SeqFails (DelOk o) (DelErr o) xml paths.eraseDups e)) := by
  have hd : maxDocumentSize = 10485760 := rfl
  unfold deleteMany
  rw [dedup_nil]
  by_cases h1 : xml.length > maxDocumentSize
  · have : ¬ xml.length ≤ 10485760 := by omega
    simp [h1, this, show xml.length > 10485760 by omega, eq_comm]
  · rw [if_neg h1]
    constructor
    · intro h
      have hx := deleteManyLoop_err h
      subst hx
      exact ⟨rfl, .inr ⟨by omega, (deleteManyLoop_fail o _ _ _ e).mp h⟩⟩
    · rintro ⟨rfl, h | h⟩
      · omega
      · exact (deleteManyLoop_fail o _ _ _ e).mpr h.2

/-- Two operations, the second one through the element created by the first. -/
example : setMany (fun _ a => a) b!"<r/>" [b!"r.a", b!"r.b"] [.str b!"1", .int 2] =
    .ret (b!"<r><a>1</a><b>2</b></r>", none) := by decide +kernel
/-- A failing second operation. -/
example : setMany (fun _ a => a) b!"<r/>" [b!"r.a", b!"r.b"] [.str b!"1", .other] =
    .ret (b!"<r/>", some .invalidValue) := by decide +kernel
example : deleteMany (fun _ a => a) b!"<r><a/><a/></r>" [b!"r.a", b!"r.a"] =
    .ret (b!"<r><a/></r>", none) := by decide +kernel
/-- Deviation from "sequential": a repeated path is deleted once only. -/
theorem C24_dedup_observable :
    deleteMany (fun _ a => a) b!"<r><a/><a/></r>" [b!"r.a", b!"r.a"] = .ret (b!"<r><a/></r>", none) ∧
    Seq (DelOk (fun _ a => a)) b!"<r><a/><a/></r>" [b!"r.a", b!"r.a"] b!"<r></r>" := by
  refine ⟨by decide +kernel, .cons (d' := b!"<r><a/></r>") ?_ (.cons (d' := b!"<r></r>") ?_ (.nil _))⟩
  · unfold DelOk; decide +kernel
  · unfold DelOk; decide +kernel

/-! ## C25 errors leave the input -/

/-- C25: Set with any options. -/
theorem C25_set (o : Ord) (xml path d : Bytes) (v : GoVal) (opts : Option Options) (e : Err)
    (h : setWithOptions o xml path v opts = .ret (d, some e)) : d = xml := set_err h
/-- C25: Delete with any options. -/
theorem C25_delete (o : Ord) (xml path d : Bytes) (opts : Option Options) (e : Err)
    (h : deleteWithOptions o xml path opts = .ret (d, some e)) : d = xml := delete_err h
/-- C25: SetRaw. -/
theorem C25_setRaw (o : Ord) (xml path raw d : Bytes) (e : Err)
    (h : setRaw o xml path raw = .ret (d, some e)) : d = xml := by
  unfold setRaw at h
  split at h
  · exact set_err h
  · simp only [Outcome.ret.injEq, Prod.mk.injEq] at h; exact h.1.symm
/-- C25: SetMany. -/
theorem C25_setMany (o : Ord) (xml d : Bytes) (paths : List Bytes) (values : List GoVal) (e : Err)
    (h : setMany o xml paths values = .ret (d, some e)) : d = xml := ((C24_setMany_err ..).mp h).1
/-- C25: DeleteMany. -/
theorem C25_deleteMany (o : Ord) (xml d : Bytes) (paths : List Bytes) (e : Err)
    (h : deleteMany o xml paths = .ret (d, some e)) : d = xml := ((C24_deleteMany_err ..).mp h).1

example : set (fun _ a => a) b!"<r/>" b!"r.a.-1.b" (.str b!"1") = .ret (b!"<r/>", some .invalidPath) := by
  decide +kernel

/-! ## C26 malformed documents -/

/-- C26: Set refuses every non-empty document that Valid rejects. -/
theorem C26_set (o : Ord) (xml path : Bytes) (v : GoVal) (opts : Option Options) (hne : xml ≠ [])
    (h : valid xml = false) : setWithOptions o xml path v opts = .ret (xml, some .malformed) := by
  unfold setWithOptions
  have : xml.isEmpty = false := by simpa using hne
  simp [this, h]
/-- C26: Delete refuses every document that Valid rejects. -/
theorem C26_delete (o : Ord) (xml path : Bytes) (opts : Option Options)
    (h : valid xml = false) : deleteWithOptions o xml path opts = .ret (xml, some .malformed) := by
  unfold deleteWithOptions; simp [h]
/-- C26: SetRaw, SetMany and DeleteMany (with at least one operation) never return success on such a document. -/
theorem C26_setRaw (o : Ord) (xml path raw : Bytes) (hne : xml ≠ []) (h : valid xml = false) :
    ∃ e, setRaw o xml path raw = .ret (xml, some e) := by
  unfold setRaw
  split
  · exact ⟨_, C26_set o xml path _ _ hne h⟩
  · exact ⟨_, rfl⟩
theorem C26_setMany (o : Ord) (xml p : Bytes) (v : GoVal) (ps : List Bytes) (vs : List GoVal) (hne : xml ≠ [])
    (h : valid xml = false) : ∃ e, setMany o xml (p :: ps) (v :: vs) = .ret (xml, some e) := by
  unfold setMany
  split
  · exact ⟨_, rfl⟩
  split
  · exact ⟨_, rfl⟩
  · simp only [List.zip_cons_cons, setManyLoop, set, C26_set o xml p v _ hne h]; exact ⟨_, rfl⟩
theorem C26_deleteMany (o : Ord) (xml p : Bytes) (ps : List Bytes)
    (h : valid xml = false) : ∃ e, deleteMany o xml (p :: ps) = .ret (xml, some e) := by
  unfold deleteMany
  split
  · exact ⟨_, rfl⟩
  · simp only [dedup, List.contains_nil, Bool.false_eq_true, if_false, deleteManyLoop, delete, C26_delete o xml p _ h]
    exact ⟨_, rfl⟩

example : valid b!"<a><b></a></b>" = false := by decide +kernel

/-! ## C42 size limits -/

/-- C42: nothing is found in a document above 10 MiB. -/
theorem C42_get (env : Env) (xml path : Bytes) (h : xml.length > 10485760) : get env xml path = .ret .null := by
  have hd : maxDocumentSize = 10485760 := rfl
  unfold get; rw [if_pos (by omega)]
theorem C42_getWithOptions (env : Env) (xml path : Bytes) (opts : Option Options) (h : xml.length > 10485760) :
    getWithOptions env xml path opts = .ret .null := by
  have hd : maxDocumentSize = 10485760 := rfl
  unfold getWithOptions; rw [if_pos (by omega)]
/-- C42: and it is never modified. -/
theorem C42_set (o : Ord) (xml path : Bytes) (v : GoVal) (opts : Option Options) (h : xml.length > 10485760) :
    setWithOptions o xml path v opts = .ret (xml, some .malformed) := by
  have hd : maxDocumentSize = 10485760 := rfl
  unfold setWithOptions; rw [if_pos (by omega)]
theorem C42_delete (o : Ord) (xml path : Bytes) (opts : Option Options) (h : xml.length > 10485760) :
    deleteWithOptions o xml path opts = .ret (xml, some .malformed) := by
  have hd : maxDocumentSize = 10485760 := rfl
  unfold deleteWithOptions; rw [if_pos (by omega)]
theorem C42_setMany (o : Ord) (xml : Bytes) (ps : List Bytes) (vs : List GoVal) (h : xml.length > 10485760) :
    setMany o xml ps vs = .ret (xml, some .malformed) := by
  have hd : maxDocumentSize = 10485760 := rfl
  unfold setMany; rw [if_pos (by omega)]
theorem C42_deleteMany (o : Ord) (xml : Bytes) (ps : List Bytes) (h : xml.length > 10485760) :
    deleteMany o xml ps = .ret (xml, some .malformed) := by
  have hd : maxDocumentSize = 10485760 := rfl
  unfold deleteMany; rw [if_pos (by omega)]
theorem C42_valid (xml : Bytes) (h : xml.length > 10485760) : valid xml = false := by
  have hd : maxDocumentSize = 10485760 := rfl
  unfold valid validate; rw [if_pos (by omega)]; rfl
/-- C42: a value whose stored form is above 5 MiB is refused with ErrInvalidValue (on a document and
path that Set accepts). -/
theorem C42_value (o : Ord) (xml path x : Bytes) (v : GoVal) (opts : Option Options) (s : Seg) (ss : List Seg)
    (hx : xml.length ≤ 10485760) (hv : xml = [] ∨ valid xml = true)
    (hp : parsePath path = .ok (s :: ss)) (hn : v ≠ .nil)
    (hval : valueToXML v = some x) (h : x.length > 5242880) :
    setWithOptions o xml path v opts = .ret (xml, some .invalidValue) := by
  have hd : maxDocumentSize = 10485760 := rfl
  have hm : maxValueSize = 5242880 := rfl
  have h2 : (!xml.isEmpty && !valid xml) = false := by rcases hv with rfl | hv <;> simp_all
  have key : ∀ cs ind t ts, setElement o cs ind xml (t :: ts) v = .err .invalidValue := by
    intro cs ind t ts
    have hl : (t :: ts).getLast? = some ((t :: ts).getLast (by simp)) := List.getLast?_eq_some_getLast _
    unfold setElement
    rw [hl, hval]; simp only; rw [if_pos (by omega)]
  unfold setWithOptions
  rw [if_neg (by omega), h2, if_neg (by simp), if_neg hn]
  simp only [parsePathWithOptions, hp]
  cases (effOpts opts).caseSensitive
  · simp only [Bool.false_eq_true, if_false, List.map_cons, key, finish]
  · simp only [if_true, key, finish]

/-! ## C43 GetMany -/

/-- C43: GetMany has one result per path, in order, equal to Get on that path. -/
theorem C43_getMany (env : Env) (xml : Bytes) (paths : List Bytes) (rs : List Result) :
    getMany env xml paths = .ret rs ↔ paths.map (get env xml) = rs.map .ret := by
  unfold getMany; exact allOutcomes_ret _ _
/-- C43: and it panics only if one of these Gets does. -/
theorem C43_getMany_panic (env : Env) (xml : Bytes) (paths : List Bytes) :
    getMany env xml paths = .panic ↔ ∃ p ∈ paths, get env xml p = .panic := by
  unfold getMany; rw [allOutcomes_panic]; simp
/-- C43: the fluent variant likewise. -/
theorem C43_result_getMany (env : Env) (r : Result) (paths : List Bytes) (rs : List Result) :
    r.getMany env paths = .ret rs ↔ paths.map (fun p => r.get env p) = rs.map .ret := by
  unfold Result.getMany
  split
  · exact allOutcomes_ret _ _
  · rename_i h
    have : ∀ p, r.get env p = .ret .null := by
      intro p
      obtain ⟨t, raw, s, n, l⟩ := r
      simp only [Result.typ, not_or] at h
      unfold Result.get
      simp [h.1, h.2]
    simp only [this, Outcome.ret.injEq]
    constructor
    · rintro rfl; simp
    · intro h2
      have := congrArg (List.map (fun o : Outcome Result => match o with | .ret r => r | .panic => .null)) h2
      simpa [Function.comp_def] using this

example : (getMany ⟨fun _ a => a, fun _ => none, fun _ => none⟩ b!"<a><b>1</b><c>2</c></a>" [b!"a.c", b!"a.b"]) =
    .ret [.ofContent b!"2", .ofContent b!"1"] := by decide +kernel

end Verif.Props
