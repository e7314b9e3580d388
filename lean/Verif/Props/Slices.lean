import Verif.Model.Slices
/- C97: nil and empty byte slices as documents. -/
namespace Verif.Props

/-- The outcome of a function on bytes, as one of a function on slices that are not nil. -/
def present : SetRes → SliceRes
  | .panic => .panic
  | .ret (d, e) => .ret (some d, e)

theorem finishSl_some (xml : Bytes) (b : BRes) : finishSl (some xml) b = present (finish xml b) := by
  cases b <;> rfl

theorem asString_present (xml : Bytes) (r : SetRes) (h : ∀ d e, r = .ret (d, some e) → d = xml) : asString xml (present r) = r := by
  rcases r with _ | ⟨d, _ | e⟩
  · rfl
  · rfl
  · show Outcome.ret (xml, some e) = _
    rw [h d e rfl]

theorem deleteWithOptions_error {o : Ord} {xml path : Bytes} {opts : Option Options} {d : Bytes} {e : Err}
    (h : deleteWithOptions o xml path opts = .ret (d, some e)) : d = xml := by
  unfold deleteWithOptions at h
  split at h
  · cases h; rfl
  · split at h
    · cases h; rfl
    · split at h
      · cases h
      · cases h; rfl
      · cases h; rfl
      · revert h
        generalize deleteElement _ _ _ _ = b
        cases b <;> intro h <;> cases h
        rfl

theorem setWithOptions_error {o : Ord} {xml path : Bytes} {v : GoVal} {opts : Option Options} {d : Bytes} {e : Err}
    (h : setWithOptions o xml path v opts = .ret (d, some e)) : d = xml := by
  unfold setWithOptions at h
  split at h
  · cases h; rfl
  · split at h
    · cases h; rfl
    · split at h
      · exact deleteWithOptions_error h
      · split at h
        · cases h
        · cases h; rfl
        · cases h; rfl
        · revert h
          generalize setElement _ _ _ _ _ _ = b
          cases b <;> intro h <;> cases h
          rfl

theorem delete_some (o : Ord) (xml path : Bytes) (opts : Option Options) :
    deleteBytesSl o (some xml) path opts = present (deleteWithOptions o xml path opts) := by
  have e : Slice.bytes (some xml) = xml := rfl
  unfold deleteBytesSl deleteWithOptions
  rw [e]
  by_cases h1 : xml.length > maxDocumentSize
  · rw [if_pos h1, if_pos h1]; rfl
  · rw [if_neg h1, if_neg h1]
    by_cases h2 : (!valid xml) = true
    · rw [if_pos h2, if_pos h2]; rfl
    · rw [if_neg h2, if_neg h2]
      rcases parsePathWithOptions path (effOpts opts).caseSensitive with _ | _ | (_ | ⟨t, ts⟩)
      · rfl
      · rfl
      · rfl
      · exact finishSl_some _ _

theorem set_some (o : Ord) (xml path : Bytes) (v : GoVal) (opts : Option Options) :
    setBytesSl o (some xml) path v opts = present (setWithOptions o xml path v opts) := by
  have e : Slice.bytes (some xml) = xml := rfl
  have hp : (decide (xml.length > 0)) = !xml.isEmpty := by cases xml <;> simp
  unfold setBytesSl setWithOptions
  rw [e, if_neg (by simp), hp]
  by_cases h1 : xml.length > maxDocumentSize
  · rw [if_pos h1, if_pos h1]; rfl
  · rw [if_neg h1, if_neg h1]
    by_cases h2 : (!xml.isEmpty && !valid xml) = true
    · rw [if_pos h2, if_pos h2]; rfl
    · rw [if_neg h2, if_neg h2]
      by_cases h3 : v = .nil
      · rw [if_pos h3, if_pos h3]; exact delete_some _ _ _ _
      · rw [if_neg h3, if_neg h3]
        rcases parsePathWithOptions path (effOpts opts).caseSensitive with _ | _ | (_ | ⟨t, ts⟩)
        · rfl
        · rfl
        · rfl
        · exact finishSl_some _ _

theorem setManyLoop_some (o : Ord) (xml cur : Bytes) (l : List (Bytes × GoVal)) :
    setManyLoopSl o (some xml) (some cur) l = present (setManyLoop o xml cur l) := by
  induction l generalizing cur with
  | nil => rfl
  | cons a l ih =>
    obtain ⟨p, v⟩ := a
    simp only [setManyLoopSl, setManyLoop, set_some, set]
    rcases setWithOptions o cur p v (some defaultOptions) with _ | ⟨d, _ | e⟩
    · rfl
    · exact ih d
    · rfl

theorem setMany_some (o : Ord) (xml : Bytes) (paths : List Bytes) (values : List GoVal) :
    setManySl o (some xml) paths values = present (setMany o xml paths values) := by
  have e : Slice.bytes (some xml) = xml := rfl
  unfold setManySl setMany
  rw [e]
  by_cases h1 : xml.length > maxDocumentSize
  · rw [if_pos h1, if_pos h1]; rfl
  · rw [if_neg h1, if_neg h1]
    by_cases h2 : paths.length ≠ values.length
    · rw [if_pos h2, if_pos h2]; rfl
    · rw [if_neg h2, if_neg h2]
      by_cases h : paths.length = 0
      · rw [if_pos h, List.eq_nil_of_length_eq_zero h]
        rfl
      · rw [if_neg h]
        exact setManyLoop_some _ _ _ _

theorem deleteManyLoop_some (o : Ord) (xml cur : Bytes) (l : List Bytes) :
    deleteManyLoopSl o (some xml) (some cur) l = present (deleteManyLoop o xml cur l) := by
  induction l generalizing cur with
  | nil => rfl
  | cons p l ih =>
    simp only [deleteManyLoopSl, deleteManyLoop, delete_some, delete]
    rcases deleteWithOptions o cur p (some defaultOptions) with _ | ⟨d, _ | e⟩
    · rfl
    · exact ih d
    · rfl

theorem deleteMany_some (o : Ord) (xml : Bytes) (paths : List Bytes) :
    deleteManySl o (some xml) paths = present (deleteMany o xml paths) := by
  have e : Slice.bytes (some xml) = xml := rfl
  unfold deleteManySl deleteMany
  rw [e]
  by_cases h1 : xml.length > maxDocumentSize
  · rw [if_pos h1, if_pos h1]; rfl
  · rw [if_neg h1, if_neg h1]
    by_cases h : paths.length = 0
    · rw [if_pos h, List.eq_nil_of_length_eq_zero h]
      rfl
    · rw [if_neg h]
      exact deleteManyLoop_some _ _ _ _

/-- **C97.** On a slice that is not nil, empty or not, the byte-slice functions do what the functions on bytes of the
other claims do, and what they return is not nil. -/
theorem C97_slices (o : Ord) (xml : Bytes) :
    (∀ path v opts, setBytesSl o (some xml) path v opts = present (setWithOptions o xml path v opts)) ∧
    (∀ path opts, deleteBytesSl o (some xml) path opts = present (deleteWithOptions o xml path opts)) ∧
    (∀ paths values, setManySl o (some xml) paths values = present (setMany o xml paths values)) ∧
    ∀ paths, deleteManySl o (some xml) paths = present (deleteMany o xml paths) :=
  ⟨set_some o xml, delete_some o xml, setMany_some o xml, deleteMany_some o xml⟩

theorem manyLoop_error {o : Ord} {xml cur : Bytes} {l : List (Bytes × GoVal)} {d : Bytes} {e : Err}
    (h : setManyLoop o xml cur l = .ret (d, some e)) : d = xml := by
  induction l generalizing cur with
  | nil => cases h
  | cons a l ih =>
    obtain ⟨p, v⟩ := a
    simp only [setManyLoop] at h
    split at h
    · cases h
    · cases h; rfl
    · exact ih h

theorem deleteLoop_error {o : Ord} {xml cur : Bytes} {l : List Bytes} {d : Bytes} {e : Err}
    (h : deleteManyLoop o xml cur l = .ret (d, some e)) : d = xml := by
  induction l generalizing cur with
  | nil => cases h
  | cons p l ih =>
    simp only [deleteManyLoop] at h
    split at h
    · cases h
    · cases h; rfl
    · exact ih h

/-- **C97.** The string functions, which convert, call the byte-slice functions and convert back, are the functions
on bytes of the other claims. -/
theorem C97_strings (o : Ord) (xml : Bytes) :
    (∀ path v opts, setStr o xml path v opts = setWithOptions o xml path v opts) ∧
    (∀ path, deleteStr o xml path = delete o xml path) ∧
    (∀ paths values, setManyStr o xml paths values = setMany o xml paths values) ∧
    ∀ paths, deleteManyStr o xml paths = deleteMany o xml paths := by
  refine ⟨fun path v opts => ?_, fun path => ?_, fun paths values => ?_, fun paths => ?_⟩
  · unfold setStr
    rw [set_some]
    exact asString_present _ _ fun d e => setWithOptions_error
  · unfold deleteStr
    rw [delete_some]
    exact asString_present _ _ fun d e => deleteWithOptions_error
  · unfold setManyStr
    rw [setMany_some]
    refine asString_present _ _ fun d e h => ?_
    unfold setMany at h
    split at h
    · cases h; rfl
    · split at h
      · cases h; rfl
      · exact manyLoop_error h
  · unfold deleteManyStr
    rw [deleteMany_some]
    refine asString_present _ _ fun d e h => ?_
    unfold deleteMany at h
    split at h
    · cases h; rfl
    · exact deleteLoop_error h

theorem delete_nil (o : Ord) (path : Bytes) (opts : Option Options) : deleteBytesSl o none path opts = .ret (none, some .malformed) := by
  unfold deleteBytesSl
  rw [show Slice.bytes none = [] from rfl, if_neg (by decide), if_pos (by decide)]

/-- **C97.** A nil slice is not a document: SetBytes and DeleteBytes, with any path, value and options, give it back
with ErrMalformedXML, and nothing is created. -/
theorem C97_nil (o : Ord) (path : Bytes) (v : GoVal) (opts : Option Options) :
    setBytesSl o none path v opts = .ret (none, some .malformed) ∧
    deleteBytesSl o none path opts = .ret (none, some .malformed) ∧
    setBytesWithOptions o none path v opts = .ret ([], some .malformed) :=
  ⟨rfl, delete_nil o path opts, rfl⟩

/-- **C97.** SetManyBytes and DeleteManyBytes give a nil slice back too: without an error exactly when there is
nothing to do, with ErrInvalidPath when there are not as many values as paths, and else with ErrMalformedXML. -/
theorem C97_nil_many (o : Ord) (paths : List Bytes) (values : List GoVal) :
    setManySl o none paths values =
      .ret (none, if paths.length ≠ values.length then some .invalidPath else if paths = [] then none else some .malformed) ∧
    deleteManySl o none paths = .ret (none, if paths = [] then none else some .malformed) := by
  constructor
  · unfold setManySl
    rw [show Slice.bytes none = [] from rfl, if_neg (by decide)]
    cases paths with
    | nil => cases values <;> simp
    | cons p ps =>
      cases values with
      | nil => simp
      | cons v vs =>
        by_cases h : (p :: ps).length = (v :: vs).length
        · rw [if_neg (by simpa using h), if_neg (by simp), if_neg (by simpa using h), if_neg (by simp)]
          rfl
        · rw [if_pos (by simpa using h), if_pos (by simpa using h)]
  · unfold deleteManySl
    rw [show Slice.bytes none = [] from rfl, if_neg (by decide)]
    cases paths with
    | nil => rfl
    | cons p ps =>
      rw [if_neg (by simp), if_neg (by simp)]
      show deleteManyLoopSl o none none (p :: dedup [p] ps) = _
      simp only [deleteManyLoopSl, delete_nil]

/-- **C97.** So a nil slice comes back only where one was passed in. -/
theorem C97_never (o : Ord) (xml : Slice) (e : Option Err) :
    (∀ path v opts, setBytesSl o xml path v opts = .ret (none, e) → xml = none) ∧
    (∀ path opts, deleteBytesSl o xml path opts = .ret (none, e) → xml = none) ∧
    (∀ paths values, setManySl o xml paths values = .ret (none, e) → xml = none) ∧
    ∀ paths, deleteManySl o xml paths = .ret (none, e) → xml = none := by
  have hp : ∀ r : SetRes, present r ≠ .ret (none, e) := by
    intro r h
    rcases r with _ | ⟨d, e'⟩ <;> simp [present] at h
  cases xml with
  | none => exact ⟨fun _ _ _ _ => rfl, fun _ _ _ => rfl, fun _ _ _ => rfl, fun _ _ => rfl⟩
  | some x =>
    obtain ⟨h1, h2, h3, h4⟩ := C97_slices o x
    exact ⟨fun p v opts h => absurd ((h1 p v opts).symm.trans h) (hp _), fun p opts h => absurd ((h2 p opts).symm.trans h) (hp _),
      fun p v h => absurd ((h3 p v).symm.trans h) (hp _), fun p h => absurd ((h4 p).symm.trans h) (hp _)⟩

/-- Beside it: an empty slice is a document to write into, where nil is refused. It is no document to delete from. -/
theorem C97_witness :
    setBytesSl (fun _ as => as) (some []) b!"r.a" (.str b!"x") none = .ret (some b!"<r><a>x</a></r>", none) ∧
    setBytesSl (fun _ as => as) none b!"r.a" (.str b!"x") none = .ret (none, some .malformed) ∧
    deleteBytesSl (fun _ as => as) (some []) b!"r.a" none = .ret (some [], some .malformed) ∧
    deleteManySl (fun _ as => as) (some b!"<r><a/><b/></r>") [b!"r.a", b!"r.a", b!"r.b"] = .ret (some b!"<r></r>", none) ∧
    deleteManyStr (fun _ as => as) b!"<r><a/><b/></r>" [b!"r.a", b!"%%|"] = deleteMany (fun _ as => as) b!"<r><a/><b/></r>" [b!"r.a", b!"%%|"] := by
  refine ⟨?_, ?_, ?_, ?_, ?_⟩ <;> decide +kernel

end Verif.Props
