import Verif.Lemmas.Bounds
import Verif.Props.Options
/- Panics: C27. -/
namespace Verif.Props
open Spec

/-! ## C27 panics -/

/-- A query panics only while its path is read: the answer to "does it panic" is the same for every document of at most 10 MiB. -/
theorem C27_get_path (env env' : Env) (xml xml' path : Bytes) (h : xml.length ≤ 10485760) (h' : xml'.length ≤ 10485760) :
    get env xml path = .panic ↔ get env' xml' path = .panic := by
  have hd : maxDocumentSize = 10485760 := rfl
  unfold get
  rw [if_neg (by omega), if_neg (by omega)]
  split <;> simp_all

theorem get_panic_iff (env : Env) (xml path : Bytes) : get env xml path = .panic ↔ xml.length ≤ 10485760 ∧ parsePath path = .panic := by
  have hd : maxDocumentSize = 10485760 := rfl
  unfold get
  split
  · simp; omega
  · split <;> simp_all

/-- C27: a query panics only if some part of its path is a filter whose value is a lone quote character. -/
theorem C27_get (env : Env) (xml path : Bytes) (h : get env xml path = .panic) : ∃ part ∈ splitPath path, LoneQuotePart part := by
  obtain ⟨-, hp⟩ := parsePath_panic.mp ((get_panic_iff env xml path).mp h).2
  obtain ⟨pre, p, post, h1, h2, -⟩ := parseParts_panic.mp hp
  refine ⟨p, by rw [h1]; simp, ?_⟩
  obtain ⟨e, z, h3, h4⟩ := parsePart_panic h2
  obtain ⟨-, i, n, op, h5, h6⟩ := parseFilterCondition_panic h3
  obtain ⟨h7, h8⟩ := findOp_split h5
  exact ⟨e, z, h4, _, op, _, h7, h8, h6⟩

/-- C27: no path without a quote character makes a query panic, and none without a parenthesis does. -/
theorem C27_get_quotes (env : Env) (xml path : Bytes) (h : (c!"'" ∉ path ∧ c!"\"" ∉ path) ∨ c!"(" ∉ path ∨ c!")" ∉ path) :
    ∃ r, get env xml path = .ret r := by
  cases hg : get env xml path with
  | ret r => exact ⟨r, rfl⟩
  | panic =>
    exfalso
    obtain ⟨part, h1, cond, more, rfl, left, op, v, h2, h3, h4⟩ := C27_get env xml path hg
    have hb := (splitPath_bytes h1).1
    have hq : ∀ q, trimSpace v = [q] → q ∈ path := by
      intro q hq
      apply hb
      have h5 : q ∈ v := trimSpace_mem (by rw [hq]; simp)
      have h6 : q ∈ cond := trimSpace_mem (by rw [h3]; simp [h5])
      simp [h6]
    rcases h with h | h | h
    · rcases h4 with h4 | h4
      · exact h.1 (hq _ h4)
      · exact h.2 (hq _ h4)
    · exact h (hb _ (by simp))
    · exact h (hb _ (by simp))

/-- C27: the same holds of queries with options, ... -/
theorem C27_getWithOptions (env : Env) (xml path : Bytes) (opts : Option Options) :
    getWithOptions env xml path opts = .panic ↔ get env xml path = .panic := by
  have hd : maxDocumentSize = 10485760 := rfl
  rw [get_panic_iff]
  unfold getWithOptions
  split
  · simp; omega
  · split
    · split <;> simp_all
    · simp only
      split
      · rename_i h; simp [parseOpt_panic.mp h]; omega
      · rename_i h
        have : parsePath path ≠ .panic := fun hp => by rw [parseOpt_panic.mpr hp] at h; simp at h
        simp [this]
      · rename_i h
        have : parsePath path ≠ .panic := fun hp => by rw [parseOpt_panic.mpr hp] at h; simp at h
        simp [this]
      · rename_i h
        have : parsePath path ≠ .panic := fun hp => by rw [parseOpt_panic.mpr hp] at h; simp at h
        simp [this]

/-- ... of a batch, which panics exactly if one of its queries does, ... -/
theorem C27_getMany (env : Env) (xml : Bytes) (paths : List Bytes) :
    getMany env xml paths = .panic ↔ ∃ p ∈ paths, get env xml p = .panic := by
  unfold getMany
  induction paths with
  | nil => simp [allOutcomes]
  | cons p ps ih =>
    rw [List.map_cons]
    cases hg : get env xml p with
    | panic => simp [allOutcomes, hg]
    | ret r =>
      rw [allOutcomes]
      split
      · rename_i h; simp [ih.mp h]
      · rename_i as h
        constructor
        · intro h'; simp at h'
        · rintro ⟨q, h1, h2⟩
          rcases List.mem_cons.mp h1 with rfl | h1
          · rw [hg] at h2; simp at h2
          · rw [ih.mpr ⟨q, h1, h2⟩] at h; simp at h

/-- ... and the paths inside filters never panic. -/
theorem C27_filter_path (cond : Bytes) (f : Filter) (env : Env) (xml : Bytes) (h : parseFilterCondition cond = .ok f) :
    ∃ r, get env xml f.path = .ret r := by
  cases hg : get env xml f.path with
  | ret r => exact ⟨r, rfl⟩
  | panic => exact absurd ((get_panic_iff _ _ _).mp hg).2 (filter_path_safe h)

/-- C27 is false of such paths: after any names, `#(path op q)` or `#(path op q)#` with a lone quote `q` panics on every document of at
most 10 MiB, whatever follows. -/
theorem C27_lone_quote (env : Env) (xml : Bytes) (hx : xml.length ≤ 10485760) (names : List Bytes) (hn : ∀ n ∈ names, PlainName n)
    (p : Bytes) (op : FilterOp) (q : Bytes) (hp : FilterPathText p) (hop : op ≠ .ex) (hq : q = b!"'" ∨ q = b!"\"")
    (hl : (p ++ opText op ++ q).length ≤ 256) (all : Bool) (more : List Bytes) (hm : names.length + 1 + more.length ≤ 100) :
    get env xml (pathOf (names ++ (b!"#(" ++ (p ++ opText op ++ q) ++ (if all then b!")#" else b!")")) :: more)) = .panic := by
  rw [get_panic_iff]
  refine ⟨hx, parsePath_lone hn ?_ hm⟩
  refine parsePart_filter_panic all (fpt_bar hp hq) ?_ (parseFilterCondition_lone hp hop hq hl)
  rcases hq with rfl | rfl <;> simp

theorem C27_lone_quote_example : get exEnv b!"<a/>" b!"a.#(b==')" = .panic ∧ get exEnv [] b!"#(b>\")#.x" = .panic ∧
    (∃ r, get exEnv b!"<a><b>'</b></a>" b!"a.#(b==\"'\")" = .ret r) := by
  refine ⟨by decide +kernel, by decide +kernel, ?_⟩
  cases h : get exEnv b!"<a><b>'</b></a>" b!"a.#(b==\"'\")" with
  | ret r => exact ⟨r, rfl⟩
  | panic =>
    have : (get exEnv b!"<a><b>'</b></a>" b!"a.#(b==\"'\")") ≠ .panic := by decide +kernel
    exact absurd h this

/-- C27: the rounds that bound the model of the validator are never used up: it stops by itself on every input. -/
theorem C27_valid (xml : Bytes) (k : Nat) (hk : xml.length < k) (h1 : xml.length ≤ 10485760) (h2 : xml ≠ []) :
    validate xml = validateLoop k ⟨⟨xml, 1, 0⟩, [], false, false⟩ := validate_rounds xml k hk h1 h2

/-- C27: on a roomy document a deletion panics only if a query with that path would. -/
theorem C27_delete (env : Env) (ho : env.ord.IsPerm) (f : Forest) (hf : Roomy f) (path : Bytes) (opts : Option Options)
    (h : deleteWithOptions env.ord f.render path opts = .panic) : get env [] path = .panic := by
  rw [get_panic_iff]
  refine ⟨by simp, ?_⟩
  cases hp : parsePath path with
  | panic => rfl
  | _ => exact absurd h (delete_safe (fun k => fits_forest ho k hf.1 hf.2.1 hf.2.2) (by rw [hp]; simp))

/-- C27: so does a modification, with any value and any options, if the path has no attribute part. -/
theorem C27_set (env : Env) (ho : env.ord.IsPerm) (f : Forest) (hf : Roomy f) (path : Bytes) (v : GoVal) (opts : Option Options)
    (ha : ∀ part ∈ splitPath path, part.head? ≠ some c!"@")
    (h : setWithOptions env.ord f.render path v opts = .panic) : get env [] path = .panic := by
  rw [get_panic_iff]
  refine ⟨by simp, ?_⟩
  have hna : ∀ ss, parsePathWithOptions path (effOpts opts).caseSensitive = .ok ss → ¬ AttrMissing env.ord (effOpts opts).caseSensitive f.render ss := by
    rintro ss hs ⟨⟨a, h1⟩, -⟩
    rw [Option.map_eq_some_iff] at h1
    obtain ⟨s, h2, h3⟩ := h1
    obtain ⟨p, h4, h5⟩ := parseOpt_attr hs (List.mem_of_getLast? h2) h3
    exact ha p h4 h5
  cases hp : parsePath path with
  | panic => rfl
  | _ => exact absurd h (set_safe (fun k => fits_forest ho k hf.1 hf.2.1 hf.2.2) (by rw [hp]; simp) hna)

/-- C27: and with an attribute part, if the element is there. -/
theorem C27_set_attribute (env : Env) (ho : env.ord.IsPerm) (f : Forest) (hf : Roomy f) (path : Bytes) (v : GoVal) (opts : Option Options)
    (ha : ∀ ss, parsePathWithOptions path (effOpts opts).caseSensitive = .ok ss →
      findLoc env.ord (effOpts opts).caseSensitive ss.dropLast f.render 0 ≠ none)
    (h : setWithOptions env.ord f.render path v opts = .panic) : get env [] path = .panic := by
  rw [get_panic_iff]
  refine ⟨by simp, ?_⟩
  cases hp : parsePath path with
  | panic => rfl
  | _ => exact absurd h (set_safe (fun k => fits_forest ho k hf.1 hf.2.1 hf.2.2) (by rw [hp]; simp) (fun ss hs hm => ha ss hs hm.2))

theorem exDoc_roomy : Roomy exDoc := by
  refine ⟨by decide +kernel, Forest.Tidy.tame (by decide +kernel), ?_, trivial⟩
  refine ⟨?_, ⟨?_, trivial, trivial⟩, ?_, trivial⟩
  · intro a ha
    simp only [List.mem_cons, List.not_mem_nil, or_false] at ha
    subst ha
    exact ⟨by decide, b!"1", by decide +kernel⟩
  · simp
  · intro a ha
    simp only [List.mem_cons, List.not_mem_nil, or_false] at ha
    rcases ha with rfl | rfl
    · exact ⟨by decide, b!"2", by decide +kernel⟩
    · exact ⟨by decide, b!"3", by decide +kernel⟩

/-- The document must be roomy: with five quotes in an attribute the element written back is longer than the source (each `'` becomes
`&apos;`), so the end of its parent is computed to lie before the document. -/
theorem C27_set_grows : set exEnv.ord b!"<a><b x=\"''''''\"/><c/></a>" b!"a.c" (.str b!"v") = .panic ∧
    valid b!"<a><b x=\"''''''\"/><c/></a>" = true := by decide +kernel

/-- Deletions panic likewise. -/
theorem C27_delete_grows : delete exEnv.ord b!"<a><b x=\"''''''''''\"/><c/></a>" b!"a.c" = .panic ∧
    valid b!"<a><b x=\"''''''''''\"/><c/></a>" = true := by decide +kernel

end Verif.Props
