import Verif.Lemmas.SenseTotal
import Verif.Props.Ask
import Verif.Props.Astray
/- C78: every path without modifiers has one meaning, and `Get` returns it. -/
namespace Verif.Props
open Verif Verif.Spec

/-- C78: whatever the text of a path is - also one that is no path, or whose steps stand where they mean nothing - as long as it has no bar (the beginning of a modifier), `Get` returns
what the path means. With `**` (as a step of the path or of a filter in it) the document has fewer than 9999 elements; with `#.%` the texts contain no `>` outside a reference. -/
theorem C78_get (env : Env) (ho : env.ord.IsPerm) (xml : Bytes) (i : Info) (h : Says xml i) {path : Bytes} {a : Info → Answer} (hs : Sense env.parseFloat (.path path a))
    (hb : c!"|" ∉ path) (hd : Searches path → i.descendants.length < 9999) (ht : c!"%" ∈ path → c!"#" ∈ path → i.Quiet) :
    ∃ r, get env xml path = .ret r ∧ Gives r (a i) := by
  have hl : ¬ xml.length > maxDocumentSize := by have := h.1; have hmd : maxDocumentSize = 10485760 := rfl; omega
  obtain ⟨h1, -⟩ := sense_parsed ho (Searches path) (c!"%" ∈ path ∧ c!"#" ∈ path) hs ⟨hb, id⟩ (fun h1 h2 => ⟨h1, h2⟩)
  unfold get
  rw [if_neg hl]
  rcases h1 with ⟨h1, h2⟩ | ⟨S, h1, h2⟩
  · exact ⟨_, by rw [h1], by rw [h2]; rfl⟩
  · refine ⟨_, ?_, h2 xml i (says_reads ho h) ⟨hd, fun hh => ht hh.1 hh.2⟩⟩
    rw [h1]
    cases S with
    | nil => simp only; rw [execQ]
    | cons s ss => simp only [executeQuery]

/-- C78: the existence and the string of the answer, for paths without own text. -/
theorem C78_string (env : Env) (ho : env.ord.IsPerm) (xml : Bytes) (i : Info) (h : Says xml i) {path : Bytes} {a : Info → Answer} (hs : Sense env.parseFloat (.path path a))
    (hb : c!"|" ∉ path) (hd : Searches path → i.descendants.length < 9999) (ht : c!"%" ∉ path) :
    ∃ r, get env xml path = .ret r ∧ (if r.exists? then some r.toStr else none) = (a i).str := by
  obtain ⟨r, h1, h2⟩ := C78_get env ho xml i h hs hb hd (fun hm => absurd hm ht)
  obtain ⟨-, h3⟩ := sense_parsed ho (Searches path) (c!"%" ∈ path ∧ c!"#" ∈ path) hs ⟨hb, id⟩ (fun h1 h2 => ⟨h1, h2⟩)
  exact ⟨r, h1, gives_str h2 (h3 ht i)⟩

/-- C78: every text without a bar has exactly one meaning as a path, unless it makes the path parser panic. -/
theorem C78_meaning (pf : Bytes → Option FVal) (path : Bytes) (hb : c!"|" ∉ path) (hq : ¬ BadPath path) :
    ∃ a, Sense pf (.path path a) ∧ ∀ a', Sense pf (.path path a') → a' = a := by
  have hn : parsePath path ≠ .panic := by
    rcases path_total path with ⟨ss, h⟩ | h | h
    · rcases parsePath_reads h with ⟨rfl, -⟩ | ⟨segs, h1, -⟩
      · simp [parsePath]
      · rw [h1]; simp
    · rw [parsePath_none h]; simp
    · exact absurd h hq
  obtain ⟨a, ha⟩ := sense_total pf _ path (Nat.le_refl _) hb hn
  exact ⟨a, ha, fun a' h' => (sense_only ha hb _ h').symm⟩

/-- C78: the texts that have none are those on which `Get` panics. -/
theorem C78_panic (env : Env) (xml path : Bytes) (hl : xml.length ≤ 10485760) (hq : BadPath path) : get env xml path = .panic := by
  unfold get
  rw [if_neg (by have hmd : maxDocumentSize = 10485760 := rfl; omega), parsePath_bad hq]

/-- C78: what a path finds depends on what the document says only: comments, declarations, whitespace in tags, quotes and references in the XML text make no difference to existence and string. -/
theorem C78_same_document (env env' : Env) (ho : env.ord.IsPerm) (ho' : env'.ord.IsPerm) (hp : env.parseFloat = env'.parseFloat) (xml xml' : Bytes) (i : Info) (h : Says xml i)
    (h' : Says xml' i) (path : Bytes) (hb : c!"|" ∉ path) (hd : Searches path → i.descendants.length < 9999) (ht : c!"%" ∉ path) (hq : ¬ BadPath path) :
    ∃ r r', get env xml path = .ret r ∧ get env' xml' path = .ret r' ∧ r.exists? = r'.exists? ∧ (r.exists? → r.toStr = r'.toStr) := by
  obtain ⟨a, ha, -⟩ := C78_meaning env.parseFloat path hb hq
  obtain ⟨r, h1, h2⟩ := C78_string env ho xml i h ha hb hd ht
  obtain ⟨r', h1', h2'⟩ := C78_string env' ho' xml' i h' (hp ▸ ha) hb hd ht
  refine ⟨r, r', h1, h1', ?_⟩
  rw [← h2'] at h2
  cases e : r.exists? <;> cases e' : r'.exists? <;> simp_all

/-! ### examples -/

/-- `r.#(*.b=='y').a.1.@j.z`: a filter with a wildcard in its path, and a step after an attribute. -/
theorem exSense : ∃ q : Node → Bool, (∀ nd, q nd = true ↔ (reply [.any, .name b!"b"] nd.kids).str = some b!"y") ∧
    Sense exEnv.parseFloat (.path b!"r.#(*\\.b=='y').a.1.@j.z" (reply [.name b!"r", .cond false q, .name b!"a", .pos (some 1), .attr b!"j", .name b!"z"])) := by
  have nm : ∀ {p : Bytes}, p ≠ [] → ¬ b!"#(" <+: p → ¬ b!"@" <+: p → beforeBar p ∉ [b!"%", b!"#", b!"*", b!"**"] →
      ¬ (beforeBar p ≠ [] ∧ beforeBar p ≠ b!"-" ∧ ∀ c ∈ beforeBar p, c = c!"-" ∨ (48 ≤ c ∧ c ≤ 57)) → RoleOf p (.name p) := fun h1 h2 h3 h4 h5 => .name ⟨h1, h2, h3, h4, h5⟩
  refine ⟨fun nd => (reply [.any, .name b!"b"] nd.kids).str == some b!"y", fun nd => by simp, ?_⟩
  refine .path (ss := [b!"r", filterPart b!"*.b=='y'" false, b!"a", b!"1", b!"@j", b!"z"]) (pathSteps_by (by decide) (by decide) (by decide +kernel) (by decide +kernel))
    (.step (nm (by decide) (by decide) (by decide) (by decide) (by decide)) (.cond (p := b!"*.b") (op := .eq) (v := b!"y") (f := fun nd => (reply [.any, .name b!"b"] nd.kids).str) ?_ ?_ ?_
      (.step (nm (by decide) (by decide) (by decide) (by decide) (by decide)) (.step (.pos ⟨by decide, by decide, by decide⟩ (.number (ds := b!"1") (rest := []) rfl (.digit c!"1" (by decide)) (.inl rfl)))
        (.step .attr (.step (nm (by decide) (by decide) (by decide) (by decide) (by decide)) .nil))))))
  · exact condition_iff.mp (by decide +kernel)
  · exact .value (by unfold AttrStep; decide) (.path (ss := [b!"*", b!"b"]) (pathSteps_by (by decide) (by decide) (by decide +kernel) (by decide +kernel))
      (.step .any (.step (nm (by decide) (by decide) (by decide) (by decide) (by decide)) .nil)))
  · intro nd
    simp only [Holds, beq_iff_eq]
    cases (reply [.any, .name b!"b"] nd.kids).str <;> simp

/-- By the theorem: the second `a` of the `r` that has a `b` below a child with text `y`, and its `j`. -/
example : get exEnv exDoc.render b!"r.#(*\\.b=='y').a.1.@j.z" = .ret (.ofAttr b!"3") := by
  obtain ⟨q, hq, hs⟩ := exSense
  obtain ⟨r, h1, h2⟩ := C78_get exEnv exEnv_perm _ _ exDoc_says hs (by decide) (fun _ => by decide +kernel) (fun h => absurd h (by decide))
  have hq' : q = fun nd => (reply [.any, .name b!"b"] nd.kids).str == some b!"y" := by funext nd; rw [Bool.eq_iff_iff, hq]; simp
  subst hq'
  have : reply [.name b!"r", .cond false (fun nd => (reply [.any, .name b!"b"] nd.kids).str == some b!"y"), .name b!"a", .pos (some 1), .attr b!"j", .name b!"z"] exDoc.info =
      .one (.attr b!"3") := by with_unfolding_all rfl
  rw [this] at h2
  have h3 : r = .ofAttr b!"3" := h2
  rw [← h3]; exact h1

/-- `*` has no bound on the size of the document, only `**` has. -/
example (env : Env) (ho : env.ord.IsPerm) (xml : Bytes) (i : Info) (h : Says xml i) :
    ∃ r, get env xml b!"r.*.*.x" = .ret r ∧ Gives r (reply [.name b!"r", .any, .any, .name b!"x"] i) := by
  have hp : PathSteps b!"r.*.*.x" [b!"r", b!"*", b!"*", b!"x"] := pathSteps_by (by decide) (by decide) (by decide +kernel) (by decide +kernel)
  have hs : Sense env.parseFloat (.path b!"r.*.*.x" (reply [.name b!"r", .any, .any, .name b!"x"])) :=
    .path hp (.step (.name ⟨by decide, by decide, by decide, by decide, by decide⟩) (.step .any (.step .any (.step (.name ⟨by decide, by decide, by decide, by decide, by decide⟩) .nil))))
  refine C78_get env ho xml i h hs (by decide) (fun hx => ?_) (fun h => absurd h (by decide))
  cases hx with
  | here h1 hm => rw [pathSteps_fun h1 hp] at hm; exact absurd hm (by decide)
  | within h1 hm => rw [pathSteps_fun h1 hp] at hm; simp [filterPart] at hm

/-- The kinds of paths: the steps after an attribute below a position are not looked at, below a name they make the path find nothing; a date is the position 0; a position beyond
64 bits finds nothing; an unclosed filter is left out; a filter without a condition makes the text no path. -/
theorem C78_witness :
    get exEnv exDoc.render b!"r.a.1.@j.z.9" = .ret (.ofAttr b!"3") ∧ get exEnv exDoc.render b!"r.a.@j.z" = .ret .null ∧
    get exEnv exDoc.render b!"r.a.2024-11-15.@k" = .ret (.ofAttr b!"1") ∧ get exEnv exDoc.render b!"r.a.99999999999999999999-3" = .ret .null ∧
    get exEnv exDoc.render b!"r.#(a" = get exEnv exDoc.render b!"r" ∧ get exEnv exDoc.render b!"r.#(==1).a" = .ret .null ∧ get exEnv exDoc.render b!"r.#(a==')" = .panic := by
  decide +kernel

end Verif.Props
