import Verif.Lemmas.SenseBy
import Verif.Props.Sense
import Verif.Props.AskBy
import Verif.Props.AstrayOpt
/- C80: every path without modifiers has one meaning under options, and `GetWithOptions` returns it. -/
namespace Verif.Props
open Verif Verif.Spec

theorem notDefault {opts : Options} (h : opts ≠ defaultOptions) : isDefaultOptions (some opts) = false := by
  rw [Bool.eq_false_iff]
  intro hd
  apply h
  obtain ⟨c, i, p, n⟩ := opts
  simp only [isDefaultOptions, Bool.and_eq_true, List.isEmpty_iff, Bool.not_eq_true', Option.isNone_iff_eq_none] at hd
  obtain ⟨⟨⟨rfl, rfl⟩, rfl⟩, rfl⟩ := hd; rfl

/-- C80: whatever the text of a path is, as long as it has no bar, `GetWithOptions` with options other than the default ones returns what the path means under the options. With `**` the
document has fewer than 9999 elements; with `#.%` the texts contain no `>` outside a reference; if attributes are looked for up to case, no element has attributes that differ only in case. -/
theorem C80_get (env : Env) (ho : env.ord.IsPerm) (xml : Bytes) (i : Info) (h : Says xml i) (opts : Options) (hopts : opts ≠ defaultOptions) {path : Bytes} {a : Info → Answer}
    (hs : SenseBy env.parseFloat opts.caseSensitive path a) (hb : c!"|" ∉ path) (hd : Searches path → i.descendants.length < 9999) (ht : c!"%" ∈ path → c!"#" ∈ path → i.Quiet)
    (hu : c!"@" ∈ path → opts.caseSensitive = false → i.CaseUnique) : ∃ r, getWithOptions env xml path (some opts) = .ret r ∧ Gives r (a i) := by
  have hl : ¬ xml.length > 10485760 := by have := h.1; omega
  cases hs with
  | nowhere hn => exact ⟨_, (C62_nothing env xml path (some opts) (.inl hn)).2, rfl⟩
  | @path ss ks hp hs =>
    by_cases h0 : ss = []
    · subst h0
      cases hs
      exact ⟨_, (C62_nothing env xml path (some opts) (.inr hp)).2, rfl⟩
    · obtain ⟨segs, h2, e⟩ := getOpt_steps_eq (env := env) (xml := xml) hp h0 (notDefault hopts)
      obtain ⟨u1, u2, -, -⟩ := sense_uses hs
      have hR := sense_parsed ho (Searches path) (c!"%" ∈ path ∧ c!"#" ∈ path) hs (fit_steps ⟨hb, id⟩ hp) segs h2
      refine ⟨_, by rw [e, if_neg hl], ?_⟩
      refine exec_replyO (u := c!"@" ∈ path ∧ opts.caseSensitive = false) ho hR (fun hm => .here hp (u1 hm))
        (fun hm => ⟨(steps_bytes hp (u2 hm).2).1 _ (by simp), (steps_bytes hp (u2 hm).1).1 _ (by simp)⟩) (fun hx hc => ?_) (says_reads ho h)
        ⟨⟨hd, fun hh => ht hh.1 hh.2⟩, fun hh => hu hh.1 hh.2⟩
      obtain ⟨s, h1, h2⟩ := sense_at hs hx
      exact ⟨(steps_bytes hp h1).1 _ h2, hc⟩

/-- C80: with the default options, or none, the meaning is that of C78. -/
theorem C80_default (env : Env) (ho : env.ord.IsPerm) (xml : Bytes) (i : Info) (h : Says xml i) (opts : Option Options) (hopts : opts = none ∨ opts = some defaultOptions) {path : Bytes} {a : Info → Answer}
    (hs : Sense env.parseFloat (.path path a)) (hb : c!"|" ∉ path) (hd : Searches path → i.descendants.length < 9999) (ht : c!"%" ∈ path → c!"#" ∈ path → i.Quiet) :
    ∃ r, getWithOptions env xml path opts = .ret r ∧ Gives r (a i) := by
  rw [getOpt_default (by rcases hopts with rfl | rfl <;> rfl)]
  exact C78_get env ho xml i h hs hb hd ht

/-- C80: every text without a bar has exactly one meaning as a path, unless it makes the path parser panic. -/
theorem C80_meaning (pf : Bytes → Option FVal) (cs : Bool) (path : Bytes) (hb : c!"|" ∉ path) (hq : ¬ BadPath path) :
    ∃ a, SenseBy pf cs path a ∧ ∀ a', SenseBy pf cs path a' → a' = a := by
  have clash : ∀ {p ss}, NoPath p → PathSteps p ss → p = [] ∧ ss = [] := by
    intro p ss h1 h2
    rcases parsePath_reads h2 with h | ⟨segs, h3, -⟩
    · exact h
    · rw [parsePath_none h1] at h3; cases h3
  obtain ⟨a, ha, -⟩ := C78_meaning pf path hb hq
  cases ha with
  | nowhere h =>
    refine ⟨_, .nowhere h, fun a' h' => ?_⟩
    cases h' with
    | nowhere => rfl
    | path h' hs' => obtain ⟨-, rfl⟩ := clash h h'; cases hs'; rfl
  | path h hs =>
    refine ⟨_, .path h hs, fun a' h' => ?_⟩
    cases h' with
    | nowhere h' => obtain ⟨-, rfl⟩ := clash h' h; cases hs; rfl
    | path h' hs' =>
      have := pathSteps_fun h h'; subst this
      rw [sense_only hs (fun s hm hbar => hb ((steps_bytes h hm).1 _ hbar)) _ hs']

/-- C80: the texts that have none are those on which `GetWithOptions` panics. -/
theorem C80_panic (env : Env) (xml path : Bytes) (opts : Option Options) (hl : xml.length ≤ 10485760) (hq : BadPath path) : getWithOptions env xml path opts = .panic := by
  have hmd : maxDocumentSize = 10485760 := rfl
  unfold getWithOptions parsePathWithOptions
  rw [if_neg (by omega), parsePath_bad hq]
  cases isDefaultOptions opts <;> simp

/-- C80: the existence and the string of the answer, for paths without own text. -/
theorem C80_string (env : Env) (ho : env.ord.IsPerm) (xml : Bytes) (i : Info) (h : Says xml i) (opts : Options) (hopts : opts ≠ defaultOptions) {path : Bytes} {a : Info → Answer}
    (hs : SenseBy env.parseFloat opts.caseSensitive path a) (hb : c!"|" ∉ path) (hd : Searches path → i.descendants.length < 9999) (ht : c!"%" ∉ path)
    (hu : c!"@" ∈ path → opts.caseSensitive = false → i.CaseUnique) :
    ∃ r, getWithOptions env xml path (some opts) = .ret r ∧ (if r.exists? then some r.toStr else none) = (a i).str := by
  obtain ⟨r, h1, h2⟩ := C80_get env ho xml i h opts hopts hs hb hd (fun hm => absurd hm ht) hu
  refine ⟨r, h1, gives_str h2 ?_⟩
  cases hs with
  | nowhere => intro x hx; cases hx
  | path hp hs =>
    obtain ⟨-, u2, u3, u4⟩ := sense_uses hs
    exact fun x hx => replyBy_plain (fun hm => ht ((steps_bytes hp (u3 hm)).1 _ (by simp))) (fun hm => ht ((steps_bytes hp (u2 hm).2).1 _ (by simp))) u4 hx

/-- C80: what a path finds depends on what the document says only. -/
theorem C80_same_document (env env' : Env) (ho : env.ord.IsPerm) (ho' : env'.ord.IsPerm) (hpf : env.parseFloat = env'.parseFloat) (xml xml' : Bytes) (i : Info) (h : Says xml i)
    (h' : Says xml' i) (opts : Options) (hopts : opts ≠ defaultOptions) (path : Bytes) (hb : c!"|" ∉ path) (hd : Searches path → i.descendants.length < 9999) (ht : c!"%" ∉ path)
    (hu : c!"@" ∈ path → opts.caseSensitive = false → i.CaseUnique) (hq : ¬ BadPath path) :
    ∃ r r', getWithOptions env xml path (some opts) = .ret r ∧ getWithOptions env' xml' path (some opts) = .ret r' ∧ r.exists? = r'.exists? ∧ (r.exists? → r.toStr = r'.toStr) := by
  obtain ⟨a, ha, -⟩ := C80_meaning env.parseFloat opts.caseSensitive path hb hq
  obtain ⟨r, h1, h2⟩ := C80_string env ho xml i h opts hopts ha hb hd ht hu
  obtain ⟨r', h1', h2'⟩ := C80_string env' ho' xml' i h' opts hopts (hpf ▸ ha) hb hd ht hu
  refine ⟨r, r', h1, h1', ?_⟩
  rw [← h2'] at h2
  cases e : r.exists? <;> cases e' : r'.exists? <;> simp_all

/-! ### examples -/

/-- `R.*.B.#.x.y`: names in capitals, and a step after the fields that is not looked at. -/
theorem exSenseBy : SenseBy exEnv.parseFloat false b!"R.*.B.#.x.y" (replyBy false [.name b!"R", .any, .name b!"B", .field (.fieldElem b!"x"), .name b!"y"]) := by
  have nm : ∀ {p : Bytes}, p ≠ [] → ¬ b!"#(" <+: p → ¬ b!"@" <+: p → beforeBar p ∉ [b!"%", b!"#", b!"*", b!"**"] →
      ¬ (beforeBar p ≠ [] ∧ beforeBar p ≠ b!"-" ∧ ∀ c ∈ beforeBar p, c = c!"-" ∨ (48 ≤ c ∧ c ≤ 57)) → RoleOf p (.name p) := fun h1 h2 h3 h4 h5 => .name ⟨h1, h2, h3, h4, h5⟩
  exact .path (ss := [b!"R", b!"*", b!"B", b!"#", b!"x", b!"y"]) (pathSteps_by (by decide) (by decide) (by decide +kernel) (by decide +kernel))
    (.step (nm (by decide) (by decide) (by decide) (by decide) (by decide)) (.step .any (.step (nm (by decide) (by decide) (by decide) (by decide) (by decide))
      (.field (.fieldElem ⟨_, _, rfl, by decide, by decide⟩ (by decide)) (.step (nm (by decide) (by decide) (by decide) (by decide) (by decide)) .nil)))))

example : ∃ r, getWithOptions exEnv exDoc.render b!"R.*.B.#.x.y" (some ciOpts) = .ret r ∧ Gives r (replyBy false [.name b!"R", .any, .name b!"B", .field (.fieldElem b!"x"), .name b!"y"] exDoc.info) :=
  C80_get exEnv exEnv_perm _ _ exDoc_says ciOpts (by decide) exSenseBy (by decide) (fun _ => by decide +kernel) (fun h => absurd h (by decide)) (fun h => absurd h (by decide))

/-- The kinds of paths under CaseSensitive = false: as for `Get` (C78), with names and attributes up to case; the conditions of filters are compared exactly. -/
theorem C80_witness :
    getWithOptions exEnv exDoc.render b!"R.A.1.@J.Z.9" (some ciOpts) = .ret (.ofAttr b!"3") ∧ getWithOptions exEnv exDoc.render b!"R.A.@J.Z" (some ciOpts) = .ret .null ∧
    getWithOptions exEnv exDoc.render b!"R.A.2024-11-15.@K" (some ciOpts) = .ret (.ofAttr b!"1") ∧ getWithOptions exEnv exDoc.render b!"R.A.99999999999999999999-3" (some ciOpts) = .ret .null ∧
    getWithOptions exEnv exDoc.render b!"R.#(a" (some ciOpts) = getWithOptions exEnv exDoc.render b!"r" (some ciOpts) ∧ getWithOptions exEnv exDoc.render b!"R.#(==1).a" (some ciOpts) = .ret .null ∧
    getWithOptions exEnv exDoc.render b!"R.#(a==')" (some ciOpts) = .panic ∧ getWithOptions exEnv exDoc.render b!"R.A.#(@j=='3').@K" (some ciOpts) = .ret (.ofAttr b!"2") ∧
    getWithOptions exEnv exDoc.render b!"R.A.#(@J=='3').@K" (some ciOpts) = .ret .null := by
  decide +kernel

end Verif.Props
