import Verif.Lemmas.OwnQuiet
import Verif.Props.SenseOn
import Verif.Props.Collect
/- C51, C78, C80, C82, C83: the string of the answer of any path, own texts included, in documents whose texts are read as they are written. -/
namespace Verif.Props
open Verif Verif.Spec

theorem sense_quiet {env : Env} (ho : env.ord.IsPerm) {path : Bytes} {a : Info → Answer} (hs : Sense env.parseFloat (.path path a)) (hb : c!"|" ∉ path) {i : Info} (ht : c!"%" ∈ path → i.Quiet) :
    ∀ x ∈ (a i).items, x.Quiet := by
  intro x hx
  by_cases hm : c!"%" ∈ path
  · cases hs with
    | nowhere => cases hx
    | path _ _ => exact reply_quiet (ht hm) hx
  · intro nd e
    exact absurd e ((sense_parsed ho (Searches path) (c!"%" ∈ path ∧ c!"#" ∈ path) hs ⟨hb, id⟩ (fun h1 h2 => ⟨h1, h2⟩)).2 hm i x hx nd)

theorem senseBy_quiet {pf : Bytes → Option FVal} {cs : Bool} {path : Bytes} {a : Info → Answer} (hs : SenseBy pf cs path a) {i : Info} (ht : c!"%" ∈ path → i.Quiet) :
    ∀ x ∈ (a i).items, x.Quiet := by
  intro x hx
  cases hs with
  | nowhere => cases hx
  | path hp hs =>
    by_cases hm : c!"%" ∈ path
    · exact replyBy_quiet (ht hm) hx
    · intro nd e
      obtain ⟨-, u2, u3, u4⟩ := sense_uses hs
      exact absurd e (replyBy_plain (fun h => hm ((steps_bytes hp (u3 h)).1 _ (by simp))) (fun h => hm ((steps_bytes hp (u2 h).2).1 _ (by simp))) u4 hx nd)

theorem told_same {r r' : Result} {a : Answer} (h : (if r.exists? then some r.toStr else none) = a.str) (h' : (if r'.exists? then some r'.toStr else none) = a.str) :
    r.exists? = r'.exists? ∧ (r.exists? → r.toStr = r'.toStr) := by
  rw [← h'] at h
  cases e : r.exists? <;> cases e' : r'.exists? <;> simp_all

/-- C51: the string of the answer to any moves and any goal; for own texts the document has no `/>` in texts, no text that begins with `>`, and no tags in comments. -/
theorem C51_any_string (env : Env) (ho : env.ord.IsPerm) (xml : Bytes) (i : Info) (h : Says xml i) {dp : Bool} {ps gs : List Bytes} {ms : List Move} {g : Goal}
    (hs : Spells env.parseFloat dp (.moves ps ms)) (hg : GoalText gs g) (hp : Proper ms) (hne : ps ++ gs ≠ []) (hl : (ps ++ gs).length ≤ 100)
    (hd : dp = true → i.descendants.length < 9999) (ht : g = .text ∨ g = .fieldText → i.Quiet) :
    ∃ r, get env xml (pathOf (ps ++ gs)) = .ret r ∧ (if r.exists? then some r.toStr else none) = (ask ms g true i).str := by
  obtain ⟨r, h1, h2⟩ := C51_get env ho xml i h hs hg hp hne hl hd (fun e => ht (.inr e))
  refine ⟨r, h1, gives_str_quiet h2 fun x hx => ?_⟩
  by_cases hq : g = .text ∨ g = .fieldText
  · exact ask_quiet (ht hq) hx
  · rintro nd rfl
    rcases ask_can hx with ⟨n', hn'⟩ | ⟨n, hn⟩
    · cases g <;> simp [Goal.items] at hn' hq
    · cases hn

/-- C78: the existence and the string of the answer of any path without a bar. -/
theorem C78_any_string (env : Env) (ho : env.ord.IsPerm) (xml : Bytes) (i : Info) (h : Says xml i) {path : Bytes} {a : Info → Answer} (hs : Sense env.parseFloat (.path path a))
    (hb : c!"|" ∉ path) (hd : Searches path → i.descendants.length < 9999) (ht : c!"%" ∈ path → i.Quiet) :
    ∃ r, get env xml path = .ret r ∧ (if r.exists? then some r.toStr else none) = (a i).str := by
  obtain ⟨r, h1, h2⟩ := C78_get env ho xml i h hs hb hd (fun hm _ => ht hm)
  exact ⟨r, h1, gives_str_quiet h2 (sense_quiet ho hs hb ht)⟩

/-- C78: what any path without a bar finds depends on what the document says only. -/
theorem C78_any_same_document (env env' : Env) (ho : env.ord.IsPerm) (ho' : env'.ord.IsPerm) (hp : env.parseFloat = env'.parseFloat) (xml xml' : Bytes) (i : Info) (h : Says xml i)
    (h' : Says xml' i) (path : Bytes) (hb : c!"|" ∉ path) (hd : Searches path → i.descendants.length < 9999) (ht : c!"%" ∈ path → i.Quiet) (hq : ¬ BadPath path) :
    ∃ r r', get env xml path = .ret r ∧ get env' xml' path = .ret r' ∧ r.exists? = r'.exists? ∧ (r.exists? → r.toStr = r'.toStr) := by
  obtain ⟨a, ha, -⟩ := C78_meaning env.parseFloat path hb hq
  obtain ⟨r, h1, h2⟩ := C78_any_string env ho xml i h ha hb hd ht
  obtain ⟨r', h1', h2'⟩ := C78_any_string env' ho' xml' i h' (hp ▸ ha) hb hd ht
  exact ⟨r, r', h1, h1', told_same h2 h2'⟩

/-- C80: the existence and the string of the answer of any path without a bar under options. -/
theorem C80_any_string (env : Env) (ho : env.ord.IsPerm) (xml : Bytes) (i : Info) (h : Says xml i) (opts : Options) (hopts : opts ≠ defaultOptions) {path : Bytes} {a : Info → Answer}
    (hs : SenseBy env.parseFloat opts.caseSensitive path a) (hb : c!"|" ∉ path) (hd : Searches path → i.descendants.length < 9999) (ht : c!"%" ∈ path → i.Quiet)
    (hu : c!"@" ∈ path → opts.caseSensitive = false → i.CaseUnique) :
    ∃ r, getWithOptions env xml path (some opts) = .ret r ∧ (if r.exists? then some r.toStr else none) = (a i).str := by
  obtain ⟨r, h1, h2⟩ := C80_get env ho xml i h opts hopts hs hb hd (fun hm _ => ht hm) hu
  exact ⟨r, h1, gives_str_quiet h2 (senseBy_quiet hs ht)⟩

/-- C80: what any path without a bar finds under options depends on what the document says only. -/
theorem C80_any_same_document (env env' : Env) (ho : env.ord.IsPerm) (ho' : env'.ord.IsPerm) (hpf : env.parseFloat = env'.parseFloat) (xml xml' : Bytes) (i : Info) (h : Says xml i)
    (h' : Says xml' i) (opts : Options) (hopts : opts ≠ defaultOptions) (path : Bytes) (hb : c!"|" ∉ path) (hd : Searches path → i.descendants.length < 9999) (ht : c!"%" ∈ path → i.Quiet)
    (hu : c!"@" ∈ path → opts.caseSensitive = false → i.CaseUnique) (hq : ¬ BadPath path) :
    ∃ r r', getWithOptions env xml path (some opts) = .ret r ∧ getWithOptions env' xml' path (some opts) = .ret r' ∧ r.exists? = r'.exists? ∧ (r.exists? → r.toStr = r'.toStr) := by
  obtain ⟨a, ha, -⟩ := C80_meaning env.parseFloat opts.caseSensitive path hb hq
  obtain ⟨r, h1, h2⟩ := C80_any_string env ho xml i h opts hopts ha hb hd ht hu
  obtain ⟨r', h1', h2'⟩ := C80_any_string env' ho' xml' i h' opts hopts (hpf ▸ ha) hb hd ht hu
  exact ⟨r, r', h1, h1', told_same h2 h2'⟩

theorem quiet_wrapped {nd : Node} (h : nd.kids.Quiet) : nd.wrapped.Quiet := ⟨h, trivial⟩

/-- C83: the existence and the string of what `Result.Get` returns for any path without a bar. -/
theorem C83_any_string (env : Env) (ho : env.ord.IsPerm) (r : Result) (nd : Node) (hr : IsElement r nd) (hc : nd.kids.Calm) (hx : r.raw.length + 29 ≤ 10485760) {path : Bytes}
    {a : Node → Answer} (hs : SenseOn env.parseFloat reply path a) (hb : c!"|" ∉ path) (hd : Searches path → nd.kids.descendants.length < 9998) (ht : c!"%" ∈ path → nd.kids.Quiet) :
    ∃ s, r.get env path = .ret s ∧ (if s.exists? then some s.toStr else none) = (a nd).str := by
  obtain ⟨s, h1, h2⟩ := C83_get env ho r nd hr hc hx hs hb hd (fun h _ => ht h)
  refine ⟨s, h1, gives_str_quiet h2 ?_⟩
  obtain ⟨⟨b, k1, e1⟩, ⟨b', k2, e2⟩⟩ := senseOn_iff hs
  by_cases hn : nd.kids.elems.length ≤ 1
  · rw [e1 nd hn]; exact sense_quiet ho k1 hb ht
  · rw [e2 nd hn]
    exact sense_quiet ho k2 (fun h => hb ((wrapped_mem (by decide)).mp h)) (fun h => quiet_wrapped (ht ((wrapped_mem (by decide)).mp h)))

/-- C83: the same with options. -/
theorem C83_any_string_options (env : Env) (ho : env.ord.IsPerm) (r : Result) (nd : Node) (hr : IsElement r nd) (hc : nd.kids.Calm) (hx : r.raw.length + 29 ≤ 10485760) (opts : Options)
    (hopts : opts ≠ defaultOptions) {path : Bytes} {a : Node → Answer} (hs : SenseOn env.parseFloat (replyBy opts.caseSensitive) path a) (hb : c!"|" ∉ path)
    (hd : Searches path → nd.kids.descendants.length < 9998) (ht : c!"%" ∈ path → nd.kids.Quiet) (hu : c!"@" ∈ path → opts.caseSensitive = false → nd.kids.CaseUnique) :
    ∃ s, r.getWithOptions env path (some opts) = .ret s ∧ (if s.exists? then some s.toStr else none) = (a nd).str := by
  obtain ⟨s, h1, h2⟩ := C83_options env ho r nd hr hc hx opts hopts hs hb hd (fun h _ => ht h) hu
  refine ⟨s, h1, gives_str_quiet h2 ?_⟩
  obtain ⟨⟨b, k1, e1⟩, ⟨b', k2, e2⟩⟩ := senseOnBy_iff hs
  by_cases hn : nd.kids.elems.length ≤ 1
  · rw [e1 nd hn]; exact senseBy_quiet k1 ht
  · rw [e2 nd hn]
    exact senseBy_quiet k2 (fun h => quiet_wrapped (ht ((wrapped_mem (by decide)).mp h)))

/-- C83: two results that are the same element agree on every path without a bar. -/
theorem C83_any_same (env env' : Env) (ho : env.ord.IsPerm) (ho' : env'.ord.IsPerm) (hpf : env.parseFloat = env'.parseFloat) (r r' : Result) (nd : Node) (hr : IsElement r nd)
    (hr' : IsElement r' nd) (hc : nd.kids.Calm) (hx : r.raw.length + 29 ≤ 10485760) (hx' : r'.raw.length + 29 ≤ 10485760) (path : Bytes) (hb : c!"|" ∉ path)
    (hd : Searches path → nd.kids.descendants.length < 9998) (ht : c!"%" ∈ path → nd.kids.Quiet) (hq : ¬ BadPath path) :
    ∃ s s', r.get env path = .ret s ∧ r'.get env' path = .ret s' ∧ s.exists? = s'.exists? ∧ (s.exists? → s.toStr = s'.toStr) := by
  obtain ⟨a, ha, -⟩ := C83_meaning env.parseFloat reply path hb hq
  obtain ⟨s, h1, h2⟩ := C83_any_string env ho r nd hr hc hx ha hb hd ht
  obtain ⟨s', h1', h2'⟩ := C83_any_string env' ho' r' nd hr' hc hx' (hpf ▸ ha) hb hd ht
  exact ⟨s, s', h1, h1', told_same h2 h2'⟩

/-- C83: and with options. -/
theorem C83_any_same_options (env env' : Env) (ho : env.ord.IsPerm) (ho' : env'.ord.IsPerm) (hpf : env.parseFloat = env'.parseFloat) (r r' : Result) (nd : Node) (hr : IsElement r nd)
    (hr' : IsElement r' nd) (hc : nd.kids.Calm) (hx : r.raw.length + 29 ≤ 10485760) (hx' : r'.raw.length + 29 ≤ 10485760) (opts : Options) (hopts : opts ≠ defaultOptions)
    (path : Bytes) (hb : c!"|" ∉ path) (hd : Searches path → nd.kids.descendants.length < 9998) (ht : c!"%" ∈ path → nd.kids.Quiet)
    (hu : c!"@" ∈ path → opts.caseSensitive = false → nd.kids.CaseUnique) (hq : ¬ BadPath path) :
    ∃ s s', r.getWithOptions env path (some opts) = .ret s ∧ r'.getWithOptions env' path (some opts) = .ret s' ∧ s.exists? = s'.exists? ∧ (s.exists? → s.toStr = s'.toStr) := by
  obtain ⟨a, ha, -⟩ := C83_meaning env.parseFloat (replyBy opts.caseSensitive) path hb hq
  obtain ⟨s, h1, h2⟩ := C83_any_string_options env ho r nd hr hc hx opts hopts ha hb hd ht hu
  obtain ⟨s', h1', h2'⟩ := C83_any_string_options env' ho' r' nd hr' hc hx' opts hopts (hpf ▸ ha) hb hd ht hu
  exact ⟨s, s', h1, h1', told_same h2 h2'⟩

/-- C82: results that describe the same things have the same strings, own texts included if they are read as written. -/
theorem C82_any_same {rs rs' : List Result} {things : List Item} (h : All2 Is rs things) (h' : All2 Is rs' things) (ht : ∀ nd, .text nd ∈ things → nd.kids.Quiet) :
    All2 (fun r r' => r.typ = r'.typ ∧ r.toStr = r'.toStr) rs rs' := by
  induction things generalizing rs rs' with
  | nil => cases h; cases h'; exact .nil
  | cons x l ih =>
    cases h with
    | cons a b =>
      cases h' with
      | cons a' b' =>
        have hx : x.Quiet := fun nd e => ht nd (by simp [e])
        refine .cons ⟨?_, by rw [is_str_quiet a hx, is_str_quiet a' hx]⟩ (ih b b' fun nd hm => ht nd (by simp [hm]))
        cases x with
        | elem nd => rw [IsElement.typ a, IsElement.typ a']
        | text nd => rw [IsOwnText.typ a, IsOwnText.typ a']
        | attr v => rw [show _ = _ from a, show _ = _ from a']
        | count n => rw [show _ = _ from a, show _ = _ from a']

/-! ### examples -/

/-- Own texts by name, with `*`, collected by `#`, below a filter and on a result. -/
theorem C78_own_text_witness :
    get exEnv b!"<r><a>x<b></b>y</a><a>&gt;<b>1</b></a></r>" b!"r.a.%" = .ret (.ofText b!"x<b></b>y") ∧
    get exEnv b!"<r><a>x<b></b>y</a><a>&gt;<b>1</b></a></r>" b!"r.*.%" = .ret (.ofArray [.ofText b!"x<b></b>y", .ofText b!"&gt;<b>1</b>"]) ∧
    (∀ r, get exEnv b!"<r><a>x<b></b>y</a><a>&gt;<b>1</b></a></r>" b!"r.a.#.%" = .ret r → r.results.map Result.toStr = [b!"xy", b!">"]) ∧
    get exEnv b!"<r><a>x<b></b>y</a><a>&gt;<b>1</b></a></r>" b!"r.a.#(b==1).%" = .ret (.ofText b!"&gt;<b>1</b>") ∧
    (Result.ofContent b!"x<b></b>y<b></b>").get exEnv b!"%" = .ret (.ofText b!"x<b></b>y<b></b>") ∧
    (Result.ofText b!"x<b></b>y").toStr = b!"xy" ∧ (Result.ofText b!"&gt;<b>1</b>").toStr = b!">" ∧
    getWithOptions exEnv b!"<r><a>x<b></b>y</a></r>" b!"R.A.%" (some { defaultOptions with caseSensitive := false }) = .ret (.ofText b!"x<b></b>y") := by
  refine ⟨?_, ?_, ?_, ?_, ?_, ?_, ?_, ?_⟩
  · decide +kernel
  · decide +kernel
  · intro r h
    have e : (match get exEnv b!"<r><a>x<b></b>y</a><a>&gt;<b>1</b></a></r>" b!"r.a.#.%" with | .ret r => r.results.map Result.toStr | .panic => []) = [b!"xy", b!">"] := by decide +kernel
    rw [h] at e; exact e
  all_goals decide +kernel

end Verif.Props
