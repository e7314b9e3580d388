import Verif.Spec.SenseOn
import Verif.Props.SenseBy
import Verif.Props.Chain
/- C83: every path without modifiers has one meaning on a result, and `Result.Get` returns it. -/
namespace Verif.Props
open Verif Verif.Spec

theorem get_sense (env : Env) (ho : env.ord.IsPerm) {xml : Bytes} {i : Info} (hl : xml.length ≤ 10485760) (h : Reads env.ord xml i) {path : Bytes} {a : Info → Answer}
    (hs : Sense env.parseFloat (.path path a)) (hb : c!"|" ∉ path) (hf : Fine (Searches path) (c!"%" ∈ path ∧ c!"#" ∈ path) i) :
    ∃ r, get env xml path = .ret r ∧ Gives r (a i) := by
  obtain ⟨h1, -⟩ := sense_parsed ho (Searches path) (c!"%" ∈ path ∧ c!"#" ∈ path) hs ⟨hb, id⟩ (fun h1 h2 => ⟨h1, h2⟩)
  unfold get
  rw [if_neg (by have hmd : maxDocumentSize = 10485760 := rfl; omega)]
  rcases h1 with ⟨h1, h2⟩ | ⟨S, h1, h2⟩
  · exact ⟨_, by rw [h1], by rw [h2]; rfl⟩
  · refine ⟨_, ?_, h2 xml i h hf⟩
    rw [h1]
    cases S with
    | nil => simp only; rw [execQ]
    | cons s ss => simp only [executeQuery]

theorem getOpt_sense (env : Env) (ho : env.ord.IsPerm) {xml : Bytes} {i : Info} (hl : xml.length ≤ 10485760) (h : Reads env.ord xml i) (opts : Options) (hopts : opts ≠ defaultOptions)
    {path : Bytes} {a : Info → Answer} (hs : SenseBy env.parseFloat opts.caseSensitive path a) (hb : c!"|" ∉ path)
    (hf : FineBy (Searches path) (c!"%" ∈ path ∧ c!"#" ∈ path) (c!"@" ∈ path ∧ opts.caseSensitive = false) i) :
    ∃ r, getWithOptions env xml path (some opts) = .ret r ∧ Gives r (a i) := by
  cases hs with
  | nowhere hn => exact ⟨_, (C62_nothing env xml path (some opts) (.inl hn)).2, rfl⟩
  | @path ss ks hp hs =>
    by_cases h0 : ss = []
    · subst h0
      cases hs
      exact ⟨_, (C62_nothing env xml path (some opts) (.inr hp)).2, rfl⟩
    · obtain ⟨segs, h2, e⟩ := getOpt_steps_eq (env := env) (xml := xml) hp h0 (notDefault hopts)
      obtain ⟨u1, u2, -, -⟩ := sense_uses hs
      have hR := sense_parsed ho (Searches path) (c!"%" ∈ path ∧ c!"#" ∈ path) hs (fit_steps ⟨hb, id⟩ hp) segs h2
      refine ⟨_, by rw [e, if_neg (by omega)], ?_⟩
      refine exec_replyO (u := c!"@" ∈ path ∧ opts.caseSensitive = false) ho hR (fun hm => .here hp (u1 hm))
        (fun hm => ⟨(steps_bytes hp (u2 hm).2).1 _ (by simp), (steps_bytes hp (u2 hm).1).1 _ (by simp)⟩) (fun hx hc => ?_) h hf
      obtain ⟨s, h1, h2⟩ := sense_at hs hx
      exact ⟨(steps_bytes hp h1).1 _ h2, hc⟩

/-! ### the path from the element around the content -/

theorem wrapped_parts {path : Bytes} {ps : List Bytes} (h : Parts path ps) : Parts (b!"_xmldot_root." ++ path) (b!"_xmldot_root" :: ps) := by
  rw [parts_iff] at h ⊢
  have e2 : (splitPathAux false (b!"_xmldot_root." ++ path)) = (b!"_xmldot_root", (splitPathAux false path).1 :: (splitPathAux false path).2) := by
    simp [splitPathAux]
  rw [e2, ← h]

theorem wrap_free : ¬ Rejected b!"_xmldot_root" ∧ ¬ StrayQuote b!"_xmldot_root" ∧ ¬ Idle b!"_xmldot_root" := by
  obtain ⟨h1, h2, h3⟩ := parsePart_class b!"_xmldot_root"
  refine ⟨fun h => ?_, fun h => ?_, fun h => ?_⟩
  · exact absurd (h2.mpr h) (by decide +kernel)
  · exact absurd (h1.mpr h) (by decide +kernel)
  · exact absurd (h3.mpr h) (by decide +kernel)

theorem wrapped_steps {path : Bytes} {ss ps : List Bytes} (h : PathSteps path ss) (hp : Parts path ps) (hl : ps.length ≤ 99) :
    PathSteps (b!"_xmldot_root." ++ path) (b!"_xmldot_root" :: ss) := by
  obtain ⟨qs, h1, -, h3, h4⟩ := h
  obtain rfl : qs = ps := by rw [parts_iff.mp h1, parts_iff.mp hp]
  refine ⟨_, wrapped_parts h1, by simp; omega, fun p hm => ?_, .busy wrap_free.2.2 h4⟩
  rcases List.mem_cons.mp hm with rfl | hm
  · exact ⟨wrap_free.1, wrap_free.2.1⟩
  · exact h3 p hm

theorem wrapped_none {path : Bytes} (h : NoPath path) : NoPath (b!"_xmldot_root." ++ path) := by
  obtain ⟨ps, h1, h2⟩ := h
  refine ⟨_, wrapped_parts h1, ?_⟩
  rcases h2 with h2 | ⟨pre, p, post, rfl, h3, h4⟩
  · exact .inl (by simp; omega)
  · refine .inr ⟨b!"_xmldot_root" :: pre, p, post, rfl, fun q hm => ?_, h4⟩
    rcases List.mem_cons.mp hm with rfl | hm
    · exact ⟨wrap_free.1, wrap_free.2.1⟩
    · exact h3 q hm

theorem wrapped_bad {path : Bytes} {ps : List Bytes} (h : BadPath path) (hp : Parts path ps) (hl : ps.length ≤ 99) : BadPath (b!"_xmldot_root." ++ path) := by
  obtain ⟨qs, h1, -, pre, p, post, h2, h3, h4⟩ := h
  obtain rfl : qs = ps := by rw [parts_iff.mp h1, parts_iff.mp hp]
  refine ⟨_, wrapped_parts h1, by simp; omega, b!"_xmldot_root" :: pre, p, post, by rw [h2]; rfl, fun q hm => ?_, h4⟩
  rcases List.mem_cons.mp hm with rfl | hm
  · exact ⟨wrap_free.1, wrap_free.2.1⟩
  · exact h3 q hm

theorem wrap_role : RoleOf b!"_xmldot_root" (.name wrapName) := .name ⟨by decide, by decide, by decide, by decide, by decide⟩

theorem wrapped_mem {path : Bytes} {c : UInt8} (hc : c ∉ b!"_xmldot_root.") : c ∈ b!"_xmldot_root." ++ path ↔ c ∈ path :=
  ⟨fun h => (List.mem_append.mp h).elim (fun h => absurd h hc) id, fun h => List.mem_append.mpr (.inr h)⟩

theorem wrapped_searches {path : Bytes} (h : Searches (b!"_xmldot_root." ++ path)) : Searches path := by
  have key : ∀ {ss}, PathSteps (b!"_xmldot_root." ++ path) ss → ∃ ss', ss = b!"_xmldot_root" :: ss' ∧ PathSteps path ss' := by
    rintro ss ⟨ps, h1, h2, h3, h4⟩
    have hp := (parts_aux path).1
    have e : ps = b!"_xmldot_root" :: ((splitPathAux false path).1 :: (splitPathAux false path).2) := by
      have := parts_iff.mp (wrapped_parts hp)
      rw [parts_iff.mp h1, ← this]
    subst e
    cases h4 with
    | idle hi _ => exact absurd hi wrap_free.2.2
    | busy _ h4 => exact ⟨_, rfl, _, hp, by simp only [List.length_cons] at h2 ⊢; omega, fun p hm => h3 p (by simp only [List.mem_cons] at hm ⊢; exact .inr hm), h4⟩
  cases h with
  | here h hm =>
    obtain ⟨ss, rfl, h1⟩ := key h
    rcases List.mem_cons.mp hm with hm | hm
    · exact absurd hm (by decide)
    · exact .here h1 hm
  | within h hm hc hq =>
    obtain ⟨ss, rfl, h1⟩ := key h
    rcases List.mem_cons.mp hm with hm | hm
    · exact absurd hm (by unfold filterPart; intro hm; injection hm with hm; exact absurd hm (by decide))
    · exact .within h1 hm hc hq

theorem senseOn_iff {pf : Bytes → Option FVal} {path : Bytes} {a : Node → Answer} (hs : SenseOn pf reply path a) :
    (∃ b, Sense pf (.path path b) ∧ ∀ nd : Node, nd.kids.elems.length ≤ 1 → a nd = b nd.kids) ∧
    (∃ b, Sense pf (.path (b!"_xmldot_root." ++ path) b) ∧ ∀ nd : Node, ¬ nd.kids.elems.length ≤ 1 → a nd = b nd.wrapped) := by
  cases hs with
  | nowhere h => exact ⟨⟨_, .nowhere h, fun _ _ => rfl⟩, ⟨_, .nowhere (wrapped_none h), fun _ _ => rfl⟩⟩
  | path h hs hp hl =>
    exact ⟨⟨_, .path h hs, fun nd hn => by rw [replyOn, if_pos hn]⟩, ⟨_, .path (wrapped_steps h hp hl) (.step wrap_role hs), fun nd hn => by rw [replyOn, if_neg hn]⟩⟩
  | full h hs hp hl =>
    exact ⟨⟨_, .path h hs, fun nd hn => if_pos hn⟩, ⟨_, .nowhere ⟨_, wrapped_parts hp, .inl (by simp; omega)⟩, fun nd hn => if_neg hn⟩⟩

theorem senseOnBy_iff {pf : Bytes → Option FVal} {cs : Bool} {path : Bytes} {a : Node → Answer} (hs : SenseOn pf (replyBy cs) path a) :
    (∃ b, SenseBy pf cs path b ∧ ∀ nd : Node, nd.kids.elems.length ≤ 1 → a nd = b nd.kids) ∧
    (∃ b, SenseBy pf cs (b!"_xmldot_root." ++ path) b ∧ ∀ nd : Node, ¬ nd.kids.elems.length ≤ 1 → a nd = b nd.wrapped) := by
  cases hs with
  | nowhere h => exact ⟨⟨_, .nowhere h, fun _ _ => rfl⟩, ⟨_, .nowhere (wrapped_none h), fun _ _ => rfl⟩⟩
  | path h hs hp hl =>
    exact ⟨⟨_, .path h hs, fun nd hn => by rw [replyOn, if_pos hn]⟩, ⟨_, .path (wrapped_steps h hp hl) (.step wrap_role hs), fun nd hn => by rw [replyOn, if_neg hn]⟩⟩
  | full h hs hp hl =>
    exact ⟨⟨_, .path h hs, fun nd hn => if_pos hn⟩, ⟨_, .nowhere ⟨_, wrapped_parts hp, .inl (by simp; omega)⟩, fun nd hn => if_neg hn⟩⟩

/-- C83: whatever the text of a path is, as long as it has no bar, `Result.Get` on an element returns what the path means there. The character data of the element contain no `<`
in comments, CDATA and such; with `**` the element has fewer than 9998 elements inside; with `#.%` the texts contain no `>` outside a reference. -/
theorem C83_get (env : Env) (ho : env.ord.IsPerm) (r : Result) (nd : Node) (hr : IsElement r nd) (hc : nd.kids.Calm) (hx : r.raw.length + 29 ≤ 10485760) {path : Bytes}
    {a : Node → Answer} (hs : SenseOn env.parseFloat reply path a) (hb : c!"|" ∉ path) (hd : Searches path → nd.kids.descendants.length < 9998)
    (ht : c!"%" ∈ path → c!"#" ∈ path → nd.kids.Quiet) : ∃ r', r.get env path = .ret r' ∧ Gives r' (a nd) := by
  have hw := (IsElementW.of hr).raw
  obtain ⟨⟨b, h1, e1⟩, ⟨b', h2, e2⟩⟩ := senseOn_iff hs
  rw [Result.get_element env _ hr.typ]
  unfold getFromRaw
  rw [roots_writes hw hc]
  by_cases hn : 2 ≤ nd.kids.elems.length
  · rw [if_pos (by simpa using hn), e2 nd (by omega)]
    refine get_sense env ho (by simp; omega) (wrapped_reads ho hw) h2 (fun h => hb ((wrapped_mem (by decide)).mp h)) ?_
    rw [wrapped_mem (by decide), wrapped_mem (by decide)]
    exact wrapped_fine (fun h => hd (wrapped_searches h)) (fun h => ht h.1 h.2)
  · rw [if_neg (by simpa using hn), e1 nd (by omega)]
    exact get_sense env ho (by omega) (writes_reads ho hw) h1 hb ⟨fun e => by have := hd e; omega, fun h => ht h.1 h.2⟩

/-- C83: with options. -/
theorem C83_options (env : Env) (ho : env.ord.IsPerm) (r : Result) (nd : Node) (hr : IsElement r nd) (hc : nd.kids.Calm) (hx : r.raw.length + 29 ≤ 10485760) (opts : Options)
    (hopts : opts ≠ defaultOptions) {path : Bytes} {a : Node → Answer} (hs : SenseOn env.parseFloat (replyBy opts.caseSensitive) path a) (hb : c!"|" ∉ path)
    (hd : Searches path → nd.kids.descendants.length < 9998) (ht : c!"%" ∈ path → c!"#" ∈ path → nd.kids.Quiet)
    (hu : c!"@" ∈ path → opts.caseSensitive = false → nd.kids.CaseUnique) : ∃ r', r.getWithOptions env path (some opts) = .ret r' ∧ Gives r' (a nd) := by
  have hw := (IsElementW.of hr).raw
  obtain ⟨⟨b, h1, e1⟩, ⟨b', h2, e2⟩⟩ := senseOnBy_iff hs
  have e : r.getWithOptions env path (some opts) = getFromRawOpt env r.raw path (some opts) := by
    have := hr.typ
    cases r with
    | mk t raw s n l =>
      obtain rfl : t = .element := this
      rw [Result.getWithOptions.eq_def]
      simp [notDefault hopts, Result.raw]
  rw [e]
  unfold getFromRawOpt
  rw [roots_writes hw hc]
  by_cases hn : 2 ≤ nd.kids.elems.length
  · rw [if_pos (by simpa using hn), e2 nd (by omega)]
    refine getOpt_sense env ho (by simp; omega) (wrapped_reads ho hw) opts hopts h2 (fun h => hb ((wrapped_mem (by decide)).mp h)) ?_
    rw [wrapped_mem (by decide), wrapped_mem (by decide), wrapped_mem (by decide)]
    exact wrapped_fineBy (fun h => hd (wrapped_searches h)) (fun h => ht h.1 h.2) (fun h => hu h.1 h.2)
  · rw [if_neg (by simpa using hn), e1 nd (by omega)]
    exact getOpt_sense env ho (by omega) (writes_reads ho hw) opts hopts h1 hb ⟨⟨fun e => by have := hd e; omega, fun h => ht h.1 h.2⟩, fun h => hu h.1 h.2⟩

/-- C83: every text without a bar has exactly one meaning as a path on a result, unless it makes the path parser panic. -/
theorem C83_meaning (pf : Bytes → Option FVal) (R : List Role → Info → Answer) (path : Bytes) (hb : c!"|" ∉ path) (hq : ¬ BadPath path) :
    ∃ a, SenseOn pf R path a ∧ ∀ a', SenseOn pf R path a' → a' = a := by
  have clash : ∀ {ss ps}, NoPath path → PathSteps path ss → Parts path ps → ¬ ps.length ≤ 100 := by
    intro ss ps h1 h2 h3
    obtain ⟨qs, h4, h5⟩ := h1
    obtain ⟨qs', h6, h7, h8, -⟩ := h2
    obtain rfl : qs = ps := by rw [parts_iff.mp h4, parts_iff.mp h3]
    obtain rfl : qs' = qs := by rw [parts_iff.mp h4, parts_iff.mp h6]
    rcases h5 with h5 | ⟨pre, p, post, rfl, -, h5⟩
    · omega
    · exact absurd h5 (h8 p (by simp)).1
  obtain ⟨a, ha, -⟩ := C78_meaning pf path hb hq
  cases ha with
  | nowhere h =>
    refine ⟨_, .nowhere h, fun a' h' => ?_⟩
    cases h' with
    | nowhere => rfl
    | path h' hs' hp hl => exact absurd (by omega) (clash h h' hp)
    | full h' hs' hp hl => exact absurd (by omega) (clash h h' hp)
  | @path _ ss ks h hs =>
    have hp := (parts_aux path).1
    have hl : ((splitPathAux false path).1 :: (splitPathAux false path).2).length ≤ 100 := by
      obtain ⟨qs, h1, h2, -⟩ := id h
      rwa [parts_iff.mp h1] at h2
    have same : ∀ {ss' ks'}, PathSteps path ss' → Sense pf (.steps ss' ks') → ks' = ks := by
      intro ss' ks' h' hs'
      have := pathSteps_fun h' h; subst this
      exact (sense_only hs (fun s hm hbar => hb ((steps_bytes h hm).1 _ hbar)) _ hs').symm
    by_cases h99 : ((splitPathAux false path).1 :: (splitPathAux false path).2).length ≤ 99
    · refine ⟨_, .path h hs hp h99, fun a' h' => ?_⟩
      cases h' with
      | nowhere h' => exact absurd hl (clash h' h hp)
      | path h' hs' => rw [same h' hs']
      | full h' hs' hp' hl' => rw [parts_iff.mp hp'] at hl'; omega
    · refine ⟨_, .full h hs hp (by omega), fun a' h' => ?_⟩
      cases h' with
      | nowhere h' => exact absurd hl (clash h' h hp)
      | path h' hs' hp' hl' => rw [parts_iff.mp hp'] at hl'; omega
      | full h' hs' => rw [same h' hs']

/-- C83: the texts that have none make `Result.Get` panic - except that a path of 100 parts is too long on an element with several children. -/
theorem C83_panic (env : Env) (r : Result) (hr : r.typ = .element) (hx : r.raw.length + 29 ≤ 10485760) {path : Bytes} (hq : BadPath path) {ps : List Bytes} (hp : Parts path ps) :
    (ps.length ≤ 99 → r.get env path = .panic) ∧ (ps.length = 100 → r.get env path = .panic ∨ r.get env path = .ret .null) := by
  rw [Result.get_element env _ hr]
  have h1 := C78_panic env r.raw path (by omega) hq
  unfold getFromRaw
  refine ⟨fun hl => ?_, fun hl => ?_⟩
  · split
    · exact C78_panic env _ _ (by simp; omega) (wrapped_bad hq hp hl)
    · exact h1
  · split
    · exact .inr ((C62_nothing env _ _ none (.inl ⟨_, wrapped_parts hp, .inl (by simp; omega)⟩)).1)
    · exact .inl h1

/-- C83: two results that are the same element - however they were found and written - agree on every path without own text, in existence and string. -/
theorem C83_same (env env' : Env) (ho : env.ord.IsPerm) (ho' : env'.ord.IsPerm) (hpf : env.parseFloat = env'.parseFloat) (r r' : Result) (nd : Node) (hr : IsElement r nd)
    (hr' : IsElement r' nd) (hc : nd.kids.Calm) (hx : r.raw.length + 29 ≤ 10485760) (hx' : r'.raw.length + 29 ≤ 10485760) (path : Bytes) (hb : c!"|" ∉ path)
    (hd : Searches path → nd.kids.descendants.length < 9998) (ht : c!"%" ∉ path) (hq : ¬ BadPath path) :
    ∃ s s', r.get env path = .ret s ∧ r'.get env' path = .ret s' ∧ s.exists? = s'.exists? ∧ (s.exists? → s.toStr = s'.toStr) := by
  obtain ⟨a, ha, -⟩ := C83_meaning env.parseFloat reply path hb hq
  obtain ⟨s, h1, h2⟩ := C83_get env ho r nd hr hc hx ha hb hd (fun h => absurd h ht)
  obtain ⟨s', h1', h2'⟩ := C83_get env' ho' r' nd hr' hc hx' (hpf ▸ ha) hb hd (fun h => absurd h ht)
  refine ⟨s, s', h1, h1', ?_⟩
  have plain : ∀ x ∈ (a nd).items, ∀ n, x ≠ .text n := by
    obtain ⟨⟨b, k1, e1⟩, ⟨b', k2, e2⟩⟩ := senseOn_iff ha
    by_cases hn : nd.kids.elems.length ≤ 1
    · rw [e1 nd hn]
      exact (sense_parsed ho (Searches path) (c!"%" ∈ path ∧ c!"#" ∈ path) k1 ⟨hb, id⟩ (fun h1 h2 => ⟨h1, h2⟩)).2 ht _
    · rw [e2 nd hn]
      exact (sense_parsed ho (Searches path) (c!"%" ∈ path ∧ c!"#" ∈ path) k2 ⟨fun h => hb ((wrapped_mem (by decide)).mp h), wrapped_searches⟩
        (fun h1 h2 => ⟨(wrapped_mem (by decide)).mp h1, (wrapped_mem (by decide)).mp h2⟩)).2 (fun h => ht ((wrapped_mem (by decide)).mp h)) _
  have e := gives_str h2 plain
  rw [← gives_str h2' plain] at e
  cases e1 : s.exists? <;> cases e2 : s'.exists? <;> simp_all

theorem plan_into {ks : List Role} (h : StepsInto ks) {n : Bytes} : plan false (.name n :: ks) = push (.name n) (plan false ks) ∧ ∀ ms g, plan false ks = some (ms, g) → StepsIn ms := by
  have push_in : ∀ {m : Move} {x : Option (List Move × Goal)} {ms g}, m.Free → push m x = some (ms, g) → StepsIn ms := by
    intro m x ms g hm h
    cases x with
    | none => cases h
    | some x => cases h; exact hm
  cases ks with
  | nil => exact h.elim
  | cons k ks =>
    cases k with
    | name m =>
      refine ⟨rfl, fun ms g e => ?_⟩
      have ht : ∀ x, push (.name m) x = some (ms, g) → StepsIn ms := fun x e => push_in (by trivial) e
      cases ks with
      | nil => exact ht _ e
      | cons k ks =>
        cases k with
        | pos j => cases j with
          | none => exact ht _ e
          | some j => exact push_in (m := .nth m j) (by trivial) e
        | cond all q => cases all <;> exact push_in (by trivial) e
        | _ => exact ht _ e
    | any => exact ⟨rfl, fun ms g e => push_in (m := .any) (by trivial) e⟩
    | deep =>
      refine ⟨rfl, fun ms g e => ?_⟩
      cases ks with
      | nil => cases e
      | cons k ks =>
        cases k with
        | name m => exact push_in (m := .deep (some m)) (by trivial) e
        | any => exact push_in (m := .deep none) (by trivial) e
        | deep => exact push_in (m := .deep none) (by trivial) e
        | _ => cases e
    | _ => exact h.elim

/-- C83: a path that begins with a name or a wildcard is followed from an element with several children as it would be inside a longer path. -/
theorem C83_inside (nd : Node) (h : 2 ≤ nd.kids.elems.length) {ks : List Role} (hk : StepsInto ks) :
    replyOn reply ks nd = (match plan false ks with | some (ms, g) => ask ms g false nd.kids | none => .nothing) ∧
    ∀ cs, replyOn (replyBy cs) ks nd = (match plan false ks with | some (ms, g) => askBy cs ms g false nd.kids | none => .nothing) := by
  obtain ⟨h1, h2⟩ := plan_into hk (n := wrapName)
  refine ⟨?_, fun cs => ?_⟩
  · unfold replyOn reply
    rw [if_neg (by omega), h1]
    cases e : plan false ks with
    | none => rfl
    | some x =>
      obtain ⟨ms, g⟩ := x
      have := ask_wrapped nd (h2 ms g e) g
      rwa [wrapMoves_in (h2 ms g e)] at this
  · unfold replyOn replyBy
    rw [if_neg (by omega), h1]
    cases e : plan false ks with
    | none => rfl
    | some x =>
      obtain ⟨ms, g⟩ := x
      have := C60_options_inside cs nd h (h2 ms g e) g
      rwa [chainedBy, if_neg (by omega), wrapMoves_in (h2 ms g e)] at this

/-! ### examples -/

/-- The content of the `r` of the example document. -/
def exContent : Bytes := b!"<a k=\"1\">x<b>y</b><!--c--></a><n:a k=\"2\" j=\"3\"/>"

/-- `a.#(b==y).@k.z`: a filter after a name, and a step after the attribute that is not looked at. By the theorem, from `r`. -/
example : ∃ r r', get exEnv exDoc.render b!"r" = .ret r ∧ r.get exEnv b!"a.#(b==y).@k.z" = .ret r' ∧ r' = .ofAttr b!"1" := by
  obtain ⟨nd, hnd, h2, h3⟩ : ∃ nd, ask [.name b!"r"] .elem true exDoc.info = .one (.elem nd) ∧ nd.kids.Calm ∧
      replyOn reply [.name b!"a", .cond false (fun nd => (reply [.name b!"b"] nd.kids).str == some b!"y"), .attr b!"k", .name b!"z"] nd = .one (.attr b!"1") :=
    ⟨_, rfl, by decide +kernel, by with_unfolding_all rfl⟩
  have hq : Spells exEnv.parseFloat false (.moves [b!"r"] [.name b!"r"]) := .cons (ps := [b!"r"]) (.name (plain_of (by decide))) .nil
  obtain ⟨r, e, hr⟩ := C51_get exEnv exEnv_perm _ _ exDoc_says hq .elem trivial (by simp) (by simp) (by simp) (by simp)
  rw [hnd] at hr
  have he : r = .ofContent exContent := by
    have : get exEnv exDoc.render (pathOf ([b!"r"] ++ [])) = .ret (.ofContent exContent) := by decide +kernel
    rw [this] at e
    exact (Outcome.ret.inj e).symm
  have nm : ∀ {p : Bytes}, p ≠ [] → ¬ b!"#(" <+: p → ¬ b!"@" <+: p → beforeBar p ∉ [b!"%", b!"#", b!"*", b!"**"] →
      ¬ (beforeBar p ≠ [] ∧ beforeBar p ≠ b!"-" ∧ ∀ c ∈ beforeBar p, c = c!"-" ∨ (48 ≤ c ∧ c ≤ 57)) → RoleOf p (.name p) := fun h1 h2 h3 h4 h5 => .name ⟨h1, h2, h3, h4, h5⟩
  have hs : SenseOn exEnv.parseFloat reply b!"a.#(b==y).@k.z"
      (replyOn reply [.name b!"a", .cond false (fun nd => (reply [.name b!"b"] nd.kids).str == some b!"y"), .attr b!"k", .name b!"z"]) := by
    refine .path (ss := [b!"a", filterPart b!"b==y" false, b!"@k", b!"z"]) (pathSteps_by (by decide) (by decide) (by decide +kernel) (by decide +kernel))
      (.step (nm (by decide) (by decide) (by decide) (by decide) (by decide)) (.cond (p := b!"b") (op := .eq) (v := b!"y") (f := fun nd => (reply [.name b!"b"] nd.kids).str) ?_ ?_ ?_
        (.step .attr (.step (nm (by decide) (by decide) (by decide) (by decide) (by decide)) .nil)))) (parts_iff.mpr rfl) (by decide +kernel)
    · exact condition_iff.mp (by decide +kernel)
    · exact .value (by unfold AttrStep; decide) (.path (ss := [b!"b"]) (pathSteps_by (by decide) (by decide) (by decide +kernel) (by decide +kernel))
        (.step (nm (by decide) (by decide) (by decide) (by decide) (by decide)) .nil))
    · intro nd
      simp only [Holds, beq_iff_eq]
      cases (reply [.name b!"b"] nd.kids).str <;> simp
  obtain ⟨r', e', hr'⟩ := C83_get exEnv exEnv_perm r nd hr h2 (by rw [he]; decide) hs (by decide) (fun h => absurd h (fun h => absurd (searches_star h) (by decide))) (fun h => absurd h (by decide))
  rw [h3] at hr'
  exact ⟨r, r', e, e', hr'⟩

/-- On an element with two children and on one with a single child: the empty path is the element itself and nothing; a position with steps after an attribute; a filter without a condition;
a path of 99 and of 100 parts; a stray quote. -/
theorem C83_witness :
    (Result.ofContent exContent).get exEnv [] = .ret (.ofContent exContent) ∧ (Result.ofContent b!"<b><c/></b>").get exEnv [] = .ret .null ∧
    (Result.ofContent exContent).get exEnv b!"a.1.@j.z.9" = .ret (.ofAttr b!"3") ∧ (Result.ofContent exContent).get exEnv b!"a.@j.z" = .ret .null ∧
    (Result.ofContent exContent).get exEnv b!"#(==1).a" = .ret .null ∧
    (Result.ofContent exContent).get exEnv (b!"a.@k" ++ List.replicate 97 c!".") = .ret (.ofAttr b!"1") ∧
    (Result.ofContent exContent).get exEnv (b!"a.@k" ++ List.replicate 98 c!".") = .ret .null ∧
    (Result.ofContent b!"<a k='7'/>").get exEnv (b!"a.@k" ++ List.replicate 98 c!".") = .ret (.ofAttr b!"7") ∧
    (Result.ofContent exContent).get exEnv b!"#(a==')" = .panic ∧ (Result.ofContent exContent).get exEnv (b!"#(a==')" ++ List.replicate 99 c!".") = .ret .null := by
  decide +kernel

end Verif.Props
