import Verif.Lemmas.Chain
import Verif.Props.AskBy
import Verif.Props.Fluent
/- Every path on a result: C60. -/
namespace Verif.Props
open Spec

/-- C60: whatever a path is made of, `Get` on a result that describes an element returns what the path means there. -/
theorem C60_get (env : Env) (ho : env.ord.IsPerm) (r : Result) (nd : Node) (hr : IsElement r nd) (hc : nd.kids.Calm) (hx : r.raw.length + 29 ≤ 10485760)
    {dp : Bool} {ps gs : List Bytes} {ms : List Move} {g : Goal} (hs : Spells env.parseFloat dp (.moves ps ms)) (hg : GoalText gs g) (hp : Proper ms)
    (hne : ps ++ gs ≠ []) (hl : (ps ++ gs).length ≤ 99) (hd : dp = true → nd.kids.descendants.length < 9998) (ht : g = .fieldText → nd.kids.Quiet) :
    ∃ r', r.get env (pathOf (ps ++ gs)) = .ret r' ∧ Gives r' (chained nd ms g) :=
  get_chained env ho hs hg hp hne hl hr hx hc hd ht

/-- C60: the same with options. -/
theorem C60_options (env : Env) (ho : env.ord.IsPerm) (r : Result) (nd : Node) (hr : IsElement r nd) (hc : nd.kids.Calm) (hx : r.raw.length + 29 ≤ 10485760)
    {dp : Bool} {ps gs : List Bytes} {ms : List Move} {g : Goal} (hs : Spells env.parseFloat dp (.moves ps ms)) (hg : GoalText gs g) (hp : Proper ms)
    (hne : ps ++ gs ≠ []) (hl : (ps ++ gs).length ≤ 99) (opts : Options) (hopts : opts ≠ defaultOptions)
    (hd : dp = true → nd.kids.descendants.length < 9998) (ht : g = .fieldText → nd.kids.Quiet)
    (hu : g.isAttr = true → opts.caseSensitive = false → nd.kids.CaseUnique) :
    ∃ r', r.getWithOptions env (pathOf (ps ++ gs)) (some opts) = .ret r' ∧ Gives r' (chainedBy opts.caseSensitive nd ms g) :=
  getOpt_chained env ho hs hg hp hne hl hr hx opts hopts hc hd ht hu

/-- C60: on an Array of elements the first is asked. -/
theorem C60_array (env : Env) (r : Result) (nd : Node) (xs : List Item) (h : Gives r (.many (.elem nd :: xs))) (path : Bytes) (opts : Option Options) :
    ∃ e, r.results.head? = some e ∧ IsElement e nd ∧ r.get env path = e.get env path ∧ r.getWithOptions env path opts = e.getWithOptions env path opts := by
  obtain ⟨h1, h2⟩ := h
  have := (C38_array env r path opts).1 h1
  cases hl : r.results with
  | nil => rw [hl] at h2; cases h2
  | cons e l =>
    rw [hl] at h2 this
    cases h2 with
    | cons h2 h3 => exact ⟨e, rfl, h2, this⟩

/-! ### what that means -/

theorem wrapMoves_in {ms : List Move} (h : StepsIn ms) : wrapMoves ms = .name wrapName :: ms := by
  cases ms with
  | nil => exact h.elim
  | cons m ms =>
    cases m with
    | sat n p => cases n with
      | none => exact h.elim
      | some n => rfl
    | satAll n p => cases n with
      | none => exact h.elim
      | some n => rfl
    | _ => rfl

theorem wrapped_named (nd : Node) : nd.wrapped.named wrapName = [nd.inWrapper] :=
  wrap_matches _ _ _ (by decide +kernel)

theorem firstAnswer_one (a : Answer) : firstAnswer [a] = a := by cases a <;> rfl

theorem ask_wrapped (nd : Node) {ms : List Move} (hm : StepsIn ms) (g : Goal) : ask (wrapMoves ms) g true nd.wrapped = ask ms g false nd.kids := by
  rw [wrapMoves_in hm]
  cases ms with
  | nil => exact hm.elim
  | cons m ms =>
    simp only [ask, Move.nodes, Move.join, wrapped_named, List.map_cons, List.map_nil, firstAnswer_one]
    rfl

/-- C60: a path that steps into the content is followed from the element as it would be inside a longer path - with several children. -/
theorem C60_inside (nd : Node) (h : 2 ≤ nd.kids.elems.length) {ms : List Move} (hm : StepsIn ms) (g : Goal) : chained nd ms g = ask ms g false nd.kids := by
  unfold chained
  rw [if_neg (by omega), ask_wrapped nd hm]

/-- C60: and so with options. -/
theorem C60_options_inside (cs : Bool) (nd : Node) (h : 2 ≤ nd.kids.elems.length) {ms : List Move} (hm : StepsIn ms) (g : Goal) :
    chainedBy cs nd ms g = askBy cs ms g false nd.kids := by
  have hn : nd.wrapped.namedBy cs wrapName = [nd.inWrapper] := by
    cases cs with
    | true => rw [namedBy_true]; exact wrapped_named nd
    | false =>
      simp only [Info.namedBy, Node.wrapped, Info.elems, List.filter_cons, List.filter_nil]
      rw [if_pos (by decide +kernel)]; rfl
  unfold chainedBy
  rw [if_neg (by omega), wrapMoves_in hm]
  cases ms with
  | nil => exact hm.elim
  | cons m ms =>
    simp only [askBy, Move.nodesBy, Move.joinBy, Move.join, hn, List.map_cons, List.map_nil, firstAnswer_one]
    rfl

theorem ask_anywhere {ms : List Move} {g : Goal} (h : Anywhere ms g) (root : Bool) (i : Info) : ask ms g root i = ask ms g false i := by
  cases ms with
  | nil => rfl
  | cons m ms =>
    cases ms with
    | nil =>
      cases m with
      | name n =>
        have h : g ≠ .count ∧ g.isField = false := h
        cases g <;> simp_all [ask, Move.last, Goal.isField]
      | nth n j => exact h.elim
      | deep n => cases n <;> cases g <;> rfl
      | _ => cases g <;> rfl
    | cons n ms =>
      cases m with
      | nth n j => exact h.elim
      | deep n => cases n <;> rfl
      | _ => rfl

/-- C60: a path that steps into the content other than by an index or for a count or `#.` does so with any number of children. -/
theorem C60_anywhere (nd : Node) {ms : List Move} {g : Goal} (hm : StepsIn ms) (ha : Anywhere ms g) : chained nd ms g = ask ms g false nd.kids := by
  by_cases h : 2 ≤ nd.kids.elems.length
  · exact C60_inside nd h hm g
  · unfold chained
    rw [if_pos (by omega), ask_anywhere ha]

/-- C60: `Calm` is not needed for such paths: with elements in comments it may be wrong whether the content has several children, but then it makes no difference. -/
theorem C60_loud (env : Env) (ho : env.ord.IsPerm) (r : Result) (nd : Node) (hr : IsElement r nd) (hx : r.raw.length + 29 ≤ 10485760)
    {dp : Bool} {ps gs : List Bytes} {ms : List Move} {g : Goal} (hs : Spells env.parseFloat dp (.moves ps ms)) (hg : GoalText gs g) (hp : Proper ms)
    (hne : ps ++ gs ≠ []) (hl : (ps ++ gs).length ≤ 99) (hd : dp = true → nd.kids.descendants.length < 9998) (ht : g = .fieldText → nd.kids.Quiet)
    (hm : StepsIn ms) (ha : Anywhere ms g) :
    ∃ r', r.get env (pathOf (ps ++ gs)) = .ret r' ∧ Gives r' (ask ms g false nd.kids) := by
  have hw := (IsElementW.of hr).raw
  rw [Result.get_element env _ hr.typ]
  unfold getFromRaw
  split
  · rw [wrapped_path hne, ← ask_wrapped nd hm g]
    exact get_ask env ho (wrapped_spells hs) hg (wrapMoves_proper hp) (by simp) (by simpa using hl) (by simp; omega) (wrapped_reads ho hw) (wrapped_fine hd ht)
  · rw [← ask_anywhere ha true]
    exact get_ask env ho hs hg hp hne (by omega) (by omega) (writes_reads ho hw) ⟨fun e => by have := hd e; omega, ht⟩

/-- C60: for others it is: elements in a comment can hide that there are several children. -/
theorem C60_calm_needed :
    (∃ r, get exEnv b!"<r><a>x<b>1</b><c>2</c></a></r>" b!"r.a" = .ret r ∧ r.get exEnv b!"#" = .ret (.ofCount 1)) ∧
    (∃ r, get exEnv b!"<r><a>x<!-- <d>0</d> --><b>1</b><c>2</c></a></r>" b!"r.a" = .ret r ∧ r.get exEnv b!"#" = .ret .null) := by
  refine ⟨⟨.ofContent b!"x<b>1</b><c>2</c>", ?_, ?_⟩, ⟨.ofContent b!"x<!-- <d>0</d> --><b>1</b><c>2</c>", ?_, ?_⟩⟩ <;> decide +kernel

/-- C60: a path that only says what is wanted finds, with several children, the own text of the element, fields of its children and the number 1; and otherwise nothing. -/
theorem C60_own (nd : Node) (g : Goal) : chained nd [] g =
    if nd.kids.elems.length ≤ 1 then (if g.isField then .many [] else .nothing)
    else match g with
      | .elem => .one (.elem nd.inWrapper)
      | .attr _ => .nothing
      | .text => .one (.text nd.inWrapper)
      | .count => .one (.count 1)
      | .fieldElem f => .many (((nd.kids.elems.filter (fun x => x.name = f)).map .elem).take 1000)
      | .fieldAttr _ => .many []
      | .fieldText => .many (if trimSpace nd.kids.ownText = [] then [] else [.text nd.inWrapper]) := by
  unfold chained
  split
  · rfl
  · have hh : nd.wrapped.hits true wrapName = [nd.inWrapper] := by simp [Info.hits, Node.wrapped, Info.elems, Node.inWrapper]
    have hn : nd.wrapped.named wrapName = [nd.inWrapper] := wrapped_named nd
    cases g <;> simp [wrapMoves, ask, Move.last, Goal.isField, Goal.items, hh, hn, pack]
    all_goals simp [Node.inWrapper]
    split <;> simp [*]

/-- C60: with several children a filter at the start of the path tests the element itself, not its children. -/
theorem C60_filter (nd : Node) (h : 2 ≤ nd.kids.elems.length) (p : Node → Bool) :
    chained nd [.sat none p] .elem = (if p nd.inWrapper then .one (.elem nd.inWrapper) else .nothing) ∧
    chained nd [.satAll none p] .elem = (if p nd.inWrapper then .many [.elem nd.inWrapper] else .nothing) ∧
    ∀ m ms g, chained nd (.sat none p :: m :: ms) g = (if p nd.inWrapper then ask (m :: ms) g false nd.kids else .nothing) := by
  have hn : nd.wrapped.named wrapName = [nd.inWrapper] := wrapped_named nd
  have e : ∀ ms g, chained nd ms g = ask (wrapMoves ms) g true nd.wrapped := fun ms g => by unfold chained; rw [if_neg (by omega)]
  simp only [e, wrapMoves, ask, Move.last, Move.nodes, Info.among, hn, Move.join]
  cases hp : p nd.inWrapper <;> simp [hp, Goal.isField, Goal.listed, Goal.items, pack, firstAnswer_one, firstAnswer]
  simp [Node.inWrapper]

/-! ### chained and whole paths -/

theorem pack_nothing {xs : List Item} : pack xs = .nothing ↔ xs = [] := by
  match xs with
  | [] => simp [pack]
  | [x] => simp [pack]
  | x :: y :: l => simp [pack]

theorem pack_one {xs : List Item} {x : Item} : pack xs = .one x ↔ xs = [x] := by
  match xs with
  | [] => simp [pack]
  | [y] => simp [pack]
  | y :: z :: l => simp [pack]

/-- The last of moves to one element gives the first element of the move. -/
theorem last_single {m : Move} (h : m.single = true) (root : Bool) (i : Info) :
    (m.nodes root i = [] ∧ m.last root i .elem = .nothing) ∨ ∃ nd l, m.nodes root i = nd :: l ∧ m.last root i .elem = .one (.elem nd) := by
  cases m with
  | name n =>
    simp only [Move.last, Move.nodes, Goal.isField, Goal.items]
    cases i.named n with
    | nil => exact .inl ⟨rfl, rfl⟩
    | cons a l => exact .inr ⟨a, l, rfl, rfl⟩
  | nth n j =>
    rcases Option.eq_none_or_eq_some (((i.hits root n).take 1000)[j]?) with hx | ⟨a, hx⟩
    · exact .inl (by simp [Move.last, Move.nodes, hx])
    · exact .inr ⟨a, [], by simp [Move.last, Move.nodes, hx, Goal.isField, Goal.items, pack]⟩
  | sat n p =>
    have : i.among n p = [] ∨ ∃ a l, i.among n p = a :: l := by cases i.among n p <;> simp
    rcases this with hx | ⟨a, l, hx⟩
    · exact .inl (by simp [Move.last, Move.nodes, hx])
    · exact .inr ⟨a, [], by simp [Move.last, Move.nodes, hx, Goal.isField, Goal.items, pack]⟩
  | _ => simp [Move.single] at h

theorem join_single {m : Move} (h : m.single = true) (as : List Answer) : m.join as = firstAnswer as := by
  cases m <;> first | rfl | simp [Move.single] at h

theorem firstAnswer_split {as : List Answer} {a : Answer} (h : firstAnswer as = a) (ha : a ≠ .nothing) : ∃ l r, as = l ++ a :: r ∧ ∀ x ∈ l, x = .nothing := by
  induction as with
  | nil => exact absurd h.symm ha
  | cons b bs ih =>
    cases b with
    | nothing =>
      obtain ⟨l, r, h1, h2⟩ := ih h
      exact ⟨.nothing :: l, r, by rw [h1]; rfl, by simpa using h2⟩
    | one x => exact ⟨[], bs, by rw [← h]; rfl, by simp⟩
    | many x => exact ⟨[], bs, by rw [← h]; rfl, by simp⟩

theorem firstAnswer_join {l r : List Answer} {a : Answer} (h : ∀ x ∈ l, x = .nothing) (ha : a ≠ .nothing) : firstAnswer (l ++ a :: r) = a := by
  induction l with
  | nil => cases a <;> first | rfl | exact absurd rfl ha
  | cons b bs ih =>
    obtain rfl := h b (by simp)
    exact ih (fun x hx => h x (by simp [hx]))

theorem firstAnswer_none {as : List Answer} : firstAnswer as = .nothing ↔ ∀ a ∈ as, a = .nothing := by
  constructor
  · intro h
    induction as with
    | nil => simp
    | cons b bs ih =>
      cases b with
      | nothing => simpa using ih h
      | one x => cases h
      | many x => cases h
  · exact firstAnswer_nothing

theorem ask_cons {m : Move} {ms : List Move} (h : ms ≠ []) (g : Goal) (root : Bool) (i : Info) :
    ask (m :: ms) g root i = m.join ((m.nodes root i).map (fun nd => ask ms g false nd.kids)) := by
  cases ms with
  | nil => exact absurd rfl h
  | cons n ms => rfl

/-- Where no element is found, nothing is found below it. -/
theorem ask_below_nothing {ns ms : List Move} (hn : ns ≠ []) (hs : ∀ m ∈ ns, m.single = true) (hm : ms ≠ []) (g : Goal) (root : Bool) (i : Info)
    (h : ask ns .elem root i = .nothing) : ask (ns ++ ms) g root i = .nothing := by
  induction ns generalizing root i with
  | nil => exact absurd rfl hn
  | cons m ns ih =>
    rw [List.cons_append, ask_cons (by simp [hm]), join_single (hs m (by simp)), firstAnswer_none]
    intro a ha
    obtain ⟨nd, hnd, rfl⟩ := List.mem_map.mp ha
    by_cases he : ns = []
    · subst he
      have h : m.last root i .elem = .nothing := h
      rcases last_single (hs m (by simp)) root i with ⟨hl, -⟩ | ⟨x, xs, -, hl⟩
      · rw [hl] at hnd; simp at hnd
      · rw [hl] at h; cases h
    · rw [ask_cons he, join_single (hs m (by simp)), firstAnswer_none] at h
      exact ih he (fun x hx => hs x (by simp [hx])) _ _ (h _ (List.mem_map.mpr ⟨nd, hnd, rfl⟩))

/-- If the path from the first element finds something, the whole path finds it. -/
theorem ask_below {ns ms : List Move} (hn : ns ≠ []) (hs : ∀ m ∈ ns, m.single = true) (hm : ms ≠ []) (g : Goal) (root : Bool) (i : Info) (nd : Node)
    (h : ask ns .elem root i = .one (.elem nd)) (hx : ask ms g false nd.kids ≠ .nothing) : ask (ns ++ ms) g root i = ask ms g false nd.kids := by
  induction ns generalizing root i with
  | nil => exact absurd rfl hn
  | cons m ns ih =>
    rw [List.cons_append, ask_cons (by simp [hm]), join_single (hs m (by simp))]
    by_cases he : ns = []
    · subst he
      have h : m.last root i .elem = .one (.elem nd) := h
      rcases last_single (hs m (by simp)) root i with ⟨-, hl⟩ | ⟨x, xs, hl, hl'⟩
      · rw [hl] at h; cases h
      · rw [hl'] at h
        cases h
        rw [hl]
        exact firstAnswer_join (l := []) (by simp) hx
    · rw [ask_cons he, join_single (hs m (by simp))] at h
      obtain ⟨l, r, h1, h2⟩ := firstAnswer_split h (by simp)
      obtain ⟨L, R, e, h3, h4⟩ := List.map_eq_append_iff.mp h1
      obtain ⟨y, R', rfl, h5, -⟩ := List.map_eq_cons_iff.mp h4
      have hy := ih he (fun x hx => hs x (by simp [hx])) false y.kids h5
      rw [e, List.map_append, List.map_cons, hy]
      apply firstAnswer_join _ hx
      intro x hx'
      obtain ⟨z, hz, rfl⟩ := List.mem_map.mp hx'
      exact ask_below_nothing he (fun x hx => hs x (by simp [hx])) hm g _ _ (h2 _ (by rw [← h3]; exact List.mem_map.mpr ⟨z, hz, rfl⟩))

/-- C60: if a chained query finds something, the whole path finds the same: for paths to one element (names, indices, `#(…)`), followed by any path that steps into the content
of an element with several children, or steps there otherwise than by an index or for a count or `#.`. -/
theorem C60_agree (env : Env) (ho : env.ord.IsPerm) (xml : Bytes) (i : Info) (h : Says xml i) {dp : Bool} {qs ps gs : List Bytes} {ns ms : List Move} {g : Goal}
    (hq : Spells env.parseFloat dp (.moves qs ns)) (hs : Spells env.parseFloat dp (.moves ps ms)) (hg : GoalText gs g) (hn : ns ≠ []) (h1 : ∀ m ∈ ns, m.single = true)
    (hm : StepsIn ms) (hp : Proper (ns ++ ms)) (hl : (qs ++ ps ++ gs).length ≤ 100) (hd : dp = true → i.descendants.length < 9999) (ht : g = .fieldText → i.Quiet)
    (nd : Node) (hnd : ask ns .elem true i = .one (.elem nd)) (ha : 2 ≤ nd.kids.elems.length ∨ Anywhere ms g) (hx : chained nd ms g ≠ .nothing) :
    ∃ r, get env xml (pathOf (qs ++ ps ++ gs)) = .ret r ∧ Gives r (chained nd ms g) := by
  have e : chained nd ms g = ask ms g false nd.kids := by
    rcases ha with ha | ha
    · exact C60_inside nd ha hm g
    · exact C60_anywhere nd hm ha
  have hm' : ms ≠ [] := by rintro rfl; exact hm
  have hqs : Spells env.parseFloat dp (.moves (qs ++ ps) (ns ++ ms)) := spells_append hq hs
  have hne : qs ++ ps ++ gs ≠ [] := by
    have : qs ≠ [] := by
      rintro rfl
      exact spells_nonempty hq hn rfl
    simp [this]
  rw [e] at hx ⊢
  rw [← ask_below hn h1 hm' g true i nd hnd hx]
  exact C51_get env ho xml i h hqs hg hp hne hl hd ht

/-! ### examples -/

/-- C60: with two children `Get("#")`, `Get("%")` and a filter are about the element itself; with one child they find nothing, or that child. -/
theorem C60_witness :
    (∃ r, get exEnv b!"<r><a>x<b>1</b><c>2</c></a></r>" b!"r.a" = .ret r ∧ r.get exEnv b!"#" = .ret (.ofCount 1) ∧
      (∃ t, r.get exEnv b!"%" = .ret t ∧ t.toStr = b!"x") ∧ r.get exEnv b!"#(b==1)" = .ret r ∧ r.get exEnv b!"#.c" = .ret (.ofArray [.ofContent b!"2"])) ∧
    (∃ r, get exEnv b!"<r><a>x<b><b>1</b></b></a></r>" b!"r.a" = .ret r ∧ r.get exEnv b!"#" = .ret .null ∧
      r.get exEnv b!"%" = .ret .null ∧ r.get exEnv b!"#(b==1)" = .ret (.ofContent b!"<b>1</b>") ∧ r.get exEnv b!"#.b" = .ret (.ofArray [])) := by
  refine ⟨⟨.ofContent b!"x<b>1</b><c>2</c>", ?_, ?_, ⟨.ofText b!"x<b>1</b><c>2</c>", ?_, ?_⟩, ?_, ?_⟩, ⟨.ofContent b!"x<b><b>1</b></b>", ?_, ?_, ?_, ?_, ?_⟩⟩ <;> decide +kernel

/-- `r` of the example document, asked for `*.b`: found from there as by `r.*.b`. -/
example : ∃ nd r r', get exEnv exDoc.render b!"r" = .ret r ∧ IsElement r nd ∧ 2 ≤ nd.kids.elems.length ∧ r.get exEnv b!"*.b" = .ret r' ∧ IsElement r' exB ∧
    ∃ r'', get exEnv exDoc.render b!"r.*.b" = .ret r'' ∧ IsElement r'' exB := by
  have hs : Spells exEnv.parseFloat false (.moves [b!"*", b!"b"] [.any, .name b!"b"]) :=
    .cons (ps := [b!"*"]) .any (.cons (ps := [b!"b"]) (.name (plain_of (by decide))) .nil)
  have hq : Spells exEnv.parseFloat false (.moves [b!"r"] [.name b!"r"]) := .cons (ps := [b!"r"]) (.name (plain_of (by decide))) .nil
  obtain ⟨nd, hnd, h2⟩ : ∃ nd, ask [.name b!"r"] .elem true exDoc.info = .one (.elem nd) ∧ 2 ≤ nd.kids.elems.length ∧
      chained nd [.any, .name b!"b"] .elem = .one (.elem exB) := ⟨_, rfl, by decide, rfl⟩
  obtain ⟨r, e, hr⟩ := C51_get exEnv exEnv_perm _ _ exDoc_says hq .elem trivial (by simp) (by simp) (by simp) (by simp)
  rw [hnd] at hr
  have he : r = .ofContent b!"<a k=\"1\">x<b>y</b><!--c--></a><n:a k=\"2\" j=\"3\"/>" := by
    have : get exEnv exDoc.render (pathOf ([b!"r"] ++ [])) = .ret (.ofContent b!"<a k=\"1\">x<b>y</b><!--c--></a><n:a k=\"2\" j=\"3\"/>") := by decide +kernel
    rw [this] at e
    exact (Outcome.ret.inj e).symm
  obtain ⟨r', e', hr'⟩ := C60_get exEnv exEnv_perm r nd hr (by cases hnd; decide +kernel) (by rw [he]; decide) hs .elem trivial (by simp) (by simp) (by simp) (by simp)
  obtain ⟨r'', e'', hr''⟩ := C60_agree exEnv exEnv_perm _ _ exDoc_says hq hs .elem (by simp) (by simp [Move.single]) (g := .elem) trivial ⟨trivial, trivial⟩
    (by simp) (by simp) (by simp) nd hnd (.inl h2.1) (by rw [h2.2]; simp)
  rw [h2.2] at hr' hr''
  exact ⟨nd, r, r', e, hr, h2.1, e', hr', r'', e'', hr''⟩

end Verif.Props
