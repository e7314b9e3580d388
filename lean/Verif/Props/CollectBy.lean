import Verif.Props.Collect
import Verif.Props.SenseBy
/- Chained queries and whole paths, and what a path through `*` or `#(…)#` collects, when options are given: C60 and C82. -/
namespace Verif.Props
open Verif Verif.Spec

theorem askBy_wrapped (cs : Bool) (nd : Node) {ms : List Move} (hm : StepsIn ms) (g : Goal) : askBy cs (wrapMoves ms) g true nd.wrapped = askBy cs ms g false nd.kids := by
  have hn : nd.wrapped.namedBy cs wrapName = [nd.inWrapper] := by
    cases cs with
    | true => rw [namedBy_true]; exact wrapped_named nd
    | false =>
      simp only [Info.namedBy, Node.wrapped, Info.elems, List.filter_cons, List.filter_nil]
      rw [if_pos (by decide +kernel)]; rfl
  rw [wrapMoves_in hm]
  cases ms with
  | nil => exact hm.elim
  | cons m ms =>
    simp only [askBy, Move.nodesBy, Move.joinBy, Move.join, hn, List.map_cons, List.map_nil, firstAnswer_one]
    rfl

theorem askBy_anywhere (cs : Bool) {ms : List Move} {g : Goal} (h : Anywhere ms g) (root : Bool) (i : Info) : askBy cs ms g root i = askBy cs ms g false i := by
  cases ms with
  | nil => rfl
  | cons m ms =>
    cases ms with
    | nil =>
      cases m with
      | name n =>
        have h : g ≠ .count ∧ g.isField = false := h
        cases g <;> simp_all [askBy, Move.lastBy, Goal.isField]
      | nth n j => exact h.elim
      | deep n => cases n <;> cases g <;> rfl
      | _ => cases g <;> rfl
    | cons n ms =>
      cases m with
      | nth n j => exact h.elim
      | deep n => cases n <;> rfl
      | _ => rfl

/-- C60: a path that steps into the content other than by an index or for a count or `#.` does so with any number of children, with options too. -/
theorem C60_anywhere_options (cs : Bool) (nd : Node) {ms : List Move} {g : Goal} (hm : StepsIn ms) (ha : Anywhere ms g) : chainedBy cs nd ms g = askBy cs ms g false nd.kids := by
  by_cases h : 2 ≤ nd.kids.elems.length
  · exact C60_options_inside cs nd h hm g
  · unfold chainedBy
    rw [if_pos (by omega), askBy_anywhere cs ha]

/-- C60: `Calm` is not needed for such paths with options either. -/
theorem C60_loud_options (env : Env) (ho : env.ord.IsPerm) (r : Result) (nd : Node) (hr : IsElement r nd) (hx : r.raw.length + 29 ≤ 10485760)
    {dp : Bool} {ps gs : List Bytes} {ms : List Move} {g : Goal} (hs : Spells env.parseFloat dp (.moves ps ms)) (hg : GoalText gs g) (hp : Proper ms)
    (hne : ps ++ gs ≠ []) (hl : (ps ++ gs).length ≤ 99) (opts : Options) (hopts : opts ≠ defaultOptions) (hd : dp = true → nd.kids.descendants.length < 9998)
    (ht : g = .fieldText → nd.kids.Quiet) (hu : g.isAttr = true → opts.caseSensitive = false → nd.kids.CaseUnique) (hm : StepsIn ms) (ha : Anywhere ms g) :
    ∃ r', r.getWithOptions env (pathOf (ps ++ gs)) (some opts) = .ret r' ∧ Gives r' (askBy opts.caseSensitive ms g false nd.kids) := by
  have hw := (IsElementW.of hr).raw
  rw [Result.getWithOptions_element env _ (notDefault hopts) hr.typ]
  unfold getFromRawOpt
  split
  · rw [wrapped_path hne, ← askBy_wrapped opts.caseSensitive nd hm g]
    exact getWithOptions_ask env ho (wrapped_spells hs) hg (wrapMoves_proper hp) (by simp) (by simpa using hl) (by simp; omega) (wrapped_reads ho hw) opts hopts
      (wrapped_fineBy hd ht (fun e => hu e.1 e.2))
  · rw [← askBy_anywhere opts.caseSensitive ha true]
    exact getWithOptions_ask env ho hs hg hp hne (by omega) (by omega) (writes_reads ho hw) opts hopts ⟨⟨fun e => by have := hd e; omega, ht⟩, fun e => hu e.1 e.2⟩

/-! ### chained and whole paths -/

theorem lastBy_single (cs : Bool) {m : Move} (h : m.single = true) (root : Bool) (i : Info) :
    (m.nodesBy cs root i = [] ∧ m.lastBy cs root i .elem = .nothing) ∨ ∃ nd l, m.nodesBy cs root i = nd :: l ∧ m.lastBy cs root i .elem = .one (.elem nd) := by
  cases m with
  | name n =>
    simp only [Move.lastBy, Move.nodesBy, Goal.isField, Goal.itemsBy]
    cases i.namedBy cs n with
    | nil => exact .inl ⟨rfl, rfl⟩
    | cons a l => exact .inr ⟨a, l, rfl, rfl⟩
  | nth n j =>
    rcases Option.eq_none_or_eq_some (((i.hitsBy cs root n).take 1000)[j]?) with hx | ⟨a, hx⟩
    · exact .inl (by simp [Move.lastBy, Move.nodesBy, hx])
    · exact .inr ⟨a, [], by simp [Move.lastBy, Move.nodesBy, hx, Goal.isField, Goal.itemsBy, pack]⟩
  | sat n p =>
    have : i.amongBy cs n p = [] ∨ ∃ a l, i.amongBy cs n p = a :: l := by cases i.amongBy cs n p <;> simp
    rcases this with hx | ⟨a, l, hx⟩
    · exact .inl (by simp [Move.lastBy, Move.nodesBy, hx])
    · exact .inr ⟨a, [], by simp [Move.lastBy, Move.nodesBy, hx, Goal.isField, Goal.itemsBy, pack]⟩
  | _ => simp [Move.single] at h

theorem joinBy_single {m : Move} (h : m.single = true) (as : List Answer) : m.joinBy as = firstAnswer as := by
  cases m <;> first | rfl | simp [Move.single] at h

theorem askBy_cons (cs : Bool) {m : Move} {ms : List Move} (h : ms ≠ []) (g : Goal) (root : Bool) (i : Info) :
    askBy cs (m :: ms) g root i = m.joinBy ((m.nodesBy cs root i).map (fun nd => askBy cs ms g false nd.kids)) := by
  cases ms with
  | nil => exact absurd rfl h
  | cons n ms => rfl

theorem askBy_below_nothing (cs : Bool) {ns ms : List Move} (hn : ns ≠ []) (hs : ∀ m ∈ ns, m.single = true) (hm : ms ≠ []) (g : Goal) (root : Bool) (i : Info)
    (h : askBy cs ns .elem root i = .nothing) : askBy cs (ns ++ ms) g root i = .nothing := by
  induction ns generalizing root i with
  | nil => exact absurd rfl hn
  | cons m ns ih =>
    rw [List.cons_append, askBy_cons cs (by simp [hm]), joinBy_single (hs m (by simp)), firstAnswer_none]
    intro a ha
    obtain ⟨nd, hnd, rfl⟩ := List.mem_map.mp ha
    by_cases he : ns = []
    · subst he
      have h : m.lastBy cs root i .elem = .nothing := h
      rcases lastBy_single cs (hs m (by simp)) root i with ⟨hl, -⟩ | ⟨x, xs, -, hl⟩
      · rw [hl] at hnd; simp at hnd
      · rw [hl] at h; cases h
    · rw [askBy_cons cs he, joinBy_single (hs m (by simp)), firstAnswer_none] at h
      exact ih he (fun x hx => hs x (by simp [hx])) _ _ (h _ (List.mem_map.mpr ⟨nd, hnd, rfl⟩))

theorem askBy_below (cs : Bool) {ns ms : List Move} (hn : ns ≠ []) (hs : ∀ m ∈ ns, m.single = true) (hm : ms ≠ []) (g : Goal) (root : Bool) (i : Info) (nd : Node)
    (h : askBy cs ns .elem root i = .one (.elem nd)) (hx : askBy cs ms g false nd.kids ≠ .nothing) : askBy cs (ns ++ ms) g root i = askBy cs ms g false nd.kids := by
  induction ns generalizing root i with
  | nil => exact absurd rfl hn
  | cons m ns ih =>
    rw [List.cons_append, askBy_cons cs (by simp [hm]), joinBy_single (hs m (by simp))]
    by_cases he : ns = []
    · subst he
      have h : m.lastBy cs root i .elem = .one (.elem nd) := h
      rcases lastBy_single cs (hs m (by simp)) root i with ⟨-, hl⟩ | ⟨x, xs, hl, hl'⟩
      · rw [hl] at h; cases h
      · rw [hl'] at h
        cases h
        rw [hl]
        exact firstAnswer_join (l := []) (by simp) hx
    · rw [askBy_cons cs he, joinBy_single (hs m (by simp))] at h
      obtain ⟨l, r, h1, h2⟩ := firstAnswer_split h (by simp)
      obtain ⟨L, R, e, h3, h4⟩ := List.map_eq_append_iff.mp h1
      obtain ⟨y, R', rfl, h5, -⟩ := List.map_eq_cons_iff.mp h4
      have hy := ih he (fun x hx => hs x (by simp [hx])) false y.kids h5
      rw [e, List.map_append, List.map_cons, hy]
      apply firstAnswer_join _ hx
      intro x hx'
      obtain ⟨z, hz, rfl⟩ := List.mem_map.mp hx'
      exact askBy_below_nothing cs he (fun x hx => hs x (by simp [hx])) hm g _ _ (h2 _ (by rw [← h3]; exact List.mem_map.mpr ⟨z, hz, rfl⟩))

/-- C60: if a chained query with options finds something, the whole path with the same options finds the same. -/
theorem C60_agree_options (env : Env) (ho : env.ord.IsPerm) (xml : Bytes) (i : Info) (h : Says xml i) {dp : Bool} {qs ps gs : List Bytes} {ns ms : List Move} {g : Goal}
    (hq : Spells env.parseFloat dp (.moves qs ns)) (hs : Spells env.parseFloat dp (.moves ps ms)) (hg : GoalText gs g) (hn : ns ≠ []) (h1 : ∀ m ∈ ns, m.single = true)
    (hm : StepsIn ms) (hp : Proper (ns ++ ms)) (hl : (qs ++ ps ++ gs).length ≤ 100) (hd : dp = true → i.descendants.length < 9999) (ht : g = .fieldText → i.Quiet)
    (opts : Options) (hopts : opts ≠ defaultOptions) (hu : g.isAttr = true ∧ opts.caseSensitive = false → i.CaseUnique)
    (nd : Node) (hnd : askBy opts.caseSensitive ns .elem true i = .one (.elem nd)) (ha : 2 ≤ nd.kids.elems.length ∨ Anywhere ms g)
    (hx : chainedBy opts.caseSensitive nd ms g ≠ .nothing) :
    ∃ r, getWithOptions env xml (pathOf (qs ++ ps ++ gs)) (some opts) = .ret r ∧ Gives r (chainedBy opts.caseSensitive nd ms g) := by
  have e : chainedBy opts.caseSensitive nd ms g = askBy opts.caseSensitive ms g false nd.kids := by
    rcases ha with ha | ha
    · exact C60_options_inside _ nd ha hm g
    · exact C60_anywhere_options _ nd hm ha
  have hm' : ms ≠ [] := by rintro rfl; exact hm
  have hqs : Spells env.parseFloat dp (.moves (qs ++ ps) (ns ++ ms)) := spells_append hq hs
  have hne : qs ++ ps ++ gs ≠ [] := by
    have : qs ≠ [] := spells_nonempty hq hn
    simp [this]
  rw [e] at hx ⊢
  rw [← askBy_below _ hn h1 hm' g true i nd hnd hx]
  exact C55_get env ho xml i h hqs hg hp hne hl hd ht opts hopts hu

/-! ### what is collected -/

theorem nodesBy_elems (cs : Bool) {m : Move} (h : m.single = true ∨ Gathers m) (root : Bool) (i : Info) : ∀ nd ∈ m.nodesBy cs root i, nd ∈ i.elems := by
  have named : ∀ n, ∀ nd ∈ i.namedBy cs n, nd ∈ i.elems := fun n nd hn => (List.mem_filter.mp hn).1
  have hits : ∀ n, ∀ nd ∈ i.hitsBy cs root n, nd ∈ i.elems := fun n nd hn => by
    unfold Info.hitsBy at hn
    split at hn
    · unfold Info.hits at hn
      split at hn
      · exact (List.mem_filter.mp hn).1
      · exact (List.mem_filter.mp hn).1
    · exact named n nd hn
  have among : ∀ n p, ∀ nd ∈ i.amongBy cs n p, nd ∈ i.elems := fun n p nd hn => by
    cases n with
    | none => exact (List.mem_filter.mp (List.mem_of_mem_take hn)).1
    | some n => exact named n nd (List.mem_of_mem_take ((List.mem_filter.mp hn).1))
  cases m with
  | name n => exact named n
  | nth n j =>
    intro nd hn
    simp only [Move.nodesBy, Option.mem_toList] at hn
    exact hits n nd (List.mem_of_mem_take (List.mem_of_getElem? hn))
  | sat n p => exact fun nd hn => among n p nd (List.mem_of_mem_take hn)
  | satAll n p => exact among n p
  | any => exact fun nd hn => List.mem_of_mem_take hn
  | deep n => rcases h with h | h | ⟨n, p, h⟩ <;> cases h

/-- What is known of the content of an element further down. -/
def Under (i k : Info) : Prop := k.descendants.length < i.descendants.length ∧ (i.Quiet → k.Quiet) ∧ (i.CaseUnique → k.CaseUnique)

theorem under_elems {i : Info} {nd : Node} (h : nd ∈ i.elems) : Under i nd.kids :=
  ⟨descendants_kids i nd h, fun hq => quiet_elems hq nd h, fun hu => (caseUnique_elems hu nd h).2⟩

theorem Under.trans {i j k : Info} (h : Under i j) (h' : Under j k) : Under i k :=
  ⟨Nat.lt_trans h'.1 h.1, fun hq => h'.2.1 (h.2.1 hq), fun hu => h'.2.2 (h.2.2 hu)⟩

/-- The elements that are collected, and what is made of the answers below them. -/
theorem askBy_gather (cs : Bool) {ns ms : List Move} {m : Move} (hs : ∀ x ∈ ns, x.single = true) (hm : Gathers m) (h0 : ms ≠ []) (g : Goal) (root : Bool) (i : Info) :
    ∃ nds : List Node, (∀ nd ∈ nds, Under i nd.kids) ∧
      (askBy cs (ns ++ [m]) .elem root i).items = nds.map .elem ∧ (nds = [] → askBy cs (ns ++ [m]) .elem root i = .nothing ∧ askBy cs (ns ++ m :: ms) g root i = .nothing) ∧
      (m.joinBy (nds.map fun nd => askBy cs ms g false nd.kids) ≠ .nothing → askBy cs (ns ++ m :: ms) g root i = m.joinBy (nds.map fun nd => askBy cs ms g false nd.kids)) := by
  induction ns generalizing root i with
  | nil =>
    refine ⟨m.nodesBy cs root i, fun nd hn => under_elems (nodesBy_elems cs (.inr hm) root i nd hn), ?_, fun h => ?_, fun _ => ?_⟩
    · simp only [List.nil_append, askBy]
      rcases hm with rfl | ⟨n, p, rfl⟩
      · simp only [Move.lastBy, Goal.isField, Goal.itemsBy, Bool.false_eq_true, if_false]
        rw [pack_items, List.map_eq_flatMap]
      · simp only [Move.lastBy, Goal.isField, Bool.false_eq_true, if_false, Goal.listedBy]
        cases h : Move.nodesBy cs root i (.satAll n p) with
        | nil => rfl
        | cons a l => rfl
    · refine ⟨?_, ?_⟩
      · rcases hm with rfl | ⟨n, p, rfl⟩ <;> simp [askBy, Move.lastBy, h, Goal.isField, pack]
      · rw [List.nil_append, askBy_cons cs h0, h]
        rcases hm with rfl | ⟨n, p, rfl⟩ <;> rfl
    · rw [List.nil_append, askBy_cons cs h0]
  | cons x ns ih =>
    have hx := hs x (by simp)
    have e1 : ∀ T g, T ≠ [] → askBy cs (x :: ns ++ T) g root i = firstAnswer ((x.nodesBy cs root i).map fun nd => askBy cs (ns ++ T) g false nd.kids) := fun T g hT => by
      rw [List.cons_append, askBy_cons cs (by simp [hT]), joinBy_single hx]
    rw [e1 [m] _ (by simp), e1 (m :: ms) _ (by simp)]
    have hel := nodesBy_elems cs (.inl hx) root i
    generalize x.nodesBy cs root i = l at hel
    clear e1
    induction l with
    | nil => exact ⟨[], by simp, rfl, fun _ => ⟨rfl, rfl⟩, fun h => absurd (by rcases hm with rfl | ⟨n, p, rfl⟩ <;> rfl) h⟩
    | cons a l ihl =>
      obtain ⟨nds, k1, k2, k3, k4⟩ := ih (fun x hx => hs x (by simp [hx])) false a.kids
      simp only [List.map_cons]
      by_cases he : nds = []
      · obtain ⟨k5, k6⟩ := k3 he
        rw [k5, k6]
        exact ihl (fun nd hn => hel nd (by simp [hn]))
      · have hne : askBy cs (ns ++ [m]) .elem false a.kids ≠ .nothing := by
          intro h
          rw [h] at k2
          cases nds <;> simp [Answer.items] at k2 he
        refine ⟨nds, fun nd hn => (under_elems (hel a (by simp))).trans (k1 nd hn), ?_, fun h => absurd h he, fun h => ?_⟩
        · rw [← k2]
          exact congrArg Answer.items (firstAnswer_join (l := []) (by simp) hne)
        · rw [k4 h]
          exact firstAnswer_join (l := []) (by simp) h

theorem gathersBy_items {m : Move} (hm : Gathers m) (as : List Answer) : (m.joinBy as).items = as.flatMap Answer.items ∧ (as.flatMap Answer.items ≠ [] → m.joinBy as ≠ .nothing) := by
  have e : (m.joinBy as).items = as.flatMap Answer.items := by
    rcases hm with rfl | ⟨n, p, rfl⟩
    · exact pack_items _
    · exact pack_items _
  exact ⟨e, fun h h' => h (by rw [← e, h']; rfl)⟩

/-- C82: the same with options. -/
theorem C82_options (env : Env) (ho : env.ord.IsPerm) (xml : Bytes) (i : Info) (h : Says xml i) {dp : Bool} {qs ps gs : List Bytes} {ns ms : List Move} {m : Move} {g : Goal}
    (hq : Spells env.parseFloat dp (.moves qs (ns ++ [m]))) (hs : Spells env.parseFloat dp (.moves ps ms)) (hg : GoalText gs g) (h1 : ∀ x ∈ ns, x.single = true) (hm : Gathers m)
    (hin : StepsIn ms) (ha : Anywhere ms g) (hp : Proper (ns ++ [m])) (hp' : Proper ms) (hp2 : Proper (ns ++ m :: ms)) (hl : (qs ++ ps ++ gs).length ≤ 100) (hd : dp = true → i.descendants.length < 9999) (ht : g = .fieldText → i.Quiet)
    (opts : Options) (hopts : opts ≠ defaultOptions) (hu : g.isAttr = true → opts.caseSensitive = false → i.CaseUnique)
    (hx : ∀ a, getWithOptions env xml (pathOf qs) (some opts) = .ret a → ∀ r ∈ a.array, r.raw.length + 29 ≤ 10485760) :
    ∃ a xs out, getWithOptions env xml (pathOf qs) (some opts) = .ret a ∧ All2 (fun r x => r.getWithOptions env (pathOf (ps ++ gs)) (some opts) = .ret x) a.array xs ∧
      getWithOptions env xml (pathOf (qs ++ ps ++ gs)) (some opts) = .ret out ∧
      (a.exists? = false → out = .null) ∧ (xs.flatMap Result.array ≠ [] → ∃ things, All2 Is (xs.flatMap Result.array) things ∧ All2 Is out.array things) := by
  have h0 : ms ≠ [] := by rintro rfl; exact hin
  have hqn : qs ≠ [] := spells_nonempty hq (by simp)
  have hpn : ps ≠ [] := spells_nonempty hs h0
  have hql : 1 ≤ qs.length := by cases qs <;> simp at hqn ⊢
  obtain ⟨nds, k1, k2, k3, k4⟩ := askBy_gather opts.caseSensitive h1 hm h0 g true i
  obtain ⟨a, e1, g1⟩ := C55_get env ho xml i h (gs := []) hq .elem hp (by simpa using hqn) (by simp at hl ⊢; omega) hd (by simp) opts hopts (by simp [Goal.isAttr])
  rw [List.append_nil] at e1
  have hqs : Spells env.parseFloat dp (.moves (qs ++ ps) (ns ++ m :: ms)) := by
    have := spells_append hq hs
    rwa [List.append_assoc, List.singleton_append] at this
  obtain ⟨out, e2, g2⟩ := C55_get env ho xml i h hqs hg hp2 (by simp [hqn]) hl hd ht opts hopts (fun e => hu e.1 e.2)
  have t1 := gives_things g1
  rw [k2] at t1
  have hx := hx a e1
  have key : ∀ (rs : List Result) (nds : List Node), All2 Is rs (nds.map .elem) → (∀ nd ∈ nds, Under i nd.kids) →
      (∀ r ∈ rs, r.raw.length + 29 ≤ 10485760) → ∃ xs, All2 (fun r x => r.getWithOptions env (pathOf (ps ++ gs)) (some opts) = .ret x) rs xs ∧
        All2 Is (xs.flatMap Result.array) ((nds.map fun nd => askBy opts.caseSensitive ms g false nd.kids).flatMap Answer.items) := by
    intro rs
    induction rs with
    | nil => intro nds h _ _; cases nds <;> cases h; exact ⟨[], .nil, .nil⟩
    | cons r rs ih =>
      intro nds h hf hr
      cases nds with
      | nil => cases h
      | cons nd nds =>
        cases h with
        | cons ha hb =>
          obtain ⟨xs, i1, i2⟩ := ih nds hb (fun nd hn => hf nd (by simp [hn])) (fun r hr' => hr r (by simp [hr']))
          obtain ⟨f1, f2, f3⟩ := hf nd (by simp)
          obtain ⟨x, e3, g3⟩ := C60_loud_options env ho r nd ha (hr r (by simp)) hs hg hp' (by simp [hpn]) (by simp at hl ⊢; omega) opts hopts (fun e => by have := hd e; omega)
            (fun e => f2 (ht e)) (fun e e' => f3 (hu e e')) hin ‹_›
          exact ⟨x :: xs, .cons e3 i1, (gives_things g3).append i2⟩
  obtain ⟨xs, i1, i2⟩ := key a.array nds t1 k1 hx
  refine ⟨a, xs, out, e1, i1, e2, fun hne => ?_, fun hne => ⟨_, i2, ?_⟩⟩
  · have : nds = [] := by
      cases nds with
      | nil => rfl
      | cons nd nds =>
        exfalso
        cases hh : a.array with
        | nil => rw [hh] at t1; cases t1
        | cons r l =>
          simp only [Result.exists?] at hne
          simp only [Result.array] at hh
          have : a.typ = .null := by simpa using hne
          rw [if_neg (by simp [this]), if_pos this] at hh
          cases hh
    have := (k3 this).2
    rw [this] at g2
    exact g2
  · have hne' : (nds.map fun nd => askBy opts.caseSensitive ms g false nd.kids).flatMap Answer.items ≠ [] := by
      intro e
      rw [e] at i2
      generalize xs.flatMap Result.array = l at i2 hne
      cases i2
      exact hne rfl
    obtain ⟨j1, j2⟩ := gathersBy_items hm (nds.map fun nd => askBy opts.caseSensitive ms g false nd.kids)
    rw [k4 (j2 hne')] at g2
    have := gives_things g2
    rwa [j1] at this

/-- `R.*` and `R.*.B` in the example document, without regard to case. -/
example : ∃ a xs out, getWithOptions exEnv exDoc.render b!"R.*" (some { defaultOptions with caseSensitive := false }) = .ret a ∧
    All2 (fun r x => r.getWithOptions exEnv b!"B" (some { defaultOptions with caseSensitive := false }) = .ret x) a.array xs ∧
    getWithOptions exEnv exDoc.render b!"R.*.B" (some { defaultOptions with caseSensitive := false }) = .ret out ∧
    (a.exists? = false → out = .null) ∧ (xs.flatMap Result.array ≠ [] → ∃ things, All2 Is (xs.flatMap Result.array) things ∧ All2 Is out.array things) := by
  have e : getWithOptions exEnv exDoc.render (pathOf [b!"R", b!"*"]) (some { defaultOptions with caseSensitive := false }) = .ret (.ofArray [.ofContent b!"x<b>y</b><!--c-->", .ofContent []]) := by
    decide +kernel
  exact C82_options exEnv exEnv_perm _ _ exDoc_says (dp := false) (qs := [b!"R", b!"*"]) (ps := [b!"B"]) (gs := []) (ns := [.name b!"R"]) (m := .any) (ms := [.name b!"B"]) (g := .elem)
    (.cons (ps := [b!"R"]) (.name (plain_of (by decide))) (.cons (ps := [b!"*"]) .any .nil)) (.cons (ps := [b!"B"]) (.name (plain_of (by decide))) .nil) .elem (by simp [Move.single]) (.inl rfl)
    trivial (by simp [Anywhere, Goal.isField]) ⟨trivial, trivial⟩ trivial ⟨trivial, trivial⟩ (by simp) (by simp) (by simp) _ (by decide) (by simp [Goal.isAttr]) (by
      intro a ha
      rw [e] at ha
      cases ha
      decide)

/-- C82: and this finds the element `b`. -/
theorem C82_options_witness :
    getWithOptions exEnv exDoc.render b!"R.*.B" (some { defaultOptions with caseSensitive := false }) = .ret (.ofContent b!"y") ∧
    getWithOptions exEnv exDoc.render b!"R.*.B" (some { defaultOptions with caseSensitive := true, indent := b!" " }) = .ret .null := by
  refine ⟨?_, ?_⟩ <;> decide +kernel

end Verif.Props
