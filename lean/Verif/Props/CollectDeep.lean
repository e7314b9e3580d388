import Verif.Props.CollectBy
/- C82 for `**`, without and with options. -/
namespace Verif.Props
open Verif Verif.Spec

theorem fill_single {α β : Type} (f : α → β) (k : Nat) (l : List α) : fill k (l.map fun x => [f x]) = (l.take k).map f := by
  induction l generalizing k with
  | nil => simp [fill_nil]
  | cons x l ih =>
    cases k with
    | zero => rfl
    | succ k => simp only [List.map_cons, fill, List.length_singleton, List.take_succ_cons, List.singleton_append]; rw [show k + 1 - 1 = k from rfl, ih]

theorem fill_all {α : Type} (k : Nat) (L : List (List α)) (h : L.flatten.length ≤ k) : fill k L = L.flatten := by
  induction L generalizing k with
  | nil => simp [fill_nil]
  | cons l L ih =>
    simp only [List.flatten_cons, List.length_append] at h
    cases k with
    | zero =>
      have : l ++ L.flatten = [] := by apply List.eq_nil_of_length_eq_zero; rw [List.length_append]; omega
      rw [List.flatten_cons, this]; rfl
    | succ k => rw [fill, ih _ (by omega), List.flatten_cons]

theorem within_bounds (d : Nat) (i : Info) : ∀ nd ∈ i.within d, nd.kids.descendants.length < i.descendants.length ∧ (i.Quiet → nd.kids.Quiet) := by
  induction d generalizing i with
  | zero => rw [within_zero]; intro nd h; cases h
  | succ d ih =>
    intro nd h
    rw [within_elems] at h
    obtain ⟨e, he, h⟩ := List.mem_flatMap.mp h
    have h1 := descendants_kids i e he
    have h2 := fun hq => quiet_elems (i := i) hq e he
    rcases List.mem_append.mp h with h | h
    · obtain ⟨k1, k2⟩ := ih e.kids nd h
      exact ⟨Nat.lt_trans k1 h1, fun hq => k2 (h2 hq)⟩
    · rw [List.mem_singleton] at h
      subst h
      exact ⟨h1, h2⟩

theorem deep_bounds (n : Option Bytes) (root : Bool) (i : Info) : ∀ nd ∈ (Move.deep n).nodes root i, nd.kids.descendants.length < i.descendants.length ∧ (i.Quiet → nd.kids.Quiet) := by
  intro nd h
  cases n with
  | none => exact within_bounds 101 i nd h
  | some n => exact within_bounds 101 i nd (List.mem_filter.mp h).1

theorem ask_deep {ns ms : List Move} {n : Option Bytes} (hs : ∀ x ∈ ns, x.single = true) (h0 : ms ≠ []) (g : Goal) (root : Bool) (i : Info) :
    ∃ nds : List Node, (∀ nd ∈ nds, nd.kids.descendants.length < i.descendants.length ∧ (i.Quiet → nd.kids.Quiet)) ∧
      (ask (ns ++ [.deep n]) .elem root i).items = (nds.take 1000).map .elem ∧ (nds = [] → ask (ns ++ [.deep n]) .elem root i = .nothing ∧ ask (ns ++ .deep n :: ms) g root i = .nothing) ∧
      (fill 1000 (nds.map fun nd => (ask ms g false nd.kids).items) ≠ [] → ask (ns ++ .deep n :: ms) g root i = pack (fill 1000 (nds.map fun nd => (ask ms g false nd.kids).items))) := by
  induction ns generalizing root i with
  | nil =>
    have e : ((Move.deep n).nodes root i).map (fun nd => (ask ms g false nd.kids).items) = (((Move.deep n).nodes root i).map fun nd => ask ms g false nd.kids).map Answer.items := by simp
    refine ⟨(Move.deep n).nodes root i, deep_bounds n root i, ?_, fun h => ?_, fun _ => ?_⟩
    · simp only [List.nil_append, ask, Move.last, Goal.items, List.take_succ_cons, List.take_nil]
      rw [fill_single, pack_items]
    · refine ⟨?_, ?_⟩
      · simp [ask, Move.last, h, fill_nil, pack]
      · rw [List.nil_append, ask_cons h0, h]; rfl
    · rw [List.nil_append, ask_cons h0, e]; rfl
  | cons x ns ih =>
    have hx := hs x (by simp)
    have e1 : ∀ T g, T ≠ [] → ask (x :: ns ++ T) g root i = firstAnswer ((x.nodes root i).map fun nd => ask (ns ++ T) g false nd.kids) := fun T g hT => by
      rw [List.cons_append, ask_cons (by simp [hT]), join_single hx]
    rw [e1 [.deep n] _ (by simp), e1 (.deep n :: ms) _ (by simp)]
    have hel := nodes_elems (.inl hx) root i
    generalize x.nodes root i = l at hel
    clear e1
    induction l with
    | nil => exact ⟨[], by simp, rfl, fun _ => ⟨rfl, rfl⟩, fun h => absurd (fill_nil _) h⟩
    | cons a l ihl =>
      obtain ⟨nds, k1, k2, k3, k4⟩ := ih (fun x hx => hs x (by simp [hx])) false a.kids
      simp only [List.map_cons]
      by_cases he : nds = []
      · obtain ⟨k5, k6⟩ := k3 he
        rw [k5, k6]
        exact ihl (fun nd hn => hel nd (by simp [hn]))
      · have ha := hel a (by simp)
        have hne : ask (ns ++ [.deep n]) .elem false a.kids ≠ .nothing := by
          intro h
          rw [h] at k2
          cases nds <;> simp [Answer.items] at k2 he
        refine ⟨nds, fun nd hn => ?_, ?_, fun h => absurd h he, fun h => ?_⟩
        · obtain ⟨k5, k6⟩ := k1 nd hn
          exact ⟨Nat.lt_trans k5 (descendants_kids i a ha), fun hq => k6 (quiet_elems hq a ha)⟩
        · rw [← k2]
          exact congrArg Answer.items (firstAnswer_join (l := []) (by simp) hne)
        · rw [k4 h]
          refine firstAnswer_join (l := []) (by simp) ?_
          intro hh
          have := congrArg Answer.items hh
          rw [pack_items] at this
          exact h this

/-- C82: the same for `**` with a name (or `*`) behind it, as long as there are fewer than 1000 such elements and no more than 1000 results. -/
theorem C82_deep (env : Env) (ho : env.ord.IsPerm) (xml : Bytes) (i : Info) (h : Says xml i) {dp : Bool} {qs ps gs : List Bytes} {ns ms : List Move} {n : Option Bytes} {g : Goal}
    (hq : Spells env.parseFloat dp (.moves qs (ns ++ [.deep n]))) (hs : Spells env.parseFloat dp (.moves ps ms)) (hg : GoalText gs g) (h1 : ∀ x ∈ ns, x.single = true)
    (hin : StepsIn ms) (ha : Anywhere ms g) (hp : Proper (ns ++ [.deep n])) (hp' : Proper ms) (hp2 : Proper (ns ++ .deep n :: ms)) (hl : (qs ++ ps ++ gs).length ≤ 100) (hd : dp = true → i.descendants.length < 9999) (ht : g = .fieldText → i.Quiet)
    (hx : ∀ a, get env xml (pathOf qs) = .ret a → a.array.length < 1000 ∧ ∀ r ∈ a.array, r.raw.length + 29 ≤ 10485760) :
    ∃ a xs out, get env xml (pathOf qs) = .ret a ∧ All2 (fun r x => r.get env (pathOf (ps ++ gs)) = .ret x) a.array xs ∧ get env xml (pathOf (qs ++ ps ++ gs)) = .ret out ∧
      (a.exists? = false → out = .null) ∧
      (xs.flatMap Result.array ≠ [] → (xs.flatMap Result.array).length ≤ 1000 → ∃ things, All2 Is (xs.flatMap Result.array) things ∧ All2 Is out.array things) := by
  have h0 : ms ≠ [] := by rintro rfl; exact hin
  have hqn : qs ≠ [] := spells_nonempty hq (by simp)
  have hpn : ps ≠ [] := spells_nonempty hs h0
  have hql : 1 ≤ qs.length := by cases qs <;> simp at hqn ⊢
  obtain ⟨nds, k1, k2, k3, k4⟩ := ask_deep (n := n) h1 h0 g true i
  obtain ⟨a, e1, g1⟩ := C51_get env ho xml i h (gs := []) hq .elem hp (by simpa using hqn) (by simp at hl ⊢; omega) hd (by simp)
  rw [List.append_nil] at e1
  have hqs : Spells env.parseFloat dp (.moves (qs ++ ps) (ns ++ .deep n :: ms)) := by
    have := spells_append hq hs
    rwa [List.append_assoc, List.singleton_append] at this
  obtain ⟨out, e2, g2⟩ := C51_get env ho xml i h hqs hg hp2 (by simp [hqn]) hl hd ht
  have t1 := gives_things g1
  rw [k2] at t1
  obtain ⟨hx0, hx⟩ := hx a e1
  have hcut : nds.take 1000 = nds := by
    have hlen := t1.length
    simp only [List.length_map, List.length_take] at hlen
    exact List.take_of_length_le (by omega)
  rw [hcut] at t1
  have key : ∀ (rs : List Result) (nds : List Node), All2 Is rs (nds.map .elem) → (∀ nd ∈ nds, nd.kids.descendants.length < i.descendants.length ∧ (i.Quiet → nd.kids.Quiet)) →
      (∀ r ∈ rs, r.raw.length + 29 ≤ 10485760) → ∃ xs, All2 (fun r x => r.get env (pathOf (ps ++ gs)) = .ret x) rs xs ∧
        All2 Is (xs.flatMap Result.array) ((nds.map fun nd => (ask ms g false nd.kids).items).flatten) := by
    intro rs
    induction rs with
    | nil => intro nds h _ _; cases nds <;> cases h; exact ⟨[], .nil, .nil⟩
    | cons r rs ih =>
      intro nds h hf hr
      cases nds with
      | nil => cases h
      | cons nd nds =>
        cases h with
        | cons ha hb =>
          obtain ⟨xs, i1, i2⟩ := ih nds hb (fun nd hn => hf nd (by simp [hn])) (fun r hr' => hr r (by simp [hr']))
          obtain ⟨f1, f2⟩ := hf nd (by simp)
          obtain ⟨x, e3, g3⟩ := C60_loud env ho r nd ha (hr r (by simp)) hs hg hp' (by simp [hpn]) (by simp at hl ⊢; omega) (fun e => by have := hd e; omega) (fun e => f2 (ht e)) hin ‹_›
          exact ⟨x :: xs, .cons e3 i1, (gives_things g3).append i2⟩
  obtain ⟨xs, i1, i2⟩ := key a.array nds t1 k1 hx
  refine ⟨a, xs, out, e1, i1, e2, fun hne => ?_, fun hne hle => ⟨_, i2, ?_⟩⟩
  · have : nds = [] := by
      cases nds with
      | nil => rfl
      | cons nd nds =>
        exfalso
        cases hh : a.array with
        | nil => rw [hh] at t1; cases t1
        | cons r l =>
          simp only [Result.exists?] at hne
          simp only [Result.array] at hh
          have : a.typ = .null := by simpa using hne
          rw [if_neg (by simp [this]), if_pos this] at hh
          cases hh
    have := (k3 this).2
    rw [this] at g2
    exact g2
  · have hfl := fill_all 1000 (nds.map fun nd => (ask ms g false nd.kids).items) (by rw [← i2.length]; exact hle)
    have hne' : fill 1000 (nds.map fun nd => (ask ms g false nd.kids).items) ≠ [] := by
      rw [hfl]
      intro e
      rw [e] at i2
      generalize xs.flatMap Result.array = l at i2 hne
      cases i2
      exact hne rfl
    rw [k4 hne'] at g2
    have := gives_things g2
    rwa [pack_items, hfl] at this

theorem within_under (d : Nat) (i : Info) : ∀ nd ∈ i.within d, Under i nd.kids := by
  induction d generalizing i with
  | zero => rw [within_zero]; intro nd h; cases h
  | succ d ih =>
    intro nd h
    rw [within_elems] at h
    obtain ⟨e, he, h⟩ := List.mem_flatMap.mp h
    rcases List.mem_append.mp h with h | h
    · exact (under_elems he).trans (ih e.kids nd h)
    · rw [List.mem_singleton] at h
      subst h
      exact under_elems he

theorem deepBy_under (cs : Bool) (n : Option Bytes) (root : Bool) (i : Info) : ∀ nd ∈ (Move.deep n).nodesBy cs root i, Under i nd.kids := by
  intro nd h
  cases n with
  | none => exact within_under 101 i nd h
  | some n => exact within_under 101 i nd (List.mem_filter.mp h).1

theorem askBy_deep (cs : Bool) {ns ms : List Move} {n : Option Bytes} (hs : ∀ x ∈ ns, x.single = true) (h0 : ms ≠ []) (g : Goal) (root : Bool) (i : Info) :
    ∃ nds : List Node, (∀ nd ∈ nds, Under i nd.kids) ∧
      (askBy cs (ns ++ [.deep n]) .elem root i).items = (nds.take 1000).map .elem ∧ (nds = [] → askBy cs (ns ++ [.deep n]) .elem root i = .nothing ∧ askBy cs (ns ++ .deep n :: ms) g root i = .nothing) ∧
      (fill 1000 (nds.map fun nd => (askBy cs ms g false nd.kids).items) ≠ [] → askBy cs (ns ++ .deep n :: ms) g root i = pack (fill 1000 (nds.map fun nd => (askBy cs ms g false nd.kids).items))) := by
  induction ns generalizing root i with
  | nil =>
    have e : ((Move.deep n).nodesBy cs root i).map (fun nd => (askBy cs ms g false nd.kids).items) = (((Move.deep n).nodesBy cs root i).map fun nd => askBy cs ms g false nd.kids).map Answer.items := by simp
    refine ⟨(Move.deep n).nodesBy cs root i, deepBy_under cs n root i, ?_, fun h => ?_, fun _ => ?_⟩
    · simp only [List.nil_append, askBy, Move.lastBy, Goal.isField, Goal.itemsBy, Bool.false_eq_true, if_false]
      rw [fill_single, pack_items]
    · refine ⟨?_, ?_⟩
      · simp [askBy, Move.lastBy, h, fill_nil, pack, Goal.isField]
      · rw [List.nil_append, askBy_cons cs h0, h]; rfl
    · rw [List.nil_append, askBy_cons cs h0, e]; rfl
  | cons x ns ih =>
    have hx := hs x (by simp)
    have e1 : ∀ T g, T ≠ [] → askBy cs (x :: ns ++ T) g root i = firstAnswer ((x.nodesBy cs root i).map fun nd => askBy cs (ns ++ T) g false nd.kids) := fun T g hT => by
      rw [List.cons_append, askBy_cons cs (by simp [hT]), joinBy_single hx]
    rw [e1 [.deep n] _ (by simp), e1 (.deep n :: ms) _ (by simp)]
    have hel := nodesBy_elems cs (.inl hx) root i
    generalize x.nodesBy cs root i = l at hel
    clear e1
    induction l with
    | nil => exact ⟨[], by simp, rfl, fun _ => ⟨rfl, rfl⟩, fun h => absurd (fill_nil _) h⟩
    | cons a l ihl =>
      obtain ⟨nds, k1, k2, k3, k4⟩ := ih (fun x hx => hs x (by simp [hx])) false a.kids
      simp only [List.map_cons]
      by_cases he : nds = []
      · obtain ⟨k5, k6⟩ := k3 he
        rw [k5, k6]
        exact ihl (fun nd hn => hel nd (by simp [hn]))
      · have ha := hel a (by simp)
        have hne : askBy cs (ns ++ [.deep n]) .elem false a.kids ≠ .nothing := by
          intro h
          rw [h] at k2
          cases nds <;> simp [Answer.items] at k2 he
        refine ⟨nds, fun nd hn => (under_elems ha).trans (k1 nd hn), ?_, fun h => absurd h he, fun h => ?_⟩
        · rw [← k2]
          exact congrArg Answer.items (firstAnswer_join (l := []) (by simp) hne)
        · rw [k4 h]
          refine firstAnswer_join (l := []) (by simp) ?_
          intro hh
          have := congrArg Answer.items hh
          rw [pack_items] at this
          exact h this

/-- C82: `**` with options. -/
theorem C82_deep_options (env : Env) (ho : env.ord.IsPerm) (xml : Bytes) (i : Info) (h : Says xml i) {dp : Bool} {qs ps gs : List Bytes} {ns ms : List Move} {n : Option Bytes} {g : Goal}
    (hq : Spells env.parseFloat dp (.moves qs (ns ++ [.deep n]))) (hs : Spells env.parseFloat dp (.moves ps ms)) (hg : GoalText gs g) (h1 : ∀ x ∈ ns, x.single = true)
    (hin : StepsIn ms) (ha : Anywhere ms g) (hp : Proper (ns ++ [.deep n])) (hp' : Proper ms) (hp2 : Proper (ns ++ .deep n :: ms)) (hl : (qs ++ ps ++ gs).length ≤ 100) (hd : dp = true → i.descendants.length < 9999) (ht : g = .fieldText → i.Quiet)
    (opts : Options) (hopts : opts ≠ defaultOptions) (hu : g.isAttr = true → opts.caseSensitive = false → i.CaseUnique)
    (hx : ∀ a, getWithOptions env xml (pathOf qs) (some opts) = .ret a → a.array.length < 1000 ∧ ∀ r ∈ a.array, r.raw.length + 29 ≤ 10485760) :
    ∃ a xs out, getWithOptions env xml (pathOf qs) (some opts) = .ret a ∧ All2 (fun r x => r.getWithOptions env (pathOf (ps ++ gs)) (some opts) = .ret x) a.array xs ∧ getWithOptions env xml (pathOf (qs ++ ps ++ gs)) (some opts) = .ret out ∧
      (a.exists? = false → out = .null) ∧
      (xs.flatMap Result.array ≠ [] → (xs.flatMap Result.array).length ≤ 1000 → ∃ things, All2 Is (xs.flatMap Result.array) things ∧ All2 Is out.array things) := by
  have h0 : ms ≠ [] := by rintro rfl; exact hin
  have hqn : qs ≠ [] := spells_nonempty hq (by simp)
  have hpn : ps ≠ [] := spells_nonempty hs h0
  have hql : 1 ≤ qs.length := by cases qs <;> simp at hqn ⊢
  obtain ⟨nds, k1, k2, k3, k4⟩ := askBy_deep (n := n) opts.caseSensitive h1 h0 g true i
  obtain ⟨a, e1, g1⟩ := C55_get env ho xml i h (gs := []) hq .elem hp (by simpa using hqn) (by simp at hl ⊢; omega) hd (by simp) opts hopts (by simp [Goal.isAttr])
  rw [List.append_nil] at e1
  have hqs : Spells env.parseFloat dp (.moves (qs ++ ps) (ns ++ .deep n :: ms)) := by
    have := spells_append hq hs
    rwa [List.append_assoc, List.singleton_append] at this
  obtain ⟨out, e2, g2⟩ := C55_get env ho xml i h hqs hg hp2 (by simp [hqn]) hl hd ht opts hopts (fun e => hu e.1 e.2)
  have t1 := gives_things g1
  rw [k2] at t1
  obtain ⟨hx0, hx⟩ := hx a e1
  have hcut : nds.take 1000 = nds := by
    have hlen := t1.length
    simp only [List.length_map, List.length_take] at hlen
    exact List.take_of_length_le (by omega)
  rw [hcut] at t1
  have key : ∀ (rs : List Result) (nds : List Node), All2 Is rs (nds.map .elem) → (∀ nd ∈ nds, Under i nd.kids) →
      (∀ r ∈ rs, r.raw.length + 29 ≤ 10485760) → ∃ xs, All2 (fun r x => r.getWithOptions env (pathOf (ps ++ gs)) (some opts) = .ret x) rs xs ∧
        All2 Is (xs.flatMap Result.array) ((nds.map fun nd => (askBy opts.caseSensitive ms g false nd.kids).items).flatten) := by
    intro rs
    induction rs with
    | nil => intro nds h _ _; cases nds <;> cases h; exact ⟨[], .nil, .nil⟩
    | cons r rs ih =>
      intro nds h hf hr
      cases nds with
      | nil => cases h
      | cons nd nds =>
        cases h with
        | cons ha hb =>
          obtain ⟨xs, i1, i2⟩ := ih nds hb (fun nd hn => hf nd (by simp [hn])) (fun r hr' => hr r (by simp [hr']))
          obtain ⟨f1, f2, f3⟩ := hf nd (by simp)
          obtain ⟨x, e3, g3⟩ := C60_loud_options env ho r nd ha (hr r (by simp)) hs hg hp' (by simp [hpn]) (by simp at hl ⊢; omega) opts hopts (fun e => by have := hd e; omega) (fun e => f2 (ht e)) (fun e e' => f3 (hu e e')) hin ‹_›
          exact ⟨x :: xs, .cons e3 i1, (gives_things g3).append i2⟩
  obtain ⟨xs, i1, i2⟩ := key a.array nds t1 k1 hx
  refine ⟨a, xs, out, e1, i1, e2, fun hne => ?_, fun hne hle => ⟨_, i2, ?_⟩⟩
  · have : nds = [] := by
      cases nds with
      | nil => rfl
      | cons nd nds =>
        exfalso
        cases hh : a.array with
        | nil => rw [hh] at t1; cases t1
        | cons r l =>
          simp only [Result.exists?] at hne
          simp only [Result.array] at hh
          have : a.typ = .null := by simpa using hne
          rw [if_neg (by simp [this]), if_pos this] at hh
          cases hh
    have := (k3 this).2
    rw [this] at g2
    exact g2
  · have hfl := fill_all 1000 (nds.map fun nd => (askBy opts.caseSensitive ms g false nd.kids).items) (by rw [← i2.length]; exact hle)
    have hne' : fill 1000 (nds.map fun nd => (askBy opts.caseSensitive ms g false nd.kids).items) ≠ [] := by
      rw [hfl]
      intro e
      rw [e] at i2
      generalize xs.flatMap Result.array = l at i2 hne
      cases i2
      exact hne rfl
    rw [k4 hne'] at g2
    have := gives_things g2
    rwa [pack_items, hfl] at this

/-- `**.a` and `**.a.b` in the example document. -/
example : ∃ a xs out, get exEnv exDoc.render b!"**.a" = .ret a ∧ All2 (fun r x => r.get exEnv b!"b" = .ret x) a.array xs ∧ get exEnv exDoc.render b!"**.a.b" = .ret out ∧
    (a.exists? = false → out = .null) ∧
    (xs.flatMap Result.array ≠ [] → (xs.flatMap Result.array).length ≤ 1000 → ∃ things, All2 Is (xs.flatMap Result.array) things ∧ All2 Is out.array things) := by
  have e : get exEnv exDoc.render (pathOf [b!"**", b!"a"]) = .ret (.ofArray [.ofContent b!"x<b>y</b><!--c-->", .ofContent []]) := by decide +kernel
  exact C82_deep exEnv exEnv_perm _ _ exDoc_says (dp := true) (qs := [b!"**", b!"a"]) (ps := [b!"b"]) (gs := []) (ns := []) (n := some b!"a") (ms := [.name b!"b"]) (g := .elem)
    (exDeep_spells _) (.cons (ps := [b!"b"]) (.name (plain_of (by decide))) .nil) .elem (by simp)
    trivial (by simp [Anywhere, Goal.isField]) trivial trivial trivial (by simp) (fun _ => by decide +kernel) (by simp) (by
      intro a ha
      rw [e] at ha
      cases ha
      decide)

/-- What the three calls give on a document with nested matches: these come before the element around them and are all collected. -/
theorem C82_deep_witness :
    get exEnv b!"<r><a><a><b>1</b></a><b>2</b></a><c><a><b>3</b></a></c></r>" b!"**.a.b" = .ret (.ofArray [.ofContent b!"1", .ofContent b!"2", .ofContent b!"3"]) ∧
    get exEnv b!"<r><a><a><b>1</b></a><b>2</b></a><c><a><b>3</b></a></c></r>" b!"**.a" =
      .ret (.ofArray [.ofContent b!"<b>1</b>", .ofContent b!"<a><b>1</b></a><b>2</b>", .ofContent b!"<b>3</b>"]) ∧
    (Result.ofContent b!"<a><b>1</b></a><b>2</b>").get exEnv b!"b" = .ret (.ofContent b!"2") := by decide +kernel

end Verif.Props
