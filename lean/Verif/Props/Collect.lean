import Verif.Props.Chain
/- A path through `*` or `#(…)#` collects what the rest of the path finds in each of the elements: C82. -/
namespace Verif.Props
open Verif Verif.Spec

/-- The moves that collect: `*` and `#(…)#`. -/
def Gathers (m : Move) : Prop := m = .any ∨ ∃ n p, m = .satAll n p

theorem nodes_elems {m : Move} (h : m.single = true ∨ Gathers m) (root : Bool) (i : Info) : ∀ nd ∈ m.nodes root i, nd ∈ i.elems := by
  have hits : ∀ n, ∀ nd ∈ i.hits root n, nd ∈ i.elems := fun n nd hn => by
    unfold Info.hits at hn
    split at hn
    · exact (List.mem_filter.mp hn).1
    · exact (List.mem_filter.mp hn).1
  have among : ∀ n p, ∀ nd ∈ i.among n p, nd ∈ i.elems := fun n p nd hn => by
    cases n with
    | none => exact (List.mem_filter.mp (List.mem_of_mem_take hn)).1
    | some n => exact (List.mem_filter.mp (List.mem_of_mem_take ((List.mem_filter.mp hn).1))).1
  cases m with
  | name n => exact fun nd hn => (List.mem_filter.mp hn).1
  | nth n j =>
    intro nd hn
    simp only [Move.nodes, Option.mem_toList] at hn
    exact hits n nd (List.mem_of_mem_take (List.mem_of_getElem? hn))
  | sat n p => exact fun nd hn => among n p nd (List.mem_of_mem_take hn)
  | satAll n p => exact among n p
  | any => exact fun nd hn => List.mem_of_mem_take hn
  | deep n => rcases h with h | h | ⟨n, p, h⟩ <;> cases h

/-- The elements that are collected, and what is made of the answers below them. -/
theorem ask_gather {ns ms : List Move} {m : Move} (hs : ∀ x ∈ ns, x.single = true) (hm : Gathers m) (h0 : ms ≠ []) (g : Goal) (root : Bool) (i : Info) :
    ∃ nds : List Node, (∀ nd ∈ nds, nd.kids.descendants.length < i.descendants.length ∧ (i.Quiet → nd.kids.Quiet)) ∧
      (ask (ns ++ [m]) .elem root i).items = nds.map .elem ∧ (nds = [] → ask (ns ++ [m]) .elem root i = .nothing ∧ ask (ns ++ m :: ms) g root i = .nothing) ∧
      (m.join (nds.map fun nd => ask ms g false nd.kids) ≠ .nothing → ask (ns ++ m :: ms) g root i = m.join (nds.map fun nd => ask ms g false nd.kids)) := by
  induction ns generalizing root i with
  | nil =>
    refine ⟨m.nodes root i, fun nd hn => ?_, ?_, fun h => ?_, fun _ => ?_⟩
    · have := nodes_elems (.inr hm) root i nd hn
      exact ⟨descendants_kids i nd this, fun hq => quiet_elems hq nd this⟩
    · simp only [List.nil_append, ask]
      rcases hm with rfl | ⟨n, p, rfl⟩
      · simp only [Move.last, Goal.isField, Goal.items, Bool.false_eq_true, if_false]
        cases h : Move.nodes root i .any with
        | nil => rfl
        | cons a l => cases l <;> simp [pack, Answer.items, List.flatMap_singleton', ← List.map_eq_flatMap]
      · simp only [Move.last, Goal.isField, Bool.false_eq_true, if_false, Goal.listed]
        cases h : Move.nodes root i (.satAll n p) with
        | nil => rfl
        | cons a l => rfl
    · refine ⟨?_, ?_⟩
      · rcases hm with rfl | ⟨n, p, rfl⟩ <;> simp [ask, Move.last, h]
      · rw [List.nil_append, ask_cons h0, h]
        rcases hm with rfl | ⟨n, p, rfl⟩ <;> rfl
    · rw [List.nil_append, ask_cons h0]
  | cons x ns ih =>
    have hx := hs x (by simp)
    have e1 : ∀ T g, T ≠ [] → ask (x :: ns ++ T) g root i = firstAnswer ((x.nodes root i).map fun nd => ask (ns ++ T) g false nd.kids) := fun T g hT => by
      rw [List.cons_append, ask_cons (by simp [hT]), join_single hx]
    rw [e1 [m] _ (by simp), e1 (m :: ms) _ (by simp)]
    have hel := nodes_elems (.inl hx) root i
    generalize x.nodes root i = l at hel
    clear e1
    induction l with
    | nil => exact ⟨[], by simp, rfl, fun _ => ⟨rfl, rfl⟩, fun h => absurd (by rcases hm with rfl | ⟨n, p, rfl⟩ <;> rfl) h⟩
    | cons a l ihl =>
      obtain ⟨nds, k1, k2, k3, k4⟩ := ih (fun x hx => hs x (by simp [hx])) false a.kids
      simp only [List.map_cons]
      by_cases he : nds = []
      · obtain ⟨k5, k6⟩ := k3 he
        rw [k5, k6]
        exact ihl (fun nd hn => hel nd (by simp [hn]))
      · have ha := hel a (by simp)
        have hne : ask (ns ++ [m]) .elem false a.kids ≠ .nothing := by
          intro h
          rw [h] at k2
          cases nds <;> simp [Answer.items] at k2 he
        refine ⟨nds, fun nd hn => ?_, ?_, fun h => absurd h he, fun h => ?_⟩
        · obtain ⟨k5, k6⟩ := k1 nd hn
          exact ⟨Nat.lt_trans k5 (descendants_kids i a ha), fun hq => k6 (quiet_elems hq a ha)⟩
        · rw [← k2]
          exact congrArg Answer.items (firstAnswer_join (l := []) (by simp) hne)
        · rw [k4 h]
          exact firstAnswer_join (l := []) (by simp) h

theorem gives_things {r : Result} {a : Answer} (h : Gives r a) : All2 Is r.array a.items := by
  cases a with
  | nothing => have : r = .null := h; subst this; exact .nil
  | one x =>
    have h : Is r x := h
    have := h.typ
    simp only [Result.array, this.1, this.2, if_false, Answer.items]
    exact .cons h .nil
  | many xs => simp only [Result.array, h.1, if_true, Answer.items]; exact h.2

theorem pack_items (l : List Item) : (pack l).items = l := by
  match l with
  | [] => rfl
  | [x] => rfl
  | x :: y :: l => rfl

theorem gathers_items {m : Move} (hm : Gathers m) (as : List Answer) : (m.join as).items = as.flatMap Answer.items ∧ (as.flatMap Answer.items ≠ [] → m.join as ≠ .nothing) := by
  have e : (m.join as).items = as.flatMap Answer.items := by
    rcases hm with rfl | ⟨n, p, rfl⟩
    · simp only [Move.join]
      split
      · rename_i h
        simp only [Bool.and_eq_true, List.isEmpty_iff] at h
        rw [h.1]; rfl
      · exact pack_items _
    · exact pack_items _
  exact ⟨e, fun h h' => h (by rw [← e, h']; rfl)⟩

/-- C82: a path to elements collected by `*` or `#(…)#`, and the path continued with steps into the content: if these find anything from the elements, one by one, then the continued path
finds just these things, in the order of the elements. -/
theorem C82_collect (env : Env) (ho : env.ord.IsPerm) (xml : Bytes) (i : Info) (h : Says xml i) {dp : Bool} {qs ps gs : List Bytes} {ns ms : List Move} {m : Move} {g : Goal}
    (hq : Spells env.parseFloat dp (.moves qs (ns ++ [m]))) (hs : Spells env.parseFloat dp (.moves ps ms)) (hg : GoalText gs g) (h1 : ∀ x ∈ ns, x.single = true) (hm : Gathers m)
    (hin : StepsIn ms) (ha : Anywhere ms g) (hp : Proper (ns ++ [m])) (hp' : Proper ms) (hp2 : Proper (ns ++ m :: ms)) (hl : (qs ++ ps ++ gs).length ≤ 100) (hd : dp = true → i.descendants.length < 9999) (ht : g = .fieldText → i.Quiet)
    (hx : ∀ a, get env xml (pathOf qs) = .ret a → ∀ r ∈ a.array, r.raw.length + 29 ≤ 10485760) :
    ∃ a xs out, get env xml (pathOf qs) = .ret a ∧ All2 (fun r x => r.get env (pathOf (ps ++ gs)) = .ret x) a.array xs ∧ get env xml (pathOf (qs ++ ps ++ gs)) = .ret out ∧
      (a.exists? = false → out = .null) ∧ (xs.flatMap Result.array ≠ [] → ∃ things, All2 Is (xs.flatMap Result.array) things ∧ All2 Is out.array things) := by
  have h0 : ms ≠ [] := by rintro rfl; exact hin
  have hqn : qs ≠ [] := spells_nonempty hq (by simp)
  have hpn : ps ≠ [] := spells_nonempty hs h0
  have hql : 1 ≤ qs.length := by cases qs <;> simp at hqn ⊢
  obtain ⟨nds, k1, k2, k3, k4⟩ := ask_gather h1 hm h0 g true i
  obtain ⟨a, e1, g1⟩ := C51_get env ho xml i h (gs := []) hq .elem hp (by simpa using hqn) (by simp at hl ⊢; omega) hd (by simp)
  rw [List.append_nil] at e1
  have hqs : Spells env.parseFloat dp (.moves (qs ++ ps) (ns ++ m :: ms)) := by
    have := spells_append hq hs
    rwa [List.append_assoc, List.singleton_append] at this
  obtain ⟨out, e2, g2⟩ := C51_get env ho xml i h hqs hg hp2 (by simp [hqn]) hl hd ht
  have t1 := gives_things g1
  rw [k2] at t1
  have hx := hx a e1
  have key : ∀ (rs : List Result) (nds : List Node), All2 Is rs (nds.map .elem) → (∀ nd ∈ nds, nd.kids.descendants.length < i.descendants.length ∧ (i.Quiet → nd.kids.Quiet)) →
      (∀ r ∈ rs, r.raw.length + 29 ≤ 10485760) → ∃ xs, All2 (fun r x => r.get env (pathOf (ps ++ gs)) = .ret x) rs xs ∧
        All2 Is (xs.flatMap Result.array) ((nds.map fun nd => ask ms g false nd.kids).flatMap Answer.items) := by
    intro rs
    induction rs with
    | nil => intro nds h _ _; cases nds <;> cases h; exact ⟨[], .nil, .nil⟩
    | cons r rs ih =>
      intro nds h hf hr
      cases nds with
      | nil => cases h
      | cons nd nds =>
        cases h with
        | cons ha hb =>
          obtain ⟨xs, i1, i2⟩ := ih nds hb (fun nd hn => hf nd (by simp [hn])) (fun r hr' => hr r (by simp [hr']))
          obtain ⟨f1, f2⟩ := hf nd (by simp)
          obtain ⟨x, e3, g3⟩ := C60_loud env ho r nd ha (hr r (by simp)) hs hg hp' (by simp [hpn]) (by simp at hl ⊢; omega) (fun e => by have := hd e; omega) (fun e => f2 (ht e)) hin ‹_›
          exact ⟨x :: xs, .cons e3 i1, (gives_things g3).append i2⟩
  obtain ⟨xs, i1, i2⟩ := key a.array nds t1 k1 hx
  refine ⟨a, xs, out, e1, i1, e2, fun hne => ?_, fun hne => ⟨_, i2, ?_⟩⟩
  · have : nds = [] := by
      cases nds with
      | nil => rfl
      | cons nd nds =>
        exfalso
        cases hh : a.array with
        | nil => rw [hh] at t1; cases t1
        | cons r l =>
          simp only [Result.exists?] at hne
          simp only [Result.array] at hh
          have : a.typ = .null := by simpa using hne
          rw [if_neg (by simp [this]), if_pos this] at hh
          cases hh
    have := (k3 this).2
    rw [this] at g2
    exact g2
  · have hne' : (nds.map fun nd => ask ms g false nd.kids).flatMap Answer.items ≠ [] := by
      intro e
      rw [e] at i2
      generalize xs.flatMap Result.array = l at i2 hne
      cases i2
      exact hne rfl
    obtain ⟨j1, j2⟩ := gathers_items hm (nds.map fun nd => ask ms g false nd.kids)
    rw [k4 (j2 hne')] at g2
    have := gives_things g2
    rwa [j1] at this

/-- C82: in particular the results have the same types, and unless own text is asked for the same strings. -/
theorem C82_same {rs rs' : List Result} {things : List Item} (h : All2 Is rs things) (h' : All2 Is rs' things) :
    All2 (fun r r' => r.typ = r'.typ ∧ ((∀ nd, .text nd ∉ things) → r.toStr = r'.toStr)) rs rs' := by
  induction things generalizing rs rs' with
  | nil => cases h; cases h'; exact .nil
  | cons x l ih =>
    cases h with
    | cons a b =>
      cases h' with
      | cons a' b' =>
        refine .cons ⟨?_, fun hn => ?_⟩ ((ih b b').imp fun _ _ hh => ⟨hh.1, fun hn => hh.2 fun nd hm => hn nd (by simp [hm])⟩)
        · cases x with
          | elem nd => rw [IsElement.typ a, IsElement.typ a']
          | text nd => rw [IsOwnText.typ a, IsOwnText.typ a']
          | attr v => rw [show _ = _ from a, show _ = _ from a']
          | count n => rw [show _ = _ from a, show _ = _ from a']
        · cases x with
          | elem nd => rw [IsElement.str a, IsElement.str a']
          | text nd => exact absurd (by simp) (hn nd)
          | attr v => rw [show _ = _ from a, show _ = _ from a']
          | count n => rw [show _ = _ from a, show _ = _ from a']

/-- C82: the elements have to find something: if they do not, `Get` looks below the next element that the path before `*` leads to. And a position right after the first name is
looked for differently by `Result.Get` (names with a prefix are not found). -/
theorem C82_witness :
    (∃ a, get exEnv b!"<r><a><x></x></a><a><x><b>1</b></x></a></r>" b!"r.a.*" = .ret a ∧ a.array.length = 1 ∧ (∀ x ∈ a.array, x.get exEnv b!"b" = .ret .null) ∧
      get exEnv b!"<r><a><x></x></a><a><x><b>1</b></x></a></r>" b!"r.a.*.b" = .ret (.ofContent b!"1")) ∧
    (∃ a, get exEnv b!"<r><a><p:b>1</p:b></a></r>" b!"r.*" = .ret a ∧ (∀ x ∈ a.array, x.get exEnv b!"b.0" = .ret .null) ∧
      get exEnv b!"<r><a><p:b>1</p:b></a></r>" b!"r.*.b.0" = .ret (.ofContent b!"1")) := by
  refine ⟨⟨.ofContent [], ?_, ?_, ?_, ?_⟩, ⟨.ofContent b!"<p:b>1</p:b>", ?_, ?_, ?_⟩⟩ <;> decide +kernel

/-- `r.*` and `r.*.b` in the example document. -/
example : ∃ a xs out, get exEnv exDoc.render b!"r.*" = .ret a ∧ All2 (fun r x => r.get exEnv b!"b" = .ret x) a.array xs ∧ get exEnv exDoc.render b!"r.*.b" = .ret out ∧
    (a.exists? = false → out = .null) ∧ (xs.flatMap Result.array ≠ [] → ∃ things, All2 Is (xs.flatMap Result.array) things ∧ All2 Is out.array things) := by
  have e : get exEnv exDoc.render (pathOf [b!"r", b!"*"]) = .ret (.ofArray [.ofContent b!"x<b>y</b><!--c-->", .ofContent []]) := by decide +kernel
  exact C82_collect exEnv exEnv_perm _ _ exDoc_says (dp := false) (qs := [b!"r", b!"*"]) (ps := [b!"b"]) (gs := []) (ns := [.name b!"r"]) (m := .any) (ms := [.name b!"b"]) (g := .elem)
    (.cons (ps := [b!"r"]) (.name (plain_of (by decide))) (.cons (ps := [b!"*"]) .any .nil)) (.cons (ps := [b!"b"]) (.name (plain_of (by decide))) .nil) .elem (by simp [Move.single]) (.inl rfl)
    trivial (by simp [Anywhere, Goal.isField]) ⟨trivial, trivial⟩ trivial ⟨trivial, trivial⟩ (by simp) (by simp) (by simp) (by
      intro a ha
      rw [e] at ha
      cases ha
      decide)

end Verif.Props
