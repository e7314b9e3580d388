import Verif.Lemmas.Filter
import Verif.Lemmas.Grammar
/- When the path parser panics; the two bounded recursions of the model (nested filters, validator rounds) never
run into their bounds. -/
namespace Verif
open Spec

theorem trimFront_suffix (len : Bytes → Nat) (s : Bytes) : trimFront len s <:+ s := by
  fun_induction trimFront len s with
  | case1 s h ih => exact List.IsSuffix.trans ih (List.drop_suffix _ _)
  | case2 => exact List.suffix_refl _

theorem trimSpace_mem {c : UInt8} {s : Bytes} (h : c ∈ trimSpace s) : c ∈ s := by
  unfold trimSpace at h
  have h1 := (trimFront_suffix spaceLenRev _).subset (List.mem_reverse.mp h)
  exact (trimFront_suffix spaceLen s).subset (List.mem_reverse.mp h1)

theorem trimSpace_le (s : Bytes) : (trimSpace s).length ≤ s.length := by
  unfold trimSpace
  have h1 := (trimFront_suffix spaceLenRev (trimFront spaceLen s).reverse).length_le
  have h2 := (trimFront_suffix spaceLen s).length_le
  simp only [List.length_reverse] at *
  omega

theorem splitPathAux_bytes (b : Bool) (s : Bytes) :
    (∀ c ∈ (splitPathAux b s).1, c ∈ s) ∧ (∀ p ∈ (splitPathAux b s).2, ∀ c ∈ p, c ∈ s) ∧
    (splitPathAux b s).1.length ≤ s.length ∧ ∀ p ∈ (splitPathAux b s).2, p.length ≤ s.length := by
  induction s generalizing b with
  | nil => simp [splitPathAux]
  | cons c cs ih =>
    have h1 := ih true
    have h2 := ih false
    simp only [splitPathAux]
    repeat' split
    all_goals simp only [List.mem_cons, List.length_cons, List.not_mem_nil]
    all_goals grind

theorem splitPath_bytes {s p : Bytes} (h : p ∈ splitPath s) : (∀ c ∈ p, c ∈ s) ∧ p.length ≤ s.length := by
  unfold splitPath at h
  split at h
  · simp at h
  · have := splitPathAux_bytes false s
    rcases List.mem_cons.mp h with rfl | h
    · exact ⟨this.1, this.2.2.1⟩
    · exact ⟨this.2.1 p h, this.2.2.2 p h⟩

theorem splitOn_head (sep : UInt8) (s : Bytes) : ∃ p ps, splitOn sep s = p :: ps ∧ p <+: s := by
  induction s with
  | nil => exact ⟨[], [], rfl, List.prefix_refl _⟩
  | cons c cs ih =>
    obtain ⟨p, ps, h1, h2⟩ := ih
    simp only [splitOn]
    split
    · exact ⟨[], _, rfl, List.nil_prefix⟩
    · rw [h1]; exact ⟨c :: p, ps, rfl, by simpa using h2⟩

theorem parseModifiers_prefix (p : Bytes) : (parseModifiers p).1 <+: p := by
  obtain ⟨q, qs, h1, h2⟩ := splitOn_head c!"|" p
  unfold parseModifiers
  rw [h1]; exact h2

/-! ### panics -/

theorem stripQuotes_panic (v : Bytes) : stripQuotes v = .panic ↔ v = b!"'" ∨ v = b!"\"" := by
  unfold stripQuotes
  constructor
  · intro h
    split at h
    · rename_i hq
      split at h
      · rename_i hl
        match v with
        | [] => simp [hasPrefix] at hq
        | [c] =>
          simp [hasPrefix] at hq
          grind
        | _ :: _ :: _ => simp at hl; omega
      · simp at h
    · simp at h
  · rintro (rfl | rfl) <;> decide

/-- The condition text leads to the panic. -/
theorem parseFilterCondition_panic {e : Bytes} (h : parseFilterCondition e = .panic) :
    containsAny e b!"=!<>%" = true ∧ ∃ i n op, findOp (trimSpace e) = some (i, n, op) ∧
      (trimSpace ((trimSpace e).drop (i + n)) = b!"'" ∨ trimSpace ((trimSpace e).drop (i + n)) = b!"\"") := by
  unfold parseFilterCondition at h
  simp only at h
  repeat' split at h
  all_goals try (simp at h; done)
  rename_i hc _ i n op ho _ _ _ _ hs
  refine ⟨?_, i, n, op, ho, (stripQuotes_panic _).mp hs⟩
  simp only [containsAny, Bool.not_eq_true, Bool.not_eq_false', List.any_eq_true] at hc ⊢
  obtain ⟨c, h1, h2⟩ := hc
  exact ⟨c, trimSpace_mem h1, h2⟩

theorem findOp2_text {e : Bytes} {i : Nat} {op : FilterOp} (h : findOp2 e = some (i, op)) :
    op ≠ .ex ∧ (opText op).length = 2 ∧ e = e.take i ++ opText op ++ e.drop (i + 2) := by
  fun_induction findOp2 e generalizing i with
  | case6 c d r h1 h2 h3 h4 h5 ih =>
    simp only [Option.map_eq_some_iff] at h
    obtain ⟨⟨j, o⟩, hj, he⟩ := h
    simp only [Prod.mk.injEq] at he
    obtain ⟨rfl, rfl⟩ := he
    obtain ⟨g1, g2, g3⟩ := ih hj
    refine ⟨g1, g2, ?_⟩
    rw [show j + 1 + 2 = (j + 2) + 1 by omega, List.take_succ_cons, List.drop_succ_cons, List.cons_append, List.cons_append, ← g3]
  | case7 => simp at h
  | _ =>
    simp only [Option.some.injEq, Prod.mk.injEq] at h
    obtain ⟨rfl, rfl⟩ := h
    simp_all [opText]

theorem findOp1_text {e : Bytes} {i : Nat} {op : FilterOp} (h : findOp1 e = some (i, op)) :
    op ≠ .ex ∧ (opText op).length = 1 ∧ e = e.take i ++ opText op ++ e.drop (i + 1) := by
  induction e generalizing i with
  | nil => simp [findOp1] at h
  | cons c r ih =>
    simp only [findOp1] at h
    repeat' split at h
    all_goals first
      | (simp only [Option.map_eq_some_iff] at h
         obtain ⟨⟨j, o⟩, hj, he⟩ := h
         simp only [Prod.mk.injEq] at he
         obtain ⟨rfl, rfl⟩ := he
         obtain ⟨g1, g2, g3⟩ := ih hj
         refine ⟨g1, g2, ?_⟩
         rw [List.take_succ_cons, List.drop_succ_cons, List.cons_append, List.cons_append, ← g3])
      | (simp only [Option.some.injEq, Prod.mk.injEq] at h
         obtain ⟨rfl, rfl⟩ := h
         simp_all [opText])

theorem findOp_split {e : Bytes} {i n : Nat} {op : FilterOp} (h : findOp e = some (i, n, op)) :
    op ≠ .ex ∧ e = e.take i ++ opText op ++ e.drop (i + n) := by
  unfold findOp at h
  split at h
  · rename_i h2
    simp only [Option.some.injEq, Prod.mk.injEq] at h
    obtain ⟨rfl, rfl, rfl⟩ := h
    exact ⟨(findOp2_text h2).1, (findOp2_text h2).2.2⟩
  · split at h
    · rename_i h1
      simp only [Option.some.injEq, Prod.mk.injEq] at h
      obtain ⟨rfl, rfl, rfl⟩ := h
      exact ⟨(findOp1_text h1).1, (findOp1_text h1).2.2⟩
    · simp at h

theorem filterPart_split {p : Bytes} (h : hasPrefix p b!"#(" = true) {k : Nat} {z : Bytes} (hz : z.length = k) (hs : hasSuffix p z = true)
    (hk : ¬ p.length - k ≤ 2) : p = b!"#(" ++ (p.take (p.length - k)).drop 2 ++ z := by
  obtain ⟨a, rfl⟩ := List.isPrefixOf_iff_prefix.mp h
  obtain ⟨t, ht⟩ := List.isSuffixOf_iff_suffix.mp hs
  have hl : (b!"#(" ++ a).length - k = t.length := by rw [← ht]; simp [hz]
  rw [hl] at hk ⊢
  rw [← ht, List.take_left']
  · match t, hk with
    | x :: y :: w, _ =>
      simp only [List.cons_append, List.nil_append, List.cons.injEq] at ht
      simp [ht.1, ht.2.1]
  · rfl

theorem parseFilterPart_panic {p : Bytes} {mods : List Bytes} (hp : hasPrefix p b!"#(" = true) (h : parseFilterPart p mods = .panic) :
    ∃ e z, parseFilterCondition e = .panic ∧ p = b!"#(" ++ e ++ b!")" ++ z := by
  unfold parseFilterPart at h
  simp only at h
  repeat' split at h
  all_goals try (simp at h; done)
  · rename_i hs hk _ hc
    exact ⟨_, b!"#", hc, by simpa using filterPart_split hp (z := b!")#") rfl hs hk⟩
  · rename_i hs hk _ hc
    exact ⟨_, [], hc, by simpa using filterPart_split hp (z := b!")") rfl hs hk⟩

theorem parsePart_panic {p : Bytes} (h : parsePart p = .panic) :
    ∃ e z, parseFilterCondition e = .panic ∧ p = b!"#(" ++ e ++ b!")" ++ z := by
  unfold parsePart at h
  simp only at h
  split at h
  · simp at h
  · split at h
    · rename_i hp
      obtain ⟨e, z, h1, h2⟩ := parseFilterPart_panic hp h
      obtain ⟨t, ht⟩ := parseModifiers_prefix p
      exact ⟨e, z ++ t, h1, by rw [← List.append_assoc, ← h2, ht]⟩
    · repeat' split at h
      all_goals simp at h

theorem parseParts_panic {ps : List Bytes} : parseParts ps = .panic ↔
    ∃ pre p post, ps = pre ++ p :: post ∧ parsePart p = .panic ∧ ∀ q ∈ pre, parsePart q = .skip ∨ ∃ s, parsePart q = .seg s := by
  induction ps with
  | nil => simp [parseParts]
  | cons p ps ih =>
    constructor
    · intro h
      unfold parseParts at h
      split at h
      · rename_i hp; exact ⟨[], p, ps, rfl, hp, by simp⟩
      · simp at h
      · rename_i hp
        obtain ⟨pre, q, post, rfl, h2, h3⟩ := ih.mp h
        exact ⟨p :: pre, q, post, rfl, h2, by simp only [List.mem_cons, forall_eq_or_imp]; exact ⟨.inl hp, h3⟩⟩
      · rename_i s hp
        split at h
        · rename_i hr
          obtain ⟨pre, q, post, rfl, h2, h3⟩ := ih.mp hr
          exact ⟨p :: pre, q, post, rfl, h2, by simp only [List.mem_cons, forall_eq_or_imp]; exact ⟨.inr ⟨s, hp⟩, h3⟩⟩
        · simp at h
        · simp at h
    · rintro ⟨pre, q, post, h1, h2, h3⟩
      unfold parseParts
      cases pre with
      | nil =>
        simp only [List.nil_append, List.cons.injEq] at h1
        rw [h1.1, h2]
      | cons a pre =>
        simp only [List.cons_append, List.cons.injEq] at h1
        obtain ⟨rfl, h1⟩ := h1
        have hr := ih.mpr ⟨pre, q, post, h1, h2, fun x hx => h3 x (List.mem_cons_of_mem _ hx)⟩
        rcases h3 p (by simp) with h | ⟨s, h⟩
        · rw [h]; exact hr
        · rw [h]; simp only; rw [hr]

theorem parsePath_panic {path : Bytes} : parsePath path = .panic ↔ (splitPath path).length ≤ 100 ∧ parseParts (splitPath path) = .panic := by
  unfold parsePath parsePathInternal
  cases path with
  | nil => simp [splitPath, parseParts]
  | cons c cs =>
    simp only [List.isEmpty_cons, Bool.false_eq_true, if_false]
    by_cases h : (splitPath (c :: cs)).length > maxPathSegments
    · rw [if_pos h]
      simp only [maxPathSegments] at h
      constructor
      · intro h'; simp at h'
      · intro h'; omega
    · rw [if_neg h]
      simp only [maxPathSegments] at h
      cases hp : parseParts (splitPath (c :: cs)) with
      | panic => simp; omega
      | err => simp
      | ok ss => simp

/-! ### filters inside filter paths -/

/-- The path of a parsed condition holds no operator character and is not longer than the condition. -/
theorem parseFilterCondition_path {e : Bytes} {f : Filter} (h : parseFilterCondition e = .ok f) :
    containsAny f.path b!"=!<>%" = false ∧ f.path.length ≤ e.length := by
  unfold parseFilterCondition at h
  simp only at h
  repeat' split at h
  all_goals try (simp at h; done)
  · rename_i _ _ _ hc
    simp only [Parse.ok.injEq] at h; subst h
    simp only [Bool.not_eq_true'] at hc
    exact ⟨hc, trimSpace_le e⟩
  · rename_i i n op _ _ _ hc _ _ _ _
    simp only [Parse.ok.injEq] at h; subst h
    simp only [Bool.not_eq_true] at hc
    refine ⟨hc, ?_⟩
    have h1 := trimSpace_le ((trimSpace e).take i)
    have h2 := trimSpace_le e
    simp only [List.length_take] at h1 ⊢
    omega

theorem containsAny_sub {s t set : Bytes} (h : ∀ c ∈ s, c ∈ t) (ht : containsAny t set = false) : containsAny s set = false := by
  simp only [containsAny, List.any_eq_false] at *
  exact fun c hc => ht c (h c hc)

theorem parsePath_no_op {path : Bytes} (h : containsAny path b!"=!<>%" = false) : parsePath path ≠ .panic := by
  intro hp
  obtain ⟨-, hp⟩ := parsePath_panic.mp hp
  obtain ⟨pre, p, post, h1, h2, -⟩ := parseParts_panic.mp hp
  obtain ⟨e, z, h3, h4⟩ := parsePart_panic h2
  have hm : p ∈ splitPath path := by rw [h1]; simp
  have := containsAny_sub (s := e) (fun c hc => (splitPath_bytes hm).1 c (by rw [h4]; simp [hc])) h
  rw [(parseFilterCondition_panic h3).1] at this
  simp at this

/-- The path inside a filter is parsed without a panic. -/
theorem filter_path_safe {e : Bytes} {f : Filter} (h : parseFilterCondition e = .ok f) : parsePath f.path ≠ .panic :=
  parsePath_no_op (parseFilterCondition_path h).1

theorem parsePart_filter_inv {p : Bytes} {f : Filter} {all : Bool} {mods : List Bytes} (h : parsePart p = .seg ⟨.filter f all, mods⟩) :
    f.path.length < p.length ∧ containsAny f.path b!"=!<>%" = false := by
  unfold parsePart at h
  simp only at h
  split at h
  · simp at h
  · split at h
    · rename_i hp
      obtain ⟨t, ht⟩ := parseModifiers_prefix p
      have hl : (parseModifiers p).1.length ≤ p.length := (parseModifiers_prefix p).length_le
      generalize (parseModifiers p).1 = q at *
      unfold parseFilterPart at h
      simp only at h
      repeat' split at h
      all_goals try (simp at h; done)
      all_goals
        rename_i hc
        simp only [PartRes.seg.injEq, Seg.mk.injEq, SegKind.filter.injEq] at h
        obtain ⟨⟨rfl, -⟩, -⟩ := h
        obtain ⟨g1, g2⟩ := parseFilterCondition_path hc
        simp only [List.length_drop, List.length_take] at g2
        exact ⟨by omega, g1⟩
    · repeat' split at h
      all_goals simp at h

theorem parseParts_filter_inv {ps : List Bytes} {ss : List Seg} (h : parseParts ps = .ok ss) {f : Filter} {all : Bool} {mods : List Bytes}
    (hm : (⟨.filter f all, mods⟩ : Seg) ∈ ss) : ∃ p ∈ ps, parsePart p = .seg ⟨.filter f all, mods⟩ := by
  induction ps generalizing ss with
  | nil => simp [parseParts] at h; subst h; simp at hm
  | cons p ps ih =>
    unfold parseParts at h
    split at h
    · simp at h
    · simp at h
    · obtain ⟨q, h1, h2⟩ := ih h hm
      exact ⟨q, by simp [h1], h2⟩
    · rename_i s hp
      split at h
      · simp at h
      · simp at h
      · rename_i ss' hr
        simp only [Parse.ok.injEq] at h; subst h
        rcases List.mem_cons.mp hm with rfl | hm
        · exact ⟨p, by simp, hp⟩
        · obtain ⟨q, h1, h2⟩ := ih hr hm
          exact ⟨q, by simp [h1], h2⟩

theorem fuseFields_filter {ss : List Seg} {f : Filter} {all : Bool} {mods : List Bytes}
    (hm : (⟨.filter f all, mods⟩ : Seg) ∈ fuseFields ss) : (⟨.filter f all, mods⟩ : Seg) ∈ ss := by
  fun_induction fuseFields ss <;> grind

/-- A filter of a parsed path has a shorter path, without operator characters. -/
theorem parsePath_filter {path : Bytes} {ss : List Seg} (h : parsePath path = .ok ss) {f : Filter} {all : Bool} {mods : List Bytes}
    (hm : (⟨.filter f all, mods⟩ : Seg) ∈ ss) : f.path.length < path.length ∧ containsAny f.path b!"=!<>%" = false := by
  unfold parsePath parsePathInternal at h
  repeat' split at h
  all_goals try (simp at h; done)
  rename_i hp
  simp only [Parse.ok.injEq] at h; subst h
  obtain ⟨p, h1, h2⟩ := parseParts_filter_inv hp (fuseFields_filter hm)
  have := splitPath_bytes h1
  have := parsePart_filter_inv h2
  exact ⟨by omega, this.2⟩

theorem execElem_ev (env : Env) (ev ev' : Filter → Elem → Bool) (cur : Seg) (rest : List Seg) (k1 k2 : Bytes → Result) (xml : Bytes)
    (h : ∀ f all mods, (⟨.filter f all, mods⟩ : Seg) ∈ rest → ev f = ev' f) : execElem env ev cur rest k1 k2 xml = execElem env ev' cur rest k1 k2 xml := by
  unfold execElem
  cases rest with
  | nil => rfl
  | cons nxt rest2 =>
    obtain ⟨kind, mods⟩ := nxt
    cases kind <;> simp only
    rename_i f all
    rw [h f all mods (by simp)]

theorem execBody_ev (env : Env) (ev ev' : Filter → Elem → Bool) (root : Bool) (cur : Seg) (rest : List Seg) (k1 k2 : Bytes → Result) (xml : Bytes)
    (h : ∀ f all mods, (⟨.filter f all, mods⟩ : Seg) ∈ cur :: rest → ev f = ev' f) :
    execBody env ev root cur rest k1 k2 xml = execBody env ev' root cur rest k1 k2 xml := by
  obtain ⟨kind, mods⟩ := cur
  unfold execBody
  cases kind with
  | elem v => simp only; rw [execElem_ev env ev ev' _ rest k1 k2 xml (fun f all mods hm => h f all mods (by simp [hm]))]
  | filter f all => simp only; rw [h f all mods (by simp)]
  | wild r => cases r <;> rfl
  | _ => rfl

theorem execQ_ev (env : Env) (ev ev' : Filter → Elem → Bool) (ss : List Seg) (root : Bool) (xml : Bytes)
    (h : ∀ f all mods, (⟨.filter f all, mods⟩ : Seg) ∈ ss → ev f = ev' f) : execQ env ev ss root xml = execQ env ev' ss root xml := by
  match ss with
  | [] => simp only [execQ]
  | [cur] => simp only [execQ]; exact execBody_ev env ev ev' _ _ [] _ _ _ h
  | cur :: nxt :: rest =>
    rw [execQ, execQ, execBody_ev env ev ev' _ _ _ _ _ _ h]
    congr 1
    · funext x; exact execQ_ev env ev ev' (nxt :: rest) false x (fun f all mods hm => h f all mods (List.mem_cons_of_mem _ hm))
    · funext x; exact execQ_ev env ev ev' rest false x (fun f all mods hm => h f all mods (List.mem_cons_of_mem _ (List.mem_cons_of_mem _ hm)))

/-- The bound on nested filters is never reached: any number above the length of the path gives the same answer. -/
theorem evalFilterN_stable (env : Env) (n : Nat) : ∀ (m : Nat) (f : Filter), f.path.length < n → f.path.length < m →
    evalFilterN env n f = evalFilterN env m f := by
  induction n with
  | zero => intro m f h; omega
  | succ n ih =>
    intro m f hn hm
    cases m with
    | zero => omega
    | succ m =>
      funext e
      unfold evalFilterN
      cases hp : parsePath f.path with
      | panic => rfl
      | err => rfl
      | ok ss =>
        simp only
        rw [execQ_ev env (evalFilterN env n) (evalFilterN env m) ss true e.content]
        intro g all mods hg
        have := (parsePath_filter hp hg).1
        exact ih m g (by omega) (by omega)

/-! ### rounds of the validator -/

/-- The bound on the rounds is never reached: any number above the length of the rest gives the same verdict and position. -/
theorem validateLoop_fuel (n : Nat) : ∀ (m : Nat) (st : VState) (s : List Bytes) (b : Bool), st.pure = vst s b st.pos.rest →
    st.pos.rest.length < n → st.pos.rest.length < m → validateLoop n st = validateLoop m st := by
  induction n with
  | zero => intro m st s b _ h; omega
  | succ n ih =>
    intro m st s b hst hn hm
    cases m with
    | zero => omega
    | succ m =>
      unfold validateLoop
      simp only
      have hl := skipWs_length st.pos.rest
      rw [← skipWsT_rest] at hl
      cases hs : st.pos.skipWsT.rest with
      | nil => rfl
      | cons c cs =>
        rw [hs] at hl
        simp only
        cases hc : stepT c { st with pos := st.pos.skipWsT } with
        | error e => rfl
        | ok st2 =>
          simp only
          have hp := stepT_pure c cs { st with pos := st.pos.skipWsT } hs
          rw [hc] at hp
          have e1 : VState.pure { st with pos := st.pos.skipWsT } = vst s b (c :: cs) := by
            rw [← hs]
            have : st.pure = vst s b st.pos.rest := hst
            simp only [VState.pure, vst, RSt.mk.injEq] at this ⊢
            exact ⟨trivial, this.2⟩
          rw [e1] at hp
          simp only [Except.toOption, Option.map_some] at hp
          obtain ⟨s', b', r', h1, h2⟩ := stepR_inv hp.symm
          have hr : st2.pos.rest = r' := by have := congrArg RSt.rest h1; exact this
          have hlt := h2.nonempty
          exact ih m st2 s' b' (by rw [h1, hr]) (by rw [hr]; omega) (by rw [hr]; omega)

/-- The validator with any larger number of rounds is the validator. -/
theorem validate_rounds (xml : Bytes) (k : Nat) (hk : xml.length < k) (h1 : xml.length ≤ 10485760) (h2 : xml ≠ []) :
    validate xml = validateLoop k ⟨⟨xml, 1, 0⟩, [], false, false⟩ := by
  unfold validate
  rw [if_neg (by simp only [maxDocumentSize]; omega), if_neg (by simpa using h2)]
  exact validateLoop_fuel _ _ _ [] false rfl (by simp) hk

/-! ### the paths that panic -/

theorem stripQuotes_lone {t : Bytes} (h : t = b!"'" ∨ t = b!"\"") : stripQuotes t = .panic := (stripQuotes_panic t).mpr h

theorem parseFilterCondition_lone {p t : Bytes} {op : FilterOp} (hp : FilterPathText p) (hop : op ≠ .ex) (ht : t = b!"'" ∨ t = b!"\"")
    (hl : (p ++ opText op ++ t).length ≤ 256) : parseFilterCondition (p ++ opText op ++ t) = .panic := by
  have hm : maxFilterExpressionLength = 256 := rfl
  have hpe := fpt_ends hp
  have hne : t ≠ [] := by rcases ht with rfl | rfl <;> simp
  have hmem : ∀ c ∈ t, c = c!"'" ∨ c = c!"\"" := by rcases ht with rfl | rfl <;> simp
  have hve : (∀ c, t.head? = some c → 0x21 ≤ c ∧ c ≤ 0x7F) ∧ (∀ c, t.getLast? = some c → 0x21 ≤ c ∧ c ≤ 0x7F) := by
    rcases ht with rfl | rfl <;> simp <;> decide
  obtain ⟨x, xs, rfl⟩ := List.exists_cons_of_ne_nil hp.1
  have htrim : trimSpace (x :: xs ++ opText op ++ t) = x :: xs ++ opText op ++ t := by
    apply trimSpace_ends
    · intro c hc; exact hpe.1 c (by simpa using hc)
    · intro c hc
      rw [List.getLast?_append] at hc
      obtain ⟨z, hz⟩ : ∃ z, t.getLast? = some z := ⟨_, List.getLast?_eq_some_getLast hne⟩
      rw [hz] at hc
      simp at hc
      subst hc
      exact hve.2 _ hz
  have hzero : (x :: xs ++ opText op ++ t).contains 0 = false := by
    rw [List.contains_eq_mem, decide_eq_false_iff_not]
    intro h0
    rw [List.mem_append, List.mem_append] at h0
    rcases h0 with (h0 | h0) | h0
    · exact absurd (hp.2 0 h0).1 (by decide)
    · revert h0; cases op <;> simp [opText]
    · rcases hmem 0 h0 with h0 | h0 <;> simp at h0
  have hops : containsAny (x :: xs ++ opText op ++ t) b!"=!<>%" = true := by
    simp only [containsAny, List.any_append, Bool.or_eq_true]
    left; right
    cases op <;> first | exact absurd rfl hop | decide
  have hfind := findOp_text (fpt_opFree hp) op hop t hne (by
    intro _
    constructor <;> (intro hc; rcases hmem _ hc with hc | hc <;> simp at hc))
  unfold parseFilterCondition
  rw [if_neg (by omega), if_neg (by rw [hzero]; simp)]
  simp only [htrim]
  rw [if_neg (by simp), if_neg (by rw [hops]; simp), hfind]
  simp only
  have e1 : (x :: xs ++ opText op ++ t).take (x :: xs).length = x :: xs := by
    rw [List.append_assoc, List.take_left']; rfl
  have e2 : (x :: xs ++ opText op ++ t).drop ((x :: xs).length + (opText op).length) = t := by
    rw [← List.length_append, List.drop_left']; rfl
  rw [e1, e2, trimSpace_ends hpe.1 hpe.2, trimSpace_ends hve.1 hve.2]
  rw [if_neg, if_neg, if_neg, stripQuotes_lone ht]
  · rw [containsAny_false]
    · simp
    · intro c hc; have := (fpt_opFree hp) c hc; simp [this]
  · cases t <;> simp_all
  · rw [containsAny_false]
    · simp
    · intro c hc
      have := (hp.2 c hc).1
      simp only [List.mem_cons, List.not_mem_nil, or_false, not_or]
      refine ⟨?_, ?_, ?_, ?_⟩ <;> (rintro rfl; exact absurd this (by decide))

theorem parsePart_filter_panic {expr : Bytes} (all : Bool) (hb : c!"|" ∉ expr) (hne : expr ≠ []) (h : parseFilterCondition expr = .panic) :
    parsePart (filterPart expr all) = .panic := by
  unfold parsePart
  have hbar : c!"|" ∉ filterPart expr all := by unfold filterPart; cases all <;> simp [hb]
  have hlen : 0 < expr.length := List.length_pos_iff.mpr hne
  simp only [parseModifiers_plain _ hbar]
  rw [if_neg (by simp [filterPart]), if_pos (by simp [filterPart, hasPrefix, List.isPrefixOf])]
  unfold parseFilterPart filterPart
  cases all with
  | true =>
    have e : ((b!"#(" ++ expr ++ b!")#").take ((b!"#(" ++ expr ++ b!")#").length - 2)).drop 2 = expr := by
      rw [List.take_left' (by simp)]; rfl
    simp only [if_true]
    have hs1 : hasSuffix (b!"#(" ++ expr ++ b!")#") b!")#" = true := by
      unfold hasSuffix; rw [List.isSuffixOf_iff_suffix]; exact ⟨b!"#(" ++ expr, rfl⟩
    rw [if_pos hs1, if_neg (by simp; omega), e, h]
  | false =>
    have e : ((b!"#(" ++ expr ++ b!")").take ((b!"#(" ++ expr ++ b!")").length - 1)).drop 2 = expr := by
      rw [List.take_left' (by simp)]; rfl
    simp only [Bool.false_eq_true, if_false]
    have hs1 : hasSuffix (b!"#(" ++ expr ++ b!")") b!")" = true := by
      unfold hasSuffix; rw [List.isSuffixOf_iff_suffix]; exact ⟨b!"#(" ++ expr, rfl⟩
    have hs2 : ¬ hasSuffix (b!"#(" ++ expr ++ b!")") b!")#" = true := by
      unfold hasSuffix; rw [List.isSuffixOf_iff_suffix]; rintro ⟨w, hw⟩
      have := congrArg List.getLast? hw
      rw [List.getLast?_append, List.getLast?_append] at this
      simp at this
    rw [if_neg hs2, if_pos hs1, if_neg (by simp; omega), e, h]

theorem fpt_bar {p t : Bytes} {op : FilterOp} (hp : FilterPathText p) (ht : t = b!"'" ∨ t = b!"\"") : c!"|" ∉ p ++ opText op ++ t := by
  intro h
  rw [List.mem_append, List.mem_append] at h
  rcases h with (h | h) | h
  · exact (hp.2 _ h).2.2.2.2.2.2.2 rfl
  · revert h; cases op <;> simp [opText]
  · rcases ht with rfl | rfl <;> simp at h

/-- A part that panics makes the path panic, if the parts before it are names. -/
theorem parsePath_lone {names : List Bytes} {part : Bytes} {more : List Bytes} (hn : ∀ n ∈ names, PlainName n) (hp : parsePart part = .panic)
    (hl : names.length + 1 + more.length ≤ 100) : parsePath (pathOf (names ++ part :: more)) = .panic := by
  have hne : part ≠ [] := by rintro rfl; simp [parsePart] at hp
  have hs : splitPath (pathOf (names ++ part :: more)) = names ++ part :: more := by
    apply splitPath_pathOf
    intro h
    cases names with
    | nil => simp at h; exact hne h.1
    | cons n ns => simp at h
  rw [parsePath_panic, hs]
  refine ⟨by simp; omega, parseParts_panic.mpr ⟨names, part, more, rfl, hp, fun q hq => .inr ⟨_, parsePart_plain q (hn q hq)⟩⟩⟩

end Verif
