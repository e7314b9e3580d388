import Verif.Lemmas.Condition
/- Filter and field extraction steps at one level. -/
namespace Verif
open Spec

theorem pathOf_not_at {pre : List Bytes} {n : Bytes} (hp : ∀ m ∈ pre ++ [n], PlainName m) : hasPrefix (pathOf (pre ++ [n])) b!"@" = false := by
  obtain ⟨m, ms, hm⟩ := List.exists_cons_of_ne_nil (l := pre ++ [n]) (by simp)
  rw [hm]
  have h := hp m (by rw [hm]; simp)
  obtain ⟨c, cs, rfl⟩ := List.exists_cons_of_ne_nil h.nonempty
  have hc : c!"@" ≠ c := by
    intro e; have := h.noAt; rw [← e] at this; simp at this
  have : ∃ d ds, pathOf ((c :: cs) :: ms) = d :: ds ∧ (d = c!"\\" ∨ d = c) := by
    unfold pathOf
    cases ms with
    | nil =>
      simp only [List.map_cons, List.map_nil, joinDots, escapeName]
      split
      · exact ⟨_, _, rfl, .inl rfl⟩
      · exact ⟨_, _, rfl, .inr rfl⟩
    | cons m' ms =>
      simp only [List.map_cons, joinDots, escapeName]
      split
      · exact ⟨_, _, rfl, .inl rfl⟩
      · exact ⟨_, _, rfl, .inr rfl⟩
  obtain ⟨d, ds, e, hd⟩ := this
  rw [e]
  rcases hd with rfl | rfl
  · simp [hasPrefix, List.isPrefixOf]
  · simp [hasPrefix, List.isPrefixOf, hc]

/-- A filter holds of a match exactly if the condition holds of what is tested. -/
theorem evalFilter_iff (env : Env) (ho : env.ord.IsPerm) (f : Filter) {e : Elem} {nd : Node} (hr : Rep e nd) {actual : Option Bytes}
    (ht : Tested f.path nd actual) : evalFilter env f e = true ↔ Holds env.parseFloat f.op f.value actual := by
  unfold evalFilter evalFilterN
  simp only
  rw [compareFilter_iff]
  obtain ⟨p, op, v⟩ := f
  simp only at ht ⊢
  cases ht with
  | attr a nd =>
    rw [if_pos (by simp [hasPrefix, List.isPrefixOf]), List.drop_one, List.tail_cons, hr.attr]
  | path pre n nd hp hl =>
    rw [if_neg (by rw [pathOf_not_at hp]; simp)]
    have hpp := parsePath_names (pre ++ [n]) [] hp (by simp) (by simp; omega) [] rfl
    rw [List.append_nil] at hpp
    rw [hpp]
    have e1 : (pre ++ [n]).map nameSeg ++ fuseFields [] = pre.map nameSeg ++ nameSeg n :: [] := by simp [fuseFields]
    have hy := exec_path env ho (evalFilterN env (pathOf (pre ++ [n])).length) pre (nameSeg n) [] rfl (writes_reads ho hr.content)
      (fun c k hc => step_elem env _ n _ hc)
    rw [← List.head?_flatMap] at hy
    simp only [e1]
    change Yields IsElementW _ ((nd.kids.select pre n).head?) at hy
    cases hsel : (nd.kids.select pre n).head? with
    | none =>
      rw [hsel] at hy
      simp only [Yields] at hy
      rw [hy]; simp [Result.exists?]
    | some w =>
      rw [hsel] at hy
      obtain ⟨h1, h2⟩ := hy
      rw [if_pos (by simp [Result.exists?, h1]), h2.str]; rfl

/-- The filtered matches below `n` at one level. -/
theorem filtered_rep {o : Ord} {n c : Bytes} {k : Info} (h : Reads o c k) {ev : Elem → Bool} {sat : Node → Bool}
    (hs : ∀ e nd, Rep e nd → ev e = sat nd) :
    All2 Rep (((namedE o n c).take maxWildcardResults).filter ev) (((k.named n).take 1000).filter sat) :=
  ((namedE_rep h).take maxWildcardResults).filter hs

theorem step_filter_first (env : Env) (ev : Filter → Elem → Bool) (n : Bytes) (f : Filter) (root : Bool) {c : Bytes} {k : Info}
    (h : Reads env.ord c k) {sat : Node → Bool} (hs : ∀ e nd, Rep e nd → ev f e = sat nd) :
    Yields IsElementW (execQ env ev [nameSeg n, ⟨.filter f false, []⟩] root c) ((((k.named n).take 1000).filter sat).head?) := by
  have hr := filtered_rep (n := n) h hs
  rw [execQ]
  simp only [execBody, nameSeg, isFragmentQuery, SegKind.isRootOp, Bool.and_false, Bool.false_eq_true, if_false, execElem]
  rw [namedE_filter]
  generalize ((namedE env.ord n c).take maxWildcardResults).filter (ev f) = es, ((k.named n).take 1000).filter sat = ns at hr ⊢
  cases hr with
  | nil => exact rfl
  | cons hab _ =>
    simp only [routeFilter, Bool.false_eq_true, if_false, processFirst, runMods_nil, List.head?_cons]
    exact ⟨by simp, ofContent_is hab.content⟩

theorem step_filter_all (env : Env) (ev : Filter → Elem → Bool) (n : Bytes) (f : Filter) (root : Bool) {c : Bytes} {k : Info}
    (h : Reads env.ord c k) {sat : Node → Bool} (hs : ∀ e nd, Rep e nd → ev f e = sat nd) :
    Yields (IsArrayOf IsElementW) (execQ env ev [nameSeg n, ⟨.filter f true, []⟩] root c)
      (if (((k.named n).take 1000).filter sat).isEmpty then none else some (((k.named n).take 1000).filter sat)) := by
  have hr := filtered_rep (n := n) h hs
  rw [execQ]
  simp only [execBody, nameSeg, isFragmentQuery, SegKind.isRootOp, Bool.and_false, Bool.false_eq_true, if_false, execElem]
  rw [namedE_filter]
  generalize ((namedE env.ord n c).take maxWildcardResults).filter (ev f) = es, ((k.named n).take 1000).filter sat = ns at hr ⊢
  cases hr with
  | nil => exact rfl
  | @cons a b as bs hab hs =>
    simp only [routeFilter, if_true, processAll, runMods_nil, List.isEmpty_cons, Bool.false_eq_true, if_false]
    refine ⟨by simp, rfl, ?_⟩
    have := All2.map (S := IsElementW) (f := fun m : Elem => Result.ofContent m.content) (g := id) (All2.cons hab hs)
      (fun a b hab => ofContent_is hab.content)
    simpa using this

/-! ### field extraction -/

theorem mods_array (env : Env) (rs : List Result) :
    (if rs.isEmpty then Result.ofArray [] else applyModifiers env.mods (.ofArray rs) []) = .ofArray rs := by
  cases rs with
  | nil => rfl
  | cons r rs => simp [runMods_nil]

/-- Field extraction when the values of every match are described by `vals`. -/
theorem fieldExtraction_is {α : Type} {Q : Result → α → Prop} (env : Env) (field : Bytes) (hne : field ≠ [])
    {es : List Elem} {nds : List Node} (h : All2 Rep es nds) {vals : Node → List α}
    (hv : ∀ e nd, Rep e nd → nd ∈ nds → All2 Q (fieldValues env.ord field e) (vals nd)) :
    IsArrayOf Q (fieldExtraction env es field []) ((nds.flatMap vals).take 1000) ∧ (fieldExtraction env es field []).typ ≠ .null := by
  unfold fieldExtraction
  rw [if_neg (by simpa using hne)]
  simp only
  rw [mods_array]
  exact ⟨⟨rfl, ((h.with (fun b hb => hb)).flatMap (fun a b hab => hv a b hab.1 hab.2)).take _⟩, by simp⟩

theorem step_field {α : Type} {Q : Result → α → Prop} (env : Env) (ev : Filter → Elem → Bool) (n field : Bytes) (hne : field ≠ []) (root : Bool) {c : Bytes} {k : Info}
    (h : Reads env.ord c k) {vals : Node → List α} (hv : ∀ e nd, Rep e nd → nd ∈ k.elems → All2 Q (fieldValues env.ord field e) (vals nd)) :
    Yields (IsArrayOf Q) (execQ env ev [nameSeg n, ⟨.field field, []⟩] root c)
      (if root && (k.hits root n).isEmpty then none else some ((((k.hits root n).take 1000).flatMap vals).take 1000)) := by
  rw [execQ]
  cases root with
  | false =>
    simp only [execBody, nameSeg, isFragmentQuery, Bool.false_and, Bool.false_eq_true, if_false, execElem]
    rw [namedE_filter]
    have := fieldExtraction_is (Q := Q) env field hne ((namedE_rep (n := n) h).take maxWildcardResults)
      (fun e nd hr hm => hv e nd hr (List.mem_filter.mp (List.mem_of_mem_take hm)).1)
    exact ⟨this.2, this.1⟩
  | true =>
    simp only [execBody, nameSeg, isFragmentQuery, SegKind.isRootOp, Bool.and_self, if_true, Bool.true_and]
    have hr := (All2.filter (p := fun e => decide (e.name = n)) (q := fun e => decide (e.name = n)) h
      (fun _ _ hr => by simp only [hr.name])).take maxWildcardResults
    simp only [Info.hits, if_true]
    unfold fragmentRoots
    have := fieldExtraction_is (Q := Q) env field hne hr (fun e nd hr hm => hv e nd hr (List.mem_filter.mp (List.mem_of_mem_take hm)).1)
    cases hl : k.elems.filter (fun e => decide (e.name = n)) with
    | nil =>
      rw [hl] at hr
      generalize ((topElems env.ord c).filter (fun e => decide (e.name = n))).take maxWildcardResults = R at hr
      cases hr; exact rfl
    | cons a l =>
      rw [hl] at this hr
      generalize ((topElems env.ord c).filter (fun e => decide (e.name = n))).take maxWildcardResults = R at hr this ⊢
      have hR : R ≠ [] := by
        intro e; subst e
        have := hr.length
        simp [maxWild] at this
      rw [if_neg (by simpa using hR)]
      simp only [List.isEmpty_cons, Bool.false_eq_true, if_false]
      exact ⟨this.2, this.1⟩

theorem writes_direct_raw {content : Bytes} {i : Info} (h : Writes content i) (hg : i.Quiet) :
    extractDirectTextOnly content = trimSpace i.ownText := by
  obtain ⟨g, hc, hl, ht, rfl, rfl⟩ := h
  have hq := directText_draft hc hl ht hg none 0 (by omega)
  simp only [if_true] at hq
  rw [extractDirectTextOnly, hq]

theorem fieldValues_text (o : Ord) : ∀ e nd, Rep e nd → nd.kids.Quiet →
    All2 (fun r v => r.typ = .string ∧ r.toStr = v) (fieldValues o b!"%" e) nd.ownTexts := by
  intro e nd hr hg
  unfold fieldValues
  rw [if_neg (by simp [hasPrefix, List.isPrefixOf]), if_pos rfl]
  simp only [writes_direct_raw hr.content hg, Node.ownTexts]
  by_cases h : trimSpace nd.kids.ownText = []
  · rw [if_pos (by simpa using h), if_pos h]; exact .nil
  · rw [if_neg (by simpa using h), if_neg h]; exact .cons ⟨rfl, by rw [Result.toStr_ne _ (by simp [Result.typ]) (by simp [Result.typ])]; rfl⟩ .nil

theorem quiet_elems {i : Info} (h : i.Quiet) : ∀ nd ∈ i.elems, nd.kids.Quiet := by
  induction i with
  | nil => intro nd hn; simp [Info.elems] at hn
  | text b next ih => exact fun nd hn => ih h.2 nd hn
  | misc m next ih => exact fun nd hn => ih h.2 nd hn
  | elem n a k next _ ih =>
    intro nd hn
    simp only [Info.elems, List.mem_cons] at hn
    rcases hn with rfl | hn
    · exact h.1
    · exact ih h.2 nd hn

theorem quiet_reach {i : Info} (h : i.Quiet) (pre : List Bytes) : ∀ k ∈ i.reach pre, k.Quiet := by
  induction pre generalizing i with
  | nil => intro k hk; simp [Info.reach] at hk; subst hk; exact h
  | cons n ns ih =>
    intro k hk
    simp only [Info.reach, List.mem_flatMap] at hk
    obtain ⟨e, he, hk⟩ := hk
    exact ih (quiet_elems h e (List.mem_filter.mp he).1) k hk

/-! ### reading the parts -/

theorem identifier_ok {f : Bytes} (h : Identifier f) : isValidIdentifier f = true := by
  obtain ⟨c, cs, rfl, h1, h2⟩ := h
  simp only [isValidIdentifier, isAlpha, isDigit, Bool.and_eq_true, Bool.or_eq_true, decide_eq_true_eq, List.all_eq_true]
  refine ⟨?_, fun x hx => ?_⟩
  · rcases h1 with (h | h) | h
    · exact .inl (.inr h)
    · exact .inl (.inl h)
    · exact .inr h
  · rcases h2 x hx with (h | h) | h | h | h | h <;> simp [h]

theorem identifier_plain {f : Bytes} (h : Identifier f) : PlainName f := by
  obtain ⟨c, cs, rfl, h1, h2⟩ := h
  have hc : c ≠ c!"@" ∧ c ≠ c!"#" ∧ c ≠ c!"%" ∧ c ≠ c!"*" ∧ c ≠ c!"|" ∧ c ≠ c!"-" ∧ ¬ (48 ≤ c ∧ c ≤ 57) := by
    simp only [UInt8.le_iff_toNat_le, ← UInt8.toNat_inj, ne_eq] at h1 ⊢
    simp only [UInt8.toNat_ofNat] at h1 ⊢
    omega
  have hb : ∀ x : UInt8, (((65 ≤ x ∧ x ≤ 90) ∨ (97 ≤ x ∧ x ≤ 122)) ∨ (48 ≤ x ∧ x ≤ 57) ∨ x = c!"-" ∨ x = c!"_" ∨ x = c!":") → x ≠ c!"|" := by
    rintro x h rfl; revert h; decide
  refine ⟨by simp, ?_, by simp [hc], by simp [hc], by simp [hc], by simp [hc], by simp [hc], c, by simp, ?_⟩
  · simp only [List.mem_cons, not_or]
    exact ⟨Ne.symm hc.2.2.2.2.1, fun hm => hb _ (h2 _ hm) rfl⟩
  · rintro (h | h)
    · exact hc.2.2.2.2.2.2 h
    · exact hc.2.2.2.2.2.1 h.1

theorem parseParts_field_name {f : Bytes} (h : Identifier f) (hl : f.length ≤ 256) :
    ∃ ss, parseParts [b!"#", f] = .ok ss ∧ fuseFields ss = [⟨.field f, []⟩] := by
  refine ⟨[⟨.count, []⟩, nameSeg f], ?_, ?_⟩
  · rw [parseParts, show parsePart b!"#" = .seg ⟨.count, []⟩ by decide]
    simp only [parseParts, parsePart_plain f (identifier_plain h)]; rfl
  · have hm : maxFieldNameLength = 256 := rfl
    have hv : isValidFieldName f = true := by
      have := identifier_ok h
      have hp := identifier_plain h
      unfold isValidFieldName
      cases f with
      | nil => exact absurd rfl hp.nonempty
      | cons c cs =>
        simp only
        rw [if_neg hp.notPct, if_neg (by have := hp.noAt; simpa using this)]; exact this
    simp only [fuseFields, nameSeg, fieldOf, hv, Bool.true_and, if_true]
    rw [if_pos (by simpa using (by omega : f.length ≤ maxFieldNameLength))]

theorem parseParts_field_attr {a : Bytes} (h : Identifier a) (hl : a.length < 256) :
    ∃ ss, parseParts [b!"#", c!"@" :: a] = .ok ss ∧ fuseFields ss = [⟨.field (c!"@" :: a), []⟩] := by
  refine ⟨[⟨.count, []⟩, ⟨.attr a, []⟩], ?_, ?_⟩
  · have h2 : parsePart (c!"@" :: a) = .seg ⟨.attr a, []⟩ := by
      unfold parsePart
      rw [parseModifiers_plain _ (by simp [(identifier_plain h).noBar])]
      simp [hasPrefix, List.isPrefixOf]
    rw [parseParts, show parsePart b!"#" = .seg ⟨.count, []⟩ by decide]
    simp only [parseParts, h2]
  · have hm : maxFieldNameLength = 256 := rfl
    have hv : isValidFieldName (c!"@" :: a) = true := by
      unfold isValidFieldName
      simp only
      rw [if_neg (by simp), if_pos trivial, if_neg (by simpa using (identifier_plain h).nonempty)]
      exact identifier_ok h
    simp only [fuseFields, fieldOf, if_true]
    simp only [hv, Bool.true_and]
    rw [if_pos (by simp; omega)]

theorem parseParts_field_text : ∃ ss, parseParts [b!"#", b!"%"] = .ok ss ∧ fuseFields ss = [⟨.field b!"%", []⟩] :=
  ⟨[⟨.count, []⟩, ⟨.text, []⟩], by decide, by decide⟩

theorem parsePart_cond {expr p v : Bytes} {op : FilterOp} (h : CondText expr p op v) (all : Bool) :
    parsePart (filterPart expr all) = .seg ⟨.filter ⟨p, op, v⟩ all, []⟩ :=
  parsePart_filter all h.1 (condition_ne h.2) (condition_iff.mpr h.2)

theorem testable_tested {p : Bytes} (h : Testable p) (nd : Node) : ∃ actual, Tested p nd actual := by
  rcases h with ⟨a, rfl⟩ | ⟨pre, n, hp, hl, rfl⟩
  · exact ⟨_, .attr a nd⟩
  · exact ⟨_, .path pre n nd hp hl⟩

theorem evalFilter_sat (env : Env) (ho : env.ord.IsPerm) {p v : Bytes} {op : FilterOp} (ht : Testable p) {sat : Node → Bool}
    (hs : ∀ nd, sat nd = true ↔ Satisfies env.parseFloat p op v nd) : ∀ e nd, Rep e nd → evalFilter env ⟨p, op, v⟩ e = sat nd := by
  intro e nd hr
  rw [Bool.eq_iff_iff, hs]
  constructor
  · intro h
    obtain ⟨actual, ha⟩ := testable_tested ht nd
    exact ⟨actual, ha, (evalFilter_iff env ho ⟨p, op, v⟩ hr ha).mp h⟩
  · rintro ⟨actual, ha, h⟩
    exact (evalFilter_iff env ho ⟨p, op, v⟩ hr ha).mpr h

theorem fieldValues_attr (o : Ord) (a : Bytes) : ∀ e nd, Rep e nd →
    All2 (fun r v => r = Result.ofAttr v) (fieldValues o (c!"@" :: a) e) ((nd.attr a).toList) := by
  intro e nd hr
  unfold fieldValues
  rw [if_pos (by simp [hasPrefix, List.isPrefixOf]), List.drop_one, List.tail_cons, hr.attr]
  cases nd.attr a with
  | none => exact .nil
  | some v => exact .cons rfl .nil

theorem fieldValues_elem {o : Ord} (ho : o.IsPerm) (f : Bytes) (h1 : f.head? ≠ some c!"@") (h2 : f ≠ b!"%") : ∀ e nd, Rep e nd →
    All2 IsElementW (fieldValues o f e) (nd.kids.elems.filter (fun x => x.name = f)) := by
  intro e nd hr
  unfold fieldValues
  rw [if_neg, if_neg h2]
  · have := All2.map (S := IsElementW) (f := fun m : Elem => Result.ofContent m.content) (g := id)
      (All2.filter (p := fun e => decide (e.name = f)) (q := fun e => decide (e.name = f)) (writes_reads ho hr.content) (fun _ _ hr => by simp only [hr.name]))
      (fun a b hab => ofContent_is hab.content)
    simpa using this
  · cases f with
    | nil => simp [hasPrefix, List.isPrefixOf]
    | cons c cs => simp only [List.head?_cons, ne_eq, Option.some.injEq] at h1; simp [hasPrefix, List.isPrefixOf, Ne.symm h1]

end Verif
