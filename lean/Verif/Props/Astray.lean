import Verif.Lemmas.AstrayStep
import Verif.Props.Errors
/- C77: steps that stand where they mean nothing. -/
namespace Verif.Props
open Verif Verif.Spec

theorem get_steps_eq {env : Env} {xml path : Bytes} {ss : List Bytes} (h : PathSteps path ss) (h0 : ss ≠ []) :
    ∃ segs, All2 IsSeg ss segs ∧ get env xml path = if xml.length > 10485760 then .ret .null else .ret (executeQuery env (fuseFields segs) xml) := by
  rcases parsePath_reads h with ⟨_, h1⟩ | ⟨segs, h1, h2⟩
  · exact absurd h1 h0
  · refine ⟨segs, h2, ?_⟩
    have hne : fuseFields segs ≠ [] := by
      intro e
      have := fuse_isEmpty segs
      rw [e] at this
      cases h2 with
      | nil => exact h0 rfl
      | cons _ _ => cases this
    unfold get
    rw [h1]
    cases hq : fuseFields segs with
    | nil => exact absurd hq hne
    | cons x l => rfl

theorem get_dead {env : Env} {xml path : Bytes} {ss : List Bytes} (h : PathSteps path ss) (h0 : ss ≠ []) (hd : ∀ segs, All2 IsSeg ss segs → Dead env (evalFilter env) (fuseFields segs)) :
    get env xml path = .ret .null := by
  obtain ⟨segs, h2, e⟩ := get_steps_eq (env := env) (xml := xml) h h0
  rw [e, executeQuery, hd segs h2, ite_self]

/-- C77: whatever follows own text (`%`), a count (`#`) or the fields that `#` collects is ignored, in every document, with any steps before and any modifiers. -/
theorem C77_rest_ignored (env : Env) (xml path path' : Bytes) (pre rest : List Bytes) (p : Bytes) (h : PathSteps path (pre ++ p :: rest)) (h' : PathSteps path' (pre ++ [p]))
    (hf : Final pre p rest) : get env xml path = get env xml path' := by
  obtain ⟨segs, h2, e⟩ := get_steps_eq (env := env) (xml := xml) h (by simp)
  obtain ⟨segs', h2', e'⟩ := get_steps_eq (env := env) (xml := xml) h' (by simp)
  obtain ⟨l, x, r, h3, h4, h5⟩ := fuse_final h2 hf
  rw [e, e', h3, h5 _ h2', executeQuery, executeQuery, execQ_shut h4]

/-- C77: whatever follows an attribute is ignored too, if the step before the attribute is a filter or a position (the attribute after a position without modifiers). -/
theorem C77_attribute_kept (env : Env) (xml path path' : Bytes) (pre rest : List Bytes) (d p : Bytes) (h : PathSteps path (pre ++ d :: p :: rest))
    (h' : PathSteps path' (pre ++ [d, p])) (hm : ∀ q ∈ pre, MoveStep q) (hp : AttrStep p) (hd : FilterStep d ∨ (Position d ∧ c!"|" ∉ p)) : get env xml path = get env xml path' := by
  obtain ⟨segs, h2, e⟩ := get_steps_eq (env := env) (xml := xml) h (by simp)
  obtain ⟨segs', h2', e'⟩ := get_steps_eq (env := env) (xml := xml) h' (by simp)
  rw [e, e']
  obtain ⟨a, b, rfl, ha, hb⟩ := all2_split h2
  cases hb with
  | @cons _ t _ _ h3 hb =>
    cases hb with
    | @cons _ s _ rs h4 h5 =>
      obtain rfl := all2_fun h2' (ha.append (.cons h3 (.cons h4 .nil)))
      obtain ⟨n, hs⟩ := (isSeg_kind h4).1.mp hp
      have hst := all2_steps ha hm
      have ht : (∃ f all, t.kind = .filter f all) ∨ ((∃ i, t.kind = .index i) ∧ s.mods = []) := by
        rcases hd with hd | ⟨hd, hb⟩
        · exact .inl ((isSeg_filter_iff h3).mp hd)
        · refine .inr ⟨(isSeg_position h3).mp hd, ?_⟩
          have hf : ¬ b!"#(" <+: p := by
            intro hf; obtain ⟨u, rfl⟩ := hp; obtain ⟨v, hv⟩ := hf; simp at hv
          unfold IsSeg parsePart at h4
          rw [parseModifiers_plain p hb] at h4
          simp only at h4
          repeat' split at h4
          all_goals first | (cases h4; done) | (injection h4 with h4; subst h4; rfl) | skip
          rename_i hh
          rw [hasPrefix, List.isPrefixOf_iff_prefix] at hh
          exact absurd hh hf
      have htc : t.kind ≠ .count := by rcases ht with ⟨_, _, h⟩ | ⟨⟨_, h⟩, -⟩ <;> rw [h] <;> simp
      have hsc : s.kind ≠ .count := by rw [hs]; simp
      rw [fuse_left _ _ hst.2, fuse_left _ _ hst.2, fuseFields_cons htc, fuseFields_cons htc, fuseFields_cons hsc, executeQuery, executeQuery,
        execQ_attr_kept hs ht (fuseFields rs) a]
      rfl

/-- C77: below a name or a wildcard, an attribute with anything after it finds nothing. -/
theorem C77_attribute_lost (env : Env) (xml path : Bytes) (pre rest : List Bytes) (d p : Bytes) (h : PathSteps path (pre ++ d :: p :: rest))
    (hm : ∀ q ∈ pre, MoveStep q) (hp : AttrStep p) (hd : NameStep d ∨ WildStep d) (hr : rest ≠ []) : get env xml path = .ret .null := by
  refine get_dead h (by simp) fun segs h2 => ?_
  obtain ⟨a, b, rfl, ha, hb⟩ := all2_split h2
  cases hb with
  | @cons _ t _ _ h3 hb =>
    cases hb with
    | @cons _ s _ rs h4 h5 =>
      obtain ⟨n, hs⟩ := (isSeg_kind h4).1.mp hp
      have hst := all2_steps ha hm
      have ht : (∃ n, t.kind = .elem n) ∨ ∃ b, t.kind = .wild b := by
        rcases hd with hd | hd
        · exact .inl ((isSeg_kind h3).2.2.1.mp hd)
        · exact .inr ((isSeg_wild h3).mp hd)
      have htc : t.kind ≠ .count := by rcases ht with ⟨_, h⟩ | ⟨_, h⟩ <;> rw [h] <;> simp
      have hsc : s.kind ≠ .count := by rw [hs]; simp
      rw [fuse_left _ _ hst.2, fuseFields_cons htc, fuseFields_cons hsc]
      refine dead_attr hs ht ?_ a hst.1
      have hrs : rs ≠ [] := by rintro rfl; cases h5; exact hr rfl
      intro e
      have := fuse_isEmpty rs
      rw [e] at this
      exact hrs (List.isEmpty_iff.mp this.symm)

/-- C77: a position finds nothing if it is not right after a name: at the beginning, after another position, a filter or a wildcard. -/
theorem C77_position (env : Env) (xml path : Bytes) (pre rest : List Bytes) (p : Bytes) (h : PathSteps path (pre ++ p :: rest)) (hm : ∀ q ∈ pre, MoveStep q) (hp : Position p)
    (hl : ∀ q, pre.getLast? = some q → ¬ NameStep q) : get env xml path = .ret .null := by
  refine get_dead h (by simp) fun segs h2 => ?_
  obtain ⟨a, b, rfl, ha, hb⟩ := all2_split h2
  cases hb with
  | @cons _ s _ rs h3 hb =>
    have hs := (isSeg_position h3).mp hp
    have hst := all2_steps ha hm
    have hsc : s.kind ≠ .count := by obtain ⟨i, hs⟩ := hs; rw [hs]; simp
    rw [fuse_left _ _ hst.2, fuseFields_cons hsc]
    rcases a.eq_nil_or_concat with rfl | ⟨a', d, rfl⟩
    · exact dead_index hs _
    · rw [List.concat_eq_append] at *
      rw [List.append_assoc]
      obtain ⟨q, hq, hqs⟩ := (all2_last ha).1 d (by simp)
      exact dead_index_after hs (hst.1 d (by simp)) (fun n hn => hl q hq ((isSeg_kind hqs).2.2.1.mpr ⟨n, hn⟩)) _ a' fun x hx => hst.1 x (by simp [hx])

/-- C77: nor after the name that `**` looks for. -/
theorem C77_position_deep (env : Env) (xml path : Bytes) (pre rest : List Bytes) (w d p : Bytes) (h : PathSteps path (pre ++ w :: d :: p :: rest)) (hm : ∀ q ∈ pre, MoveStep q)
    (hw : beforeBar w = b!"**") (hd : NameStep d) (hp : Position p) (hl : ∀ q, pre.getLast? = some q → beforeBar q ≠ b!"**") : get env xml path = .ret .null := by
  refine get_dead h (by simp) fun segs h2 => ?_
  obtain ⟨a, b, rfl, ha, hb⟩ := all2_split h2
  cases hb with
  | @cons _ v _ _ h3 hb =>
    cases hb with
    | @cons _ t _ _ h4 hb =>
      cases hb with
      | @cons _ s _ rs h5 hb =>
        have hs := (isSeg_position h5).mp hp
        have hv := (isSeg_deep h3).mp hw
        obtain ⟨n, ht⟩ := (isSeg_kind h4).2.2.1.mp hd
        have hst := all2_steps ha hm
        rw [fuse_left _ _ hst.2, fuseFields_cons (by rw [hv]; simp), fuseFields_cons (by rw [ht]; simp), fuseFields_cons (by obtain ⟨i, hs⟩ := hs; rw [hs]; simp)]
        refine dead_index_deep hs hv _ a hst.1 fun c hc e => ?_
        obtain ⟨q, hq, hqs⟩ := (all2_last ha).1 c hc
        exact hl q hq ((isSeg_deep hqs).mpr e)

/-- C77: a negative position finds nothing, wherever it is. -/
theorem C77_negative (env : Env) (xml path : Bytes) (pre rest : List Bytes) (p : Bytes) (n : Nat) (h : PathSteps path (pre ++ p :: rest)) (hm : ∀ q ∈ pre, MoveStep q) (hp : Negative p n) :
    get env xml path = .ret .null := by
  refine get_dead h (by simp) fun segs h2 => ?_
  obtain ⟨a, b, rfl, ha, hb⟩ := all2_split h2
  cases hb with
  | @cons _ s _ rs h3 hb =>
    obtain ⟨i, hs, hi⟩ := (isSeg_kind h3).2.2.2.2.1.mp ⟨n, hp⟩
    have hst := all2_steps ha hm
    rw [fuse_left _ _ hst.2, fuseFields_cons (by rw [hs]; simp)]
    exact dead_negative hs hi _ a hst.1

/-- C77: `**` finds nothing if what follows is not a name or a wildcard, or nothing follows. -/
theorem C77_deep (env : Env) (xml path : Bytes) (pre rest : List Bytes) (w : Bytes) (h : PathSteps path (pre ++ w :: rest)) (hm : ∀ q ∈ pre, MoveStep q) (hw : beforeBar w = b!"**")
    (hr : ∀ q, rest.head? = some q → ¬ NameStep q ∧ ¬ WildStep q) (hl : ∀ q, pre.getLast? = some q → beforeBar q ≠ b!"**") : get env xml path = .ret .null := by
  refine get_dead h (by simp) fun segs h2 => ?_
  obtain ⟨a, b, rfl, ha, hb⟩ := all2_split h2
  cases hb with
  | @cons _ v _ rs h3 hb =>
    have hv := (isSeg_deep h3).mp hw
    have hst := all2_steps ha hm
    rw [fuse_left _ _ hst.2, fuseFields_cons (by rw [hv]; simp)]
    refine dead_deep hv (fun d hd => ?_) a hst.1 fun c hc e => ?_
    · cases hb with
      | nil => simp [fuseFields] at hd
      | @cons q t _ rs' h4 h5 =>
        have hq := hr q rfl
        have ht : (∀ n, t.kind ≠ .elem n) ∧ ∀ b, t.kind ≠ .wild b :=
          ⟨fun n e => hq.1 ((isSeg_kind h4).2.2.1.mpr ⟨n, e⟩), fun b e => hq.2 ((isSeg_wild h4).mpr ⟨b, e⟩)⟩
        cases rs' with
        | nil => simp [fuseFields] at hd; subst hd; exact ht
        | cons u rs' =>
          rw [fuse_cons2] at hd
          cases hj : joined t u with
          | none => rw [hj] at hd; simp at hd; subst hd; exact ht
          | some x =>
            rw [hj] at hd; simp at hd; subst hd
            obtain ⟨-, ⟨f, -, rfl⟩, -⟩ := joined_facts hj
            exact ⟨by simp, by simp⟩
    · obtain ⟨q, hq, hqs⟩ := (all2_last ha).1 c hc
      exact hl q hq ((isSeg_deep hqs).mpr e)

/-! ### positions that are no numbers -/

theorem parsePart_hyphens {ds more : Bytes} {n : Nat} (hd : Decimal ds n) (hn : n < 2 ^ 64) (hm : ∀ c ∈ more, c = c!"-" ∨ (48 ≤ c ∧ c ≤ 57)) :
    parsePart (ds ++ c!"-" :: more) = .seg ⟨.index 0, []⟩ := by
  obtain ⟨h1, h2, h3⟩ := decimal_facts hd
  have hall : ∀ c ∈ ds ++ c!"-" :: more, c = c!"-" ∨ (48 ≤ c ∧ c ≤ 57) := by
    intro c hc
    rcases List.mem_append.mp hc with hc | hc
    · exact .inr (h2 c hc)
    rcases List.mem_cons.mp hc with rfl | hc
    · exact .inl rfl
    · exact hm c hc
  have hbar : c!"|" ∉ ds ++ c!"-" :: more := fun hc => by have := hall _ hc; revert this; decide
  have hdig : ∀ d ∈ ds, isDigit d = true := fun d hd => isDigit_iff.mpr (h2 d hd)
  have hnum : isNumeric (ds ++ c!"-" :: more) = true := by
    unfold isNumeric
    simp only [Bool.and_eq_true, Bool.not_eq_true', List.isEmpty_eq_false_iff, List.all_eq_true, Bool.or_eq_true, decide_eq_true_eq]
    refine ⟨by simp, fun c hc => ?_⟩
    rcases hall c hc with h | h
    · right
      refine ⟨h, ?_⟩
      have := List.length_pos_iff.mpr h1
      simp; omega
    · exact .inl (isDigit_iff.mpr h)
  have hat : atoi (ds ++ c!"-" :: more) = 0 := by
    have htw : (ds ++ c!"-" :: more).takeWhile isDigit = ds := by
      rw [List.takeWhile_append_of_pos hdig, List.takeWhile_cons]
      simp [isDigit]
    cases ds with
    | nil => exact absurd rfl h1
    | cons c cs =>
      have hc := h2 c (by simp)
      have hc1 : c ≠ c!"-" := by rintro rfl; revert hc; decide
      have hc2 : c ≠ c!"+" := by rintro rfl; revert hc; decide
      unfold atoi
      simp only [List.cons_append, hc1, hc2, if_false] at htw ⊢
      rw [htw]
      rw [if_pos]
      have : isDigit c!"-" = false := by decide
      simp [this, h3, hn]
  have first : ∀ z w, ds ++ c!"-" :: more = z :: w → z = c!"-" ∨ (48 ≤ z ∧ z ≤ 57) := fun z w e => hall z (by rw [e]; simp)
  unfold parsePart
  rw [if_neg (by simp), parseModifiers_plain _ hbar]
  simp only [hasPrefix]
  rw [if_neg, if_neg, if_neg, if_neg, if_neg, if_neg, if_pos hnum, hat]
  · intro e; have := first _ _ e; revert this; decide
  · intro e; have := first _ _ e; revert this; decide
  · intro e; have := first _ _ e; revert this; decide
  · intro e; have := first _ _ e; revert this; decide
  · rw [List.isPrefixOf_iff_prefix]; rintro ⟨u, hu⟩; have := first _ _ hu.symm; revert this; decide
  · rw [List.isPrefixOf_iff_prefix]; rintro ⟨u, hu⟩; have := first _ _ hu.symm; revert this; decide

/-- C77: a step of digits and hyphens that is not a number - a date, a telephone number - is the position 0, in queries and in modifications. -/
theorem C77_hyphens (env : Env) (xml path path' : Bytes) (pre rest : List Bytes) (ds more : Bytes) (n : Nat) (h : PathSteps path (pre ++ (ds ++ c!"-" :: more) :: rest))
    (h' : PathSteps path' (pre ++ b!"0" :: rest)) (hd : Decimal ds n) (hn : n < 2 ^ 64) (hm : ∀ c ∈ more, c = c!"-" ∨ (48 ≤ c ∧ c ≤ 57)) (v : GoVal) (opts : Option Options) :
    get env xml path = get env xml path' ∧ getWithOptions env xml path opts = getWithOptions env xml path' opts ∧
    setWithOptions env.ord xml path v opts = setWithOptions env.ord xml path' v opts ∧ deleteWithOptions env.ord xml path opts = deleteWithOptions env.ord xml path' opts := by
  have e : parsePath path = parsePath path' := by
    rcases parsePath_reads h with ⟨_, h1⟩ | ⟨segs, h1, h2⟩
    · simp at h1
    rcases parsePath_reads h' with ⟨_, h1'⟩ | ⟨segs', h1', h2'⟩
    · simp at h1'
    rw [h1, h1']
    obtain ⟨a, b, rfl, ha, hb⟩ := all2_split h2
    obtain ⟨a', b', rfl, ha', hb'⟩ := all2_split h2'
    cases hb with
    | @cons _ s _ rs h3 h4 =>
      cases hb' with
      | @cons _ s' _ rs' h3' h4' =>
        have e1 : s = ⟨.index 0, []⟩ := by
          have := h3.symm.trans (parsePart_hyphens hd hn hm); injection this
        have e2 : s' = ⟨.index 0, []⟩ := by
          have := h3'.symm.trans (show parsePart b!"0" = .seg ⟨.index 0, []⟩ by decide +kernel); injection this
        rw [all2_fun ha ha', all2_fun h4 h4', e1, e2]
  have e' : ∀ cs, parsePathWithOptions path cs = parsePathWithOptions path' cs := fun cs => by unfold parsePathWithOptions; rw [e]
  have hd : deleteWithOptions env.ord xml path opts = deleteWithOptions env.ord xml path' opts := by unfold deleteWithOptions; rw [e']
  refine ⟨?_, ?_, ?_, hd⟩
  · unfold get; rw [e]
  · unfold getWithOptions; simp only [e, e']
  · unfold setWithOptions; rw [e', hd]

/-! ### examples -/

/-- By the theorems, in any document. -/
example (env : Env) (xml : Bytes) : get env xml b!"r.a.%.b.0.@k" = get env xml b!"r.a.%" :=
  C77_rest_ignored env xml _ _ [b!"r", b!"a"] [b!"b", b!"0", b!"@k"] b!"%" (pathSteps_by (by decide) (by decide) (by decide +kernel) (by decide +kernel))
    (pathSteps_by (by decide) (by decide) (by decide +kernel) (by decide +kernel)) (.inl rfl)
example (env : Env) (xml : Bytes) : get env xml b!"r.a.#.0" = get env xml b!"r.a.#" :=
  C77_rest_ignored env xml _ _ [b!"r", b!"a"] [b!"0"] b!"#" (pathSteps_by (by decide) (by decide) (by decide +kernel) (by decide +kernel))
    (pathSteps_by (by decide) (by decide) (by decide +kernel) (by decide +kernel)) (.inr (.inl ⟨rfl, by
      intro q hq; simp at hq; subst hq
      rintro (e | ⟨e, -⟩ | ⟨a, e, -⟩)
      · revert e; decide
      · exact not_identifier (by decide) e
      · simp [beforeBar] at e⟩))
example (env : Env) (xml : Bytes) : get env xml b!"**.a.0" = .ret .null :=
  C77_position_deep env xml _ [] [] b!"**" b!"a" b!"0" (pathSteps_by (by decide) (by decide) (by decide +kernel) (by decide +kernel)) (by simp) rfl
    ⟨by decide, by decide, by decide, by decide, by decide⟩ ⟨by decide, by decide, by decide⟩ (by simp)

/-- C77: what is found in one document: the rest of a path is ignored after own text, counts and fields, and after an attribute below a filter or a position, but not below a name; a position
is found after a name only; and a date is the position 0. -/
theorem C77_witness :
    get exEnv b!"<r><a k=\"1\">x</a><a k=\"2\">y</a></r>" b!"r.a.%.b" = .ret (.ofText b!"x") ∧
    get exEnv b!"<r><a k=\"1\">x</a><a k=\"2\">y</a></r>" b!"r.a.#.7" = .ret (.ofCount 2) ∧
    get exEnv b!"<r><a k=\"1\">x</a><a k=\"2\">y</a></r>" b!"r.a.#.@k.b" = .ret (.ofArray [.ofAttr b!"1", .ofAttr b!"2"]) ∧
    get exEnv b!"<r><a k=\"1\">x</a><a k=\"2\">y</a></r>" b!"r.a.1.@k.b" = .ret (.ofAttr b!"2") ∧
    get exEnv b!"<r><a k=\"1\">x</a><a k=\"2\">y</a></r>" b!"r.a.#(@k==2).@k.b" = .ret (.ofAttr b!"2") ∧
    get exEnv b!"<r><a k=\"1\">x</a><a k=\"2\">y</a></r>" b!"r.a.@k.b" = .ret .null ∧
    get exEnv b!"<r><a k=\"1\">x</a><a k=\"2\">y</a></r>" b!"**.a.1" = .ret .null ∧
    get exEnv b!"<r><a k=\"1\">x</a><a k=\"2\">y</a></r>" b!"r.*.1" = .ret .null ∧
    get exEnv b!"<r><a k=\"1\">x</a><a k=\"2\">y</a></r>" b!"r.a.-1" = .ret .null ∧
    get exEnv b!"<r><a k=\"1\">x</a><a k=\"2\">y</a></r>" b!"r.**" = .ret .null ∧
    get exEnv b!"<r><a k=\"1\">x</a><a k=\"2\">y</a></r>" b!"r.a.2024-11-15" = .ret (.ofContent b!"x") ∧
    set exEnv.ord b!"<r><a>x</a></r>" b!"r.a.2024-11-15" (.str b!"v") = .ret (b!"<r><a>v</a></r>", none) := by decide +kernel

end Verif.Props
