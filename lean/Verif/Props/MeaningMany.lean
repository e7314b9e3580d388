import Verif.Props.Meaning
/- C96 for SetMany and DeleteMany. -/
namespace Verif.Props
open Verif Verif.Spec

theorem runAll_cons {q : DocCall} {qs : List DocCall} {xml r : Bytes} (h : q.run xml = .ret (r, none)) :
    DocCall.runAll xml (q :: qs) = if r.length ≤ 10485760 then DocCall.runAll r qs else none := by
  rw [DocCall.runAll, h]

theorem runAll_fail {q : DocCall} {qs : List DocCall} {xml r : Bytes} {er : Err} (h : q.run xml = .ret (r, some er)) : DocCall.runAll xml (q :: qs) = none := by
  rw [DocCall.runAll, h]

/-- The call succeeds, or fails and changes nothing. -/
theorem step_or {xml : Bytes} {i : Info} (h : Doc xml i) {q : DocCall} (hq : q.Meant i) :
    (∃ r, q.run xml = .ret (r, none) ∧ (r.length ≤ 10485760 → Doc r (q.on i))) ∨ ∃ er, q.run xml = .ret (xml, some er) := by
  rcases C96_step h hq with h | ⟨h, -⟩ | ⟨h, -⟩
  · exact .inl h
  · exact .inr ⟨_, h⟩
  · exact .inr ⟨_, h⟩

theorem set_long {o : Ord} {xml p : Bytes} {v : GoVal} (h : 10485760 < xml.length) : set o xml p v = .ret (xml, some .malformed) := by
  have := docMax
  rw [set, setWithOptions, if_pos (by omega)]

theorem delete_long {o : Ord} {xml p : Bytes} (h : 10485760 < xml.length) : delete o xml p = .ret (xml, some .malformed) := by
  have := docMax
  rw [delete, deleteWithOptions, if_pos (by omega)]

/-- C96: SetMany is the series of the calls: it gives what they give one after the other, or it fails and returns the document as it was, and then one of them fails or would work on more than 10 MiB. -/
theorem C96_set_many {o : Ord} (qs : List DocCall) (hs : ∀ q ∈ qs, q.ord = o ∧ q.opts = defaultOptions ∧ q.op.Sets) {xml : Bytes} {i : Info} (h : Doc xml i) (hq : DocCall.AllMeant qs i) :
    (∃ r, setMany o xml (qs.map (·.path)) (qs.map (·.val)) = .ret (r, none) ∧ (r.length ≤ 10485760 → DocCall.runAll xml qs = some r ∧ Doc r (DocCall.onAll qs i))) ∨
      ∃ er, setMany o xml (qs.map (·.path)) (qs.map (·.val)) = .ret (xml, some er) ∧ DocCall.runAll xml qs = none := by
  have hd := docMax
  have hlen : xml.length ≤ 10485760 := by obtain ⟨f, hf, -, rfl, -⟩ := h; exact hf.1
  have hz : (qs.map (·.path)).zip (qs.map (·.val)) = qs.map fun q => (q.path, q.val) := by
    clear hs hq
    induction qs with
    | nil => rfl
    | cons q qs ih => simp [ih]
  rw [setMany, if_neg (by omega), if_neg (by simp), hz]
  have key : ∀ (qs : List DocCall) (cur : Bytes) (i : Info), (∀ q ∈ qs, q.ord = o ∧ q.opts = defaultOptions ∧ q.op.Sets) → Doc cur i → DocCall.AllMeant qs i →
      (∃ r, setManyLoop o xml cur (qs.map fun q => (q.path, q.val)) = .ret (r, none) ∧ (r.length ≤ 10485760 → DocCall.runAll cur qs = some r ∧ Doc r (DocCall.onAll qs i))) ∨
        ∃ er, setManyLoop o xml cur (qs.map fun q => (q.path, q.val)) = .ret (xml, some er) ∧ DocCall.runAll cur qs = none := by
    intro qs
    induction qs with
    | nil => intro cur i _ h _; exact .inl ⟨cur, rfl, fun _ => ⟨rfl, h⟩⟩
    | cons q qs ih =>
      intro cur i hs h hq
      obtain ⟨h1, h2⟩ := hq
      obtain ⟨e1, e2, e3⟩ := hs q (by simp)
      have hrun : q.run cur = set o cur q.path q.val := by
        obtain ⟨qo, qp, qv, qopt, op⟩ := q
        simp only at e1 e2 e3
        subst e1; subst e2
        cases op with
        | remove => exact absurd e3 id
        | label hs op => cases op with
          | put => rfl
          | drop => exact absurd e3 id
        | _ => rfl
      rw [List.map_cons, setManyLoop, ← hrun]
      rcases step_or h h1 with ⟨r, k1, k2⟩ | ⟨er, k1⟩
      · rw [runAll_cons k1, k1]
        simp only
        by_cases hsz : r.length ≤ 10485760
        · rw [if_pos hsz]
          exact ih r _ (fun q hq => hs q (by simp [hq])) (k2 hsz) h2
        · rw [if_neg hsz]
          cases qs with
          | nil => exact .inl ⟨r, rfl, fun hh => absurd hh hsz⟩
          | cons q' qs =>
            refine .inr ⟨.malformed, ?_, rfl⟩
            rw [List.map_cons, setManyLoop, set_long (by omega)]
      · rw [runAll_fail k1, k1]
        exact .inr ⟨er, rfl, rfl⟩
  exact key qs xml i hs h hq

/-- C96: the same for DeleteMany and different paths. -/
theorem C96_delete_many {o : Ord} (qs : List DocCall) (hs : ∀ q ∈ qs, q.ord = o ∧ q.opts = defaultOptions ∧ ¬ q.op.Sets) (hn : (qs.map (·.path)).Nodup) {xml : Bytes} {i : Info} (h : Doc xml i)
    (hq : DocCall.AllMeant qs i) :
    (∃ r, deleteMany o xml (qs.map (·.path)) = .ret (r, none) ∧ (r.length ≤ 10485760 → DocCall.runAll xml qs = some r ∧ Doc r (DocCall.onAll qs i))) ∨
      ∃ er, deleteMany o xml (qs.map (·.path)) = .ret (xml, some er) ∧ DocCall.runAll xml qs = none := by
  have hd := docMax
  have hlen : xml.length ≤ 10485760 := by obtain ⟨f, hf, -, rfl, -⟩ := h; exact hf.1
  have hz : ∀ (l seen : List Bytes), l.Nodup → (∀ p ∈ l, p ∉ seen) → dedup seen l = l := by
    intro l
    induction l with
    | nil => intros; rfl
    | cons p l ih =>
      intro seen h1 h2
      rw [List.nodup_cons] at h1
      have hp : seen.contains p = false := by simpa using h2 p (by simp)
      rw [dedup, hp, if_neg (by simp), ih (p :: seen) h1.2]
      intro p' h3 h4
      simp only [List.mem_cons] at h4
      rcases h4 with rfl | h4
      · exact h1.1 h3
      · exact h2 p' (by simp [h3]) h4
  rw [deleteMany, if_neg (by omega), hz _ [] hn (by simp)]
  have key : ∀ (qs : List DocCall) (cur : Bytes) (i : Info), (∀ q ∈ qs, q.ord = o ∧ q.opts = defaultOptions ∧ ¬ q.op.Sets) → Doc cur i → DocCall.AllMeant qs i →
      (∃ r, deleteManyLoop o xml cur (qs.map (·.path)) = .ret (r, none) ∧ (r.length ≤ 10485760 → DocCall.runAll cur qs = some r ∧ Doc r (DocCall.onAll qs i))) ∨
        ∃ er, deleteManyLoop o xml cur (qs.map (·.path)) = .ret (xml, some er) ∧ DocCall.runAll cur qs = none := by
    intro qs
    induction qs with
    | nil => intro cur i _ h _; exact .inl ⟨cur, rfl, fun _ => ⟨rfl, h⟩⟩
    | cons q qs ih =>
      intro cur i hs h hq
      obtain ⟨h1, h2⟩ := hq
      obtain ⟨e1, e2, e3⟩ := hs q (by simp)
      have hrun : q.run cur = delete o cur q.path := by
        obtain ⟨qo, qp, qv, qopt, op⟩ := q
        simp only at e1 e2 e3
        subst e1; subst e2
        cases op with
        | remove => rfl
        | label hs op => cases op with
          | put => exact absurd trivial e3
          | drop => rfl
        | _ => exact absurd trivial e3
      rw [List.map_cons, deleteManyLoop, ← hrun]
      rcases step_or h h1 with ⟨r, k1, k2⟩ | ⟨er, k1⟩
      · rw [runAll_cons k1, k1]
        simp only
        by_cases hsz : r.length ≤ 10485760
        · rw [if_pos hsz]
          exact ih r _ (fun q hq => hs q (by simp [hq])) (k2 hsz) h2
        · rw [if_neg hsz]
          cases qs with
          | nil => exact .inl ⟨r, rfl, fun hh => absurd hh hsz⟩
          | cons q' qs =>
            refine .inr ⟨.malformed, ?_, rfl⟩
            rw [List.map_cons, deleteManyLoop, delete_long (by omega)]
      · rw [runAll_fail k1, k1]
        exact .inr ⟨er, rfl, rfl⟩
  exact key qs xml i hs h hq

/-- Three calls: set `r.a.@k` to the number 9, write `<u w="1">v</u>` at `r.e`, set `r.n.m.@k` (where nothing is) to 9. -/
def exManyCalls (o : Ord) : List DocCall :=
  [⟨o, b!"r.a.@k", .int 9, defaultOptions, .label [(.name b!"r", 0), (.name b!"a", 0)] (.put b!"k" b!"9")⟩, ⟨o, b!"r.e", .raw exFrag.render, defaultOptions, .write [(.name b!"r", 0)] [b!"e"] exFrag.info⟩,
    ⟨o, b!"r.n.m.@k", .int 9, defaultOptions, .attach [(.name b!"r", 0)] [b!"n", b!"m"] b!"k" b!"9"⟩]

theorem exMany_meant (o : Ord) (ho : o.IsPerm) : DocCall.AllMeant (exManyCalls o) exSay1.info := by
  have hr : Asks b!"r" (.name b!"r") := .name (name_step (by decide))
  have ha : Asks b!"a" (.name b!"a") := .name (name_step (by decide))
  have hk : IsName b!"k" := isName_of (by decide) (by decide)
  have s3 : PathSteps b!"r.a.@k" [b!"r", b!"a", b!"@k"] := pathSteps_by (by decide) (by decide) (by decide +kernel) (by decide +kernel)
  have s6 : PathSteps b!"r.e" ([b!"r"] ++ [b!"e"]) := pathSteps_by (by decide) (by decide) (by decide +kernel) (by decide +kernel)
  have s7 : PathSteps b!"r.n.m.@k" ([b!"r"] ++ [b!"n", b!"m"] ++ [b!"@k"]) := pathSteps_by (by decide) (by decide) (by decide +kernel) (by decide +kernel)
  have t3 : Trail [b!"r", b!"a"] (some [(.name b!"r", 0), (.name b!"a", 0)]) :=
    .first (t := some _) hr (by intro d hd; simp at hd; subst hd; simp [Position, beforeBar]) (.first (t := some []) ha (by simp) .nil)
  have t4 : Trail [b!"r"] (some [(.name b!"r", 0)]) := .first (t := some []) hr (by simp) .nil
  have v2 : StoredText (.int 9) b!"9" := ⟨by simp, by decide +kernel, by decide +kernel⟩
  have v3 : StoredAs (.raw exFrag.render) 2 exFrag.info :=
    ⟨exFrag, rfl, by decide +kernel, ⟨by decide +kernel, by decide, trivial, trivial⟩, by decide +kernel, by simp [exFrag, Forest.Regular], by simp, rfl, by decide +kernel⟩
  refine ⟨⟨ho, ?_, _, s3, [b!"r", b!"a"], ⟨b!"a", Spec.attrVal [⟨b!" ", b!"k", [], [], c!"'", b!"1"⟩, ⟨b!" ", b!"j", [], [], c!"\"", b!"2"⟩], .text b!"x" .nil⟩, rfl, t3, ⟨hk, ?_⟩,
      fun k s h => by simp only [MapOp.put.injEq] at h; obtain ⟨-, rfl⟩ := h; exact v2, rfl, [b!"k", b!"j"], ?_, ?_, fun j hj => ?_⟩,
    ⟨ho, ?_, _, s6, ⟨[b!"r"], rfl, by simp, t4⟩, fun x hx => ?_, .inr (fun h => ?_), ?_, v3⟩,
    ⟨ho, ?_, _, s7, ⟨[b!"r"], rfl, t4⟩, by simp, fun x hx => ?_, .inr (fun h => ?_), ?_, ?_, ⟨hk, ?_⟩, v2⟩, trivial⟩
  · show c!"<" ∉ defaultOptions.indent; decide
  · decide +kernel
  · decide
  · show b!"k" ∈ _; simp
  · have := (attrVal_iff _ _).mp hj
    simpa using this
  · show c!"<" ∉ defaultOptions.indent; decide
  · simp at hx; subst hx; exact isName_of (by decide) (by decide)
  · cases h
  · show 2 ≤ 100; decide
  · show c!"<" ∉ defaultOptions.indent; decide
  · simp at hx; rcases hx with rfl | rfl <;> exact isName_of (by decide) (by decide)
  · cases h
  · rfl
  · show 3 ≤ 100; decide
  · decide +kernel

/-- C96: what SetMany gives for these calls, and DeleteMany for two paths. -/
theorem C96_many_witness :
    setMany exEnv.ord exSay1.render [b!"r.a.@k", b!"r.e", b!"r.n.m.@k"] [.int 9, .raw exFrag.render, .int 9] =
      .ret (b!"<r><a j=\"2\" k=\"9\">x</a><b>y</b><e><u w=\"1\">v</u></e><n><m k=\"9\"></m></n></r>", none) ∧
    deleteMany exEnv.ord exSay1.render [b!"r.a.@k", b!"r.b"] = .ret (b!"<r><a j=\"2\">x</a></r>", none) := by
  refine ⟨?_, ?_⟩ <;> decide +kernel

/-- C96 for SetMany on both ways to write the document, whatever the orders in which attributes are met. -/
example (o1 o2 : Ord) (h1 : o1.IsPerm) (h2 : o2.IsPerm) {r1 r2 : Bytes} (k1 : setMany o1 exSay1.render [b!"r.a.@k", b!"r.e", b!"r.n.m.@k"] [.int 9, .raw exFrag.render, .int 9] = .ret (r1, none))
    (k2 : setMany o2 exSay2.render [b!"r.a.@k", b!"r.e", b!"r.n.m.@k"] [.int 9, .raw exFrag.render, .int 9] = .ret (r2, none)) (l1 : r1.length ≤ 10485760) (l2 : r2.length ≤ 10485760) : ∃ j, Doc r1 j ∧ Doc r2 j := by
  have hs : ∀ o, ∀ q ∈ exManyCalls o, q.ord = o ∧ q.opts = defaultOptions ∧ q.op.Sets := by
    intro o q hq
    simp only [exManyCalls, List.mem_cons, List.not_mem_nil, or_false] at hq
    rcases hq with rfl | rfl | rfl <;> exact ⟨rfl, rfl, trivial⟩
  have d1 : Doc r1 (DocCall.onAll (exManyCalls o1) exSay1.info) := by
    rcases C96_set_many _ (hs o1) exSay_docs.1 (exMany_meant o1 h1) with ⟨r, e1, e2⟩ | ⟨er, e1, -⟩
    · have e1 := k1.symm.trans e1
      injection e1 with e1
      injection e1 with e1
      subst e1
      exact (e2 l1).2
    · have e1 := k1.symm.trans e1
      injection e1 with e1
      injection e1 with _ e1
      cases e1
  have d2 : Doc r2 (DocCall.onAll (exManyCalls o2) exSay1.info) := by
    rcases C96_set_many _ (hs o2) exSay_docs.2 (exMany_meant o2 h2) with ⟨r, e1, e2⟩ | ⟨er, e1, -⟩
    · have e1 := k2.symm.trans e1
      injection e1 with e1
      injection e1 with e1
      subst e1
      exact (e2 l2).2
    · have e1 := k2.symm.trans e1
      injection e1 with e1
      injection e1 with _ e1
      cases e1
  exact ⟨_, d1, d2⟩

end Verif.Props
