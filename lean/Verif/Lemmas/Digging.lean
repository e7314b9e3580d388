import Verif.Lemmas.Work
import Verif.Lemmas.Edit
import Verif.Spec.Work
/- Searches below searches: how much work they are at least. -/
namespace Verif
open Spec

/-! ### the counter of the code -/

/-- The counter of a search never exceeds the limit. -/
theorem recSearch_ops {o : Ord} {tgt : Elem → Bool} {emit : Elem → List Result} (n : Nat) :
    ∀ (xml : Bytes) (st : SearchSt), st.ops < maxRecursiveOperations → (recSearch o tgt emit n xml st).ops ≤ maxRecursiveOperations := by
  induction n with
  | zero => intro xml st h; exact h
  | succ n ih =>
    intro xml st h
    rw [recSearch]
    split
    · exact h
    · rename_i hc
      have hc : st.ops + 1 < maxRecursiveOperations := by
        simp only [Bool.or_eq_true, decide_eq_true_eq, not_or] at hc
        omega
      have key : ∀ (es : List Elem) (st : SearchSt), st.ops < maxRecursiveOperations → (recLoop (recSearch o tgt emit n) tgt emit es st).ops ≤ maxRecursiveOperations := by
        intro es
        induction es with
        | nil => intro st h; exact Nat.le_of_lt h
        | cons e es ihe =>
          intro st h
          simp only [recLoop]
          have h1 : (if (!e.selfClosing && !e.content.isEmpty) = true then recSearch o tgt emit n e.content st else st).ops ≤ maxRecursiveOperations := by
            split
            · exact ih _ _ h
            · exact Nat.le_of_lt h
          generalize (if (!e.selfClosing && !e.content.isEmpty) = true then recSearch o tgt emit n e.content st else st) = st1 at h1
          split
          · exact h1
          · split
            · split
              · exact h1
              · exact ihe _ (by simp only; omega)
            · exact ihe _ (by omega)
      exact key _ _ hc

/-- The calls counted here are the operations the code counts, apart from those of the queries below the matches. -/
theorem recSearchW_ops {o : Ord} {tgt : Elem → Bool} {emit : Elem → List Result} (n : Nat) :
    ∀ (xml : Bytes) (st : SearchSt), (recSearch o tgt emit n xml st).ops = st.ops + recSearchW o tgt emit (fun _ => 0) n xml st := by
  induction n with
  | zero => intro xml st; rfl
  | succ n ih =>
    intro xml st
    rw [recSearch, recSearchW]
    split
    · rfl
    · have key : ∀ (es : List Elem) (st : SearchSt), (recLoop (recSearch o tgt emit n) tgt emit es st).ops =
          st.ops + recLoopW (recSearch o tgt emit n) (recSearchW o tgt emit (fun _ => 0) n) tgt emit (fun _ => 0) es st := by
        intro es
        induction es with
        | nil => intro st; rfl
        | cons e es ihe =>
          intro st
          simp only [recLoop, recLoopW]
          have h1 : (if (!e.selfClosing && !e.content.isEmpty) = true then recSearch o tgt emit n e.content st else st).ops =
              st.ops + (if (!e.selfClosing && !e.content.isEmpty) = true then recSearchW o tgt emit (fun _ => 0) n e.content st else 0) := by
            split
            · exact ih _ _
            · rfl
          generalize (if (!e.selfClosing && !e.content.isEmpty) = true then recSearch o tgt emit n e.content st else st) = st1 at h1 ⊢
          generalize (if (!e.selfClosing && !e.content.isEmpty) = true then recSearchW o tgt emit (fun _ => 0) n e.content st else 0) = w at h1 ⊢
          split
          · omega
          · split
            · split
              · omega
              · rw [ihe]; simp only; omega
            · rw [ihe]; omega
      rw [key]
      simp only
      omega

/-! ### nested elements -/

theorem nested_reads {o : Ord} {n : Nat} {c : Bytes} (h : Reads o c (nested (n + 1)).info) :
    ∃ e, topElems o c = [e] ∧ e.name = b!"a" ∧ Writes e.content (nested n).info ∧ (e.selfClosing = true → e.content = []) := by
  have h : All2 Rep (topElems o c) [_] := h
  generalize topElems o c = l at h
  cases h with
  | cons hd ht =>
    cases ht
    exact ⟨_, rfl, hd.name, hd.content, hd.self⟩

theorem nested_empty {o : Ord} {c : Bytes} (h : Reads o c (nested 0).info) : topElems o c = [] := by
  have h : All2 Rep (topElems o c) [] := h
  generalize topElems o c = l at h
  cases h
  rfl

theorem nested_content {o : Ord} (ho : o.IsPerm) {e : Elem} {n : Nat} (h : Writes e.content (nested (n + 1)).info) (hs : e.selfClosing = true → e.content = []) :
    (!e.selfClosing && !e.content.isEmpty) = true := by
  have hne : e.content ≠ [] := by
    intro he
    obtain ⟨x, hx, -⟩ := nested_reads (writes_reads ho h)
    rw [he, topElems_nil] at hx
    cases hx
  cases hc : e.selfClosing with
  | true => exact absurd (hs hc) hne
  | false => simpa using hne

/-- A search in nested elements, in which what is looked for below the matches is not found. -/
theorem recSearch_nested {o : Ord} (ho : o.IsPerm) {tgt : Elem → Bool} {emit : Elem → List Result} {emitW : Elem → Nat} {f : Nat → Nat}
    (ht : ∀ e, e.name = b!"a" → tgt e = true) {L : Nat} (he : ∀ e m, m < L → Writes e.content (nested m).info → emit e = [] ∧ f m ≤ emitW e) (n : Nat) :
    ∀ (d : Nat) (xml : Bytes) (st : SearchSt), Reads o xml (nested d).info → d ≤ n → d ≤ L → st.res = [] → st.ops + d + 1 < maxRecursiveOperations →
      (recSearch o tgt emit (n + 1) xml st).res = [] ∧ (recSearch o tgt emit (n + 1) xml st).ops ≤ st.ops + d + 1 ∧
      sumBy f (List.range d) ≤ recSearchW o tgt emit emitW (n + 1) xml st := by
  induction n with
  | zero =>
    intro d xml st hr hd hL hs hops
    obtain rfl : d = 0 := by omega
    rw [recSearch, recSearchW, nested_empty hr, if_neg (by simp [hs, maxWildcardResults] <;> omega), if_neg (by simp [hs, maxWildcardResults] <;> omega)]
    exact ⟨hs, by simp [recLoop], by simp [sumBy]⟩
  | succ n ih =>
    intro d xml st hr hd hL hs hops
    have hc : ¬ ((decide (st.res.length ≥ maxWildcardResults) || decide (st.ops + 1 ≥ maxRecursiveOperations)) = true) := by
      simp only [hs, Bool.or_eq_true, decide_eq_true_eq, not_or, List.length_nil]
      exact ⟨by decide, by omega⟩
    rw [recSearch, recSearchW, if_neg hc, if_neg hc]
    cases d with
    | zero =>
      rw [nested_empty hr]
      exact ⟨hs, by simp [recLoop], by simp [sumBy]⟩
    | succ d =>
      obtain ⟨e, h1, h2, h3, h4⟩ := nested_reads hr
      obtain ⟨e1, e2⟩ := he e d (by omega) h3
      rw [h1]
      simp only [recLoop, recLoopW, ht e h2, e1, List.append_nil, if_true, List.range_succ, sumBy_append, sumBy]
      have hinner : (if (!e.selfClosing && !e.content.isEmpty) = true then recSearch o tgt emit (n + 1) e.content { st with ops := st.ops + 1 } else { st with ops := st.ops + 1 }).res = [] ∧
          (if (!e.selfClosing && !e.content.isEmpty) = true then recSearch o tgt emit (n + 1) e.content { st with ops := st.ops + 1 } else { st with ops := st.ops + 1 }).ops ≤ st.ops + 1 + d + 1 ∧
          sumBy f (List.range d) ≤ (if (!e.selfClosing && !e.content.isEmpty) = true then recSearchW o tgt emit emitW (n + 1) e.content { st with ops := st.ops + 1 } else 0) := by
        cases d with
        | zero =>
          split
          · exact ih 0 e.content { st with ops := st.ops + 1 } (writes_reads ho h3) (by omega) (by omega) hs (by simp only; omega)
          · exact ⟨hs, by simp only; omega, by simp [sumBy]⟩
        | succ d =>
          have hg := nested_content ho h3 h4
          simp only [hg, if_true]
          exact ih (d + 1) e.content { st with ops := st.ops + 1 } (writes_reads ho h3) (by omega) (by omega) hs (by simp only; omega)
      generalize (if (!e.selfClosing && !e.content.isEmpty) = true then recSearch o tgt emit (n + 1) e.content { st with ops := st.ops + 1 } else { st with ops := st.ops + 1 }) = st1 at hinner ⊢
      generalize (if (!e.selfClosing && !e.content.isEmpty) = true then recSearchW o tgt emit emitW (n + 1) e.content { st with ops := st.ops + 1 } else 0) = w at hinner ⊢
      obtain ⟨i1, i2, i3⟩ := hinner
      have a1 : ¬ st1.ops ≥ maxRecursiveOperations := by omega
      have a2 : ¬ st1.res.length ≥ maxWildcardResults := by rw [i1]; decide
      simp only [a1, a2, if_false]
      exact ⟨i1, by omega, by omega⟩

/-- The segments of the path. -/
def diggingSegs : Nat → List Seg
  | 0 => [nameSeg b!"z"]
  | k + 1 => ⟨.wild true, []⟩ :: nameSeg b!"a" :: diggingSegs k

theorem digging_parts (k : Nat) : parseParts (digging k) = .ok (diggingSegs k) := by
  induction k with
  | zero => decide
  | succ k ih => exact parseParts_cons_ok (by decide) (parseParts_cons_ok (by decide) ih)

theorem digging_length (k : Nat) : (digging k).length = 2 * k + 1 := by
  induction k with
  | zero => rfl
  | succ k ih => simp only [digging, List.length_cons, ih]; omega

theorem fuseFields_same {ss : List Seg} (h : ∀ s ∈ ss, s.kind ≠ .count) : fuseFields ss = ss := by
  fun_induction fuseFields ss <;> grind

theorem digging_fuse (k : Nat) : fuseFields (diggingSegs k) = diggingSegs k := by
  apply fuseFields_same
  induction k with
  | zero => simp [diggingSegs, nameSeg]
  | succ k ih => simpa [diggingSegs, nameSeg] using ih

theorem digging_parse {k : Nat} (hk : k ≤ 49) : parsePath (pathOf (digging k)) = .ok (diggingSegs k) := by
  rw [parsePath_parts _ (by cases k <;> simp [digging]) (by cases k <;> simp [digging]) (by rw [digging_length]; omega), digging_parts]
  simp only [digging_fuse]

theorem sum_choose (k d : Nat) : sumBy (fun j => choose j k) (List.range d) = choose d (k + 1) := by
  induction d with
  | zero => rfl
  | succ d ih => simp only [List.range_succ, sumBy_append, ih, sumBy, choose, Nat.add_zero]

theorem digging_head (k : Nat) : ∃ s l, diggingSegs k = s :: l ∧ (s.kind = .elem b!"z" ∨ s.kind = .wild true) := by
  cases k with
  | zero => exact ⟨_, _, rfl, .inl rfl⟩
  | succ k => exact ⟨_, _, rfl, .inr rfl⟩

/-- The query finds nothing, after at least so many searches. -/
theorem digging_work {env : Env} (ho : env.ord.IsPerm) {ev : Filter → Elem → Bool} {evw : Filter → Elem → Nat} (k : Nat) :
    ∀ (root : Bool) (d : Nat) (xml : Bytes), d ≤ 100 → Reads env.ord xml (nested d).info →
      execQ env ev (diggingSegs k) root xml = .null ∧ choose d k ≤ execQW env ev evw (diggingSegs k) root xml := by
  induction k with
  | zero =>
    intro root d xml _ hr
    refine ⟨?_, ?_⟩
    · have hm : (topElems env.ord xml).filter (fun e => (nameSeg b!"z").matches e.name) = [] := by
        cases d with
        | zero => rw [nested_empty hr]; rfl
        | succ d =>
          obtain ⟨e, h1, h2, -⟩ := nested_reads hr
          rw [h1, List.filter_cons, h2]
          rfl
      have hf : isFragmentQuery root [] = false := by simp [isFragmentQuery]
      simp only [diggingSegs, execQ, execBody, nameSeg, hf, Bool.false_eq_true, if_false, execElem]
      rw [show (topElems env.ord xml).filter (fun e => Seg.matches ⟨.elem b!"z", []⟩ e.name) = [] from hm]
      rfl
    · have : choose d 0 = 1 := by cases d <;> rfl
      rw [this]
      simp only [diggingSegs, execQW]
      omega
  | succ k ih =>
    intro root d xml hd hr
    obtain ⟨s, l, e1, e2⟩ := digging_head k
    have he : ∀ (e : Elem) (m : Nat), m < 100 → Writes e.content (nested m).info →
        recEmit env (diggingSegs k) (execQ env ev (diggingSegs k) false) e = [] ∧ choose m k ≤ recEmitW (diggingSegs k) (execQW env ev evw (diggingSegs k) false) e := by
      intro e m hm hw
      obtain ⟨i1, i2⟩ := ih false m e.content (by omega) (writes_reads ho hw)
      rw [e1] at i1 i2 ⊢
      rcases e2 with e2 | e2
      · simp only [recEmit, recEmitW, e2]
        exact ⟨by rw [i1]; rfl, i2⟩
      · simp only [recEmit, recEmitW, e2]
        exact ⟨by rw [i1]; rfl, i2⟩
    obtain ⟨r1, -, r3⟩ := recSearch_nested ho (tgt := fun e => (nameSeg b!"a").matches e.name) (f := fun j => choose j k) (L := 100) (fun e h => by simp only [h]; decide) he 100 d xml ⟨0, []⟩
      hr hd hd rfl (by simp only [maxRecursiveOperations]; omega)
    rw [sum_choose] at r3
    refine ⟨?_, ?_⟩
    · simp only [diggingSegs, execQ, execBody, handleRecursive, maxNestingDepth]
      rw [r1]
    · simp only [diggingSegs, execQW, execBodyW, recursiveW, maxNestingDepth]
      omega

end Verif
