import Verif.Model.Set
import Verif.Model.Fluent
/- Lemmas about the exported entry points. -/
namespace Verif

theorem finish_err {xml d : Bytes} {r : BRes} {e : Err} (h : finish xml r = .ret (d, some e)) : d = xml := by
  cases r <;> simp [finish] at h
  exact h.1.symm

theorem delete_err {o : Ord} {xml path d : Bytes} {opts : Option Options} {e : Err}
    (h : deleteWithOptions o xml path opts = .ret (d, some e)) : d = xml := by
  unfold deleteWithOptions at h
  repeat' split at h
  all_goals first
    | exact finish_err h
    | (simp only [Outcome.ret.injEq, Prod.mk.injEq, reduceCtorEq] at h; exact h.1.symm)
    | (simp at h)

theorem set_err {o : Ord} {xml path d : Bytes} {v : GoVal} {opts : Option Options} {e : Err}
    (h : setWithOptions o xml path v opts = .ret (d, some e)) : d = xml := by
  unfold setWithOptions at h
  repeat' split at h
  all_goals first
    | exact finish_err h
    | exact delete_err h
    | (simp only [Outcome.ret.injEq, Prod.mk.injEq, reduceCtorEq] at h; exact h.1.symm)
    | (simp at h)

theorem setManyLoop_err {o : Ord} {orig cur d : Bytes} {l : List (Bytes × GoVal)} {e : Err}
    (h : setManyLoop o orig cur l = .ret (d, some e)) : d = orig := by
  induction l generalizing cur with
  | nil => simp [setManyLoop] at h
  | cons x l ih =>
    obtain ⟨p, v⟩ := x
    simp only [setManyLoop] at h
    split at h
    · simp at h
    · simp only [Outcome.ret.injEq, Prod.mk.injEq] at h; exact h.1.symm
    · exact ih h

theorem deleteManyLoop_err {o : Ord} {orig cur d : Bytes} {l : List Bytes} {e : Err}
    (h : deleteManyLoop o orig cur l = .ret (d, some e)) : d = orig := by
  induction l generalizing cur with
  | nil => simp [deleteManyLoop] at h
  | cons p l ih =>
    simp only [deleteManyLoop] at h
    split at h
    · simp at h
    · simp only [Outcome.ret.injEq, Prod.mk.injEq] at h; exact h.1.symm
    · exact ih h

theorem allOutcomes_ret {α : Type} (l : List (Outcome α)) (as : List α) :
    allOutcomes l = .ret as ↔ l = as.map .ret := by
  induction l generalizing as with
  | nil =>
    simp only [allOutcomes, Outcome.ret.injEq]
    constructor
    · rintro rfl; rfl
    · intro h; cases as <;> simp_all
  | cons x l ih =>
    cases x with
    | panic =>
      simp only [allOutcomes]
      constructor
      · intro h; simp at h
      · intro h; cases as <;> simp at h
    | ret a =>
      simp only [allOutcomes]
      constructor
      · intro h
        split at h
        · simp at h
        · rename_i bs hb
          simp only [Outcome.ret.injEq] at h
          subst h
          rw [(ih bs).mp hb]; rfl
      · intro h
        cases as with
        | nil => simp at h
        | cons b bs =>
          simp only [List.map_cons, List.cons.injEq, Outcome.ret.injEq] at h
          obtain ⟨rfl, h⟩ := h
          rw [(ih bs).mpr h]

theorem allOutcomes_panic {α : Type} (l : List (Outcome α)) :
    allOutcomes l = .panic ↔ .panic ∈ l := by
  induction l with
  | nil => simp [allOutcomes]
  | cons x l ih =>
    cases x with
    | panic => simp [allOutcomes]
    | ret a =>
      simp only [allOutcomes, List.mem_cons, reduceCtorEq, false_or]
      rw [← ih]
      split
      · simp_all
      · rename_i h; simp [h]

theorem dedup_eq (seen l : List Bytes) :
    dedup seen l = (l.filter (fun p => !seen.contains p)).eraseDups := by
  induction l generalizing seen with
  | nil => simp [dedup]
  | cons p l ih =>
    simp only [dedup, List.filter_cons]
    by_cases h : seen.contains p
    · rw [if_pos h, ih]; simp only [h, Bool.not_true, Bool.false_eq_true, if_false]
    · rw [if_neg h, ih]
      simp only [h, Bool.not_false, if_true]
      rw [List.eraseDups_cons, List.filter_filter]
      congr 2
      apply List.filter_congr
      intro q _
      simp only [List.contains_cons, Bool.not_or]

theorem dedup_nil (l : List Bytes) : dedup [] l = l.eraseDups := by
  rw [dedup_eq]; congr 1; exact List.filter_eq_self.mpr (by simp)

end Verif
