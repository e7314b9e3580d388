import Verif.Lemmas.ValidPure
import Verif.Spec.Position
/- Every position the validator visits or reports is a position of the document. -/
namespace Verif
open Spec VPos

/-- The position of the parser is the position of the remaining suffix. -/
def VPos.At (xml : Bytes) (p : VPos) : Prop :=
  ∃ pre, xml = pre ++ p.rest ∧ p.line = 1 + pre.count 10 ∧ p.col = (lastLine pre).length

theorem VPos.At.isPosition {xml : Bytes} {p : VPos} (h : p.At xml) : IsPosition xml p.line p.col := by
  obtain ⟨pre, h1, h2, h3⟩ := h
  exact ⟨pre, p.rest, h1, h2, h3⟩

theorem VPos.At.adv {xml : Bytes} {p : VPos} (h : p.At xml) : p.adv.At xml := by
  obtain ⟨pre, h1, h2, h3⟩ := h
  unfold VPos.adv
  cases hr : p.rest with
  | nil => exact ⟨pre, h1, h2, h3⟩
  | cons c cs =>
    rw [hr] at h1
    by_cases hc : c = 10
    · simp only [hc, if_true]
      refine ⟨pre ++ [10], by rw [h1, hc]; simp, by simp [h2]; omega, by simp [lastLine]⟩
    · simp only [hc, if_false]
      refine ⟨pre ++ [c], by rw [h1]; simp, ?_, ?_⟩
      · simp only [h2, List.count_append, List.count_cons, List.count_nil, beq_iff_eq, hc, if_false]
        omega
      · simp only [h3, lastLine, List.reverse_append, List.reverse_cons, List.reverse_nil, List.nil_append,
          List.cons_append, List.takeWhile_cons, hc, ne_eq, not_false_eq_true, decide_true, if_true, List.length_append]
        simp

/-- A result that is a position of the document. -/
def OkAt (xml : Bytes) : Except VErr VPos → Prop
  | .ok p => p.At xml
  | .error e => IsPosition xml e.line e.col

variable {xml : Bytes}

theorem At.advN {p : VPos} (h : p.At xml) (n : Nat) : (VPos.advN n p).At xml := by
  induction n generalizing p with
  | zero => exact h
  | succ n ih => exact ih h.adv

theorem At.skipWsT {p : VPos} (h : p.At xml) : p.skipWsT.At xml := by
  fun_induction VPos.skipWsT p with
  | case1 => exact h
  | case2 p c cs _ _ ih => exact ih h.adv
  | case3 => exact h

theorem At.readNameT {p : VPos} {k : Nat} (h : p.At xml) : (p.readNameT k).2.At xml := by
  fun_induction VPos.readNameT k p with
  | case1 => exact h
  | case2 => exact h
  | case3 k p c cs _ _ _ q ih => exact ih h.adv
  | case4 => exact h

theorem At.skipUntilT {p : VPos} {k : Nat} {d : UInt8} (h : p.At xml) : OkAt xml (p.skipUntilT d k) := by
  fun_induction VPos.skipUntilT d k p with
  | case1 => exact h.isPosition
  | case2 => exact h.isPosition
  | case3 => exact h.adv
  | case4 => rename_i ih; exact ih h.adv

theorem At.skipCommentT {p : VPos} (h : p.At xml) : OkAt xml p.skipCommentT := by
  fun_induction VPos.skipCommentT p with
  | case1 => exact h.adv.adv.adv
  | case2 => exact h.adv.adv.isPosition
  | case3 => rename_i ih; exact ih h.adv
  | case4 => exact h.isPosition

theorem At.skipCDATAT {p : VPos} (h : p.At xml) : OkAt xml p.skipCDATAT := by
  fun_induction VPos.skipCDATAT p with
  | case1 => exact h.adv.adv.adv
  | case2 => rename_i ih; exact ih h.adv
  | case3 => exact h.isPosition

theorem At.skipDoctypeT {p : VPos} {d : Int} (h : p.At xml) : OkAt xml (p.skipDoctypeT d) := by
  fun_induction VPos.skipDoctypeT d p with
  | case1 => exact h.isPosition
  | case2 => rename_i ih; exact ih h.adv
  | case3 => rename_i ih; exact ih h.adv
  | case4 => exact h.adv
  | case5 => rename_i ih; exact ih h.adv

theorem At.attrsT {n : Nat} {p : VPos} (h : p.At xml) : OkAt xml (attrsT n p) := by
  induction n generalizing p with
  | zero =>
    unfold Verif.attrsT
    simp only
    have h1 := At.skipWsT h
    repeat' split
    all_goals first | exact h1.isPosition | exact h1
  | succ n ih =>
    unfold Verif.attrsT
    simp only
    have h1 := At.skipWsT h
    have h3 := At.skipWsT (At.readNameT (k := 0) h1)
    have h4 := At.skipWsT h3.adv
    split
    · exact h1.isPosition
    · split
      · exact h1
      · split
        · exact h1.isPosition
        · split
          · exact h3.isPosition
          · split
            · exact h4.isPosition
            · split
              · exact h4.isPosition
              · rename_i q r hq hqq
                have h5 := At.skipUntilT (k := 0) (d := q) h4.adv
                split
                · rename_i e he; rw [he] at h5; exact h5
                · rename_i p5 he; rw [he] at h5; exact ih h5

/-- State invariant: the current position and the recorded positions of the open tags. -/
def VState.At (xml : Bytes) (st : VState) : Prop :=
  st.pos.At xml ∧ ∀ e ∈ st.stack, IsPosition xml e.2.line e.2.col

def OkSt (xml : Bytes) : Except VErr VState → Prop
  | .ok st => st.At xml
  | .error e => IsPosition xml e.line e.col

theorem At.at {st : VState} (h : st.At xml) {r : Except VErr VPos} (hr : OkAt xml r) : OkSt xml (st.at r) := by
  cases r with
  | error e => exact hr
  | ok p => exact ⟨hr, h.2⟩

theorem At.openTagT {e : VLoc} (he : IsPosition xml e.line e.col) {st : VState} (h : st.At xml) :
    OkSt xml (openTagT e st) := by
  unfold Verif.openTagT
  simp only
  have ha := At.attrsT (n := maxAttributes) (At.readNameT (k := 0) h.1)
  split
  · exact h.1.isPosition
  · split
    · exact he
    · split
      · rename_i e' hh; rw [hh] at ha; exact ha
      · rename_i p2 hh
        rw [hh] at ha
        have h3 := At.skipWsT ha
        split
        · split
          · exact h3.adv.isPosition
          · exact ⟨h3.adv.adv, h.2⟩
        · split
          · exact h3.isPosition
          · refine ⟨h3.adv, ?_⟩
            intro x hx
            rcases List.mem_cons.mp hx with rfl | hx
            · exact he
            · exact h.2 x hx

theorem At.closeTagT {e : VLoc} (he : IsPosition xml e.line e.col) {st : VState} (h : st.At xml) :
    OkSt xml (closeTagT e st) := by
  unfold Verif.closeTagT
  simp only
  have h2 := At.skipWsT (At.readNameT (k := 0) h.1)
  split
  · exact h.1.isPosition
  · split
    · exact h2.isPosition
    · split
      · exact he
      · rename_i t te ts hst
        split
        · exact he
        · exact ⟨h2.adv, fun x hx => h.2 x (by rw [hst]; simp [hx])⟩

theorem At.tagT {st : VState} (h : st.At xml) : OkSt xml (tagT st) := by
  unfold Verif.tagT
  simp only
  have he := h.1.isPosition
  have h1 := h.1.adv
  split
  · exact he
  · split
    · exact At.at h (At.skipUntilT h1.adv)
    · split
      · split
        · exact At.at h (At.skipDoctypeT h1.adv)
        · split
          · exact At.at h (At.skipCommentT h1.adv.adv.adv)
          · split
            · exact At.at h (At.skipCDATAT (At.advN h1.adv 7))
            · exact At.at h (At.skipUntilT h1.adv)
      · split
        · exact At.closeTagT he ⟨h1.adv, h.2⟩
        · exact At.openTagT he ⟨h1, h.2⟩

theorem At.stepT {c : UInt8} {st : VState} (h : st.At xml) : OkSt xml (stepT c st) := by
  unfold Verif.stepT
  split
  · exact At.tagT h
  · split
    · split
      · exact h.1.isPosition
      · exact ⟨h.1.adv, h.2⟩
    · exact ⟨h.1.adv, h.2⟩

theorem isPosition_start (xml : Bytes) : IsPosition xml 1 0 := ⟨[], xml, rfl, rfl, rfl⟩

theorem At.validateLoop {n : Nat} {st : VState} (h : st.At xml) {e : VErr} (he : validateLoop n st = some e) :
    IsPosition xml e.line e.col := by
  induction n generalizing st with
  | zero =>
    simp only [Verif.validateLoop, Option.some.injEq] at he
    rw [← he]; exact h.1.isPosition
  | succ n ih =>
    unfold Verif.validateLoop at he
    have h1 : ({ st with pos := st.pos.skipWsT } : VState).At xml := ⟨At.skipWsT h.1, h.2⟩
    simp only at he
    split at he
    · split at he
      · rename_i t te ts hst
        simp only [Option.some.injEq] at he
        rw [← he]; exact h.2 (t, te) (by rw [hst]; simp)
      · split at he
        · simp at he
        · simp only [Option.some.injEq] at he
          rw [← he]; exact isPosition_start xml
    · rename_i c cs _
      have h2 := At.stepT (c := c) h1
      split at he
      · rename_i e' hs
        simp only [Option.some.injEq] at he
        rw [hs] at h2; rw [← he]; exact h2
      · rename_i st2 hs
        rw [hs] at h2; exact ih h2 he

theorem validate_isPosition (xml : Bytes) (e : VErr) (he : validate xml = some e) : IsPosition xml e.line e.col := by
  unfold validate at he
  split at he
  · simp only [Option.some.injEq] at he; rw [← he]; exact isPosition_start xml
  · split at he
    · simp only [Option.some.injEq] at he; rw [← he]; exact isPosition_start xml
    · exact At.validateLoop ⟨⟨[], rfl, rfl, rfl⟩, by simp⟩ he

end Verif
