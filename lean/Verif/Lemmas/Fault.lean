import Verif.Lemmas.Grammar
import Verif.Lemmas.Position
import Verif.Spec.Fault
/- The validator reports the fault of `Spec.Fault`: each function at an exact place of the document. -/
namespace Verif
open Spec VPos

/-! ### places -/

/-- The parser after `pre`, before `rest`. -/
def posAt (pre rest : Bytes) : VPos := ⟨rest, lineAt pre, colAt pre⟩

def locAt (pre : Bytes) : VLoc := ⟨lineAt pre, colAt pre⟩

/-- The report `m` at the place after `pre`. -/
def report (pre m : Bytes) : VErr := ⟨lineAt pre, colAt pre, m⟩

theorem posAt_rest (pre r : Bytes) : (posAt pre r).rest = r := rfl
theorem posAt_err (pre r m : Bytes) : (posAt pre r).err m = report pre m := rfl
theorem posAt_loc (pre r : Bytes) : (posAt pre r).loc = locAt pre := rfl
theorem locAt_err (pre m : Bytes) : (locAt pre).err m = report pre m := rfl

theorem posAt_adv (pre : Bytes) (c : UInt8) (r : Bytes) : (posAt pre (c :: r)).adv = posAt (pre ++ [c]) r := by
  unfold VPos.adv posAt
  by_cases hc : c = 10
  · subst hc
    simp only [if_true, VPos.mk.injEq, true_and]
    refine ⟨by simp [lineAt]; omega, by simp [colAt, lastLine]⟩
  · simp only [hc, if_false, VPos.mk.injEq, true_and]
    refine ⟨by simp [lineAt, hc], ?_⟩
    simp [colAt, lastLine, hc]

theorem posAt_advN (pre w r : Bytes) : VPos.advN w.length (posAt pre (w ++ r)) = posAt (pre ++ w) r := by
  induction w generalizing pre with
  | nil => simp [VPos.advN]
  | cons c w ih =>
    simp only [List.length_cons, VPos.advN, List.cons_append, posAt_adv]
    rw [ih]; simp

theorem NoWs.skip {r : Bytes} (h : NoWs r) : skipWs r = r := by
  cases r with
  | nil => rfl
  | cons c t => exact skipWs_cons (h c t rfl) t

theorem posAt_skipWs (pre : Bytes) {w r : Bytes} (hw : ∀ c ∈ w, IsWs c) (hr : NoWs r) :
    (posAt pre (w ++ r)).skipWsT = posAt (pre ++ w) r := by
  induction w generalizing pre with
  | nil =>
    simp only [List.nil_append, List.append_nil]
    cases r with
    | nil => rw [VPos.skipWsT.eq_def]; rfl
    | cons c t =>
      rw [VPos.skipWsT.eq_def]
      have : isWs c = false := by
        have := hr c t rfl
        rw [← isWs_iff] at this; simpa using this
      simp [posAt, this]
  | cons c w ih =>
    rw [VPos.skipWsT.eq_def]
    have hc : isWs c = true := (isWs_iff c).mpr (hw c (by simp))
    have := ih (pre ++ [c]) (fun x hx => hw x (by simp [hx]))
    rw [← posAt_adv] at this
    rw [show pre ++ c :: w = pre ++ [c] ++ w by simp, ← this]
    simp [posAt, hc]

theorem posAt_skipWs0 (pre : Bytes) {r : Bytes} (hr : NoWs r) : (posAt pre r).skipWsT = posAt pre r := by
  have := posAt_skipWs pre (w := []) (by simp) hr
  simpa using this

/-! ### names -/

theorem posAt_readName (pre : Bytes) {n t : Bytes} {k : Nat} (h1 : ∀ c ∈ n, NameChar c) (h2 : ∀ c u, t = c :: u → ¬ NameChar c)
    (h3 : k + n.length ≤ 1048576 ∨ t = [] ∧ k + n.length ≤ 1048577) :
    (posAt pre (n ++ t)).readNameT k = (some n, posAt (pre ++ n) t) := by
  have hm := maxTok
  induction n generalizing pre k with
  | nil =>
    simp only [List.nil_append, List.append_nil]
    rw [VPos.readNameT.eq_def]
    cases t with
    | nil => rfl
    | cons c u =>
      have hc : VPos.isNameChar c = false := by
        have := h2 c u rfl
        rw [← isNameChar_iff] at this; simpa using this
      have hk : ¬ k > maxTokenSize := by
        rcases h3 with h3 | ⟨h3, -⟩
        · simp at h3; omega
        · simp at h3
      simp [posAt, hc, hk]
  | cons c n ih =>
    have hc : VPos.isNameChar c = true := (isNameChar_iff c).mpr (h1 c (by simp))
    have hk : ¬ k > maxTokenSize := by
      simp only [List.length_cons] at h3
      omega
    have := ih (pre ++ [c]) (k := k + 1) (fun x hx => h1 x (by simp [hx])) (by
      simp only [List.length_cons] at h3
      rcases h3 with h3 | ⟨h3, h4⟩
      · left; omega
      · right; exact ⟨h3, by omega⟩)
    rw [VPos.readNameT.eq_def]
    simp only [List.cons_append, posAt_rest, if_neg hk, hc, if_true, posAt_adv, this]
    simp

theorem posAt_readName_long (pre : Bytes) {w t : Bytes} {c : UInt8} {k : Nat} (h1 : ∀ c ∈ w, NameChar c)
    (h2 : k + w.length = 1048577) : ((posAt pre (w ++ c :: t)).readNameT k).1 = none := by
  have hm := maxTok
  induction w generalizing pre k with
  | nil =>
    rw [VPos.readNameT.eq_def]
    have hk : k > maxTokenSize := by simp at h2; omega
    simp [posAt, hk]
  | cons x w ih =>
    have hc : VPos.isNameChar x = true := (isNameChar_iff x).mpr (h1 x (by simp))
    have hk : ¬ k > maxTokenSize := by simp only [List.length_cons] at h2; omega
    have := ih (pre ++ [x]) (k := k + 1) (fun y hy => h1 y (by simp [hy])) (by simp only [List.length_cons] at h2; omega)
    rw [VPos.readNameT.eq_def]
    simp only [List.cons_append, posAt_rest, if_neg hk, hc, if_true, posAt_adv, this]
    rfl

theorem Spec.Word.read {n t : Bytes} (h : Word n t) (pre : Bytes) :
    (posAt pre (n ++ t)).readNameT 0 = (some n, posAt (pre ++ n) t) :=
  posAt_readName pre h.1 h.2.1 (by
    rcases h.2.2 with h | ⟨h, h'⟩
    · left; omega
    · right; exact ⟨h, by omega⟩)

theorem Spec.TooLong.read {r : Bytes} (h : TooLong r) (pre : Bytes) : ((posAt pre r).readNameT 0).1 = none := by
  obtain ⟨w, c, t, rfl, h1, h2⟩ := h
  exact posAt_readName_long pre h2 (by omega)

/-- Every text starts with a run of name bytes, possibly empty or too long. -/
theorem word_or_long (r : Bytes) : TooLong r ∨ ∃ n t, r = n ++ t ∧ Word n t := by
  have key : ∀ r : Bytes, ∃ n t, r = n ++ t ∧ (∀ c ∈ n, NameChar c) ∧ (∀ c u, t = c :: u → ¬ NameChar c) := by
    intro r
    induction r with
    | nil => exact ⟨[], [], rfl, by simp, by simp⟩
    | cons c r ih =>
      by_cases hc : NameChar c
      · obtain ⟨n, t, rfl, h1, h2⟩ := ih
        refine ⟨c :: n, t, rfl, ?_, h2⟩
        intro x hx
        rcases List.mem_cons.mp hx with rfl | hx
        · exact hc
        · exact h1 x hx
      · refine ⟨[], c :: r, rfl, by simp, ?_⟩
        intro x u h
        simp only [List.cons.injEq] at h
        rw [← h.1]; exact hc
  obtain ⟨n, t, rfl, h1, h2⟩ := key r
  by_cases hl : n.length ≤ 1048576
  · exact .inr ⟨n, t, rfl, h1, h2, .inl hl⟩
  · by_cases ht : t = [] ∧ n.length = 1048577
    · exact .inr ⟨n, t, rfl, h1, h2, .inr ht⟩
    · left
      have hd : (n ++ t).drop 1048577 ≠ [] := by
        intro h0
        have := congrArg List.length h0
        simp only [List.length_drop, List.length_append, List.length_nil] at this
        have h3 : t.length = 0 := by omega
        exact ht ⟨List.eq_nil_of_length_eq_zero h3, by omega⟩
      cases hdr : (n ++ t).drop 1048577 with
      | nil => exact absurd hdr hd
      | cons c u =>
        refine ⟨n.take 1048577, c, u, ?_, by rw [List.length_take]; omega, fun x hx => h1 x (List.mem_of_mem_take hx)⟩
        have e := List.take_append_drop 1048577 (n ++ t)
        rw [hdr, List.take_append_of_le_length (by omega)] at e
        exact e.symm

theorem Spec.GoodStart.valid {n : Bytes} (h : GoodStart n) (hn : ∀ c ∈ n, NameChar c) : validName n = true :=
  (validName_iff n).mpr ⟨h, hn⟩

theorem digit_iff (c : UInt8) : isDigit c = true ↔ 0x30 ≤ c ∧ c ≤ 0x39 := by
  simp [isDigit]

theorem Spec.BadStart.msg {n why : Bytes} (h : BadStart n why) : validName n = false ∧ nameReason n = why ∧ n ≠ [] := by
  cases h with
  | digit h =>
    rename_i c cs
    have hd := (digit_iff c).mpr h
    refine ⟨?_, by simp [nameReason, hd], by simp⟩
    cases hv : validName (c :: cs) with
    | false => rfl
    | true =>
      obtain ⟨⟨x, xs, hx, hs⟩, -⟩ := (validName_iff _).mp hv
      simp only [List.cons.injEq] at hx
      rw [← hx.1, ← isNameStart_iff] at hs
      exfalso
      obtain ⟨h1, h2⟩ := h
      simp only [isAlpha, Bool.or_eq_true, Bool.and_eq_true, decide_eq_true_eq] at hs
      simp only [UInt8.le_iff_toNat_le, ← UInt8.toNat_inj] at h1 h2 hs
      simp at h1 h2 hs
      omega
  | other h =>
    rename_i c cs
    refine ⟨?_, ?_, by simp⟩
    · rcases h with rfl | rfl <;> simp [validName, isAlpha]
    · rcases h with rfl | rfl <;> simp [nameReason, isDigit]

theorem start_cases {n : Bytes} (h : ∀ c ∈ n, NameChar c) (h0 : n ≠ []) : GoodStart n ∨ ∃ why, BadStart n why := by
  cases n with
  | nil => exact absurd rfl h0
  | cons c cs =>
    rcases h c (by simp) with h | h | h
    · exact .inl ⟨c, cs, rfl, h⟩
    · exact .inr ⟨_, .digit h⟩
    · exact .inr ⟨_, .other h⟩

/-! ### delimiters -/

theorem posAt_until (pre : Bytes) {d : UInt8} {w r : Bytes} {k : Nat} (hd : d ∉ w) (hk : k + w.length ≤ 1048576) :
    (posAt pre (w ++ d :: r)).skipUntilT d k = .ok (posAt (pre ++ w ++ [d]) r) := by
  have hm := maxTok
  induction w generalizing pre k with
  | nil =>
    rw [VPos.skipUntilT.eq_def]
    have hk' : ¬ k > maxTokenSize := by simp at hk; omega
    simp only [List.nil_append, posAt_rest, if_neg hk', if_true, posAt_adv, List.append_nil]
  | cons c w ih =>
    simp only [List.mem_cons, not_or] at hd
    simp only [List.length_cons] at hk
    have hk' : ¬ k > maxTokenSize := by omega
    have := ih (pre ++ [c]) (k := k + 1) hd.2 (by omega)
    rw [VPos.skipUntilT.eq_def]
    simp only [List.cons_append, posAt_rest, if_neg hk', if_neg (Ne.symm hd.1), posAt_adv, this]
    simp

theorem posAt_until_end (pre : Bytes) {d : UInt8} {r : Bytes} {k : Nat} (hd : d ∉ r) (hk : k + r.length ≤ 1048577) :
    (posAt pre r).skipUntilT d k = .error (report (pre ++ r) (b!"unexpected end of document (expected '" ++ [d] ++ b!"')")) := by
  have hm := maxTok
  induction r generalizing pre k with
  | nil => rw [VPos.skipUntilT.eq_def]; simp [posAt_rest, posAt_err]
  | cons c w ih =>
    simp only [List.mem_cons, not_or] at hd
    simp only [List.length_cons] at hk
    have hk' : ¬ k > maxTokenSize := by omega
    have := ih (pre ++ [c]) (k := k + 1) hd.2 (by omega)
    rw [VPos.skipUntilT.eq_def]
    simp only [posAt_rest, if_neg hk', if_neg (Ne.symm hd.1), posAt_adv, this]
    simp

theorem posAt_until_large (pre : Bytes) {d c : UInt8} {w t : Bytes} {k : Nat} (hd : d ∉ w) (hk : k + w.length = 1048577) :
    (posAt pre (w ++ c :: t)).skipUntilT d k = .error (report (pre ++ w) b!"token exceeds maximum size") := by
  have hm := maxTok
  induction w generalizing pre k with
  | nil =>
    rw [VPos.skipUntilT.eq_def]
    have hk' : k > maxTokenSize := by simp at hk; omega
    simp only [List.nil_append, posAt_rest, if_pos hk', posAt_err, List.append_nil]
  | cons x w ih =>
    simp only [List.mem_cons, not_or] at hd
    simp only [List.length_cons] at hk
    have hk' : ¬ k > maxTokenSize := by omega
    have := ih (pre ++ [x]) (k := k + 1) hd.2 (by omega)
    rw [VPos.skipUntilT.eq_def]
    simp only [List.cons_append, posAt_rest, if_neg hk', if_neg (Ne.symm hd.1), posAt_adv, this]
    simp

theorem Spec.Unended.skip {d : UInt8} {r u m : Bytes} (h : Unended d r u m) (pre : Bytes) :
    (posAt pre r).skipUntilT d 0 = .error (report (pre ++ u) m) := by
  cases h with
  | ending h hl => exact posAt_until_end pre h (by omega)
  | large h hl => exact posAt_until_large pre h (by omega)

theorem ended_or (d : UInt8) (r : Bytes) :
    (∃ w t, r = w ++ d :: t ∧ d ∉ w ∧ w.length ≤ 1048576) ∨ ∃ u m, Unended d r u m := by
  have key : ∀ r : Bytes, d ∉ r ∨ ∃ w t, r = w ++ d :: t ∧ d ∉ w := by
    intro r
    induction r with
    | nil => left; simp
    | cons c r ih =>
      by_cases hc : c = d
      · exact .inr ⟨[], r, by rw [hc]; rfl, by simp⟩
      · rcases ih with h | ⟨w, t, rfl, h⟩
        · left; simp [Ne.symm hc, h]
        · right; exact ⟨c :: w, t, rfl, by simp [Ne.symm hc, h]⟩
  have big : ∀ (w t : Bytes), d ∉ w → 1048577 ≤ w.length → 1048577 < (w ++ t).length → ∃ u m, Unended d (w ++ t) u m := by
    intro w t hw hl hl2
    cases hdr : (w ++ t).drop 1048577 with
    | nil =>
      have := congrArg List.length hdr
      simp only [List.length_drop, List.length_nil] at this
      omega
    | cons c u =>
      have e := List.take_append_drop 1048577 (w ++ t)
      rw [hdr, List.take_append_of_le_length hl] at e
      rw [← e]
      exact ⟨_, _, .large (fun hx => hw (List.mem_of_mem_take hx)) (by rw [List.length_take]; omega)⟩
  rcases key r with h | ⟨w, t, rfl, h⟩
  · by_cases hl : r.length ≤ 1048577
    · exact .inr ⟨_, _, .ending h hl⟩
    · right
      have := big r [] h (by omega) (by simp; omega)
      simpa using this
  · by_cases hl : w.length ≤ 1048576
    · exact .inl ⟨w, t, rfl, h, hl⟩
    · exact .inr (big w (d :: t) h (by omega) (by simp; omega))


/-! ### successes, from the validator without positions -/

theorem posAt_at (pre r : Bytes) : (posAt pre r).At (pre ++ r) := ⟨pre, rfl, rfl, rfl⟩

theorem at_posAt {xml q : Bytes} {p : VPos} (h : p.At xml) (hx : xml = q ++ p.rest) : p = posAt q p.rest := by
  obtain ⟨pre, h1, h2, h3⟩ := h
  rw [h1] at hx
  have := List.append_cancel_right hx
  subst this
  obtain ⟨a, b, c⟩ := p
  simp only [posAt, VPos.mk.injEq, true_and]
  exact ⟨h2, h3⟩

theorem ok_posAt {f : Except VErr VPos} {xml q r : Bytes} (h1 : f.toOption.map VPos.rest = some r) (h2 : OkAt xml f)
    (hx : xml = q ++ r) : f = .ok (posAt q r) := by
  cases f with
  | error e => simp [Except.toOption] at h1
  | ok p =>
    simp only [Except.toOption, Option.map_some, Option.some.injEq] at h1
    subst h1
    rw [at_posAt h2 hx]
    rfl

theorem posAt_comment (pre : Bytes) {b : Bytes} (h : ¬ b!"--" <:+: b ++ b!"-") (r : Bytes) :
    (posAt pre (b ++ b!"-->" ++ r)).skipCommentT = .ok (posAt (pre ++ b ++ b!"-->") r) :=
  ok_posAt (by rw [skipCommentT_rest, posAt_rest, commentR_of h]) (At.skipCommentT (posAt_at _ _)) (by simp)

theorem posAt_cdata (pre : Bytes) {b : Bytes} (h : ¬ b!"]]>" <:+: b) (r : Bytes) :
    (posAt pre (b ++ b!"]]>" ++ r)).skipCDATAT = .ok (posAt (pre ++ b ++ b!"]]>") r) :=
  ok_posAt (by rw [skipCDATAT_rest, posAt_rest, cdataR_of h]) (At.skipCDATAT (posAt_at _ _)) (by simp)

theorem posAt_doctype (pre : Bytes) {b : Bytes} (h0 : brackets b = 0) (h : ∀ p, p ++ b!">" <+: b → brackets p ≠ 0)
    (r : Bytes) : (posAt pre (b ++ c!">" :: r)).skipDoctypeT 0 = .ok (posAt (pre ++ b ++ b!">") r) :=
  ok_posAt (by rw [skipDoctypeT_rest, posAt_rest, doctypeR_of (by omega) (fun p hp => by have := h p hp; omega)])
    (At.skipDoctypeT (posAt_at _ _)) (by simp)

/-! ### unfinished comments, CDATA sections and DOCTYPEs -/

theorem comment_step (pre : Bytes) (a b c : UInt8) (t : Bytes) : (posAt pre (a :: b :: c :: t)).skipCommentT =
    if a = c!"-" && b = c!"-" then
      if c = c!">" then .ok (posAt (pre ++ [a, b, c]) t) else .error (report (pre ++ [a, b]) b!"'--' not allowed in comment")
    else (posAt (pre ++ [a]) (b :: c :: t)).skipCommentT := by
  rw [VPos.skipCommentT.eq_def]
  simp only [posAt_rest, posAt_adv, List.head?_cons, Option.some.injEq, posAt_err]
  simp

theorem comment_stop (pre r : Bytes) (h : r.length < 3) :
    (posAt pre r).skipCommentT = .error (report pre b!"unclosed comment") := by
  rw [VPos.skipCommentT.eq_def]
  match r, h with
  | [], _ => rfl
  | [_], _ => rfl
  | [_, _], _ => rfl
  | _ :: _ :: _ :: _, h => simp at h; omega

theorem two_cons {x : UInt8} {l : Bytes} : ¬ [x, x] <:+: l → ∀ a b t, l = a :: b :: t → ¬ (a = x ∧ b = x) := by
  rintro h a b t rfl ⟨rfl, rfl⟩
  exact h ⟨[], t, by simp⟩

theorem not_infix_cons_iff {w l : Bytes} {c : UInt8} : ¬ w <:+: c :: l ↔ ¬ w <+: c :: l ∧ ¬ w <:+: l := by
  rw [List.infix_cons_iff]; simp

theorem Spec.CommentFault.skip {r u m : Bytes} (h : CommentFault r u m) (pre : Bytes) :
    (posAt pre r).skipCommentT = .error (report (pre ++ u) m) := by
  cases h with
  | short h => rw [comment_stop _ _ (by omega)]; simp
  | @dashes w c t h hc =>
    induction w generalizing pre with
    | nil => simp [comment_step, hc]
    | cons x w ih =>
      obtain ⟨y, z, v, e⟩ : ∃ y z v, w ++ b!"--" ++ c :: t = y :: z :: v := by
        match w with
        | [] => exact ⟨_, _, _, rfl⟩
        | [_] => exact ⟨_, _, _, rfl⟩
        | _ :: _ :: _ => exact ⟨_, _, _, rfl⟩
      have hy : ¬ (x = c!"-" ∧ y = c!"-") := by
        rintro ⟨rfl, rfl⟩
        refine h ⟨[], (w ++ b!"-").drop 1, ?_⟩
        cases w with
        | nil => simp
        | cons a w =>
          simp only [List.cons_append, List.cons.injEq] at e
          simp [e.1]
      have := ih (pre ++ [x]) (not_infix_cons h)
      rw [e] at this
      rw [show x :: w ++ b!"--" ++ c :: t = x :: y :: z :: v by rw [← e]; simp, comment_step, if_neg (by simpa using hy), this]
      simp
  | @ending _ x y h =>
    induction u generalizing pre with
    | nil => rw [comment_stop _ _ (by simp)]; simp
    | cons a w ih =>
      obtain ⟨b, c, v, e⟩ : ∃ b c v, w ++ [x, y] = b :: c :: v := by
        match w with
        | [] => exact ⟨_, _, _, rfl⟩
        | [_] => exact ⟨_, _, _, rfl⟩
        | _ :: _ :: _ => exact ⟨_, _, _, rfl⟩
      have hy : ¬ (a = c!"-" ∧ b = c!"-") := by
        rintro ⟨rfl, rfl⟩
        refine h ⟨[], (w ++ [x]).drop 1, ?_⟩
        cases w with
        | nil => simp only [List.nil_append, List.cons.injEq] at e; simp [e.1]
        | cons a w =>
          simp only [List.cons_append, List.cons.injEq] at e
          simp [e.1]
      have := ih (pre ++ [a]) (not_infix_cons h)
      rw [e] at this
      rw [show a :: w ++ [x, y] = a :: b :: c :: v by rw [← e]; simp, comment_step, if_neg (by simpa using hy), this]
      simp

theorem comment_or (r : Bytes) : (∃ w t, r = w ++ b!"-->" ++ t ∧ ¬ b!"--" <:+: w ++ b!"-") ∨ ∃ u m, CommentFault r u m := by
  induction r with
  | nil => exact .inr ⟨_, _, .short (by simp)⟩
  | cons a r ih =>
    match r, ih with
    | [], _ => exact .inr ⟨_, _, .short (by simp)⟩
    | [b], _ => exact .inr ⟨_, _, .ending (w := []) (x := a) (y := b) (by
        intro h
        have := h.length_le
        simp at this)⟩
    | b :: c :: t, ih =>
      by_cases hab : a = c!"-" ∧ b = c!"-"
      · obtain ⟨rfl, rfl⟩ := hab
        have h0 : ¬ b!"--" <:+: ([] : Bytes) ++ b!"-" := by
          intro h
          have := h.length_le
          simp at this
        by_cases hc : c = c!">"
        · subst hc; exact .inl ⟨[], t, rfl, h0⟩
        · exact .inr ⟨_, _, .dashes (w := []) (t := t) h0 hc⟩
      · have hp : ∀ l : Bytes, (∃ v, b :: v = l) → ¬ b!"--" <+: a :: l := by
          rintro l ⟨v, rfl⟩ h
          simp only [List.cons_prefix_cons] at h
          exact hab ⟨h.1.symm, h.2.1.symm⟩
        rcases ih with ⟨w, u, e, h⟩ | ⟨u, m, h⟩
        · refine .inl ⟨a :: w, u, by rw [e]; simp, ?_⟩
          rw [List.cons_append, not_infix_cons_iff]
          refine ⟨hp _ ?_, h⟩
          cases w with
          | nil => simp at e; exact ⟨[], by simp [e.1]⟩
          | cons x w => simp at e; exact ⟨_, by rw [e.1]; rfl⟩
        · right
          generalize hr : b :: c :: t = r at h
          cases h with
          | short h => rw [← hr] at h; simp at h; omega
          | @dashes w x v h hx =>
            refine ⟨_, _, .dashes (w := a :: w) (t := v) ?_ hx⟩
            rw [List.cons_append, not_infix_cons_iff]
            refine ⟨hp _ ?_, h⟩
            cases w with
            | nil => simp at hr; exact ⟨[], by simp [hr.1]⟩
            | cons x w => simp at hr; exact ⟨_, by rw [hr.1]; rfl⟩
          | @ending _ x y h =>
            refine ⟨_, _, .ending (w := a :: u) ?_⟩
            rw [List.cons_append, not_infix_cons_iff]
            refine ⟨hp _ ?_, h⟩
            cases u with
            | nil => simp at hr; exact ⟨[], by simp [hr.1]⟩
            | cons x w => simp at hr; exact ⟨_, by rw [hr.1]; rfl⟩

theorem cdata_step (pre : Bytes) (a b c : UInt8) (t : Bytes) : (posAt pre (a :: b :: c :: t)).skipCDATAT =
    if a = c!"]" && b = c!"]" && c = c!">" then .ok (posAt (pre ++ [a, b, c]) t)
    else (posAt (pre ++ [a]) (b :: c :: t)).skipCDATAT := by
  rw [VPos.skipCDATAT.eq_def]
  simp only [posAt_rest, posAt_adv]
  simp

theorem cdata_stop (pre r : Bytes) (h : r.length < 3) :
    (posAt pre r).skipCDATAT = .error (report pre b!"unclosed CDATA section") := by
  rw [VPos.skipCDATAT.eq_def]
  match r, h with
  | [], _ => rfl
  | [_], _ => rfl
  | [_, _], _ => rfl
  | _ :: _ :: _ :: _, h => simp at h; omega

theorem Spec.CDataFault.skip {r u m : Bytes} (h : CDataFault r u m) (pre : Bytes) :
    (posAt pre r).skipCDATAT = .error (report (pre ++ u) m) := by
  cases h with
  | short h => rw [cdata_stop _ _ (by omega)]; simp
  | @ending _ x y h =>
    induction u generalizing pre with
    | nil => rw [cdata_stop _ _ (by simp)]; simp
    | cons a w ih =>
      obtain ⟨b, c, v, e⟩ : ∃ b c v, w ++ [x, y] = b :: c :: v := by
        match w with
        | [] => exact ⟨_, _, _, rfl⟩
        | [_] => exact ⟨_, _, _, rfl⟩
        | _ :: _ :: _ => exact ⟨_, _, _, rfl⟩
      have hy : ¬ ((a = c!"]" ∧ b = c!"]") ∧ c = c!">") := by
        rintro ⟨⟨rfl, rfl⟩, rfl⟩
        exact h ⟨[], v, by rw [List.cons_append, e]; simp⟩
      have := ih (pre ++ [a]) (not_infix_cons h)
      rw [e] at this
      rw [show a :: w ++ [x, y] = a :: b :: c :: v by rw [← e]; simp, cdata_step, if_neg (by simpa using hy), this]
      simp

theorem cdata_or (r : Bytes) : (∃ w t, r = w ++ b!"]]>" ++ t ∧ ¬ b!"]]>" <:+: w) ∨ ∃ u m, CDataFault r u m := by
  cases h : cdataR r with
  | some t =>
    obtain ⟨w, h1, h2⟩ := cdataR_inv h
    exact .inl ⟨w, t, h1, h2⟩
  | none =>
    right
    have key : ∀ r : Bytes, cdataR r = none → ¬ b!"]]>" <:+: r := by
      intro r
      induction r with
      | nil => intro _ h; have := h.length_le; simp at this
      | cons a r ih =>
        match r, ih with
        | [], _ => intro _ h; have := h.length_le; simp at this
        | [b], _ => intro _ h; have := h.length_le; simp at this
        | b :: c :: t, ih =>
          intro h
          rw [cdataR] at h
          split at h
          · simp at h
          · rename_i hab
            rw [not_infix_cons_iff]
            refine ⟨?_, ih h⟩
            intro hp
            simp only [List.cons_prefix_cons] at hp
            simp [← hp.1, ← hp.2.1, ← hp.2.2.1] at hab
    have hk := key r h
    by_cases hl : r.length < 2
    · exact ⟨_, _, .short hl⟩
    · have : ∃ w x y, r = w ++ [x, y] := by
        clear hk h
        induction r with
        | nil => simp at hl
        | cons a r ih =>
          match r, ih with
          | [], _ => simp at hl
          | [b], _ => exact ⟨[], a, b, rfl⟩
          | b :: c :: t, ih =>
            obtain ⟨w, x, y, e⟩ := ih (by simp)
            exact ⟨a :: w, x, y, by rw [e]; rfl⟩
      obtain ⟨w, x, y, rfl⟩ := this
      exact ⟨_, _, .ending hk⟩

theorem doctype_fault (pre : Bytes) {t : Bytes} {d : Int} (h : ∀ p, p ++ b!">" <+: t → d + brackets p ≠ 0) :
    (posAt pre t).skipDoctypeT d = .error (report (pre ++ t) b!"unclosed DOCTYPE declaration") := by
  induction t generalizing pre d with
  | nil => rw [VPos.skipDoctypeT.eq_def]; simp [posAt_rest, posAt_err]
  | cons c t ih =>
    rw [VPos.skipDoctypeT.eq_def]
    simp only [posAt_rest, posAt_adv]
    have hstep : ∀ p, p ++ b!">" <+: t →
        d + ((if c = c!"[" then 1 else 0) - (if c = c!"]" then 1 else 0)) + brackets p ≠ 0 := by
      intro p hp
      have := h (c :: p) (by simpa using hp)
      rw [brackets_cons] at this
      omega
    have happ : pre ++ c :: t = pre ++ [c] ++ t := by simp
    rw [happ]
    by_cases h1 : c = c!"["
    · subst h1
      rw [if_pos rfl]
      exact ih (pre ++ [_]) (fun p hp => by have := hstep p hp; simp at this; omega)
    · rw [if_neg h1]
      by_cases h2 : c = c!"]"
      · subst h2
        rw [if_pos rfl]
        exact ih (pre ++ [_]) (fun p hp => by have := hstep p hp; simp at this; omega)
      · rw [if_neg h2]
        by_cases h3 : c = c!">" ∧ d = 0
        · exfalso
          obtain ⟨rfl, rfl⟩ := h3
          exact h [] (by simp) (by simp [brackets])
        · rw [if_neg (by simpa using h3)]
          exact ih (pre ++ [c]) (fun p hp => by have := hstep p hp; simp [h1, h2] at this; exact this)

theorem doctypeR_none {t : Bytes} : ∀ {d : Int}, doctypeR d t = none → ∀ p, p ++ b!">" <+: t → d + brackets p ≠ 0 := by
  induction t with
  | nil => intro d _ p hp; simp at hp
  | cons c t ih =>
    intro d h p hp
    cases p with
    | nil =>
      simp only [List.nil_append, List.cons_prefix_cons] at hp
      rw [← hp.1] at h
      intro h0
      have : d = 0 := by simpa [brackets] using h0
      simp [doctypeR, this] at h
    | cons x p =>
      simp only [List.cons_append, List.cons_prefix_cons] at hp
      obtain ⟨rfl, hp⟩ := hp
      rw [brackets_cons]
      unfold doctypeR at h
      by_cases h1 : x = c!"["
      · subst h1
        rw [if_pos rfl] at h
        have := ih h p hp
        simp; omega
      · rw [if_neg h1] at h
        by_cases h2 : x = c!"]"
        · subst h2
          rw [if_pos rfl] at h
          have := ih h p hp
          simp; omega
        · rw [if_neg h2] at h
          split at h
          · simp at h
          · have := ih h p hp
            simp [h1, h2]; exact this

theorem doctype_or (t : Bytes) : (∃ b r, t = b ++ c!">" :: r ∧ brackets b = 0 ∧ ∀ p, p ++ b!">" <+: b → brackets p ≠ 0) ∨
    ∀ p, p ++ b!">" <+: t → brackets p ≠ 0 := by
  cases h : doctypeR 0 t with
  | none => exact .inr fun p hp => by have := doctypeR_none h p hp; omega
  | some r =>
    obtain ⟨b, h1, h2, h3⟩ := doctypeR_inv h
    exact .inl ⟨b, r, h1, by omega, fun p hp => by have := h3 p hp; omega⟩


/-! ### attributes -/

/-- The rest of an attribute, after `=` and white space. -/
def attrVal (n : Nat) (p : VPos) : Except VErr VPos :=
  let p4 := p.skipWsT
  match p4.rest with
  | [] => .error (p4.err b!"attribute value must be quoted")
  | q :: _ =>
    if q ≠ c!"\"" && q ≠ c!"'" then .error (p4.err b!"attribute value must be quoted")
    else
      match p4.adv.skipUntilT q 0 with
      | .error e => .error e
      | .ok p5 => attrsT n p5

/-- The rest of an attribute, after its name. -/
def attrEq (n : Nat) (p : VPos) : Except VErr VPos :=
  let p3 := p.skipWsT
  if p3.rest.head? ≠ some c!"=" then .error (p3.err b!"expected '=' after attribute name")
  else attrVal n p3.adv

theorem attrsT_cons (n : Nat) (pre : Bytes) {w u : Bytes} {c : UInt8} (hw : ∀ c ∈ w, IsWs c) (hc : ¬ IsWs c) (h1 : c ≠ c!">")
    (h2 : c ≠ c!"/") : attrsT (n + 1) (posAt pre (w ++ c :: u)) =
      let x := (posAt (pre ++ w) (c :: u)).readNameT 0
      if !validName (x.1.getD []) then .error (report (pre ++ w) (attrNameMsg x.1)) else attrEq n x.2 := by
  have hn : NoWs (c :: u) := by
    intro x v h; simp only [List.cons.injEq] at h; rw [← h.1]; exact hc
  unfold attrsT
  simp only [posAt_skipWs pre hw hn, posAt_rest]
  rw [if_neg (by simp [h1, h2])]
  rfl

theorem attrs_end (n : Nat) (pre : Bytes) {w u : Bytes} {c : UInt8} (hw : ∀ c ∈ w, IsWs c) (hc : c = c!">" ∨ c = c!"/") :
    attrsT n (posAt pre (w ++ c :: u)) = .ok (posAt (pre ++ w) (c :: u)) := by
  have hn : NoWs (c :: u) := by
    intro x v h; simp only [List.cons.injEq] at h; rw [← h.1]
    rcases hc with rfl | rfl
    · exact gt_not_ws
    · exact slash_not_ws
  unfold attrsT
  simp only [posAt_skipWs pre hw hn, posAt_rest]
  rw [if_pos (by simpa using hc)]

theorem not_nameChar_gt {c : UInt8} (h : NameChar c) : c ≠ c!">" ∧ c ≠ c!"/" :=
  ⟨fun e => gt_not_name (e ▸ h), fun e => slash_not_name (e ▸ h)⟩

theorem attrs_word (n : Nat) (pre : Bytes) {w nm t : Bytes} (hw : ∀ c ∈ w, IsWs c) (h : Word nm t) (hs : GoodStart nm) :
    attrsT (n + 1) (posAt pre (w ++ (nm ++ t))) = attrEq n (posAt (pre ++ w ++ nm) t) := by
  obtain ⟨c, cs, rfl, hc⟩ := hs
  have hr := h.read (pre ++ w)
  rw [List.cons_append] at *
  rw [attrsT_cons n pre hw (NameChar.not_ws (NameStart.char hc)) (not_nameChar_gt (NameStart.char hc)).1
    (not_nameChar_gt (NameStart.char hc)).2, hr]
  simp [(validName_iff (c :: cs)).mpr ⟨⟨c, cs, rfl, hc⟩, h.1⟩]

theorem noWs_cons {c : UInt8} {t : Bytes} (h : ¬ IsWs c) : NoWs (c :: t) := by
  intro x v e; simp only [List.cons.injEq] at e; rw [← e.1]; exact h

theorem attrEq_eq (n : Nat) (pre : Bytes) {w t : Bytes} (hw : ∀ c ∈ w, IsWs c) :
    attrEq n (posAt pre (w ++ c!"=" :: t)) = attrVal n (posAt (pre ++ w ++ b!"=") t) := by
  unfold attrEq
  simp only [posAt_skipWs pre hw (noWs_cons eq_not_ws), posAt_rest, List.head?_cons, ne_eq, not_true_eq_false, if_false, posAt_adv]

theorem attrVal_quote (n : Nat) (pre : Bytes) {v t : Bytes} {q : UInt8} (hv : ∀ c ∈ v, IsWs c) (hq : q = c!"\"" ∨ q = c!"'") :
    attrVal n (posAt pre (v ++ q :: t)) =
      match (posAt (pre ++ v ++ [q]) t).skipUntilT q 0 with
      | .error e => .error e
      | .ok p5 => attrsT n p5 := by
  unfold attrVal
  simp only [posAt_skipWs pre hv (noWs_cons (quote_ne hq)), posAt_rest, posAt_adv]
  rw [if_neg (by rcases hq with rfl | rfl <;> simp)]

theorem word_ws {nm w t : Bytes} (h1 : IsName nm) (hw : ∀ c ∈ w, IsWs c) (ht : ∀ c u, t = c :: u → ¬ NameChar c) :
    Word nm (w ++ t) := ⟨h1.2.1, ws_head_not_name hw ht, .inl h1.2.2⟩

theorem eq_head_not_name (t : Bytes) : ∀ c u, c!"=" :: t = c :: u → ¬ NameChar c := by
  intro c u h; simp only [List.cons.injEq] at h; rw [← h.1]; exact eq_not_name

theorem attrs_attr (n : Nat) (pre : Bytes) {a : Attr} (ha : a.Legal) (r : Bytes) :
    attrsT (n + 1) (posAt pre (a.render ++ r)) = attrsT n (posAt (pre ++ a.render) r) := by
  obtain ⟨h1, h2, h3, h4, h5, h6, h7⟩ := ha
  have e : a.render ++ r = a.pre ++ (a.name ++ (a.mid1 ++ c!"=" :: (a.mid2 ++ a.quote :: (a.raw ++ a.quote :: r)))) := by
    simp [Attr.render]
  rw [e, attrs_word n pre h1 (word_ws h2 h3 (eq_head_not_name _)) h2.1, attrEq_eq n _ h3, attrVal_quote n _ h4 h5,
    posAt_until _ h6 (by omega)]
  simp [Attr.render]

theorem attrs_attrs (n : Nat) (pre : Bytes) {as : List Attr} (ha : ∀ a ∈ as, a.Legal) (r : Bytes) :
    attrsT (n + as.length) (posAt pre (as.flatMap Attr.render ++ r)) = attrsT n (posAt (pre ++ as.flatMap Attr.render) r) := by
  induction as generalizing pre with
  | nil => simp
  | cons a as ih =>
    rw [List.length_cons, ← Nat.add_assoc, List.flatMap_cons, List.append_assoc, attrs_attr _ _ (ha a (by simp)),
      ih _ (fun x hx => ha x (by simp [hx]))]
    simp

theorem natDec_100 : natDec 100 = b!"100" := by decide +kernel

theorem Spec.AttrFault.run {k : Nat} {t u m : Bytes} (h : AttrFault k t u m) (hk : k ≤ 100) (ht : NoWs t) (pre : Bytes) {w : Bytes}
    (hw : ∀ c ∈ w, IsWs c) : attrsT (100 - k) (posAt pre (w ++ t)) = .error (report (pre ++ w ++ u) m) := by
  have succ : k < 100 → ∃ n, 100 - k = n + 1 := fun h => ⟨100 - k - 1, by omega⟩
  cases h with
  | ending =>
    have hp := posAt_skipWs pre hw ht
    unfold attrsT
    simp only [hp, posAt_rest, posAt_err, List.append_nil (pre ++ w)]
  | @many c t hk h1 h2 =>
    subst hk
    unfold attrsT
    simp only [posAt_skipWs pre hw ht, posAt_rest, posAt_err, List.append_nil]
    rw [if_neg (by simp [h1, h2]), maxAttr, natDec_100]
    rfl
  | @noName c t hk h1 h2 h =>
    obtain ⟨n, hn⟩ := succ hk
    rw [hn, attrsT_cons n pre hw (ht c t rfl) h1 h2]
    have hr := posAt_readName (pre ++ w) (n := []) (t := c :: t) (k := 0) (by simp)
      (by intro x v e; simp only [List.cons.injEq] at e; rw [← e.1]; exact h) (by simp)
    rw [List.nil_append] at hr
    simp only [hr]
    simp [validName, attrNameMsg]
  | long hk h =>
    obtain ⟨n, hn⟩ := succ hk
    have hr := h.read (pre ++ w)
    obtain ⟨x, c, v, rfl, h1, h2⟩ := h
    cases x with
    | nil => simp at h1
    | cons y x =>
      have hy := h2 y (by simp)
      rw [List.cons_append] at *
      rw [hn, attrsT_cons n pre hw (NameChar.not_ws hy) (not_nameChar_gt hy).1 (not_nameChar_gt hy).2]
      simp only [hr]
      simp [validName, attrNameMsg]
  | @start nm t why hk h hs =>
    obtain ⟨n, hn⟩ := succ hk
    have hr := h.read (pre ++ w)
    obtain ⟨b1, b2, b3⟩ := hs.msg
    cases nm with
    | nil => exact absurd rfl b3
    | cons y x =>
      have hy := h.1 y (by simp)
      rw [List.cons_append] at *
      rw [hn, attrsT_cons n pre hw (NameChar.not_ws hy) (not_nameChar_gt hy).1 (not_nameChar_gt hy).2]
      simp only [hr, Option.getD_some, b1, attrNameMsg, b2]
      simp
  | @equals nm v t hk h hs hv ht2 he =>
    obtain ⟨n, hn⟩ := succ hk
    rw [hn, List.append_assoc, attrs_word n pre hw h hs]
    unfold attrEq
    simp only [posAt_skipWs _ hv ht2, posAt_rest]
    rw [if_pos]
    · simp [posAt_err]
    · intro hh
      obtain ⟨x, hx⟩ := head_cons hh
      exact he x hx
  | @quote nm v x t hk h hv hx ht2 hq =>
    obtain ⟨n, hn⟩ := succ hk
    have e : nm ++ v ++ b!"=" ++ x ++ t = nm ++ (v ++ c!"=" :: (x ++ t)) := by simp
    rw [hn, e, attrs_word n pre hw (word_ws h hv (eq_head_not_name _)) h.1, attrEq_eq n _ hv]
    have hp := posAt_skipWs (pre ++ w ++ nm ++ v ++ b!"=") hx ht2
    unfold attrVal
    simp only [hp, posAt_rest]
    cases t with
    | nil => simp [posAt_err]
    | cons q t =>
      simp only
      rw [if_pos]
      · simp [posAt_err]
      · have := hq t
        simp only [ne_eq, List.cons.injEq, and_true] at this
        simpa using this
  | @value nm v x q t y m hk h hv hx hq ht =>
    obtain ⟨n, hn⟩ := succ hk
    have e : nm ++ v ++ b!"=" ++ x ++ [q] ++ t = nm ++ (v ++ c!"=" :: (x ++ q :: t)) := by simp
    rw [hn, e, attrs_word n pre hw (word_ws h hv (eq_head_not_name _)) h.1, attrEq_eq n _ hv, attrVal_quote n _ hx hq,
      ht.skip]
    simp

theorem ws_split (r : Bytes) : ∃ w t, r = w ++ t ∧ (∀ c ∈ w, IsWs c) ∧ NoWs t := by
  obtain ⟨w, h1, h2, h3⟩ := skipWs_split r
  exact ⟨w, _, h2, h1, h3⟩

theorem word_name {n t : Bytes} (h : Word n t) (hs : GoodStart n) (ht : t ≠ []) : IsName n :=
  ⟨hs, h.1, by rcases h.2.2 with h | ⟨h, -⟩; exact h; exact absurd h ht⟩

theorem attrs_or (k : Nat) (hk : k ≤ 100) (r : Bytes) : ∃ (as : List Attr) (w t : Bytes),
    r = as.flatMap Attr.render ++ w ++ t ∧ (∀ a ∈ as, a.Legal) ∧ k + as.length ≤ 100 ∧ (∀ c ∈ w, IsWs c) ∧ NoWs t ∧
      ((∃ c v, t = c :: v ∧ (c = c!">" ∨ c = c!"/")) ∨ ∃ u m, AttrFault (k + as.length) t u m) := by
  induction hr : r.length using Nat.strongRecOn generalizing k r with
  | ind N ih =>
  obtain ⟨w, t, rfl, hw, ht⟩ := ws_split r
  have stop : ((∃ c v, t = c :: v ∧ (c = c!">" ∨ c = c!"/")) ∨ ∃ u m, AttrFault k t u m) → ∃ (as : List Attr) (w' t' : Bytes),
    w ++ t = as.flatMap Attr.render ++ w' ++ t' ∧ (∀ a ∈ as, a.Legal) ∧ k + as.length ≤ 100 ∧ (∀ c ∈ w', IsWs c) ∧ NoWs t' ∧
      ((∃ c v, t' = c :: v ∧ (c = c!">" ∨ c = c!"/")) ∨ ∃ u m, AttrFault (k + as.length) t' u m) := by
    intro h
    exact ⟨[], w, t, by simp, by simp, by simpa using hk, hw, ht, by simpa using h⟩
  cases t with
  | nil => exact stop (.inr ⟨_, _, .ending⟩)
  | cons c v =>
    by_cases hc : c = c!">" ∨ c = c!"/"
    · exact stop (.inl ⟨c, v, rfl, hc⟩)
    · simp only [not_or] at hc
      by_cases hk2 : k = 100
      · exact stop (.inr ⟨_, _, .many hk2 hc.1 hc.2⟩)
      · have hk3 : k < 100 := by omega
        rcases word_or_long (c :: v) with hl | ⟨nm, t2, e, hnm⟩
        · exact stop (.inr ⟨_, _, .long hk3 hl⟩)
        · by_cases h0 : nm = []
          · subst h0
            simp only [List.nil_append] at e
            exact stop (.inr ⟨_, _, .noName hk3 hc.1 hc.2 (hnm.2.1 c v e.symm)⟩)
          · rcases start_cases hnm.1 h0 with hs | ⟨why, hs⟩
            · obtain ⟨w2, t3, rfl, hw2, ht3⟩ := ws_split t2
              by_cases he : ∃ t4, t3 = c!"=" :: t4
              · obtain ⟨t4, rfl⟩ := he
                have hn : IsName nm := word_name hnm hs (by simp)
                obtain ⟨v2, t5, rfl, hv2, ht5⟩ := ws_split t4
                by_cases hq : ∃ q t6, t5 = q :: t6 ∧ (q = c!"\"" ∨ q = c!"'")
                · obtain ⟨q, t6, rfl, hq⟩ := hq
                  rcases ended_or q t6 with ⟨raw, t7, rfl, hd, hl⟩ | ⟨u, m, hu⟩
                  · have hlegal : Attr.Legal ⟨w, nm, w2, v2, q, raw⟩ := ⟨hw, hn, hw2, hv2, hq, hd, hl⟩
                    obtain ⟨as, w', t', e1, e2, e3, e4, e5, e6⟩ := ih t7.length (by
                      rw [← hr, e]; simp only [List.length_append, List.length_cons]; omega) (k + 1) (by omega) t7 rfl
                    refine ⟨⟨w, nm, w2, v2, q, raw⟩ :: as, w', t', ?_, ?_, by simp only [List.length_cons]; omega, e4, e5, ?_⟩
                    · rw [e, e1]; simp [Attr.render]
                    · intro a ha
                      rcases List.mem_cons.mp ha with rfl | ha
                      · exact hlegal
                      · exact e2 a ha
                    · rw [List.length_cons, show k + (as.length + 1) = k + 1 + as.length by omega]; exact e6
                  · refine stop (.inr ?_)
                    rw [e]
                    have := AttrFault.value (k := k) hk3 hn hw2 hv2 hq hu
                    exact ⟨_, _, by simpa using this⟩
                · refine stop (.inr ?_)
                  rw [e]
                  have := AttrFault.quote (k := k) hk3 hn hw2 hv2 ht5 (by
                    intro u
                    constructor
                    · rintro rfl; exact hq ⟨_, _, rfl, .inl rfl⟩
                    · rintro rfl; exact hq ⟨_, _, rfl, .inr rfl⟩)
                  exact ⟨_, _, by simpa using this⟩
              · refine stop (.inr ?_)
                rw [e]
                have := AttrFault.equals (k := k) hk3 hnm hs hw2 ht3 (by rintro u rfl; exact he ⟨u, rfl⟩)
                exact ⟨_, _, by simpa using this⟩
            · refine stop (.inr ?_)
              rw [e]
              exact ⟨_, _, .start hk3 hnm hs⟩


/-! ### tags -/

/-- The validator after `p`, before `r`, when the elements `s` are open. -/
def vstate (s : List (Bytes × Bytes)) (b : Bool) (p r : Bytes) : VState :=
  ⟨posAt p r, s.map fun x => (x.1, locAt x.2), b || !s.isEmpty, b && s.isEmpty⟩

theorem vstate_pos (s : List (Bytes × Bytes)) (b : Bool) (p r : Bytes) : (vstate s b p r).pos = posAt p r := rfl

theorem natDec_decimal (n : Nat) : natDec n = decimal n := by
  induction n using Nat.strongRecOn with
  | ind n ih =>
    have key : ∀ d : Nat, d < 10 → UInt8.ofNat (48 + d) = UInt8.ofNat (Nat.digitChar d).toNat := by decide
    rw [natDec, decimal, Nat.toDigits_eq_if (by omega)]
    split
    · rename_i h; simp only [List.map_cons, List.map_nil]; rw [key n h]
    · rename_i h
      rw [List.map_append, ih (n / 10) (by omega)]
      simp only [List.map_cons, List.map_nil, decimal]
      rw [key (n % 10) (by omega)]

/-- The dispatch on the byte after `<`. -/
theorem tagT_cons (s : List (Bytes × Bytes)) (b : Bool) (p : Bytes) (c : UInt8) (t : Bytes) :
    tagT (vstate s b p (c!"<" :: c :: t)) =
      let st := vstate s b p (c!"<" :: c :: t)
      let q := posAt (p ++ [c!"<", c]) t
      if c = c!"?" then st.at (q.skipUntilT c!">" 0)
      else if c = c!"!" then
        if t.take 7 = b!"DOCTYPE" || t.take 7 = b!"doctype" then st.at (q.skipDoctypeT 0)
        else if b!"--".isPrefixOf t then st.at (q.adv.adv.skipCommentT)
        else if t.take 7 = b!"[CDATA[" then st.at ((VPos.advN 7 q).skipCDATAT)
        else st.at (q.skipUntilT c!">" 0)
      else if c = c!"/" then closeTagT (locAt p) (vstate s b (p ++ [c!"<", c]) t)
      else openTagT (locAt p) (vstate s b (p ++ b!"<") (c :: t)) := by
  unfold tagT
  have e : p ++ [c!"<"] ++ [c] = p ++ [c!"<", c] := by simp
  simp only [vstate_pos, posAt_adv, posAt_rest, posAt_loc, e]
  rfl

theorem at_error (st : VState) (e : VErr) : st.at (.error e) = .error e := rfl

theorem at_ok (s : List (Bytes × Bytes)) (b : Bool) (p r q t : Bytes) :
    (vstate s b p r).at (.ok (posAt q t)) = .ok (vstate s b q t) := rfl

theorem decl_not {t : Bytes} (h1 : ¬ b!"DOCTYPE" <+: t) (h2 : ¬ b!"doctype" <+: t) :
    ¬ ((t.take 7 = b!"DOCTYPE" || t.take 7 = b!"doctype") = true) := by
  simp only [Bool.or_eq_true, decide_eq_true_eq]
  rw [take7_iff rfl, take7_iff rfl]
  rintro (h | h)
  · exact h1 h
  · exact h2 h

theorem dashes_not_doctype (t : Bytes) : ¬ b!"DOCTYPE" <+: b!"--" ++ t ∧ ¬ b!"doctype" <+: b!"--" ++ t := by
  constructor <;> intro h <;> simp at h

theorem cdata_not (t : Bytes) : ¬ b!"DOCTYPE" <+: b!"[CDATA[" ++ t ∧ ¬ b!"doctype" <+: b!"[CDATA[" ++ t ∧
    ¬ b!"--" <+: b!"[CDATA[" ++ t := by
  refine ⟨?_, ?_, ?_⟩ <;> intro h <;> simp at h

theorem isPrefix_not {w t : Bytes} (h : ¬ w <+: t) : ¬ (w.isPrefixOf t = true) := by
  rw [List.isPrefixOf_iff_prefix]; exact h

theorem tag_pi (s : List (Bytes × Bytes)) (b : Bool) (p t : Bytes) : tagT (vstate s b p (b!"<?" ++ t)) =
    (vstate s b p (b!"<?" ++ t)).at ((posAt (p ++ b!"<?") t).skipUntilT c!">" 0) := by
  rw [show b!"<?" ++ t = c!"<" :: c!"?" :: t from rfl, tagT_cons]
  rfl

theorem tag_doctype (s : List (Bytes × Bytes)) (b : Bool) (p : Bytes) {t : Bytes} (h : b!"DOCTYPE" <+: t ∨ b!"doctype" <+: t) :
    tagT (vstate s b p (b!"<!" ++ t)) = (vstate s b p (b!"<!" ++ t)).at ((posAt (p ++ b!"<!") t).skipDoctypeT 0) := by
  rw [show b!"<!" ++ t = c!"<" :: c!"!" :: t from rfl, tagT_cons]
  simp only
  rw [if_neg (by decide), if_pos trivial, if_pos]
  simp only [Bool.or_eq_true, decide_eq_true_eq]
  rw [take7_iff rfl, take7_iff rfl]
  exact h

theorem tag_comment (s : List (Bytes × Bytes)) (b : Bool) (p t : Bytes) : tagT (vstate s b p (b!"<!--" ++ t)) =
    (vstate s b p (b!"<!--" ++ t)).at (posAt (p ++ b!"<!--") t).skipCommentT := by
  rw [show b!"<!--" ++ t = c!"<" :: c!"!" :: (b!"--" ++ t) from rfl, tagT_cons]
  simp only
  rw [if_neg (by decide), if_pos trivial, if_neg (decl_not (dashes_not_doctype t).1 (dashes_not_doctype t).2), if_pos (by simp)]
  rw [show b!"--" ++ t = c!"-" :: c!"-" :: t from rfl, posAt_adv, posAt_adv]
  simp

theorem tag_cdata (s : List (Bytes × Bytes)) (b : Bool) (p t : Bytes) : tagT (vstate s b p (b!"<![CDATA[" ++ t)) =
    (vstate s b p (b!"<![CDATA[" ++ t)).at (posAt (p ++ b!"<![CDATA[") t).skipCDATAT := by
  rw [show b!"<![CDATA[" ++ t = c!"<" :: c!"!" :: (b!"[CDATA[" ++ t) from rfl, tagT_cons]
  simp only
  obtain ⟨h1, h2, h3⟩ := cdata_not t
  rw [if_neg (by decide), if_pos trivial, if_neg (decl_not h1 h2), if_neg (isPrefix_not h3), if_pos ((take7_iff rfl).mpr ⟨t, rfl⟩)]
  have := posAt_advN (p ++ b!"<!") b!"[CDATA[" t
  rw [show (b!"[CDATA[" : Bytes).length = 7 from rfl] at this
  rw [this]
  simp

theorem tag_decl (s : List (Bytes × Bytes)) (b : Bool) (p : Bytes) {t : Bytes} (h1 : ¬ b!"DOCTYPE" <+: t) (h2 : ¬ b!"doctype" <+: t)
    (h3 : ¬ b!"--" <+: t) (h4 : ¬ b!"[CDATA[" <+: t) : tagT (vstate s b p (b!"<!" ++ t)) =
    (vstate s b p (b!"<!" ++ t)).at ((posAt (p ++ b!"<!") t).skipUntilT c!">" 0) := by
  rw [show b!"<!" ++ t = c!"<" :: c!"!" :: t from rfl, tagT_cons]
  simp only
  rw [if_neg (by decide), if_pos trivial, if_neg (decl_not h1 h2), if_neg (isPrefix_not h3),
    if_neg (fun h => h4 ((take7_iff rfl).mp h))]

theorem tag_close (s : List (Bytes × Bytes)) (b : Bool) (p t : Bytes) : tagT (vstate s b p (b!"</" ++ t)) =
    closeTagT (locAt p) (vstate s b (p ++ b!"</") t) := by
  rw [show b!"</" ++ t = c!"<" :: c!"/" :: t from rfl, tagT_cons]
  rfl

theorem tag_open (s : List (Bytes × Bytes)) (b : Bool) (p t : Bytes) {c : UInt8} (h1 : c ≠ c!"?") (h2 : c ≠ c!"!") (h3 : c ≠ c!"/") :
    tagT (vstate s b p (b!"<" ++ c :: t)) = openTagT (locAt p) (vstate s b (p ++ b!"<") (c :: t)) := by
  rw [show b!"<" ++ c :: t = c!"<" :: c :: t from rfl, tagT_cons]
  simp only
  rw [if_neg h1, if_neg h2, if_neg h3]

theorem nameChar_ne {c : UInt8} (h : NameChar c) : c ≠ c!"?" ∧ c ≠ c!"!" ∧ c ≠ c!"/" := by
  rw [← isNameChar_iff] at h
  refine ⟨?_, ?_, ?_⟩ <;> rintro rfl <;> revert h <;> decide

theorem tag_open_name (s : List (Bytes × Bytes)) (b : Bool) (p : Bytes) {n t : Bytes} (h : ∀ c ∈ n, NameChar c) (h0 : n ≠ []) :
    tagT (vstate s b p (b!"<" ++ n ++ t)) = openTagT (locAt p) (vstate s b (p ++ b!"<") (n ++ t)) := by
  cases n with
  | nil => exact absurd rfl h0
  | cons c n =>
    obtain ⟨h1, h2, h3⟩ := nameChar_ne (h c (by simp))
    exact tag_open s b p (n ++ t) h1 h2 h3

/-! ### opening and closing tags -/

/-- The end of an opening tag. -/
def openEnd (name : Bytes) (tagAt : VLoc) (st : VState) (p2 : VPos) : Except VErr VState :=
  let p3 := p2.skipWsT
  let sc := p3.rest.head? = some c!"/"
  let p4 := if sc then p3.adv else p3
  if p4.rest.head? ≠ some c!">" then .error (p4.err b!"expected '>' to close tag")
  else
    let closed1 := if st.rootFound && st.stack.isEmpty && st.rootClosed then false else st.rootClosed
    if sc then
      .ok ⟨p4.adv, st.stack, true, if st.stack.isEmpty then true else closed1⟩
    else .ok ⟨p4.adv, (name, tagAt) :: st.stack, true, closed1⟩

theorem openTag_word (l : VLoc) (s : List (Bytes × Bytes)) (b : Bool) (p : Bytes) {n t : Bytes} (h : Word n t) (hs : GoodStart n) :
    openTagT l (vstate s b p (n ++ t)) =
      if s.length ≥ 100 then .error (l.err b!"nesting depth exceeds maximum of 100")
      else match attrsT 100 (posAt (p ++ n) t) with
        | .error e => .error e
        | .ok p2 => openEnd n l (vstate s b p (n ++ t)) p2 := by
  unfold openTagT
  simp only [vstate_pos, h.read p, Option.getD_some, hs.valid h.1, Bool.not_true, Bool.false_eq_true, if_false, maxNest,
    maxAttr, natDec_100]
  simp only [vstate, List.length_map]
  rfl

theorem openEnd_ok (n : Bytes) (l q p t : Bytes) (s : List (Bytes × Bytes)) (b sc : Bool) (r : Bytes) :
    openEnd n (locAt l) (vstate s b p t) (posAt q ((if sc then b!"/>" else b!">") ++ r)) =
      .ok (vstate (if sc then s else (n, l) :: s) true (q ++ (if sc then b!"/>" else b!">")) r) := by
  unfold openEnd
  cases sc with
  | true =>
    simp only [if_true, List.cons_append, List.nil_append, posAt_skipWs0 q (noWs_cons slash_not_ws), posAt_rest, List.head?_cons,
      posAt_adv]
    cases s <;> cases b <;> simp [vstate]
  | false =>
    simp only [Bool.false_eq_true, if_false, List.cons_append, List.nil_append, posAt_skipWs0 q (noWs_cons gt_not_ws), posAt_rest,
      List.head?_cons, posAt_adv]
    cases s <;> cases b <;> simp [vstate, posAt_rest, posAt_adv]

theorem closeTag_word (l : VLoc) (s : List (Bytes × Bytes)) (b : Bool) (p : Bytes) {n w t : Bytes} (h : Word n (w ++ t)) (hn : n ≠ [])
    (hw : ∀ c ∈ w, IsWs c) (ht : NoWs t) : closeTagT l (vstate s b p (n ++ w ++ t)) =
      if t.head? ≠ some c!">" then .error (report (p ++ n ++ w) b!"expected '>' to close tag")
      else
        match s with
        | [] => .error (l.err (b!"closing tag '" ++ n ++ b!"' without matching opening tag"))
        | (o, q) :: ts =>
          if o ≠ n then .error (l.err (b!"mismatched closing tag '" ++ n ++ b!"' (expected '" ++ o ++ b!"' opened at line " ++
            natDec (lineAt q) ++ b!", column " ++ natDec (colAt q) ++ b!")"))
          else .ok ⟨(posAt (p ++ n ++ w) t).adv, ts.map fun x => (x.1, locAt x.2), true, if ts.isEmpty then true else false⟩ := by
  have e : n ++ w ++ t = n ++ (w ++ t) := by simp
  have hn' : n.isEmpty = false := by cases n <;> simp_all
  unfold closeTagT
  simp only [vstate_pos, e, h.read p, Option.getD_some, hn', posAt_skipWs (p ++ n) hw ht, posAt_rest, posAt_err]
  rw [if_neg (by simp)]
  split
  · rfl
  · cases s with
    | nil => rfl
    | cons x ts => cases b <;> cases ts <;> simp [vstate, locAt]

theorem headChar_gt (t : Bytes) : ∀ c u, c!">" :: t = c :: u → ¬ NameChar c := by
  intro c u h; simp only [List.cons.injEq] at h; rw [← h.1]; exact gt_not_name

theorem word_gt {n w : Bytes} (h : ∀ c ∈ n, NameChar c) (hl : n.length ≤ 1048576) (hw : ∀ c ∈ w, IsWs c) (t : Bytes) :
    Word n (w ++ c!">" :: t) := ⟨h, ws_head_not_name hw (headChar_gt t), .inl hl⟩

theorem Spec.TagFault.run {s : List (Bytes × Bytes)} {r u m : Bytes} (h : TagFault s r u m) (b : Bool) (p : Bytes) :
    tagT (vstate s b p r) = .error (report (p ++ u) m) := by
  cases h with
  | lone => simp [tagT, vstate_pos, posAt_adv, posAt_rest, posAt_loc, locAt_err]
  | pi h => rw [tag_pi, h.skip, at_error]; simp
  | doctype hd h => rw [tag_doctype s b p hd, doctype_fault _ (fun q hq => by have := h q hq; omega), at_error]; simp
  | comment h => rw [tag_comment, h.skip, at_error]; simp
  | cdata h => rw [tag_cdata, h.skip, at_error]; simp
  | decl h1 h2 h3 h4 h => rw [tag_decl s b p h1 h2 h3 h4, h.skip, at_error]; simp
  | @closeNoName t h =>
    rw [tag_close]
    unfold closeTagT
    have := posAt_readName (p ++ b!"</") (n := []) (t := t) (k := 0) (by simp) h (by simp)
    rw [List.nil_append] at this
    simp only [vstate_pos, this]
    rfl
  | @closeLong t h =>
    rw [tag_close]
    unfold closeTagT
    simp only [vstate_pos, h.read]
    rfl
  | @closeEnd n w t h hn hw ht hg =>
    rw [show b!"</" ++ n ++ w ++ t = b!"</" ++ (n ++ w ++ t) by simp, tag_close, closeTag_word _ s b _ h hn hw ht, if_pos]
    · simp
    · intro hh
      obtain ⟨x, hx⟩ := head_cons hh
      exact hg x hx
  | @closeNothing n w t hs h hn hl hw =>
    subst hs
    rw [show closeTag n w ++ t = b!"</" ++ (n ++ w ++ c!">" :: t) by simp [closeTag], tag_close,
      closeTag_word _ [] b _ (word_gt h hl hw t) hn hw (noWs_cons gt_not_ws), if_neg (by simp)]
    simp [locAt_err]
  | @closeOther n w t o q s' hs ho h hn hl hw =>
    subst hs
    rw [show closeTag n w ++ t = b!"</" ++ (n ++ w ++ c!">" :: t) by simp [closeTag], tag_close,
      closeTag_word _ _ b _ (word_gt h hl hw t) hn hw (noWs_cons gt_not_ws), if_neg (by simp)]
    simp only [if_pos ho, locAt_err, natDec_decimal, List.append_nil]
  | @noName c t h h1 h2 h3 =>
    rw [tag_open s b p t h1 h2 h3]
    unfold openTagT
    have := posAt_readName (p ++ b!"<") (n := []) (t := c :: t) (k := 0) (by simp) (by
      intro x v e; simp only [List.cons.injEq] at e; rw [← e.1]; exact h) (by simp)
    rw [List.nil_append] at this
    simp only [vstate_pos, this]
    rfl
  | @long t h =>
    have hr := h.read (p ++ b!"<")
    obtain ⟨w, c, v, rfl, h1, h2⟩ := h
    have := tag_open_name s b p (n := w) (t := c :: v) h2 (by rintro rfl; simp at h1)
    rw [← List.append_assoc, this]
    unfold openTagT
    simp only [vstate_pos, hr]
    rfl
  | @start n t why h hs =>
    obtain ⟨b1, b2, b3⟩ := hs.msg
    rw [tag_open_name s b p h.1 b3]
    unfold openTagT
    simp only [vstate_pos, h.read, Option.getD_some, b1]
    cases n with
    | nil => exact absurd rfl b3
    | cons x n => simp [elemNameMsg, b2, posAt_err]
  | @deep n t h hs hd =>
    obtain ⟨c, cs, hc, -⟩ := id hs
    rw [tag_open_name s b p h.1 (by rw [hc]; simp), openTag_word _ s b _ h hs, if_pos hd]
    simp [locAt_err]
  | @attr n as w t u m hd h hs ha hl hw ht hf =>
    obtain ⟨c, cs, hc, -⟩ := id hs
    have e : openTag n as w ++ t = b!"<" ++ n ++ (as.flatMap Attr.render ++ w ++ t) := by simp [openTag]
    rw [e, tag_open_name s b p h.1 (by rw [hc]; simp), openTag_word _ s b _ h hs, if_neg (by omega)]
    have h100 : 100 = 100 - as.length + as.length := by omega
    rw [List.append_assoc (as.flatMap Attr.render)]
    conv => lhs; rw [h100]
    rw [attrs_attrs _ _ ha, hf.run hl ht _ hw]
    simp [openTag]
  | @slash n as w t hd hn ha hw ht =>
    have hne := IsName.ne_nil hn
    have hword : Word n (as.flatMap Attr.render ++ w ++ c!"/" :: t) := by
      refine ⟨hn.2.1, attrs_head ha hw ?_, .inl hn.2.2⟩
      intro c u h; simp only [List.cons.injEq] at h; rw [← h.1]; exact slash_not_name
    have e : openTag n as w ++ b!"/" ++ t = b!"<" ++ n ++ (as.flatMap Attr.render ++ w ++ c!"/" :: t) := by simp [openTag]
    rw [e, tag_open_name s b p hn.2.1 hne, openTag_word _ s b _ hword hn.1, if_neg (by omega)]
    have h100 : 100 = 100 - as.length + as.length := by have := ha.1; omega
    rw [List.append_assoc (as.flatMap Attr.render)]
    conv => lhs; rw [h100]
    rw [attrs_attrs _ _ ha.2.1, attrs_end _ _ hw (.inr rfl)]
    simp only [openEnd, posAt_skipWs0 _ (noWs_cons slash_not_ws), posAt_rest, List.head?_cons, if_true, posAt_adv]
    rw [if_pos]
    · simp [openTag, posAt_err]
    · intro hh
      obtain ⟨x, hx⟩ := head_cons hh
      exact ht x hx


/-! ### correct beginnings -/

theorem misc_ok {m : Misc} (h : m.Legal) (s : List (Bytes × Bytes)) (b : Bool) (p r : Bytes) :
    tagT (vstate s b p (m.render ++ r)) = .ok (vstate s b (p ++ m.render) r) := by
  cases m with
  | comment w =>
    have := posAt_comment (p ++ b!"<!--") h r
    rw [show (Misc.comment w).render ++ r = b!"<!--" ++ (w ++ b!"-->" ++ r) by simp [Misc.render], tag_comment, this, at_ok]
    simp [Misc.render]
  | pi w =>
    have := posAt_until (p ++ b!"<?") (r := r) (k := 0) h.1 (by have := h.2; omega)
    rw [show (Misc.pi w).render ++ r = b!"<?" ++ (w ++ c!">" :: r) by simp [Misc.render], tag_pi, this, at_ok]
    simp [Misc.render]
  | cdata w =>
    have := posAt_cdata (p ++ b!"<![CDATA[") h r
    rw [show (Misc.cdata w).render ++ r = b!"<![CDATA[" ++ (w ++ b!"]]>" ++ r) by simp [Misc.render], tag_cdata, this, at_ok]
    simp [Misc.render]
  | mark w => exact h.elim
  | doctype w =>
    obtain ⟨h1, h2, h3⟩ := h
    have := posAt_doctype (p ++ b!"<!") h2 h3 r
    rw [show (Misc.doctype w).render ++ r = b!"<!" ++ (w ++ c!">" :: r) by simp [Misc.render],
      tag_doctype s b p (by rw [prefix_delim (by decide), prefix_delim (by decide)]; exact h1), this, at_ok]
    simp [Misc.render]
  | decl w =>
    obtain ⟨h0, hk, h1, h2, h3, h4⟩ := h
    have := posAt_until (p ++ b!"<!") (r := r) (k := 0) h0 (by omega)
    rw [show (Misc.decl w).render ++ r = b!"<!" ++ (w ++ c!">" :: r) by simp [Misc.render],
      tag_decl s b p (by rw [prefix_delim (by decide)]; exact h1) (by rw [prefix_delim (by decide)]; exact h2)
        (by rw [prefix_delim (by decide)]; exact h3) (by rw [prefix_delim (by decide)]; exact h4), this, at_ok]
    simp [Misc.render]

theorem open_ok {n : Bytes} {as : List Attr} {w : Bytes} (sc : Bool) (hn : IsName n) (ha : AttrsLegal as) (hw : ∀ c ∈ w, IsWs c)
    (s : List (Bytes × Bytes)) (hd : s.length < 100) (b : Bool) (p r : Bytes) :
    tagT (vstate s b p (openTag n as w ++ (if sc then b!"/>" else b!">") ++ r)) =
      .ok (vstate (if sc then s else (n, p) :: s) true (p ++ (openTag n as w ++ (if sc then b!"/>" else b!">"))) r) := by
  obtain ⟨c, t, hct, hc⟩ : ∃ c t, (if sc then b!"/>" else b!">") ++ r = c :: t ∧ (c = c!">" ∨ c = c!"/") := by
    cases sc
    · exact ⟨_, _, rfl, .inl rfl⟩
    · exact ⟨_, _, rfl, .inr rfl⟩
  have hword : Word n (as.flatMap Attr.render ++ w ++ c :: t) := by
    refine ⟨hn.2.1, attrs_head ha hw ?_, .inl hn.2.2⟩
    intro c' u h
    rw [List.cons.injEq] at h
    rw [← h.1]
    rcases hc with rfl | rfl
    · exact gt_not_name
    · exact slash_not_name
  have e : openTag n as w ++ (if sc then b!"/>" else b!">") ++ r = b!"<" ++ n ++ (as.flatMap Attr.render ++ w ++ c :: t) := by
    rw [List.append_assoc, hct]; simp [openTag]
  rw [e, tag_open_name s b p hn.2.1 (IsName.ne_nil hn), openTag_word _ s b _ hword hn.1, if_neg (by omega)]
  have h100 : 100 = 100 - as.length + as.length := by have := ha.1; omega
  rw [List.append_assoc (as.flatMap Attr.render)]
  conv => lhs; rw [h100]
  rw [attrs_attrs _ _ ha.2.1, attrs_end _ _ hw hc]
  simp only
  rw [← hct, openEnd_ok]
  simp [openTag]

theorem close_ok {n q : Bytes} {w : Bytes} (hn : IsName n) (hw : ∀ c ∈ w, IsWs c) (s : List (Bytes × Bytes)) (b : Bool) (p r : Bytes) :
    tagT (vstate ((n, q) :: s) b p (closeTag n w ++ r)) = .ok (vstate s true (p ++ closeTag n w) r) := by
  rw [show closeTag n w ++ r = b!"</" ++ (n ++ w ++ c!">" :: r) by simp [closeTag], tag_close,
    closeTag_word _ _ b _ (word_gt hn.2.1 hn.2.2 hw r) (IsName.ne_nil hn) hw (noWs_cons gt_not_ws), if_neg (by simp)]
  simp only [ne_eq, not_true_eq_false, if_false, posAt_adv]
  cases s <;> simp [vstate, closeTag]

theorem loop_tag {s : List (Bytes × Bytes)} {b : Bool} {p r : Bytes} (n : Nat) : validateLoop (n + 1) (vstate s b p (c!"<" :: r)) =
    match tagT (vstate s b p (c!"<" :: r)) with
    | .error e => some e
    | .ok st => validateLoop n st := by
  rw [validateLoop]
  have hp := posAt_skipWs0 p (noWs_cons (t := r) lt_not_ws)
  simp only [vstate_pos, hp, posAt_rest, stepT, if_true]
  rfl

theorem skip_ws_one (p : Bytes) {c : UInt8} (r : Bytes) (hc : IsWs c) : (posAt p (c :: r)).skipWsT = (posAt (p ++ [c]) r).skipWsT := by
  rw [VPos.skipWsT.eq_def]
  simp [posAt_rest, (isWs_iff c).mpr hc, posAt_adv]

theorem loop_ws {s : List (Bytes × Bytes)} {b : Bool} {p r : Bytes} {c : UInt8} (n : Nat) (hc : IsWs c) :
    validateLoop (n + 1) (vstate s b p (c :: r)) = validateLoop (n + 1) (vstate s b (p ++ [c]) r) := by
  rw [validateLoop, validateLoop]
  have : ({ vstate s b p (c :: r) with pos := (vstate s b p (c :: r)).pos.skipWsT } : VState) =
      { vstate s b (p ++ [c]) r with pos := (vstate s b (p ++ [c]) r).pos.skipWsT } := by
    rw [vstate_pos, vstate_pos, skip_ws_one p r hc]; rfl
  rw [this]

theorem loop_text {s : List (Bytes × Bytes)} {b : Bool} {p r : Bytes} {c : UInt8} (n : Nat) (hc : ¬ IsWs c) (hl : c ≠ c!"<") :
    validateLoop (n + 1) (vstate s b p (c :: r)) =
      if s = [] then some (report p b!"content not allowed outside root element") else validateLoop n (vstate s b (p ++ [c]) r) := by
  rw [validateLoop]
  have hp := posAt_skipWs0 p (noWs_cons (t := r) hc)
  have hw : isWs c = false := by rw [← isWs_iff] at hc; simpa using hc
  simp only [vstate_pos, hp, posAt_rest, stepT, if_neg hl, hw, posAt_adv, posAt_err]
  cases s with
  | nil => cases b <;> simp [vstate]
  | cons x s => cases b <;> simp [vstate]

theorem open_head (n : Bytes) (as : List Attr) (w x : Bytes) : ∃ t, openTag n as w ++ x = c!"<" :: t :=
  ⟨n ++ as.flatMap Attr.render ++ w ++ x, by simp [openTag]⟩

theorem close_head (n w : Bytes) : ∃ t, closeTag n w = c!"<" :: t := ⟨c!"/" :: (n ++ w ++ b!">"), by simp [closeTag]⟩

theorem misc_head (m : Misc) : ∃ t, m.render = c!"<" :: t := by cases m <;> exact ⟨_, rfl⟩

theorem Spec.Begun.names {s : List (Bytes × Bytes)} {b : Bool} {p : Bytes} (h : Begun s b p) : ∀ x ∈ s, IsName x.1 := by
  induction h with
  | start => simp
  | misc h hm ih => exact ih
  | leaf h hn ha hw hd ih => exact ih
  | node h hn ha hw hd ih =>
    intro x hx
    rcases List.mem_cons.mp hx with rfl | hx
    · exact hn
    · exact ih x hx
  | close h hw ih => exact fun x hx => ih x (by simp [hx])
  | text h hc h0 ih => exact ih

/-- The validator gets through a correct beginning. -/
theorem Spec.Begun.run {s : List (Bytes × Bytes)} {b : Bool} {p : Bytes} (h : Begun s b p) : ∀ r, ∃ m, r.length ≤ m ∧
    validateLoop ((p ++ r).length + 1) (vstate [] false [] (p ++ r)) = validateLoop (m + 1) (vstate s b p r) := by
  have tag : ∀ {s s' : List (Bytes × Bytes)} {b b' : Bool} {p x : Bytes} (r : Bytes), (∃ t, x = c!"<" :: t) →
      tagT (vstate s b p (x ++ r)) = .ok (vstate s' b' (p ++ x) r) →
      (∃ m, (x ++ r).length ≤ m ∧ validateLoop ((p ++ (x ++ r)).length + 1) (vstate [] false [] (p ++ (x ++ r))) =
        validateLoop (m + 1) (vstate s b p (x ++ r))) →
      ∃ m, r.length ≤ m ∧ validateLoop ((p ++ x ++ r).length + 1) (vstate [] false [] (p ++ x ++ r)) =
        validateLoop (m + 1) (vstate s' b' (p ++ x) r) := by
    rintro s s' b b' p x r ⟨t, rfl⟩ h1 ⟨m, h2, h3⟩
    simp only [List.cons_append, List.length_cons, List.length_append] at h2
    obtain ⟨m, rfl⟩ : ∃ k, m = k + 1 := ⟨m - 1, by omega⟩
    refine ⟨m, by omega, ?_⟩
    rw [List.append_assoc, h3]
    rw [List.cons_append] at *
    rw [loop_tag, h1]
  induction h with
  | start => intro r; exact ⟨r.length, by omega, rfl⟩
  | misc h hm ih => intro r; exact tag r (misc_head _) (misc_ok hm _ _ _ r) (ih _)
  | leaf h hn ha hw hd ih =>
    intro r
    exact tag r (open_head _ _ _ _) (open_ok true hn ha hw _ hd _ _ r) (ih _)
  | node h hn ha hw hd ih =>
    intro r
    exact tag r (open_head _ _ _ _) (open_ok false hn ha hw _ hd _ _ r) (ih _)
  | @close s b p n q ws h hw ih =>
    intro r
    have hn : IsName n := h.names (n, q) (by simp)
    exact tag r (close_head n ws) (close_ok hn hw s b p r) (ih _)
  | @text s b p c h hc h0 ih =>
    intro r
    obtain ⟨m, h1, h2⟩ := ih (c :: r)
    have e : p ++ [c] ++ r = p ++ c :: r := by simp
    rw [e, h2]
    by_cases hw : IsWs c
    · exact ⟨m, by simp at h1; omega, loop_ws m hw⟩
    · simp only [List.length_cons] at h1
      obtain ⟨m, rfl⟩ : ∃ k, m = k + 1 := ⟨m - 1, by omega⟩
      refine ⟨m, by omega, ?_⟩
      rw [loop_text _ hw hc, if_neg (fun hs => hw (h0 hs))]

theorem begin_validate {s : List (Bytes × Bytes)} {b : Bool} {p : Bytes} (h : Begun s b p) (r : Bytes) (hl : (p ++ r).length ≤ 10485760)
    (hne : p ++ r ≠ []) : ∃ m, validate (p ++ r) = validateLoop (m + 1) (vstate s b p r) := by
  obtain ⟨m, -, h2⟩ := h.run r
  refine ⟨m, ?_⟩
  unfold validate
  rw [if_neg (by simp only [maxDocumentSize]; omega), if_neg (by simpa using hne), ← h2]
  rfl

theorem loop_nil (s : List (Bytes × Bytes)) (b : Bool) (p : Bytes) (m : Nat) : validateLoop (m + 1) (vstate s b p []) =
    match s with
    | [] => if b then none else some ⟨1, 0, b!"no root element found"⟩
    | (n, q) :: _ => some (report q (b!"unclosed tag '" ++ n ++ b!"'")) := by
  rw [validateLoop]
  have hp := posAt_skipWs0 p (r := []) (by intro c u h; simp at h)
  simp only [vstate_pos, hp, posAt_rest]
  cases s with
  | nil => cases b <;> simp [vstate]
  | cons x s => rfl

/-- A complete beginning is accepted. -/
theorem complete_validate {p : Bytes} (h : Begun [] true p) (hl : p.length ≤ 10485760) (hne : p ≠ []) : validate p = none := by
  obtain ⟨m, hm⟩ := begin_validate h [] (by simpa using hl) (by simpa using hne)
  rw [List.append_nil] at hm
  rw [hm, loop_nil]
  rfl

/-- The fault is reported. -/
theorem fault_validate {s : List (Bytes × Bytes)} {b : Bool} {p r q msg : Bytes} (h : Begun s b p) (hf : Fault s b p r q msg)
    (hl : (p ++ r).length ≤ 10485760) (hne : p ++ r ≠ []) : validate (p ++ r) = some (report q msg) := by
  obtain ⟨m, hm⟩ := begin_validate h r hl hne
  rw [hm]
  cases hf with
  | unclosed hs => subst hs; rw [loop_nil]
  | noRoot hs hb => subst hs hb; rw [loop_nil]; rfl
  | stray hs hc hw => subst hs; rw [loop_text _ hw hc, if_pos rfl]
  | tag ht =>
    have hr : ∃ t, r = c!"<" :: t := by
      cases ht <;> exact ⟨_, rfl⟩
    obtain ⟨t, rfl⟩ := hr
    rw [loop_tag, ht.run b p]

/-! ### every text is complete or has a fault -/

/-- After a correct beginning, there is a longer one, or a fault. -/
theorem go_on {s : List (Bytes × Bytes)} {b : Bool} {p : Bytes} (h : Begun s b p) {r : Bytes} (hr : r ≠ []) :
    (∃ s' b' x r', r = x ++ r' ∧ x ≠ [] ∧ Begun s' b' (p ++ x)) ∨ ∃ u m, Fault s b p r u m := by
  cases r with
  | nil => exact absurd rfl hr
  | cons c r =>
    by_cases hc : c = c!"<"
    · subst hc
      have tag : ∀ {r u m : Bytes}, TagFault s r u m → (∃ s' b' x r', r = x ++ r' ∧ x ≠ [] ∧ Begun s' b' (p ++ x)) ∨ ∃ u m, Fault s b p r u m :=
        fun h => .inr ⟨_, _, .tag h⟩
      have misc : ∀ {m : Misc} {t : Bytes}, m.Legal → (∃ s' b' x r', m.render ++ t = x ++ r' ∧ x ≠ [] ∧ Begun s' b' (p ++ x)) ∨
          ∃ u v, Fault s b p (m.render ++ t) u v := by
        intro m t hm
        exact .inl ⟨s, b, m.render, t, rfl, by obtain ⟨y, hy⟩ := misc_head m; rw [hy]; simp, .misc h hm⟩
      cases r with
      | nil => exact tag .lone
      | cons d t =>
        by_cases hpi : d = c!"?"
        · subst hpi
          rcases ended_or c!">" t with ⟨w, t', rfl, h1, h2⟩ | ⟨u, m, hu⟩
          · have := misc (m := .pi w) (t := t') ⟨h1, h2⟩
            simpa [Misc.render] using this
          · exact tag (.pi hu)
        · by_cases hex : d = c!"!"
          · subst hex
            by_cases hdt : b!"DOCTYPE" <+: t ∨ b!"doctype" <+: t
            · rcases doctype_or t with ⟨w, t', rfl, h1, h2⟩ | hn
              · have := misc (m := .doctype w) (t := t') ⟨by
                  rw [prefix_delim (by decide), prefix_delim (by decide)] at hdt; exact hdt, h1, h2⟩
                simpa [Misc.render] using this
              · exact tag (.doctype hdt hn)
            · rw [not_or] at hdt
              by_cases hcm : b!"--" <+: t
              · obtain ⟨t, rfl⟩ := hcm
                rcases comment_or t with ⟨w, t', rfl, h1⟩ | ⟨u, m, hu⟩
                · have := misc (m := .comment w) (t := t') h1
                  simpa [Misc.render] using this
                · exact tag (.comment hu)
              · by_cases hcd : b!"[CDATA[" <+: t
                · obtain ⟨t, rfl⟩ := hcd
                  rcases cdata_or t with ⟨w, t', rfl, h1⟩ | ⟨u, m, hu⟩
                  · have := misc (m := .cdata w) (t := t') h1
                    simpa [Misc.render] using this
                  · exact tag (.cdata hu)
                · rcases ended_or c!">" t with ⟨w, t', rfl, h1, h2⟩ | ⟨u, m, hu⟩
                  · rw [prefix_delim (by decide)] at hcd hcm
                    rw [prefix_delim (by decide), prefix_delim (by decide)] at hdt
                    have := misc (m := .decl w) (t := t') ⟨h1, h2, hdt.1, hdt.2, hcm, hcd⟩
                    simpa [Misc.render] using this
                  · exact tag (.decl hdt.1 hdt.2 hcm hcd hu)
          · by_cases hsl : d = c!"/"
            · subst hsl
              rcases word_or_long t with hl | ⟨n, t2, rfl, hw⟩
              · exact tag (.closeLong hl)
              · by_cases h0 : n = []
                · subst h0
                  exact tag (.closeNoName (by simpa using hw.2.1))
                · obtain ⟨w, t3, rfl, hws, hno⟩ := ws_split t2
                  by_cases hg : ∃ t4, t3 = c!">" :: t4
                  · obtain ⟨t4, rfl⟩ := hg
                    have hl : n.length ≤ 1048576 := by
                      rcases hw.2.2 with h | ⟨h, -⟩
                      · exact h
                      · simp at h
                    have e : c!"<" :: c!"/" :: (n ++ (w ++ c!">" :: t4)) = closeTag n w ++ t4 := by simp [closeTag]
                    rw [e]
                    cases s with
                    | nil => exact tag (.closeNothing rfl hw.1 h0 hl hws)
                    | cons o s =>
                      obtain ⟨o, q⟩ := o
                      by_cases ho : o = n
                      · subst ho
                        exact .inl ⟨s, true, closeTag o w, t4, rfl, by simp [closeTag], .close h hws⟩
                      · exact tag (.closeOther rfl ho hw.1 h0 hl hws)
                  · have := TagFault.closeEnd (s := s) hw h0 hws hno (fun u e => hg ⟨u, e⟩)
                    exact tag (by simpa using this)
            · rcases word_or_long (d :: t) with hl | ⟨n, t2, e, hw⟩
              · exact tag (.long hl)
              · rw [e]
                by_cases h0 : n = []
                · subst h0
                  rw [List.nil_append] at e
                  rw [List.nil_append, ← e]
                  exact tag (.noName (hw.2.1 d t e.symm) hpi hex hsl)
                · rcases start_cases hw.1 h0 with hs | ⟨why, hs⟩
                  · by_cases hd : s.length < 100
                    · obtain ⟨as, w, t3, rfl, a1, a2, a3, a4, a5⟩ := attrs_or 0 (by omega) t2
                      rw [Nat.zero_add] at *
                      rcases a5 with ⟨c, v, rfl, hc⟩ | ⟨u, m, hf⟩
                      · have hn : IsName n := word_name hw hs (by simp)
                        have hal : AttrsLegal as := by
                          refine ⟨a2, a1, ?_⟩
                          intro a ha hpre
                          cases as with
                          | nil => simp at ha
                          | cons x xs =>
                            simp only [List.head?_cons, Option.some.injEq] at ha
                            subst ha
                            obtain ⟨y, ys, hy, hst⟩ := (a1 x (by simp)).2.1.1
                            exact hw.2.1 y (ys ++ (x.mid1 ++ b!"=" ++ x.mid2 ++ [x.quote] ++ x.raw ++ [x.quote] ++
                              (xs.flatMap Attr.render ++ w ++ c :: v))) (by simp [Attr.render, hpre, hy]) (NameStart.char hst)
                        rcases hc with rfl | rfl
                        · refine .inl ⟨_, _, openTag n as w ++ b!">", v, by simp [openTag], by simp [openTag], .node h hn hal a3 hd⟩
                        · by_cases hg : ∃ v', v = c!">" :: v'
                          · obtain ⟨v', rfl⟩ := hg
                            exact .inl ⟨_, _, openTag n as w ++ b!"/>", v', by simp [openTag], by simp [openTag], .leaf h hn hal a3 hd⟩
                          · have := TagFault.slash (s := s) hd hn hal a3 (fun u e => hg ⟨u, e⟩)
                            exact tag (by simpa [openTag] using this)
                      · have := TagFault.attr (s := s) hd hw hs a1 a2 a3 a4 hf
                        exact tag (by simpa [openTag] using this)
                    · exact tag (TagFault.deep hw hs (by omega))
                  · exact tag (.start hw hs)
    · by_cases hw : s = [] ∧ ¬ IsWs c
      · exact .inr ⟨_, _, .stray hw.1 hc hw.2⟩
      · refine .inl ⟨s, b, [c], r, rfl, by simp, .text h hc ?_⟩
        intro hs
        exact Classical.byContradiction fun hn => hw ⟨hs, hn⟩

theorem complete_or_fault {s : List (Bytes × Bytes)} {b : Bool} {p : Bytes} (h : Begun s b p) (r : Bytes) :
    Begun [] true (p ++ r) ∨ ∃ s' b' p' r' q m, p ++ r = p' ++ r' ∧ Begun s' b' p' ∧ Fault s' b' p' r' q m := by
  induction hr : r.length using Nat.strongRecOn generalizing s b p r with
  | ind N ih =>
  by_cases h0 : r = []
  · subst h0
    cases s with
    | nil =>
      cases b with
      | true => left; simpa using h
      | false => exact .inr ⟨_, _, p, [], _, _, rfl, h, .noRoot rfl rfl⟩
    | cons x s => exact .inr ⟨_, _, p, [], _, _, rfl, h, .unclosed (n := x.1) (q := x.2) rfl⟩
  · rcases go_on h h0 with ⟨s', b', x, r', rfl, hx, h'⟩ | ⟨u, m, hf⟩
    · have := ih r'.length (by
        rw [← hr, List.length_append]
        have : x.length ≠ 0 := fun h => hx (List.eq_nil_of_length_eq_zero h)
        omega) h' r' rfl
      rw [List.append_assoc] at this
      exact this
    · exact .inr ⟨s, b, p, r, u, m, rfl, h, hf⟩

/-- Every report is the fault of the text. -/
theorem validate_fault {xml : Bytes} {e : VErr} (h : validate xml = some e) (hl : xml.length ≤ 10485760) (hne : xml ≠ []) :
    ∃ s b p r q m, xml = p ++ r ∧ Begun s b p ∧ Fault s b p r q m ∧ e = report q m := by
  rcases complete_or_fault .start xml with hc | ⟨s, b, p, r, q, m, e1, e2, e3⟩
  · rw [List.nil_append] at hc
    rw [complete_validate hc hl hne] at h
    simp at h
  · rw [List.nil_append] at e1
    subst e1
    have := fault_validate e2 e3 hl hne
    rw [h] at this
    simp only [Option.some.injEq] at this
    exact ⟨s, b, p, r, q, m, rfl, e2, e3, this⟩

end Verif
