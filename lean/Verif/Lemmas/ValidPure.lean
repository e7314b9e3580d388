import Verif.Model.Validate
/- The validator without positions: each function of Model/Validate.lean as a function of the remaining bytes. -/
namespace Verif
open VPos

def nameR (k : Nat) : Bytes → Option Bytes × Bytes
  | [] => (some [], [])
  | c :: cs =>
    if k > maxTokenSize then (none, c :: cs)
    else if isNameChar c then ((nameR (k + 1) cs).1.map (c :: ·), (nameR (k + 1) cs).2)
    else (some [], c :: cs)

def untilR (d : UInt8) (k : Nat) : Bytes → Option Bytes
  | [] => none
  | c :: cs => if k > maxTokenSize then none else if c = d then some cs else untilR d (k + 1) cs

def commentR : Bytes → Option Bytes
  | a :: b :: c :: r =>
    if a = c!"-" && b = c!"-" then (if c = c!">" then some r else none) else commentR (b :: c :: r)
  | _ => none

def cdataR : Bytes → Option Bytes
  | a :: b :: c :: r => if a = c!"]" && b = c!"]" && c = c!">" then some r else cdataR (b :: c :: r)
  | _ => none

def doctypeR (depth : Int) : Bytes → Option Bytes
  | [] => none
  | c :: cs =>
    if c = c!"[" then doctypeR (depth + 1) cs
    else if c = c!"]" then doctypeR (depth - 1) cs
    else if c = c!">" && depth == 0 then some cs
    else doctypeR depth cs

def attrsR : Nat → Bytes → Option Bytes
  | n, r =>
    match skipWs r with
    | [] => none
    | c :: cs =>
      if c = c!">" || c = c!"/" then some (c :: cs)
      else
        match n with
        | 0 => none
        | n + 1 =>
          if !validName ((nameR 0 (c :: cs)).1.getD []) then none
          else
            match skipWs (nameR 0 (c :: cs)).2 with
            | [] => none
            | e :: r2 =>
              if e ≠ c!"=" then none
              else
                match skipWs r2 with
                | [] => none
                | q :: r3 =>
                  if q ≠ c!"\"" && q ≠ c!"'" then none
                  else
                    match untilR q 0 r3 with
                    | none => none
                    | some r4 => attrsR n r4

/-- End of an opening tag: optional `/`, then `>`. -/
def endR (r : Bytes) : Option (Bool × Bytes) :=
  match skipWs r with
  | [] => none
  | c :: cs =>
    if c = c!"/" then
      match cs with
      | [] => none
      | d :: ds => if d = c!">" then some (true, ds) else none
    else if c = c!">" then some (false, cs) else none

def miscR (r : Bytes) : Option Bytes :=
  if r.take 7 = b!"DOCTYPE" || r.take 7 = b!"doctype" then doctypeR 0 r
  else if b!"--".isPrefixOf r then commentR (r.drop 2)
  else if r.take 7 = b!"[CDATA[" then cdataR (r.drop 7)
  else untilR c!">" 0 r

/-- Validator state without positions. -/
structure RSt where
  rest : Bytes
  stack : List Bytes
  found : Bool
  closed : Bool

def openR (st : RSt) : Option RSt :=
  let nm := nameR 0 st.rest
  let name := nm.1.getD []
  if !validName name then none
  else if st.stack.length ≥ maxNestingDepth then none
  else
    match attrsR maxAttributes nm.2 with
    | none => none
    | some r2 =>
      match endR r2 with
      | none => none
      | some (sc, r3) =>
        let closed1 := if st.found && st.stack.isEmpty && st.closed then false else st.closed
        if sc then some ⟨r3, st.stack, true, if st.stack.isEmpty then true else closed1⟩
        else some ⟨r3, name :: st.stack, true, closed1⟩

def closeR (st : RSt) : Option RSt :=
  let nm := nameR 0 st.rest
  let name := nm.1.getD []
  if name.isEmpty then none
  else
    match skipWs nm.2 with
    | [] => none
    | c :: cs =>
      if c ≠ c!">" then none
      else
        match st.stack with
        | [] => none
        | t :: ts => if t ≠ name then none else some ⟨cs, ts, st.found, if ts.isEmpty then true else st.closed⟩

def RSt.at (st : RSt) (r : Option Bytes) : Option RSt := r.map fun p => { st with rest := p }

def tagR (st : RSt) : Option RSt :=
  match st.rest.drop 1 with
  | [] => none
  | c :: cs =>
    if c = c!"?" then st.at (untilR c!">" 0 cs)
    else if c = c!"!" then st.at (miscR cs)
    else if c = c!"/" then closeR { st with rest := cs }
    else openR { st with rest := c :: cs }

def stepR (c : UInt8) (cs : Bytes) (st : RSt) : Option RSt :=
  if c = c!"<" then tagR st
  else if !st.found || st.closed then (if !isWs c then none else some { st with rest := cs })
  else some { st with rest := cs }

def loopR : Nat → RSt → Bool
  | 0, _ => false
  | n + 1, st =>
    match skipWs st.rest with
    | [] => st.stack.isEmpty && st.found
    | c :: cs =>
      match stepR c cs { st with rest := c :: cs } with
      | none => false
      | some st2 => loopR n st2

/-! ### correspondence -/

theorem skipWsT_rest (p : VPos) : p.skipWsT.rest = skipWs p.rest := by
  fun_induction VPos.skipWsT p with
  | case1 p h => simp [h, skipWs]
  | case2 p c cs h hc ih => rw [ih, adv_rest, h]; simp [skipWs, hc]
  | case3 p c cs h hc => simp [h, skipWs, hc]

theorem readNameT_rest (k : Nat) (p : VPos) :
    (p.readNameT k).1 = (nameR k p.rest).1 ∧ (p.readNameT k).2.rest = (nameR k p.rest).2 := by
  fun_induction VPos.readNameT k p with
  | case1 k p h => simp [h, nameR]
  | case2 k p c cs h hk => simp [h, nameR, hk]
  | case3 k p c cs h hk hc q ih =>
    rw [adv_rest, h] at ih
    simp only [List.drop_succ_cons, List.drop_zero] at ih
    simp only [h, nameR, hk, if_false, hc, if_true]
    exact ⟨by rw [← ih.1], ih.2⟩
  | case4 k p c cs h hk hc => simp [h, nameR, hk, hc]

theorem skipUntilT_rest (d : UInt8) (k : Nat) (p : VPos) :
    (p.skipUntilT d k).toOption.map VPos.rest = untilR d k p.rest := by
  fun_induction VPos.skipUntilT d k p with
  | case1 k p h => simp [h, untilR, Except.toOption]
  | case2 k p c cs h hk => simp [h, untilR, hk, Except.toOption]
  | case3 k p cs hk h => simp [h, untilR, hk, Except.toOption, adv_rest]
  | case4 k p c cs h hk hc ih =>
    rw [ih, adv_rest, h]; simp [untilR, hk, hc]

theorem skipCommentT_rest (p : VPos) : p.skipCommentT.toOption.map VPos.rest = commentR p.rest := by
  fun_induction VPos.skipCommentT p with
  | case1 p a b c r h hab hg =>
    simp only [adv_rest, h, List.drop_succ_cons, List.drop_zero, List.head?_cons, Option.some.injEq] at hg
    rw [h, commentR, if_pos hab, if_pos hg]
    simp [Except.toOption, adv_rest, h]
  | case2 p a b c r h hab hg =>
    simp only [adv_rest, h, List.drop_succ_cons, List.drop_zero, List.head?_cons, Option.some.injEq] at hg
    rw [h, commentR, if_pos hab, if_neg hg]
    simp [Except.toOption]
  | case3 p a b c r h hab ih =>
    rw [ih, adv_rest, h, commentR.eq_1 a, if_neg hab]; rfl
  | case4 p h =>
    have : commentR p.rest = none := by
      unfold commentR
      split
      · rename_i a b c r he; exact absurd he (h a b c r)
      · rfl
    rw [this]; rfl

theorem skipCDATAT_rest (p : VPos) : p.skipCDATAT.toOption.map VPos.rest = cdataR p.rest := by
  fun_induction VPos.skipCDATAT p with
  | case1 p a b c r h hab =>
    rw [h, cdataR, if_pos hab]
    simp [Except.toOption, adv_rest, h]
  | case2 p a b c r h hab ih =>
    rw [ih, adv_rest, h, cdataR.eq_1 a, if_neg hab]; rfl
  | case3 p h =>
    have : cdataR p.rest = none := by
      unfold cdataR
      split
      · rename_i a b c r he; exact absurd he (h a b c r)
      · rfl
    rw [this]; rfl

theorem skipDoctypeT_rest (d : Int) (p : VPos) : (p.skipDoctypeT d).toOption.map VPos.rest = doctypeR d p.rest := by
  fun_induction VPos.skipDoctypeT d p with
  | case1 d p h => simp [h, doctypeR, Except.toOption]
  | case2 d p cs h ih => rw [ih, adv_rest, h]; simp [doctypeR]
  | case3 d p cs h _ ih => rw [ih, adv_rest, h]; simp [doctypeR]
  | case4 d p c cs h h1 h2 h3 => rw [h, doctypeR, if_neg h1, if_neg h2, if_pos h3]; simp [Except.toOption, adv_rest, h]
  | case5 d p c cs h h1 h2 h3 ih => rw [ih, adv_rest, h, doctypeR.eq_2 d, if_neg h1, if_neg h2, if_neg h3]; rfl

theorem head_cons {α : Type} {l : List α} {a : α} (h : l.head? = some a) : ∃ t, l = a :: t := by
  cases l with
  | nil => simp at h
  | cons x xs => simp only [List.head?_cons, Option.some.injEq] at h; exact ⟨xs, by rw [h]⟩

theorem attrsT_rest (n : Nat) (p : VPos) : (attrsT n p).toOption.map VPos.rest = attrsR n p.rest := by
  induction n generalizing p with
  | zero =>
    unfold attrsT attrsR
    simp only
    rw [skipWsT_rest]
    cases hs : skipWs p.rest with
    | nil => rfl
    | cons c cs =>
      simp only
      split
      · simp [Except.toOption, skipWsT_rest, hs]
      · rfl
  | succ n ih =>
    unfold attrsT attrsR
    have hw := skipWsT_rest p
    simp only
    rw [hw]
    cases hs : skipWs p.rest with
    | nil => rfl
    | cons c cs =>
      simp only
      split
      · simp [Except.toOption, hw, hs]
      · obtain ⟨h1, h2⟩ := readNameT_rest 0 p.skipWsT
        rw [hw, hs] at h1 h2
        rw [h1]
        split
        · rfl
        · have h3 := skipWsT_rest (p.skipWsT.readNameT 0).2
          rw [h2] at h3
          rw [h3]
          cases he : skipWs (nameR 0 (c :: cs)).2 with
          | nil => rfl
          | cons e r2 =>
            simp only [List.head?_cons, ne_eq, Option.some.injEq]
            split
            · rfl
            · have h4 := skipWsT_rest ((p.skipWsT.readNameT 0).2.skipWsT.adv)
              rw [adv_rest, h3, he, List.drop_one, List.tail_cons] at h4
              rw [h4]
              cases hq : skipWs r2 with
              | nil => rfl
              | cons q r3 =>
                simp only
                split
                · rfl
                · have h5 := skipUntilT_rest q 0 ((p.skipWsT.readNameT 0).2.skipWsT.adv.skipWsT.adv)
                  rw [adv_rest, h4, hq, List.drop_one, List.tail_cons] at h5
                  rw [← h5]
                  cases hu : (p.skipWsT.readNameT 0).2.skipWsT.adv.skipWsT.adv.skipUntilT q 0 with
                  | error e => simp [Except.toOption]
                  | ok p5 => simp only [Except.toOption, Option.map_some]; exact ih p5

/-- Forget positions. -/
def VState.pure (st : VState) : RSt := ⟨st.pos.rest, st.stack.map Prod.fst, st.rootFound, st.rootClosed⟩

theorem openTagT_pure (e : VLoc) (st : VState) : (openTagT e st).toOption.map VState.pure = openR st.pure := by
  obtain ⟨h1, h2⟩ := readNameT_rest 0 st.pos
  unfold openTagT openR
  simp only [VState.pure, List.length_map]
  rw [← h1, ← h2]
  split
  · rfl
  · split
    · rfl
    · rw [← attrsT_rest]
      cases attrsT maxAttributes (st.pos.readNameT 0).2 with
      | error e => rfl
      | ok p2 =>
        simp only [Except.toOption, Option.map_some]
        unfold endR
        rw [← skipWsT_rest]
        cases hs : p2.skipWsT.rest with
        | nil => simp [hs]
        | cons c cs =>
          simp only [List.head?_cons, Option.some.injEq]
          by_cases hc : c = c!"/"
          · simp only [hc, if_true, adv_rest, hs, List.drop_one, List.tail_cons, decide_true]
            cases cs with
            | nil => simp
            | cons d ds =>
              simp only [List.head?_cons, ne_eq, Option.some.injEq]
              by_cases hd : d = c!">"
              · simp only [hd, not_true_eq_false, if_false, if_true, Option.map_some, adv_rest, hs, List.isEmpty_map]
                simp [VState.pure, adv_rest, hs]
              · simp [hd]
          · simp only [hc, if_false, hs, List.head?_cons, ne_eq, Option.some.injEq, decide_false, Bool.false_eq_true]
            by_cases hd : c = c!">"
            · simp only [hd, not_true_eq_false, if_false, if_true, Option.map_some, adv_rest, hs, List.isEmpty_map]
              simp [VState.pure, adv_rest, hs]
            · simp [hd]

theorem closeTagT_pure (e : VLoc) (st : VState) : (closeTagT e st).toOption.map VState.pure = closeR st.pure := by
  obtain ⟨h1, h2⟩ := readNameT_rest 0 st.pos
  unfold closeTagT closeR
  simp only [VState.pure, ← h1, ← h2]
  split
  · rfl
  · rw [← skipWsT_rest]
    cases hs : (st.pos.readNameT 0).2.skipWsT.rest with
    | nil => simp [Except.toOption]
    | cons c cs =>
      simp only [List.head?_cons, ne_eq, Option.some.injEq]
      split
      · rfl
      · cases hst : st.stack with
        | nil => rfl
        | cons t ts =>
          obtain ⟨t, te⟩ := t
          simp only [List.map_cons]
          split
          · rfl
          · simp [Except.toOption, VState.pure, adv_rest, hs]

theorem at_pure (st : VState) (r : Except VErr VPos) :
    (st.at r).toOption.map VState.pure = st.pure.at (r.toOption.map VPos.rest) := by
  cases r with
  | error e => rfl
  | ok p => rfl

theorem advN_rest (n : Nat) (p : VPos) : (advN n p).rest = p.rest.drop n := by
  induction n generalizing p with
  | zero => rfl
  | succ n ih => rw [advN, ih, adv_rest, List.drop_drop, Nat.add_comm]

theorem tagT_pure (st : VState) : (tagT st).toOption.map VState.pure = tagR st.pure := by
  unfold tagT tagR
  simp only [adv_rest, VState.pure]
  cases hr : st.pos.rest.drop 1 with
  | nil => rfl
  | cons c cs =>
    simp only
    have ha : st.pos.adv.adv.rest = cs := by rw [adv_rest, adv_rest, hr]; rfl
    by_cases h1 : c = c!"?"
    · simp only [h1, if_true]
      rw [at_pure, skipUntilT_rest, ha]; rfl
    · simp only [h1, if_false]
      by_cases h2 : c = c!"!"
      · simp only [h2, if_true, List.drop_one, List.tail_cons]
        unfold miscR
        split
        · rw [at_pure, skipDoctypeT_rest, ha]; rfl
        · split
          · rw [at_pure, skipCommentT_rest, adv_rest, adv_rest, ha, List.drop_drop]; rfl
          · split
            · rw [at_pure, skipCDATAT_rest, advN_rest, ha]; rfl
            · rw [at_pure, skipUntilT_rest, ha]; rfl
      · simp only [h2, if_false]
        by_cases h3 : c = c!"/"
        · simp only [h3, if_true]
          rw [closeTagT_pure]; simp only [VState.pure, ha]
        · simp only [h3, if_false]
          rw [openTagT_pure]; simp only [VState.pure, adv_rest, hr]

theorem stepT_pure (c : UInt8) (cs : Bytes) (st : VState) (h : st.pos.rest = c :: cs) :
    (stepT c st).toOption.map VState.pure = stepR c cs st.pure := by
  unfold stepT stepR
  split
  · exact tagT_pure st
  · by_cases hf : (!st.rootFound || st.rootClosed) = true
    · have hf' : (!st.pure.found || st.pure.closed) = true := hf
      rw [if_pos hf, if_pos hf']
      split
      · rfl
      · simp [Except.toOption, VState.pure, adv_rest, h]
    · have hf' : ¬ (!st.pure.found || st.pure.closed) = true := hf
      rw [if_neg hf, if_neg hf']
      simp [Except.toOption, VState.pure, adv_rest, h]

theorem validateLoop_pure (n : Nat) (st : VState) : (validateLoop n st).isNone = loopR n st.pure := by
  induction n generalizing st with
  | zero => rfl
  | succ n ih =>
    unfold validateLoop loopR
    simp only [VState.pure]
    rw [← skipWsT_rest]
    cases hs : st.pos.skipWsT.rest with
    | nil =>
      simp only [List.isEmpty_map]
      cases st.stack with
      | nil => simp only [List.isEmpty_nil, Bool.true_and]; cases st.rootFound <;> rfl
      | cons t ts => obtain ⟨t, e⟩ := t; rfl
    | cons c cs =>
      simp only
      have := stepT_pure c cs { st with pos := st.pos.skipWsT } hs
      simp only [VState.pure, hs] at this
      rw [← this]
      cases stepT c { st with pos := st.pos.skipWsT } with
      | error e => rfl
      | ok st2 => simp only [Except.toOption, Option.map_some]; exact ih st2

end Verif
