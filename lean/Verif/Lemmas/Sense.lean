import Verif.Spec.Sense
import Verif.Lemmas.AstrayStep
import Verif.Lemmas.Spell
/- The segments of any path without modifiers, against its meaning (C78). -/
namespace Verif
open Verif.Spec

/-- The segment of a step. -/
inductive RoleSeg (d t : Prop) (ev : Filter → Elem → Bool) : Role → Seg → Prop where
  | name (n : Bytes) : RoleSeg d t ev (.name n) (nameSeg n)
  | pos (j : Nat) (i : Int) (h : i = j ∨ 1000 ≤ i ∧ 1000 ≤ j) : RoleSeg d t ev (.pos (some j)) ⟨.index i, []⟩
  | neg (i : Int) (h : i < 0) : RoleSeg d t ev (.pos none) ⟨.index i, []⟩
  | cond (f : Filter) (all : Bool) (q : Node → Bool) (h : ∀ e nd, Rep e nd → Fine d t nd.kids → ev f e = q nd) : RoleSeg d t ev (.cond all q) ⟨.filter f all, []⟩
  | any : RoleSeg d t ev .any ⟨.wild false, []⟩
  | deep : RoleSeg d t ev .deep ⟨.wild true, []⟩
  | attr (a : Bytes) : RoleSeg d t ev (.attr a) ⟨.attr a, []⟩
  | text : RoleSeg d t ev .text ⟨.text, []⟩
  | count : RoleSeg d t ev .count ⟨.count, []⟩
  | field (g : Goal) (s : Seg) (hg : goalSegs g = [s]) (ho : g.Ok) (hf : g.isField = true) : RoleSeg d t ev (.field g) s

theorem push_none {m : Move} {x : Option (List Move × Goal)} (h : push m x = none) : x = none := by
  cases x with
  | none => rfl
  | some x => cases h

theorem push_some {m : Move} {x : Option (List Move × Goal)} {ms : List Move} {g : Goal} (h : push m x = some (ms, g)) : ∃ ns, x = some (ns, g) ∧ ms = m :: ns := by
  cases x with
  | none => cases h
  | some x => obtain ⟨ns, g'⟩ := x; simp only [push, Option.some.injEq, Prod.mk.injEq] at h; obtain ⟨h1, rfl⟩ := h; exact ⟨ns, rfl, h1.symm⟩

section
variable {env : Env} {ev : Filter → Elem → Bool} {d t : Prop}

/-- How the segments of a path that finds nothing begin. -/
def LostHead (kept : Bool) (S : List Seg) : Prop := ∃ s r, S = s :: r ∧ (s.step ∨ (kept = false ∧ (∃ a, s.kind = .attr a) ∧ r ≠ []))

theorem dead_name_attr {n : Bytes} {s : Seg} {a : Bytes} (hs : s.kind = .attr a) {r : List Seg} (hr : r ≠ []) : Dead env ev (nameSeg n :: s :: r) :=
  dead_attr hs (.inl ⟨n, rfl⟩) hr [] (by simp)

theorem recEmit_lost {k : Bytes → Result} {s : Seg} {r : List Seg} (h : s.step ∨ ((∃ a, s.kind = .attr a) ∧ r ≠ [])) (hk : ∀ x, k x = .null) (e : Elem) : recEmit env (s :: r) k e = [] := by
  rcases h with h | ⟨⟨a, h⟩, hr⟩
  · exact recEmit_null h r hk e
  · have : r.isEmpty = false := by simpa using hr
    simp only [recEmit, h, this]; split <;> rfl

theorem dead_under_deep {w y s : Seg} {r : List Seg} (hw : w.kind = .wild true) (h : s.step ∨ ((∃ a, s.kind = .attr a) ∧ r ≠ [])) (hd : Dead env ev (s :: r)) :
    Dead env ev (w :: y :: s :: r) := by
  intro root xml
  rw [execQ_cons2]
  simp only [execBody, hw]
  exact handleRecursive_idle (fun e _ => recEmit_lost h (fun z => hd false z) e) xml

/-- What the plan gives up finds nothing in any content. -/
theorem lost_dead {b : Bool} {ks : List Role} (hl : plan b ks = none) {S : List Seg} (h : All2 (RoleSeg d t ev) ks S) : Dead env ev S ∧ LostHead b S := by
  induction b, ks using plan.induct generalizing S with
  | case1 b => simp [plan] at hl
  | case2 b ks => simp [plan] at hl
  | case3 b ks => simp [plan] at hl
  | case4 b g ks => simp [plan] at hl
  | case5 b a ks hc => simp only [plan, hc, if_true] at hl; cases hl
  | case6 b a ks hc =>
    cases h with
    | cons h1 h2 =>
      cases h1
      refine ⟨fun root xml => (execQ_loose _ _ _).1 ⟨a, rfl⟩, _, _, rfl, .inr ?_⟩
      simp only [Bool.or_eq_true, not_or, Bool.not_eq_true, List.isEmpty_eq_false_iff] at hc
      refine ⟨hc.1, ⟨a, rfl⟩, ?_⟩
      rintro rfl
      cases h2
      exact hc.2 rfl
  | case7 b n j ks ih =>
    simp only [plan] at hl
    cases h with
    | cons h1 h2 =>
      cases h1
      cases h2 with
      | cons h3 h4 =>
        obtain ⟨hd, s, r, rfl, hs⟩ := ih (push_none hl) h4
        rcases hs with hs | ⟨hk, -⟩
        · cases h3 with
          | pos j i hi =>
            refine ⟨fun root xml => ?_, _, _, rfl, .inl (.inl ⟨n, rfl⟩)⟩
            rw [execQ_cons2]
            simp only [execBody, nameSeg]
            split
            · exact (arrayOp_null (d := ⟨.index i, []⟩) ⟨i, rfl⟩ hs r (fun z => hd false z) _).2
            · exact (arrayOp_null (d := ⟨.index i, []⟩) ⟨i, rfl⟩ hs r (fun z => hd false z) _).1
        · cases hk
  | case8 b n all q ks ih =>
    simp only [plan] at hl
    cases h with
    | cons h1 h2 =>
      cases h1
      cases h2 with
      | cons h3 h4 =>
        obtain ⟨hd, s, r, rfl, hs⟩ := ih (push_none hl) h4
        rcases hs with hs | ⟨hk, -⟩
        · cases h3 with
          | cond f all q hf =>
            refine ⟨fun root xml => ?_, _, _, rfl, .inl (.inl ⟨n, rfl⟩)⟩
            rw [execQ_cons2]
            simp only [execBody, nameSeg, isFragmentQuery, SegKind.isRootOp, Bool.and_false, execElem, routeFilter_null hs r (fun z => hd false z)]
            rfl
        · cases hk
  | case9 b n ks h1 h2 ih =>
    rw [plan.eq_8 _ _ _ h1 h2] at hl
    cases h with
    | cons h3 h4 =>
      cases h3
      obtain ⟨hd, s, r, rfl, hs⟩ := ih (push_none hl) h4
      refine ⟨?_, _, _, rfl, .inl (.inl ⟨n, rfl⟩)⟩
      rcases hs with hs | ⟨-, ⟨a, ha⟩, hr⟩
      · cases h4 with
        | @cons k _ ks' _ h5 h6 =>
          intro root xml
          rw [execQ_cons2]
          have hnm : (nameSeg n).step := .inl ⟨n, rfl⟩
          cases h5 with
          | name m => exact execBody_null hnm (by simp [nameSeg]) (.inl ⟨m, rfl⟩) _ (fun z => hd false z) xml
          | pos j i _ => exact (h1 j ks' rfl).elim
          | neg i hi =>
            have := dead_negative (env := env) (ev := ev) (p := ⟨.index i, []⟩) rfl hi r [nameSeg n] (by simpa using hnm) root xml
            rw [List.cons_append, List.nil_append, execQ_cons2] at this
            exact this
          | cond f all q _ => exact (h2 all q ks' rfl).elim
          | any => exact execBody_null hnm (by simp [nameSeg]) (.inr ⟨_, rfl⟩) _ (fun z => hd false z) xml
          | deep => exact execBody_null hnm (by simp [nameSeg]) (.inr ⟨_, rfl⟩) _ (fun z => hd false z) xml
          | attr a => rcases hs with ⟨_, h⟩ | ⟨_, h⟩ | ⟨_, h⟩ | ⟨_, _, h⟩ <;> cases h
          | text => rcases hs with ⟨_, h⟩ | ⟨_, h⟩ | ⟨_, h⟩ | ⟨_, _, h⟩ <;> cases h
          | count => rcases hs with ⟨_, h⟩ | ⟨_, h⟩ | ⟨_, h⟩ | ⟨_, _, h⟩ <;> cases h
          | field g s hg hok hf => simp [plan, push] at hl
      · exact dead_name_attr ha hr
  | case10 b j ks =>
    cases h with
    | cons h1 h2 => cases h1 <;> exact ⟨dead_index ⟨_, rfl⟩ _, _, _, rfl, .inl (.inr (.inl ⟨_, rfl⟩))⟩
  | case11 b all q ks ih =>
    simp only [plan] at hl
    cases h with
    | cons h1 h2 =>
      obtain ⟨hd, s, r, rfl, hs⟩ := ih (push_none hl) h2
      rcases hs with hs | ⟨hk, -⟩
      · cases h1 with
        | cond f all q hf =>
          refine ⟨fun root xml => ?_, _, _, rfl, .inl (.inr (.inr (.inr ⟨_, _, rfl⟩)))⟩
          rw [execQ_cons2]
          simp only [execBody, routeFilter_null hs r (fun z => hd false z)]
      · cases hk
  | case12 b ks ih =>
    simp only [plan] at hl
    cases h with
    | cons h1 h2 =>
      cases h1
      obtain ⟨hd, s, r, rfl, hs⟩ := ih (push_none hl) h2
      refine ⟨?_, _, _, rfl, .inl (.inr (.inr (.inl ⟨_, rfl⟩)))⟩
      rcases hs with hs | ⟨-, ⟨a, ha⟩, hr⟩
      · intro root xml
        rw [execQ_cons2]
        simp only [execBody, handleWildcard_null hs r (fun z => hd false z)]
        split <;> rfl
      · exact dead_attr ha (.inr ⟨_, rfl⟩) hr [] (by simp)
  | case13 b n ks ih =>
    simp only [plan] at hl
    cases h with
    | cons h1 h2 =>
      cases h1
      cases h2 with
      | cons h3 h4 =>
        obtain ⟨hd, s, r, rfl, hs⟩ := ih (push_none hl) h4
        exact ⟨dead_under_deep rfl (hs.imp id And.right) hd, _, _, rfl, .inl (.inr (.inr (.inl ⟨_, rfl⟩)))⟩
  | case14 b ks ih =>
    simp only [plan] at hl
    cases h with
    | cons h1 h2 =>
      cases h1
      cases h2 with
      | cons h3 h4 =>
        obtain ⟨hd, s, r, rfl, hs⟩ := ih (push_none hl) h4
        exact ⟨dead_under_deep rfl (hs.imp id And.right) hd, _, _, rfl, .inl (.inr (.inr (.inl ⟨_, rfl⟩)))⟩
  | case15 b ks ih =>
    simp only [plan] at hl
    cases h with
    | cons h1 h2 =>
      cases h1
      cases h2 with
      | cons h3 h4 =>
        obtain ⟨hd, s, r, rfl, hs⟩ := ih (push_none hl) h4
        exact ⟨dead_under_deep rfl (hs.imp id And.right) hd, _, _, rfl, .inl (.inr (.inr (.inl ⟨_, rfl⟩)))⟩
  | case16 b ks h1 h2 h3 =>
    cases h with
    | cons h4 h5 =>
      cases h4
      refine ⟨dead_deep rfl (fun x hx => ?_) [] (by simp) (by simp), _, _, rfl, .inl (.inr (.inr (.inl ⟨_, rfl⟩)))⟩
      cases h5 with
      | nil => simp at hx
      | @cons k s ks' _ h6 h7 =>
        simp at hx; subst hx
        cases h6 with
        | name m => exact (h1 m ks' rfl).elim
        | any => exact (h2 ks' rfl).elim
        | deep => exact (h3 ks' rfl).elim
        | field g s hg hok hf => cases g <;> simp [Goal.isField] at hf <;> simp [goalSegs] at hg <;> subst hg <;> simp
        | _ => simp

/-- What may be left over behind the moves and the goal: nothing; anything, if the goal shuts; or anything behind an attribute that has a filter or an index before it. -/
def Left (b : Bool) (Ss : List (List Seg)) (g : Goal) (rest : List Seg) : Prop :=
  rest = [] ∨ (∃ s, goalSegs g = [s] ∧ s.shut) ∨
    ∃ a, g = .attr a ∧ ((Ss = [] ∧ b = true) ∨ ∃ l x, Ss.flatten = l ++ [x] ∧ ((∃ f all, x.kind = .filter f all) ∨ ∃ i, x.kind = .index i))

theorem Left.push {b b' : Bool} {S : List Seg} {Ss : List (List Seg)} {g : Goal} {rest : List Seg} (h : Left b Ss g rest)
    (hb : b = true → ∃ l x, S = l ++ [x] ∧ ((∃ f all, x.kind = .filter f all) ∨ ∃ i, x.kind = .index i)) : Left b' (S :: Ss) g rest := by
  rcases h with h | h | ⟨a, hg, h⟩
  · exact .inl h
  · exact .inr (.inl h)
  · refine .inr (.inr ⟨a, hg, .inr ?_⟩)
    rcases h with ⟨rfl, hb'⟩ | ⟨l, x, e, hx⟩
    · obtain ⟨l, x, rfl, hx⟩ := hb hb'
      exact ⟨l, x, by simp, hx⟩
    · exact ⟨S ++ l, x, by simp [e], hx⟩

theorem proper_push {m : Move} {ms : List Move} (h : Proper ms) (hm : ∀ n, m = .name n → ∀ x r, ms = x :: r → x.Free) : Proper (m :: ms) := by
  cases ms with
  | nil => cases m <;> trivial
  | cons x r =>
    cases m with
    | name n => exact ⟨hm n rfl x r rfl, h⟩
    | _ => exact h

theorem plan_head_free {ks : List Role} (h2 : ∀ all q ks', ks = Role.cond all q :: ks' → False) {ms : List Move} {g : Goal} (h : plan false ks = some (ms, g)) (x : Move) (r : List Move)
    (hm : ms = x :: r) : x.Free := by
  subst hm
  revert h
  cases ks with
  | nil => intro h; simp [plan] at h
  | cons k ks =>
    cases k with
    | cond all q => exact (h2 all q ks rfl).elim
    | pos j => intro h; simp [plan] at h
    | attr a => intro h; simp only [plan] at h; split at h <;> simp at h
    | text => intro h; simp [plan] at h
    | count => intro h; simp [plan] at h
    | field g => intro h; simp [plan] at h
    | any =>
      intro h; simp only [plan] at h
      obtain ⟨ns, -, e⟩ := push_some h; injection e with e _; subst e; trivial
    | name n =>
      intro h
      rw [plan.eq_def] at h
      simp only at h
      split at h
      all_goals first | (rename_i e; cases e; done) | skip
      all_goals rename_i e; first | cases e | skip
      all_goals obtain ⟨ns, -, e⟩ := push_some h; injection e with e _; subst e
      · trivial
      · unfold Move.filtered; split <;> trivial
      · trivial
    | deep =>
      intro h
      rw [plan.eq_def] at h
      simp only at h
      split at h
      all_goals first | (cases h; done) | skip
      all_goals rename_i e; first | cases e | skip
      all_goals obtain ⟨ns, -, e⟩ := push_some h; injection e with e _; subst e; trivial

/-- What the plan keeps: the segments are those of the moves and the goal, and what is left over. -/
theorem kept_segs {b : Bool} {ks : List Role} {ms : List Move} {g : Goal} (hl : plan b ks = some (ms, g)) {S : List Seg} (h : All2 (RoleSeg d t ev) ks S) :
    ∃ Ss rest, S = Ss.flatten ++ goalSegs g ++ rest ∧ All2 (MoveSegs d t ev) Ss ms ∧ Proper ms ∧ g.Ok ∧ Left b Ss g rest := by
  have fil : ∀ {n : Option Bytes} {all : Bool} {q : Node → Bool} {f : Filter}, (∀ e nd, Rep e nd → Fine d t nd.kids → ev f e = q nd) →
      MoveSegs d t ev ((n.toList.map nameSeg) ++ [⟨.filter f all, []⟩]) (.filtered n all q) := by
    intro n all q f hf
    cases n <;> cases all <;> simp only [Move.filtered]
    · exact .satF f q hf
    · exact .satAllF f q hf
    · exact .sat _ f q hf
    · exact .satAll _ f q hf
  induction b, ks using plan.induct generalizing S ms with
  | case1 b =>
    simp only [plan, Option.some.injEq, Prod.mk.injEq] at hl
    obtain ⟨rfl, rfl⟩ := hl
    cases h
    exact ⟨[], [], rfl, .nil, trivial, trivial, .inl rfl⟩
  | case2 b ks =>
    simp only [plan, Option.some.injEq, Prod.mk.injEq] at hl
    obtain ⟨rfl, rfl⟩ := hl
    cases h with
    | cons h1 h2 => cases h1; exact ⟨[], _, rfl, .nil, trivial, trivial, .inr (.inl ⟨_, rfl, .inl rfl⟩)⟩
  | case3 b ks =>
    simp only [plan, Option.some.injEq, Prod.mk.injEq] at hl
    obtain ⟨rfl, rfl⟩ := hl
    cases h with
    | cons h1 h2 => cases h1; exact ⟨[], _, rfl, .nil, trivial, trivial, .inr (.inl ⟨_, rfl, .inr (.inl rfl)⟩)⟩
  | case4 b g' ks =>
    simp only [plan, Option.some.injEq, Prod.mk.injEq] at hl
    obtain ⟨rfl, rfl⟩ := hl
    cases h with
    | @cons _ s _ R h1 h2 =>
      cases h1 with
      | field _ _ hg hok hf =>
        refine ⟨[], R, by simp [hg], .nil, trivial, hok, .inr (.inl ⟨s, hg, .inr (.inr ?_)⟩)⟩
        cases g' <;> simp [Goal.isField] at hf <;> simp [goalSegs] at hg <;> subst hg <;> exact ⟨_, rfl⟩
  | case5 b a ks hc =>
    simp only [plan, hc, if_true, Option.some.injEq, Prod.mk.injEq] at hl
    obtain ⟨rfl, rfl⟩ := hl
    cases h with
    | @cons _ s _ R h1 h2 =>
      cases h1
      refine ⟨[], R, rfl, .nil, trivial, trivial, ?_⟩
      simp only [Bool.or_eq_true, List.isEmpty_iff] at hc
      rcases hc with hc | rfl
      · exact .inr (.inr ⟨a, rfl, .inl ⟨rfl, hc⟩⟩)
      · cases h2; exact .inl rfl
  | case6 b a ks hc => simp only [plan, hc] at hl; cases hl
  | case7 b n j ks ih =>
    simp only [plan] at hl
    obtain ⟨ns, hn, rfl⟩ := push_some hl
    cases h with
    | cons h1 h2 =>
      cases h1
      cases h2 with
      | cons h3 h4 =>
        obtain ⟨Ss, rest, rfl, ha, hp, hok, hL⟩ := ih hn h4
        cases h3 with
        | pos _ i hi =>
          exact ⟨[nameSeg n, ⟨.index i, []⟩] :: Ss, rest, by simp, .cons (.nth n j i hi) ha, proper_push hp (by simp), hok,
            hL.push fun _ => ⟨[nameSeg n], _, rfl, .inr ⟨i, rfl⟩⟩⟩
  | case8 b n all q ks ih =>
    simp only [plan] at hl
    obtain ⟨ns, hn, rfl⟩ := push_some hl
    cases h with
    | cons h1 h2 =>
      cases h1
      cases h2 with
      | cons h3 h4 =>
        obtain ⟨Ss, rest, rfl, ha, hp, hok, hL⟩ := ih hn h4
        cases h3 with
        | cond f _ _ hf =>
          exact ⟨[nameSeg n, ⟨.filter f all, []⟩] :: Ss, rest, by simp, .cons (fil (n := some n) hf) ha, proper_push hp (by intro m; cases all <;> simp [Move.filtered]), hok,
            hL.push fun _ => ⟨[nameSeg n], _, rfl, .inl ⟨f, all, rfl⟩⟩⟩
  | case9 b n ks h1 h2 ih =>
    rw [plan.eq_8 _ _ _ h1 h2] at hl
    obtain ⟨ns, hn, rfl⟩ := push_some hl
    cases h with
    | cons h3 h4 =>
      cases h3
      obtain ⟨Ss, rest, rfl, ha, hp, hok, hL⟩ := ih hn h4
      exact ⟨[nameSeg n] :: Ss, rest, by simp, .cons (.name n) ha, proper_push hp fun m _ x r e => plan_head_free h2 hn x r e, hok, hL.push (by simp)⟩
  | case10 b j ks => simp [plan] at hl
  | case11 b all q ks ih =>
    simp only [plan] at hl
    obtain ⟨ns, hn, rfl⟩ := push_some hl
    cases h with
    | cons h3 h4 =>
      obtain ⟨Ss, rest, rfl, ha, hp, hok, hL⟩ := ih hn h4
      cases h3 with
      | cond f _ _ hf =>
        exact ⟨[⟨.filter f all, []⟩] :: Ss, rest, by simp, .cons (fil (n := none) hf) ha, proper_push hp (by intro m; cases all <;> simp [Move.filtered]), hok,
          hL.push fun _ => ⟨[], _, rfl, .inl ⟨f, all, rfl⟩⟩⟩
  | case12 b ks ih =>
    simp only [plan] at hl
    obtain ⟨ns, hn, rfl⟩ := push_some hl
    cases h with
    | cons h3 h4 =>
      cases h3
      obtain ⟨Ss, rest, rfl, ha, hp, hok, hL⟩ := ih hn h4
      exact ⟨[⟨.wild false, []⟩] :: Ss, rest, by simp, .cons .any ha, proper_push hp (by simp), hok, hL.push (by simp)⟩
  | case13 b n ks ih =>
    simp only [plan] at hl
    obtain ⟨ns, hn, rfl⟩ := push_some hl
    cases h with
    | cons h1 h2 =>
      cases h1
      cases h2 with
      | cons h3 h4 =>
        obtain ⟨Ss, rest, rfl, ha, hp, hok, hL⟩ := ih hn h4
        cases h3
        exact ⟨[⟨.wild true, []⟩, nameSeg n] :: Ss, rest, by simp, .cons (.deep n) ha, proper_push hp (by simp), hok, hL.push (by simp)⟩
  | case14 b ks ih =>
    simp only [plan] at hl
    obtain ⟨ns, hn, rfl⟩ := push_some hl
    cases h with
    | cons h1 h2 =>
      cases h1
      cases h2 with
      | cons h3 h4 =>
        obtain ⟨Ss, rest, rfl, ha, hp, hok, hL⟩ := ih hn h4
        cases h3
        exact ⟨[⟨.wild true, []⟩, ⟨.wild false, []⟩] :: Ss, rest, by simp, .cons (.deepAny _) ha, proper_push hp (by simp), hok, hL.push (by simp)⟩
  | case15 b ks ih =>
    simp only [plan] at hl
    obtain ⟨ns, hn, rfl⟩ := push_some hl
    cases h with
    | cons h1 h2 =>
      cases h1
      cases h2 with
      | cons h3 h4 =>
        obtain ⟨Ss, rest, rfl, ha, hp, hok, hL⟩ := ih hn h4
        cases h3
        exact ⟨[⟨.wild true, []⟩, ⟨.wild true, []⟩] :: Ss, rest, by simp, .cons (.deepAny _) ha, proper_push hp (by simp), hok, hL.push (by simp)⟩
  | case16 b ks h1 h2 h3 =>
    rw [plan.eq_15 _ _ h1 h2 h3] at hl
    cases hl

theorem moveSegs_mods {Ss : List (List Seg)} {ms : List Move} (h : All2 (MoveSegs d t ev) Ss ms) : ∀ x ∈ Ss.flatten, x.mods = [] := by
  induction h with
  | nil => simp
  | cons h _ ih =>
    obtain ⟨s, S', rfl, e1, e2, e3, e4⟩ := moveSegs_head h
    intro x hx
    simp only [List.flatten_cons, List.cons_append, List.mem_cons, List.mem_append] at hx
    rcases hx with rfl | hx | hx
    · exact e2
    · exact e4 x hx
    · exact ih x hx

/-- Whatever is left over is not looked at. -/
theorem exec_left {Ss : List (List Seg)} {g : Goal} {rest : List Seg} (h : Left false Ss g rest) (root : Bool) (xml : Bytes) :
    execQ env ev (Ss.flatten ++ goalSegs g ++ rest) root xml = execQ env ev (Ss.flatten ++ goalSegs g) root xml := by
  rcases h with rfl | ⟨s, hg, hs⟩ | ⟨a, rfl, ⟨-, hb⟩ | ⟨l, x, e, hx⟩⟩
  · simp
  · rw [hg, List.append_assoc, List.singleton_append]; exact execQ_shut hs rest _ root xml
  · cases hb
  · rw [e, goalSegs]
    simp only [List.append_assoc, List.singleton_append]
    exact execQ_attr_kept (p := ⟨.attr a, []⟩) rfl (hx.imp id fun h => ⟨h, rfl⟩) rest l root xml

theorem plan_uses {b : Bool} {ks : List Role} {ms : List Move} {g : Goal} (h : plan b ks = some (ms, g)) :
    ((∃ n, .deep n ∈ ms) → .deep ∈ ks) ∧ (g = .fieldText → .field .fieldText ∈ ks) ∧ (g = .text → .text ∈ ks ∨ .field .text ∈ ks) := by
  have one : ∀ {b : Bool} {k : Role} {ks : List Role} {m : Move} (ih : ∀ {ms : List Move}, plan b ks = some (ms, g) →
      ((∃ n, .deep n ∈ ms) → .deep ∈ ks) ∧ (g = .fieldText → .field .fieldText ∈ ks) ∧ (g = .text → .text ∈ ks ∨ .field .text ∈ ks)) {ms : List Move} (h : push m (plan b ks) = some (ms, g))
      (hm : (∃ n, m = .deep n) → k = .deep), ((∃ n, .deep n ∈ ms) → .deep ∈ k :: ks) ∧ (g = .fieldText → .field .fieldText ∈ k :: ks) ∧ (g = .text → .text ∈ k :: ks ∨ .field .text ∈ k :: ks) := by
    intro b k ks m ih ms h hm
    obtain ⟨ns, hn, rfl⟩ := push_some h
    obtain ⟨h1, h2, h3⟩ := ih hn
    refine ⟨?_, fun e => List.mem_cons_of_mem _ (h2 e), fun e => (h3 e).imp (List.mem_cons_of_mem _) (List.mem_cons_of_mem _)⟩
    rintro ⟨n, hn⟩
    rcases List.mem_cons.mp hn with e | hn
    · rw [hm ⟨n, e.symm⟩]; simp
    · exact List.mem_cons_of_mem _ (h1 ⟨n, hn⟩)
  have more : ∀ {k y : Role} {ks : List Role} {ms : List Move}, (((∃ n, Move.deep n ∈ ms) → .deep ∈ k :: ks) ∧ (g = .fieldText → .field .fieldText ∈ k :: ks) ∧ (g = .text → .text ∈ k :: ks ∨ .field .text ∈ k :: ks)) →
      (((∃ n, Move.deep n ∈ ms) → .deep ∈ k :: y :: ks) ∧ (g = .fieldText → .field .fieldText ∈ k :: y :: ks) ∧ (g = .text → .text ∈ k :: y :: ks ∨ .field .text ∈ k :: y :: ks)) := by
    intro k y ks ms ⟨h1, h2, h3⟩
    have up : ∀ {x : Role}, x ∈ k :: ks → x ∈ k :: y :: ks := by
      intro x hx
      rcases List.mem_cons.mp hx with rfl | hx
      · simp
      · simp [hx]
    exact ⟨fun e => up (h1 e), fun e => up (h2 e), fun e => (h3 e).imp up up⟩
  induction b, ks using plan.induct generalizing ms with
  | case1 b => simp only [plan, Option.some.injEq, Prod.mk.injEq] at h; obtain ⟨rfl, rfl⟩ := h; simp
  | case2 b ks => simp only [plan, Option.some.injEq, Prod.mk.injEq] at h; obtain ⟨rfl, rfl⟩ := h; simp
  | case3 b ks => simp only [plan, Option.some.injEq, Prod.mk.injEq] at h; obtain ⟨rfl, rfl⟩ := h; simp
  | case4 b g' ks => simp only [plan, Option.some.injEq, Prod.mk.injEq] at h; obtain ⟨rfl, rfl⟩ := h; refine ⟨by simp, ?_, ?_⟩ <;> (rintro rfl; simp)
  | case5 b a ks hc => simp only [plan, hc, if_true, Option.some.injEq, Prod.mk.injEq] at h; obtain ⟨rfl, rfl⟩ := h; simp
  | case6 b a ks hc => simp only [plan, hc] at h; cases h
  | case7 b n j ks ih => simp only [plan] at h; exact more (one ih h (by simp))
  | case8 b n all q ks ih => simp only [plan] at h; exact more (one ih h (by cases all <;> simp [Move.filtered]))
  | case9 b n ks h1 h2 ih => rw [plan.eq_8 _ _ _ h1 h2] at h; exact one ih h (by simp)
  | case10 b j ks => simp [plan] at h
  | case11 b all q ks ih => simp only [plan] at h; exact one ih h (by cases all <;> simp [Move.filtered])
  | case12 b ks ih => simp only [plan] at h; exact one ih h (by simp)
  | case13 b n ks ih => simp only [plan] at h; exact more (one ih h (by simp))
  | case14 b ks ih => simp only [plan] at h; exact more (one ih h (by simp))
  | case15 b ks ih => simp only [plan] at h; exact more (one ih h (by simp))
  | case16 b ks h1 h2 h3 => rw [plan.eq_15 _ _ h1 h2 h3] at h; cases h

/-- The answer of the steps. -/
theorem exec_reply (ho : env.ord.IsPerm) {ks : List Role} {S : List Seg} (h : All2 (RoleSeg d t ev) ks S) (hd : .deep ∈ ks → d) (ht : .field .fieldText ∈ ks → t)
    {c : Bytes} {k : Info} (hr : Reads env.ord c k) (hf : Fine d t k) : Gives (execQ env ev S true c) (reply ks k) := by
  unfold reply
  cases hp : plan false ks with
  | none => rw [(lost_dead hp h).1 true c]; rfl
  | some x =>
    obtain ⟨ms, g⟩ := x
    obtain ⟨Ss, rest, rfl, ha, hpr, hok, hL⟩ := kept_segs hp h
    rw [exec_left hL]
    refine exec_ask ho ha hpr hok ?_ ?_ true hr hf
    · exact fun h => hd ((plan_uses hp).1 h)
    · exact fun h => ht ((plan_uses hp).2.1 h)

end

/-! ### from the text to the segments -/

theorem isSeg_mods {p : Bytes} {s : Seg} (h : IsSeg p s) (hb : c!"|" ∉ p) : s.mods = [] := by
  unfold IsSeg parsePart at h
  rw [parseModifiers_plain p hb] at h
  simp only at h
  repeat' split at h
  all_goals first | (cases h; done) | (injection h with h; subst h; rfl) | skip
  rename_i hf
  rcases parseFilterPart_body (mods := []) hf with ⟨e, all, _, _, hr⟩ | ⟨_, hr⟩
  · rw [hr] at h
    split at h
    · cases h
    · cases h
    · injection h with h; subst h; rfl
  · rw [hr] at h; cases h

theorem seg_eq {s : Seg} {k : SegKind} (h1 : s.kind = k) (h2 : s.mods = []) : s = ⟨k, []⟩ := by cases s; simp_all

theorem beforeBar_plain {p : Bytes} (h : c!"|" ∉ p) : beforeBar p = p := by
  induction p with
  | nil => rfl
  | cons c cs ih =>
    simp only [List.mem_cons, not_or] at h
    unfold beforeBar at ih ⊢
    rw [List.takeWhile_cons_of_pos (by simpa using Ne.symm h.1), ih h.2]

/-- What the library makes of digits and hyphens. -/
theorem place_atoi {p : Bytes} {j : Nat} (h : Place p (some j)) (hp : Position p) (hb : c!"|" ∉ p) : atoi p = j ∨ 1000 ≤ atoi p ∧ 1000 ≤ j := by
  have hall : ∀ c ∈ p, c = c!"-" ∨ (48 ≤ c ∧ c ≤ 57) := by have := hp.2.2; rwa [beforeBar_plain hb] at this
  have hne : p ≠ [] := by have := hp.1; rwa [beforeBar_plain hb] at this
  have first : ∀ {c : UInt8}, (48 ≤ c ∧ c ≤ 57) → c ≠ c!"-" ∧ c ≠ c!"+" := by
    intro c hc
    exact ⟨by rintro rfl; revert hc; decide, by rintro rfl; revert hc; decide⟩
  cases h with
  | @number ds rest _ he hd hr =>
    subst he
    obtain ⟨h1, h2, h3⟩ := decimal_facts hd
    have hdig : ∀ d ∈ ds, isDigit d = true := fun d hd => isDigit_iff.mpr (h2 d hd)
    have htw : (ds ++ rest).takeWhile isDigit = ds := by
      rw [List.takeWhile_append_of_pos hdig]
      rcases hr with rfl | ⟨-, hr⟩
      · simp
      · cases rest with
        | nil => simp
        | cons c cs => simp at hr; subst hr; simp [isDigit]
    cases ds with
    | nil => exact absurd rfl h1
    | cons c cs =>
      obtain ⟨hc1, hc2⟩ := first (h2 c (by simp))
      unfold atoi
      simp only [List.cons_append, hc1, hc2, if_false] at htw ⊢
      rw [htw, h3]
      rw [if_neg]
      · simp only [Bool.false_eq_true, if_false]
        split
        · right; omega
        · left; rfl
      · rcases hr with rfl | ⟨hr, -⟩
        · have : (c :: cs).all isDigit = true := List.all_eq_true.mpr hdig
          simp only [List.append_nil, List.isEmpty_cons, Bool.false_or, this]
          simp
        · simp only [List.isEmpty_cons, Bool.false_or, Bool.and_eq_true, decide_eq_true_eq, not_and]
          intro _; omega
  | none hn1 hn2 =>
    left
    have hge : ¬ atoi p < 0 := by
      intro hlt
      obtain ⟨ds, rest, n, h1, h2, h3, h4, -⟩ := atoi_neg hlt hall
      exact hn2 ⟨n, ds, rest, by rw [beforeBar_plain hb]; exact h1, h2, h3, h4⟩
    show atoi p = 0
    match p, hne with
    | c :: cs, _ =>
      by_cases hc : c = c!"-"
      · subst hc
        unfold atoi at hge ⊢
        simp only [if_true] at hge ⊢
        split at hge
        · rename_i h; rw [if_pos h]
        · rename_i h; rw [if_neg h]
          split at hge <;> rename_i h2 <;> simp only [h2, if_true, if_false] <;> omega
      · have hcd := (hall c (by simp)).resolve_left hc
        obtain ⟨hc1, hc2⟩ := first hcd
        unfold atoi
        simp only [hc1, hc2, if_false]
        rw [if_pos]
        simp only [List.isEmpty_cons, Bool.false_or, Bool.and_eq_true, Bool.not_eq_true', decide_eq_true_eq]
        have hsplit : c :: cs = (c :: cs).takeWhile isDigit ++ (c :: cs).dropWhile isDigit := (List.takeWhile_append_dropWhile ..).symm
        have hdd : ∀ d ∈ (c :: cs).takeWhile isDigit, 48 ≤ d ∧ d ≤ 57 := fun d hd => isDigit_iff.mp (List.all_eq_true.mp (List.all_takeWhile ..) d hd)
        have hne' : (c :: cs).takeWhile isDigit ≠ [] := by rw [List.takeWhile_cons_of_pos (isDigit_iff.mpr hcd)]; simp
        have hdec := decimal_of_digits hne' hdd
        have hrest : (c :: cs).dropWhile isDigit ≠ [] ∧ ((c :: cs).dropWhile isDigit).head? = some c!"-" := by
          cases hdw : (c :: cs).dropWhile isDigit with
          | nil => exact absurd ⟨_, _, _, hsplit, hdec, .inl hdw⟩ hn1
          | cons x r =>
            refine ⟨by simp, ?_⟩
            have hx : isDigit x = false := by
              have := List.head?_dropWhile_not (p := isDigit) (l := c :: cs)
              rw [hdw] at this; simpa using this
            have hm : x ∈ c :: cs := by rw [hsplit, hdw]; simp
            rcases hall x hm with rfl | h
            · rfl
            · rw [isDigit_iff.mpr h] at hx; cases hx
        constructor
        · rw [List.all_eq_false]
          refine ⟨c!"-", ?_, by decide⟩
          rw [hsplit]
          exact List.mem_append_right _ (List.mem_of_mem_head? hrest.2)
        · rcases Nat.lt_or_ge (digitsVal ((c :: cs).takeWhile isDigit)) (2 ^ 64) with h | h
          · exact h
          · exact absurd ⟨_, _, _, hsplit, hdec, .inr ⟨h, hrest.2⟩⟩ hn1

end Verif
