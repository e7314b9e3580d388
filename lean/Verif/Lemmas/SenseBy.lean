import Verif.Spec.SenseBy
import Verif.Lemmas.SenseTotal
import Verif.Lemmas.AskBy
import Verif.Lemmas.AstrayOpt
/- The meaning of any path without modifiers under options (C80). -/
namespace Verif
open Verif.Spec

section
variable {env : Env} {ev : Filter → Elem → Bool} {cs : Bool} {d t u : Prop}

theorem recEmit_lostO {k : Bytes → Result} {s : Seg} {r : List Seg} (h : s.step ∨ ((∃ a, s.kind = .attr a) ∧ r ≠ [])) (hk : ∀ x, k x = .null) (e : Elem) : recEmitOpt env cs (s :: r) k e = [] := by
  rcases h with h | ⟨⟨a, h⟩, hr⟩
  · exact recEmit_nullO h r hk e
  · have : r.isEmpty = false := by simpa using hr
    simp [recEmitOpt, h, this]

theorem dead_under_deepO {w y s : Seg} {r : List Seg} (hw : w.kind = .wild true) (h : s.step ∨ ((∃ a, s.kind = .attr a) ∧ r ≠ [])) (hd : DeadO env cs ev (s :: r)) :
    DeadO env cs ev (w :: y :: s :: r) := by
  intro root xml
  rw [execQ_cons2O]
  simp only [execBodyOpt, hw]
  exact handleRecursive_idleO (fun e _ => recEmit_lostO h (fun z => hd false z) e) xml

/-- What the plan gives up finds nothing in any content, under options too. -/
theorem lost_deadO {b : Bool} {ks : List Role} (hl : plan b ks = none) {S : List Seg} (h : All2 (RoleSeg d t ev) ks S) :
    DeadO env cs ev (S.map (lowBy cs)) ∧ LostHead b (S.map (lowBy cs)) := by
  induction b, ks using plan.induct generalizing S with
  | case1 b => simp [plan] at hl
  | case2 b ks => simp [plan] at hl
  | case3 b ks => simp [plan] at hl
  | case4 b g ks => simp [plan] at hl
  | case5 b a ks hc => simp only [plan, hc, if_true] at hl; cases hl
  | case6 b a ks hc =>
    cases h with
    | cons h1 h2 =>
      cases h1
      rw [List.map_cons, lowBy_attr]
      refine ⟨fun root xml => (execQ_looseO _ _ _).1 ⟨_, rfl⟩, _, _, rfl, .inr ?_⟩
      simp only [Bool.or_eq_true, not_or, Bool.not_eq_true, List.isEmpty_eq_false_iff] at hc
      refine ⟨hc.1, ⟨_, rfl⟩, ?_⟩
      intro e
      rw [List.map_eq_nil_iff.mp e] at h2
      cases h2
      exact hc.2 rfl
  | case7 b n j ks ih =>
    simp only [plan] at hl
    cases h with
    | cons h1 h2 =>
      cases h1
      cases h2 with
      | cons h3 h4 =>
        obtain ⟨hd, s, r, e, hs⟩ := ih (push_none hl) h4
        simp only [List.map_cons, e] at hd ⊢
        rcases hs with hs | ⟨hk, -⟩
        · cases h3 with
          | pos j i hi =>
            rw [lowBy_name, lowBy_index]
            refine ⟨fun root xml => ?_, _, _, rfl, .inl (.inl ⟨_, rfl⟩)⟩
            rw [execQ_cons2O]
            simp only [execBodyOpt, nameSeg]
            split
            · exact (arrayOp_nullO (cs := cs) (d := ⟨.index i, []⟩) ⟨i, rfl⟩ hs r (fun z => hd false z) _).2
            · exact (arrayOp_nullO (cs := cs) (d := ⟨.index i, []⟩) ⟨i, rfl⟩ hs r (fun z => hd false z) _).1
        · cases hk
  | case8 b n all q ks ih =>
    simp only [plan] at hl
    cases h with
    | cons h1 h2 =>
      cases h1
      cases h2 with
      | cons h3 h4 =>
        obtain ⟨hd, s, r, e, hs⟩ := ih (push_none hl) h4
        simp only [List.map_cons, e] at hd ⊢
        rcases hs with hs | ⟨hk, -⟩
        · cases h3 with
          | cond f all q hf =>
            rw [lowBy_name, lowBy_filter]
            refine ⟨fun root xml => ?_, _, _, rfl, .inl (.inl ⟨_, rfl⟩)⟩
            rw [execOpt_name_filter]
            exact routeFilter_nullO hs r (fun z => hd false z) _ _ _
        · cases hk
  | case9 b n ks h1 h2 ih =>
    rw [plan.eq_8 _ _ _ h1 h2] at hl
    cases h with
    | cons h3 h4 =>
      cases h3
      obtain ⟨hd, s, r, e, hs⟩ := ih (push_none hl) h4
      rw [List.map_cons, lowBy_name]
      refine ⟨?_, _, _, rfl, .inl (.inl ⟨_, rfl⟩)⟩
      rw [e] at hd ⊢
      rcases hs with hs | ⟨-, ⟨a, ha⟩, hr⟩
      · cases h4 with
        | nil => cases e
        | @cons k _ ks' S' h5 h6 =>
          rw [List.map_cons] at e
          injection e with e1 e2
          intro root xml
          rw [execQ_cons2O]
          have hnm : (nameSeg (spelling cs n)).step := .inl ⟨_, rfl⟩
          cases h5 with
          | name m => rw [lowBy_name] at e1; subst e1; exact execBody_nullO hnm (by simp [nameSeg]) (.inl ⟨_, rfl⟩) _ (fun z => hd false z) xml
          | pos j i _ => exact (h1 j ks' rfl).elim
          | neg i hi =>
            rw [lowBy_index] at e1; subst e1
            have := dead_negativeO (env := env) (cs := cs) (ev := ev) (p := ⟨.index i, []⟩) rfl hi r [nameSeg (spelling cs n)] (by simpa using hnm) root xml
            rw [List.cons_append, List.nil_append, execQ_cons2O] at this
            exact this
          | cond f all q _ => exact (h2 all q ks' rfl).elim
          | any => rw [lowBy_wild] at e1; subst e1; exact execBody_nullO hnm (by simp [nameSeg]) (.inr ⟨_, rfl⟩) _ (fun z => hd false z) xml
          | deep => rw [lowBy_wild] at e1; subst e1; exact execBody_nullO hnm (by simp [nameSeg]) (.inr ⟨_, rfl⟩) _ (fun z => hd false z) xml
          | attr a => rw [lowBy_attr] at e1; subst e1; rcases hs with ⟨_, h⟩ | ⟨_, h⟩ | ⟨_, h⟩ | ⟨_, _, h⟩ <;> cases h
          | text => rw [lowBy_text] at e1; subst e1; rcases hs with ⟨_, h⟩ | ⟨_, h⟩ | ⟨_, h⟩ | ⟨_, _, h⟩ <;> cases h
          | count => rw [lowBy_count] at e1; subst e1; rcases hs with ⟨_, h⟩ | ⟨_, h⟩ | ⟨_, h⟩ | ⟨_, _, h⟩ <;> cases h
          | field g s hg hok hf => simp [plan, push] at hl
      · exact dead_attrO ha (.inl ⟨_, rfl⟩) hr [] (by simp)
  | case10 b j ks =>
    cases h with
    | cons h1 h2 => cases h1 <;> (rw [List.map_cons, lowBy_index]; exact ⟨dead_indexO ⟨_, rfl⟩ _, _, _, rfl, .inl (.inr (.inl ⟨_, rfl⟩))⟩)
  | case11 b all q ks ih =>
    simp only [plan] at hl
    cases h with
    | cons h1 h2 =>
      obtain ⟨hd, s, r, e, hs⟩ := ih (push_none hl) h2
      rw [List.map_cons, e]
      rw [e] at hd
      rcases hs with hs | ⟨hk, -⟩
      · cases h1 with
        | cond f all q hf =>
          rw [lowBy_filter]
          refine ⟨fun root xml => ?_, _, _, rfl, .inl (.inr (.inr (.inr ⟨_, _, rfl⟩)))⟩
          rw [execQ_cons2O]
          simp only [execBodyOpt, routeFilter_nullO hs r (fun z => hd false z)]
      · cases hk
  | case12 b ks ih =>
    simp only [plan] at hl
    cases h with
    | cons h1 h2 =>
      cases h1
      obtain ⟨hd, s, r, e, hs⟩ := ih (push_none hl) h2
      rw [List.map_cons, e, lowBy_wild]
      rw [e] at hd
      refine ⟨?_, _, _, rfl, .inl (.inr (.inr (.inl ⟨_, rfl⟩)))⟩
      rcases hs with hs | ⟨-, ⟨a, ha⟩, hr⟩
      · intro root xml
        rw [execQ_cons2O]
        simp only [execBodyOpt, handleWildcard_nullO hs r (fun z => hd false z)]
        split <;> rfl
      · exact dead_attrO ha (.inr ⟨_, rfl⟩) hr [] (by simp)
  | case13 b n ks ih =>
    simp only [plan] at hl
    cases h with
    | cons h1 h2 =>
      cases h1
      cases h2 with
      | cons h3 h4 =>
        obtain ⟨hd, s, r, e, hs⟩ := ih (push_none hl) h4
        simp only [List.map_cons, e, lowBy_wild] at hd ⊢
        exact ⟨dead_under_deepO rfl (hs.imp id And.right) hd, _, _, rfl, .inl (.inr (.inr (.inl ⟨_, rfl⟩)))⟩
  | case14 b ks ih =>
    simp only [plan] at hl
    cases h with
    | cons h1 h2 =>
      cases h1
      cases h2 with
      | cons h3 h4 =>
        obtain ⟨hd, s, r, e, hs⟩ := ih (push_none hl) h4
        simp only [List.map_cons, e, lowBy_wild] at hd ⊢
        exact ⟨dead_under_deepO rfl (hs.imp id And.right) hd, _, _, rfl, .inl (.inr (.inr (.inl ⟨_, rfl⟩)))⟩
  | case15 b ks ih =>
    simp only [plan] at hl
    cases h with
    | cons h1 h2 =>
      cases h1
      cases h2 with
      | cons h3 h4 =>
        obtain ⟨hd, s, r, e, hs⟩ := ih (push_none hl) h4
        simp only [List.map_cons, e, lowBy_wild] at hd ⊢
        exact ⟨dead_under_deepO rfl (hs.imp id And.right) hd, _, _, rfl, .inl (.inr (.inr (.inl ⟨_, rfl⟩)))⟩
  | case16 b ks h1 h2 h3 =>
    cases h with
    | cons h4 h5 =>
      cases h4
      rw [List.map_cons, lowBy_wild]
      refine ⟨dead_deepO rfl (fun x hx => ?_) [] (by simp) (by simp), _, _, rfl, .inl (.inr (.inr (.inl ⟨_, rfl⟩)))⟩
      cases h5 with
      | nil => simp at hx
      | @cons k s ks' _ h6 h7 =>
        simp at hx; subst hx
        cases h6 with
        | name m => exact (h1 m ks' rfl).elim
        | any => exact (h2 ks' rfl).elim
        | deep => exact (h3 ks' rfl).elim
        | field g s hg hok hf => cases g <;> simp [Goal.isField] at hf <;> simp [goalSegs] at hg <;> subst hg <;> rw [lowBy_field] <;> simp
        | pos => rw [lowBy_index]; simp
        | neg => rw [lowBy_index]; simp
        | cond => rw [lowBy_filter]; simp
        | attr => rw [lowBy_attr]; simp
        | text => rw [lowBy_text]; simp
        | count => rw [lowBy_count]; simp

theorem lowBy_shut {s : Seg} (h : s.shut) : (lowBy cs s).shut := by
  obtain ⟨k, m⟩ := s
  unfold lowBy lowerSeg
  rcases h with h | h | ⟨f, h⟩ <;> simp at h <;> subst h <;> cases cs <;> simp [Seg.shut]

/-- Whatever is left over is not looked at. -/
theorem exec_leftO {Ss : List (List Seg)} {g : Goal} {rest : List Seg} (h : Left false Ss g rest) (root : Bool) (xml : Bytes) :
    execQOpt env ev cs ((Ss.flatten ++ goalSegs g ++ rest).map (lowBy cs)) root xml = execQOpt env ev cs ((Ss.flatten ++ goalSegs g).map (lowBy cs)) root xml := by
  rcases h with rfl | ⟨s, hg, hs⟩ | ⟨a, rfl, ⟨-, hb⟩ | ⟨l, x, e, hx⟩⟩
  · simp
  · rw [hg, List.append_assoc, List.singleton_append, List.map_append, List.map_append]; exact execQ_shutO (lowBy_shut hs) _ _ root xml
  · cases hb
  · rw [e, goalSegs]
    simp only [List.append_assoc, List.singleton_append, List.map_append, List.map_cons, List.map_nil]
    refine execQ_attr_keptO (p := lowBy cs ⟨.attr a, []⟩) (a := spelling cs a) (by rw [lowBy_attr]) ?_ _ _ root xml
    obtain ⟨k, m⟩ := x
    rcases hx with ⟨f, all, h⟩ | ⟨i, h⟩ <;> simp at h <;> subst h <;> cases cs <;> simp [lowBy, lowerSeg]

theorem plan_attr {b : Bool} {ks : List Role} {ms : List Move} {g : Goal} (h : plan b ks = some (ms, g)) (hg : g.isAttr = true) : (∃ a, .attr a ∈ ks) ∨ ∃ g', g'.isAttr = true ∧ .field g' ∈ ks := by
  have one : ∀ {b : Bool} {k : Role} {ks : List Role} {m : Move} (ih : ∀ {ms : List Move}, plan b ks = some (ms, g) → (∃ a, .attr a ∈ ks) ∨ ∃ g', g'.isAttr = true ∧ .field g' ∈ ks) {ms : List Move}
      (h : push m (plan b ks) = some (ms, g)), (∃ a, .attr a ∈ k :: ks) ∨ ∃ g', g'.isAttr = true ∧ .field g' ∈ k :: ks := by
    intro b k ks m ih ms h
    obtain ⟨ns, hn, rfl⟩ := push_some h
    rcases ih hn with ⟨a, ha⟩ | ⟨g', h1, h2⟩
    · exact .inl ⟨a, List.mem_cons_of_mem _ ha⟩
    · exact .inr ⟨g', h1, List.mem_cons_of_mem _ h2⟩
  have more : ∀ {k : Role} {ks : List Role}, ((∃ a, .attr a ∈ ks) ∨ ∃ g' : Goal, g'.isAttr = true ∧ .field g' ∈ ks) → (∃ a, .attr a ∈ k :: ks) ∨ ∃ g' : Goal, g'.isAttr = true ∧ .field g' ∈ k :: ks := by
    intro k ks h
    exact h.imp (fun ⟨a, ha⟩ => ⟨a, List.mem_cons_of_mem _ ha⟩) (fun ⟨g, h1, h2⟩ => ⟨g, h1, List.mem_cons_of_mem _ h2⟩)
  induction b, ks using plan.induct generalizing ms with
  | case1 b => simp only [plan, Option.some.injEq, Prod.mk.injEq] at h; obtain ⟨rfl, rfl⟩ := h; cases hg
  | case2 b ks => simp only [plan, Option.some.injEq, Prod.mk.injEq] at h; obtain ⟨rfl, rfl⟩ := h; cases hg
  | case3 b ks => simp only [plan, Option.some.injEq, Prod.mk.injEq] at h; obtain ⟨rfl, rfl⟩ := h; cases hg
  | case4 b g' ks => simp only [plan, Option.some.injEq, Prod.mk.injEq] at h; obtain ⟨rfl, rfl⟩ := h; exact .inr ⟨_, hg, by simp⟩
  | case5 b a ks hc => exact .inl ⟨a, by simp⟩
  | case6 b a ks hc => simp only [plan, hc] at h; cases h
  | case7 b n j ks ih => simp only [plan] at h; exact more (one ih h)
  | case8 b n all q ks ih => simp only [plan] at h; exact more (one ih h)
  | case9 b n ks h1 h2 ih => rw [plan.eq_8 _ _ _ h1 h2] at h; exact one ih h
  | case10 b j ks => simp [plan] at h
  | case11 b all q ks ih => simp only [plan] at h; exact one ih h
  | case12 b ks ih => simp only [plan] at h; exact one ih h
  | case13 b n ks ih => simp only [plan] at h; exact more (one ih h)
  | case14 b ks ih => simp only [plan] at h; exact more (one ih h)
  | case15 b ks ih => simp only [plan] at h; exact more (one ih h)
  | case16 b ks h1 h2 h3 => rw [plan.eq_15 _ _ h1 h2 h3] at h; cases h

/-- The answer of the steps under options. -/
theorem exec_replyO (ho : env.ord.IsPerm) {ks : List Role} {S : List Seg} (h : All2 (RoleSeg d t ev) ks S) (hd : .deep ∈ ks → d) (ht : .field .fieldText ∈ ks → t)
    (hu : ((∃ a, .attr a ∈ ks) ∨ ∃ g : Goal, g.isAttr = true ∧ .field g ∈ ks) → cs = false → u)
    {c : Bytes} {k : Info} (hr : Reads env.ord c k) (hf : FineBy d t u k) : Gives (execQOpt env ev cs (S.map (lowBy cs)) true c) (replyBy cs ks k) := by
  unfold replyBy
  cases hp : plan false ks with
  | none => rw [(lost_deadO hp h).1 true c]; rfl
  | some x =>
    obtain ⟨ms, g⟩ := x
    obtain ⟨Ss, rest, rfl, ha, hpr, hok, hL⟩ := kept_segs hp h
    rw [exec_leftO hL]
    refine execOpt_ask ho ha hpr hok ?_ ?_ ?_ true hr hf
    · exact fun h => hd ((plan_uses hp).1 h)
    · exact fun h => ht ((plan_uses hp).2.1 h)
    · exact fun h => hu (plan_attr hp h)

end

/-- What a goal can give under options. -/
theorem lastBy_plain {cs root : Bool} {i : Info} {m : Move} {g : Goal} (h1 : g ≠ .text) (h2 : g ≠ .fieldText) {x : Item} (h : x ∈ (m.lastBy cs root i g).items) (nd : Node) : x ≠ .text nd := by
  have hg : ∀ n, ∀ y ∈ g.itemsBy cs n, y ≠ .text nd := by
    intro n y hy
    cases g <;> simp [Goal.itemsBy] at hy h1 h2
    · subst hy; simp
    · obtain ⟨_, _, rfl⟩ := hy; simp
    · obtain ⟨_, _, rfl⟩ := hy; simp
    · obtain ⟨_, _, rfl⟩ := hy; simp
  have hp : ∀ nds : List Node, ∀ y ∈ (pack (nds.flatMap (fun n => g.itemsBy cs n))).items, y ≠ .text nd := by
    intro nds y hy
    rw [pack_items] at hy
    obtain ⟨n, -, hy⟩ := List.mem_flatMap.mp hy
    exact hg n y hy
  have hm : ∀ nds : List Node, ∀ y ∈ (nds.flatMap (fun n => g.itemsBy cs n)).take 1000, y ≠ .text nd := by
    intro nds y hy
    obtain ⟨n, -, hy⟩ := List.mem_flatMap.mp (List.mem_of_mem_take hy)
    exact hg n y hy
  have hl : ∀ nds : List Node, ∀ y ∈ (g.listedBy cs nds).items, y ≠ .text nd := by
    intro nds y hy
    by_cases he : g = .elem
    · subst he
      simp only [Goal.listedBy, Answer.items, List.mem_map] at hy
      obtain ⟨_, _, rfl⟩ := hy; simp
    · have e : g.listedBy cs nds = pack (nds.flatMap (fun n => g.itemsBy cs n)) := by cases g <;> first | rfl | exact absurd rfl he
      rw [e] at hy; exact hp nds y hy
  cases m with
  | name n =>
    by_cases hc : g = .count
    · subst hc
      simp only [Move.lastBy] at h
      split at h
      · simp [Answer.items] at h
      · simp only [Answer.items, List.mem_singleton] at h; subst h; simp
    · have e : (Move.name n).lastBy cs root i g = if g.isField then
          (if root && cs && (i.hitsBy cs root n).isEmpty then .nothing else .many ((((i.hitsBy cs root n).take 1000).flatMap (fun nd => g.itemsBy cs nd)).take 1000))
          else pack (((i.namedBy cs n).take 1).flatMap (fun nd => g.itemsBy cs nd)) := by
        cases g <;> first | rfl | exact absurd rfl hc
      rw [e] at h
      split at h
      · split at h
        · simp [Answer.items] at h
        · exact hm _ _ h
      · exact hp _ _ h
  | deep n =>
    have e : (Move.deep n).lastBy cs root i g = if g.isField then .nothing else pack (fill 1000 (((Move.deep n).nodesBy cs root i).map (fun nd => g.itemsBy cs nd))) := by cases g <;> rfl
    rw [e] at h
    split at h
    · simp [Answer.items] at h
    · rw [pack_items] at h
      obtain ⟨l, hl, hx⟩ := fill_sub h
      obtain ⟨n, -, rfl⟩ := List.mem_map.mp hl
      exact hg n _ hx
  | any =>
    have e : Move.any.lastBy cs root i g = if g.isField then .nothing else pack ((Move.any.nodesBy cs root i).flatMap (fun nd => g.itemsBy cs nd)) := by cases g <;> rfl
    rw [e] at h
    split at h
    · simp [Answer.items] at h
    · exact hp _ _ h
  | nth n j =>
    have e : (Move.nth n j).lastBy cs root i g = if ((Move.nth n j).nodesBy cs root i).isEmpty then .nothing else if g.isField then .many []
        else pack (((Move.nth n j).nodesBy cs root i).flatMap (fun nd => g.itemsBy cs nd)) := by
      cases g <;> first | rfl | exact absurd rfl h1
    rw [e] at h
    split at h
    · simp [Answer.items] at h
    · split at h
      · simp [Answer.items] at h
      · exact hp _ _ h
  | sat n p =>
    have e : (Move.sat n p).lastBy cs root i g = if ((Move.sat n p).nodesBy cs root i).isEmpty then .nothing
        else if g.isField then .many ((((Move.sat n p).nodesBy cs root i).flatMap (fun nd => g.itemsBy cs nd)).take 1000) else pack (((Move.sat n p).nodesBy cs root i).flatMap (fun nd => g.itemsBy cs nd)) := by
      cases g <;> rfl
    rw [e] at h
    split at h
    · simp [Answer.items] at h
    · split at h
      · exact hm _ _ h
      · exact hp _ _ h
  | satAll n p =>
    have e : (Move.satAll n p).lastBy cs root i g = if ((Move.satAll n p).nodesBy cs root i).isEmpty then .nothing
        else if g.isField then .many ((((Move.satAll n p).nodesBy cs root i).flatMap (fun nd => g.itemsBy cs nd)).take 1000) else g.listedBy cs ((Move.satAll n p).nodesBy cs root i) := by
      cases g <;> rfl
    rw [e] at h
    split at h
    · simp [Answer.items] at h
    · split at h
      · exact hm _ _ h
      · exact hl _ _ h

theorem joinBy_sub {as : List Answer} {m : Move} {x : Item} (h : x ∈ (m.joinBy as).items) : ∃ a ∈ as, x ∈ a.items := by
  cases m with
  | any =>
    simp only [Move.joinBy, pack_items] at h
    exact List.mem_flatMap.mp h
  | name n => exact join_sub (m := .name n) h
  | nth n j => exact join_sub (m := .nth n j) h
  | sat n p => exact join_sub (m := .sat n p) h
  | satAll n p => exact join_sub (m := .satAll n p) h
  | deep n => exact join_sub (m := .deep n) h

theorem askBy_plain {cs root : Bool} {i : Info} {ms : List Move} {g : Goal} (h1 : g ≠ .text) (h2 : g ≠ .fieldText) {x : Item} (h : x ∈ (askBy cs ms g root i).items) (nd : Node) : x ≠ .text nd := by
  induction ms generalizing root i with
  | nil =>
    simp only [askBy] at h
    split at h <;> simp [Answer.items] at h
  | cons m ms ih =>
    cases ms with
    | nil => exact lastBy_plain h1 h2 h nd
    | cons n ms =>
      obtain ⟨a, ha, hx⟩ := joinBy_sub h
      obtain ⟨nd, -, rfl⟩ := List.mem_map.mp ha
      exact ih hx

theorem replyBy_plain {cs : Bool} {ks : List Role} (h1 : .text ∉ ks) (h2 : .field .fieldText ∉ ks) (h3 : .field .text ∉ ks) {k : Info} {x : Item} (hx : x ∈ (replyBy cs ks k).items) (nd : Node) : x ≠ .text nd := by
  unfold replyBy at hx
  cases hp : plan false ks with
  | none => rw [hp] at hx; cases hx
  | some y =>
    obtain ⟨ms, g⟩ := y
    rw [hp] at hx
    obtain ⟨-, u2, u3⟩ := plan_uses hp
    exact askBy_plain (fun e => (u3 e).elim h1 h3) (fun e => h2 (u2 e)) hx nd

/-- An attribute among the steps is written with an `@`. -/
theorem sense_at {pf : Bytes → Option FVal} {T : Topic} (h : Sense pf T) :
    match T with
    | .steps ss ks => ((∃ a, .attr a ∈ ks) ∨ ∃ g : Goal, g.isAttr = true ∧ .field g ∈ ks) → ∃ s ∈ ss, c!"@" ∈ s
    | _ => True := by
  have cons : ∀ {k : Role} {ks : List Role}, ((∃ a, .attr a ∈ k :: ks) ∨ ∃ g : Goal, g.isAttr = true ∧ .field g ∈ k :: ks) →
      ((∃ a, k = .attr a) ∨ ∃ g : Goal, g.isAttr = true ∧ k = .field g) ∨ ((∃ a, .attr a ∈ ks) ∨ ∃ g : Goal, g.isAttr = true ∧ .field g ∈ ks) := by
    intro k ks h
    rcases h with ⟨a, h⟩ | ⟨g, hg, h⟩
    · rcases List.mem_cons.mp h with h | h
      · exact .inl (.inl ⟨a, h.symm⟩)
      · exact .inr (.inl ⟨a, h⟩)
    · rcases List.mem_cons.mp h with h | h
      · exact .inl (.inr ⟨g, hg, h.symm⟩)
      · exact .inr (.inr ⟨g, hg, h⟩)
  induction h with
  | nil => simp
  | @step s k ss ks h hs ih =>
    intro hx
    rcases cons hx with hx | hx
    · refine ⟨s, by simp, ?_⟩
      rcases hx with ⟨a, rfl⟩ | ⟨g, -, rfl⟩ <;> cases h
      simp
    · obtain ⟨s, h1, h2⟩ := ih hx; exact ⟨s, List.mem_cons_of_mem _ h1, h2⟩
  | count h hs ih =>
    intro hx
    rcases cons hx with hx | hx
    · rcases hx with ⟨a, hx⟩ | ⟨g, -, hx⟩ <;> cases hx
    · obtain ⟨s, h1, h2⟩ := ih hx; exact ⟨s, List.mem_cons_of_mem _ h1, h2⟩
  | @field s g ss ks h hs ih =>
    intro hx
    rcases cons hx with hx | hx
    · rcases hx with ⟨a, hx⟩ | ⟨g, hg, hx⟩
      · cases hx
      · injection hx with hx; subst hx
        refine ⟨s, by simp, ?_⟩
        cases h <;> first | (cases hg; done) | simp
    · obtain ⟨s, h1, h2⟩ := ih hx; exact ⟨s, List.mem_cons_of_mem _ (List.mem_cons_of_mem _ h1), h2⟩
  | cond hc ht hq hs _ ih =>
    intro hx
    rcases cons hx with hx | hx
    · rcases hx with ⟨a, hx⟩ | ⟨g, -, hx⟩ <;> cases hx
    · obtain ⟨s, h1, h2⟩ := ih hx; exact ⟨s, List.mem_cons_of_mem _ h1, h2⟩
  | _ => trivial

end Verif
