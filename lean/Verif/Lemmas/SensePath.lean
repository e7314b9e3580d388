import Verif.Lemmas.Sense
/- The meaning of any path without modifiers (C78): what `Get` and the filters make of it, and that there always is one. -/
namespace Verif
open Verif.Spec

theorem busy_sub {ps ss : List Bytes} (h : Busy ps ss) {s : Bytes} (hs : s ∈ ss) : s ∈ ps := by
  induction h with
  | nil => cases hs
  | idle _ _ ih => exact List.mem_cons_of_mem _ (ih hs)
  | busy _ _ ih =>
    rcases List.mem_cons.mp hs with rfl | hs
    · simp
    · exact List.mem_cons_of_mem _ (ih hs)

theorem steps_bytes {path : Bytes} {ss : List Bytes} (h : PathSteps path ss) {s : Bytes} (hs : s ∈ ss) : (∀ c ∈ s, c ∈ path) ∧ s.length ≤ path.length := by
  by_cases h0 : path = []
  · subst h0
    rw [pathSteps_fun h pathSteps_nil] at hs; cases hs
  · obtain ⟨ps, h1, -, -, h4⟩ := h
    rw [(parts_split h0).mp h1] at h4
    exact splitPath_bytes (busy_sub h4 hs)

theorem role_seg {d t : Prop} {ev : Filter → Elem → Bool} {p : Bytes} {k : Role} {s : Seg} (h : RoleOf p k) (hb : c!"|" ∉ p) (hs : IsSeg p s) : RoleSeg d t ev k s := by
  have hm := isSeg_mods hs hb
  have hbb := beforeBar_plain hb
  cases h with
  | name h =>
    obtain ⟨n, hn⟩ := (isSeg_kind hs).2.2.1.mp h
    have := (isSeg_kind hs).2.2.2.1 n hn
    rw [hbb] at this; subst this
    rw [seg_eq hn hm]; exact .name _
  | @pos _ j h hj =>
    obtain ⟨i, hi⟩ := (isSeg_position hs).mp h
    have hf : ¬ b!"#(" <+: p := by
      intro hf
      obtain ⟨f, all, e⟩ := isSeg_filter hs hf
      rw [hi] at e; cases e
    have hk := (isSeg_not_filter hs hf).2
    rw [hbb, hi] at hk
    have hia : i = atoi p := by
      repeat' split at hk
      all_goals first | (cases hk; done) | (injection hk)
    rw [seg_eq hi hm]
    cases j with
    | some j => exact .pos j i (hia ▸ place_atoi hj h hb)
    | none =>
      cases hj with
      | negative hn =>
        obtain ⟨i', hi', hlt⟩ := (isSeg_kind hs).2.2.2.2.1.mp ⟨_, hn⟩
        rw [hi] at hi'; injection hi' with e
        exact .neg i (e ▸ hlt)
  | any => have : s = ⟨.wild false, []⟩ := by have := hs.symm.trans (show parsePart b!"*" = .seg ⟨.wild false, []⟩ by decide +kernel); injection this
           subst this; exact .any
  | deep => have : s = ⟨.wild true, []⟩ := by have := hs.symm.trans (show parsePart b!"**" = .seg ⟨.wild true, []⟩ by decide +kernel); injection this
            subst this; exact .deep
  | @attr a => have : s = ⟨.attr a, []⟩ := by have := hs.symm.trans (parsePart_at (a := a) (by simp at hb; exact hb)); injection this
               subst this; exact .attr a
  | text => have : s = ⟨.text, []⟩ := by have := hs.symm.trans (show parsePart b!"%" = .seg ⟨.text, []⟩ by decide +kernel); injection this
            subst this; exact .text

theorem isSeg_count {s : Seg} (h : IsSeg b!"#" s) : s = ⟨.count, []⟩ := by
  have := h.symm.trans (show parsePart b!"#" = .seg ⟨.count, []⟩ by decide +kernel); injection this

theorem role_not_count {p : Bytes} {k : Role} {s : Seg} (h : RoleOf p k) (hb : c!"|" ∉ p) (hs : IsSeg p s) : s.kind ≠ .count := by
  intro e
  have h1 := (isSeg_kind hs).2.1.mpr e
  rw [beforeBar_plain hb] at h1
  subst h1
  cases h with
  | name h => exact h.2.2.2.1 (by decide)
  | pos h _ => have := h.2.2 c!"#" (by decide); revert this; decide

theorem field_segs {s : Bytes} {g : Goal} (h : GoalText [b!"#", s] g) {u v : Seg} (h1 : IsSeg b!"#" u) (h2 : IsSeg s v) (r : List Seg) :
    ∃ x, goalSegs g = [x] ∧ g.Ok ∧ g.isField = true ∧ fuseFields (u :: v :: r) = x :: fuseFields r := by
  obtain ⟨⟨ss, h3, h4⟩, hok, -⟩ := goal_parse h
  rw [parts2 h1 h2] at h3
  injection h3 with h3; subst h3
  have hfs : FieldStep s := by
    cases h with
    | fieldElem h hl => have := (identifier_plain h).noBar; exact .inr (.inl (by rw [beforeBar_plain this]; exact ⟨h, hl⟩))
    | fieldAttr h hl => have := (identifier_plain h).noBar; exact .inr (.inr ⟨_, beforeBar_plain (by simp [this]), h, hl⟩)
    | fieldText => exact .inl rfl
  obtain ⟨x, hx⟩ := (joined_field h1 h2).mpr ⟨rfl, hfs⟩
  rw [fuse_cons2, hx] at h4
  refine ⟨x, ?_, hok, ?_, by rw [fuse_cons2, hx]⟩
  · rw [← h4]; rfl
  · cases h <;> rfl

/-- What is needed of the text: no bar, and `d` if it has a step `**`. -/
structure Fit (d : Prop) (p : Bytes) : Prop where
  bar : c!"|" ∉ p
  deep : Searches p → d

/-- What is needed of a step. -/
structure FitStep (d : Prop) (s : Bytes) : Prop where
  bar : c!"|" ∉ s
  cond : ∀ expr all q op v, s = filterPart expr all → Condition expr q op v → Searches q → d

theorem fit_steps {d : Prop} {p : Bytes} (h : Fit d p) {ss : List Bytes} (hp : PathSteps p ss) : ∀ s ∈ ss, FitStep d s := fun _ hm =>
  ⟨fun hc => h.bar ((steps_bytes hp hm).1 _ hc), fun _ _ _ _ _ e hc hq => h.deep (.within hp (e ▸ hm) hc hq)⟩

/-- The steps the roles come from. -/
theorem sense_uses {pf : Bytes → Option FVal} {T : Topic} (h : Sense pf T) :
    match T with
    | .steps ss ks => (.deep ∈ ks → b!"**" ∈ ss) ∧ (.field .fieldText ∈ ks → b!"#" ∈ ss ∧ b!"%" ∈ ss) ∧ (.text ∈ ks → b!"%" ∈ ss) ∧ .field .text ∉ ks
    | _ => True := by
  induction h with
  | nil => simp
  | @step s k ss ks h hs ih =>
    obtain ⟨h1, h2, h3, h4⟩ := ih
    refine ⟨?_, ?_, ?_, ?_⟩
    · intro hm
      rcases List.mem_cons.mp hm with e | hm
      · subst e; cases h; simp
      · exact List.mem_cons_of_mem _ (h1 hm)
    · intro hm
      rcases List.mem_cons.mp hm with e | hm
      · subst e; cases h
      · exact ⟨List.mem_cons_of_mem _ (h2 hm).1, List.mem_cons_of_mem _ (h2 hm).2⟩
    · intro hm
      rcases List.mem_cons.mp hm with e | hm
      · subst e; cases h; simp
      · exact List.mem_cons_of_mem _ (h3 hm)
    · intro hm
      rcases List.mem_cons.mp hm with e | hm
      · subst e; cases h
      · exact h4 hm
  | count h hs ih =>
    obtain ⟨h1, h2, h3, h4⟩ := ih
    refine ⟨fun hm => ?_, fun hm => ?_, fun hm => ?_, fun hm => ?_⟩ <;> simp only [List.mem_cons, reduceCtorEq, false_or] at hm
    · exact List.mem_cons_of_mem _ (h1 hm)
    · exact ⟨by simp, List.mem_cons_of_mem _ (h2 hm).2⟩
    · exact List.mem_cons_of_mem _ (h3 hm)
    · exact h4 hm
  | @field s g ss ks h hs ih =>
    obtain ⟨h1, h2, h3, h4⟩ := ih
    refine ⟨fun hm => ?_, fun hm => ?_, fun hm => ?_, fun hm => ?_⟩
    · simp only [List.mem_cons, reduceCtorEq, false_or] at hm; simp [h1 hm]
    · rcases List.mem_cons.mp hm with e | hm
      · injection e with e; subst e; cases h; simp
      · exact ⟨by simp, List.mem_cons_of_mem _ (List.mem_cons_of_mem _ (h2 hm).2)⟩
    · simp only [List.mem_cons, reduceCtorEq, false_or] at hm; simp [h3 hm]
    · rcases List.mem_cons.mp hm with e | hm
      · injection e with e; subst e; cases h
      · exact h4 hm
  | cond hc ht hq hs _ ih =>
    obtain ⟨h1, h2, h3, h4⟩ := ih
    refine ⟨fun hm => ?_, fun hm => ?_, fun hm => ?_, fun hm => ?_⟩ <;> simp only [List.mem_cons, reduceCtorEq, false_or] at hm
    · exact List.mem_cons_of_mem _ (h1 hm)
    · exact ⟨List.mem_cons_of_mem _ (h2 hm).1, List.mem_cons_of_mem _ (h2 hm).2⟩
    · exact List.mem_cons_of_mem _ (h3 hm)
    · exact h4 hm
  | _ => trivial

theorem reply_plain {ks : List Role} (h1 : .text ∉ ks) (h2 : .field .fieldText ∉ ks) (h3 : .field .text ∉ ks) {k : Info} {x : Item} (hx : x ∈ (reply ks k).items) (nd : Node) : x ≠ .text nd := by
  rintro rfl
  unfold reply at hx
  cases hp : plan false ks with
  | none => rw [hp] at hx; cases hx
  | some y =>
    obtain ⟨ms, g⟩ := y
    rw [hp] at hx
    obtain ⟨-, u2, u3⟩ := plan_uses hp
    rcases ask_can hx with ⟨n', hn'⟩ | ⟨n, hn⟩
    · cases g <;> simp [Goal.items] at hn'
      · exact (u3 rfl).elim h1 h3
      · exact h2 (u2 rfl)
    · cases hn

theorem condition_sub {expr p v : Bytes} {op : FilterOp} (h : Condition expr p op v) : (∀ c ∈ p, c ∈ expr) ∧ c!"%" ∉ p ∧ p.length ≤ expr.length ∧ parsePath p ≠ .panic := by
  have hc := condition_iff.mpr h
  obtain ⟨h1, h2⟩ := parseFilterCondition_path hc
  refine ⟨?_, ?_, h2, filter_path_safe hc⟩
  · cases h with
    | ex => exact fun c hc => trimSpace_mem hc
    | @cmp l r v op hl h0 hd =>
      have : ∀ c ∈ l, c ∈ trimSpace expr := by
        intro c hc
        cases hd with
        | long _ he _ => rw [he]; simp [hc]
        | short _ he _ _ => rw [he]; simp [hc]
      exact fun c hc => trimSpace_mem (this c (trimSpace_mem hc))
  · intro hm
    have := List.any_eq_false.mp h1 _ hm
    simp at this

theorem fuse_free {s : Seg} (h : s.kind ≠ .count) (r : List Seg) : fuseFields (s :: r) = s :: fuseFields r := by
  cases r with
  | nil => rfl
  | cons t r => rw [fuseFields, if_neg h]

theorem fuse_count {u : Seg} {ss : List Bytes} {segs : List Seg} (hu : IsSeg b!"#" u) (hs : All2 IsSeg ss segs) (h : ∀ q, ss.head? = some q → ¬ FieldStep q) :
    fuseFields (u :: segs) = u :: fuseFields segs := by
  cases hs with
  | nil => rfl
  | @cons q v ss segs hv hs =>
    rw [fuse_cons2]
    cases hj : joined u v with
    | none => rfl
    | some x => exact absurd ((joined_field hu hv).mp ⟨x, hj⟩).2 (h q rfl)

/-- What a topic says of the model. -/
def Spec.Topic.Parsed (env : Env) (d t : Prop) : Topic → Prop
  | .path p A => Fit d p → (c!"%" ∈ p → c!"#" ∈ p → t) →
      ((parsePath p = .err ∧ ∀ i, A i = .nothing) ∨
        ∃ S, parsePath p = .ok S ∧ ∀ c k, Reads env.ord c k → Fine d t k → Gives (execQ env (evalFilter env) S true c) (A k)) ∧
      (c!"%" ∉ p → ∀ k x, x ∈ (A k).items → ∀ nd, x ≠ .text nd)
  | .steps ss ks => (∀ s ∈ ss, FitStep d s) → ∀ segs, All2 IsSeg ss segs → All2 (RoleSeg d t (evalFilter env)) ks (fuseFields segs)
  | .test p f => Fit d p → c!"%" ∉ p → ∀ op v e nd, Rep e nd → Fine d t nd.kids → evalFilter env ⟨p, op, v⟩ e = compareFilter env.parseFloat ⟨p, op, v⟩ (f nd)

theorem filterPart_mem {expr : Bytes} {all : Bool} {c : UInt8} (h : c ∈ expr) : c ∈ filterPart expr all := by
  unfold filterPart; simp [h]

theorem searches_star {p : Bytes} (h : Searches p) : c!"*" ∈ p := by
  induction h with
  | here h hm => exact (steps_bytes h hm).1 _ (by simp)
  | within h hm hc _ ih => exact (steps_bytes h hm).1 _ (filterPart_mem ((condition_sub hc).1 _ ih))

theorem sense_parsed {env : Env} (ho : env.ord.IsPerm) (d t : Prop) {T : Topic} (h : Sense env.parseFloat T) : T.Parsed env d t := by
  induction h with
  | nowhere h => exact fun _ _ => ⟨.inl ⟨parsePath_none h, fun _ => rfl⟩, fun _ k x hx => by cases hx⟩
  | @path p ss ks h hs ih =>
    intro hf ht
    have hu := sense_uses hs
    simp only at hu
    obtain ⟨u1, u2, u3, u4⟩ := hu
    have hb := fit_steps hf h
    refine ⟨?_, fun hp k x hx => reply_plain (fun hm => hp ((steps_bytes h (u3 hm)).1 _ (by simp))) (fun hm => hp ((steps_bytes h (u2 hm).2).1 _ (by simp))) u4 hx⟩
    rcases parsePath_reads h with ⟨rfl, rfl⟩ | ⟨segs, h1, h2⟩
    · refine .inl ⟨rfl, fun i => ?_⟩
      cases hs; rfl
    · refine .inr ⟨_, h1, fun c k hr hk => ?_⟩
      exact exec_reply ho (ih hb segs h2) (fun hm => hf.deep (.here h (u1 hm)))
        (fun hm => ht ((steps_bytes h (u2 hm).2).1 _ (by simp)) ((steps_bytes h (u2 hm).1).1 _ (by simp))) hr hk
  | nil => intro _ segs hs; cases hs; exact .nil
  | @step s k ss ks h hs ih =>
    intro hb segs h2
    cases h2 with
    | cons h3 h4 =>
      have hbar := (hb s (by simp)).bar
      rw [fuse_free (role_not_count h hbar h3)]
      exact .cons (role_seg h hbar h3) (ih (fun s hs => hb s (by simp [hs])) _ h4)
  | count h hs ih =>
    intro hb segs h2
    cases h2 with
    | cons h3 h4 =>
      rw [fuse_count h3 h4 h, isSeg_count h3]
      exact .cons .count (ih (fun s hs => hb s (by simp [hs])) _ h4)
  | field h hs ih =>
    intro hb segs h2
    cases h2 with
    | cons h3 h4 =>
      cases h4 with
      | cons h4 h5 =>
        obtain ⟨x, g1, g2, g3, g4⟩ := field_segs h h3 h4 _
        rw [g4]
        exact .cons (.field _ _ g1 g2 g3) (ih (fun s hs => hb s (by simp [hs])) _ h5)
  | @cond expr p v op all f q ss ks hc ht hq hs iht ihs =>
    intro hb segs h2
    cases h2 with
    | cons h3 h4 =>
      have hF := hb (filterPart expr all) (by simp)
      have hbe : c!"|" ∉ expr := fun hm => hF.bar (filterPart_mem hm)
      have := h3.symm.trans (parsePart_cond ⟨hbe, hc⟩ all)
      injection this with this; subst this
      rw [fuse_free (by simp)]
      obtain ⟨s1, s2, -, -⟩ := condition_sub hc
      refine .cons (.cond _ all q ?_) (ihs (fun s hs => hb s (by simp [hs])) _ h4)
      intro e nd hr hk
      rw [iht ⟨fun hm => hbe (s1 _ hm), hF.cond _ _ _ _ _ rfl hc⟩ s2 op v e nd hr hk, Bool.eq_iff_iff, compareFilter_iff, hq]
  | @attr a =>
    intro _ _ op v e nd hr hf
    unfold evalFilter evalFilterN
    simp only [hasPrefix, List.isPrefixOf, beq_self_eq_true, Bool.and_true, if_true, List.drop_succ_cons, List.drop_zero, hr.attr]
  | @value p A h0 h ih =>
    intro hF hp op v e nd hr hf
    obtain ⟨h1, h2⟩ := ih hF (fun hm => absurd hm hp)
    have hat : hasPrefix p b!"@" = false := by
      cases hx : hasPrefix p b!"@" with
      | false => rfl
      | true => exact absurd (List.isPrefixOf_iff_prefix.mp hx) h0
    unfold evalFilter evalFilterN
    rcases h1 with ⟨h1, hA⟩ | ⟨S, h1, hA⟩
    · simp only [hat, Bool.false_eq_true, if_false, h1, hA]; rfl
    · simp only [hat, Bool.false_eq_true, if_false, h1]
      rw [execQ_ev env _ (evalFilter env) _ _ _ (fun f all mods hm => by
        have := (parsePath_filter h1 hm).1
        funext x
        exact congrFun (evalFilterN_stable env _ _ f this (by omega)) x)]
      rw [gives_str (hA _ _ (writes_reads ho hr.content) hf) (h2 hp nd.kids)]

end Verif
