import Verif.Lemmas.Step
/- Recursive search against the descendants of a document. -/
namespace Verif
open Spec

theorem All2.with {α β : Type} {R : α → β → Prop} {P : β → Prop} {as : List α} {bs : List β} (h : All2 R as bs)
    (hp : ∀ b ∈ bs, P b) : All2 (fun a b => R a b ∧ P b) as bs := by
  induction h with
  | nil => exact .nil
  | cons hab _ ih => exact .cons ⟨hab, hp _ (by simp)⟩ (ih (fun b hb => hp b (by simp [hb])))

theorem All2.mem_left {α β : Type} {R : α → β → Prop} {as : List α} {bs : List β} (h : All2 R as bs) {a : α} (ha : a ∈ as) : ∃ b ∈ bs, R a b := by
  induction h with
  | nil => simp at ha
  | cons hab _ ih =>
    rcases List.mem_cons.mp ha with rfl | ha
    · exact ⟨_, by simp, hab⟩
    · obtain ⟨b, hb, hr⟩ := ih ha; exact ⟨b, by simp [hb], hr⟩

/-- `exec_path` where the step is described only for the contents actually reached. -/
theorem exec_path_on {α : Type} {Q : Result → α → Prop} {g : Info → Option α} (P : Info → Prop) (env : Env) (ho : env.ord.IsPerm)
    (ev : Filter → Elem → Bool) (pre : List Bytes) (s : Seg) (rest : List Seg) (hs : s.kind.isStep = true) {xml : Bytes} {i : Info} (h : Reads env.ord xml i)
    (hP : ∀ k ∈ i.reach pre, P k)
    (hg : ∀ c k, Reads env.ord c k → P k → Yields Q (execQ env ev (s :: rest) pre.isEmpty c) (g k)) :
    Yields Q (execQ env ev (pre.map nameSeg ++ s :: rest) true xml) ((i.reach pre).findSome? g) := by
  cases pre with
  | nil =>
    simp only [List.map_nil, List.nil_append, Info.reach, List.findSome?_cons, List.findSome?_nil]
    have := hg xml i h (hP i (by simp [Info.reach]))
    simp only [List.isEmpty_nil] at this
    cases hgi : g i with
    | none => rw [hgi] at this; simpa using this
    | some a => rw [hgi] at this; simpa using this
  | cons n ns =>
    rw [exec_names env ev (n :: ns) (by simp) s rest true xml hs]
    exact firstSome_yields ((reachE_reads ho (n :: ns) h).with hP) (fun c b hb => hg c b hb.1 hb.2)

/-- Search stops: operations or results used up. -/
def SearchSt.stop (st : SearchSt) : Prop := maxRecursiveOperations ≤ st.ops ∨ maxWildcardResults ≤ st.res.length

/-- From `st` to `st'` the search added a prefix of `L`: all of it unless it stopped. -/
structure Ext {α : Type} (Q : Result → α → Prop) (st st' : SearchSt) (L : List α) (cost : Nat) : Prop where
  ops : st.ops ≤ st'.ops
  cost : st'.ops ≤ st.ops + cost
  bound : st.res.length ≤ maxWildcardResults → st'.res.length ≤ maxWildcardResults
  added : ∃ rs m, st'.res = st.res ++ rs ∧ All2 Q rs (L.take m) ∧ (L.length ≤ m ∨ st'.stop) ∧ (st.stop → rs = [])

theorem Ext.refl_stop {α : Type} {Q : Result → α → Prop} {st : SearchSt} {L : List α} {c : Nat} (h : st.stop) : Ext Q st st L c :=
  ⟨Nat.le_refl _, by omega, id, [], 0, by simp, .nil, .inr h, fun _ => rfl⟩

theorem Ext.refl {α : Type} {Q : Result → α → Prop} {st : SearchSt} {c : Nat} : Ext Q st st ([] : List α) c :=
  ⟨Nat.le_refl _, by omega, id, [], 0, by simp, .nil, .inl (by simp), fun _ => rfl⟩

theorem Ext.stop_mono {α : Type} {Q : Result → α → Prop} {st st' : SearchSt} {L : List α} {c : Nat} (h : Ext Q st st' L c) (hs : st.stop) :
    st'.stop := by
  obtain ⟨rs, m, h1, -, -, h4⟩ := h.added
  rw [h4 hs] at h1
  rcases hs with hs | hs
  · exact .inl (Nat.le_trans hs h.ops)
  · right; rw [h1]; simpa using hs

theorem Ext.trans {α : Type} {Q : Result → α → Prop} {a b c : SearchSt} {L M : List α} {x y : Nat}
    (h1 : Ext Q a b L x) (h2 : Ext Q b c M y) : Ext Q a c (L ++ M) (x + y) := by
  refine ⟨Nat.le_trans h1.ops h2.ops, ?_, fun h => h2.bound (h1.bound h), ?_⟩
  · have := h1.cost; have := h2.cost; omega
  · obtain ⟨rs, m, e1, a1, c1, s1⟩ := h1.added
    obtain ⟨ts, k, e2, a2, c2, s2⟩ := h2.added
    have hstop : a.stop → rs ++ ts = [] := by
      intro h; rw [s1 h, s2 (h1.stop_mono h)]; rfl
    rcases c1 with c1 | c1
    · refine ⟨rs ++ ts, L.length + k, by rw [e2, e1, List.append_assoc], ?_, ?_, hstop⟩
      · rw [List.take_append_of_le_length' L M k]
        rw [List.take_of_length_le c1] at a1
        exact a1.append a2
      · rcases c2 with c2 | c2
        · left; simp; omega
        · right; exact c2
    · have ht := s2 c1
      refine ⟨rs, min m L.length, ?_, ?_, .inr (h2.stop_mono c1), fun h => s1 h⟩
      · rw [e2, e1, ht]; simp
      · rw [List.take_append_of_le_length (by omega), ← List.take_take, List.take_length]; exact a1
where
  List.take_append_of_le_length' {α : Type} (L M : List α) (k : Nat) : (L ++ M).take (L.length + k) = L ++ M.take k := by
    rw [List.take_append, List.take_of_length_le (by omega)]; simp

/-- What the search collects from the elements of a level. -/
def found {α : Type} (lv : Nat) (tgt : Node → Bool) (g : Node → Option α) (i : Info) : List α := ((i.within lv).filter tgt).filterMap g

theorem within_zero (i : Info) : i.within 0 = [] := by
  induction i with
  | nil => rfl
  | text b next ih => exact ih
  | misc m next ih => exact ih
  | elem n a k next _ ih => exact ih

theorem within_elems (d : Nat) (i : Info) : i.within (d + 1) = i.elems.flatMap (fun e => e.kids.within d ++ [e]) := by
  induction i with
  | nil => rfl
  | text b next ih => exact ih
  | misc m next ih => exact ih
  | elem n a k next _ ih => simp [Info.within, Info.elems, ih]

theorem within_descendants (d : Nat) (i : Info) (h : i.depth ≤ d) : i.within d = i.descendants := by
  induction i generalizing d with
  | nil => rfl
  | text b next ih => exact ih d h
  | misc m next ih => exact ih d h
  | elem n a k next ihk ih =>
    simp only [Info.depth] at h
    obtain ⟨d, rfl⟩ : ∃ e, d = e + 1 := ⟨d - 1, by omega⟩
    simp only [Info.within, Info.descendants]
    rw [ihk d (by omega), ih (d + 1) (by omega)]

theorem descendants_elems (i : Info) : i.descendants = i.elems.flatMap (fun e => e.kids.descendants ++ [e]) := by
  induction i with
  | nil => rfl
  | text b next ih => exact ih
  | misc m next ih => exact ih
  | elem n a k next _ ih => simp [Info.descendants, Info.elems, ih]

theorem depth_elems (i : Info) (e : Node) (he : e ∈ i.elems) : e.kids.depth + 1 ≤ i.depth := by
  induction i with
  | nil => simp [Info.elems] at he
  | text b next ih => exact ih he
  | misc m next ih => exact ih he
  | elem n a k next _ ih =>
    simp only [Info.elems, List.mem_cons] at he
    simp only [Info.depth]
    rcases he with rfl | he
    · simp only; omega
    · have := ih he; omega

/-- What is emitted for a node: nothing or one result. -/
def EmitOK {α : Type} (Q : Result → α → Prop) (emit : Elem → List Result) (g : Node → Option α) : Prop :=
  ∀ e nd, Rep e nd → match g nd with
    | none => emit e = []
    | some a => ∃ r, emit e = [r] ∧ Q r a

theorem within_none (d : Nat) {i : Info} (h : i.elems = []) : i.within d = [] := by
  cases d with
  | zero => exact within_zero i
  | succ d => rw [within_elems, h]; rfl

theorem recLoop_ext {α : Type} {Q : Result → α → Prop} {inner : Bytes → SearchSt → SearchSt} {tgt : Elem → Bool} {emit : Elem → List Result}
    {tgt' : Node → Bool} {g : Node → Option α} {lv : Nat} (ht : ∀ e nd, Rep e nd → tgt e = tgt' nd) (hemit : EmitOK Q emit g)
    {es : List Elem} {nds : List Node} (h : All2 Rep es nds)
    (hin : ∀ e nd, nd ∈ nds → Rep e nd → e.content.isEmpty = false → ∀ st, Ext Q st (inner e.content st) (found lv tgt' g nd.kids) (1 + nd.kids.descendants.length))
    (hnil : ∀ e nd, nd ∈ nds → Rep e nd → e.content.isEmpty = true → nd.kids.elems = []) (st : SearchSt) :
    Ext Q st (recLoop inner tgt emit es st) (nds.flatMap (fun nd => found lv tgt' g nd.kids ++ (([nd].filter tgt').filterMap g)))
      (nds.flatMap (fun nd => nd.kids.descendants ++ [nd])).length := by
  induction h generalizing st with
  | nil => exact Ext.refl
  | @cons e nd es nds hr hs ih =>
    simp only [List.flatMap_cons, recLoop]
    have hin' := hin e nd (by simp) hr
    have hnil' := hnil e nd (by simp) hr
    have ih' := ih (fun a b hb => hin a b (by simp [hb])) (fun a b hb => hnil a b (by simp [hb]))
    have key : Ext Q st (if (!e.selfClosing && !e.content.isEmpty) = true then inner e.content st else st) (found lv tgt' g nd.kids) (1 + nd.kids.descendants.length) := by
      split
      · rename_i hc
        simp only [Bool.and_eq_true, Bool.not_eq_true'] at hc
        exact hin' hc.2 st
      · rename_i hc
        have hemp : e.content.isEmpty = true := by
          cases hsf : e.selfClosing with
          | true => rw [hr.self hsf]; rfl
          | false => rw [hsf] at hc; simpa using hc
        rw [found, within_none lv (hnil' hemp)]; exact Ext.refl
    generalize (if (!e.selfClosing && !e.content.isEmpty) = true then inner e.content st else st) = st1 at key
    have mid : ∀ st', (Ext Q st1 st' (([nd].filter tgt').filterMap g ++ nds.flatMap (fun nd => found lv tgt' g nd.kids ++ (([nd].filter tgt').filterMap g)))
        (nds.flatMap (fun nd => nd.kids.descendants ++ [nd])).length) →
        Ext Q st st' (found lv tgt' g nd.kids ++ ([nd].filter tgt').filterMap g ++ nds.flatMap (fun nd => found lv tgt' g nd.kids ++ (([nd].filter tgt').filterMap g)))
          (nd.kids.descendants ++ [nd] ++ nds.flatMap (fun nd => nd.kids.descendants ++ [nd])).length := by
      intro st' hx
      have := key.trans hx
      rw [List.append_assoc]
      refine ⟨this.ops, ?_, this.bound, this.added⟩
      have := this.cost
      simp only [List.length_append, List.length_singleton] at this ⊢
      omega
    apply mid
    split
    · rename_i hops
      exact Ext.refl_stop (.inl hops)
    · split
      · rename_i htg
        split
        · rename_i hfull
          exact Ext.refl_stop (.inr hfull)
        · rename_i hops hfull
          have htn : tgt' nd = true := by rw [← ht e nd hr]; exact htg
          have step : Ext Q st1 { st1 with res := st1.res ++ emit e } (([nd].filter tgt').filterMap g) 0 := by
            have he := hemit e nd hr
            have hns : ¬ st1.stop := by
              unfold SearchSt.stop; omega
            refine ⟨Nat.le_refl _, Nat.le_refl _, ?_, emit e, 1, rfl, ?_, ?_, fun h => absurd h hns⟩
            · intro _
              simp only [List.length_append]
              cases hg : g nd with
              | none => rw [hg] at he; simp only at he; rw [he]; simp; omega
              | some a => rw [hg] at he; obtain ⟨r, he, -⟩ := he; rw [he]; simp; omega
            · simp only [List.filter_cons, htn, if_true, List.filter_nil, List.filterMap_cons, List.filterMap_nil]
              cases hg : g nd with
              | none => rw [hg] at he; simp only at he; rw [he]; exact .nil
              | some a => rw [hg] at he; obtain ⟨r, he, hq⟩ := he; rw [he]; exact .cons hq .nil
            · left
              simp only [List.filter_cons, htn, if_true, List.filter_nil, List.filterMap_cons, List.filterMap_nil]
              cases g nd <;> simp
          have := step.trans (ih' { st1 with res := st1.res ++ emit e })
          rw [Nat.zero_add] at this
          exact this
      · rename_i htg
        have htn : tgt' nd = false := by rw [← ht e nd hr]; simpa using htg
        have e : [nd].filter tgt' = [] := by simp [htn]
        rw [e]
        exact ih' st1

theorem topElems_nil (o : Ord) : topElems o [] = [] := topElems_none (by rw [skipToNext])

theorem found_elems {α : Type} (lv : Nat) (tgt : Node → Bool) (g : Node → Option α) (i : Info) :
    found (lv + 1) tgt g i = i.elems.flatMap (fun nd => found lv tgt g nd.kids ++ (([nd].filter tgt).filterMap g)) := by
  unfold found
  rw [within_elems lv i]
  induction i.elems with
  | nil => rfl
  | cons e es ih => simp only [List.flatMap_cons, List.filter_append, List.filterMap_append, ih]

theorem recSearch_ext {α : Type} {Q : Result → α → Prop} {o : Ord} (ho : o.IsPerm) {tgt : Elem → Bool} {emit : Elem → List Result}
    {tgt' : Node → Bool} {g : Node → Option α} (ht : ∀ e nd, Rep e nd → tgt e = tgt' nd) (hemit : EmitOK Q emit g) (n : Nat)
    {xml : Bytes} {i : Info} (h : Reads o xml i) (st : SearchSt) :
    Ext Q st (recSearch o tgt emit n xml st) (found n tgt' g i) (1 + i.descendants.length) := by
  induction n generalizing xml i st with
  | zero =>
    rw [recSearch, found, within_zero]
    exact ⟨by simp, by simp, id, [], 0, by simp, .nil, .inl (by simp), fun _ => rfl⟩
  | succ n ih =>
    rw [recSearch]
    split
    · rename_i hc
      refine ⟨by simp, by simp, id, [], 0, by simp, .nil, .inr ?_, fun _ => rfl⟩
      simp only [Bool.or_eq_true, decide_eq_true_eq] at hc
      rcases hc with hc | hc
      · exact .inr hc
      · exact .inl hc
    · rename_i hc
      simp only [Bool.or_eq_true, decide_eq_true_eq, not_or] at hc
      have h0 : Ext Q st { st with ops := st.ops + 1 } ([] : List α) 1 :=
        ⟨by simp, by simp, id, [], 0, by simp, .nil, .inl (by simp), fun _ => rfl⟩
      have h1 := recLoop_ext (inner := recSearch o tgt emit n) ht hemit h (fun e nd hnd hr _ st' =>
          ih (writes_reads ho hr.content) st')
        (fun e nd _ hr hemp => by
          have hw := writes_reads ho hr.content
          rw [List.isEmpty_iff.mp hemp, Reads, topElems_nil] at hw
          generalize nd.kids.elems = l at hw
          cases hw; rfl)
        { st with ops := st.ops + 1 }
      rw [← found_elems, ← descendants_elems] at h1
      exact h0.trans h1

/-- Everything the recursive search yields is a prefix of what is there, of at most 1000 results. -/
theorem recSearch_top {α : Type} {Q : Result → α → Prop} {o : Ord} (ho : o.IsPerm) {tgt : Elem → Bool} {emit : Elem → List Result}
    {tgt' : Node → Bool} {g : Node → Option α} (ht : ∀ e nd, Rep e nd → tgt e = tgt' nd) (hemit : EmitOK Q emit g) (n : Nat)
    {xml : Bytes} {i : Info} (h : Reads o xml i) :
    ∃ m, All2 Q (recSearch o tgt emit n xml ⟨0, []⟩).res ((found n tgt' g i).take m) ∧ (recSearch o tgt emit n xml ⟨0, []⟩).res.length ≤ 1000 ∧
      (1 + i.descendants.length < 10000 → m = 1000) := by
  have hx := recSearch_ext (Q := Q) (g := g) ho ht hemit n h ⟨0, []⟩
  obtain ⟨rs, m, h1, h2, h3, -⟩ := hx.added
  have hb := hx.bound (Nat.zero_le _)
  have hc := hx.cost
  simp only [List.nil_append] at h1
  simp only [maxWild] at hb
  by_cases hlim : 1 + i.descendants.length < 10000
  · refine ⟨1000, ?_, hb, fun _ => rfl⟩
    rw [h1]
    have hlen := h2.length
    rw [List.length_take] at hlen
    rw [h1] at hb
    have e : (found n tgt' g i).take 1000 = (found n tgt' g i).take m := by
      rcases h3 with h3 | h3
      · rw [List.take_of_length_le h3, List.take_of_length_le (by omega)]
      · rcases h3 with h3 | h3
        · have : maxRecursiveOperations = 10000 := rfl
          simp only at hc
          omega
        · rw [h1, maxWild] at h3
          have : rs.length = 1000 := by omega
          have h5 : min m (found n tgt' g i).length = 1000 := by rw [← hlen]; exact this
          by_cases hl : m ≤ (found n tgt' g i).length
          · rw [Nat.min_eq_left hl] at h5; rw [h5]
          · rw [Nat.min_eq_right (by omega)] at h5
            rw [List.take_of_length_le (by omega), List.take_of_length_le (by omega)]
    rw [e]; exact h2
  · exact ⟨m, by rw [h1]; exact h2, hb, fun h => absurd h hlim⟩

/-! ### the step -/

theorem emit_elem (env : Env) (k : Bytes → Result) : EmitOK IsElementW (recEmit env [] k) some :=
  fun _ _ hr => ⟨_, rfl, ofContent_is hr.content⟩

theorem emit_attr (env : Env) (k : Bytes → Result) (a : Bytes) :
    EmitOK (fun r v => r = .ofAttr v) (recEmit env [⟨.attr a, []⟩] k) (fun nd => nd.attr a) := by
  intro e nd hr
  simp only [recEmit, hr.attr]
  cases nd.attr a with
  | none => rfl
  | some v => exact ⟨_, rfl, rfl⟩

theorem emit_text (env : Env) (k : Bytes → Result) : EmitOK IsOwnText (recEmit env [⟨.text, []⟩] k) some :=
  fun _ _ hr => ⟨_, rfl, ofText_is hr.content⟩

theorem found_some (lv : Nat) (tgt : Node → Bool) (i : Info) : found lv tgt some i = (i.within lv).filter tgt := by
  simp [found]

/-- The recursive step, without assumption on the number of elements: nothing, or a non-empty prefix of what is there. -/
theorem step_rec_prefix {α : Type} {Q : Result → α → Prop} {g : Node → Option α} (env : Env) (ho : env.ord.IsPerm) (ev : Filter → Elem → Bool)
    (s : Seg) (rest : List Seg) (root : Bool) (hemit : EmitOK Q (recEmit env rest (execQ env ev rest false)) g)
    {c : Bytes} {k : Info} (h : Reads env.ord c k) :
    execQ env ev (⟨.wild true, []⟩ :: s :: rest) root c = .null ∨
    ∃ m rs, All2 Q rs ((found 101 (fun nd => s.matches nd.name) g k).take m) ∧ rs ≠ [] ∧ rs.length ≤ 1000 ∧
      execQ env ev (⟨.wild true, []⟩ :: s :: rest) root c = packResults rs := by
  rw [execQ]
  simp only [execBody, handleRecursive]
  obtain ⟨m, h1, h2, h3⟩ := recSearch_top (Q := Q) (g := g) ho (tgt := fun e => s.matches e.name) (tgt' := fun nd => s.matches nd.name)
    (fun e nd hr => by simp only [hr.name]) hemit (maxNestingDepth + 1) h
  split
  · left; rfl
  · rename_i rs hne
    right
    exact ⟨m, _, h1, hne, h2, rfl⟩

/-- The recursive step on content with fewer than 9999 elements. -/
theorem step_rec {α : Type} {Q : Result → α → Prop} {g : Node → Option α} (env : Env) (ho : env.ord.IsPerm) (ev : Filter → Elem → Bool)
    (s : Seg) (rest : List Seg) (root : Bool) (hemit : EmitOK Q (recEmit env rest (execQ env ev rest false)) g)
    (hq : ∀ r a, Q r a → r.typ ≠ .null)
    {c : Bytes} {k : Info} (h : Reads env.ord c k) (hd : k.descendants.length < 9999) :
    Yields (IsList Q) (execQ env ev (⟨.wild true, []⟩ :: s :: rest) root c)
      (if (found 101 (fun nd => s.matches nd.name) g k).isEmpty then none else some ((found 101 (fun nd => s.matches nd.name) g k).take 1000)) := by
  rw [execQ]
  simp only [execBody, handleRecursive]
  obtain ⟨m, h1, h2, h3⟩ := recSearch_top (Q := Q) (g := g) ho (tgt := fun e => s.matches e.name) (tgt' := fun nd => s.matches nd.name)
    (fun e nd hr => by simp only [hr.name]) hemit (maxNestingDepth + 1) h
  rw [h3 (by omega), show maxNestingDepth + 1 = 101 from rfl] at h1
  rw [show maxNestingDepth + 1 = 101 from rfl]
  generalize found 101 (fun nd => s.matches nd.name) g k = L at h1
  split
  · rename_i he
    rw [he] at h1
    cases L with
    | nil => exact rfl
    | cons a l => cases h1
  · rename_i rs hne
    cases L with
    | nil =>
      simp only [List.take_nil] at h1
      generalize (recSearch env.ord (fun e => s.matches e.name) (recEmit env rest (execQ env ev rest false)) 101 c ⟨0, []⟩).res = R at h1 hne
      cases h1; exact absurd rfl hne
    | cons a l =>
      refine ⟨packResults_typ ?_, packResults_is h1⟩
      intro r hr
      obtain ⟨b, -, hb⟩ := h1.mem_left hr
      exact hq _ _ hb

/-! ### bounds along a path -/

theorem legal_depth (d : Nat) (f : Forest) (h : f.Legal d) (hd : d ≤ 100) : f.info.depth + d ≤ 100 := by
  induction f generalizing d with
  | nil => simpa [Forest.info, Info.depth] using hd
  | text b next ih => exact ih d h.2.2 hd
  | misc m next ih => exact ih d h.2 hd
  | leaf n as ws next ih =>
    obtain ⟨-, -, -, h4, h5⟩ := h
    have := ih d h5 hd
    simp only [Forest.info, Info.depth]; omega
  | node n as ws kids cws next ihk ihn =>
    obtain ⟨-, -, -, h4, h5, -, h7⟩ := h
    have h1 := ihk (d + 1) h5 (by omega)
    have h2 := ihn d h7 hd
    simp only [Forest.info, Info.depth]; omega

theorem descendants_kids (i : Info) (e : Node) (he : e ∈ i.elems) : e.kids.descendants.length < i.descendants.length := by
  rw [descendants_elems i]
  generalize i.elems = l at he
  induction l with
  | nil => simp at he
  | cons a l ih =>
    simp only [List.flatMap_cons, List.length_append, List.length_singleton]
    rcases List.mem_cons.mp he with rfl | he
    · omega
    · have := ih he; omega

theorem reach_le (pre : List Bytes) (i k : Info) (h : k ∈ i.reach pre) : k.depth ≤ i.depth ∧ k.descendants.length ≤ i.descendants.length := by
  induction pre generalizing i with
  | nil => simp [Info.reach] at h; subst h; omega
  | cons n ns ih =>
    simp only [Info.reach, List.mem_flatMap, Info.named, List.mem_filter] at h
    obtain ⟨e, ⟨he, -⟩, hk⟩ := h
    have := ih _ hk
    have := depth_elems i e he
    have := descendants_kids i e he
    omega

theorem firstSome_cases (k : Bytes → Result) (cs : List Bytes) : firstSome k cs = .null ∨ ∃ c ∈ cs, firstSome k cs = k c := by
  induction cs with
  | nil => exact .inl rfl
  | cons c cs ih =>
    simp only [firstSome]
    split
    · rcases ih with h | ⟨d, hd, h⟩
      · exact .inl h
      · exact .inr ⟨d, by simp [hd], h⟩
    · exact .inr ⟨c, by simp, rfl⟩

end Verif
