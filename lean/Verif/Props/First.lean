import Verif.Spec.First
import Verif.Props.Trail
import Verif.Props.SenseBy
import Verif.Props.Collect
import Verif.Lemmas.SlotsAttr
import Verif.Lemmas.SeriesAttr
/- The first thing Get finds is where Set writes: C89. -/
namespace Verif
open Spec Props

/-- The move does what the hop does. -/
inductive Keeps1 : Move → Hop → Prop where
  | name (n : Bytes) : Keeps1 (.name n) (.name n, 0)
  | nth (n : Bytes) (j : Nat) (h : j < 1000) : Keeps1 (.nth n j) (.name n, j)
  | any : Keeps1 .any (.any, 0)

theorem firstAnswer_head {a : Answer} {as : List Answer} {x : Item} (h : a.items.head? = some x) : firstAnswer (a :: as) = a := by
  cases a with
  | nothing => simp [Answer.items] at h
  | one y => rfl
  | many ys => rfl

theorem head_split {α : Type} {l : List α} {x : α} (h : l[0]? = some x) : ∃ t, l = x :: t := by
  cases l with
  | nil => simp at h
  | cons a t => simp at h; subst h; exact ⟨t, rfl⟩

theorem hitsBy_deep {cs root : Bool} {i : Info} {n : Bytes} (h : root = false ∨ cs = false) : i.hitsBy cs root n = i.namedBy cs n := by
  unfold Info.hitsBy
  cases cs with
  | false => rfl
  | true =>
    simp only [if_true]
    have : root = false := by simpa using h
    subst this; rfl

theorem keeps1_nodes {cs root : Bool} {m : Move} {k : Pick} {j : Nat} {i : Info} {nd : Node} (h : Keeps1 m (k, j)) (hr : (∃ n j, m = .nth n j) → root = false ∨ cs = false)
    (hn : (i.elems.filter (fun e => k.takes cs e.name))[j]? = some nd) : ∃ t, m.nodesBy cs root i = nd :: t := by
  cases h with
  | name n => exact head_split hn
  | nth n j hj =>
    refine ⟨[], ?_⟩
    have e : (i.namedBy cs n)[j]? = some nd := hn
    simp only [Move.nodesBy, hitsBy_deep (hr ⟨n, j, rfl⟩), List.getElem?_take, hj, if_true, e, Option.toList]
  | any =>
    have e : i.elems.filter (fun e => Pick.any.takes cs e.name) = i.elems := by simp [Pick.takes]
    rw [e] at hn
    obtain ⟨t, ht⟩ := head_split hn
    exact ⟨t.take 999, by simp [Move.nodesBy, ht]⟩

theorem keeps1_last {cs root : Bool} {m : Move} {k : Pick} {j : Nat} {i : Info} {nd : Node} {g : Goal} {x : Item} (h : Keeps1 m (k, j)) (hr : (∃ n j, m = .nth n j) → root = false ∨ cs = false)
    (hn : (i.elems.filter (fun e => k.takes cs e.name))[j]? = some nd) (hg : g = .elem ∨ ∃ a, g = .attr a) (hx : (g.itemsBy cs nd).head? = some x) :
    (m.lastBy cs root i g).items.head? = some x := by
  obtain ⟨t, ht⟩ := keeps1_nodes (root := root) h hr hn
  have key : ∀ l : List Node, (pack ((nd :: l).flatMap (fun nd => g.itemsBy cs nd))).items.head? = some x := by
    intro l
    rw [pack_items, List.flatMap_cons, List.head?_append, hx]; rfl
  have hf : g.isField = false := by rcases hg with rfl | ⟨a, rfl⟩ <;> rfl
  cases h with
  | name n =>
    have ht' : i.namedBy cs n = nd :: t := ht
    have : (Move.name n).lastBy cs root i g = pack (((i.namedBy cs n).take 1).flatMap (fun nd => g.itemsBy cs nd)) := by
      rcases hg with rfl | ⟨a, rfl⟩ <;> rfl
    rw [this, ht']; exact key []
  | nth n j hj =>
    have : (Move.nth n j).lastBy cs root i g = if ((Move.nth n j).nodesBy cs root i).isEmpty then .nothing else pack (((Move.nth n j).nodesBy cs root i).flatMap (fun nd => g.itemsBy cs nd)) := by
      rcases hg with rfl | ⟨a, rfl⟩ <;> rfl
    rw [this, ht]; exact key t
  | any =>
    have : Move.any.lastBy cs root i g = pack ((Move.any.nodesBy cs root i).flatMap (fun nd => g.itemsBy cs nd)) := by
      rcases hg with rfl | ⟨a, rfl⟩ <;> rfl
    rw [this, ht]; exact key t

/-- The first thing asked for is found at the element that the steps lead to. -/
theorem spot_first {cs : Bool} {g : Goal} {x : Item} (hg : g = .elem ∨ ∃ a, g = .attr a) {nd : Node} (hx : (g.itemsBy cs nd).head? = some x) :
    ∀ {ms : List Move} {hs : List Hop}, All2 Keeps1 ms hs → ∀ (root : Bool) {i : Info}, ((∃ n j, ms.head? = some (.nth n j)) → root = false ∨ cs = false) →
      i.spot cs hs = some nd → (askBy cs ms g root i).items.head? = some x := by
  intro ms
  induction ms with
  | nil => intro hs h root i _ hn; cases h; simp [Info.spot] at hn
  | cons m ms ih =>
    intro hs h root i hr hn
    cases h with
    | @cons _ p _ hs h1 h2 =>
      obtain ⟨k, j⟩ := p
      have hr' : (∃ n j, m = .nth n j) → root = false ∨ cs = false := fun ⟨n, j, e⟩ => hr ⟨n, j, by simp [e]⟩
      cases ms with
      | nil => cases h2; exact keeps1_last h1 hr' hn hg hx
      | cons m2 ms =>
        have hne : hs ≠ [] := by cases h2; simp
        rw [spot_cons _ _ _ _ hne] at hn
        cases he : (i.elems.filter (fun e => k.takes cs e.name))[j]? with
        | none => rw [he] at hn; simp at hn
        | some nd1 =>
          rw [he] at hn
          simp only [Option.bind_some] at hn
          obtain ⟨t, ht⟩ := keeps1_nodes (root := root) h1 hr' he
          have h3 := ih h2 false (fun _ => .inl rfl) hn
          rw [askBy, ht, List.map_cons]
          cases h1 with
          | name n => exact (congrArg (fun a => a.items.head?) (firstAnswer_head h3)).trans h3
          | nth n j hj => exact (congrArg (fun a => a.items.head?) (firstAnswer_head h3)).trans h3
          | any =>
            change (pack _).items.head? = _
            rw [pack_items, List.flatMap_cons, List.head?_append, h3]; rfl


theorem roles_segs {d t : Prop} {ev : Filter → Elem → Bool} {ss : List Bytes} {ks : List Role} (h : All2 RoleOf ss ks) (hb : ∀ s ∈ ss, c!"|" ∉ s) :
    ∀ {segs : List Seg}, All2 IsSeg ss segs → All2 (RoleSeg d t ev) ks (fuseFields segs) := by
  induction h with
  | nil => intro segs h; cases h; exact .nil
  | @cons s k ss ks h1 h2 ih =>
    intro segs h
    cases h with
    | cons h3 h4 =>
      rw [fuse_free (role_not_count h1 (hb s (by simp)) h3)]
      exact .cons (role_seg h1 (hb s (by simp)) h3) (ih (fun s hs => hb s (by simp [hs])) h4)

theorem roles_field {ss : List Bytes} {ks : List Role} (h : All2 RoleOf ss ks) (g : Goal) : .field g ∉ ks := by
  induction h with
  | nil => simp
  | cons h1 h2 ih =>
    intro hm
    rcases List.mem_cons.mp hm with e | hm
    · subst e; cases h1
    · exact ih hm

/-- What Get answers to steps other than `**`, `#` and filters. -/
theorem get_roles (env : Env) (ho : env.ord.IsPerm) (opts : Options) {xml : Bytes} {i : Info} (h : Says xml i) {p : Bytes} {ss : List Bytes} (hp : PathSteps p ss) (h0 : ss ≠ [])
    {ks : List Role} (hr : All2 RoleOf ss ks) (hb : ∀ s ∈ ss, c!"|" ∉ s) (hd : .deep ∉ ks) (hu : (∃ a, .attr a ∈ ks) → opts.caseSensitive = false → i.CaseUnique)
    {ms : List Move} {g : Goal} (hpl : plan false ks = some (ms, g)) (hg : g.isField = false) :
    ∃ r, getWithOptions env xml p (some opts) = .ret r ∧ Gives r (askBy opts.caseSensitive ms g true i) := by
  have hl : ¬ xml.length > 10485760 := by have := h.1; omega
  by_cases hopts : opts = defaultOptions
  · subst hopts
    obtain ⟨segs, h2, e⟩ := get_steps_eq (env := env) (xml := xml) hp h0
    rw [getOpt_default rfl, e, if_neg hl]
    refine ⟨_, rfl, ?_⟩
    have := exec_reply (d := False) (t := False) (ev := evalFilter env) ho (roles_segs hr hb h2) (fun hm => hd hm) (fun hm => roles_field hr _ hm) (says_reads ho h) ⟨fun h => h.elim, fun h => h.elim⟩
    unfold reply at this
    rw [hpl] at this
    rw [show defaultOptions.caseSensitive = true from rfl, C55_same hg]
    exact this
  · obtain ⟨segs, h2, e⟩ := getOpt_steps_eq (env := env) (xml := xml) hp h0 (notDefault hopts)
    rw [e, if_neg hl]
    refine ⟨_, rfl, ?_⟩
    have := exec_replyO (d := False) (t := False) (cs := opts.caseSensitive) (u := (∃ a, .attr a ∈ ks) ∧ opts.caseSensitive = false) (ev := evalFilter env) ho (roles_segs hr hb h2)
      (fun hm => hd hm) (fun hm => roles_field hr _ hm) (fun hx hc => by
        rcases hx with hx | ⟨g, -, hx⟩
        · exact ⟨hx, hc⟩
        · exact absurd hx (roles_field hr _)) (says_reads ho h) ⟨⟨fun h => h.elim, fun h => h.elim⟩, fun hh => hu hh.1 hh.2⟩
    unfold replyBy at this
    rw [hpl] at this
    exact this

/-- Heads of plans that do not belong to a name before them. -/
def Alone (ks : List Role) : Prop := ∀ r, ks.head? = some r → (∃ n, r = .name n) ∨ r = .any ∨ ∃ a, r = .attr a

theorem plan_name {ks : List Role} (h : Alone ks) (b : Bool) (n : Bytes) : plan b (.name n :: ks) = push (.name n) (plan false ks) := by
  cases ks with
  | nil => rfl
  | cons r ks => rcases h r rfl with ⟨m, rfl⟩ | rfl | ⟨a, rfl⟩ <;> rfl

/-- The roles and the moves of steps that lead somewhere. -/
theorem ahead_plan {ss : List Bytes} {t : Option (List Hop)} (h : Trail ss t) : ∀ {hs : List Hop}, t = some hs → (∀ s ∈ ss, c!"|" ∉ s) → b!"**" ∉ ss →
    (∀ pre d post, ss = pre ++ b!"*" :: d :: post → ¬ Position d) → (∀ d ∈ ss, Position d → ∀ j, Place d (some j) → j < 1000) →
    ∃ ks ms, All2 RoleOf ss ks ∧ All2 Keeps1 ms hs ∧ .deep ∉ ks ∧ (∀ a, .attr a ∉ ks) ∧ ((∃ n j, ms.head? = some (.nth n j)) → ∃ d, ss[1]? = some d ∧ Position d) ∧
      ∀ tail, tail = [] ∨ (∃ a, tail = [.attr a]) → Alone (ks ++ tail) ∧ ∀ b g, plan false tail = some ([], g) → plan true tail = some ([], g) → plan b (ks ++ tail) = some (ms, g) := by
  induction h with
  | nil =>
    intro hs e _ _ _ _
    injection e with e; subst e
    refine ⟨[], [], .nil, .nil, by simp, by simp, by simp, ?_⟩
    rintro tail (rfl | ⟨a, rfl⟩)
    · exact ⟨by simp [Alone], fun b g h1 h2 => by cases b with | false => exact h1 | true => exact h2⟩
    · exact ⟨fun r hr => .inr (.inr ⟨a, by simpa using hr.symm⟩), fun b g h1 h2 => by cases b with | false => exact h1 | true => exact h2⟩
  | @nth p d k j ps t hp hd hj h ih =>
    intro hs e hb h2 hw hsm
    cases t with
    | none => cases e
    | some hs =>
      simp only [Option.map_some, Option.some.injEq] at e
      subst e
      obtain ⟨ks, ms, g1, g2, g3, g4, -, g5⟩ := ih rfl (fun s hs => hb s (by simp [hs])) (fun hm => h2 (by simp [hm])) (fun pre x post e => hw (p :: d :: pre) x post (by simp [e]))
        (fun x hx => hsm x (by simp [hx]))
      have hbp := beforeBar_plain (hb p (by simp))
      have hbd := beforeBar_plain (hb d (by simp))
      rw [hbd] at hj
      have hj' := hsm d (by simp) hd j hj
      have hmin : min j (2 ^ 63 - 1) = j := by omega
      rw [hmin]
      cases hp with
      | any hpa =>
        rw [hbp] at hpa
        rcases hpa with rfl | rfl
        · exact absurd hd (hw [] d ps rfl)
        · exact absurd (by simp) h2
      | name hn =>
        rw [hbp]
        refine ⟨.name p :: .pos (some j) :: ks, .nth p j :: ms, .cons (.name hn) (.cons (.pos hd hj) g1), .cons (.nth p j hj') g2, by simpa using g3, by simpa using g4, fun _ => ⟨d, rfl, hd⟩, ?_⟩
        intro tail ht
        obtain ⟨-, g7⟩ := g5 tail ht
        refine ⟨fun r hr => .inl ⟨p, by simpa using hr.symm⟩, fun b g e1 e2 => ?_⟩
        have := g7 true g e1 e2
        simp only [List.cons_append, plan, this, push]
  | negative => intro hs e; cases e
  | @first p k ps t hp hd h ih =>
    intro hs e hb h2 hw hsm
    cases t with
    | none => cases e
    | some hs =>
      simp only [Option.map_some, Option.some.injEq] at e
      subst e
      obtain ⟨ks, ms, g1, g2, g3, g4, -, g5⟩ := ih rfl (fun s hs => hb s (by simp [hs])) (fun hm => h2 (by simp [hm])) (fun pre x post e => hw (p :: pre) x post (by simp [e]))
        (fun x hx => hsm x (by simp [hx]))
      have hbp := beforeBar_plain (hb p (by simp))
      cases hp with
      | any hpa =>
        rw [hbp] at hpa
        rcases hpa with rfl | rfl
        · refine ⟨.any :: ks, .any :: ms, .cons .any g1, .cons .any g2, by simpa using g3, by simpa using g4, by simp, ?_⟩
          intro tail ht
          obtain ⟨-, g7⟩ := g5 tail ht
          refine ⟨fun r hr => .inr (.inl (by simpa using hr.symm)), fun b g e1 e2 => ?_⟩
          have := g7 false g e1 e2
          simp only [List.cons_append, plan, this, push]
        · exact absurd (by simp) h2
      | name hn =>
        rw [hbp]
        refine ⟨.name p :: ks, .name p :: ms, .cons (.name hn) g1, .cons (.name p) g2, by simpa using g3, by simpa using g4, by simp, ?_⟩
        intro tail ht
        obtain ⟨g6, g7⟩ := g5 tail ht
        refine ⟨fun r hr => .inl ⟨p, by simpa using hr.symm⟩, fun b g e1 e2 => ?_⟩
        rw [List.cons_append, plan_name g6, g7 false g e1 e2]; rfl
  | lost => intro hs e; cases e

/-! ### what Set writes there -/

theorem isName_step {n : Bytes} (h : IsName n) : NameStep n ∧ beforeBar n = n ∧ ¬ Position n := by
  have hp := name_plain h
  have hb := beforeBar_plain hp.noBar
  have hpos : ¬ (n ≠ [] ∧ n ≠ b!"-" ∧ ∀ c ∈ n, c = c!"-" ∨ (48 ≤ c ∧ c ≤ 57)) := by
    obtain ⟨⟨c, cs, rfl, hc⟩, -, -⟩ := h
    rintro ⟨-, -, hall⟩
    have := hall c (by simp)
    rcases this with rfl | ⟨h1, h2⟩
    · revert hc; decide
    · rcases hc with (⟨a, b⟩ | ⟨a, b⟩) | rfl | rfl
      · simp only [UInt8.le_iff_toNat_le, UInt8.toNat_ofNat] at *; omega
      · simp only [UInt8.le_iff_toNat_le, UInt8.toNat_ofNat] at *; omega
      · revert h2; decide
      · revert h2; decide
  refine ⟨⟨hp.nonempty, ?_, ?_, ?_, by rw [hb]; exact hpos⟩, hb, by unfold Position; rw [hb]; exact hpos⟩
  · rintro ⟨t, rfl⟩; exact hp.noHash rfl
  · rintro ⟨t, rfl⟩; exact hp.noAt rfl
  · rw [hb]; intro hm
    simp only [List.mem_cons, List.not_mem_nil, or_false] at hm
    rcases hm with rfl | rfl | rfl | rfl
    · exact hp.notPct rfl
    · exact hp.noHash rfl
    · exact hp.notStar rfl
    · exact hp.notStar2 rfl

theorem trail_names {rest : List Bytes} (h : ∀ x ∈ rest, IsName x) : Trail rest (some (rest.map fun n => (Pick.name n, 0))) := by
  induction rest with
  | nil => exact .nil
  | cons x rest ih =>
    obtain ⟨h1, h2, h3⟩ := isName_step (h x (by simp))
    have := Trail.first (.name h1) (fun d hd => (isName_step (h d (by simp [List.mem_of_mem_head? hd]))).2.2) (ih fun y hy => h y (by simp [hy]))
    rw [h2] at this
    exact this

theorem trail_more {ps rest : List Bytes} {t : Option (List Hop)} (h : Trail ps t) (hn : ∀ x ∈ rest, IsName x) : ∀ {hs : List Hop}, t = some hs →
    Trail (ps ++ rest) (some (hs ++ rest.map fun n => (Pick.name n, 0))) := by
  induction h with
  | nil => intro hs e; injection e with e; subst e; exact trail_names hn
  | @nth p d k j ps t hp hd hj h ih =>
    intro hs e
    cases t with
    | none => cases e
    | some hs =>
      simp only [Option.map_some, Option.some.injEq] at e
      subst e
      exact .nth hp hd hj (ih rfl)
  | negative => intro hs e; cases e
  | @first p k ps t hp hd h ih =>
    intro hs e
    cases t with
    | none => cases e
    | some hs =>
      simp only [Option.map_some, Option.some.injEq] at e
      subst e
      refine .first hp (fun d hx => ?_) (ih rfl)
      cases ps with
      | nil => exact (isName_step (hn d (List.mem_of_mem_head? hx))).2.2
      | cons q ps => exact hd d hx
  | lost => intro hs e; cases e

/-- Below the deepest element the next name is missing. -/
theorem deepest_count {cs : Bool} {ps rest : List Bytes} {y : Bytes} {c : Ctx} {e : El} (hd : Deepest cs (ps ++ y :: rest) ps (y :: rest) c e) (hy : IsName y) : e.kids.info.count cs (.name y) = 0 := by
  obtain ⟨hs, ht, hr⟩ := hd.leads
  have hn := hd.longest (ps ++ [y]) rest (by simp) (by simp)
  cases hsp : e.kids.info.spot cs [(.name y, 0)] with
  | none => simpa [Info.spot, Info.count] using hsp
  | some nd =>
    obtain ⟨c2, e2, h1, h2, -⟩ := spot_reach hsp
    exfalso
    have ht2 := trail_more (rest := [y]) ht (by simpa using hy) rfl
    obtain ⟨nm, as, ws, body⟩ := e
    cases body with
    | none => cases c2 with
      | here b a =>
        have h3 := congrArg (fun f => f.info.elems.length) h1
        obtain ⟨nm2, as2, ws2, body2⟩ := e2
        have key : ∀ (b g : Forest), (b.append g).info.elems.length = b.info.elems.length + g.info.elems.length := by
          intro b g
          induction b with
          | nil => simp [Forest.append, Forest.info, Info.elems]
          | text _ _ ih => simpa [Forest.append, Forest.info, Info.elems] using ih
          | misc _ _ ih => simpa [Forest.append, Forest.info, Info.elems] using ih
          | leaf _ _ _ _ ih => simp [Forest.append, Forest.info, Info.elems, ih]; omega
          | node _ _ _ _ _ _ _ ih => simp [Forest.append, Forest.info, Info.elems, ih]; omega
        cases body2 <;> simp [El.kids, Ctx.plug, key, El.cons, Forest.info, Info.elems, Forest.append] at h3
      | within b m as' ws' c' cws' a => cases c' <;> simp [Reach] at h2
    | some q =>
      obtain ⟨k, cws⟩ := q
      simp only [El.kids] at h1
      refine hn (down c nm as ws cws c2) e2 ?_ ⟨_, ht2, reach_down hr h2⟩
      rw [down_plug, ← h1]; rfl

theorem text_is {r : Result} {e : El} {s : Bytes} (h : IsElement r e.node) (hb : e.kids = .text (escapeXML s) .nil) : r.typ = .element ∧ r.toStr = trimSpace s := by
  refine ⟨h.typ, ?_⟩
  have hf : (escapeXML s).filter (fun c => c ≠ c!">") = escapeXML s := List.filter_eq_self.mpr (fun c hc => by simp; intro hh; exact (escapeXML_mem (hh ▸ hc)).2.1 rfl)
  rw [h.str, el_node_kids, hb]
  simp only [Info.textValue, Forest.info, Info.allText, hf, List.append_nil]
  rw [trim_escape, unescape_escape]

theorem slots_isName {cs : Bool} {xs : List Bytes} (hx : ∀ x ∈ xs, IsName x) : Slots cs xs (xs.map fun x => some (spelling cs x)) := by
  induction xs with
  | nil => exact .nil
  | cons x xs ih =>
    obtain ⟨g1, g2, -⟩ := isName_step (hx x (by simp))
    have := Slots.name g1 (ih fun y hy => hx y (by simp [hy]))
    rw [g2] at this
    exact this

theorem isName_negative {x : Bytes} (hx : IsName x) (k : Nat) : ¬ Negative x k := by
  rintro ⟨ds, r, h1, -, -, -⟩
  obtain ⟨-, g2, -⟩ := isName_step hx
  obtain ⟨⟨b, bs, h3, h4⟩, -, -⟩ := hx
  rw [g2, h3] at h1
  simp only [List.cons_append, List.cons.injEq] at h1
  rw [h1.1] at h4; revert h4; decide

theorem ahead_names {ss : List Bytes} (h : ∀ x ∈ ss, IsName x) : Ahead ss where
  deep hm := (name_plain (h _ hm)).notStar2 rfl
  wild pre d post e := (isName_step (h d (by rw [e]; simp))).2.2
  small d hd hp := absurd hp (isName_step (h d hd)).2.2
  top d hd := (isName_step (h d (List.mem_of_getElem? hd))).2.2

/-! ### attributes that are told apart without their case -/

theorem ahead_more {ps rest : List Bytes} (h : Ahead ps) (h0 : 0 < ps.length) (hn : ∀ x ∈ rest, IsName x) : Ahead (ps ++ rest) where
  deep hm := by
    rcases List.mem_append.mp hm with hm | hm
    · exact h.deep hm
    · exact (name_plain (hn _ hm)).notStar2 rfl
  wild pre d post e := by
    rcases List.append_eq_append_iff.mp e with ⟨l, h1, h2⟩ | ⟨l, h1, h2⟩
    · cases l with
      | nil =>
        refine (isName_step (hn d ?_)).2.2
        simp only [List.nil_append] at h2; rw [h2]; simp
      | cons x l => exact (isName_step (hn d (by rw [h2]; simp))).2.2
    · cases l with
      | nil => exact (isName_step (hn d (by simp only [List.nil_append] at h2; rw [← h2]; simp))).2.2
      | cons x l =>
        simp only [List.cons_append, List.cons.injEq] at h2
        obtain ⟨rfl, h2⟩ := h2
        cases l with
        | nil => simp only [List.nil_append] at h2; exact (isName_step (hn d (by rw [← h2]; simp))).2.2
        | cons y l =>
          simp only [List.cons_append, List.cons.injEq] at h2
          obtain ⟨rfl, -⟩ := h2
          exact h.wild pre _ l h1
  small d hd hp := by
    rcases List.mem_append.mp hd with hd | hd
    · exact h.small d hd hp
    · exact absurd hp (isName_step (hn d hd)).2.2
  top d hd := by
    rcases Nat.lt_or_ge 1 ps.length with hl | hl
    · rw [List.getElem?_append_left hl] at hd; exact h.top d hd
    · rw [List.getElem?_append_right hl] at hd; exact (isName_step (hn d (List.mem_of_getElem? hd))).2.2

theorem append_caseUnique (b g : Forest) : (b.append g).info.CaseUnique ↔ b.info.CaseUnique ∧ g.info.CaseUnique := by
  induction b with
  | nil => simp [Forest.append, Forest.info, Info.CaseUnique]
  | text _ _ ih => simpa [Forest.append, Forest.info, Info.CaseUnique] using ih
  | misc _ _ ih => simpa [Forest.append, Forest.info, Info.CaseUnique] using ih
  | leaf _ _ _ _ ih => simp only [Forest.append, Forest.info, Info.CaseUnique, ih, true_and, and_assoc]
  | node _ _ _ _ _ _ _ ih => simp only [Forest.append, Forest.info, Info.CaseUnique, ih, and_assoc]

theorem caseUnique_plug {c : Ctx} {e : El} (h : (c.plug (e.cons .nil)).info.CaseUnique) : CU e.node.attr := by
  induction c with
  | here b a =>
    rw [Ctx.plug, append_caseUnique, append_caseUnique] at h
    obtain ⟨nm, eas, ews, bd⟩ := e
    cases bd <;> exact h.2.1.1
  | within b n as' ws' c cws' a ih =>
    simp only [Ctx.plug, append_caseUnique, Forest.info, Info.CaseUnique] at h
    exact ih h.2.2.1

theorem retag_caseUnique {c : Ctx} {e : El} {as : List Attr} (h : (c.plug (e.cons .nil)).info.CaseUnique) (ha : CU (Spec.attrVal e.attrs) → CU (Spec.attrVal as)) :
    (c.plug ((e.retag as).cons .nil)).info.CaseUnique := by
  induction c with
  | here b a =>
    simp only [Ctx.plug, append_caseUnique] at h ⊢
    obtain ⟨nm, eas, ews, bd⟩ := e
    obtain ⟨h1, h2, h3⟩ := h
    refine ⟨h1, ?_, h3⟩
    cases bd with
    | none => exact ⟨ha h2.1, h2.2⟩
    | some q => exact ⟨ha h2.1, h2.2⟩
  | within b n as' ws' c cws' a ih =>
    simp only [Ctx.plug, append_caseUnique, Forest.info, Info.CaseUnique] at h ⊢
    exact ⟨h.1, h.2.1, ih h.2.2.1, h.2.2.2⟩

theorem sameKey_fold {x k : Bytes} : sameKey false x k ↔ foldCase x = foldCase k := by simp [sameKey]

theorem retagBy_cu {e : El} {k s : Bytes} {as : List Attr} (h : RetagBy false e k (some s) as) (hc : CU (Spec.attrVal e.attrs)) : CU (Spec.attrVal as) := by
  have hne : ∀ x v, Spec.attrVal as x = some v → (Spec.attrVal e.attrs x ≠ none) ∨ (∀ j, sameKey false j k → Spec.attrVal e.attrs j = none) ∧ x = spelling false k := by
    intro x v hx
    by_cases hn : Spec.attrVal e.attrs x = none
    · by_cases hk : sameKey false x k
      · by_cases hy : ∃ j', sameKey false j' k ∧ Spec.attrVal e.attrs j' ≠ none
        · rw [h.no x hk hy hn] at hx; cases hx
        · have hall : ∀ j, sameKey false j k → Spec.attrVal e.attrs j = none := fun j hj => Classical.byContradiction fun hh => hy ⟨j, hj, hh⟩
          rw [h.new hall x hk] at hx
          split at hx
          · rename_i hh; exact .inr ⟨hall, hh⟩
          · cases hx
      · rw [h.others x hk, hn] at hx; cases hx
    · exact .inl hn
  intro x y v w hx hy hf
  have fold_sp : ∀ z, z = spelling false k → foldCase z = foldCase k := by rintro z rfl; simp [spelling, fold_fold]
  rcases hne x v hx with h1 | ⟨h1, h2⟩ <;> rcases hne y w hy with h3 | ⟨h3, h4⟩
  · obtain ⟨v', hv'⟩ := Option.ne_none_iff_exists'.mp h1
    obtain ⟨w', hw'⟩ := Option.ne_none_iff_exists'.mp h3
    exact hc x y v' w' hv' hw' hf
  · exact absurd (h3 x (sameKey_fold.mpr (hf.trans (fold_sp y h4)))) h1
  · exact absurd (h1 y (sameKey_fold.mpr (hf.symm.trans (fold_sp x h2)))) h3
  · rw [h2, h4]

theorem retagBy_attr {cs : Bool} {e : El} {k s : Bytes} {as : List Attr} (h : RetagBy cs e k (some s) as) (hl : Lone cs (e.retag as).node) : (e.retag as).node.attrBy cs k = some s := by
  rw [attrBy_some hl]
  by_cases hy : ∃ j', sameKey cs j' k ∧ Spec.attrVal e.attrs j' ≠ none
  · obtain ⟨j, h1, h2⟩ := hy
    exact ⟨j, h1, h.this j h1 h2⟩
  · have hall : ∀ j, sameKey cs j k → Spec.attrVal e.attrs j = none := fun j hj => Classical.byContradiction fun hh => hy ⟨j, hj, hh⟩
    have hsp : sameKey cs (spelling cs k) k := by cases cs <;> simp [sameKey, spelling, fold_fold]
    exact ⟨_, hsp, (h.new hall _ hsp).trans (if_pos rfl)⟩

end Verif

namespace Verif.Props
open Spec

/-- C89: the first thing that Get finds is the element at which Set and Delete with the same path and the same options work. -/
theorem C89_place (env : Env) (ho : env.ord.IsPerm) (opts : Options) {c : Ctx} {e : El} (h : Sound (c.plug (e.cons .nil))) {p : Bytes} {ss : List Bytes} (hp : PathSteps p ss)
    (hb : c!"|" ∉ p) (ha : Ahead ss) (hl : LeadTo opts.caseSensitive ss c e.name) :
    ∃ a r, getWithOptions env (c.plug (e.cons .nil)).render p (some opts) = .ret a ∧ a.array.head? = some r ∧ IsElement r e.node := by
  obtain ⟨hs, ht, hr⟩ := hl
  have hbs : ∀ s ∈ ss, c!"|" ∉ s := fun s hm hc => hb ((steps_bytes hp hm).1 _ hc)
  obtain ⟨ks, ms, g1, g2, g3, g4, g5, g6⟩ := ahead_plan ht rfl hbs ha.deep ha.wild ha.small
  obtain ⟨-, g7⟩ := g6 [] (.inl rfl)
  have h0 : ss ≠ [] := leadTo_full ⟨hs, ht, hr⟩
  have hpl := g7 false .elem rfl rfl
  rw [List.append_nil] at hpl
  obtain ⟨a, k1, k2⟩ := get_roles env ho opts (sound_says h) hp h0 g1 hbs g3 (fun ⟨x, hx⟩ => absurd hx (g4 x)) hpl rfl
  have k3 := spot_first (cs := opts.caseSensitive) (g := .elem) (x := .elem e.node) (.inl rfl) rfl g2 true
    (fun hn => by obtain ⟨d, d1, d2⟩ := g5 hn; exact absurd d2 (ha.top d d1)) (reach_spot hr)
  have k4 := gives_things k2
  cases hA : a.array with
  | nil => rw [hA] at k4; cases hx : (askBy opts.caseSensitive ms .elem true (c.plug (e.cons .nil)).info).items with
    | nil => rw [hx] at k3; simp at k3
    | cons y l => rw [hx] at k4; cases k4
  | cons r rs =>
    cases hx : (askBy opts.caseSensitive ms .elem true (c.plug (e.cons .nil)).info).items with
    | nil => rw [hx] at k3; simp at k3
    | cons y l =>
      rw [hA, hx] at k4
      rw [hx] at k3
      simp only [List.head?_cons, Option.some.injEq] at k3
      subst k3
      cases k4 with
      | cons k5 _ => exact ⟨a, r, k1, by rw [hA]; rfl, k5⟩

/-- C89: what Set writes into an element is the first thing that Get finds with the same path and the same options. -/
theorem C89_set (env : Env) (ho : env.ord.IsPerm) (opts : Options) {c : Ctx} {e : El} (h : Editable (c.plug (e.cons .nil))) (hb : e.body ≠ none) {p : Bytes} {ss : List Bytes} (hp : PathSteps p ss)
    (hbar : c!"|" ∉ p) (ha : Ahead ss) (hl : LeadTo opts.caseSensitive ss c e.name) {v : GoVal} {s : Bytes} (hv0 : v ≠ .nil) (hv : valueToXML v = some (escapeXML s)) (hw : (escapeXML s).length ≤ 5242880) :
    ∃ x, setWithOptions env.ord (c.plug (e.cons .nil)).render p v (some opts) = .ret (x, none) ∧
      (x.length ≤ 10485760 → ∃ a r, getWithOptions env x p (some opts) = .ret a ∧ a.array.head? = some r ∧ r.typ = .element ∧ r.toStr = trimSpace s) := by
  have h1 := C79_set ho opts h hp hl hv0 hv hw
  rw [← fill_render hb] at h1
  refine ⟨_, h1, fun hsz => ?_⟩
  have he := editable_fill h hb (C20_no_markup s) (by rw [fill_render hb] at hsz; exact hsz)
  obtain ⟨a, r, g1, g2, g3⟩ := C89_place env ho opts (e := e.fill (escapeXML s)) (editable_sound he) hp hbar ha hl
  exact ⟨a, r, g1, g2, text_is g3 (by rw [fill_refill h hb]; rfl)⟩

/-- C89: so is what Set writes into an element that it creates with others for names of the path. -/
theorem C89_create (env : Env) (ho : env.ord.IsPerm) (opts : Options) (hi : c!"<" ∉ opts.indent) {c : Ctx} {e : El} (h : Editable (c.plug (e.cons .nil))) {p : Bytes} {ss ps rest : List Bytes} (hp : PathSteps p ss)
    (hbar : c!"|" ∉ p) (ha : Ahead ss) (hd : Deepest opts.caseSensitive ss ps rest c e) (hn : ∀ x ∈ rest, IsName x) (hdep : c.depth + 1 + rest.length ≤ 100)
    {v : GoVal} {s : Bytes} (hv0 : v ≠ .nil) (hv : valueToXML v = some (escapeXML s)) (hw : (escapeXML s).length ≤ 5242880) :
    ∃ x, setWithOptions env.ord (c.plug (e.cons .nil)).render p v (some opts) = .ret (x, none) ∧
      (x.length ≤ 10485760 → ∃ a r, getWithOptions env x p (some opts) = .ret a ∧ a.array.head? = some r ∧ r.typ = .element ∧ r.toStr = trimSpace s) := by
  obtain ⟨ns, n, rfl⟩ : ∃ ns n, rest = ns ++ [n] := ⟨rest.dropLast, rest.getLast hd.more, (List.dropLast_concat_getLast _).symm⟩
  obtain ⟨as, ws, ho1, ho2⟩ := C79_create ho opts h hp hd (fun x hx => isName_negative (hn x hx)) (slots_isName hn) (by simp)
  refine ⟨_, ho2 v _ hv0 hv hw, fun hsz => ?_⟩
  have hcnt : e.kids.info.count opts.caseSensitive (.name ((ns ++ [n]).head (by simp))) = 0 := by
    obtain ⟨y, r', hr'⟩ : ∃ y r', ns ++ [n] = y :: r' := by cases ns <;> exact ⟨_, _, rfl⟩
    simp only [hr', List.head_cons]
    have hs := hd.split
    subst hs
    rw [hr'] at hd
    exact deepest_count hd (hn y (by simp [hr']))
  have hns : (ns ++ [n]).map (spelling opts.caseSensitive) = ns.map (spelling opts.caseSensitive) ++ [spelling opts.caseSensitive n] := by simp
  have hrend : (chainF opts.indent 0 ((ns ++ [n]).map (spelling opts.caseSensitive)) (.text (escapeXML s) .nil)).render =
      slotLines opts.indent 0 ((ns ++ [n]).map fun m => some (spelling opts.caseSensitive m)) (escapeXML s) := by
    rw [chainF_render, ← slotLines_names, List.map_map]; simp [Function.comp_def]
  have hx : c.before ++ (e.refill as ws (e.kids.append (chainF opts.indent 0 ((ns ++ [n]).map (spelling opts.caseSensitive)) (.text (escapeXML s) .nil)))).render ++ c.after =
      c.before ++ (openTag e.name as ws ++ b!">" ++ e.inner ++ slotLines opts.indent 0 ((ns ++ [n]).map fun m => some (spelling opts.caseSensitive m)) (escapeXML s) ++ closeTag e.name []) ++ c.after := by
    rw [← hrend]
    obtain ⟨nm, eas, ews, bd⟩ := e
    cases bd <;> simp [El.refill, El.render, El.start, El.inner, El.stop, El.kids, append_render, Forest.render]
  rw [← hx] at hsz ⊢
  have hed := editable_createdB hi h (ns := (ns ++ [n]).map (spelling opts.caseSensitive)) (by simp) (fun m hm => by
    obtain ⟨m', h1, rfl⟩ := List.mem_map.mp hm; exact spelling_name (hn m' h1)) (by simpa using hdep) (C20_no_markup s) ho1 hsz
  have e1 : (down c e.name as ws [] (chainFCtx opts.indent 0 e.kids ((ns ++ [n]).map (spelling opts.caseSensitive)))).plug
      ((⟨spelling opts.caseSensitive n, [], [], some (.text (escapeXML s) .nil, [])⟩ : El).cons .nil) =
      c.plug ((e.refill as ws (e.kids.append (chainF opts.indent 0 ((ns ++ [n]).map (spelling opts.caseSensitive)) (.text (escapeXML s) .nil)))).cons .nil) := by
    rw [down_plug, hns, chainFCtx_plug]; rfl
  have e2 : c.before ++ (e.refill as ws (e.kids.append (chainF opts.indent 0 ((ns ++ [n]).map (spelling opts.caseSensitive)) (.text (escapeXML s) .nil)))).render ++ c.after =
      (c.plug ((e.refill as ws (e.kids.append (chainF opts.indent 0 ((ns ++ [n]).map (spelling opts.caseSensitive)) (.text (escapeXML s) .nil)))).cons .nil)).render := by
    rw [plug_el_render]; simp [El.render]
  rw [e2, ← e1]
  rw [← e1] at hed
  obtain ⟨hs, ht, hr⟩ := hd.leads
  have hlead : LeadTo opts.caseSensitive ss (down c e.name as ws [] (chainFCtx opts.indent 0 e.kids ((ns ++ [n]).map (spelling opts.caseSensitive)))) (spelling opts.caseSensitive n) :=
    ⟨_, by rw [hd.split]; exact trail_more ht hn rfl, reach_down hr (chainFCtx_reach opts.caseSensitive opts.indent 0 hcnt)⟩
  obtain ⟨a, r, g1, g2, g3⟩ := C89_place env ho opts (editable_sound hed) hp hbar ha hlead
  exact ⟨a, r, g1, g2, text_is g3 rfl⟩

/-- C89: the same where no element is named as the first name of the path: a new one is written behind the others. -/
theorem C89_create_top (env : Env) (ho : env.ord.IsPerm) (opts : Options) (hi : c!"<" ∉ opts.indent) {f : Forest} (h : Editable f) {p : Bytes} {x : Bytes} {rest : List Bytes} (hp : PathSteps p (x :: rest))
    (hbar : c!"|" ∉ p) (hno : LeadNowhere opts.caseSensitive [x] f) (hn : ∀ y ∈ x :: rest, IsName y) (hdep : (x :: rest).length ≤ 100)
    {v : GoVal} {s : Bytes} (hv0 : v ≠ .nil) (hv : valueToXML v = some (escapeXML s)) (hw : (escapeXML s).length ≤ 5242880) :
    ∃ d, setWithOptions env.ord f.render p v (some opts) = .ret (d, none) ∧
      (d.length ≤ 10485760 → ∃ a r, getWithOptions env d p (some opts) = .ret a ∧ a.array.head? = some r ∧ r.typ = .element ∧ r.toStr = trimSpace s) := by
  have hslot := slots_isName (cs := opts.caseSensitive) hn
  have h1 := C79_create_top ho opts (editable_sound h) hp (isName_step (hn x (by simp))).1 hno (fun y hy => isName_negative (hn y hy)) hslot (by
    rw [List.getLast?_map]; cases (x :: rest).getLast? <;> simp) hv0 hv hw
  refine ⟨_, h1, fun hsz => ?_⟩
  obtain ⟨ns, n, hr⟩ : ∃ ns n, x :: rest = ns ++ [n] := ⟨(x :: rest).dropLast, (x :: rest).getLast (by simp), (List.dropLast_concat_getLast _).symm⟩
  have hcnt : f.info.count opts.caseSensitive (.name ((ns ++ [n]).head (by simp))) = 0 := by
    simp only [← hr, List.head_cons]
    cases hsp : f.info.spot opts.caseSensitive [(.name x, 0)] with
    | none => simpa [Info.spot, Info.count] using hsp
    | some nd =>
      obtain ⟨c2, e2, g1, g2, -⟩ := spot_reach hsp
      exact absurd ⟨_, trail_names (rest := [x]) (by simpa using hn x (by simp)), g2⟩ (hno c2 e2 g1)
  have hns : (ns ++ [n]).map (spelling opts.caseSensitive) = ns.map (spelling opts.caseSensitive) ++ [spelling opts.caseSensitive n] := by simp
  have hrend : (chainF opts.indent 0 ((ns ++ [n]).map (spelling opts.caseSensitive)) (.text (escapeXML s) .nil)).render =
      slotLines opts.indent 0 ((x :: rest).map fun m => some (spelling opts.caseSensitive m)) (escapeXML s) := by
    rw [chainF_render, ← slotLines_names, List.map_map, hr]; simp [Function.comp_def]
  rw [← hrend] at hsz ⊢
  have hed := editable_newRootB hi h (ns := (ns ++ [n]).map (spelling opts.caseSensitive)) (by simp) (fun m hm => by
    obtain ⟨m', h1, rfl⟩ := List.mem_map.mp hm; exact spelling_name (hn m' (hr ▸ h1))) (by rw [List.length_map, ← hr]; exact hdep) (C20_no_markup s) hsz
  have e1 : (chainFCtx opts.indent 0 f ((ns ++ [n]).map (spelling opts.caseSensitive))).plug ((⟨spelling opts.caseSensitive n, [], [], some (.text (escapeXML s) .nil, [])⟩ : El).cons .nil) =
      f.append (chainF opts.indent 0 ((ns ++ [n]).map (spelling opts.caseSensitive)) (.text (escapeXML s) .nil)) := by
    rw [hns, chainFCtx_plug]
  rw [← append_render, ← e1]
  rw [← e1] at hed
  have hnm := trail_names hn
  rw [hr] at hp hnm hn
  obtain ⟨a, r, g1, g2, g3⟩ := C89_place env ho opts (editable_sound hed) hp hbar (ahead_names hn) ⟨_, hnm, chainFCtx_reach opts.caseSensitive opts.indent 0 hcnt⟩
  exact ⟨a, r, g1, g2, text_is g3 rfl⟩

/-- C89: the same for an attribute. (Without regard to case: where no element has two attributes whose names differ only in case.) -/
theorem C89_attribute (env : Env) (ho : env.ord.IsPerm) (opts : Options) {c : Ctx} {e : El} (h : Editable (c.plug (e.cons .nil))) {p : Bytes} {qs : List Bytes} {k : Bytes} (hk : IsName k) (hp : PathSteps p (qs ++ [c!"@" :: k]))
    (hbar : c!"|" ∉ p) (ha : Ahead qs) (hl : LeadTo opts.caseSensitive qs c e.name) (hu : opts.caseSensitive = false → (c.plug (e.cons .nil)).info.CaseUnique)
    (hroom : (∃ j, sameKey opts.caseSensitive j k ∧ Spec.attrVal e.attrs j ≠ none) ∨ e.attrs.length < 100)
    {v : GoVal} {s : Bytes} (hv0 : v ≠ .nil) (hv : valueToXML v = some (escapeXML s)) (hw : (escapeXML s).length ≤ 1048576) :
    ∃ x, setWithOptions env.ord (c.plug (e.cons .nil)).render p v (some opts) = .ret (x, none) ∧
      (x.length ≤ 10485760 → ∃ a, getWithOptions env x p (some opts) = .ret a ∧ a.array.head? = some (.ofAttr s)) := by
  have hkb : beforeBar (c!"@" :: k) = c!"@" :: k := beforeBar_plain fun hm => hbar ((steps_bytes hp (s := c!"@" :: k) (by simp)).1 _ hm)
  obtain ⟨as, h1, h2⟩ := C79_set_attribute ho opts h hp ⟨k, rfl⟩ hl hv0 hv (by omega)
  rw [hkb, List.drop_one, List.tail_cons] at h1
  have hx : c.before ++ (e.retag as).render ++ c.after = (c.plug ((e.retag as).cons .nil)).render := by rw [plug_el_render]; simp [El.render]
  rw [hx] at h2
  refine ⟨_, h2, fun hsz => ?_⟩
  have hg := editable_el h
  obtain ⟨l1, l2⟩ := el_attrs hg.legal hg.tame
  obtain ⟨f1, f2⟩ := retagBy_fits h1 l1 l2 hk hw hroom
  have hed := editable_retag h f1 f2 h1.neat hsz
  have hu2 : opts.caseSensitive = false → (c.plug ((e.retag as).cons .nil)).info.CaseUnique := fun hc => by
    rw [hc] at h1; exact retag_caseUnique (hu hc) (retagBy_cu h1)
  have hr0 := hl
  obtain ⟨hs, ht, hr⟩ := hl
  have hbs : ∀ s ∈ qs ++ [c!"@" :: k], c!"|" ∉ s := fun s hm hc => hbar ((steps_bytes hp hm).1 _ hc)
  obtain ⟨ks, ms, g1, g2, g3, g4, g5, g6⟩ := ahead_plan ht rfl (fun s hs => hbs s (by simp [hs])) ha.deep ha.wild ha.small
  obtain ⟨-, g7⟩ := g6 [.attr k] (.inr ⟨k, rfl⟩)
  have hpl := g7 false (.attr k) rfl rfl
  obtain ⟨a, k1, k2⟩ := get_roles env ho opts (sound_says (editable_sound hed)) hp (by simp) (g1.append (.cons .attr .nil)) hbs (by simpa using g3) (fun _ => hu2) hpl rfl
  have hlone : Lone opts.caseSensitive (e.retag as).node := fun hc => by
    have := caseUnique_plug (hu2 hc)
    exact this
  have hsp := reach_spot (e := e.retag as) hr
  have k3 := spot_first (cs := opts.caseSensitive) (g := .attr k) (x := .attr s) (.inr ⟨k, rfl⟩) (by simp [Goal.itemsBy, retagBy_attr h1 hlone]) g2 true
    (fun hn => by obtain ⟨d, d1, d2⟩ := g5 hn; exact absurd d2 (ha.top d d1)) hsp
  have k4 := gives_things k2
  cases hA : a.array with
  | nil => rw [hA] at k4; cases hx : (askBy opts.caseSensitive ms (.attr k) true (c.plug ((e.retag as).cons .nil)).info).items with
    | nil => rw [hx] at k3; simp at k3
    | cons y l => rw [hx] at k4; cases k4
  | cons r rs =>
    cases hx : (askBy opts.caseSensitive ms (.attr k) true (c.plug ((e.retag as).cons .nil)).info).items with
    | nil => rw [hx] at k3; simp at k3
    | cons y l =>
      rw [hA, hx] at k4
      rw [hx] at k3
      simp only [List.head?_cons, Option.some.injEq] at k3
      subst k3
      cases k4 with
      | cons k5 _ =>
        have k6 : r = .ofAttr s := k5
        exact ⟨a, k1, by rw [hA, k6]; rfl⟩

/-! ### cases -/

/-- C89: what is left out: `**` is one level for Set; a position after `*` is none for Get; content written into a self-closing tag goes behind it. (Positions after the first name: `C17_index_at_top`.) -/
theorem C89_witness :
    setWithOptions exEnv.ord b!"<r><b><b><x>1</x></b><x>2</x></b></r>" b!"r.**.x" (.str b!"v") (some defaultOptions) = .ret (b!"<r><b><b><x>1</x></b><x>v</x></b></r>", none) ∧
    (∃ a, getWithOptions exEnv b!"<r><b><b><x>1</x></b><x>v</x></b></r>" b!"r.**.x" (some defaultOptions) = .ret a ∧ a.array.map Result.toStr = [b!"1", b!"v"]) ∧
    setWithOptions exEnv.ord b!"<r><a>1</a><b>2</b></r>" b!"r.*.1" (.str b!"v") (some defaultOptions) = .ret (b!"<r><a>1</a><b>v</b></r>", none) ∧
    getWithOptions exEnv b!"<r><a>1</a><b>v</b></r>" b!"r.*.1" (some defaultOptions) = .ret .null ∧
    setWithOptions exEnv.ord b!"<r><a/></r>" b!"r.a" (.str b!"v") (some defaultOptions) = .ret (b!"<r><a/>v</r>", none) ∧
    (∃ a, getWithOptions exEnv b!"<r><a/>v</r>" b!"r.a" (some defaultOptions) = .ret a ∧ a.array.map Result.toStr = [[]]) := by
  refine ⟨by decide +kernel, ⟨_, rfl, by decide +kernel⟩, by decide +kernel, by decide +kernel, by decide +kernel, ⟨_, rfl, by decide +kernel⟩⟩

def exStar : List Bytes := [b!"*", b!"a", b!"1"]

theorem exStar_trail : Trail exStar (some [(.any, 0), (.name b!"a", 1)]) :=
  .first (t := some _) (.any (by decide)) (by intro d hd; simp at hd; subst hd; exact fun h => absurd h (by unfold Position; decide +kernel))
    (.nth (t := some _) (j := 1) (.name (name_step (by decide))) (by unfold Position; decide +kernel) (.number (ds := b!"1") (rest := []) rfl (.digit 49 (by decide)) (.inl rfl)) .nil)

theorem exStar_ahead : Ahead exStar where
  deep := by decide
  wild pre d post e := by
    match pre, e with
    | [], e => simp only [exStar, List.nil_append, List.cons.injEq] at e; obtain ⟨-, rfl, -⟩ := e; unfold Position; decide +kernel
    | [_], e => simp [exStar] at e
    | [_, _], e => simp [exStar] at e
    | _ :: _ :: _ :: _, e => have := congrArg List.length e; simp [exStar] at this
  small d hd hp j hj := by
    simp only [exStar, List.mem_cons, List.not_mem_nil, or_false] at hd
    rcases hd with rfl | rfl | rfl
    · exact absurd hp (by unfold Position; decide +kernel)
    · exact absurd hp (by unfold Position; decide +kernel)
    · have h1 := place_exact hj hp (by decide)
      rw [show atoi b!"1" = 1 by decide +kernel] at h1
      omega
  top d hd := by simp [exStar] at hd; subst hd; unfold Position; decide +kernel

/-- `*.a.1` -/
example (env : Env) (ho : env.ord.IsPerm) : ∃ x, setWithOptions env.ord b!"<!--x--><r v='1' ><a k=\"&lt;\">x</a> <a><b>y</b></a><c j=\"1\"/></r>" b!"*.a.1" (.str b!" <&> ") (some defaultOptions) = .ret (x, none) ∧
    (x.length ≤ 10485760 → ∃ a r, getWithOptions env x b!"*.a.1" (some defaultOptions) = .ret a ∧ a.array.head? = some r ∧ r.typ = .element ∧ r.toStr = b!"<&>") := by
  have h := C89_set env ho defaultOptions exEdit (by decide) (p := b!"*.a.1") (pathSteps_by (by decide) (by decide) (by decide +kernel) (by decide +kernel)) (by decide) exStar_ahead
    ⟨_, exStar_trail, rfl, by decide +kernel, rfl, by decide +kernel⟩ (v := .str b!" <&> ") (s := b!" <&> ") (by simp) rfl (by decide +kernel)
  rw [exEdit_render, show trimSpace b!" <&> " = b!"<&>" by decide +kernel] at h
  exact h

theorem exCase : (exCtx.plug (exEl.cons .nil)).info.CaseUnique := by
  have key : ∀ (as : List Attr), as = [] ∨ (∃ a, as = [a]) → CU (Spec.attrVal as) := by
    rintro as (rfl | ⟨a, rfl⟩) x y v w hx hy -
    · simp [Spec.attrVal] at hx
    · have h1 := attrVal_mem hx
      have h2 := attrVal_mem hy
      obtain ⟨b, hb, h3, -⟩ := h1
      obtain ⟨b', hb', h4, -⟩ := h2
      simp only [List.mem_singleton] at hb hb'
      rw [← h3, ← h4, hb, hb']
  simp only [exCtx, exEl, El.cons, Ctx.plug, append_caseUnique, Forest.append, Forest.info, Info.CaseUnique]
  exact ⟨key _ (.inr ⟨_, rfl⟩), ⟨key _ (.inr ⟨_, rfl⟩), trivial, ⟨key _ (.inl rfl), ⟨key _ (.inl rfl), trivial, trivial⟩, ⟨key _ (.inr ⟨_, rfl⟩), trivial, trivial⟩⟩⟩, trivial⟩

/-- `*.a.1.@K`, without regard to case. -/
example (env : Env) (ho : env.ord.IsPerm) : ∃ x, setWithOptions env.ord b!"<!--x--><r v='1' ><a k=\"&lt;\">x</a> <a><b>y</b></a><c j=\"1\"/></r>" b!"*.a.1.@K" (.str b!"<") (some { defaultOptions with caseSensitive := false }) = .ret (x, none) ∧
    (x.length ≤ 10485760 → ∃ a, getWithOptions env x b!"*.a.1.@K" (some { defaultOptions with caseSensitive := false }) = .ret a ∧ a.array.head? = some (.ofAttr b!"<")) := by
  have h := C89_attribute env ho { defaultOptions with caseSensitive := false } exEdit (k := b!"K") (isName_of (by decide) (by decide)) (p := b!"*.a.1.@K") (qs := exStar)
    (pathSteps_by (by decide) (by decide) (by decide +kernel) (by decide +kernel)) (by decide) exStar_ahead
    ⟨_, exStar_trail, rfl, by decide +kernel, by decide +kernel, by decide +kernel⟩ (fun _ => exCase) (.inr (by decide)) (v := .str b!"<") (s := b!"<") (by simp) rfl (by decide +kernel)
  rw [exEdit_render] at h
  exact h

/-- `*.a.1.p.q`, on lines. -/
example (env : Env) (ho : env.ord.IsPerm) : ∃ x, setWithOptions env.ord b!"<!--x--><r v='1' ><a k=\"&lt;\">x</a> <a><b>y</b></a><c j=\"1\"/></r>" b!"*.a.1.p.q" (.str b!"<") (some { defaultOptions with indent := b!"  " }) = .ret (x, none) ∧
    (x.length ≤ 10485760 → ∃ a r, getWithOptions env x b!"*.a.1.p.q" (some { defaultOptions with indent := b!"  " }) = .ret a ∧ a.array.head? = some r ∧ r.typ = .element ∧ r.toStr = b!"<") := by
  have hn : ∀ x ∈ [b!"p", b!"q"], IsName x := by intro x hx; simp at hx; rcases hx with rfl | rfl <;> exact isName_of (by decide) (by decide)
  have ht : ∀ rest : List Bytes, (∀ x ∈ rest, IsName x) → Trail (exStar ++ rest) (some ([(.any, 0), (.name b!"a", 1)] ++ rest.map fun n => (Pick.name n, 0))) := fun rest hr => trail_more exStar_trail hr rfl
  have hdeep : Deepest true (exStar ++ [b!"p", b!"q"]) exStar [b!"p", b!"q"] exCtx exEl := by
    refine ⟨rfl, by simp, ⟨_, exStar_trail, rfl, by decide +kernel, rfl, by decide +kernel⟩, ?_⟩
    intro qs rest h1 h2
    have h3 := congrArg List.length h1
    simp only [exStar, List.cons_append, List.nil_append, List.length_cons, List.length_nil, List.length_append] at h2 h3
    have h4 : qs = exStar ++ [b!"p"] ∨ qs = exStar ++ [b!"p", b!"q"] := by
      have h5 : qs = (exStar ++ [b!"p", b!"q"]).take qs.length := by rw [h1, List.take_left]
      have h6 : qs.length = 4 ∨ qs.length = 5 := by omega
      rcases h6 with h6 | h6 <;> rw [h6] at h5
      · exact .inl h5
      · exact .inr h5
    rcases h4 with rfl | rfl
    · exact nowhere_spot (ht [b!"p"] (by intro x hx; exact hn x (by simp at hx; simp [hx]))) (by decide +kernel)
    · exact nowhere_spot (ht _ hn) (by decide +kernel)
  have ha : Ahead (exStar ++ [b!"p", b!"q"]) := ahead_more exStar_ahead (by decide) hn
  have h := C89_create env ho { defaultOptions with indent := b!"  " } (by decide) exEdit (p := b!"*.a.1.p.q") (pathSteps_by (by decide) (by decide) (by decide +kernel) (by decide +kernel)) (by decide) ha
    hdeep hn (by decide +kernel) (v := .str b!"<") (s := b!"<") (by simp) rfl (by decide +kernel)
  rw [exEdit_render, show trimSpace b!"<" = b!"<" by decide +kernel] at h
  exact h

/-- `x.y` in `<r><a/></r>` -/
example (env : Env) (ho : env.ord.IsPerm) : ∃ d, setWithOptions env.ord b!"<r><a/></r>" b!"x.y" (.str b!"<") (some defaultOptions) = .ret (d, none) ∧
    (d.length ≤ 10485760 → ∃ a r, getWithOptions env d b!"x.y" (some defaultOptions) = .ret a ∧ a.array.head? = some r ∧ r.typ = .element ∧ r.toStr = b!"<") := by
  have h := C89_create_top env ho defaultOptions (by decide) (f := .node b!"r" [] [] (.leaf b!"a" [] [] .nil) [] .nil) (editable_of (by decide +kernel)) (x := b!"x") (rest := [b!"y"]) (p := b!"x.y")
    (pathSteps_by (by decide) (by decide) (by decide +kernel) (by decide +kernel)) (by decide)
    (nowhere_spot (hs := [(.name b!"x", 0)]) (.first (t := some []) (.name (name_step (by decide))) (by simp) .nil) (by decide +kernel))
    (by intro x hx; simp at hx; rcases hx with rfl | rfl <;> exact isName_of (by decide) (by decide)) (by decide) (v := .str b!"<") (s := b!"<") (by simp) rfl (by decide +kernel)
  rw [show trimSpace b!"<" = b!"<" by decide +kernel] at h
  exact h

end Verif.Props
