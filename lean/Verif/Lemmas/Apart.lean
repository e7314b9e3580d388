import Verif.Lemmas.Commute
import Verif.Lemmas.SlotsAttr
/- Places apart, and steps of any kind that lead to them. -/
namespace Verif
open Spec

theorem reTop_reach (c : Ctx) (b a : Forest) {cs : Bool} (h : ∀ k, b.info.count cs k = c.top.1.info.count cs k) {hs : List Hop} {x : Bytes} (hL : Reach cs hs c x) :
    Reach cs hs (c.reTop b a) x := by
  cases c with
  | here b0 a0 =>
    cases hs with
    | nil => simp [Reach] at hL
    | cons p ps =>
      cases ps with
      | nil => exact ⟨hL.1, by rw [h]; exact hL.2⟩
      | cons => simp [Reach] at hL
  | within b0 n as ws c cws a0 =>
    cases hs with
    | nil => simp [Reach] at hL
    | cons p ps =>
      cases ps with
      | nil => cases c <;> simp [Reach] at hL
      | cons => exact ⟨hL.1, by rw [h]; exact hL.2.1, hL.2.2⟩

theorem count_swap {b m : Forest} {e e' : El} (h : e'.name = e.name) (cs : Bool) (k : Pick) : (b.append (e'.cons m)).info.count cs k = (b.append (e.cons m)).info.count cs k := by
  simp only [Info.count, append_elems, cons_elems, List.filter_append, List.length_append, List.filter_cons]
  have : e'.node.name = e.node.name := h
  rw [this]
  split <;> simp

/-- Two places apart: what is in the one may be exchanged without moving the other. -/
theorem places_apart_reach {c d : Ctx} {e x : El} (h : c.plug (e.cons .nil) = d.plug (x.cons .nil)) (ha : Apart c.addr d.addr) {e' x' : El} (he : e'.name = e.name) (hx : x'.name = x.name) :
    ∃ c' d' : Ctx, c'.addr = c.addr ∧ d'.addr = d.addr ∧ (∀ cs hs n, Reach cs hs c n → Reach cs hs c' n) ∧ (∀ cs hs n, Reach cs hs d n → Reach cs hs d' n) ∧
      c.plug (e'.cons .nil) = d'.plug (x.cons .nil) ∧ d.plug (x'.cons .nil) = c'.plug (e.cons .nil) ∧ c'.plug (e'.cons .nil) = d'.plug (x'.cons .nil) := by
  induction c generalizing d with
  | here b a =>
    have hc := h
    rw [plug_top (.here b a), plug_top d] at h
    rcases split_elems h with ⟨h1, -, -⟩ | ⟨h1, m, h2, h3⟩ | ⟨h1, m, h2, h3⟩
    · refine absurd ?_ ha.1
      have h1 : b = d.top.1 := h1
      subst h1
      cases d <;> simp [Ctx.addr, Ctx.top]
    · refine ⟨(Ctx.here b a).reTop b (m.append ((d.top.2.1 x').cons d.top.2.2)), d.reTop (b.append (e'.cons m)) d.top.2.2, reTop_addr _ _ _ rfl, reTop_addr _ _ _ ?_, ?_, ?_, ?_, ?_, ?_⟩
      · rw [h2, append_elems, append_elems, cons_elems, cons_elems]; simp [Ctx.top]
      · exact fun cs hs n hL => reTop_reach _ _ _ (fun _ => rfl) hL
      · exact fun cs hs n hL => reTop_reach _ _ _ (fun k => by rw [h2]; exact count_swap (b := b) he cs k) hL
      · have h3 : a = m.append ((d.top.2.1 x).cons d.top.2.2) := h3
        rw [reTop_plug, plug_top, append_assoc, cons_append]
        show b.append (El.cons _ a) = _
        rw [h3]; rfl
      · rw [plug_top d, h2, reTop_plug, append_assoc, cons_append]; rfl
      · rw [reTop_plug, reTop_plug, append_assoc, cons_append]; rfl
    · refine ⟨(Ctx.here b a).reTop (d.top.1.append ((d.top.2.1 x').cons m)) a, d.reTop d.top.1 (m.append (e'.cons a)), reTop_addr _ _ _ ?_, reTop_addr _ _ _ rfl, ?_, ?_, ?_, ?_, ?_⟩
      · rw [h2, append_elems, append_elems, cons_elems, cons_elems]; simp
      · exact fun cs hs n hL => reTop_reach _ _ _ (fun k => by rw [h2]; exact count_swap (top_name d hx) cs k) hL
      · exact fun cs hs n hL => reTop_reach _ _ _ (fun _ => rfl) hL
      · rw [reTop_plug, plug_top, h2, append_assoc, cons_append]; rfl
      · have h3 : d.top.2.2 = m.append (e.cons a) := h3
        rw [plug_top d, h3, reTop_plug, append_assoc, cons_append]; rfl
      · rw [reTop_plug, reTop_plug, append_assoc, cons_append]; rfl
  | within b n as ws c cws a ih =>
    have hc := h
    rw [plug_top (.within b n as ws c cws a), plug_top d] at h
    rcases split_elems h with ⟨h1, h2, h3⟩ | ⟨h1, m, h2, h3⟩ | ⟨h1, m, h2, h3⟩
    · cases d with
      | here b2 a2 =>
        refine absurd ?_ ha.2
        have h1 : b = b2 := h1
        simp [Ctx.addr, h1]
      | within b2 n2 as2 ws2 d cws2 a2 =>
        simp only [Ctx.top] at h1 h3
        simp only [Ctx.top, El.mk.injEq, Option.some.injEq, Prod.mk.injEq] at h2
        obtain ⟨rfl, rfl, rfl, h2, rfl⟩ := h2
        subst h1 h3
        have ha' : Apart c.addr d.addr := by
          obtain ⟨p, q⟩ := ha
          simp only [Ctx.addr, List.cons_prefix_cons, true_and] at p q
          exact ⟨p, q⟩
        obtain ⟨c', d', g1, g2, g3, g4, g5, g6, g7⟩ := ih h2 ha'
        refine ⟨.within b n as ws c' cws a, .within b n as ws d' cws a, by simp [Ctx.addr, g1], by simp [Ctx.addr, g2], ?_, ?_, ?_, ?_, ?_⟩
        · intro cs ps y hL
          cases ps with
          | nil => exact hL
          | cons p ps =>
            cases ps with
            | nil => cases c <;> simp [Reach] at hL
            | cons => exact ⟨hL.1, hL.2.1, g3 _ _ _ hL.2.2⟩
        · intro cs ps y hL
          cases ps with
          | nil => exact hL
          | cons p ps =>
            cases ps with
            | nil => cases d <;> simp [Reach] at hL
            | cons => exact ⟨hL.1, hL.2.1, g4 _ _ _ hL.2.2⟩
        · simp [Ctx.plug, g5]
        · simp [Ctx.plug, g6]
        · simp [Ctx.plug, g7]
    · refine ⟨(Ctx.within b n as ws c cws a).reTop b (m.append ((d.top.2.1 x').cons d.top.2.2)),
        d.reTop (b.append (((Ctx.within b n as ws c cws a).top.2.1 e').cons m)) d.top.2.2, reTop_addr _ _ _ rfl, reTop_addr _ _ _ ?_, ?_, ?_, ?_, ?_, ?_⟩
      · rw [h2, append_elems, append_elems, cons_elems, cons_elems]; simp [Ctx.top]
      · exact fun cs hs n hL => reTop_reach _ _ _ (fun _ => rfl) hL
      · exact fun cs hs n hL => reTop_reach _ _ _ (fun k => by rw [h2]; exact count_swap (b := b) (top_name (.within b _ as ws c cws a) he) cs k) hL
      · have h3 : a = m.append ((d.top.2.1 x).cons d.top.2.2) := h3
        rw [reTop_plug, plug_top, append_assoc, cons_append]
        show b.append (El.cons _ a) = _
        rw [h3]
      · rw [plug_top d, h2, reTop_plug, append_assoc, cons_append]; rfl
      · rw [reTop_plug, reTop_plug, append_assoc, cons_append]
    · refine ⟨(Ctx.within b n as ws c cws a).reTop (d.top.1.append ((d.top.2.1 x').cons m)) a,
        d.reTop d.top.1 (m.append (((Ctx.within b n as ws c cws a).top.2.1 e').cons a)), reTop_addr _ _ _ ?_, reTop_addr _ _ _ rfl, ?_, ?_, ?_, ?_, ?_⟩
      · rw [h2, append_elems, append_elems, cons_elems, cons_elems]; simp
      · exact fun cs hs n hL => reTop_reach _ _ _ (fun k => by rw [h2]; exact count_swap (top_name d hx) cs k) hL
      · exact fun cs hs n hL => reTop_reach _ _ _ (fun _ => rfl) hL
      · rw [reTop_plug, plug_top, h2, append_assoc, cons_append]; rfl
      · have h3 : d.top.2.2 = m.append (((Ctx.within b n as ws c cws a).top.2.1 e).cons a) := h3
        rw [plug_top d, h3, reTop_plug, append_assoc, cons_append]
      · rw [reTop_plug, reTop_plug, append_assoc, cons_append]


theorem spot_append (cs : Bool) {hs ht : List Hop} (h0 : hs ≠ []) (h1 : ht ≠ []) (i : Info) : i.spot cs (hs ++ ht) = (i.spot cs hs).bind fun nd => nd.kids.spot cs ht := by
  induction hs generalizing i with
  | nil => exact absurd rfl h0
  | cons p hs ih =>
    obtain ⟨k, j⟩ := p
    cases hs with
    | nil =>
      cases ht with
      | nil => exact absurd rfl h1
      | cons q ht => rfl
    | cons q hs =>
      simp only [List.cons_append, Info.spot]
      cases (i.elems.filter fun e => k.takes cs e.name)[j]? with
      | none => rfl
      | some nd => exact ih (by simp) nd.kids

end Verif
