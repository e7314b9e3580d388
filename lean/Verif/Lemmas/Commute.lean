import Verif.Spec.Commute
import Verif.Lemmas.Create
/- Two writes to places of which neither is inside the other. -/
namespace Verif
open Spec

theorem cons_inj {e e' : El} {a a' : Forest} (h : e.cons a = e'.cons a') : e = e' ∧ a = a' := by
  obtain ⟨n, as, ws, body⟩ := e
  obtain ⟨n', as', ws', body'⟩ := e'
  rcases body with _ | ⟨k, cws⟩ <;> rcases body' with _ | ⟨k', cws'⟩ <;> simp [El.cons] at h ⊢
  · obtain ⟨rfl, rfl, rfl, rfl⟩ := h; simp
  · obtain ⟨rfl, rfl, rfl, rfl, rfl, rfl⟩ := h; simp

/-- Two elements of one level: the same, or one behind the other. -/
theorem split_elems {b b' : Forest} {e e' : El} {a a' : Forest} (h : b.append (e.cons a) = b'.append (e'.cons a')) :
    (b = b' ∧ e = e' ∧ a = a') ∨ (b.info.elems.length < b'.info.elems.length ∧ ∃ m : Forest, b' = b.append (e.cons m) ∧ a = m.append (e'.cons a')) ∨
    (b'.info.elems.length < b.info.elems.length ∧ ∃ m : Forest, b = b'.append (e'.cons m) ∧ a' = m.append (e.cons a)) := by
  have leafc : ∀ n as ws x, Forest.leaf n as ws x = El.cons ⟨n, as, ws, none⟩ x := fun _ _ _ _ => rfl
  have nodec : ∀ n as ws k cws x, Forest.node n as ws k cws x = El.cons ⟨n, as, ws, some (k, cws)⟩ x := fun _ _ _ _ _ _ => rfl
  induction b generalizing b' with
  | nil =>
    cases b' with
    | nil => exact .inl ⟨rfl, cons_inj h⟩
    | text t x => obtain ⟨n, as, ws, _ | ⟨k, cws⟩⟩ := e <;> simp [Forest.append, El.cons] at h
    | misc t x => obtain ⟨n, as, ws, _ | ⟨k, cws⟩⟩ := e <;> simp [Forest.append, El.cons] at h
    | leaf n as ws x =>
      rw [leafc] at h ⊢
      rw [cons_append] at h
      obtain ⟨rfl, rfl⟩ := cons_inj h
      exact .inr (.inl ⟨by simp [cons_elems, Forest.info, Info.elems], x, rfl, rfl⟩)
    | node n as ws k cws x =>
      rw [nodec] at h ⊢
      rw [cons_append] at h
      obtain ⟨rfl, rfl⟩ := cons_inj h
      exact .inr (.inl ⟨by simp [cons_elems, Forest.info, Info.elems], x, rfl, rfl⟩)
  | text t x ih =>
    cases b' with
    | text t' x' =>
      simp only [Forest.append, Forest.text.injEq] at h
      obtain ⟨rfl, h⟩ := h
      rcases ih h with ⟨rfl, h2⟩ | ⟨h1, m, rfl, h2⟩ | ⟨h1, m, rfl, h2⟩
      · exact .inl ⟨rfl, h2⟩
      · exact .inr (.inl ⟨h1, m, rfl, h2⟩)
      · exact .inr (.inr ⟨h1, m, rfl, h2⟩)
    | nil => obtain ⟨n, as, ws, _ | ⟨k, cws⟩⟩ := e' <;> simp [Forest.append, El.cons] at h
    | _ => simp [Forest.append] at h
  | misc t x ih =>
    cases b' with
    | misc t' x' =>
      simp only [Forest.append, Forest.misc.injEq] at h
      obtain ⟨rfl, h⟩ := h
      rcases ih h with ⟨rfl, h2⟩ | ⟨h1, m, rfl, h2⟩ | ⟨h1, m, rfl, h2⟩
      · exact .inl ⟨rfl, h2⟩
      · exact .inr (.inl ⟨h1, m, rfl, h2⟩)
      · exact .inr (.inr ⟨h1, m, rfl, h2⟩)
    | nil => obtain ⟨n, as, ws, _ | ⟨k, cws⟩⟩ := e' <;> simp [Forest.append, El.cons] at h
    | _ => simp [Forest.append] at h
  | leaf n as ws x ih =>
    cases b' with
    | leaf n' as' ws' x' =>
      simp only [Forest.append, Forest.leaf.injEq] at h
      obtain ⟨rfl, rfl, rfl, h⟩ := h
      rcases ih h with ⟨rfl, h2⟩ | ⟨h1, m, rfl, h2⟩ | ⟨h1, m, rfl, h2⟩
      · exact .inl ⟨rfl, h2⟩
      · exact .inr (.inl ⟨by simpa [Forest.info, Info.elems] using h1, m, rfl, h2⟩)
      · exact .inr (.inr ⟨by simpa [Forest.info, Info.elems] using h1, m, rfl, h2⟩)
    | nil =>
      rw [leafc] at h ⊢
      rw [cons_append] at h
      obtain ⟨rfl, rfl⟩ := cons_inj h
      exact .inr (.inr ⟨by simp [cons_elems, Forest.info, Info.elems], x, rfl, rfl⟩)
    | _ => simp [Forest.append] at h
  | node n as ws k cws x ihk ih =>
    cases b' with
    | node n' as' ws' k' cws' x' =>
      simp only [Forest.append, Forest.node.injEq] at h
      obtain ⟨rfl, rfl, rfl, rfl, rfl, h⟩ := h
      rcases ih h with ⟨rfl, h2⟩ | ⟨h1, m, rfl, h2⟩ | ⟨h1, m, rfl, h2⟩
      · exact .inl ⟨rfl, h2⟩
      · exact .inr (.inl ⟨by simpa [Forest.info, Info.elems] using h1, m, rfl, h2⟩)
      · exact .inr (.inr ⟨by simpa [Forest.info, Info.elems] using h1, m, rfl, h2⟩)
    | nil =>
      rw [nodec] at h ⊢
      rw [cons_append] at h
      obtain ⟨rfl, rfl⟩ := cons_inj h
      exact .inr (.inr ⟨by simp [cons_elems, Forest.info, Info.elems], x, rfl, rfl⟩)
    | _ => simp [Forest.append] at h

/-- What is before on the outermost level, the element there as a function of what is in the hole, what is behind. -/
def Spec.Ctx.top : Ctx → Forest × (El → El) × Forest
  | .here b a => (b, id, a)
  | .within b n as ws c cws a => (b, fun e => ⟨n, as, ws, some (c.plug (e.cons .nil), cws)⟩, a)

theorem plug_top (c : Ctx) (e : El) : c.plug (e.cons .nil) = c.top.1.append ((c.top.2.1 e).cons c.top.2.2) := by
  cases c with
  | here b a => simp only [Ctx.plug, Ctx.top, id]; rw [cons_append]; rfl
  | within b n as ws c cws a => rfl

/-- The context with another beginning and end of the outermost level. -/
def Spec.Ctx.reTop (b a : Forest) : Ctx → Ctx
  | .here _ _ => .here b a
  | .within _ n as ws c cws _ => .within b n as ws c cws a

theorem reTop_plug (c : Ctx) (b a : Forest) (e : El) : (c.reTop b a).plug (e.cons .nil) = b.append ((c.top.2.1 e).cons a) := by
  rw [plug_top]; cases c <;> rfl

theorem top_name (c : Ctx) {e e' : El} (h : e'.name = e.name) : (c.top.2.1 e').name = (c.top.2.1 e).name := by
  cases c with
  | here b a => exact h
  | within => rfl

theorem addr_head (c : Ctx) : c.addr.head? = some c.top.1.info.elems.length := by cases c <;> rfl

theorem reTop_addr (c : Ctx) (b a : Forest) (h : b.info.elems.length = c.top.1.info.elems.length) : (c.reTop b a).addr = c.addr := by
  cases c <;> simp_all [Ctx.reTop, Ctx.addr, Ctx.top]

theorem reTop_leads (c : Ctx) (b a : Forest) (h : ∀ n, (b.info.named n).length = (c.top.1.info.named n).length) {ps : List Step} {x : Bytes} (hL : Leads ps c x) :
    Leads ps (c.reTop b a) x := by
  cases c with
  | here b0 a0 =>
    cases ps with
    | nil => exact hL
    | cons p ps =>
      cases ps with
      | nil => exact ⟨hL.1, by rw [h]; exact hL.2⟩
      | cons => exact hL
  | within b0 n as ws c cws a0 =>
    cases ps with
    | nil => exact hL
    | cons p ps =>
      cases ps with
      | nil => simp [Leads] at hL
      | cons => exact ⟨hL.1, by rw [h]; exact hL.2.1, hL.2.2⟩

theorem named_swap {b m : Forest} {e e' : El} (h : e'.name = e.name) (n : Bytes) :
    ((b.append (e'.cons m)).info.named n).length = ((b.append (e.cons m)).info.named n).length := by
  rw [append_named, append_named]
  simp only [Info.named, cons_elems, List.filter_cons]
  have : e'.node.name = e.node.name := h
  rw [this]
  split <;> simp

/-- Two places apart: what is in the one may be exchanged without moving the other. -/
theorem places_apart {c d : Ctx} {e x : El} (h : c.plug (e.cons .nil) = d.plug (x.cons .nil)) (ha : Apart c.addr d.addr) {e' x' : El} (he : e'.name = e.name) (hx : x'.name = x.name) :
    ∃ c' d' : Ctx, c'.addr = c.addr ∧ d'.addr = d.addr ∧ (∀ ps n, Leads ps c n → Leads ps c' n) ∧ (∀ ps n, Leads ps d n → Leads ps d' n) ∧
      c.plug (e'.cons .nil) = d'.plug (x.cons .nil) ∧ d.plug (x'.cons .nil) = c'.plug (e.cons .nil) ∧ c'.plug (e'.cons .nil) = d'.plug (x'.cons .nil) := by
  induction c generalizing d with
  | here b a =>
    have hc := h
    rw [plug_top (.here b a), plug_top d] at h
    rcases split_elems h with ⟨h1, -, -⟩ | ⟨h1, m, h2, h3⟩ | ⟨h1, m, h2, h3⟩
    · refine absurd ?_ ha.1
      have h1 : b = d.top.1 := h1
      subst h1
      cases d <;> simp [Ctx.addr, Ctx.top]
    · refine ⟨(Ctx.here b a).reTop b (m.append ((d.top.2.1 x').cons d.top.2.2)), d.reTop (b.append (e'.cons m)) d.top.2.2, reTop_addr _ _ _ rfl, reTop_addr _ _ _ ?_, ?_, ?_, ?_, ?_, ?_⟩
      · rw [h2, append_elems, append_elems, cons_elems, cons_elems]; simp [Ctx.top]
      · exact fun ps n hL => reTop_leads _ _ _ (fun _ => rfl) hL
      · exact fun ps n hL => reTop_leads _ _ _ (fun n => by rw [h2]; exact named_swap (b := b) he n) hL
      · have h3 : a = m.append ((d.top.2.1 x).cons d.top.2.2) := h3
        rw [reTop_plug, plug_top, append_assoc, cons_append]
        show b.append (El.cons _ a) = _
        rw [h3]; rfl
      · rw [plug_top d, h2, reTop_plug, append_assoc, cons_append]; rfl
      · rw [reTop_plug, reTop_plug, append_assoc, cons_append]; rfl
    · refine ⟨(Ctx.here b a).reTop (d.top.1.append ((d.top.2.1 x').cons m)) a, d.reTop d.top.1 (m.append (e'.cons a)), reTop_addr _ _ _ ?_, reTop_addr _ _ _ rfl, ?_, ?_, ?_, ?_, ?_⟩
      · rw [h2, append_elems, append_elems, cons_elems, cons_elems]; simp
      · exact fun ps n hL => reTop_leads _ _ _ (fun n => by rw [h2]; exact named_swap (top_name d hx) n) hL
      · exact fun ps n hL => reTop_leads _ _ _ (fun _ => rfl) hL
      · rw [reTop_plug, plug_top, h2, append_assoc, cons_append]; rfl
      · have h3 : d.top.2.2 = m.append (e.cons a) := h3
        rw [plug_top d, h3, reTop_plug, append_assoc, cons_append]; rfl
      · rw [reTop_plug, reTop_plug, append_assoc, cons_append]; rfl
  | within b n as ws c cws a ih =>
    have hc := h
    rw [plug_top (.within b n as ws c cws a), plug_top d] at h
    rcases split_elems h with ⟨h1, h2, h3⟩ | ⟨h1, m, h2, h3⟩ | ⟨h1, m, h2, h3⟩
    · cases d with
      | here b2 a2 =>
        refine absurd ?_ ha.2
        have h1 : b = b2 := h1
        simp [Ctx.addr, h1]
      | within b2 n2 as2 ws2 d cws2 a2 =>
        simp only [Ctx.top] at h1 h3
        simp only [Ctx.top, El.mk.injEq, Option.some.injEq, Prod.mk.injEq] at h2
        obtain ⟨rfl, rfl, rfl, h2, rfl⟩ := h2
        subst h1 h3
        have ha' : Apart c.addr d.addr := by
          obtain ⟨p, q⟩ := ha
          simp only [Ctx.addr, List.cons_prefix_cons, true_and] at p q
          exact ⟨p, q⟩
        obtain ⟨c', d', g1, g2, g3, g4, g5, g6, g7⟩ := ih h2 ha'
        refine ⟨.within b n as ws c' cws a, .within b n as ws d' cws a, by simp [Ctx.addr, g1], by simp [Ctx.addr, g2], ?_, ?_, ?_, ?_, ?_⟩
        · intro ps y hL
          cases ps with
          | nil => exact hL
          | cons p ps =>
            cases ps with
            | nil => simp [Leads] at hL
            | cons => exact ⟨hL.1, hL.2.1, g3 _ _ hL.2.2⟩
        · intro ps y hL
          cases ps with
          | nil => exact hL
          | cons p ps =>
            cases ps with
            | nil => simp [Leads] at hL
            | cons => exact ⟨hL.1, hL.2.1, g4 _ _ hL.2.2⟩
        · simp [Ctx.plug, g5]
        · simp [Ctx.plug, g6]
        · simp [Ctx.plug, g7]
    · refine ⟨(Ctx.within b n as ws c cws a).reTop b (m.append ((d.top.2.1 x').cons d.top.2.2)),
        d.reTop (b.append (((Ctx.within b n as ws c cws a).top.2.1 e').cons m)) d.top.2.2, reTop_addr _ _ _ rfl, reTop_addr _ _ _ ?_, ?_, ?_, ?_, ?_, ?_⟩
      · rw [h2, append_elems, append_elems, cons_elems, cons_elems]; simp [Ctx.top]
      · exact fun ps n hL => reTop_leads _ _ _ (fun _ => rfl) hL
      · exact fun ps n hL => reTop_leads _ _ _ (fun n => by rw [h2]; exact named_swap (b := b) (top_name (.within b _ as ws c cws a) he) n) hL
      · have h3 : a = m.append ((d.top.2.1 x).cons d.top.2.2) := h3
        rw [reTop_plug, plug_top, append_assoc, cons_append]
        show b.append (El.cons _ a) = _
        rw [h3]
      · rw [plug_top d, h2, reTop_plug, append_assoc, cons_append]; rfl
      · rw [reTop_plug, reTop_plug, append_assoc, cons_append]
    · refine ⟨(Ctx.within b n as ws c cws a).reTop (d.top.1.append ((d.top.2.1 x').cons m)) a,
        d.reTop d.top.1 (m.append (((Ctx.within b n as ws c cws a).top.2.1 e').cons a)), reTop_addr _ _ _ ?_, reTop_addr _ _ _ rfl, ?_, ?_, ?_, ?_, ?_⟩
      · rw [h2, append_elems, append_elems, cons_elems, cons_elems]; simp
      · exact fun ps n hL => reTop_leads _ _ _ (fun n => by rw [h2]; exact named_swap (top_name d hx) n) hL
      · exact fun ps n hL => reTop_leads _ _ _ (fun _ => rfl) hL
      · rw [reTop_plug, plug_top, h2, append_assoc, cons_append]; rfl
      · have h3 : d.top.2.2 = m.append (((Ctx.within b n as ws c cws a).top.2.1 e).cons a) := h3
        rw [plug_top d, h3, reTop_plug, append_assoc, cons_append]
      · rw [reTop_plug, reTop_plug, append_assoc, cons_append]

/-- There is one place of each number. -/
theorem addr_unique {c d : Ctx} {e x : El} (h : c.plug (e.cons .nil) = d.plug (x.cons .nil)) (ha : c.addr = d.addr) : c = d ∧ e = x := by
  induction c generalizing d with
  | here b a =>
    cases d with
    | here b' a' =>
      rw [plug_top, plug_top] at h
      simp only [Ctx.addr, List.cons.injEq, and_true] at ha
      simp only [Ctx.top, id] at h
      rcases split_elems h with ⟨rfl, rfl, rfl⟩ | ⟨h1, -⟩ | ⟨h1, -⟩
      · exact ⟨rfl, rfl⟩
      · omega
      · omega
    | within b' n as ws d cws a' => cases d <;> simp [Ctx.addr] at ha
  | within b n as ws c cws a ih =>
    cases d with
    | here b' a' => cases c <;> simp [Ctx.addr] at ha
    | within b' n' as' ws' d cws' a' =>
      rw [plug_top, plug_top] at h
      simp only [Ctx.addr, List.cons.injEq] at ha
      simp only [Ctx.top] at h
      rcases split_elems h with ⟨rfl, h2, rfl⟩ | ⟨h1, -⟩ | ⟨h1, -⟩
      · simp only [El.mk.injEq, Option.some.injEq, Prod.mk.injEq] at h2
        obtain ⟨rfl, rfl, rfl, h2, rfl⟩ := h2
        obtain ⟨rfl, rfl⟩ := ih h2 ha.2
        exact ⟨rfl, rfl⟩
      · omega
      · omega

end Verif
