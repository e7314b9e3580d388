import Verif.Spec.Series
import Verif.Props.Keep
import Verif.Props.Attr
import Verif.Props.Dict
/- Lemmas for C88. -/
namespace Verif.Props
open Verif Verif.Spec

theorem append_open (f g : Forest) : RootsOpen (f.append g) ↔ RootsOpen f ∧ RootsOpen g := by
  induction f with
  | nil => simp [Forest.append, RootsOpen]
  | text b r ih => simpa [Forest.append, RootsOpen] using ih
  | misc m r ih => simpa [Forest.append, RootsOpen] using ih
  | leaf n as ws r ih => simp [Forest.append, RootsOpen]
  | node n as ws k cws r _ ih => simpa [Forest.append, RootsOpen] using ih

theorem plug_open {c : Ctx} {x y : Forest} (h : RootsOpen (c.plug x)) (hy : RootsOpen y ∨ 0 < c.depth) : RootsOpen (c.plug y) := by
  cases c with
  | here b a =>
    simp only [Ctx.plug, append_open, Ctx.depth, Nat.lt_irrefl, or_false] at h hy ⊢
    exact ⟨h.1, hy, h.2.2⟩
  | within b n as ws c cws a => simpa [Ctx.plug, append_open, RootsOpen] using h

theorem cons_open (e : El) : RootsOpen (e.cons .nil) ↔ e.body ≠ none := by
  obtain ⟨n, as, ws, body⟩ := e
  cases body <;> simp [El.cons, RootsOpen]

theorem open_inside {c : Ctx} {e : El} (h : RootsOpen (c.plug (e.cons .nil))) (hb : e.body = none) : 0 < c.depth := by
  cases c with
  | here b a =>
    simp only [Ctx.plug, append_open, cons_open] at h
    exact absurd hb h.2.1
  | within b n as ws c cws a => simp [Ctx.depth]

theorem chain_open {ns : List Bytes} (hne : ns ≠ []) (x : Forest) : RootsOpen (chain ns x) := by
  cases ns with
  | nil => exact absurd rfl hne
  | cons n ns => trivial

/-- The document stays in the layout as long as it has an element and is not too large, and its root elements are not self-closing. -/
def Kept (g : Forest) : Prop := Left g ∧ RootsOpen g

theorem left_mk {g : Forest} (he : g.HasElem) (h : g.render.length ≤ 10485760 → Editable g) : Left g := ⟨fun _ => h, fun hn => absurd he hn⟩

theorem tip_render (c : Ctx) (n w : Bytes) : (c.plug ((tip n w).cons .nil)).HasElem := plug_hasElem_of (cons_hasElem _ _)

theorem name_bar {k : Bytes} (hk : IsName k) : c!"|" ∉ k := by
  intro hh
  have := hk.2.1 _ hh
  revert this; decide

end Verif.Props
