import Verif.Spec.Edit
/-
Where the library takes an element to be. It reads the content of an element as it would write it, so below the top level the
places it writes to are those of the rewritten tags, counted in the document as it is.
-/
namespace Verif.Spec

/-- A valid document of the query class; nothing is asked of its layout. -/
def Sound (f : Forest) : Prop := f.render.length ≤ 10485760 ∧ f.Legal 0 ∧ f.Tame true ∧ f.HasElem

/-- The element as the library writes it. -/
def El.redo (e : El) : El := ⟨e.name, redoAttrs e.attrs, [], e.body.map (fun q => (q.1.redo, []))⟩

/-- The surroundings as the library writes them. -/
def Ctx.redo : Ctx → Ctx
  | .here b a => .here b.redo a.redo
  | .within b n as _ c _ a => .within b.redo n (redoAttrs as) [] c.redo [] a.redo

/-- The surroundings as the library sees them: the top level as written, everything below as it would write it. -/
def Ctx.seen : Ctx → Ctx
  | .here b a => .here b a
  | .within b n as ws c cws a => .within b n as ws c.redo cws a

/-- Likewise the element in this place. -/
def Ctx.seenEl : Ctx → El → El
  | .here _ _, e => e
  | .within _ _ _ _ _ _ _, e => e.redo

/-- White space in the end tag. -/
def El.endWs (e : El) : Bytes := match e.body with | none => [] | some (_, cws) => cws

/-- Where the library takes the element to begin. -/
def Ctx.placeOf (c : Ctx) : Nat := c.seen.before.length

/-- The document with `mid` instead of the bytes from `i` to `j`. -/
def replaced (d : Bytes) (i j : Nat) (mid : Bytes) : Bytes := d.take i ++ mid ++ d.drop j

end Verif.Spec
