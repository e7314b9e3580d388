import Verif.Model.Pretty
/- What `@pretty` does between the decoder and the encoder: C59. -/
namespace Verif.Spec

/-- Two attributes say the same: the same declaration of the default namespace or of a prefix, or two values for one name that is not a declaration. -/
inductive SameAttr : XAttr → XAttr → Prop
  | default (v : Bytes) : SameAttr ⟨⟨[], b!"xmlns"⟩, v⟩ ⟨⟨[], b!"xmlns"⟩, v⟩
  | prefixed (p v : Bytes) : SameAttr ⟨⟨b!"xmlns", p⟩, v⟩ ⟨⟨b!"xmlns", p⟩, v⟩
  | plain (n : XName) (h1 : n ≠ ⟨[], b!"xmlns"⟩) (h2 : n.space ≠ b!"xmlns") (v w : Bytes) : SameAttr ⟨n, v⟩ ⟨n, w⟩

/-- A local name without `:` and `=`, and a namespace without `=`. -/
def CleanAttr (a : XAttr) : Prop := c!":" ∉ a.name.loc ∧ c!"=" ∉ a.name.loc ∧ c!"=" ∉ a.name.space

/-- `out` is the second list without the members that are related to an earlier member, or to a member of the first list. -/
inductive Firsts {α : Type} (R : α → α → Prop) : List α → List α → List α → Prop
  | nil (e : List α) : Firsts R e [] []
  | keep (e : List α) (a : α) (as out : List α) (h : ∀ x ∈ e, ¬ R x a) (hs : Firsts R (e ++ [a]) as out) : Firsts R e (a :: as) (a :: out)
  | drop (e : List α) (a x : α) (as out : List α) (hx : x ∈ e) (h : R x a) (hs : Firsts R (e ++ [a]) as out) : Firsts R e (a :: as) out

/-- Two tokens differ at most in the namespaces of element names. -/
inductive SameToken : XToken → XToken → Prop
  | start (s1 s2 l : Bytes) (as : List XAttr) : SameToken (.start ⟨s1, l⟩ as) (.start ⟨s2, l⟩ as)
  | stop (s1 s2 l : Bytes) : SameToken (.stop ⟨s1, l⟩) (.stop ⟨s2, l⟩)
  | other (k : Nat) (d : Bytes) : SameToken (.other k d) (.other k d)

/-- What the encoder is told for a token: no namespace on element names, and the first of the attributes that say the same. -/
inductive Told : XToken → XToken → Prop
  | start (n : XName) (as out : List XAttr) (h : Firsts SameAttr [] as out) : Told (.start n as) (.start ⟨[], n.loc⟩ out)
  | stop (n : XName) : Told (.stop n) (.stop ⟨[], n.loc⟩)
  | other (k : Nat) (d : Bytes) : Told (.other k d) (.other k d)

/-- The encoder takes the tokens one after the other and its buffer is `out` at the end. -/
inductive Encodes (c : XmlCodec) : c.State → List XToken → Bytes → Prop
  | done (s : c.State) (out : Bytes) (h : c.flush s = some out) : Encodes c s [] out
  | token (s s' : c.State) (t : XToken) (ts : List XToken) (out : Bytes) (h : c.encode s t = some s') (hs : Encodes c s' ts out) : Encodes c s (t :: ts) out

/-- Every attribute of the token is clean. -/
def CleanToken : XToken → Prop
  | .start _ as => ∀ a ∈ as, CleanAttr a
  | _ => True

end Verif.Spec
