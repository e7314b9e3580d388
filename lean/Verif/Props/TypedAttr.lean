import Verif.Props.TypedAny
import Verif.Props.FirstAttr
/- C50 at attributes of elements that Set creates. -/
namespace Verif.Props
open Verif Spec

/-- C50: A scalar written to an attribute of an element that is created is read back by the first result. (Set fails if the document with the empty elements is too large.) -/
theorem C50_any_attribute_create (env : Env) (ho : env.ord.IsPerm) (opts : Options) (hi : c!"<" ∉ opts.indent) {c : Ctx} {e : El} (h : Editable (c.plug (e.cons .nil))) {p q : Bytes} {ss ps rest : List Bytes} {k : Bytes}
    (hk : IsName k) (hp : PathSteps p (ss ++ [c!"@" :: k])) (hq : PathSteps q ss) (hbar : c!"|" ∉ p) (ha : Ahead ss) (hd : Deepest opts.caseSensitive ss ps rest c e) (hn : ∀ x ∈ rest, IsName x)
    (hdep : c.depth + 1 + rest.length ≤ 100) (hu : opts.caseSensitive = false → (c.plug (e.cons .nil)).info.CaseUnique) {v : GoVal} (hv : Scalar v) :
    ∃ x er, setWithOptions env.ord (c.plug (e.cons .nil)).render p v (some opts) = .ret (x, er) ∧
      (er = none → x.length ≤ 10485760 → ∃ a r, getWithOptions env x p (some opts) = .ret a ∧ a.array.head? = some r ∧ r.typ = .attribute ∧ ReadsBack env v r) ∧
      (er ≠ none → x = (c.plug (e.cons .nil)).render ∧ ∃ y, setWithOptions env.ord (c.plug (e.cons .nil)).render q (.str []) (some opts) = .ret (y, none) ∧ 10485760 < y.length) := by
  obtain ⟨w, h1, h2, h3, h4, h5⟩ := scalar_text hv
  obtain ⟨x, er, g1, g2, g3⟩ := C89_attribute_create env ho opts hi h hk hp hq hbar ha hd hn hdep hu h2 h1 (by omega)
  refine ⟨x, er, g1, fun he hx => ?_, g3⟩
  obtain ⟨a, k1, k2⟩ := g2 he hx
  exact ⟨a, _, k1, k2, rfl, h5 env _ (.inr (.inr rfl)) rfl⟩

/-- C50: the same where no root element has the first name of the path. -/
theorem C50_any_attribute_top (env : Env) (ho : env.ord.IsPerm) (opts : Options) (hi : c!"<" ∉ opts.indent) {f : Forest} (h : Editable f) {p q : Bytes} {x : Bytes} {rest : List Bytes} {k : Bytes}
    (hk : IsName k) (hp : PathSteps p (x :: rest ++ [c!"@" :: k])) (hq : PathSteps q (x :: rest)) (hbar : c!"|" ∉ p) (hno : LeadNowhere opts.caseSensitive [x] f) (hn : ∀ y ∈ x :: rest, IsName y)
    (hdep : (x :: rest).length ≤ 100) (hu : opts.caseSensitive = false → f.info.CaseUnique) {v : GoVal} (hv : Scalar v) :
    ∃ d er, setWithOptions env.ord f.render p v (some opts) = .ret (d, er) ∧
      (er = none → d.length ≤ 10485760 → ∃ a r, getWithOptions env d p (some opts) = .ret a ∧ a.array.head? = some r ∧ r.typ = .attribute ∧ ReadsBack env v r) ∧
      (er ≠ none → d = f.render ∧ ∃ y, setWithOptions env.ord f.render q (.str []) (some opts) = .ret (y, none) ∧ 10485760 < y.length) := by
  obtain ⟨w, h1, h2, h3, h4, h5⟩ := scalar_text hv
  obtain ⟨d, er, g1, g2, g3⟩ := C89_attribute_top env ho opts hi h hk hp hq hbar hno hn hdep hu h2 h1 (by omega)
  refine ⟨d, er, g1, fun he hx => ?_, g3⟩
  obtain ⟨a, k1, k2⟩ := g2 he hx
  exact ⟨a, _, k1, k2, rfl, h5 env _ (.inr (.inr rfl)) rfl⟩

/-- C50: `x.y.@k` with an integer in `<r><a/></r>`, and `*.a.1.p.@K` on lines and without regard to case. -/
theorem C50_any_attribute_witness :
    setWithOptions exEnv.ord b!"<r><a/></r>" b!"x.y.@k" (.int (-7)) (some defaultOptions) = .ret (b!"<r><a/></r><x><y k=\"-7\"></y></x>", none) ∧
    getWithOptions exEnv b!"<r><a/></r><x><y k=\"-7\"></y></x>" b!"x.y.@k" (some defaultOptions) = .ret (.ofAttr b!"-7") ∧ (Result.ofAttr b!"-7").toInt = -7 ∧
    setWithOptions exEnv.ord b!"<r><a/><a/></r>" b!"*.a.1.p.@K" (.bool true) (some inOpts) = .ret (b!"<r><a/><a>\n<p k=\"true\"></p></a></r>", none) ∧
    getWithOptions exEnv b!"<r><a/><a>\n<p k=\"true\"></p></a></r>" b!"*.a.1.p.@K" (some inOpts) = .ret (.ofAttr b!"true") := by
  refine ⟨?_, ?_, ?_, ?_, ?_⟩ <;> decide +kernel

/-- the first of these from the theorem -/
example (env : Env) (ho : env.ord.IsPerm) : ∃ d er, setWithOptions env.ord b!"<r><a/></r>" b!"x.y.@k" (.int (-7)) (some defaultOptions) = .ret (d, er) ∧
    (er = none → d.length ≤ 10485760 → ∃ a r, getWithOptions env d b!"x.y.@k" (some defaultOptions) = .ret a ∧ a.array.head? = some r ∧ r.typ = .attribute ∧ r.toInt = -7) := by
  obtain ⟨d, er, h1, h2, -⟩ := C50_any_attribute_top env ho defaultOptions (by decide) (f := .node b!"r" [] [] (.leaf b!"a" [] [] .nil) [] .nil) (editable_of (by decide +kernel)) (x := b!"x") (rest := [b!"y"]) (p := b!"x.y.@k") (q := b!"x.y")
    (k := b!"k") (isName_of (by decide) (by decide)) (pathSteps_by (by decide) (by decide) (by decide +kernel) (by decide +kernel)) (pathSteps_by (by decide) (by decide) (by decide +kernel) (by decide +kernel)) (by decide)
    (nowhere_spot (hs := [(.name b!"x", 0)]) (.first (t := some []) (.name (name_step (by decide))) (by simp) .nil) (by decide +kernel))
    (by intro x hx; simp at hx; rcases hx with rfl | rfl <;> exact isName_of (by decide) (by decide)) (by decide) (fun h => by cases h) (.int (-7) (by decide) (by decide))
  exact ⟨d, er, h1, h2⟩

end Verif.Props
