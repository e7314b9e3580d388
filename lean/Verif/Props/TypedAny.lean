import Verif.Props.First
import Verif.Props.Decimal
/- C50 at any path: what is written as an integer, a float or a boolean is read back as such by the first result. -/
namespace Verif
open Spec Props

/-- The result reads back the value, by the accessor for its kind. -/
def ReadsBack (env : Env) : GoVal → Result → Prop
  | .int i, r => r.toInt = i
  | .bool b, r => r.toBool = b
  | .float t, r => ∀ x, env.parseFloat t = some x → r.toFloat env.parseFloat = x
  | _, _ => False

/-- An integer of 64 bits, a boolean, or a float with the text that %g gives for it. -/
inductive Scalar : GoVal → Prop where
  | int (i : Int) (h1 : -(2 ^ 63) ≤ i) (h2 : i < 2 ^ 63) : Scalar (.int i)
  | bool (b : Bool) : Scalar (.bool b)
  | float (t : Bytes) (h : ∀ c ∈ t, c ∈ b!"0123456789+-.eEINafn") (hl : t.length ≤ 1000) : Scalar (.float t)

theorem float_dull {t : Bytes} (ht : ∀ c ∈ t, c ∈ b!"0123456789+-.eEINafn") : Dull t := by
  intro c hc
  have := ht c hc
  revert this
  have key : ∀ c ∈ b!"0123456789+-.eEINafn", 33 ≤ c ∧ c ≤ 122 ∧ c ≠ c!"<" ∧ c ≠ c!">" ∧ c ≠ c!"&" ∧ c ≠ c!"\"" ∧ c ≠ c!"'" := by decide
  exact key c

/-- The text a scalar is written as, and that whatever reads as this text reads back the scalar. -/
theorem scalar_text {v : GoVal} (h : Scalar v) : ∃ w, valueToXML v = some (escapeXML w) ∧ v ≠ .nil ∧ (escapeXML w).length ≤ 1000 ∧ trimSpace w = w ∧
    ∀ (env : Env) (r : Result), Props.IsText r → r.str = w → ReadsBack env v r := by
  have key : ∀ w, Dull w → valueToXML v = some w → v ≠ .nil → w.length ≤ 1000 → (∀ (env : Env) (r : Result), Props.IsText r → r.str = w → ReadsBack env v r) →
      ∃ w, valueToXML v = some (escapeXML w) ∧ v ≠ .nil ∧ (escapeXML w).length ≤ 1000 ∧ trimSpace w = w ∧
      ∀ (env : Env) (r : Result), Props.IsText r → r.str = w → ReadsBack env v r := fun w hd h1 h2 h3 h4 =>
    ⟨w, by rw [dull_escape hd]; exact h1, h2, by rw [dull_escape hd]; exact h3, dull_trim hd, h4⟩
  cases h with
  | int i h1 h2 =>
    refine key (intDec i) (intDec_dull i) (by simp [valueToXML]) (by simp) (Nat.le_trans (intDec_length i h1 h2) (by decide)) fun env r ht hr => ?_
    show r.toInt = i
    rw [(C37_int r ht).1 i (by rw [hr]; exact intDec_decimal i), if_pos ⟨h1, h2⟩]
  | bool b =>
    cases b with
    | true =>
      refine key b!"true" (by decide) rfl (by simp) (by decide) fun env r ht hr => ?_
      show r.toBool = true
      rw [C37_bool r ht, hr]; exact .inl rfl
    | false =>
      refine key b!"false" (by decide) rfl (by simp) (by decide) fun env r ht hr => ?_
      show r.toBool = false
      rw [Bool.eq_false_iff, Ne, C37_bool r ht, hr]; decide
  | float t h hl =>
    refine key t (float_dull h) rfl (by simp) hl fun env r ht hr => ?_
    intro x hx
    rw [(C37_float env.parseFloat r).1 ht, hr, hx]; rfl

end Verif

namespace Verif.Props
open Verif Spec

/-- C50: a scalar written at any path (C89) that leads to an element with a body is read back by the first result of the same path. -/
theorem C50_any_set (env : Env) (ho : env.ord.IsPerm) (opts : Options) {c : Ctx} {e : El} (h : Editable (c.plug (e.cons .nil))) (hb : e.body ≠ none) {p : Bytes} {ss : List Bytes} (hp : PathSteps p ss)
    (hbar : c!"|" ∉ p) (ha : Ahead ss) (hl : LeadTo opts.caseSensitive ss c e.name) {v : GoVal} (hv : Scalar v) :
    ∃ x, setWithOptions env.ord (c.plug (e.cons .nil)).render p v (some opts) = .ret (x, none) ∧
      (x.length ≤ 10485760 → ∃ a r, getWithOptions env x p (some opts) = .ret a ∧ a.array.head? = some r ∧ r.typ = .element ∧ ReadsBack env v r) := by
  obtain ⟨w, h1, h2, h3, h4, h5⟩ := scalar_text hv
  obtain ⟨x, g1, g2⟩ := C89_set env ho opts h hb hp hbar ha hl h2 h1 (by omega)
  refine ⟨x, g1, fun hx => ?_⟩
  obtain ⟨a, r, k1, k2, k3, k4⟩ := g2 hx
  exact ⟨a, r, k1, k2, k3, h5 env r (.inr (.inl k3)) (by rw [← str_of_element k3, k4, h4])⟩

/-- C50: so is one written into elements that are created, inside an element. -/
theorem C50_any_create (env : Env) (ho : env.ord.IsPerm) (opts : Options) (hi : c!"<" ∉ opts.indent) {c : Ctx} {e : El} (h : Editable (c.plug (e.cons .nil))) {p : Bytes} {ss ps rest : List Bytes} (hp : PathSteps p ss)
    (hbar : c!"|" ∉ p) (ha : Ahead ss) (hd : Deepest opts.caseSensitive ss ps rest c e) (hn : ∀ x ∈ rest, IsName x) (hdep : c.depth + 1 + rest.length ≤ 100) {v : GoVal} (hv : Scalar v) :
    ∃ x, setWithOptions env.ord (c.plug (e.cons .nil)).render p v (some opts) = .ret (x, none) ∧
      (x.length ≤ 10485760 → ∃ a r, getWithOptions env x p (some opts) = .ret a ∧ a.array.head? = some r ∧ r.typ = .element ∧ ReadsBack env v r) := by
  obtain ⟨w, h1, h2, h3, h4, h5⟩ := scalar_text hv
  obtain ⟨x, g1, g2⟩ := C89_create env ho opts hi h hp hbar ha hd hn hdep h2 h1 (by omega)
  refine ⟨x, g1, fun hx => ?_⟩
  obtain ⟨a, r, k1, k2, k3, k4⟩ := g2 hx
  exact ⟨a, r, k1, k2, k3, h5 env r (.inr (.inl k3)) (by rw [← str_of_element k3, k4, h4])⟩

/-- C50: or at the top level. -/
theorem C50_any_top (env : Env) (ho : env.ord.IsPerm) (opts : Options) (hi : c!"<" ∉ opts.indent) {f : Forest} (h : Editable f) {p : Bytes} {x : Bytes} {rest : List Bytes} (hp : PathSteps p (x :: rest))
    (hbar : c!"|" ∉ p) (hno : LeadNowhere opts.caseSensitive [x] f) (hn : ∀ y ∈ x :: rest, IsName y) (hdep : (x :: rest).length ≤ 100) {v : GoVal} (hv : Scalar v) :
    ∃ d, setWithOptions env.ord f.render p v (some opts) = .ret (d, none) ∧
      (d.length ≤ 10485760 → ∃ a r, getWithOptions env d p (some opts) = .ret a ∧ a.array.head? = some r ∧ r.typ = .element ∧ ReadsBack env v r) := by
  obtain ⟨w, h1, h2, h3, h4, h5⟩ := scalar_text hv
  obtain ⟨x, g1, g2⟩ := C89_create_top env ho opts hi h hp hbar hno hn hdep h2 h1 (by omega)
  refine ⟨x, g1, fun hx => ?_⟩
  obtain ⟨a, r, k1, k2, k3, k4⟩ := g2 hx
  exact ⟨a, r, k1, k2, k3, h5 env r (.inr (.inl k3)) (by rw [← str_of_element k3, k4, h4])⟩

/-- C50: so is one written to an attribute of an element at any path. -/
theorem C50_any_attribute (env : Env) (ho : env.ord.IsPerm) (opts : Options) {c : Ctx} {e : El} (h : Editable (c.plug (e.cons .nil))) {p : Bytes} {qs : List Bytes} {k : Bytes} (hk : IsName k) (hp : PathSteps p (qs ++ [c!"@" :: k]))
    (hbar : c!"|" ∉ p) (ha : Ahead qs) (hl : LeadTo opts.caseSensitive qs c e.name) (hu : opts.caseSensitive = false → (c.plug (e.cons .nil)).info.CaseUnique)
    (hroom : (∃ j, sameKey opts.caseSensitive j k ∧ Spec.attrVal e.attrs j ≠ none) ∨ e.attrs.length < 100) {v : GoVal} (hv : Scalar v) :
    ∃ x, setWithOptions env.ord (c.plug (e.cons .nil)).render p v (some opts) = .ret (x, none) ∧
      (x.length ≤ 10485760 → ∃ a r, getWithOptions env x p (some opts) = .ret a ∧ a.array.head? = some r ∧ r.typ = .attribute ∧ ReadsBack env v r) := by
  obtain ⟨w, h1, h2, h3, h4, h5⟩ := scalar_text hv
  obtain ⟨x, g1, g2⟩ := C89_attribute env ho opts h hk hp hbar ha hl hu hroom h2 h1 (by omega)
  refine ⟨x, g1, fun hx => ?_⟩
  obtain ⟨a, k1, k2⟩ := g2 hx
  exact ⟨a, _, k1, k2, rfl, h5 env _ (.inr (.inr rfl)) rfl⟩

/-- `*.a.1` with an integer. -/
example (env : Env) (ho : env.ord.IsPerm) : ∃ x, setWithOptions env.ord b!"<!--x--><r v='1' ><a k=\"&lt;\">x</a> <a><b>y</b></a><c j=\"1\"/></r>" b!"*.a.1" (.int (-(2 ^ 63))) (some defaultOptions) = .ret (x, none) ∧
    (x.length ≤ 10485760 → ∃ a r, getWithOptions env x b!"*.a.1" (some defaultOptions) = .ret a ∧ a.array.head? = some r ∧ r.typ = .element ∧ r.toInt = -(2 ^ 63)) := by
  have h := C50_any_set env ho defaultOptions exEdit (by decide) (p := b!"*.a.1") (pathSteps_by (by decide) (by decide) (by decide +kernel) (by decide +kernel)) (by decide) exStar_ahead
    ⟨_, exStar_trail, rfl, by decide +kernel, rfl, by decide +kernel⟩ (.int (-(2 ^ 63)) (by decide) (by decide))
  rw [exEdit_render] at h
  exact h

/-- `*.a.1.@K` with a boolean, without regard to case. -/
example (env : Env) (ho : env.ord.IsPerm) : ∃ x, setWithOptions env.ord b!"<!--x--><r v='1' ><a k=\"&lt;\">x</a> <a><b>y</b></a><c j=\"1\"/></r>" b!"*.a.1.@K" (.bool false) (some { defaultOptions with caseSensitive := false }) = .ret (x, none) ∧
    (x.length ≤ 10485760 → ∃ a r, getWithOptions env x b!"*.a.1.@K" (some { defaultOptions with caseSensitive := false }) = .ret a ∧ a.array.head? = some r ∧ r.typ = .attribute ∧ r.toBool = false) := by
  have h := C50_any_attribute env ho { defaultOptions with caseSensitive := false } exEdit (k := b!"K") (isName_of (by decide) (by decide)) (p := b!"*.a.1.@K") (qs := exStar)
    (pathSteps_by (by decide) (by decide) (by decide +kernel) (by decide +kernel)) (by decide) exStar_ahead
    ⟨_, exStar_trail, rfl, by decide +kernel, by decide +kernel, by decide +kernel⟩ (fun _ => exCase) (.inr (by decide)) (.bool false)
  rw [exEdit_render] at h
  exact h

end Verif.Props
