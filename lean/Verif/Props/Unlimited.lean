import Verif.Lemmas.Unlimited
import Verif.Props.Work
import Verif.Props.Query
import Verif.Props.Documented
/-
C86: two limits that are documented and never apply. docs/security.md says that Get ignores elements nested deeper than 100 (parser.go:14 MaxNestingDepth), and that a filter nested in more than
10 filters is not evaluated (filter.go MaxFilterDepth). The counter of the first is raised and lowered around a scan that does not call itself, so it is never above 1, and the counter of the second starts again at 0 with every filter.
-/
namespace Verif.Props
open Verif.Spec

/-- `Get("a")`, `k` more times, each on the result before. -/
def chase (env : Env) : Nat → Outcome Result → Outcome Result
  | 0, r => r
  | _ + 1, .panic => .panic
  | k + 1, .ret r => chase env k (r.get env b!"a")

theorem chase_null (env : Env) (k : Nat) : chase env k (.ret .null) = .ret .null := by
  induction k with
  | zero => rfl
  | succ k ih =>
    have : Result.null.get env b!"a" = .ret .null := rfl
    rw [chase, this, ih]

theorem chase_step (env : Env) (ho : env.ord.IsPerm) (k : Nat) : ∀ (n : Nat) (r : Result), n ≤ 1000000 → r.typ = .element → Writes r.raw (nested n).info →
    ∃ r', chase env k (.ret r) = .ret r' ∧ (k ≤ n → r'.typ = .element) ∧ (n < k → r' = .null) := by
  induction k with
  | zero => intro n r _ ht _; exact ⟨r, rfl, fun _ => ht, fun h => by omega⟩
  | succ k ih =>
    intro n r hn ht hw
    have := nested_step env ho hn ht hw
    cases n with
    | zero =>
      dsimp only at this
      rw [chase, this, chase_null]
      exact ⟨_, rfl, fun h => by omega, fun _ => rfl⟩
    | succ n =>
      obtain ⟨r1, h1, h2, h3⟩ := this
      obtain ⟨r', g1, g2, g3⟩ := ih n r1 (by omega) h2 h3
      rw [chase, h1]
      exact ⟨r', g1, fun h => g2 (by omega), fun h => g3 (by omega)⟩

/-- C86: from `n` elements inside each other, up to a million, `Get("a")` and then `k` times `Get("a")` on the result finds an element if `k < n` and Null otherwise. Nothing is cut off at 100. -/
theorem C86_depth (env : Env) (ho : env.ord.IsPerm) (n k : Nat) (hn : n ≤ 1000000) :
    ∃ r, chase env k (get env (nested n).render b!"a") = .ret r ∧ (k < n → r.typ = .element) ∧ (n ≤ k → r = .null) := by
  have hp : ∀ m ∈ ([] : List Bytes) ++ [b!"a"], PlainName m := by
    intro m hm
    rw [List.nil_append, List.mem_singleton] at hm
    exact hm ▸ a_plain
  have hs := nested_says hn
  have hg := C04_get_element env ho _ _ hs [] b!"a" hp (by decide)
  rw [show pathOf ([] ++ [b!"a"]) = b!"a" by decide] at hg
  cases n with
  | zero =>
    simp only [nested, Forest.info, Info.select, Info.reach, Info.named, Info.elems, List.flatMap_cons, List.flatMap_nil, List.filter_nil, List.append_nil, List.head?_nil] at hg
    have e : chase env k (get env (nested 0).render b!"a") = .ret .null := by
      rw [show (nested 0).render = Forest.nil.render from rfl, hg, chase_null]
    exact ⟨_, e, fun h => by omega, fun _ => rfl⟩
  | succ n =>
    have hm : nameMatches b!"a" b!"a" = true := by decide
    have e : ((nested (n + 1)).info.select [] b!"a").head? = some ⟨b!"a", attrVal [], (nested n).info⟩ := by
      simp [nested, Forest.info, Info.select, Info.reach, Info.named, Info.elems, hm]
    rw [e] at hg
    obtain ⟨r, h1, -⟩ := hg
    have hw := get_elementW env ho hs hp (by decide) e (by rw [show pathOf ([] ++ [b!"a"]) = b!"a" by decide]; exact h1)
    rw [h1]
    obtain ⟨r', g1, g2, g3⟩ := chase_step env ho k n r (by omega) hw.typ hw.raw
    exact ⟨r', g1, fun h => g2 (by omega), fun h => g3 (by omega)⟩

/-- C86: the path `#(#(…#(a)…))` of `k` filters in each other, as many as 86, finds something in `n` nested elements just when `k < n`. Filters in more than ten filters are evaluated as well. -/
theorem C86_filter (env : Env) (ho : env.ord.IsPerm) (n k : Nat) (hn : n ≤ 1000000) (hk : k ≤ 86) :
    ∃ r, get env (nested n).render (tested k) = .ret r ∧ r.exists? = decide (k < n) := by
  have hl : ¬ (nested n).render.length > maxDocumentSize := by rw [nested_length]; have : maxDocumentSize = 10485760 := rfl; omega
  have hr := says_reads ho (nested_says hn)
  cases k with
  | zero => exact ⟨_, by rw [get_ok tested_zero, if_neg hl], tested_name hr⟩
  | succ k =>
    refine ⟨_, by rw [get_ok (tested_parse k (by omega)), if_neg hl], tested_filter hr ?_⟩
    intro e d hw
    exact tested_eval ho _ k (by simp only [tested_length]; omega) (by omega) e d hw

theorem buried_length (n : Nat) (t : Bytes) : (buried n t).render.length = 7 * n + t.length := by
  induction n with
  | zero => simp [buried, Forest.render]
  | succ n ih => simp [buried, Forest.render, openTag, closeTag, ih]; omega

theorem buried_allText (n : Nat) (t : Bytes) : (buried n t).info.allText = t.filter (· ≠ c!">") := by
  induction n with
  | zero => simp [buried, Forest.info, Info.allText]
  | succ n ih => simp only [buried, Forest.info, Info.allText, ih, List.append_nil]

/-- C86: a text inside any number of elements is in the string of the outermost one. -/
theorem C86_text (env : Env) (ho : env.ord.IsPerm) (n : Nat) (hn : n < 1000000) :
    ∃ r, get env (buried (n + 1) b!"x").render b!"a" = .ret r ∧ r.toStr = b!"x" := by
  have hs : Says (buried (n + 1) b!"x").render (buried (n + 1) b!"x").info := by
    refine ⟨by rw [buried_length]; simp; omega, .done (buried (n + 1) b!"x"), ?_, ?_, rfl, rfl⟩
    · show (buried (n + 1) b!"x").Loose
      clear hn
      generalize n + 1 = m
      induction m with
      | zero => exact ⟨by decide, trivial⟩
      | succ n ih => exact ⟨by decide +kernel, by decide +kernel, by simp, ih, by decide +kernel, trivial⟩
    · show (buried (n + 1) b!"x").Tame true
      refine ⟨by decide, by decide, ?_, trivial⟩
      clear hn
      induction n with
      | zero => trivial
      | succ n ih => exact ⟨by decide, by decide, ih, trivial⟩
  have hg := C04_get_element env ho _ _ hs [] b!"a" (by
    intro m hm
    rw [List.nil_append, List.mem_singleton] at hm
    exact hm ▸ a_plain) (by decide)
  rw [show pathOf ([] ++ [b!"a"]) = b!"a" by decide] at hg
  have hm : nameMatches b!"a" b!"a" = true := by decide
  have e : ((buried (n + 1) b!"x").info.select [] b!"a").head? = some ⟨b!"a", attrVal [], (buried n b!"x").info⟩ := by
    simp [buried, Forest.info, Info.select, Info.reach, Info.named, Info.elems, hm]
  rw [e] at hg
  obtain ⟨r, h1, h2⟩ := hg
  refine ⟨r, h1, ?_⟩
  rw [h2.str, Info.textValue, buried_allText]
  decide +kernel

example : (nested 3).render = b!"<a><a><a></a></a></a>" ∧ tested 2 = b!"#(#(a))" ∧ (buried 2 b!"x").render = b!"<a><a>x</a></a>" := by decide

/-- C86: for instance 5000 levels, and 40 filters where ten are documented. -/
theorem C86_witness (env : Env) (ho : env.ord.IsPerm) :
    (∃ r, chase env 4999 (get env (nested 5000).render b!"a") = .ret r ∧ r.typ = .element) ∧ (∃ r, get env (nested 41).render (tested 40) = .ret r ∧ r.exists? = true) ∧
    ∃ r, get env (nested 40).render (tested 40) = .ret r ∧ r.exists? = false := by
  refine ⟨?_, ?_, ?_⟩
  · obtain ⟨r, h1, h2, -⟩ := C86_depth env ho 5000 4999 (by decide)
    exact ⟨r, h1, h2 (by decide)⟩
  · exact C86_filter env ho 41 40 (by decide) (by decide)
  · exact C86_filter env ho 40 40 (by decide) (by decide)

end Verif.Props
