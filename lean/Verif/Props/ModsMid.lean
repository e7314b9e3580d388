import Verif.Lemmas.ModsMid
import Verif.Props.AstrayOpt
import Verif.Props.Mods
import Verif.Props.SenseBy
/- Modifiers in the middle of a path: C52. -/
namespace Verif.Props
open Spec

theorem sameButMods_nil {opt : Bool} {b : Prev} {ss ss' : List Bytes} (h : SameButMods opt b ss ss') : ss = [] ↔ ss' = [] := by cases h <;> simp

/-- C52: in any document, modifiers on a step with more steps after it are not looked at, unless the step stands after something that makes a list: two paths that differ only in
such modifiers give the same answer, whatever the modifiers are. -/
theorem C52_middle (env : Env) (xml path path' : Bytes) (ss ss' : List Bytes) (h : PathSteps path ss) (h' : PathSteps path' ss') (hs : SameButMods false .plain ss ss') :
    get env xml path = get env xml path' := by
  by_cases h0 : ss = []
  · have h0' := (sameButMods_nil hs).mp h0
    subst h0; subst h0'
    rw [(C62_nothing env xml path none (.inr h)).1, (C62_nothing env xml path' none (.inr h')).1]
  · obtain ⟨segs, h2, e⟩ := get_steps_eq (env := env) (xml := xml) h h0
    obtain ⟨segs', h2', e'⟩ := get_steps_eq (env := env) (xml := xml) h' (fun e => h0 ((sameButMods_nil hs).mpr e))
    have := segSame_fuse _ (Nat.le_refl _) (segSame_of hs h2 h2')
    rw [e, e', executeQuery, executeQuery, execQ_unseen _ (Nat.le_refl _) this]

/-- C52: the same with options. With options that are not the default ones there are more modifiers that are not looked at: those on names, positions, wildcards and counts at the
end of the path too, and those on attributes and texts, unless these stand after a filter or after something that makes a list. -/
theorem C52_middle_options (env : Env) (opts : Options) (xml path path' : Bytes) (ss ss' : List Bytes) (h : PathSteps path ss) (h' : PathSteps path' ss')
    (hs : SameButMods (decide (opts ≠ defaultOptions)) .plain ss ss') :
    getWithOptions env xml path (some opts) = getWithOptions env xml path' (some opts) := by
  by_cases h0 : ss = []
  · have h0' := (sameButMods_nil hs).mp h0
    subst h0; subst h0'
    rw [(C62_nothing env xml path _ (.inr h)).2, (C62_nothing env xml path' _ (.inr h')).2]
  · by_cases hd : opts = defaultOptions
    · have e : decide (opts ≠ defaultOptions) = false := by simpa using hd
      rw [e] at hs
      have hd' : isDefaultOptions (some opts) = true := by rw [hd]; decide
      rw [getOpt_default hd', getOpt_default hd', C52_middle env xml path path' ss ss' h h' hs]
    · have e : decide (opts ≠ defaultOptions) = true := by simpa using hd
      rw [e] at hs
      obtain ⟨segs, h2, e⟩ := getOpt_steps_eq (env := env) (xml := xml) h h0 (notDefault hd)
      obtain ⟨segs', h2', e'⟩ := getOpt_steps_eq (env := env) (xml := xml) h' (fun e => h0 ((sameButMods_nil hs).mpr e)) (notDefault hd)
      have := segSame_low (some opts |>.getD defaultOptions).caseSensitive (segSame_fuse _ (Nat.le_refl _) (segSame_of hs h2 h2'))
      rw [e, e', execQ_unseenO _ (Nat.le_refl _) this]

/-! ### examples -/

/-- In every document, `r.a|@bang|@none.0.b` is `r.a.0.b`, although there is no modifier `@none`. -/
example (xml : Bytes) : get exModEnv xml b!"r.a|@bang|@none.0|@bang.b" = get exModEnv xml b!"r.a.0.b" :=
  C52_middle exModEnv xml _ _ [b!"r", b!"a|@bang|@none", b!"0|@bang", b!"b"] [b!"r", b!"a", b!"0", b!"b"] (pathSteps_by (by decide) (by decide) (by decide +kernel) (by decide +kernel))
    (pathSteps_by (by decide) (by decide) (by decide +kernel) (by decide +kernel))
    (.same (.other (by unfold Ignored MoveStep AttrStep NameStep Position WildStep; decide) (by decide) (.other (by unfold Ignored MoveStep AttrStep NameStep Position WildStep; decide) (by decide) (.same (.nil _)))))

/-- With options that ignore the case, `r.a|@bang` is `r.a` in every document. -/
example (xml : Bytes) : getWithOptions exModEnv xml b!"r.a|@bang" (some ciOpts) = getWithOptions exModEnv xml b!"r.a" (some ciOpts) :=
  C52_middle_options exModEnv ciOpts xml _ _ [b!"r", b!"a|@bang"] [b!"r", b!"a"] (pathSteps_by (by decide) (by decide) (by decide +kernel) (by decide +kernel))
    (pathSteps_by (by decide) (by decide) (by decide +kernel) (by decide +kernel))
    (.same (.other (by unfold Ignored MoveStep AttrStep NameStep Position WildStep; decide) (by decide) (.nil _)))

/-- C52: in the middle of a path modifiers are looked at only after something that makes a list (then they are applied to the list that the whole rest of the path gives); and what
the modifiers at the end do without options and with them. -/
theorem C52_middle_cases : get exModEnv b!"<r><a><b>1</b></a><c><b>3</b></c></r>" b!"r.a|@bang|@none.b" = .ret (.ofContent b!"1") ∧
    get exModEnv b!"<r><a><b>1</b></a><c><b>3</b></c></r>" b!"r.*.b|@last.%" = .ret (.ofText b!"3") ∧
    (∃ x y, get exModEnv b!"<r><a><b>1</b></a><c><b>3</b></c></r>" b!"r.*.b.%" = .ret (.ofArray [x, y])) ∧
    get exModEnv b!"<r><a><b>1</b></a><c><b>3</b></c></r>" b!"r.a.b|@bang" = .ret (.ofAttr b!"1!") ∧
    getWithOptions exModEnv b!"<r><a><b>1</b></a><c><b>3</b></c></r>" b!"r.a.b|@bang" (some ciOpts) = .ret (.ofContent b!"1") ∧
    getWithOptions exModEnv b!"<r><a><b>1</b></a><c><b>3</b></c></r>" b!"r.c.#(b==3)|@bang" (some ciOpts) = .ret (.ofAttr b!"3!") := by
  refine ⟨by decide +kernel, by decide +kernel, ⟨.ofText b!"1", .ofText b!"3", by decide +kernel⟩, by decide +kernel, by decide +kernel, by decide +kernel⟩

end Verif.Props
