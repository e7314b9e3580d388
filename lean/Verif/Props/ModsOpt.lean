import Verif.Lemmas.ModsOpt
import Verif.Props.ModsMid
/- Modifiers at the end of a path with options: C52. -/
namespace Verif.Props
open Spec

/-- C52: with options that are not the default ones, and where the modifiers at the end of the path are looked at, `GetWithOptions` applies them, in order, to the answer of the path
without them - in any document. -/
theorem C52_apply_options (env : Env) (opts : Options) (hd : opts ≠ defaultOptions) (xml path path' : Bytes) (ss names : List Bytes) (h : PathSteps path ss)
    (h' : PathSteps path' (withMods names ss)) (hb : ∀ p ∈ ss, c!"|" ∉ p) (ha : AppliedEnd .plain ss)
    (hn : ∀ n ∈ names, ModName n) (hnl : names.length ≤ 20) (hk : Spec.Keeps env.mods names) :
    ∃ r out, getWithOptions env xml path (some opts) = .ret r ∧ getWithOptions env xml path' (some opts) = .ret out ∧
      (r.array = [] → out = r) ∧ (r.array ≠ [] → Pipeline env.mods r names out) := by
  have h0 : ss ≠ [] := by cases ha <;> simp
  obtain ⟨segs, h2, e⟩ := getOpt_steps_eq (env := env) (xml := xml) h h0 (notDefault hd)
  obtain ⟨g1, g2⟩ := segs_mods h2 hb hn
  have h0' : withMods names ss ≠ [] := by
    intro e0
    rw [e0] at g1
    cases h2 with
    | nil => exact h0 rfl
    | @cons _ s _ l _ h2 =>
      cases hl : addMods names (s :: l) with
      | nil => cases l <;> cases hl
      | cons _ _ => rw [hl] at g1; cases g1
  obtain ⟨segs', h2', e'⟩ := getOpt_steps_eq (env := env) (xml := xml) h' h0' (notDefault hd)
  have hseg := all2_fun h2' g1
  subst hseg
  have key := execQ_modsO (env := env) (ev := evalFilter env) (cs := (some opts |>.getD defaultOptions).caseSensitive) (keeps_noLoss hnl hk) _ (Nat.le_refl _) (by simp)
    (hot_low (some opts |>.getD defaultOptions).caseSensitive (hot_of ha h2)) (lowAll_mods _ (fuse_mods g2)) true xml
  rw [fuse_addMods _ (Nat.le_refl _), addMods_low, key] at e'
  by_cases hx : xml.length > 10485760
  · rw [if_pos hx] at e e'
    exact ⟨_, _, e, e', fun _ => rfl, fun hh => absurd rfl hh⟩
  · rw [if_neg hx] at e e'
    refine ⟨_, _, e, e', fun hh => if_pos hh, fun hh => ?_⟩
    rw [modOn_some hh]
    exact (C35_chain env.mods _ _ names hnl).mp rfl

/-! ### examples -/

/-- With options that ignore the case, `R.*.ID|@reverse|@first` is `@first` of `@reverse` of `R.*.ID`. -/
example (xml : Bytes) : ∃ r out, getWithOptions exModEnv xml b!"R.*.ID" (some ciOpts) = .ret r ∧ getWithOptions exModEnv xml b!"R.*.ID|@reverse|@first" (some ciOpts) = .ret out ∧
    (r.array = [] → out = r) ∧ (r.array ≠ [] → Pipeline exModEnv.mods r [b!"reverse", b!"first"] out) :=
  C52_apply_options exModEnv ciOpts (by decide) xml _ _ [b!"R", b!"*", b!"ID"] [b!"reverse", b!"first"] (pathSteps_by (by decide) (by decide) (by decide +kernel) (by decide +kernel))
    (pathSteps_by (by decide) (by decide) (by decide +kernel) (by decide +kernel)) (by decide)
    (.move (by unfold MoveStep AttrStep; decide) (by decide) (by decide) (.move (by unfold MoveStep AttrStep; decide) (by decide) (fun _ => .inl rfl)
      (.last (.inr (.inr ⟨by unfold FilterStep; decide, by decide⟩)))))
    (fun n hn => by simp at hn; rcases hn with rfl | rfl <;> exact ⟨by decide, by decide⟩) (by simp) exModEnv_keeps

example : getWithOptions exModEnv b!"<r><a><id>1</id></a><b><Id>2</Id></b></r>" b!"R.*.ID|@reverse|@first" (some ciOpts) = .ret (.ofContent b!"2") := by
  decide +kernel

/-- C52: with options that ignore the case: modifiers on fields, on a filter, on an attribute after a filter and after `*` are applied - once, not twice as without options. -/
theorem C52_apply_options_cases :
    getWithOptions exModEnv b!"<r><a><k>1</k></a><a><k>2</k></a></r>" b!"R.A.#.k|@last" (some ciOpts) = .ret (.ofContent b!"2") ∧
    getWithOptions exModEnv b!"<r><a x='7'><k>1</k></a><a><k>2</k></a></r>" b!"R.A.#(k==1).@X|@bang" (some ciOpts) = .ret (.ofAttr b!"7!") ∧
    getWithOptions exModEnv b!"<r><a><k>1</k></a></r>" b!"R.*.K|@bang" (some ciOpts) = .ret (.ofAttr b!"1!") ∧
    get exModEnv b!"<r><a><k>1</k></a></r>" b!"r.*.k|@bang" = .ret (.ofAttr b!"1!!") := by decide +kernel

end Verif.Props
