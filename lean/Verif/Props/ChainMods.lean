import Verif.Props.Chain
import Verif.Props.Mods
/- Modifiers at the end of paths on a result (C60, continued). -/
namespace Verif.Props
open Verif Verif.Spec

theorem wrapMoves_single {ms : List Move} (h : ∀ m ∈ ms.dropLast, m.single = true) : ∀ m ∈ (wrapMoves ms).dropLast, m.single = true := by
  have plain : ∀ m ∈ (Move.name wrapName :: ms).dropLast, m.single = true := by
    cases ms with
    | nil => simp
    | cons m ms => rw [List.dropLast_cons_of_ne_nil (by simp)]; intro x hx; exact (List.mem_cons.mp hx).elim (fun e => e ▸ rfl) (h x)
  cases ms with
  | nil => exact plain
  | cons m ms =>
    have same : ∀ m', (m.single = true → m'.single = true) → ∀ x ∈ (m' :: ms).dropLast, x.single = true := by
      intro m' hm
      cases ms with
      | nil => simp
      | cons y ms =>
        rw [List.dropLast_cons_of_ne_nil (by simp)] at h ⊢
        intro x hx
        rcases List.mem_cons.mp hx with rfl | hx
        · exact hm (h _ (by simp))
        · exact h x (by simp [hx])
    cases m with
    | sat n p => cases n with
      | none => exact same _ (fun _ => rfl)
      | some n => exact plain
    | satAll n p => cases n with
      | none => exact same _ (fun h => by cases h)
      | some n => exact plain
    | _ => exact plain

theorem wrapMoves_deep {ms : List Move} (h : ∀ n, Move.deep n ∉ ms) : ∀ n, Move.deep n ∉ wrapMoves ms := by
  have plain : ∀ n, Move.deep n ∉ (Move.name wrapName :: ms) := fun n hn => (List.mem_cons.mp hn).elim (fun e => by cases e) (h n)
  cases ms with
  | nil => exact plain
  | cons m ms =>
    have tail : ∀ n, Move.deep n ∉ ms := fun n hn => h n (by simp [hn])
    cases m with
    | sat n p => cases n with
      | none => exact fun n hn => (List.mem_cons.mp hn).elim (fun e => by cases e) (tail n)
      | some n => exact plain
    | satAll n p => cases n with
      | none => exact fun n hn => (List.mem_cons.mp hn).elim (fun e => by cases e) (tail n)
      | some n => exact plain
    | _ => exact plain

theorem wrapMoves_applied {ms : List Move} {g : Goal} (hc : ms = [] → g ≠ .count) (hd : ∀ n, Move.deep n ∉ ms) : ¬ Forgets (wrapMoves ms) g := by
  rintro (⟨⟨n, j, h⟩, -⟩ | ⟨⟨n, h⟩, hg⟩ | ⟨⟨n, h⟩, -⟩)
  · unfold wrapMoves at h; split at h <;> cases h
  · unfold wrapMoves at h
    split at h <;> cases h
    exact hc rfl hg
  · exact wrapMoves_deep hd n (List.mem_of_getLast? h)

theorem withMods_ne {names ps : List Bytes} (h : ps ≠ []) : withMods names ps ≠ [] := by
  cases ps with
  | nil => exact absurd rfl h
  | cons p ps => cases ps <;> simp [withMods]

theorem withMods_cons {names : List Bytes} (p : Bytes) {ps : List Bytes} (h : ps ≠ []) : withMods names (p :: ps) = p :: withMods names ps := by
  cases ps with
  | nil => exact absurd rfl h
  | cons q ps => rfl

/-- C60: modifiers at the end of a path on an element, whatever its content is: the answer to the path put through the modifiers, as for `Get` (C52). -/
theorem C60_modifiers (env : Env) (ho : env.ord.IsPerm) (r : Result) (hr : r.typ = .element) {dp : Bool} {ps gs : List Bytes} {ms : List Move} {g : Goal}
    (hs : Spells env.parseFloat dp (.moves ps ms)) (hg : GoalText gs g) (hp : Proper ms) (hne : ps ++ gs ≠ []) (hl : (ps ++ gs).length ≤ 99)
    (h1 : ∀ m ∈ ms.dropLast, m.single = true) (hdeep : ∀ n, .deep n ∉ ms) (hf : ¬ Forgets ms g) (hc : ms = [] → g ≠ .count)
    {names : List Bytes} (hn : ∀ n ∈ names, ModName n) (hnl : names.length ≤ 20) (hk : Keeps env.mods names) :
    ∃ x out, r.get env (pathOf (ps ++ gs)) = .ret x ∧ r.get env (pathOf (withMods names (ps ++ gs))) = .ret out ∧
      (x.array = [] → out = x) ∧ (x.array ≠ [] → Pipeline env.mods x names out) := by
  rw [Result.get_element env _ hr, Result.get_element env _ hr]
  unfold getFromRaw
  split
  · rw [wrapped_path hne, wrapped_path (withMods_ne hne), ← withMods_cons _ hne]
    exact C52_apply env ho _ (ps := b!"_xmldot_root" :: ps) (wrapped_spells hs) hg (wrapMoves_proper hp) (by simp) (by simp at hl ⊢; omega) (wrapMoves_single h1) (wrapMoves_deep hdeep)
      (wrapMoves_applied hc hdeep) hn hnl hk
  · exact C52_apply env ho _ hs hg hp hne (by omega) h1 hdeep hf hn hnl hk

/-- C60: together with what the path means on the element. -/
theorem C60_modifiers_meaning (env : Env) (ho : env.ord.IsPerm) (r : Result) (nd : Node) (hr : IsElement r nd) (hcalm : nd.kids.Calm) (hx : r.raw.length + 29 ≤ 10485760)
    {dp : Bool} {ps gs : List Bytes} {ms : List Move} {g : Goal} (hs : Spells env.parseFloat dp (.moves ps ms)) (hg : GoalText gs g) (hp : Proper ms)
    (hne : ps ++ gs ≠ []) (hl : (ps ++ gs).length ≤ 99) (hd : dp = true → nd.kids.descendants.length < 9998) (ht : g = .fieldText → nd.kids.Quiet)
    (h1 : ∀ m ∈ ms.dropLast, m.single = true) (hdeep : ∀ n, .deep n ∉ ms) (hf : ¬ Forgets ms g) (hc : ms = [] → g ≠ .count)
    {names : List Bytes} (hn : ∀ n ∈ names, ModName n) (hnl : names.length ≤ 20) (hk : Keeps env.mods names) :
    ∃ x out, Gives x (chained nd ms g) ∧ r.get env (pathOf (withMods names (ps ++ gs))) = .ret out ∧
      (x.array = [] → out = x) ∧ (x.array ≠ [] → Pipeline env.mods x names out) := by
  obtain ⟨x, out, e1, e2, e3, e4⟩ := C60_modifiers env ho r hr.typ hs hg hp hne hl h1 hdeep hf hc hn hnl hk
  obtain ⟨x', e1', e5⟩ := C60_get env ho r nd hr hcalm hx hs hg hp hne hl hd ht
  rw [e1] at e1'
  cases e1'
  exact ⟨x, out, e5, e2, e3, e4⟩

/-- `<a>1</a><b>2</b>` asked for `*|@reverse|@first`. -/
example : ∃ x out, (Result.ofContent b!"<a>1</a><b>2</b>").get exModEnv b!"*" = .ret x ∧ (Result.ofContent b!"<a>1</a><b>2</b>").get exModEnv b!"*|@reverse|@first" = .ret out ∧
    (x.array = [] → out = x) ∧ (x.array ≠ [] → Pipeline exModEnv.mods x [b!"reverse", b!"first"] out) :=
  C60_modifiers exModEnv exEnv_perm _ rfl (dp := false) (ps := [b!"*"]) (gs := []) (.cons (ps := [b!"*"]) .any .nil) .elem trivial (by simp) (by simp) (by simp) (by simp) (by simp [Forgets]) (by simp)
    (names := [b!"reverse", b!"first"]) (fun n hn => by simp at hn; rcases hn with rfl | rfl <;> exact ⟨by decide, by decide⟩) (by simp) exModEnv_keeps

example : (Result.ofContent b!"<a>1</a><b>2</b>").get exModEnv b!"*|@reverse|@first" = .ret (.ofContent b!"2") ∧ (Result.ofContent b!"x<b>2</b><b>3</b>").get exModEnv b!"%|@bang" = .ret (.ofAttr b!"x!") := by
  decide +kernel

/-- C60: on an element with several children modifiers behind an index are applied, with one child they are not; behind `#` alone they are not. -/
theorem C60_modifiers_children :
    (Result.ofContent b!"<a>1</a><b>2</b>").get exModEnv b!"a.0|@bang" = .ret (.ofAttr b!"1!") ∧ (Result.ofContent b!"<a>1</a>").get exModEnv b!"a.0|@bang" = .ret (.ofContent b!"1") ∧
    (Result.ofContent b!"<a>1</a><b>2</b>").get exModEnv b!"a.#|@bang" = .ret (.ofAttr b!"1!") ∧ (Result.ofContent b!"<a>1</a>").get exModEnv b!"a.#|@bang" = .ret (.ofCount 1) ∧
    (Result.ofContent b!"<a>1</a><b>2</b>").get exModEnv b!"#|@bang" = .ret (.ofCount 1) := by decide +kernel

end Verif.Props
