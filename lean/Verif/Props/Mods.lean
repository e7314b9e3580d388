import Verif.Lemmas.Mods
import Verif.Props.Ask
import Verif.Props.Modifier
/- Modifiers at the end of whole paths: C52. -/
namespace Verif.Props
open Spec

theorem keeps_noLoss {env : Env} {names : List Bytes} (hl : names.length ≤ 20) (hk : Keeps env.mods names) : NoLoss env names := by
  intro r h1 h2 h3
  have := hk r _ h1 (fun x hx => by have := h2 x hx; simpa [Result.isArray, Result.exists?, Single] using this) (fun h => h3 (by simpa [Result.isArray] using h)) ((C35_chain env.mods r _ names hl).mp rfl)
  simpa [Result.exists?] using this

/-- C52: on any document, a path with at most 20 modifiers written on its last part answers with the answer of the path without them, put through the modifiers one
after the other; a missing answer and an empty list are returned as they are. All steps but the last lead to one element (names, indices, filters for the first match),
there is no `**`, the path is not one of `Forgets`, and the modifiers do not lose results. -/
theorem C52_apply (env : Env) (ho : env.ord.IsPerm) (xml : Bytes) {dp : Bool} {ps gs : List Bytes} {ms : List Move} {g : Goal}
    (hs : Spells env.parseFloat dp (.moves ps ms)) (hg : GoalText gs g) (hp : Proper ms) (hne : ps ++ gs ≠ []) (hl : (ps ++ gs).length ≤ 100)
    (h1 : ∀ m ∈ ms.dropLast, m.single = true) (hdeep : ∀ n, .deep n ∉ ms) (hf : ¬ Forgets ms g)
    {names : List Bytes} (hn : ∀ n ∈ names, ModName n) (hnl : names.length ≤ 20) (hk : Keeps env.mods names) :
    ∃ r out, get env xml (pathOf (ps ++ gs)) = .ret r ∧ get env xml (pathOf (withMods names (ps ++ gs))) = .ret out ∧
      (r.array = [] → out = r) ∧ (r.array ≠ [] → Pipeline env.mods r names out) := by
  obtain ⟨r, e1, e2⟩ := get_mods env ho hs hg hp hne hl h1 hdeep hf hn (keeps_noLoss hnl hk) xml
  refine ⟨r, _, e1, e2, fun h => if_pos h, fun h => ?_⟩
  rw [modOn_some h]
  exact (C35_chain env.mods r _ names hnl).mp rfl

/-- C52: together with the meaning of paths: on a document with the information `i`, the modifiers are applied to what the path means. -/
theorem C52_meaning (env : Env) (ho : env.ord.IsPerm) (xml : Bytes) (i : Info) (h : Says xml i) {dp : Bool} {ps gs : List Bytes} {ms : List Move} {g : Goal}
    (hs : Spells env.parseFloat dp (.moves ps ms)) (hg : GoalText gs g) (hp : Proper ms) (hne : ps ++ gs ≠ []) (hl : (ps ++ gs).length ≤ 100)
    (hd : dp = true → i.descendants.length < 9999) (ht : g = .fieldText → i.Quiet)
    (h1 : ∀ m ∈ ms.dropLast, m.single = true) (hdeep : ∀ n, .deep n ∉ ms) (hf : ¬ Forgets ms g)
    {names : List Bytes} (hn : ∀ n ∈ names, ModName n) (hnl : names.length ≤ 20) (hk : Keeps env.mods names) :
    ∃ r out, Gives r (ask ms g true i) ∧ get env xml (pathOf (withMods names (ps ++ gs))) = .ret out ∧
      (r.array = [] → out = r) ∧ (r.array ≠ [] → Pipeline env.mods r names out) := by
  obtain ⟨r, out, e1, e2, e3, e4⟩ := C52_apply env ho xml hs hg hp hne hl h1 hdeep hf hn hnl hk
  obtain ⟨r', e1', e5⟩ := C51_get env ho xml i h hs hg hp hne hl hd ht
  rw [e1] at e1'
  simp only [Outcome.ret.injEq] at e1'
  subst e1'
  exact ⟨r, out, e5, e2, e3, e4⟩

/-- C52: on an index, a count or a text of an indexed element right below the document, and at the end of a path whose last step is `**` with a name, the modifiers
have no effect, whatever they are - also if there is no such modifier. -/
theorem C52_forgotten (env : Env) (ho : env.ord.IsPerm) (xml : Bytes) {dp : Bool} {ps gs : List Bytes} {ms : List Move} {g : Goal}
    (hs : Spells env.parseFloat dp (.moves ps ms)) (hg : GoalText gs g) (hp : Proper ms) (hne : ps ++ gs ≠ []) (hl : (ps ++ gs).length ≤ 100)
    (hf : Forgets ms g) {names : List Bytes} (hn : ∀ n ∈ names, ModName n) :
    get env xml (pathOf (withMods names (ps ++ gs))) = get env xml (pathOf (ps ++ gs)) :=
  get_forgets env ho hs hg hp hne hl hf hn xml

/-! ### the built-in modifiers do not lose results -/

/-- What a query can find. -/
def Found (r : Result) : Prop := r.array ≠ [] ∧ (∀ x ∈ r.array, x.isArray = false ∧ x.exists? = true) ∧ (r.isArray = true → r.raw = [])

theorem found_list {l : List Result} (hne : l ≠ []) (h : ∀ x ∈ l, x.isArray = false ∧ x.exists? = true) : Found (.ofArray l) := ⟨hne, h, fun _ => rfl⟩

theorem found_one {r : Result} (h : r.isArray = false ∧ r.exists? = true) : Found r := by
  have e : r.array = [r] := by
    simp [Result.isArray, Result.exists?] at h
    simp [Result.array, h.1, h.2]
  exact ⟨by simp [e], by rw [e]; simpa using h, by simp [h.1]⟩

theorem found_exists {r : Result} (h : Found r) : r.exists? = true := by
  have := h.1
  simp only [Result.exists?, decide_eq_true_eq, ne_eq]
  intro e; exact this (null_array e)

theorem found_cases {r : Result} (h : Found r) : (r.typ = .array ∧ r.results ≠ [] ∧ ∀ x ∈ r.results, x.isArray = false ∧ x.exists? = true) ∨ r.typ ≠ .array := by
  by_cases ht : r.typ = .array
  · have e : r.array = r.results := by rw [Result.array, if_pos ht]
    have := h; unfold Found at this
    rw [e] at this
    exact .inl ⟨ht, this.1, this.2.1⟩
  · exact .inr ht

theorem keeps_of_each {mods : Bytes → Option (Result → Result)} {names : List Bytes} (h : ∀ n ∈ names, ∃ m, mods n = some m ∧ ∀ r, Found r → Found (m r)) : Keeps mods names := by
  intro r out h1 h2 h3 hp
  have hr : Found r := ⟨h1, h2, h3⟩
  clear h1 h2 h3
  induction hp with
  | done r => exact found_exists hr
  | unknown r n ns hm => obtain ⟨m, e, -⟩ := h n (by simp); rw [hm] at e; simp at e
  | stop r n ns m hm he =>
    obtain ⟨m', e, hk⟩ := h n (by simp)
    rw [hm] at e; simp at e; subst e
    rw [found_exists (hk r hr)] at he; simp at he
  | next r out n ns m hm he hp ih =>
    obtain ⟨m', e, hk⟩ := h n (by simp)
    rw [hm] at e; simp at e; subst e
    exact ih (fun x hx => h x (by simp [hx])) (hk r hr)

theorem builtin_found (srt : Sorter) (hsrt : ∀ less l, (srt less l).Perm l) (pf : Bytes → Option FVal) (pretty : Result → Result) (n : Bytes)
    (this : n ∈ [b!"reverse", b!"sort", b!"first", b!"last", b!"flatten", b!"ugly"]) : ∃ m, builtinMods srt pf pretty n = some m ∧ ∀ r, Found r → Found (m r) := by
  simp only [List.mem_cons, List.not_mem_nil, or_false] at this
  rcases this with rfl | rfl | rfl | rfl | rfl | rfl
  · refine ⟨reverseMod, rfl, fun r hr => ?_⟩
    rcases found_cases hr with ⟨h1, h2, h3⟩ | h1
    · rw [reverseMod, if_neg (by simp [h1, h2])]
      exact found_list (by simpa using h2) (by simpa using h3)
    · rw [reverseMod, if_pos (by simp [h1])]; exact hr
  · refine ⟨sortMod srt pf, rfl, fun r hr => ?_⟩
    unfold sortMod
    split
    · exact hr
    · rename_i hx
      rcases found_cases hr with ⟨h1, h2, h3⟩ | h1
      · have hp := hsrt (sortLess pf r.results) r.results
        exact found_list (fun e => h2 (by rw [e] at hp; exact hp.symm.eq_nil)) (fun x hx => h3 x (hp.mem_iff.mp hx))
      · simp [h1] at hx
  · refine ⟨firstMod, rfl, fun r hr => ?_⟩
    unfold firstMod
    rcases found_cases hr with ⟨h1, h2, h3⟩ | h1
    · rw [if_pos h1]
      cases e : r.results with
      | nil => exact absurd e h2
      | cons x l => exact found_one (h3 x (by simp [e]))
    · rw [if_neg h1]; exact hr
  · refine ⟨lastMod, rfl, fun r hr => ?_⟩
    unfold lastMod
    rcases found_cases hr with ⟨h1, h2, h3⟩ | h1
    · rw [if_pos h1]
      cases e : r.results.getLast? with
      | none => exact absurd (List.getLast?_eq_none_iff.mp e) h2
      | some x => exact found_one (h3 x (List.mem_of_getLast? e))
    · rw [if_neg h1]; exact hr
  · refine ⟨flattenMod, rfl, fun r hr => ?_⟩
    unfold flattenMod
    rcases found_cases hr with ⟨h1, h2, h3⟩ | h1
    · rw [if_neg (by simp [h1])]
      have e : (r.results.flatMap fun x => if x.typ = .array then x.results else [x]) = r.results := by
        have : ∀ l : List Result, (∀ x ∈ l, x.isArray = false) → (l.flatMap fun x => if x.typ = .array then x.results else [x]) = l := by
          intro l hl
          induction l with
          | nil => rfl
          | cons a l ih =>
            have ha := hl a (by simp)
            rw [List.flatMap_cons, ih (fun x hx => hl x (by simp [hx])), if_neg (by simpa [Result.isArray] using ha)]; rfl
        exact this _ (fun x hx => (h3 x hx).1)
      simp only [e]
      rw [if_neg (by simpa using h2)]
      exact found_list h2 h3
    · rw [if_pos h1]; exact hr
  · refine ⟨uglyMod, rfl, fun r hr => ?_⟩
    unfold uglyMod
    split
    · exact hr
    · rename_i hx
      rcases found_cases hr with ⟨h1, h2, h3⟩ | h1
      · have := hr.2.2 (by simp [Result.isArray, h1]); simp [this] at hx
      · exact found_one ⟨decide_eq_false h1, (show r.exists? = true from found_exists hr)⟩

/-- C52: `@reverse`, `@sort`, `@first`, `@last`, `@flatten` and `@ugly` do not lose results, alone or one after the other. -/
theorem C52_builtins_keep (srt : Sorter) (hsrt : ∀ less l, (srt less l).Perm l) (pf : Bytes → Option FVal) (pretty : Result → Result)
    {mods : Bytes → Option (Result → Result)} {names : List Bytes} (hm : ∀ n ∈ names, mods n = builtinMods srt pf pretty n)
    (h : ∀ n ∈ names, n ∈ [b!"reverse", b!"sort", b!"first", b!"last", b!"flatten", b!"ugly"]) : Keeps mods names := by
  exact keeps_of_each fun n hn => by rw [hm n hn]; exact builtin_found srt hsrt pf pretty n (h n hn)

/-! ### examples -/

/-- `exEnv` with the built-in modifiers and a modifier `@bang` of the user that adds a `!`. -/
def exModEnv : Env := { exEnv with mods := fun n => if n = b!"bang" then some (fun r => .ofAttr (r.str ++ b!"!")) else builtinMods (fun _ l => l) exEnv.parseFloat id n }

theorem exModEnv_keeps : Keeps exModEnv.mods [b!"reverse", b!"first"] := by
  refine C52_builtins_keep (fun _ l => l) (fun _ _ => .refl _) exEnv.parseFloat id (fun n hn => ?_) (by decide)
  simp only [List.mem_cons, List.not_mem_nil, or_false] at hn
  rcases hn with rfl | rfl <;> rfl

/-- `r.*|@reverse|@first`: the last child. -/
example : ∃ r out, get exModEnv exDoc.render b!"r.*" = .ret r ∧ get exModEnv exDoc.render b!"r.*|@reverse|@first" = .ret out ∧
    (r.array = [] → out = r) ∧ (r.array ≠ [] → Pipeline exModEnv.mods r [b!"reverse", b!"first"] out) := by
  have h : Spells exModEnv.parseFloat false (.moves [b!"r", b!"*"] [.name b!"r", .any]) := .cons (ps := [b!"r"]) (.name (plain_of (by decide))) (.cons (ps := [b!"*"]) .any .nil)
  exact C52_apply exModEnv exEnv_perm exDoc.render h .elem ⟨trivial, trivial⟩ (by simp) (by simp) (by simp [Move.single]) (by simp) (by simp [Forgets])
    (names := [b!"reverse", b!"first"]) (fun n hn => by simp at hn; rcases hn with rfl | rfl <;> exact ⟨by decide, by decide⟩) (by simp) exModEnv_keeps

example : get exModEnv b!"<r><a>1</a><b>2</b></r>" b!"r.*|@reverse|@first" = .ret (.ofContent b!"2") ∧
    get exModEnv b!"<r><a>1</a><b>2</b></r>" b!"r.a|@bang" = .ret (.ofAttr b!"1!") := by decide +kernel

/-- An index below the document: `a.1|@none` is `a.1`, although there is no modifier `@none`. -/
example (xml : Bytes) : get exModEnv xml b!"a.1|@none" = get exModEnv xml b!"a.1" := by
  have h : Spells exModEnv.parseFloat false (.moves [b!"a", b!"1"] [.nth b!"a" 1]) :=
    .cons (ps := [b!"a", b!"1"]) (.nth (plain_of (by decide)) (.digit c!"1" (by decide))) .nil
  exact C52_forgotten exModEnv exEnv_perm xml h .elem trivial (by simp) (by simp) (.inl ⟨⟨_, _, rfl⟩, .inl rfl⟩)
    (names := [b!"none"]) (fun n hn => by simp at hn; subst hn; exact ⟨by decide, by decide⟩)

/-- C52: a path and its modifiers where they are not applied: `a.0|@bang`, `a.#|@bang`, `**.a|@bang`, while `r.a.0|@bang` and `r.a|@bang` apply them. -/
theorem C52_forgotten_cases : get exModEnv b!"<a>1</a>" b!"a.0|@bang" = .ret (.ofContent b!"1") ∧ get exModEnv b!"<a>1</a>" b!"a.#|@bang" = .ret (.ofCount 1) ∧
    get exModEnv b!"<a>1</a>" b!"**.a|@bang" = .ret (.ofContent b!"1") ∧ get exModEnv b!"<r><a>1</a></r>" b!"r.a.0|@bang" = .ret (.ofAttr b!"1!") ∧
    get exModEnv b!"<a>1</a>" b!"a|@bang" = .ret (.ofAttr b!"1!") := by decide +kernel

/-- C52: on a step right after `*` or a filter for all matches the modifiers are applied twice: to what is found in each element, and to all of it together. -/
theorem C52_twice : get exModEnv b!"<r><a><b>1</b></a></r>" b!"r.*.b|@bang" = .ret (.ofAttr b!"1!!") ∧
    get exModEnv b!"<r><a><b>1</b></a></r>" b!"r.#(a)#.a|@bang" = .ret (.ofAttr b!"1!!") := by decide +kernel

/-- C52: two or more steps after `*` the modifiers are applied in each element, not to the list: `@first` keeps both results. -/
theorem C52_each : get exModEnv b!"<r><a><b><c>1</c></b></a><a><b><c>2</c></b></a></r>" b!"r.*.b.c|@first" = .ret (.ofArray [.ofContent b!"1", .ofContent b!"2"]) ∧
    get exModEnv b!"<r><a><c>1</c></a><a><c>2</c></a></r>" b!"r.*.c|@first" = .ret (.ofContent b!"1") := by decide +kernel

/-- C52: no modifier is applied to an empty list of fields, not even an unknown one. -/
theorem C52_no_fields : get exModEnv b!"<r><a>1</a></r>" b!"r.a.#.x|@none" = .ret (.ofArray []) ∧ get exModEnv b!"<r><a><x>1</x></a></r>" b!"r.a.#.x|@none" = .ret .null := by decide +kernel

end Verif.Props
