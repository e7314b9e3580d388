import Verif.Lemmas.AskBy
import Verif.Props.Ask
import Verif.Props.Options
/- The meaning of whole paths under options: C55. -/
namespace Verif.Props
open Spec

/-- C55: whatever steps a path is made of and whatever it asks for at the end, `GetWithOptions` with options other than the default ones returns what the
path means under the options. (With the default options it is `Get`, C30 and C51.) If attributes are looked for up to case, no element has attributes that
differ only in case. -/
theorem C55_get (env : Env) (ho : env.ord.IsPerm) (xml : Bytes) (i : Info) (h : Says xml i) {dp : Bool} {ps gs : List Bytes} {ms : List Move} {g : Goal}
    (hs : Spells env.parseFloat dp (.moves ps ms)) (hg : GoalText gs g) (hp : Proper ms) (hne : ps ++ gs ≠ []) (hl : (ps ++ gs).length ≤ 100)
    (hd : dp = true → i.descendants.length < 9999) (ht : g = .fieldText → i.Quiet) (opts : Options) (hopts : opts ≠ defaultOptions)
    (hu : g.isAttr = true ∧ opts.caseSensitive = false → i.CaseUnique) :
    ∃ r, getWithOptions env xml (pathOf (ps ++ gs)) (some opts) = .ret r ∧ Gives r (askBy opts.caseSensitive ms g true i) :=
  getWithOptions_ask env ho hs hg hp hne hl h.1 (says_reads ho h) opts hopts ⟨⟨hd, ht⟩, hu⟩

/-- C55: the attribute found up to case, if there are no two of them. -/
theorem C55_attr (cs : Bool) (nd : Node) (hu : cs = false → ∀ x y v w, nd.attr x = some v → nd.attr y = some w → foldCase x = foldCase y → x = y) (a v : Bytes) :
    nd.attrBy cs a = some v ↔ ∃ j, (if cs then j = a else foldCase j = foldCase a) ∧ nd.attr j = some v := attrBy_some hu a v

/-! ### case-sensitive options and no options -/

theorem hitsBy_true (i : Info) (root : Bool) (n : Bytes) : i.hitsBy true root n = i.hits root n := rfl
theorem namedBy_true (i : Info) (n : Bytes) : i.namedBy true n = i.named n := rfl
theorem amongBy_true (i : Info) (n : Option Bytes) (p : Node → Bool) : i.amongBy true n p = i.among n p := by cases n <;> rfl

theorem nodesBy_true (root : Bool) (i : Info) (m : Move) : m.nodesBy true root i = m.nodes root i := by
  cases m with
  | name n => rfl
  | nth n j => rfl
  | sat n p => simp only [Move.nodesBy, Move.nodes, amongBy_true]
  | satAll n p => simp only [Move.nodesBy, Move.nodes, amongBy_true]
  | any => rfl
  | deep n => cases n <;> rfl

theorem itemsBy_true (nd : Node) (g : Goal) : g.itemsBy true nd = g.items nd := by
  cases g <;> simp [Goal.itemsBy, Goal.items, attrBy_true, sameKey]

theorem listedBy_true (nds : List Node) (g : Goal) : g.listedBy true nds = g.listed nds := by
  cases g <;> simp only [Goal.listedBy, Goal.listed, itemsBy_true]

theorem items_short {g : Goal} (hg : g.isField = false) (nd : Node) : (g.items nd).take 1000 = g.items nd := by
  cases g <;> simp [Goal.isField] at hg <;> simp [Goal.items]
  cases nd.attr _ <;> rfl

theorem lastBy_true {g : Goal} (hg : g.isField = false) (root : Bool) (i : Info) (m : Move) : m.lastBy true root i g = m.last root i g := by
  cases m with
  | name n => cases g <;> simp [Goal.isField] at hg <;> first | rfl | simp only [Move.lastBy, Move.last, itemsBy_true, hitsBy_true, namedBy_true, Goal.isField, Bool.false_eq_true, if_false]
  | deep n =>
    have : (Move.deep n).last root i g = pack (fill 1000 (((Move.deep n).nodes root i).map (fun nd => g.items nd))) := by
      have e : (Move.deep n).last root i g = pack (fill 1000 (((Move.deep n).nodes root i).map (fun nd => (g.items nd).take 1000))) := by cases g <;> rfl
      rw [e]; simp only [items_short hg]
    rw [this]
    cases g <;> simp [Goal.isField] at hg <;> simp [Move.lastBy, itemsBy_true, nodesBy_true, Goal.isField]
  | any =>
    have h2 : (Move.any.nodes root i).isEmpty = true → pack ((Move.any.nodes root i).flatMap (fun nd => g.items nd)) = .nothing := by
      intro h; rw [List.isEmpty_iff.mp h]; rfl
    cases g <;> simp [Goal.isField] at hg <;> simp only [Move.lastBy, Move.last, itemsBy_true, nodesBy_true, Goal.isField] <;> simp only [Bool.false_eq_true, if_false] <;>
      (split <;> first | exact h2 (by assumption) | rfl)
  | nth n j =>
    cases g <;> simp [Goal.isField] at hg <;> simp [Move.lastBy, Move.last, itemsBy_true, nodesBy_true, Goal.isField]
  | sat n p =>
    cases g <;> simp [Goal.isField] at hg <;> simp [Move.lastBy, Move.last, itemsBy_true, nodesBy_true, Goal.isField]
  | satAll n p =>
    cases g <;> simp [Goal.isField] at hg <;> simp [Move.lastBy, Move.last, nodesBy_true, Goal.isField, listedBy_true]

theorem pack_notEmptyList (xs : List Item) : (pack xs).isEmptyList = false := by
  match xs with
  | [] => rfl
  | [x] => rfl
  | x :: y :: r => rfl

theorem firstAnswer_notEmptyList {as : List Answer} (h : ∀ a ∈ as, a.isEmptyList = false) : (firstAnswer as).isEmptyList = false := by
  induction as with
  | nil => rfl
  | cons a as ih =>
    cases a with
    | nothing => exact ih (fun b hb => h b (by simp [hb]))
    | one x => rfl
    | many xs => exact h (.many xs) (by simp)

theorem join_notEmptyList {as : List Answer} (h : ∀ a ∈ as, a.isEmptyList = false) (m : Move) : (m.join as).isEmptyList = false ∧ m.joinBy as = m.join as := by
  have hany : as.any Answer.isEmptyList = false := by rw [List.any_eq_false]; intro a ha; rw [h a ha]; simp
  cases m with
  | name n => exact ⟨firstAnswer_notEmptyList h, rfl⟩
  | nth n j => exact ⟨firstAnswer_notEmptyList h, rfl⟩
  | sat n p => exact ⟨firstAnswer_notEmptyList h, rfl⟩
  | satAll n p => exact ⟨pack_notEmptyList _, rfl⟩
  | any => simp only [Move.join, Move.joinBy, hany, Bool.and_false, Bool.false_eq_true, if_false]; exact ⟨pack_notEmptyList _, trivial⟩
  | deep n => exact ⟨pack_notEmptyList _, rfl⟩

theorem last_notEmptyList {g : Goal} (hg : g.isField = false) (root : Bool) (i : Info) (m : Move) : (m.last root i g).isEmptyList = false := by
  have hl : ∀ nds : List Node, nds.isEmpty = false → (g.listed nds).isEmptyList = false := by
    intro nds hn
    cases g with
    | elem => cases nds with
      | nil => simp at hn
      | cons a l => rfl
    | _ => exact pack_notEmptyList _
  cases m with
  | name n =>
    cases g <;> simp [Goal.isField] at hg <;> simp only [Move.last, Goal.isField, Bool.false_eq_true, if_false] <;> first | exact pack_notEmptyList _ | (split <;> rfl)
  | deep n => cases g <;> exact pack_notEmptyList _
  | satAll n p =>
    have e : (Move.satAll n p).last root i g = if ((Move.satAll n p).nodes root i).isEmpty then .nothing else g.listed ((Move.satAll n p).nodes root i) := by
      cases g <;> simp [Goal.isField] at hg <;> rfl
    rw [e]
    split
    · rfl
    · rename_i h; exact hl _ (by simpa using h)
  | nth n j =>
    cases g <;> simp [Goal.isField] at hg <;> cases root <;> simp only [Move.last, Goal.isField, Bool.false_eq_true, if_false, if_true] <;> (split <;> first | rfl | exact pack_notEmptyList _)
  | sat n p => cases g <;> simp [Goal.isField] at hg <;> simp only [Move.last, Goal.isField, Bool.false_eq_true, if_false] <;> (split <;> first | rfl | exact pack_notEmptyList _)
  | any => cases g <;> simp [Goal.isField] at hg <;> simp only [Move.last, Goal.isField, Bool.false_eq_true, if_false] <;> (split <;> first | rfl | exact pack_notEmptyList _)

theorem ask_notEmptyList {g : Goal} (hg : g.isField = false) (ms : List Move) (root : Bool) (i : Info) :
    (ask ms g root i).isEmptyList = false ∧ askBy true ms g root i = ask ms g root i := by
  induction ms generalizing root i with
  | nil => simp only [ask, askBy, hg, Bool.false_eq_true, if_false]; exact ⟨rfl, trivial⟩
  | cons m ms ih =>
    cases ms with
    | nil => exact ⟨last_notEmptyList hg root i m, lastBy_true hg root i m⟩
    | cons n ms =>
      simp only [ask, askBy, nodesBy_true, (ih _ _).2]
      refine join_notEmptyList (fun a ha => ?_) m
      obtain ⟨nd, -, rfl⟩ := List.mem_map.mp ha
      exact (ih _ _).1

/-- C55: with CaseSensitive, and unless fields are asked for, a path means what it means without options. -/
theorem C55_same {g : Goal} (hg : g.isField = false) (ms : List Move) (i : Info) : askBy true ms g true i = ask ms g true i := (ask_notEmptyList hg ms true i).2

/-- C55: below `*` and `**` no fields are found, whatever the document contains: the answer is Null, also with CaseSensitive (while `Get` collects the fields of `**` and
gives an empty Array for `*`, C51). -/
theorem C55_fields_lost (env : Env) (ho : env.ord.IsPerm) (xml : Bytes) (i : Info) (h : Says xml i) {dp : Bool} {ps gs : List Bytes} {m : Move} {g : Goal}
    (hs : Spells env.parseFloat dp (.moves ps [m])) (hg : GoalText gs g) (hf : g.isField = true) (hm : m = .any ∨ ∃ n, m = .deep n) (hl : (ps ++ gs).length ≤ 100)
    (hd : dp = true → i.descendants.length < 9999) (ht : g = .fieldText → i.Quiet) (opts : Options) (hopts : opts ≠ defaultOptions)
    (hu : g.isAttr = true ∧ opts.caseSensitive = false → i.CaseUnique) : getWithOptions env xml (pathOf (ps ++ gs)) (some opts) = .ret .null := by
  obtain ⟨r, h1, h2⟩ := C55_get env ho xml i h hs hg (by cases m <;> trivial) (by cases hg <;> simp [Goal.isField] at hf ⊢) hl hd ht opts hopts hu
  have : askBy opts.caseSensitive [m] g true i = .nothing := by
    rcases hm with rfl | ⟨n, rfl⟩ <;> cases g <;> simp [Goal.isField] at hf <;> rfl
  rw [this] at h2
  have : r = .null := h2
  rw [← this]; exact h1

/-! ### cases -/

/-- `R.*.B`, case-insensitively: the element `b` of `exDoc`. -/
theorem exWildBy_spells (pf : Bytes → Option FVal) : Spells pf false (.moves [b!"R", b!"*", b!"B"] [.name b!"R", .any, .name b!"B"]) :=
  .cons (ps := [b!"R"]) (.name (plain_of (by decide))) (.cons (ps := [b!"*"]) .any (.cons (ps := [b!"B"]) (.name (plain_of (by decide))) .nil))

example : askBy false [.name b!"R", .any, .name b!"B"] .elem true exDoc.info = .one (.elem exB) := by rfl
example : ∃ r, getWithOptions exEnv exDoc.render b!"R.*.B" (some ciOpts) = .ret r ∧ IsElement r exB :=
  C55_get exEnv exEnv_perm _ _ exDoc_says (exWildBy_spells _) .elem ⟨trivial, trivial⟩ (by simp) (by simp) (by simp) (by simp) ciOpts (by decide) (by simp [Goal.isAttr])

/-- The same in the program, with counts, indices, attributes, fields and filters. -/
example : getWithOptions exEnv exDoc.render b!"R.A.#" (some ciOpts) = .ret (.ofCount 2) ∧ getWithOptions exEnv exDoc.render b!"R.A.1.@J" (some ciOpts) = .ret (.ofAttr b!"3") ∧
    getWithOptions exEnv exDoc.render b!"**.A.@K" (some ciOpts) = .ret (.ofArray [.ofAttr b!"1", .ofAttr b!"2"]) ∧
    getWithOptions exEnv exDoc.render b!"R.A.#.@K" (some ciOpts) = .ret (.ofArray [.ofAttr b!"1", .ofAttr b!"2"]) ∧
    getWithOptions exEnv exDoc.render b!"R.A.#.B" (some ciOpts) = .ret (.ofArray [.ofContent b!"y"]) := by decide +kernel

/-- C55: what the two engines make of fields below `**` and `*`, and of a count or an index of prefixed elements at the top. -/
theorem C55_engines_differ : get exEnv exDoc.render b!"**.a.#.@k" = .ret (.ofArray [.ofAttr b!"1", .ofAttr b!"2"]) ∧
    getWithOptions exEnv exDoc.render b!"**.a.#.@k" (some wsOpts) = .ret .null ∧ get exEnv exDoc.render b!"*.#.@k" = .ret (.ofArray []) ∧
    getWithOptions exEnv exDoc.render b!"*.#.@k" (some wsOpts) = .ret .null ∧
    getWithOptions exEnv b!"<p:a/><a/>" b!"a.#" (some wsOpts) = .ret (.ofCount 1) ∧ getWithOptions exEnv b!"<p:a/><a/>" b!"a.#" (some ciOpts) = .ret (.ofCount 2) := by decide +kernel

/-- C55: two attributes that differ only in case: a field asked for case-insensitively is the one that comes first in the order in which the attributes are visited, one
for each element, and so is an attribute of an element; below `*` and `**` all of them are found. -/
theorem C55_either_case :
    (let d := b!"<a id='1' ID='2'/><a iD='3'/>"; let rev : Env := { exEnv with ord := fun _ as => as.reverse }
    getWithOptions exEnv d b!"a.#.@Id" (some ciOpts) = .ret (.ofArray [.ofAttr b!"1", .ofAttr b!"3"]) ∧
    getWithOptions rev d b!"a.#.@Id" (some ciOpts) = .ret (.ofArray [.ofAttr b!"2", .ofAttr b!"3"]) ∧
    getWithOptions exEnv d b!"a.@Id" (some ciOpts) = .ret (.ofAttr b!"1") ∧ getWithOptions rev d b!"a.@Id" (some ciOpts) = .ret (.ofAttr b!"2") ∧
    getWithOptions exEnv d b!"*.@Id" (some ciOpts) = .ret (.ofArray [.ofAttr b!"1", .ofAttr b!"2", .ofAttr b!"3"]) ∧
    getWithOptions exEnv d b!"**.a.@Id" (some ciOpts) = .ret (.ofArray [.ofAttr b!"1", .ofAttr b!"2", .ofAttr b!"3"])) := by decide +kernel

end Verif.Props
