import Verif.Lemmas.Spell
import Verif.Props.Query
/- The meaning of whole paths: C51. -/
namespace Verif.Props
open Spec

/-- C51: whatever steps a path is made of - names, indices, filters (with any paths tested in them), `*`, `**` - and whatever it asks for at the end, `Get`
returns what the path means. With `**` the document has fewer than 9999 elements; the texts of `#.%` contain no `>` outside a reference. -/
theorem C51_get (env : Env) (ho : env.ord.IsPerm) (xml : Bytes) (i : Info) (h : Says xml i) {dp : Bool} {ps gs : List Bytes} {ms : List Move} {g : Goal}
    (hs : Spells env.parseFloat dp (.moves ps ms)) (hg : GoalText gs g) (hp : Proper ms) (hne : ps ++ gs ≠ []) (hl : (ps ++ gs).length ≤ 100)
    (hd : dp = true → i.descendants.length < 9999) (ht : g = .fieldText → i.Quiet) :
    ∃ r, get env xml (pathOf (ps ++ gs)) = .ret r ∧ Gives r (ask ms g true i) :=
  get_ask env ho hs hg hp hne hl h.1 (says_reads ho h) ⟨hd, ht⟩

/-- C51: the string of the answer, when no own text is asked for. -/
theorem C51_string (env : Env) (ho : env.ord.IsPerm) (xml : Bytes) (i : Info) (h : Says xml i) {dp : Bool} {ps gs : List Bytes} {ms : List Move} {g : Goal}
    (hs : Spells env.parseFloat dp (.moves ps ms)) (hg : GoalText gs g) (hp : Proper ms) (hne : ps ++ gs ≠ []) (hl : (ps ++ gs).length ≤ 100)
    (hd : dp = true → i.descendants.length < 9999) (ht : g ≠ .text ∧ g ≠ .fieldText) :
    ∃ r, get env xml (pathOf (ps ++ gs)) = .ret r ∧ (r.exists? = true ↔ ask ms g true i ≠ .nothing) ∧ r.toStr = ((ask ms g true i).str).getD [] := by
  obtain ⟨r, h1, h2⟩ := C51_get env ho xml i h hs hg hp hne hl hd (fun e => absurd e ht.2)
  refine ⟨r, h1, ?_, ?_⟩
  · cases ha : ask ms g true i with
    | nothing => rw [ha] at h2; have : r = .null := h2; subst this; simp [Result.exists?]
    | one x => rw [ha] at h2; have h3 : Is r x := h2; simp [Result.exists?, h3.typ.1]
    | many xs => rw [ha] at h2; simp [Result.exists?, h2.1]
  · have := gives_str h2 (fun x hx nd e => by
      subst e
      rcases ask_can hx with ⟨n', hn'⟩ | ⟨n, hn⟩
      · cases g <;> simp [Goal.items] at hn' ht
      · simp at hn)
    rw [← this]
    split
    · rfl
    · rename_i hx
      cases ha : ask ms g true i with
      | nothing => rw [ha] at h2; have : r = .null := h2; subst this; simp [Result.toStr, Result.null]
      | one x => rw [ha] at h2; have h3 : Is r x := h2; simp [Result.exists?, h3.typ.1] at hx
      | many xs => rw [ha] at h2; simp [Result.exists?, h2.1] at hx

/-! ### what some paths cannot find -/

theorem firstAnswer_nothing {as : List Answer} (h : ∀ a ∈ as, a = .nothing) : firstAnswer as = .nothing := by
  induction as with
  | nil => rfl
  | cons a as ih =>
    obtain rfl := h a (by simp)
    exact ih (fun b hb => h b (by simp [hb]))

theorem fill_empty {α : Type} {L : List (List α)} (h : ∀ l ∈ L, l = []) (k : Nat) : fill k L = [] := by
  cases he : fill k L with
  | nil => rfl
  | cons x xs =>
    obtain ⟨l, hl, hx⟩ := fill_sub (k := k) (L := L) (x := x) (by rw [he]; simp)
    rw [h l hl] at hx; simp at hx

theorem join_nothing {as : List Answer} (h : ∀ a ∈ as, a = .nothing) (m : Move) : m.join as = .nothing := by
  have hi : as.flatMap Answer.items = [] := by
    rw [List.flatMap_eq_nil_iff]; intro a ha; rw [h a ha]; rfl
  cases m with
  | name n => exact firstAnswer_nothing h
  | nth n j => exact firstAnswer_nothing h
  | sat n p => exact firstAnswer_nothing h
  | satAll n p => rw [Move.join, hi]; rfl
  | any =>
    rw [Move.join, hi]
    split
    · rename_i hx
      simp only [Bool.and_eq_true, List.any_eq_true] at hx
      obtain ⟨-, a, ha, hx⟩ := hx
      rw [h a ha] at hx; simp [Answer.isEmptyList] at hx
    · rfl
  | deep n =>
    rw [Move.join, fill_empty]
    · rfl
    · intro l hl
      obtain ⟨a, ha, rfl⟩ := List.mem_map.mp hl
      rw [h a ha]; rfl

/-- A path that ends in `#` after a step other than a name asks for nothing. -/
theorem ask_count_nothing (ms : List Move) (m : Move) (hm : ∀ n, m ≠ .name n) (root : Bool) (i : Info) : ask (ms ++ [m]) .count root i = .nothing := by
  induction ms generalizing root i with
  | nil =>
    have he : ∀ l : List Node, l.flatMap (fun nd => Goal.items nd .count) = [] := by simp [Goal.items]
    cases m with
    | name n => exact absurd rfl (hm n)
    | deep n =>
      simp only [List.nil_append, ask, Move.last]
      rw [fill_empty]
      · rfl
      · intro l hl
        obtain ⟨a, ha, rfl⟩ := List.mem_map.mp hl
        simp [Goal.items]
    | _ =>
      simp only [List.nil_append, ask, Move.last, Goal.isField, Goal.listed, he, Bool.false_eq_true, if_false]
      split <;> rfl
  | cons n ms ih =>
    have : ∀ l : List Move, l ≠ [] → ask (n :: l) .count root i = n.join ((n.nodes root i).map (fun nd => ask l .count false nd.kids)) := by
      intro l hl
      cases l with
      | nil => exact absurd rfl hl
      | cons a l => rfl
    rw [List.cons_append, this _ (by simp)]
    apply join_nothing
    intro a ha
    obtain ⟨nd, -, rfl⟩ := List.mem_map.mp ha
    exact ih _ _

/-- C51: `#` counts only after a name: after an index, a filter, `*` or `**` it finds nothing. -/
theorem C51_count_names_only (env : Env) (ho : env.ord.IsPerm) (xml : Bytes) (i : Info) (h : Says xml i) {dp : Bool} {ps : List Bytes} {ms : List Move} {m : Move}
    (hs : Spells env.parseFloat dp (.moves ps (ms ++ [m]))) (hm : ∀ n, m ≠ .name n) (hp : Proper (ms ++ [m])) (hl : ps.length ≤ 99)
    (hd : dp = true → i.descendants.length < 9999) : get env xml (pathOf (ps ++ [b!"#"])) = .ret .null := by
  obtain ⟨r, h1, h2⟩ := C51_get env ho xml i h hs .count hp (by simp) (by simp; omega) hd (by simp)
  rw [ask_count_nothing ms m hm] at h2
  have : r = .null := h2
  rw [← this]; exact h1

/-- C51: below an index or `*` that finds something, the Array of fields is empty whatever the fields are. -/
theorem C51_fields_lost (env : Env) (ho : env.ord.IsPerm) (xml : Bytes) (i : Info) (h : Says xml i) {dp : Bool} {ps gs : List Bytes} {m : Move} {g : Goal}
    (hs : Spells env.parseFloat dp (.moves ps [m])) (hg : GoalText gs g) (hf : g.isField = true) (hm : m.collects = false) (hl : (ps ++ gs).length ≤ 100)
    (hd : dp = true → i.descendants.length < 9999) (ht : g = .fieldText → i.Quiet) (hn : m.nodes true i ≠ []) :
    ∃ r, get env xml (pathOf (ps ++ gs)) = .ret r ∧ r.typ = .array ∧ r.results = [] := by
  obtain ⟨r, h1, h2⟩ := C51_get env ho xml i h hs hg (by cases m <;> trivial) (by cases hg <;> simp [Goal.isField] at hf ⊢) hl hd ht
  have : ask [m] g true i = .many [] := by
    have hn' : (m.nodes true i).isEmpty = false := by simpa using hn
    cases m <;> simp [Move.collects] at hm <;> cases g <;> simp [Goal.isField] at hf <;> simp [ask, Move.last, Goal.isField, Move.collects, hn']
  rw [this] at h2
  refine ⟨r, h1, h2.1, ?_⟩
  have := h2.2
  cases hr : r.results with
  | nil => rfl
  | cons a l => rw [hr] at this; cases this

/-! ### examples -/

/-- The element `b` of `exDoc`. -/
def exB : Node := ⟨b!"b", attrVal [], .text b!"y" .nil⟩

/-- `r.*.b` -/
theorem exWild_spells (pf : Bytes → Option FVal) : Spells pf false (.moves [b!"r", b!"*", b!"b"] [.name b!"r", .any, .name b!"b"]) :=
  .cons (ps := [b!"r"]) (.name (plain_of (by decide))) (.cons (ps := [b!"*"]) .any (.cons (ps := [b!"b"]) (.name (plain_of (by decide))) .nil))

example : ask [.name b!"r", .any, .name b!"b"] .elem true exDoc.info = .one (.elem exB) := by rfl
example : ∃ r, get exEnv exDoc.render b!"r.*.b" = .ret r ∧ IsElement r exB :=
  C51_get exEnv exEnv_perm _ _ exDoc_says (exWild_spells _) .elem ⟨trivial, trivial⟩ (by simp) (by simp) (by simp) (by simp)

/-- `**.a.@k` -/
theorem exDeep_spells (pf : Bytes → Option FVal) : Spells pf true (.moves [b!"**", b!"a"] [.deep (some b!"a")]) :=
  .cons (ps := [b!"**", b!"a"]) (.deep rfl (plain_of (by decide))) .nil

theorem exDeep_ask : ask [.deep (some b!"a")] (.attr b!"k") true exDoc.info = .many [.attr b!"1", .attr b!"2"] := by with_unfolding_all rfl
example : ∃ r, get exEnv exDoc.render b!"**.a.@k" = .ret r ∧ Gives r (.many [.attr b!"1", .attr b!"2"]) := by
  rw [← exDeep_ask]
  exact C51_get exEnv exEnv_perm _ _ exDoc_says (exDeep_spells _) (.attr (a := b!"k") (by decide)) trivial (by simp) (by simp) (fun _ => by decide +kernel) (by simp)

/-- `r.#(*.b==y).a.1.@j`: a filter that tests a path with a step `*`. -/
def exSat : Node → Bool := fun nd => (ask [.any, .name b!"b"] .elem true nd.kids).str == some b!"y"

theorem exFilter_spells (pf : Bytes → Option FVal) :
    Spells pf false (.moves [b!"r", b!"#(*.b=='y')", b!"a", b!"1"] [.sat (some b!"r") exSat, .nth b!"a" 1]) := by
  refine .cons (ps := [b!"r", b!"#(*.b=='y')"]) (.sat (expr := b!"*.b=='y'") (p := b!"*.b") (v := b!"y") (op := .eq)
    (f := fun nd => (ask [.any, .name b!"b"] .elem true nd.kids).str) (plain_of (by decide))
    (cond_text (p := b!"*.b") (t := b!"'y'") (v := b!"y") (op := .eq) ⟨by simp, by decide⟩ (by simp) ⟨.inl (.inl rfl), by decide, by simp⟩ (by decide)) ?_ ?_)
    (.cons (ps := [b!"a", b!"1"]) (.nth (plain_of (by decide)) ?_) .nil)
  · exact Spells.path (ps := [b!"*", b!"b"]) (gs := []) (.cons (ps := [b!"*"]) .any (.cons (ps := [b!"b"]) (.name (plain_of (by decide))) .nil)) .elem (by simp)
      trivial (by simp) (by simp)
  · intro nd
    simp only [exSat, Holds, beq_iff_eq]
    cases (ask [.any, .name b!"b"] .elem true nd.kids).str <;> simp
  · exact .digit c!"1" (by decide)

theorem exFilter_ask : ask [.sat (some b!"r") exSat, .nth b!"a" 1] (.attr b!"j") true exDoc.info = .one (.attr b!"3") := by with_unfolding_all rfl
example : get exEnv exDoc.render b!"r.#(*\\.b=='y').a.1.@j" = .ret (.ofAttr b!"3") := by
  obtain ⟨r, h1, h2⟩ := C51_get exEnv exEnv_perm _ _ exDoc_says (exFilter_spells _) (.attr (a := b!"j") (by decide)) trivial (by simp) (by simp) (by simp) (by simp)
  rw [exFilter_ask] at h2
  have h3 : r = .ofAttr b!"3" := h2
  rw [← h3]; exact h1

/-- Counting and fields, in the program. -/
example : get exEnv exDoc.render b!"r.a.0.#" = .ret .null ∧ get exEnv exDoc.render b!"r.*.#" = .ret .null ∧
    get exEnv exDoc.render b!"r.a.#" = .ret (.ofCount 2) := by decide +kernel
example : get exEnv exDoc.render b!"*.#.@k" = .ret (.ofArray []) ∧ get exEnv exDoc.render b!"r.a.#.@k" = .ret (.ofArray [.ofAttr b!"1", .ofAttr b!"2"]) := by decide +kernel

/-- C51: the own text of an indexed element is found only if the index is the first step. -/
theorem C51_text_of_indexed : get exEnv exDoc.render b!"r.a.0.%" = .ret .null ∧ get exEnv exDoc.render b!"r.a.%" = .ret (.ofText b!"x<b>y</b><!--c-->") ∧
    get exEnv b!"<a>x</a>" b!"a.0.%" = .ret (.ofText b!"x") := by decide +kernel

end Verif.Props
