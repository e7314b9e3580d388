import Verif.Spec.Chain
import Verif.Lemmas.Roots
/- Paths on the content of an element. -/
namespace Verif
open Spec

theorem attrVal_nil : attrVal [] = fun _ => none := by funext k; rfl

theorem wrapped_reads {o : Ord} (ho : o.IsPerm) {c : Bytes} {nd : Node} (h : Writes c nd.kids) :
    Reads o (b!"<_xmldot_root>" ++ c ++ b!"</_xmldot_root>") nd.wrapped := by
  have := wrap_reads ho h
  rw [attrVal_nil] at this
  exact this

theorem wrapped_path {ps : List Bytes} (h : ps ≠ []) : b!"_xmldot_root." ++ pathOf ps = pathOf (b!"_xmldot_root" :: ps) := by
  cases ps with
  | nil => exact absurd rfl h
  | cons p ps => exact wrap_path p ps

theorem wrapped_spells {pf : Bytes → Option FVal} {dp : Bool} {ps : List Bytes} {ms : List Move} (h : Spells pf dp (.moves ps ms)) :
    Spells pf dp (.moves (b!"_xmldot_root" :: ps) (wrapMoves ms)) := by
  have plain : Spells pf dp (.moves (b!"_xmldot_root" :: ps) (.name wrapName :: ms)) := .cons (ps := [b!"_xmldot_root"]) (.name wrap_plain) h
  cases ms with
  | nil => exact plain
  | cons m ms =>
    cases m with
    | sat n p =>
      cases n with
      | some n => exact plain
      | none =>
        cases h with
        | cons h hs =>
          cases h with
          | satF hc ht hq => exact .cons (ps := [b!"_xmldot_root", _]) (.sat wrap_plain hc ht hq) hs
    | satAll n p =>
      cases n with
      | some n => exact plain
      | none =>
        cases h with
        | cons h hs =>
          cases h with
          | satAllF hc ht hq => exact .cons (ps := [b!"_xmldot_root", _]) (.satAll wrap_plain hc ht hq) hs
    | _ => exact plain

theorem spells_append {pf : Bytes → Option FVal} {dp : Bool} {qs ps : List Bytes} {ns ms : List Move} (hq : Spells pf dp (.moves qs ns)) (h : Spells pf dp (.moves ps ms)) :
    Spells pf dp (.moves (qs ++ ps) (ns ++ ms)) := by
  induction ns generalizing qs with
  | nil => cases hq; exact h
  | cons n ns ih =>
    cases hq with
    | cons h1 h2 =>
      rw [List.append_assoc]
      exact .cons h1 (ih h2)

theorem spells_nonempty {pf : Bytes → Option FVal} {dp : Bool} {qs : List Bytes} {ns : List Move} (hq : Spells pf dp (.moves qs ns)) (hn : ns ≠ []) : qs ≠ [] := by
  cases hq with
  | nil => exact absurd rfl hn
  | cons h1 h2 => cases h1 <;> simp

theorem wrapMoves_proper {ms : List Move} (h : Proper ms) : Proper (wrapMoves ms) := by
  cases ms with
  | nil => trivial
  | cons m ms =>
    cases m with
    | sat n p =>
      cases n with
      | some n => exact ⟨trivial, h⟩
      | none => cases ms with
        | nil => trivial
        | cons m ms => exact h
    | satAll n p =>
      cases n with
      | some n => exact ⟨trivial, h⟩
      | none => cases ms with
        | nil => trivial
        | cons m ms => exact h
    | _ => exact ⟨trivial, h⟩

theorem wrapped_fine {d t : Prop} {nd : Node} (hd : d → nd.kids.descendants.length < 9998) (ht : t → nd.kids.Quiet) : Fine d t nd.wrapped where
  deep h := by
    have := hd h
    simp only [Node.wrapped, Info.descendants, List.length_append, List.length_cons, List.length_nil]
    omega
  text h := ⟨ht h, trivial⟩

theorem wrapped_fineBy {d t u : Prop} {nd : Node} (hd : d → nd.kids.descendants.length < 9998) (ht : t → nd.kids.Quiet) (hu : u → nd.kids.CaseUnique) :
    FineBy d t u nd.wrapped where
  fine := wrapped_fine hd ht
  uniq h := ⟨fun x y v w hx => by simp at hx, hu h, trivial⟩

/-- `Get` on an element. -/
theorem get_chained (env : Env) (ho : env.ord.IsPerm) {dp : Bool} {ps gs : List Bytes} {ms : List Move} {g : Goal} (h : Spells env.parseFloat dp (.moves ps ms))
    (hg : GoalText gs g) (hp : Proper ms) (hne : ps ++ gs ≠ []) (hl : (ps ++ gs).length ≤ 99) {r : Result} {nd : Node} (hr : IsElement r nd)
    (hx : r.raw.length + 29 ≤ 10485760) (hc : nd.kids.Calm) (hd : dp = true → nd.kids.descendants.length < 9998) (ht : g = .fieldText → nd.kids.Quiet) :
    ∃ r', r.get env (pathOf (ps ++ gs)) = .ret r' ∧ Gives r' (chained nd ms g) := by
  have hw := (IsElementW.of hr).raw
  rw [Result.get_element env _ hr.typ]
  unfold getFromRaw chained
  rw [roots_writes hw hc]
  by_cases h2 : 2 ≤ nd.kids.elems.length
  · rw [if_pos (by simpa using h2), if_neg (by omega), wrapped_path hne]
    exact get_ask env ho (wrapped_spells h) hg (wrapMoves_proper hp) (by simp) (by simpa using hl) (by simp; omega) (wrapped_reads ho hw) (wrapped_fine hd ht)
  · rw [if_neg (by simpa using h2), if_pos (by omega)]
    exact get_ask env ho h hg hp hne (by omega) (by omega) (writes_reads ho hw) ⟨fun e => by have := hd e; omega, ht⟩

/-- `GetWithOptions` on an element. -/
theorem getOpt_chained (env : Env) (ho : env.ord.IsPerm) {dp : Bool} {ps gs : List Bytes} {ms : List Move} {g : Goal} (h : Spells env.parseFloat dp (.moves ps ms))
    (hg : GoalText gs g) (hp : Proper ms) (hne : ps ++ gs ≠ []) (hl : (ps ++ gs).length ≤ 99) {r : Result} {nd : Node} (hr : IsElement r nd)
    (hx : r.raw.length + 29 ≤ 10485760) (opts : Options) (hopts : opts ≠ defaultOptions) (hc : nd.kids.Calm) (hd : dp = true → nd.kids.descendants.length < 9998)
    (ht : g = .fieldText → nd.kids.Quiet) (hu : g.isAttr = true → opts.caseSensitive = false → nd.kids.CaseUnique) :
    ∃ r', r.getWithOptions env (pathOf (ps ++ gs)) (some opts) = .ret r' ∧ Gives r' (chainedBy opts.caseSensitive nd ms g) := by
  have hw := (IsElementW.of hr).raw
  have hdef : isDefaultOptions (some opts) = false := by
    rw [Bool.eq_false_iff]
    intro hd
    apply hopts
    obtain ⟨c, i, p, n⟩ := opts
    simp only [isDefaultOptions, Bool.and_eq_true, List.isEmpty_iff, Bool.not_eq_true', Option.isNone_iff_eq_none] at hd
    obtain ⟨⟨⟨rfl, rfl⟩, rfl⟩, rfl⟩ := hd; rfl
  have e : r.getWithOptions env (pathOf (ps ++ gs)) (some opts) = getFromRawOpt env r.raw (pathOf (ps ++ gs)) (some opts) := by
    have := hr.typ
    cases r with
    | mk t raw s n l =>
      obtain rfl : t = .element := this
      rw [Result.getWithOptions.eq_def]
      simp [hdef, Result.raw]
  rw [e]
  unfold getFromRawOpt chainedBy
  rw [roots_writes hw hc]
  by_cases h2 : 2 ≤ nd.kids.elems.length
  · rw [if_pos (by simpa using h2), if_neg (by omega), wrapped_path hne]
    exact getWithOptions_ask env ho (wrapped_spells h) hg (wrapMoves_proper hp) (by simp) (by simpa using hl) (by simp; omega) (wrapped_reads ho hw) opts hopts
      (wrapped_fineBy hd ht (fun e => hu e.1 e.2))
  · rw [if_neg (by simpa using h2), if_pos (by omega)]
    exact getWithOptions_ask env ho h hg hp hne (by omega) (by omega) (writes_reads ho hw) opts hopts
      ⟨⟨fun e => by have := hd e; omega, ht⟩, fun e => hu e.1 e.2⟩

end Verif
