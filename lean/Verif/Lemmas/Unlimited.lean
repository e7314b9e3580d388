import Verif.Lemmas.Digging
import Verif.Lemmas.Fluent
/- Elements nested deeply, and filters in filters. -/
namespace Verif
open Spec

theorem canon_none {as : List Attr} (h : CanonAttrs as) (hn : attrVal as = attrVal []) : as = [] := by
  obtain ⟨m, -, rfl⟩ := h
  cases m with
  | nil => rfl
  | cons p m =>
    exfalso
    have := congrFun hn (canonAttr p).name
    simp [attrVal] at this

theorem canonF_length (n : Nat) : ∀ f : Forest, CanonF f → f.info = (nested n).info → f.render.length ≤ 7 * n := by
  induction n with
  | zero =>
    intro f _ h
    cases f with
    | nil => exact Nat.le_refl _
    | _ => simp [nested, Forest.info] at h
  | succ n ih =>
    intro f hc h
    cases f with
    | nil => simp [nested, Forest.info] at h
    | text b next => simp [nested, Forest.info] at h
    | misc m next => simp [nested, Forest.info] at h
    | leaf m as ws next =>
      simp only [nested, Forest.info, Info.elem.injEq] at h
      obtain ⟨rfl, h2, h3, h4⟩ := h
      obtain ⟨c1, rfl, c3⟩ := hc
      rw [canon_none c1 h2]
      have : next = .nil := by cases next <;> first | rfl | (simp [Forest.info] at h4)
      subst this
      simp [Forest.render, openTag]; omega
    | node m as ws kids cws next =>
      simp only [nested, Forest.info, Info.elem.injEq] at h
      obtain ⟨rfl, h2, h3, h4⟩ := h
      obtain ⟨c1, rfl, rfl, c4, c5⟩ := hc
      rw [canon_none c1 h2]
      have : next = .nil := by cases next <;> first | rfl | (simp [Forest.info] at h4)
      subst this
      have := ih kids c4 h3
      simp [Forest.render, openTag, closeTag]; omega

theorem canonD_length (g : Draft) : ∀ n, CanonD g → g.info = (nested n).info → g.render.length ≤ 7 * n := by
  induction g with
  | done f => intro n hc h; exact canonF_length n f hc h
  | more f m as ws rest ih =>
    intro n hc h
    obtain ⟨-, c2, rfl, c4⟩ := hc
    cases n with
    | zero =>
      cases f <;> simp [nested, Draft.info, Draft.close, Forest.append, Forest.info] at h
    | succ n =>
      cases f with
      | nil =>
        simp only [nested, Draft.info, Draft.close, Forest.append, Forest.info, Info.elem.injEq] at h
        obtain ⟨rfl, h2, h3, -⟩ := h
        have := ih n c4 h3
        rw [canon_none c2 h2]
        simp [Draft.render, Forest.render, openTag]; omega
      | text b next => simp [nested, Draft.info, Draft.close, Forest.append, Forest.info] at h
      | misc m next => simp [nested, Draft.info, Draft.close, Forest.append, Forest.info] at h
      | leaf m as ws next =>
        simp only [nested, Draft.info, Draft.close, Forest.append, Forest.info, Info.elem.injEq] at h
        exact absurd h.2.2.2 (by cases next <;> simp [Forest.append, Forest.info])
      | node m as ws kids cws next =>
        simp only [nested, Draft.info, Draft.close, Forest.append, Forest.info, Info.elem.injEq] at h
        exact absurd h.2.2.2 (by cases next <;> simp [Forest.append, Forest.info])

theorem writes_nested {c : Bytes} {n : Nat} (h : Writes c (nested n).info) : c.length ≤ 7 * n := by
  obtain ⟨g, h1, -, -, h2, rfl⟩ := h
  exact canonD_length g n h1 h2

theorem a_plain : PlainName b!"a" := ⟨by decide, by decide, by decide, by decide, by decide, by decide, by decide, c!"a", by decide, by decide⟩

/-- One more `Get` on an element found. -/
theorem nested_step (env : Env) (ho : env.ord.IsPerm) {n : Nat} (hn : n ≤ 1000000) {r : Result} (ht : r.typ = .element) (hr : Writes r.raw (nested n).info) :
    match n with
    | 0 => r.get env b!"a" = .ret .null
    | n + 1 => ∃ r', r.get env b!"a" = .ret r' ∧ r'.typ = .element ∧ Writes r'.raw (nested n).info := by
  have hl := writes_nested hr
  rw [Result.get_element env _ ht]
  obtain ⟨r', h1, h2⟩ := getFromRaw_path (Q := IsElementW) (g := fun k => (k.named b!"a").head?) env ho hr (by omega) [] b!"a" [] (by
      intro m hm
      rw [List.nil_append, List.mem_singleton] at hm
      subst hm
      exact a_plain) (by simp) [] rfl
    (fun root _ c k hc => step_elem env _ b!"a" root hc)
  rw [show pathOf ([] ++ [b!"a"] ++ []) = b!"a" by decide] at h1
  cases n with
  | zero =>
    simp [Info.reach, nested, Forest.info, Info.named, Info.elems, Yields] at h2
    rw [h1, h2]
  | succ n =>
    have e : (List.findSome? (fun k => (Info.named k b!"a").head?) ((nested (n + 1)).info.reach [])) = some ⟨b!"a", attrVal [], (nested n).info⟩ := by
      have : nameMatches b!"a" b!"a" = true := by decide
      simp [Info.reach, nested, Forest.info, Info.named, Info.elems, this]
    rw [e] at h2
    exact ⟨r', h1, h2.2.typ, h2.2.raw⟩

/-! ### filters in filters -/

set_option maxRecDepth 100000 in
theorem tested_parse : ∀ k < 86, parsePath (tested (k + 1)) = .ok [⟨.filter ⟨tested k, .ex, []⟩ false, []⟩] := by decide +kernel

theorem tested_zero : parsePath (tested 0) = .ok [nameSeg b!"a"] := by decide +kernel

theorem tested_at (k : Nat) : hasPrefix (tested k) b!"@" = false := by cases k <;> simp [tested, hasPrefix, List.isPrefixOf]

theorem tested_name {env : Env} {ev : Filter → Elem → Bool} {root : Bool} {c : Bytes} {d : Nat} (hr : Reads env.ord c (nested d).info) :
    (execQ env ev [nameSeg b!"a"] root c).exists? = decide (0 < d) := by
  have h := step_elem env ev b!"a" root hr
  cases d with
  | zero =>
    simp [nested, Forest.info, Info.named, Info.elems, Yields] at h
    rw [h]; rfl
  | succ d =>
    have : nameMatches b!"a" b!"a" = true := by decide
    simp only [nested, Forest.info, Info.named, Info.elems, List.filter_cons, this, if_true, List.head?_cons] at h
    have ht := h.2.typ
    simp [Result.exists?, ht]

theorem tested_filter {env : Env} {ev : Filter → Elem → Bool} {root : Bool} {c : Bytes} {d k : Nat} (hr : Reads env.ord c (nested d).info)
    (hev : ∀ (e : Elem) (d : Nat), Writes e.content (nested d).info → ev ⟨tested k, .ex, []⟩ e = decide (k < d)) :
    (execQ env ev [⟨.filter ⟨tested k, .ex, []⟩ false, []⟩] root c).exists? = decide (k + 1 < d) := by
  simp only [execQ, execBody]
  cases d with
  | zero =>
    rw [nested_empty hr]; rfl
  | succ d =>
    obtain ⟨e, h1, -, h3, -⟩ := nested_reads hr
    have h4 := hev e d h3
    rw [h1, List.filter_cons, h4]
    by_cases hk : k < d
    · simp only [hk, decide_true, if_true, List.filter_nil]
      rw [show decide (k + 1 < d + 1) = true by simp [hk]]
      rfl
    · simp only [hk, decide_false, Bool.false_eq_true, if_false, List.filter_nil]
      rw [show decide (k + 1 < d + 1) = false by simp; omega]
      rfl

theorem tested_eval {env : Env} (ho : env.ord.IsPerm) (n : Nat) : ∀ (k : Nat), k < n → k < 86 → ∀ (e : Elem) (d : Nat), Writes e.content (nested d).info →
    evalFilterN env n ⟨tested k, .ex, []⟩ e = decide (k < d) := by
  induction n with
  | zero => intro k h; omega
  | succ n ih =>
    intro k hk hk2 e d hw
    have hr := writes_reads ho hw
    have key : ∀ ss, parsePath (tested k) = .ok ss → (execQ env (evalFilterN env n) ss true e.content).exists? = decide (k < d) →
        evalFilterN env (n + 1) ⟨tested k, .ex, []⟩ e = decide (k < d) := by
      intro ss hp hx
      simp only [evalFilterN, tested_at, Bool.false_eq_true, if_false, hp, compareFilter, hx]
      cases decide (k < d) <;> rfl
    cases k with
    | zero => exact key _ tested_zero (tested_name hr)
    | succ k => exact key _ (tested_parse k (by omega)) (tested_filter hr (ih k (by omega) (by omega)))

theorem tested_length (k : Nat) : (tested k).length = 3 * k + 1 := by
  induction k with
  | zero => rfl
  | succ k ih => simp [tested, ih]; omega

end Verif
