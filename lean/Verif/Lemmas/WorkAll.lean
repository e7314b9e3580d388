import Verif.Lemmas.Work
import Verif.Lemmas.Panic
import Verif.Spec.Work
/- How much work a query is, for every path: a filter costs one more than its path. -/
namespace Verif
open Spec

theorem marks_sub {a b : Bytes} (h : a.Sublist b) : marks a ≤ marks b := h.countP_le

theorem marks_append (a b : Bytes) : marks (a ++ b) = marks a + marks b := List.countP_append

/-- What a segment adds to the exponent. -/
def segMarks (s : Seg) : Nat :=
  match s.kind with
  | .wild true => 1
  | .filter f _ => marks f.path + 1
  | _ => 0

theorem splitPathAux_marks (e : Bool) (s : Bytes) : marks (splitPathAux e s).1 + sumBy marks (splitPathAux e s).2 ≤ marks s := by
  induction s generalizing e with
  | nil => simp [splitPathAux, sumBy, marks]
  | cons c cs ih =>
    have h1 := ih true
    have h2 := ih false
    have h3 : ∀ l : Bytes, marks (c :: l) = marks l + marks [c] := fun l => by rw [← List.singleton_append, marks_append, Nat.add_comm]
    have h4 : marks [] = 0 := rfl
    simp only [splitPathAux]
    rw [h3 cs]
    repeat' split
    all_goals try simp only [sumBy, h3 (splitPathAux _ _).1, h4]
    all_goals omega

theorem splitPath_marks (s : Bytes) : sumBy marks (splitPath s) ≤ marks s := by
  unfold splitPath
  split
  · exact Nat.zero_le _
  · exact splitPathAux_marks false s

theorem trimSpace_sublist (s : Bytes) : (trimSpace s).Sublist s := by
  unfold trimSpace
  have h1 := (trimFront_suffix spaceLenRev (trimFront spaceLen s).reverse).sublist
  have h2 := (trimFront_suffix spaceLen s).sublist
  have h3 := h1.reverse
  rw [List.reverse_reverse] at h3
  exact h3.trans h2

theorem condition_sublist {e : Bytes} {f : Filter} (h : parseFilterCondition e = .ok f) : f.path.Sublist e := by
  unfold parseFilterCondition at h
  simp only at h
  repeat' split at h
  all_goals try (simp at h; done)
  · simp only [Parse.ok.injEq] at h; subst h
    exact trimSpace_sublist e
  · simp only [Parse.ok.injEq] at h; subst h
    exact ((trimSpace_sublist _).trans (List.take_sublist _ _)).trans (trimSpace_sublist e)

theorem parsePart_marks {p : Bytes} {s : Seg} (h : parsePart p = .seg s) : segMarks s ≤ marks p := by
  unfold parsePart at h
  simp only at h
  have hm := marks_sub (parseModifiers_prefix p).sublist
  generalize (parseModifiers p).1 = q at *
  split at h
  · simp at h
  · split at h
    · rename_i hp
      rw [hasPrefix, List.isPrefixOf_iff_prefix] at hp
      obtain ⟨t, ht⟩ := hp
      have key : ∀ n f, parseFilterCondition ((q.take n).drop 2) = .ok f → marks f.path + 1 ≤ marks q := by
        intro n f hc
        have h1 := marks_sub (condition_sublist hc)
        have h2 : ((q.take n).drop 2).Sublist t := by
          rw [← ht]
          match n with
          | 0 => simp
          | 1 => simp
          | n + 2 => simpa using List.take_sublist n t
        have h3 := marks_sub h2
        have h4 : marks q = marks b!"#(" + marks t := by rw [← ht, marks_append]
        have h5 : marks b!"#(" = 1 := by decide
        omega
      unfold parseFilterPart at h
      simp only at h
      repeat' split at h
      all_goals try (simp at h; done)
      all_goals
        rename_i hc
        simp only [PartRes.seg.injEq] at h
        subst h
        exact Nat.le_trans (key _ _ hc) hm
    · repeat' split at h
      all_goals
        simp only [PartRes.seg.injEq] at h
        subst h
        simp only [segMarks]
      all_goals try omega
      next hq => rw [hq] at hm; exact Nat.le_trans (by decide) hm

theorem parseParts_marks {ps : List Bytes} {ss : List Seg} (h : parseParts ps = .ok ss) : sumBy segMarks ss ≤ sumBy marks ps := by
  induction ps generalizing ss with
  | nil => simp [parseParts] at h; subst h; exact Nat.le_refl _
  | cons p ps ih =>
    unfold parseParts at h
    split at h
    · simp at h
    · simp at h
    · have := ih h; simp only [sumBy]; omega
    · rename_i s hp
      split at h
      · simp at h
      · simp at h
      · rename_i ss' hr
        simp only [Parse.ok.injEq] at h; subst h
        have h1 := ih hr
        have h2 := parsePart_marks hp
        simp only [sumBy]; omega

theorem fuseFields_marks (ss : List Seg) : sumBy segMarks (fuseFields ss) ≤ sumBy segMarks ss := by
  fun_induction fuseFields ss with
  | case1 => exact Nat.le_refl _
  | case2 => exact Nat.le_refl _
  | case3 s t r hs f hf _ ih => simp only [sumBy, segMarks] at ih ⊢; omega
  | case4 s t r hs f hf _ ih => simp only [sumBy] at ih ⊢; omega
  | case5 s t r hs hf ih => simp only [sumBy] at ih ⊢; omega
  | case6 s t r hs ih => simp only [sumBy] at ih ⊢; omega

theorem parsePath_marks {path : Bytes} {ss : List Seg} (h : parsePath path = .ok ss) : sumBy segMarks ss ≤ marks path := by
  unfold parsePath parsePathInternal at h
  repeat' split at h
  all_goals try (simp at h; done)
  · rename_i hp
    simp only [Parse.ok.injEq] at h; subst h
    exact Nat.le_trans (fuseFields_marks _) (Nat.le_trans (parseParts_marks hp) (splitPath_marks path))

/-! ### sums over elements -/

/-- The work at an element is at most the power. -/
def WithinE (r : Nat) (f : Elem → Nat) : Prop := ∀ e nd, Rep e nd → f e + 1 ≤ (nd.kids.descendants.length + 2) ^ (r + 1)

theorem WithinE.mono {r s : Nat} {f : Elem → Nat} (h : WithinE r f) (hs : r ≤ s) : WithinE s f := fun e nd hd =>
  Nat.le_trans (h e nd hd) (Nat.pow_le_pow_right (by omega) (by omega))

theorem Within.elem {o : Ord} (ho : o.IsPerm) {r : Nat} {f : Bytes → Nat} (h : Within o r f) : WithinE r (fun e => f e.content) := fun _ _ hd => h _ _ (writes_reads ho hd.content)

theorem sumE_level {r : Nat} {f : Elem → Nat} (h : WithinE r f) {es : List Elem} {nds : List Node} (hr : All2 Rep es nds) :
    sumBy f es + 1 ≤ (sumBy (fun nd => 1 + nd.kids.descendants.length) nds + 1) ^ (r + 1) := by
  induction hr with
  | nil => simp [sumBy]
  | @cons e nd es nds hd _ ih =>
    have h1 := h _ _ hd
    have h2 := pow_super (1 + nd.kids.descendants.length) (sumBy (fun nd => 1 + nd.kids.descendants.length) nds) r
    simp only [sumBy]
    rw [show 1 + nd.kids.descendants.length + 1 = nd.kids.descendants.length + 2 by omega] at h2
    rw [show 1 + nd.kids.descendants.length + sumBy (fun nd => 1 + nd.kids.descendants.length) nds + 1 =
      sumBy (fun nd => 1 + nd.kids.descendants.length) nds + (1 + nd.kids.descendants.length) + 1 by omega]
    omega

theorem sumE_top {o : Ord} {r : Nat} {f : Elem → Nat} (h : WithinE r f) {xml : Bytes} {i : Info} (hr : Reads o xml i) {es : List Elem}
    (hs : es.Sublist (topElems o xml)) : 1 + sumBy f es + 1 ≤ (i.descendants.length + 2) ^ (r + 1) := by
  have h1 := sumE_level h hr
  rw [sum_elems] at h1
  have h2 := sumBy_sublist f hs
  have h3 : (i.descendants.length + 1) ^ (r + 1) + 1 ≤ (i.descendants.length + 2) ^ (r + 1) := Nat.pow_lt_pow_left (by omega) (by omega)
  omega

/-- Two things done one after the other take one more factor. -/
theorem both_le {D a b r A B : Nat} (ha : 1 + A + 1 ≤ (D + 2) ^ (a + 1)) (hb : 1 + B + 1 ≤ (D + 2) ^ (b + 1)) (h1 : a + 1 ≤ r) (h2 : b + 1 ≤ r) : 1 + (A + B) + 1 ≤ (D + 2) ^ (r + 1) := by
  have h3 : (D + 2) ^ (a + 1) ≤ (D + 2) ^ r := Nat.pow_le_pow_right (by omega) h1
  have h4 : (D + 2) ^ (b + 1) ≤ (D + 2) ^ r := Nat.pow_le_pow_right (by omega) h2
  have h5 : (D + 2) ^ r * 2 ≤ (D + 2) ^ (r + 1) := by rw [Nat.pow_succ]; exact Nat.mul_le_mul_left _ (by omega)
  omega

theorem testedW_le (ev : Elem → Bool) (evw : Elem → Nat) (n : Nat) (es : List Elem) : testedW ev evw n es ≤ sumBy evw es := by
  induction es generalizing n with
  | nil => cases n <;> simp [testedW]
  | cons e es ih =>
    cases n with
    | zero => simp [testedW]
    | succ n =>
      simp only [testedW, sumBy]
      have := ih (if ev e then n else n + 1)
      omega

theorem routeFilterW_le (ms : List Elem) (all : Bool) (rest : List Seg) (kw : Bytes → Nat) : routeFilterW ms all rest kw ≤ sumBy (fun m => kw m.content) ms := by
  cases ms with
  | nil => exact Nat.zero_le _
  | cons m ms =>
    simp only [routeFilterW]
    split
    · exact sumBy_mono fun a _ => processFirstW_le a rest kw
    · have := processFirstW_le m rest kw
      simp only [sumBy]; omega

/-- One segment, filters included. -/
theorem execBodyW_all {env : Env} (ho : env.ord.IsPerm) {ev : Filter → Elem → Bool} {evw : Filter → Elem → Nat} {root : Bool} {cur : Seg} {rest : List Seg}
    {k1 k2 : Bytes → Result} {kw1 kw2 : Bytes → Nat} (h1 : Within env.ord (sumBy segMarks rest) kw1) (h2 : Within env.ord (sumBy segMarks rest.tail) kw2)
    (hev : ∀ f, WithinE (marks f.path) (evw f)) {xml : Bytes} {i : Info} (hr : Reads env.ord xml i) :
    1 + execBodyW env ev evw root cur rest k1 k2 kw1 kw2 xml + 1 ≤ (i.descendants.length + 2) ^ (sumBy segMarks (cur :: rest) + 1) := by
  have b1 : ∀ {es : List Elem} {w : Nat}, es.Sublist (topElems env.ord xml) → w ≤ sumBy (fun e => kw1 e.content) es → 1 + w + 1 ≤ (i.descendants.length + 2) ^ (sumBy segMarks rest + 1) :=
    fun hs hw => Nat.le_trans (by omega) (sum_top ho h1 hr hs)
  have b2 : ∀ {es : List Elem} {w : Nat}, es.Sublist (topElems env.ord xml) → w ≤ sumBy (fun e => kw2 e.content) es → 1 + w + 1 ≤ (i.descendants.length + 2) ^ (sumBy segMarks rest.tail + 1) :=
    fun hs hw => Nat.le_trans (by omega) (sum_top ho h2 hr hs)
  have up : ∀ {w a b : Nat}, 1 + w + 1 ≤ (i.descendants.length + 2) ^ (a + 1) → a ≤ b → 1 + w + 1 ≤ (i.descendants.length + 2) ^ (b + 1) :=
    fun h hab => Nat.le_trans h (Nat.pow_le_pow_right (by omega) (by omega))
  have b0 := fun b => one_top (i := i) b
  have ht : sumBy segMarks rest.tail ≤ sumBy segMarks rest := sumBy_sublist _ (List.tail_sublist rest)
  have hc : sumBy segMarks (cur :: rest) = segMarks cur + sumBy segMarks rest := rfl
  rw [hc]
  unfold execBodyW
  cases hk : cur.kind with
  | elem v =>
    dsimp only
    split
    · cases rest with
      | nil => exact b0 _
      | cons nxt rest2 => exact up (b2 (List.Sublist.trans (List.take_sublist _ _) List.filter_sublist) (indexW_le _ _ _ _ _)) (by omega)
    · unfold execElemW
      have hs : ((topElems env.ord xml).filter (fun e => cur.matches e.name)).Sublist (topElems env.ord xml) := List.filter_sublist
      cases rest with
      | nil => exact b0 _
      | cons nxt rest2 =>
        cases hn : nxt.kind with
        | filter f a =>
          simp only [hn]
          have h3 := sumE_top (hev f) hr ((List.take_sublist maxWildcardResults _).trans hs)
          have h4 := b2 (List.filter_sublist.trans ((List.take_sublist maxWildcardResults _).trans hs)) (routeFilterW_le ((((topElems env.ord xml).filter (fun e => cur.matches e.name)).take maxWildcardResults).filter (ev f)) a rest2 kw2)
          have h5 : segMarks nxt = marks f.path + 1 := by simp only [segMarks, hn]
          simp only [List.tail_cons] at h4
          simp only [sumBy, h5]
          exact both_le h3 h4 (by omega) (by omega)
        | field f => simpa [hn] using b0 _
        | count => simpa [hn] using b0 _
        | index j => simp only [hn]; exact up (b2 (List.Sublist.trans (List.take_sublist _ _) hs) (indexW_le _ _ _ _ _)) (by omega)
        | _ => simp only [hn]; exact up (b1 hs (firstMatchW_le _ _ _ _)) (by omega)
  | filter f a =>
    simp only
    have h3 := sumE_top (hev f) hr (List.Sublist.refl _)
    have h4 := b1 ((List.take_sublist maxWildcardResults _).trans List.filter_sublist) (routeFilterW_le (((topElems env.ord xml).filter (ev f)).take maxWildcardResults) a rest kw1)
    have h5 : segMarks cur = marks f.path + 1 := by simp only [segMarks, hk]
    have h6 := testedW_le (ev f) (evw f) maxWildcardResults (topElems env.ord xml)
    rw [h5]
    exact both_le (Nat.le_trans (by omega) h3) h4 (by omega) (by omega)
  | wild b =>
    cases b with
    | true =>
      have h5 : segMarks cur = 1 := by simp only [segMarks, hk]
      rw [h5]
      exact up (recursiveW_le ho h2 hr rest) (by omega)
    | false => exact up (b1 (List.take_sublist _ _) (wildcardW_le _ _ _)) (by omega)
  | _ => simpa using b0 _

theorem execQW_all {env : Env} (ho : env.ord.IsPerm) {ev : Filter → Elem → Bool} {evw : Filter → Elem → Nat} (hev : ∀ f, WithinE (marks f.path) (evw f)) (ss : List Seg) (root : Bool) :
    Within env.ord (sumBy segMarks ss) (execQW env ev evw ss root) := by
  match ss with
  | [] => intro c k hc; exact Nat.le_trans (by simp [execQW]) (one_top (i := k) _)
  | [cur] =>
    intro c k hc
    have hw : Within env.ord 0 (fun _ => 1) := fun c k _ => by simp
    exact execBodyW_all (ev := ev) (evw := evw) (root := root) (rest := []) (k1 := fun _ => .null) (k2 := fun _ => .null) ho hw hw hev hc
  | cur :: nxt :: rest =>
    intro c k hc
    have h1 := execQW_all ho (ev := ev) hev (nxt :: rest) false
    have h2 := execQW_all ho (ev := ev) hev rest false
    exact execBodyW_all (ev := ev) (evw := evw) (root := root) (k1 := execQ env ev (nxt :: rest) false) (k2 := execQ env ev rest false) ho h1 h2 hev hc

theorem evalFilterW_all {env : Env} (ho : env.ord.IsPerm) (n : Nat) : ∀ f : Filter, WithinE (marks f.path) (evalFilterW env n f) := by
  induction n with
  | zero => intro f e nd _; have := one_top (i := nd.kids) (marks f.path); simp only [evalFilterW]; omega
  | succ n ih =>
    intro f e nd hd
    have h0 := one_top (i := nd.kids) (marks f.path)
    simp only [evalFilterW]
    split
    · omega
    · split
      · next ss hp => exact ((execQW_all ho (ev := evalFilterN env n) ih ss true).mono (parsePath_marks hp)).elem ho e nd hd
      · omega

end Verif
