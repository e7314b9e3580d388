import Verif.Model.WorkOpt
import Verif.Lemmas.WorkAll
import Verif.Lemmas.Digging
import Verif.Lemmas.EditOpt
/- How much work a query with options is. -/
namespace Verif
open Spec

theorem recursiveWO_le {env : Env} (ho : env.ord.IsPerm) {cs : Bool} {r : Nat} {k : Bytes → Result} {kw : Bytes → Nat} (h : Within env.ord r kw) {xml : Bytes} {i : Info}
    (hr : Reads env.ord xml i) (rest : List Seg) : 1 + recursiveWO env cs rest k kw xml + 1 ≤ (i.descendants.length + 2) ^ (r + 1 + 1) := by
  cases rest with
  | nil => exact one_top _
  | cons tgt rest2 =>
    simp only [recursiveWO]
    obtain ⟨G, hG⟩ : ∃ G, (i.descendants.length + 1) ^ (r + 1) = G + 1 :=
      ⟨(i.descendants.length + 1) ^ (r + 1) - 1, by have := Nat.pow_pos (n := r + 1) (show 0 < i.descendants.length + 1 by omega); omega⟩
    have h1 := recSearchW_le ho (tgt := fun e => tgt.matchesOpt e.name cs) (emit := recEmitOpt env cs rest2 k) (emitW := recEmitWO rest2 kw) (L := i.descendants.length) (G := G) (fun e nd hd hl => by
      have h2 := h _ _ (writes_reads ho hd.content)
      have h3 := Nat.pow_le_pow_left (show nd.kids.descendants.length + 2 ≤ i.descendants.length + 1 by omega) (r + 1)
      have h4 : recEmitWO rest2 kw e ≤ kw e.content := by
        cases rest2 with
        | nil => exact Nat.zero_le _
        | cons s l => simp only [recEmitWO]; split <;> omega
      omega) (maxNestingDepth + 1) xml i ⟨0, []⟩ hr (Nat.le_refl _)
    have h5 : (i.descendants.length + 1) ^ (r + 1) + 1 ≤ (i.descendants.length + 2) ^ (r + 1) := Nat.pow_lt_pow_left (by omega) (by omega)
    have h6 : (G + 2) * (i.descendants.length + 2) ≤ (i.descendants.length + 2) ^ (r + 1 + 1) := by
      rw [Nat.pow_succ]
      exact Nat.mul_le_mul_right _ (by omega)
    refine Nat.le_trans ?_ h6
    simp only [Nat.add_mul, Nat.mul_add, Nat.one_mul, Nat.mul_one] at h1 ⊢
    have := Nat.mul_comm G i.descendants.length
    omega

/-- One segment, filters included. -/
theorem execBodyWO_all {env : Env} (ho : env.ord.IsPerm) {ev : Filter → Elem → Bool} {evw : Filter → Elem → Nat} {cs root : Bool} {cur : Seg} {rest : List Seg}
    {k1 k2 : Bytes → Result} {kw1 kw2 : Bytes → Nat} (h1 : Within env.ord (sumBy segMarks rest) kw1) (h2 : Within env.ord (sumBy segMarks rest.tail) kw2)
    (hev : ∀ f, WithinE (marks f.path) (evw f)) {xml : Bytes} {i : Info} (hr : Reads env.ord xml i) :
    1 + execBodyWO env ev evw cs root cur rest k1 k2 kw1 kw2 xml + 1 ≤ (i.descendants.length + 2) ^ (sumBy segMarks (cur :: rest) + 1) := by
  have b1 : ∀ {es : List Elem} {w : Nat}, es.Sublist (topElems env.ord xml) → w ≤ sumBy (fun e => kw1 e.content) es → 1 + w + 1 ≤ (i.descendants.length + 2) ^ (sumBy segMarks rest + 1) :=
    fun hs hw => Nat.le_trans (by omega) (sum_top ho h1 hr hs)
  have b2 : ∀ {es : List Elem} {w : Nat}, es.Sublist (topElems env.ord xml) → w ≤ sumBy (fun e => kw2 e.content) es → 1 + w + 1 ≤ (i.descendants.length + 2) ^ (sumBy segMarks rest.tail + 1) :=
    fun hs hw => Nat.le_trans (by omega) (sum_top ho h2 hr hs)
  have up : ∀ {w a b : Nat}, 1 + w + 1 ≤ (i.descendants.length + 2) ^ (a + 1) → a ≤ b → 1 + w + 1 ≤ (i.descendants.length + 2) ^ (b + 1) :=
    fun h hab => Nat.le_trans h (Nat.pow_le_pow_right (by omega) (by omega))
  have b0 := fun b => one_top (i := i) b
  have ht : sumBy segMarks rest.tail ≤ sumBy segMarks rest := sumBy_sublist _ (List.tail_sublist rest)
  have hc : sumBy segMarks (cur :: rest) = segMarks cur + sumBy segMarks rest := rfl
  rw [hc]
  unfold execBodyWO
  cases hk : cur.kind with
  | elem v =>
    dsimp only
    split
    · cases rest with
      | nil => exact b0 _
      | cons nxt rest2 => exact up (b2 (List.Sublist.trans (List.take_sublist _ _) List.filter_sublist) (indexW_le _ _ _ _ _)) (by omega)
    · unfold execElemWO
      have hs : ((topElems env.ord xml).filter (fun e => cur.matchesOpt e.name cs)).Sublist (topElems env.ord xml) := List.filter_sublist
      cases rest with
      | nil => exact b0 _
      | cons nxt rest2 =>
        cases hn : nxt.kind with
        | filter f a =>
          simp only [hn]
          have h3 := sumE_top (hev f) hr ((List.take_sublist maxWildcardResults _).trans hs)
          have h4 := b2 (List.filter_sublist.trans ((List.take_sublist maxWildcardResults _).trans hs)) (routeFilterW_le ((((topElems env.ord xml).filter (fun e => cur.matchesOpt e.name cs)).take maxWildcardResults).filter (ev f)) a rest2 kw2)
          have h5 : segMarks nxt = marks f.path + 1 := by simp only [segMarks, hn]
          simp only [List.tail_cons] at h4
          simp only [sumBy, h5]
          exact both_le h3 h4 (by omega) (by omega)
        | field f => simpa [hn] using b0 _
        | count => simpa [hn] using b0 _
        | index j => simp only [hn]; exact up (b2 (List.Sublist.trans (List.take_sublist _ _) hs) (indexW_le _ _ _ _ _)) (by omega)
        | _ => simp only [hn]; exact up (b1 hs (firstMatchW_le _ _ _ _)) (by omega)
  | filter f a =>
    simp only
    have h3 := sumE_top (hev f) hr (List.Sublist.refl _)
    have h4 := b1 ((List.take_sublist maxWildcardResults _).trans List.filter_sublist) (routeFilterW_le (((topElems env.ord xml).filter (ev f)).take maxWildcardResults) a rest kw1)
    have h5 : segMarks cur = marks f.path + 1 := by simp only [segMarks, hk]
    have h6 := testedW_le (ev f) (evw f) maxWildcardResults (topElems env.ord xml)
    rw [h5]
    exact both_le (Nat.le_trans (by omega) h3) h4 (by omega) (by omega)
  | wild b =>
    cases b with
    | true =>
      have h5 : segMarks cur = 1 := by simp only [segMarks, hk]
      rw [h5]
      exact up (recursiveWO_le ho h2 hr rest) (by omega)
    | false => exact up (b1 (List.take_sublist _ _) (wildcardW_le _ _ _)) (by omega)
  | _ => simpa using b0 _

theorem execQWO_all {env : Env} (ho : env.ord.IsPerm) {ev : Filter → Elem → Bool} {evw : Filter → Elem → Nat} (hev : ∀ f, WithinE (marks f.path) (evw f)) (cs : Bool) (ss : List Seg) (root : Bool) :
    Within env.ord (sumBy segMarks ss) (execQWO env ev evw cs ss root) := by
  match ss with
  | [] => intro c k hc; exact Nat.le_trans (by simp [execQWO]) (one_top (i := k) _)
  | [cur] =>
    intro c k hc
    have hw : Within env.ord 0 (fun _ => 1) := fun c k _ => by simp
    exact execBodyWO_all (ev := ev) (evw := evw) (cs := cs) (root := root) (rest := []) (k1 := fun _ => .null) (k2 := fun _ => .null) ho hw hw hev hc
  | cur :: nxt :: rest =>
    intro c k hc
    have h1 := execQWO_all ho (ev := ev) hev cs (nxt :: rest) false
    have h2 := execQWO_all ho (ev := ev) hev cs rest false
    exact execBodyWO_all (ev := ev) (evw := evw) (cs := cs) (root := root) (k1 := execQOpt env ev cs (nxt :: rest) false) (k2 := execQOpt env ev cs rest false) ho h1 h2 hev hc

/-- The query finds nothing, after at least so many searches. -/
theorem diggingO_work {env : Env} (ho : env.ord.IsPerm) {ev : Filter → Elem → Bool} {evw : Filter → Elem → Nat} (cs : Bool) (k : Nat) :
    ∀ (root : Bool) (d : Nat) (xml : Bytes), d ≤ 100 → Reads env.ord xml (nested d).info →
      execQOpt env ev cs (diggingSegs k) root xml = .null ∧ choose d k ≤ execQWO env ev evw cs (diggingSegs k) root xml := by
  induction k with
  | zero =>
    intro root d xml _ hr
    refine ⟨?_, ?_⟩
    · have hm : (topElems env.ord xml).filter (fun e => (nameSeg b!"z").matchesOpt e.name cs) = [] := by
        cases d with
        | zero => rw [nested_empty hr]; rfl
        | succ d =>
          obtain ⟨e, h1, h2, -⟩ := nested_reads hr
          rw [h1, List.filter_cons, h2]
          cases cs <;> rfl
      have hf : isFragmentQuery root [] = false := by simp [isFragmentQuery]
      simp only [diggingSegs, execQOpt, execBodyOpt, nameSeg, hf, Bool.false_and, Bool.false_eq_true, if_false, execElemOpt]
      rw [show (topElems env.ord xml).filter (fun e => Seg.matchesOpt ⟨.elem b!"z", []⟩ e.name cs) = [] from hm]
      rfl
    · have : choose d 0 = 1 := by cases d <;> rfl
      rw [this]
      simp only [diggingSegs, execQWO]
      omega
  | succ k ih =>
    intro root d xml hd hr
    obtain ⟨s, l, e1, e2⟩ := digging_head k
    have he : ∀ (e : Elem) (m : Nat), m < 100 → Writes e.content (nested m).info →
        recEmitOpt env cs (diggingSegs k) (execQOpt env ev cs (diggingSegs k) false) e = [] ∧ choose m k ≤ recEmitWO (diggingSegs k) (execQWO env ev evw cs (diggingSegs k) false) e := by
      intro e m hm hw
      obtain ⟨i1, i2⟩ := ih false m e.content (by omega) (writes_reads ho hw)
      rw [e1] at i1 i2 ⊢
      rcases e2 with e2 | e2
      · simp only [recEmitOpt, recEmitWO, e2]
        exact ⟨by rw [i1]; rfl, i2⟩
      · simp only [recEmitOpt, recEmitWO, e2]
        exact ⟨by rw [i1]; rfl, i2⟩
    obtain ⟨r1, -, r3⟩ := recSearch_nested ho (tgt := fun e => (nameSeg b!"a").matchesOpt e.name cs) (f := fun j => choose j k) (L := 100) (fun e h => by simp only [h]; cases cs <;> decide) he 100 d xml ⟨0, []⟩
      hr hd hd rfl (by simp only [maxRecursiveOperations]; omega)
    rw [sum_choose] at r3
    refine ⟨?_, ?_⟩
    · simp only [diggingSegs, execQOpt, execBodyOpt, handleRecursiveOpt, maxNestingDepth]
      rw [r1]
    · simp only [diggingSegs, execQWO, execBodyWO, recursiveWO, maxNestingDepth]
      omega

theorem lowSegs_marks (cs : Bool) (ss : List Seg) : sumBy segMarks (lowSegs cs ss) = sumBy segMarks ss := by
  unfold lowSegs
  split
  · rfl
  · induction ss with
    | nil => rfl
    | cons s ss ih =>
      have : segMarks (lowerSeg s) = segMarks s := by
        obtain ⟨k, m⟩ := s
        cases k <;> rfl
      simp only [List.map_cons, sumBy, ih, this]

theorem parseOpt_marks {path : Bytes} {cs : Bool} {ss : List Seg} (h : parsePathWithOptions path cs = .ok ss) : sumBy segMarks ss ≤ marks path := by
  cases hp : parsePath path with
  | ok l =>
    rw [parseOpt_low cs hp] at h
    simp only [Parse.ok.injEq] at h
    rw [← h, lowSegs_marks]
    exact parsePath_marks hp
  | panic => unfold parsePathWithOptions at h; rw [hp] at h; simp at h
  | err => unfold parsePathWithOptions at h; rw [hp] at h; simp at h

theorem digging_low (cs : Bool) (k : Nat) : lowSegs cs (diggingSegs k) = diggingSegs k := by
  unfold lowSegs
  split
  · rfl
  · induction k with
    | zero => rfl
    | succ k ih => simp only [diggingSegs, List.map_cons, ih]; rfl

end Verif
