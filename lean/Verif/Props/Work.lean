import Verif.Lemmas.Digging
import Verif.Lemmas.WorkAll
import Verif.Lemmas.WorkOpt
import Verif.Lemmas.AstrayStep
import Verif.Lemmas.Panic
import Verif.Spec.Decide
/-
C85: how much work a query is. The limit on the operations of `**` holds for each search, not for a query: a path with several `**` starts a search, with a counter of its own, for every
match of the search before. With `r` times `**` in the path, and no filter, the number of calls is below the (r+1)-th power of the number of elements plus two, and that is not far from what some queries take.
Filters raise the exponent, too.
-/
namespace Verif.Props
open Verif.Spec

/-- One search makes at most 10000 calls of recursiveSearchWithContext (get.go:102-104 MaxRecursiveOperations), whatever the document, the path and the options. -/
theorem C85_search (o : Ord) (tgt : Elem → Bool) (emit : Elem → List Result) (depth : Nat) (xml : Bytes) :
    recSearchW o tgt emit (fun _ => 0) depth xml ⟨0, []⟩ ≤ 10000 := by
  have h1 := recSearch_ops (o := o) (tgt := tgt) (emit := emit) depth xml ⟨0, []⟩ (by decide)
  have h2 := recSearchW_ops (o := o) (tgt := tgt) (emit := emit) depth xml ⟨0, []⟩
  rw [h2] at h1
  have : maxRecursiveOperations = 10000 := rfl
  simp only at h1
  omega

theorem deeps_fuse (ss : List Seg) : deeps (fuseFields ss) = deeps ss := by
  fun_induction fuseFields ss with
  | case1 => rfl
  | case2 => rfl
  | case3 s t r hs f hf _ ih =>
    have : t.kind ≠ .wild true := by intro e; rw [e] at hf; cases hf
    simp only [deeps, hs]
    rw [if_neg (by simp), if_neg (by simp), if_neg this, ih]; simp
  | case4 s t r hs f hf _ ih => rw [deeps, ih, deeps.eq_2 s]
  | case5 s t r hs hf ih => rw [deeps, ih, deeps.eq_2 s]
  | case6 s t r hs ih => rw [deeps, ih, deeps.eq_2 s]

theorem all2_right {α β : Type} {R : α → β → Prop} {as : List α} {bs : List β} (h : All2 R as bs) {b : β} (hb : b ∈ bs) : ∃ a ∈ as, R a b := by
  induction h with
  | nil => cases hb
  | cons h _ ih =>
    rcases List.mem_cons.mp hb with rfl | hb
    · exact ⟨_, List.mem_cons_self, h⟩
    · obtain ⟨a, ha, hr⟩ := ih hb
      exact ⟨a, List.mem_cons_of_mem _ ha, hr⟩

theorem deeps_count {ps : List Bytes} {ss : List Seg} (h : All2 IsSeg ps ss) : deeps ss = ps.countP (fun p => beforeBar p = b!"**") := by
  induction h with
  | nil => rfl
  | cons h _ ih =>
    rw [List.countP_cons, deeps, ih, Nat.add_comm]
    simp only [isSeg_deep h, decide_eq_true_eq]

/-- A query on a path without filter is fewer calls than this power of the number of elements, plus two; the exponent is one more than the number of `**`. -/
theorem C85_bound (env : Env) (ho : env.ord.IsPerm) (xml path : Bytes) (i : Info) (hs : Says xml i) (ps : List Bytes) (hp : PathSteps path ps) (hf : ∀ p ∈ ps, ¬ FilterStep p) :
    getW env xml path < (i.descendants.length + 2) ^ (ps.countP (fun p => beforeBar p = b!"**") + 1) := by
  have h0 : 0 < (i.descendants.length + 2) ^ (ps.countP (fun p => beforeBar p = b!"**") + 1) := Nat.pow_pos (by omega)
  unfold getW
  split
  · exact h0
  · rcases parsePath_reads hp with ⟨rfl, rfl⟩ | ⟨segs, e, ha⟩
    · exact h0
    · rw [e]
      match e2 : fuseFields segs with
      | [] => exact h0
      | s :: ss =>
        have hn : ∀ t ∈ s :: ss, ∀ f a, t.kind ≠ .filter f a := by
          intro t ht f a hk
          rw [← e2] at ht
          obtain ⟨kind, mods⟩ := t
          simp only at hk
          subst hk
          have hm := fuseFields_filter ht
          obtain ⟨p, hp1, hp2⟩ := all2_right ha hm
          exact hf p hp1 ((isSeg_filter_iff hp2).mpr ⟨f, a, rfl⟩)
        have := execQW_le ho (ev := evalFilter env) (evw := fun f => evalFilterW env (f.path.length + 1) f) (s :: ss) hn true xml i (says_reads ho hs)
        rw [← e2, deeps_fuse, deeps_count ha, e2] at this
        exact this

/-- In particular at most one call more than the document has elements, if there is no `**`. -/
theorem C85_linear (env : Env) (ho : env.ord.IsPerm) (xml path : Bytes) (i : Info) (hs : Says xml i) (ps : List Bytes) (hp : PathSteps path ps) (hf : ∀ p ∈ ps, ¬ FilterStep p)
    (hd : ∀ p ∈ ps, beforeBar p ≠ b!"**") : getW env xml path ≤ i.descendants.length + 1 := by
  have := C85_bound env ho xml path i hs ps hp hf
  rw [List.countP_eq_zero.mpr (fun p h => by simpa using hd p h), Nat.pow_one] at this
  omega

/-- For every path: the exponent is one more than the number of `*` and `(` in the path. -/
theorem C85_every (env : Env) (ho : env.ord.IsPerm) (xml path : Bytes) (i : Info) (hs : Says xml i) : getW env xml path < (i.descendants.length + 2) ^ (marks path + 1) := by
  have h0 : 0 < (i.descendants.length + 2) ^ (marks path + 1) := Nat.pow_pos (by omega)
  unfold getW
  split
  · exact h0
  · split
    · next s ss hp =>
      exact (execQW_all ho (ev := evalFilter env) (fun f => evalFilterW_all ho _ f) (s :: ss) true).mono (parsePath_marks hp) xml i (says_reads ho hs)
    · exact h0

example : marks b!"catalog.book.#(price>10)#.title" = 1 ∧ marks b!"**.a.#(b.#(c))" = 4 := by decide

theorem nested_length (n : Nat) : (nested n).render.length = 7 * n := by
  induction n with
  | zero => rfl
  | succ n ih => simp [nested, Forest.render, openTag, closeTag, ih]; omega

theorem nested_says {n : Nat} (hn : n ≤ 1000000) : Says (nested n).render (nested n).info := by
  refine ⟨by rw [nested_length]; omega, .done (nested n), ?_, ?_, rfl, rfl⟩
  · show (nested n).Loose
    induction n with
    | zero => trivial
    | succ n ih => exact ⟨by decide +kernel, by decide +kernel, by simp, ih (by omega), by decide +kernel, trivial⟩
  · show (nested n).Tame true
    generalize true = t
    induction n generalizing t with
    | zero => trivial
    | succ n ih => exact ⟨by decide, by decide, ih (by omega) false, trivial⟩

/-- `n` nested elements, at most 100, and the path `**.a.**.a. … .z` with `k` times `**`, at most 49: the result is Null, and there are at least `n` over `k` calls. No limit stops the query. -/
theorem C85_blowup (env : Env) (ho : env.ord.IsPerm) (n k : Nat) (hn : n ≤ 100) (hk : k ≤ 49) :
    get env (nested n).render (pathOf (digging k)) = .ret .null ∧ choose n k ≤ getW env (nested n).render (pathOf (digging k)) := by
  have hs := nested_says (n := n) (by omega)
  have hl : ¬ (nested n).render.length > maxDocumentSize := by rw [nested_length]; have : maxDocumentSize = 10485760 := rfl; omega
  obtain ⟨h1, h2⟩ := digging_work ho (ev := evalFilter env) (evw := fun f => evalFilterW env (f.path.length + 1) f) k true n _ hn (says_reads ho hs)
  obtain ⟨s, l, e, -⟩ := digging_head k
  unfold get getW
  rw [if_neg hl, if_neg hl, digging_parse hk]
  rw [e] at h1 h2 ⊢
  exact ⟨by simp only [executeQuery, h1], h2⟩

/-- The same with options, whatever they are. -/
theorem C85_every_options (env : Env) (ho : env.ord.IsPerm) (xml path : Bytes) (opts : Option Options) (i : Info) (hs : Says xml i) :
    getWithOptionsW env xml path opts < (i.descendants.length + 2) ^ (marks path + 1) := by
  have h0 : 0 < (i.descendants.length + 2) ^ (marks path + 1) := Nat.pow_pos (by omega)
  unfold getWithOptionsW
  split
  · exact h0
  · split
    · exact C85_every env ho xml path i hs
    · dsimp only
      split
      · next s ss hp =>
        exact (execQWO_all ho (ev := evalFilter env) (fun f => evalFilterW_all ho _ f) _ (s :: ss) true).mono (parseOpt_marks hp) xml i (says_reads ho hs)
      · exact h0

/-- And options do not stop it either. -/
theorem C85_blowup_options (env : Env) (ho : env.ord.IsPerm) (opts : Option Options) (n k : Nat) (hn : n ≤ 100) (hk : k ≤ 49) :
    getWithOptions env (nested n).render (pathOf (digging k)) opts = .ret .null ∧ choose n k ≤ getWithOptionsW env (nested n).render (pathOf (digging k)) opts := by
  have hs := nested_says (n := n) (by omega)
  have hl : ¬ (nested n).render.length > maxDocumentSize := by rw [nested_length]; have : maxDocumentSize = 10485760 := rfl; omega
  obtain ⟨b1, b2⟩ := C85_blowup env ho n k hn hk
  unfold get at b1
  rw [if_neg hl] at b1
  unfold getWithOptions getWithOptionsW
  rw [if_neg hl, if_neg hl]
  cases isDefaultOptions opts with
  | true => exact ⟨b1, b2⟩
  | false =>
    obtain ⟨h1, h2⟩ := diggingO_work ho (ev := evalFilter env) (evw := fun f => evalFilterW env (f.path.length + 1) f) (opts.getD defaultOptions).caseSensitive k true n _ hn (says_reads ho hs)
    obtain ⟨s, l, e, -⟩ := digging_head k
    simp only [Bool.false_eq_true, if_false, parseOpt_low _ (digging_parse hk), digging_low]
    rw [e] at h1 h2 ⊢
    exact ⟨by simp only [h1], h2⟩

/-! ### numbers -/

/-- One row of Pascal's triangle from the one before. -/
def nextRow (l : List Nat) : List Nat := 1 :: List.zipWith (· + ·) (l.drop 1 ++ [0]) l

def row : Nat → List Nat
  | 0 => [1]
  | n + 1 => nextRow (row n)

theorem choose_zero (n : Nat) : choose n 0 = 1 := by cases n <;> rfl

theorem choose_above (n k : Nat) (h : n < k) : choose n k = 0 := by
  induction n generalizing k with
  | zero => cases k with
    | zero => omega
    | succ k => rfl
  | succ n ih => cases k with
    | zero => omega
    | succ k => rw [choose, ih _ (by omega), ih _ (by omega)]

theorem row_choose (n : Nat) : row n = (List.range (n + 1)).map (choose n) := by
  induction n with
  | zero => rfl
  | succ n ih =>
    apply List.ext_getElem
    · simp [row, nextRow, ih]
    · intro j h1 h2
      simp only [row, nextRow, ih, List.getElem_map, List.getElem_range]
      cases j with
      | zero => simp [choose_zero]
      | succ j =>
        simp only [List.getElem_cons_succ, List.getElem_zipWith, List.getElem_map, List.getElem_range, choose]
        congr 1
        rw [List.getElem_append]
        split
        · simp [Nat.add_comm]
        · next h =>
          simp only [List.length_drop, List.length_map, List.length_range] at h
          rw [choose_above _ _ (by omega)]; simp

theorem choose_row (n k : Nat) : choose n k = (row n)[k]?.getD 0 := by
  rw [row_choose]
  by_cases h : k < n + 1
  · simp [h]
  · simp [h, choose_above n k (by omega)]

/-- 700 bytes of XML and a path of 246 bytes for which `Get` makes 98913082887808032681188722800 calls and more. -/
theorem C85_witness (env : Env) (ho : env.ord.IsPerm) :
    (nested 100).render.length = 700 ∧ (pathOf (digging 49)).length = 246 ∧ get env (nested 100).render (pathOf (digging 49)) = .ret .null ∧
      98913082887808032681188722800 ≤ getW env (nested 100).render (pathOf (digging 49)) := by
  obtain ⟨h1, h2⟩ := C85_blowup env ho 100 49 (by decide) (by decide)
  refine ⟨nested_length 100, by decide +kernel, h1, Nat.le_trans (Nat.le_of_eq ?_) h2⟩
  rw [choose_row]
  decide +kernel

example : (nested 2).render = b!"<a><a></a></a>" ∧ pathOf (digging 2) = b!"**.a.**.a.z" := by decide

end Verif.Props
