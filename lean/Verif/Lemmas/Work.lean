import Verif.Model.Work
import Verif.Lemmas.Ask
/- How much work a query is: bounds from above and below. -/
namespace Verif
open Spec

theorem sumBy_append {α : Type} (f : α → Nat) (l r : List α) : sumBy f (l ++ r) = sumBy f l + sumBy f r := by
  induction l with
  | nil => simp [sumBy]
  | cons a l ih => simp only [List.cons_append, sumBy, ih]; omega

theorem sumBy_sublist {α : Type} (f : α → Nat) {l r : List α} (h : l.Sublist r) : sumBy f l ≤ sumBy f r := by
  induction h with
  | slnil => exact Nat.le_refl _
  | cons a _ ih => simp only [sumBy]; omega
  | cons_cons a _ ih => simp only [sumBy]; omega

theorem sumBy_mem {α : Type} (f : α → Nat) {l : List α} {a : α} (h : a ∈ l) : f a ≤ sumBy f l := by
  induction l with
  | nil => cases h
  | cons b l ih =>
    simp only [sumBy]
    rcases List.mem_cons.mp h with rfl | h
    · omega
    · have := ih h; omega

theorem sumBy_mono {α : Type} {f g : α → Nat} {l : List α} (h : ∀ a ∈ l, f a ≤ g a) : sumBy f l ≤ sumBy g l := by
  induction l with
  | nil => exact Nat.le_refl _
  | cons a l ih =>
    have h1 := h a (by simp)
    have h2 := ih fun x hx => h x (by simp [hx])
    simp only [sumBy]; omega

/-- Powers grow faster than sums. -/
theorem pow_super (x d p : Nat) : (x + 1) ^ (p + 1) + (d + 1) ^ (p + 1) ≤ (d + x + 1) ^ (p + 1) + 1 := by
  induction p with
  | zero => simp; omega
  | succ p ih =>
    obtain ⟨A, hA⟩ : ∃ A, (x + 1) ^ (p + 1) = A + 1 := ⟨(x + 1) ^ (p + 1) - 1, by have := Nat.pow_pos (n := p + 1) (show 0 < x + 1 by omega); omega⟩
    obtain ⟨B, hB⟩ : ∃ B, (d + 1) ^ (p + 1) = B + 1 := ⟨(d + 1) ^ (p + 1) - 1, by have := Nat.pow_pos (n := p + 1) (show 0 < d + 1 by omega); omega⟩
    rw [Nat.pow_succ (x + 1), Nat.pow_succ (d + 1), Nat.pow_succ (d + x + 1)]
    rw [hA, hB] at ih ⊢
    have h : (A + B + 1) * (d + x + 1) ≤ (d + x + 1) ^ (p + 1) * (d + x + 1) := Nat.mul_le_mul_right _ (by omega)
    refine Nat.le_trans ?_ (Nat.add_le_add_right h 1)
    simp only [Nat.add_mul, Nat.mul_add, Nat.one_mul, Nat.mul_one]
    omega

/-- The number of elements, from the elements of the level. -/
theorem sum_elems (i : Info) : sumBy (fun nd => 1 + nd.kids.descendants.length) i.elems = i.descendants.length := by
  induction i with
  | nil => rfl
  | text b next ih => exact ih
  | misc b next ih => exact ih
  | elem n a k next _ ih =>
    simp only [Info.elems, sumBy, ih, Info.descendants, List.length_append, List.length_cons]
    omega

/-- Work of at most the power. -/
def Within (o : Ord) (r : Nat) (f : Bytes → Nat) : Prop := ∀ c k, Reads o c k → f c + 1 ≤ (k.descendants.length + 2) ^ (r + 1)

theorem Within.mono {o : Ord} {r s : Nat} {f : Bytes → Nat} (h : Within o r f) (hs : r ≤ s) : Within o s f := fun c k hc =>
  Nat.le_trans (h c k hc) (Nat.pow_le_pow_right (by omega) (by omega))

theorem sum_level {o : Ord} (ho : o.IsPerm) {r : Nat} {f : Bytes → Nat} (h : Within o r f) {es : List Elem} {nds : List Node} (hr : All2 Rep es nds) :
    sumBy (fun e => f e.content) es + 1 ≤ (sumBy (fun nd => 1 + nd.kids.descendants.length) nds + 1) ^ (r + 1) := by
  induction hr with
  | nil => simp [sumBy]
  | @cons e nd es nds hd _ ih =>
    have h1 := h _ _ (writes_reads ho hd.content)
    have h2 := pow_super (1 + nd.kids.descendants.length) (sumBy (fun nd => 1 + nd.kids.descendants.length) nds) r
    simp only [sumBy]
    rw [show 1 + nd.kids.descendants.length + 1 = nd.kids.descendants.length + 2 by omega] at h2
    rw [show 1 + nd.kids.descendants.length + sumBy (fun nd => 1 + nd.kids.descendants.length) nds + 1 =
      sumBy (fun nd => 1 + nd.kids.descendants.length) nds + (1 + nd.kids.descendants.length) + 1 by omega]
    omega

theorem sum_top {o : Ord} (ho : o.IsPerm) {r : Nat} {f : Bytes → Nat} (h : Within o r f) {xml : Bytes} {i : Info} (hr : Reads o xml i) {es : List Elem}
    (hs : es.Sublist (topElems o xml)) : 1 + sumBy (fun e => f e.content) es + 1 ≤ (i.descendants.length + 2) ^ (r + 1) := by
  have h1 := sum_level ho h hr
  rw [sum_elems] at h1
  have h2 := sumBy_sublist (fun e => f e.content) hs
  have h3 : (i.descendants.length + 1) ^ (r + 1) + 1 ≤ (i.descendants.length + 2) ^ (r + 1) := Nat.pow_lt_pow_left (by omega) (by omega)
  omega

theorem one_top {i : Info} (r : Nat) : 1 + 0 + 1 ≤ (i.descendants.length + 2) ^ (r + 1) :=
  Nat.le_trans (show 2 ≤ i.descendants.length + 2 by omega) (by
    have := Nat.pow_le_pow_right (show 0 < i.descendants.length + 2 by omega) (show 1 ≤ r + 1 by omega)
    simpa using this)

/-! ### the search for `**` -/

theorem recSearchW_le {o : Ord} (ho : o.IsPerm) {tgt : Elem → Bool} {emit : Elem → List Result} {emitW : Elem → Nat} {L G : Nat}
    (he : ∀ e nd, Rep e nd → nd.kids.descendants.length < L → emitW e ≤ G) (n : Nat) :
    ∀ (xml : Bytes) (i : Info) (st : SearchSt), Reads o xml i → i.descendants.length ≤ L → recSearchW o tgt emit emitW n xml st ≤ 1 + i.descendants.length * (1 + G) := by
  induction n with
  | zero => intro xml i st _ _; exact Nat.le_add_right 1 _
  | succ n ih =>
    intro xml i st hr hL
    have key : ∀ (es : List Elem) (nds : List Node) (st : SearchSt), All2 Rep es nds → sumBy (fun nd => 1 + nd.kids.descendants.length) nds ≤ L →
        recLoopW (recSearch o tgt emit n) (recSearchW o tgt emit emitW n) tgt emit emitW es st ≤ sumBy (fun nd => 1 + nd.kids.descendants.length) nds * (1 + G) := by
      intro es
      induction es with
      | nil => intro nds st _ _; simp [recLoopW]
      | cons e es ihe =>
        intro nds st h hl
        cases h with
        | @cons _ nd _ nds hd ht =>
          simp only [sumBy] at hl
          have hw := writes_reads ho hd.content
          have h1 := ih e.content nd.kids st hw (by omega)
          have h2 := he e nd hd (by omega)
          have h3 : ∀ st, recLoopW (recSearch o tgt emit n) (recSearchW o tgt emit emitW n) tgt emit emitW es st ≤
              sumBy (fun nd => 1 + nd.kids.descendants.length) nds * (1 + G) := fun st => ihe nds st ht (by omega)
          have h4 : ∀ (b : Bool), (if b then recSearchW o tgt emit emitW n e.content st else 0) ≤ 1 + nd.kids.descendants.length * (1 + G) := fun b => by
            cases b
            · exact Nat.zero_le _
            · exact h1
          simp only [recLoopW, sumBy, Nat.add_mul, Nat.one_mul]
          have h5 := h4 (!e.selfClosing && !e.content.isEmpty)
          generalize (if (!e.selfClosing && !e.content.isEmpty) = true then recSearchW o tgt emit emitW n e.content st else 0) = w at h5 ⊢
          generalize (if (!e.selfClosing && !e.content.isEmpty) = true then recSearch o tgt emit n e.content st else st) = st1
          split
          · omega
          · split
            · split
              · omega
              · have := h3 { st1 with res := st1.res ++ emit e }
                omega
            · have := h3 st1
              omega
    rw [recSearchW]
    split
    · exact Nat.le_add_right 1 _
    · have := key _ _ { st with ops := st.ops + 1 } hr (by rw [sum_elems]; exact hL)
      rw [sum_elems] at this
      omega

theorem recursiveW_le {env : Env} (ho : env.ord.IsPerm) {r : Nat} {k : Bytes → Result} {kw : Bytes → Nat} (h : Within env.ord r kw) {xml : Bytes} {i : Info}
    (hr : Reads env.ord xml i) (rest : List Seg) : 1 + recursiveW env rest k kw xml + 1 ≤ (i.descendants.length + 2) ^ (r + 1 + 1) := by
  cases rest with
  | nil => exact one_top _
  | cons tgt rest2 =>
    simp only [recursiveW]
    obtain ⟨G, hG⟩ : ∃ G, (i.descendants.length + 1) ^ (r + 1) = G + 1 :=
      ⟨(i.descendants.length + 1) ^ (r + 1) - 1, by have := Nat.pow_pos (n := r + 1) (show 0 < i.descendants.length + 1 by omega); omega⟩
    have h1 := recSearchW_le ho (tgt := fun e => tgt.matches e.name) (emit := recEmit env rest2 k) (emitW := recEmitW rest2 kw) (L := i.descendants.length) (G := G) (fun e nd hd hl => by
      have h2 := h _ _ (writes_reads ho hd.content)
      have h3 := Nat.pow_le_pow_left (show nd.kids.descendants.length + 2 ≤ i.descendants.length + 1 by omega) (r + 1)
      have h4 : recEmitW rest2 kw e ≤ kw e.content := by
        cases rest2 with
        | nil => exact Nat.zero_le _
        | cons s l => simp only [recEmitW]; split <;> omega
      omega) (maxNestingDepth + 1) xml i ⟨0, []⟩ hr (Nat.le_refl _)
    have h5 : (i.descendants.length + 1) ^ (r + 1) + 1 ≤ (i.descendants.length + 2) ^ (r + 1) := Nat.pow_lt_pow_left (by omega) (by omega)
    have h6 : (G + 2) * (i.descendants.length + 2) ≤ (i.descendants.length + 2) ^ (r + 1 + 1) := by
      rw [Nat.pow_succ]
      exact Nat.mul_le_mul_right _ (by omega)
    refine Nat.le_trans ?_ h6
    simp only [Nat.add_mul, Nat.mul_add, Nat.one_mul, Nat.mul_one] at h1 ⊢
    have := Nat.mul_comm G i.descendants.length
    omega

/-! ### whole paths -/

/-- The number of `**`. -/
def deeps : List Seg → Nat
  | [] => 0
  | s :: ss => (if s.kind = .wild true then 1 else 0) + deeps ss

theorem deeps_tail (s : Seg) (ss : List Seg) : deeps ss ≤ deeps (s :: ss) := by simp only [deeps]; omega

theorem processFirstW_le (m : Elem) (rest : List Seg) (kw : Bytes → Nat) : processFirstW m rest kw ≤ kw m.content := by
  cases rest with
  | nil => exact Nat.zero_le _
  | cons s l => simp only [processFirstW]; split <;> omega

theorem firstMatchW_le (rest : List Seg) (k : Bytes → Result) (kw : Bytes → Nat) (ms : List Elem) : firstMatchW rest k kw ms ≤ sumBy (fun m => kw m.content) ms := by
  induction ms with
  | nil => exact Nat.le_refl _
  | cons m ms ih =>
    cases rest with
    | nil => exact Nat.zero_le _
    | cons s l =>
      simp only [firstMatchW, sumBy]
      split
      · omega
      · omega
      · split <;> omega

theorem indexW_le (ms : List Elem) (nxt : Seg) (rest2 : List Seg) (t : Bool) (kw : Bytes → Nat) : indexW ms nxt rest2 t kw ≤ sumBy (fun m => kw m.content) ms := by
  unfold indexW
  split
  · split
    · exact Nat.zero_le _
    · split
      · exact Nat.zero_le _
      · rename_i m hm
        have := sumBy_mem (fun m : Elem => kw m.content) (List.mem_of_getElem? hm)
        split
        · exact Nat.zero_le _
        · split
          · exact Nat.zero_le _
          · split <;> omega
          · exact this
  · exact Nat.zero_le _

theorem wildcardW_le (ms : List Elem) (rest : List Seg) (kw : Bytes → Nat) : wildcardW ms rest kw ≤ sumBy (fun m => kw m.content) ms := by
  cases rest with
  | nil => exact Nat.zero_le _
  | cons s l => simp only [wildcardW]; split <;> omega

/-- One segment that is no filter and has none behind it. -/
theorem execBodyW_le {env : Env} (ho : env.ord.IsPerm) {ev : Filter → Elem → Bool} {evw : Filter → Elem → Nat} {root : Bool} {cur : Seg} {rest : List Seg}
    {k1 k2 : Bytes → Result} {kw1 kw2 : Bytes → Nat} {r1 r2 : Nat} (h1 : Within env.ord r1 kw1) (h2 : Within env.ord r2 kw2) (h12 : r2 ≤ r1) (hf : ∀ s ∈ cur :: rest, ∀ f a, s.kind ≠ .filter f a)
    {xml : Bytes} {i : Info} (hr : Reads env.ord xml i) :
    1 + execBodyW env ev evw root cur rest k1 k2 kw1 kw2 xml + 1 ≤ (i.descendants.length + 2) ^ ((if cur.kind = .wild true then r2 + 1 else r1) + 1) := by
  have b1 : ∀ {es : List Elem} {w : Nat}, es.Sublist (topElems env.ord xml) → w ≤ sumBy (fun e => kw1 e.content) es → 1 + w + 1 ≤ (i.descendants.length + 2) ^ (r1 + 1) :=
    fun hs hw => Nat.le_trans (by omega) (sum_top ho h1 hr hs)
  have b2 : ∀ {es : List Elem} {w : Nat}, es.Sublist (topElems env.ord xml) → w ≤ sumBy (fun e => kw2 e.content) es → 1 + w + 1 ≤ (i.descendants.length + 2) ^ (r1 + 1) :=
    fun hs hw => Nat.le_trans (by omega) (sum_top ho (h2.mono h12) hr hs)
  have b0 := one_top (i := i) r1
  unfold execBodyW
  cases hk : cur.kind with
  | elem v =>
    simp only [reduceCtorEq, if_false]
    split
    · cases rest with
      | nil => exact b0
      | cons nxt rest2 => exact b2 (List.Sublist.trans (List.take_sublist _ _) List.filter_sublist) (indexW_le _ _ _ _ _)
    · unfold execElemW
      have hs : ((topElems env.ord xml).filter (fun e => cur.matches e.name)).Sublist (topElems env.ord xml) := List.filter_sublist
      cases rest with
      | nil => exact b0
      | cons nxt rest2 =>
        cases hn : nxt.kind with
        | filter f a => exact absurd hn (hf nxt (by simp) f a)
        | field f => simpa [hn] using b0
        | count => simpa [hn] using b0
        | index j => simp only [hn]; exact b2 (List.Sublist.trans (List.take_sublist _ _) hs) (indexW_le _ _ _ _ _)
        | _ => simp only [hn]; exact b1 hs (firstMatchW_le _ _ _ _)
  | filter f a => exact absurd hk (hf cur (by simp) f a)
  | wild b =>
    cases b with
    | true => rw [if_pos rfl]; exact recursiveW_le ho h2 hr rest
    | false => rw [if_neg (by simp)]; exact b1 (List.take_sublist _ _) (wildcardW_le _ _ _)
  | _ => simpa using b0

theorem execQW_le {env : Env} (ho : env.ord.IsPerm) {ev : Filter → Elem → Bool} {evw : Filter → Elem → Nat} (ss : List Seg) (hf : ∀ s ∈ ss, ∀ f a, s.kind ≠ .filter f a) (root : Bool) :
    Within env.ord (deeps ss) (execQW env ev evw ss root) := by
  match ss with
  | [] => intro c k hc; exact Nat.le_trans (by simp [execQW]) (one_top (i := k) _)
  | [cur] =>
    intro c k hc
    have hw : Within env.ord 0 (fun _ => 1) := fun c k _ => by simp
    have := execBodyW_le (ev := ev) (evw := evw) (root := root) (k1 := fun _ => .null) (k2 := fun _ => .null) ho hw hw (Nat.le_refl _) hf hc
    simp only [execQW, deeps]
    refine Nat.le_trans this (Nat.pow_le_pow_right (by omega) ?_)
    split <;> simp
  | cur :: nxt :: rest =>
    intro c k hc
    have h1 := execQW_le ho (ev := ev) (evw := evw) (nxt :: rest) (fun s hs => hf s (by simp [hs])) false
    have h2 := execQW_le ho (ev := ev) (evw := evw) rest (fun s hs => hf s (by simp [hs])) false
    have := execBodyW_le (ev := ev) (evw := evw) (root := root) (k1 := execQ env ev (nxt :: rest) false) (k2 := execQ env ev rest false) ho h1 h2 (deeps_tail _ _) hf hc
    simp only [execQW]
    refine Nat.le_trans this (Nat.pow_le_pow_right (by omega) ?_)
    have := deeps_tail nxt rest
    have : deeps (cur :: nxt :: rest) = (if cur.kind = .wild true then 1 else 0) + deeps (nxt :: rest) := rfl
    split <;> simp_all <;> omega

end Verif
