import Verif.Lemmas.Options
import Verif.Spec.Limit
/- How many results a query can have. -/
namespace Verif
open Spec

/-- A result that is there and is not a list. -/
def Single (x : Result) : Prop := x.typ ≠ .array ∧ x.typ ≠ .null

theorem content_single (c : Bytes) : Single (.ofContent c) := ⟨ofContent_typ _, by simp⟩
theorem attr_single (c : Bytes) : Single (.ofAttr c) := ⟨ofAttr_typ _, by simp⟩
theorem text_single (c : Bytes) : Single (.ofText c) := ⟨ofText_typ _, by simp⟩

/-- At most `B` results, none of which is an array or missing; an array has no text of its own. -/
def Inv (B : Nat) (r : Result) : Prop := r.array.length ≤ B ∧ (∀ x ∈ r.array, Single x) ∧ (r.typ = .array → r.raw = [])

theorem asList_eq (r : Result) : asList r = r.array := by
  obtain ⟨t, raw, s, n, l⟩ := r
  cases t <;> simp [asList, Result.array, Result.typ, Result.results]

theorem Inv.mono {B C : Nat} {r : Result} (h : Inv B r) (hb : B ≤ C) : Inv C r := ⟨Nat.le_trans h.1 hb, h.2⟩

theorem inv_single {B : Nat} {r : Result} (h : r.typ ≠ .array) (hb : 1 ≤ B) : Inv B r := by
  unfold Inv Result.array
  rw [if_neg h]
  split
  · simp [h]
  · rename_i h2
    simp [h]; exact ⟨hb, h, h2⟩

theorem inv_arr {B : Nat} {l : List Result} (h : l.length ≤ B) (hl : ∀ x ∈ l, Single x) : Inv B (.ofArray l) := ⟨h, hl, fun _ => rfl⟩

theorem inv_pack {B : Nat} {l : List Result} (h : l.length ≤ B) (hb : 1 ≤ B) (hl : ∀ x ∈ l, Single x) : Inv B (packResults l) := by
  match l with
  | [] => exact inv_arr h hl
  | [r] => exact inv_single (hl r (List.mem_cons_self ..)).1 hb
  | a :: b :: c => exact inv_arr h hl

theorem pow_pos' (n : Nat) : 1 ≤ 1000 ^ n := Nat.one_le_pow _ _ (by omega)

theorem flatMap_length {α β : Type} (l : List α) (f : α → List β) {B : Nat} (h : ∀ a, (f a).length ≤ B) : (l.flatMap f).length ≤ l.length * B := by
  induction l with
  | nil => simp
  | cons a l ih =>
    have := h a
    rw [List.flatMap_cons, List.length_append, List.length_cons, Nat.add_mul]; omega

theorem inv_ite {B : Nat} {c : Prop} [Decidable c] {a b : Result} (ha : Inv B a) (hb : Inv B b) : Inv B (if c then a else b) := by
  split
  · exact ha
  · exact hb

/-- All contributions put together. -/
theorem inv_all {ms : List Elem} {g : Elem → List Result} {n : Nat} (hm : ms.length ≤ 1000) (hg : ∀ m, (g m).length ≤ 1000 ^ n ∧ ∀ x ∈ g m, Single x) :
    Inv (1000 ^ (n + 1)) (packResults (ms.flatMap g)) := by
  refine inv_pack ?_ (pow_pos' _) fun x hx => ?_
  · have h1 := flatMap_length ms g (fun m => (hg m).1)
    have h2 : ms.length * 1000 ^ n ≤ 1000 * 1000 ^ n := Nat.mul_le_mul_right _ hm
    rw [Nat.pow_succ, Nat.mul_comm]; omega
  · obtain ⟨m, -, hx⟩ := List.mem_flatMap.mp hx
    exact (hg m).2 x hx

/-- Does the segment multiply results. -/
def Seg.multi (s : Seg) : Nat :=
  match s.kind with
  | .wild _ => 1
  | .filter _ true => 1
  | .field _ => 1
  | _ => 0

/-- Number of such segments. -/
def mult (ss : List Seg) : Nat := (ss.map Seg.multi).sum

theorem mult_cons (s : Seg) (ss : List Seg) : mult (s :: ss) = s.multi + mult ss := by simp [mult]

theorem fieldExtraction_inv (env : Env) (ms : List Elem) (f : Bytes) : Inv 1000 (fieldExtraction env ms f []) := by
  unfold fieldExtraction
  split
  · exact inv_single null_typ (by omega)
  · simp only [runMods_nil]
    split
    · exact inv_arr (by simp) (by simp)
    · refine inv_arr (by rw [List.length_take]; unfold maxWildcardResults; omega) fun x hx => ?_
      obtain ⟨m, -, hx⟩ := List.mem_flatMap.mp (List.mem_of_mem_take hx)
      unfold fieldValues at hx
      simp only at hx
      split at hx
      · split at hx
        · simp only [List.mem_singleton] at hx; subst hx; exact attr_single _
        · simp at hx
      · split at hx
        · split at hx
          · simp at hx
          · simp only [List.mem_singleton] at hx; subst hx; simp [Single, Result.typ]
        · obtain ⟨e, -, rfl⟩ := List.mem_map.mp hx; exact content_single _

theorem small_nil {n : Nat} : ([] : List Result).length ≤ 1000 ^ n ∧ ∀ x ∈ ([] : List Result), Single x := by simp

theorem small_one {n : Nat} {r : Result} (h : Single r) : ([r] : List Result).length ≤ 1000 ^ n ∧ ∀ x ∈ [r], Single x := by
  refine ⟨?_, by simpa using h⟩
  simpa using pow_pos' n

theorem small_k {n : Nat} {r : Result} (h : Inv (1000 ^ n) r) : (asList r).length ≤ 1000 ^ n ∧ ∀ x ∈ asList r, Single x := by
  rw [asList_eq]; exact ⟨h.1, h.2.1⟩

theorem handleWildcard_inv {env : Env} {ms : List Elem} {rest : List Seg} {k : Bytes → Result} (hms : ms.length ≤ 1000) (hk : ∀ c, Inv (1000 ^ mult rest) (k c))
    (hm : ∀ s ∈ rest, s.mods = []) : Inv (1000 ^ (mult rest + 1)) (handleWildcard env ms rest k) := by
  cases rest with
  | nil =>
    refine inv_pack (by simpa [mult] using hms) (pow_pos' _) (fun x hx => by obtain ⟨m, -, rfl⟩ := List.mem_map.mp hx; exact content_single _)
  | cons nxt rest2 =>
    have hm := hm nxt (List.mem_cons_self ..)
    simp only [handleWildcard, hm, runMods_nil]
    refine inv_ite (inv_ite (inv_arr (by simp) (by simp)) (inv_single null_typ (pow_pos' _))) ?_
    · refine inv_all hms fun m => ?_
      split
      · split
        · split
          · exact small_one (attr_single _)
          · exact small_nil
        · exact small_nil
      · exact small_one (text_single _)
      · exact small_k (hk _)

theorem fragmentRoots_inv {env : Env} {ms : List Elem} {nxt : Seg} {rest2 : List Seg} {k2 : Bytes → Result} (hk : ∀ c, Inv (1000 ^ mult rest2) (k2 c)) (hn : nxt.mods = []) :
    Inv (1000 ^ mult (nxt :: rest2)) (fragmentRoots env ms nxt rest2 k2) := by
  unfold fragmentRoots
  rw [mult_cons]
  have h1 := pow_pos' (nxt.multi + mult rest2)
  split
  · exact inv_single null_typ h1
  · split
    · rename_i f hf
      rw [hn]
      refine (fieldExtraction_inv env ms f).mono ?_
      have : nxt.multi = 1 := by simp only [Seg.multi, hf]
      rw [this, Nat.pow_add]
      have := pow_pos' (mult rest2)
      omega
    · have hle : 1000 ^ mult rest2 ≤ 1000 ^ (nxt.multi + mult rest2) := Nat.pow_le_pow_right (by omega) (by omega)
      repeat' split
      all_goals first | exact (hk _).mono hle | exact inv_single null_typ h1 | exact inv_single (ofContent_typ _) h1 | exact inv_single (ofAttr_typ _) h1 |
        exact inv_single (ofText_typ _) h1 | exact inv_single (ofCount_typ _) h1
    · exact inv_single (ofCount_typ _) h1
    · exact inv_single null_typ h1

theorem arrayOp_inv {env : Env} {ms : List Elem} {nxt : Seg} {rest2 : List Seg} {k2 : Bytes → Result} (hk : ∀ c, Inv (1000 ^ mult rest2) (k2 c)) (hn : nxt.mods = [])
    (hm : ∀ s ∈ rest2, s.mods = []) : Inv (1000 ^ mult (nxt :: rest2)) (arrayOp env ms nxt rest2 k2) := by
  unfold arrayOp
  rw [hn, mult_cons]
  have h1 := pow_pos' (nxt.multi + mult rest2)
  have hle : 1000 ^ mult rest2 ≤ 1000 ^ (nxt.multi + mult rest2) := Nat.pow_le_pow_right (by omega) (by omega)
  cases rest2 with
  | nil =>
    simp only [runMods_nil]
    repeat' split
    all_goals first | exact (hk _).mono hle | exact inv_single null_typ h1 | exact inv_single (ofContent_typ _) h1 | exact inv_single (ofCount_typ _) h1
  | cons s r =>
    simp only [runMods_nil, hm s (List.mem_cons_self ..)]
    repeat' split
    all_goals first | exact (hk _).mono hle | exact inv_single null_typ h1 | exact inv_single (ofAttr_typ _) h1 | exact inv_single (ofCount_typ _) h1

theorem firstMatch_inv {env : Env} {cur : Seg} {rest : List Seg} {k : Bytes → Result} {ms : List Elem} (hk : ∀ c, Inv (1000 ^ mult rest) (k c)) (hc : cur.mods = [])
    (hm : ∀ s ∈ rest, s.mods = []) : Inv (1000 ^ mult rest) (firstMatch env cur rest k ms) := by
  have h1 := pow_pos' (mult rest)
  induction ms with
  | nil => exact inv_single null_typ h1
  | cons m ms ih =>
    cases rest with
    | nil => simp only [firstMatch, hc, runMods_nil]; exact inv_single (ofContent_typ _) h1
    | cons nxt r =>
      simp only [firstMatch, hm nxt (List.mem_cons_self ..), runMods_nil]
      repeat' split
      all_goals first | exact hk _ | exact inv_single null_typ h1 | exact inv_single (ofAttr_typ _) h1 | exact inv_single (ofText_typ _) h1 | exact ih

theorem routeFilter_inv {env : Env} {ms : List Elem} {seg : Seg} {all : Bool} {rest : List Seg} {k : Bytes → Result} (hms : ms.length ≤ 1000) (hk : ∀ c, Inv (1000 ^ mult rest) (k c))
    (hs : seg.mods = []) (hm : ∀ s ∈ rest, s.mods = []) : Inv (1000 ^ ((if all then 1 else 0) + mult rest)) (routeFilter env ms seg all rest k) := by
  have h1 := pow_pos' ((if all then 1 else 0) + mult rest)
  cases ms with
  | nil => exact inv_single null_typ h1
  | cons m ms =>
    simp only [routeFilter]
    split
    · rename_i ha
      subst ha
      simp only [if_true] at *
      rw [Nat.add_comm] at *
      cases rest with
      | nil =>
        simp only [processAll, hs, runMods_nil]
        refine inv_arr (by simpa [mult] using hms) fun x hx => ?_
        obtain ⟨m, -, rfl⟩ := List.mem_map.mp hx; exact content_single _
      | cons nxt r =>
        have hn := hm nxt (List.mem_cons_self ..)
        simp only [processAll, hn, runMods_nil]
        split
        · refine (fieldExtraction_inv env _ _).mono ?_
          have := pow_pos' (mult (nxt :: r))
          rw [Nat.pow_succ]; omega
        · refine inv_ite (inv_single null_typ h1) ?_
          · refine inv_all hms fun m => ?_
            split
            · split
              · exact small_one (attr_single _)
              · exact small_nil
            · exact small_one (text_single _)
            · exact small_k (hk _)
    · rename_i ha
      simp only [ha] at *
      simp only [Bool.false_eq_true, if_false, Nat.zero_add] at *
      cases rest with
      | nil => simp only [processFirst, hs, runMods_nil]; exact inv_single (ofContent_typ _) h1
      | cons nxt r =>
        have hn := hm nxt (List.mem_cons_self ..)
        simp only [processFirst, hn, runMods_nil]
        split
        · split
          · exact inv_single (ofAttr_typ _) h1
          · exact inv_single null_typ h1
        · exact inv_single (ofText_typ _) h1
        · rename_i f hf
          refine (fieldExtraction_inv env _ _).mono ?_
          have h2 : nxt.multi = 1 := by simp only [Seg.multi, hf]
          have := pow_pos' (mult r)
          rw [mult_cons, h2, Nat.pow_add]; omega
        · exact hk _

theorem recSearch_length {o : Ord} {tgt : Elem → Bool} {emit : Elem → List Result} {B : Nat} (he : ∀ e, (emit e).length ≤ B) (n : Nat) :
    ∀ (xml : Bytes) (st : SearchSt), st.res.length ≤ 999 + B → (recSearch o tgt emit n xml st).res.length ≤ 999 + B := by
  induction n with
  | zero => intro xml st h; exact h
  | succ n ih =>
    intro xml st h
    simp only [recSearch]
    split
    · exact h
    · have key : ∀ (es : List Elem) (st : SearchSt), st.res.length ≤ 999 + B → (recLoop (recSearch o tgt emit n) tgt emit es st).res.length ≤ 999 + B := by
        intro es
        induction es with
        | nil => intro st h; exact h
        | cons e es ihe =>
          intro st h
          have h1 : (if !e.selfClosing && !e.content.isEmpty then recSearch o tgt emit n e.content st else st).res.length ≤ 999 + B := by
            split
            · exact ih _ _ h
            · exact h
          simp only [recLoop]
          generalize (if !e.selfClosing && !e.content.isEmpty then recSearch o tgt emit n e.content st else st) = st1 at h1
          split
          · exact h1
          · split
            · split
              · exact h1
              · rename_i hlt
                refine ihe _ ?_
                have := he e
                simp only [maxWildcardResults] at hlt
                simp only [List.length_append]; omega
            · exact ihe _ h1
      exact key _ _ h

theorem handleRecursive_inv {env : Env} {rest : List Seg} {k : Bytes → Result} {xml : Bytes} (hk : ∀ c, Inv (1000 ^ mult rest.tail) (k c)) (hm : ∀ s ∈ rest, s.mods = []) :
    Inv (1000 ^ (mult rest + 1)) (handleRecursive env rest k xml) := by
  have h1 := pow_pos' (mult rest + 1)
  cases rest with
  | nil => exact inv_single null_typ h1
  | cons tgt rest2 =>
    simp only [List.tail_cons] at hk
    simp only [handleRecursive]
    have hemit : ∀ e, (recEmit env rest2 k e).length ≤ 1000 ^ mult rest2 ∧ ∀ x ∈ recEmit env rest2 k e, Single x := by
      intro e
      cases rest2 with
      | nil => exact small_one (content_single _)
      | cons nxt r =>
        have hn := hm nxt (by simp)
        simp only [recEmit, hn]
        split
        · split
          · split
            · exact small_one (attr_single _)
            · exact small_nil
          · exact small_nil
        · exact small_one (text_single _)
        · rename_i f hf
          have h2 : nxt.multi = 1 := by simp only [Seg.multi, hf]
          have := pow_pos' (mult r)
          have h3 : Inv (1000 ^ mult (nxt :: r)) (fieldExtraction env [e] f []) := (fieldExtraction_inv env [e] f).mono (by rw [mult_cons, h2, Nat.pow_add]; omega)
          split
          · rename_i ht
            have : (fieldExtraction env [e] f []).array = (fieldExtraction env [e] f []).results := by rw [Result.array, if_pos ht]
            rw [← this]; exact ⟨h3.1, h3.2.1⟩
          · exact small_nil
        · exact small_k (hk _)
    have hall := recSearch_all (o := env.ord) (tgt := fun e => tgt.matches e.name) (emit := recEmit env rest2 k) (P := Single)
      (fun e => (hemit e).2) (maxNestingDepth + 1) xml ⟨0, []⟩ (by simp)
    have hlen := recSearch_length (o := env.ord) (tgt := fun e => tgt.matches e.name) (emit := recEmit env rest2 k)
      (fun e => (hemit e).1) (maxNestingDepth + 1) xml ⟨0, []⟩ (by simp)
    generalize recSearch env.ord (fun e => tgt.matches e.name) (recEmit env rest2 k) (maxNestingDepth + 1) xml ⟨0, []⟩ = st at hall hlen
    split
    · exact inv_single null_typ h1
    · refine (inv_pack (B := 999 + 1000 ^ mult rest2) hlen (by have := pow_pos' (mult rest2); omega) hall).mono ?_
      have h2 := pow_pos' (mult rest2)
      have h3 : 1000 ^ mult rest2 ≤ 1000 ^ mult (tgt :: rest2) := Nat.pow_le_pow_right (by omega) (by rw [mult_cons]; omega)
      rw [Nat.pow_succ]; omega

theorem execElem_inv {env : Env} {ev : Filter → Elem → Bool} {cur : Seg} {rest : List Seg} {k1 k2 : Bytes → Result} {xml : Bytes} (hk1 : ∀ c, Inv (1000 ^ mult rest) (k1 c))
    (hk2 : ∀ c, Inv (1000 ^ mult rest.tail) (k2 c)) (hc : cur.mods = []) (hm : ∀ s ∈ rest, s.mods = []) : Inv (1000 ^ mult rest) (execElem env ev cur rest k1 k2 xml) := by
  cases rest with
  | nil => exact firstMatch_inv hk1 hc hm
  | cons nxt r =>
    have hn := hm nxt (List.mem_cons_self ..)
    have hr : ∀ s ∈ r, s.mods = [] := fun s hs => hm s (List.mem_cons_of_mem _ hs)
    simp only [List.tail_cons] at hk2
    simp only [execElem]
    split
    · rename_i f hf
      rw [hn]
      refine (fieldExtraction_inv env _ _).mono ?_
      have h2 : nxt.multi = 1 := by simp only [Seg.multi, hf]
      have := pow_pos' (mult r)
      rw [mult_cons, h2, Nat.pow_add]; omega
    · rename_i f all hf
      have h2 : nxt.multi = if all then 1 else 0 := by cases all <;> simp only [Seg.multi, hf] <;> rfl
      rw [mult_cons, h2]
      refine routeFilter_inv ?_ hk2 hn hr
      refine Nat.le_trans (List.length_filter_le ..) ?_
      rw [List.length_take]; unfold maxWildcardResults; omega
    · exact arrayOp_inv hk2 hn hr
    · exact arrayOp_inv hk2 hn hr
    · exact firstMatch_inv hk1 hc hm

theorem execBody_inv {env : Env} {ev : Filter → Elem → Bool} {root : Bool} {cur : Seg} {rest : List Seg} {k1 k2 : Bytes → Result} {xml : Bytes} (hk1 : ∀ c, Inv (1000 ^ mult rest) (k1 c))
    (hk2 : ∀ c, Inv (1000 ^ mult rest.tail) (k2 c)) (hc : cur.mods = []) (hm : ∀ s ∈ rest, s.mods = []) : Inv (1000 ^ mult (cur :: rest)) (execBody env ev root cur rest k1 k2 xml) := by
  have h1 := pow_pos' (mult (cur :: rest))
  have hle : 1000 ^ mult rest ≤ 1000 ^ mult (cur :: rest) := Nat.pow_le_pow_right (by omega) (by rw [mult_cons]; omega)
  unfold execBody
  split
  · split
    · split
      · exact inv_single null_typ h1
      · exact (fragmentRoots_inv hk2 (hm _ (List.mem_cons_self ..))).mono hle
    · exact (execElem_inv hk1 hk2 hc hm).mono hle
  · rename_i f all hf
    have h2 : cur.multi = if all then 1 else 0 := by cases all <;> simp only [Seg.multi, hf] <;> rfl
    rw [mult_cons, h2]
    exact routeFilter_inv (by rw [List.length_take]; unfold maxWildcardResults; omega) hk1 hc hm
  · exact inv_arr (by simp) (by simp)
  · exact inv_single null_typ h1
  · exact inv_single null_typ h1
  · exact inv_single null_typ h1
  · exact inv_single null_typ h1
  · rename_i hf
    have h2 : cur.multi = 1 := by simp only [Seg.multi, hf]
    rw [mult_cons, h2, Nat.add_comm]
    exact handleRecursive_inv hk2 hm
  · rename_i hf
    have h2 : cur.multi = 1 := by simp only [Seg.multi, hf]
    simp only
    split
    · exact inv_single null_typ h1
    · rw [hc, runMods_nil, ite_self, mult_cons, h2, Nat.add_comm]
      exact handleWildcard_inv (by rw [List.length_take]; unfold maxWildcardResults; omega) hk1 hm

theorem execQ_inv {env : Env} {ev : Filter → Elem → Bool} : ∀ (ss : List Seg), (∀ s ∈ ss, s.mods = []) → ∀ root xml, Inv (1000 ^ mult ss) (execQ env ev ss root xml)
  | [], _, _, _ => inv_single null_typ (pow_pos' _)
  | [cur], h, root, xml => execBody_inv (fun _ => inv_single null_typ (pow_pos' _)) (fun _ => inv_single null_typ (pow_pos' _)) (h cur (List.mem_cons_self ..)) (by simp)
  | cur :: nxt :: rest, h, root, xml =>
    execBody_inv (fun c => execQ_inv (nxt :: rest) (fun s hs => h s (List.mem_cons_of_mem _ hs)) _ c)
      (fun c => execQ_inv rest (fun s hs => h s (List.mem_cons_of_mem _ (List.mem_cons_of_mem _ hs))) _ c) (h cur (List.mem_cons_self ..))
      (fun s hs => h s (List.mem_cons_of_mem _ hs))

/-! ## From the text of a path -/

theorem fuseFields_mult (ss : List Seg) : mult (fuseFields ss) ≤ mult ss + (ss.countP (fun s => s.kind = .count)) := by
  fun_induction fuseFields ss with
  | case1 => simp
  | case2 s => omega
  | case3 s t r hc f hq hv ih =>
    have h1 : Seg.multi ⟨.field f, t.mods⟩ = 1 := rfl
    simp only [mult_cons, h1, List.countP_cons, hc, decide_true, if_true]
    omega
  | case4 s t r hc f hq hv ih => simp only [mult_cons, List.countP_cons] at *; omega
  | case5 s t r hc hq ih => simp only [mult_cons, List.countP_cons] at *; omega
  | case6 s t r hc ih => simp only [mult_cons, List.countP_cons] at *; omega

theorem parsePart_multi {p : Bytes} (h : c!"|" ∉ p) {s : Seg} (hs : parsePart p = .seg s) :
    s.multi + (if s.kind = .count then 1 else 0) ≤ if multiPart p then 1 else 0 := by
  unfold parsePart at hs
  rw [parseModifiers_plain p h] at hs
  simp only at hs
  split at hs
  · simp at hs
  · split at hs
    · rename_i hpre
      have key : ∀ f all, s = ⟨.filter f all, []⟩ → (all = true → hasSuffix p b!")#" = true) → s.multi + (if s.kind = .count then 1 else 0) ≤ if multiPart p then 1 else 0 := by
        rintro f all rfl hall
        cases all with
        | false => simp [Seg.multi]
        | true =>
          have h1 := hall rfl
          simp only [hasPrefix, hasSuffix] at hpre h1
          simp [Seg.multi, multiPart, hpre, h1]
      unfold parseFilterPart at hs
      simp only at hs
      split at hs
      · rename_i h1
        repeat' split at hs
        all_goals first | simp at hs | skip
        exact key _ _ hs.symm fun _ => h1
      · split at hs
        · repeat' split at hs
          all_goals first | simp at hs | skip
          exact key _ _ hs.symm (by simp)
        · simp at hs
    · repeat' split at hs
      all_goals simp only [PartRes.seg.injEq] at hs; subst hs; simp_all [Seg.multi, multiPart]

theorem parseParts_mult {ps : List Bytes} (h : ∀ p ∈ ps, c!"|" ∉ p) {ss : List Seg} (hs : parseParts ps = .ok ss) :
    mult ss + ss.countP (fun s => s.kind = .count) ≤ ps.countP multiPart := by
  induction ps generalizing ss with
  | nil => simp only [parseParts, Parse.ok.injEq] at hs; subst hs; simp [mult]
  | cons p ps ih =>
    have ih := @ih (fun q hq => h q (List.mem_cons_of_mem _ hq))
    rw [parseParts] at hs
    cases hp : parsePart p with
    | panic => rw [hp] at hs; simp at hs
    | reject => rw [hp] at hs; simp at hs
    | skip => rw [hp] at hs; have := ih hs; rw [List.countP_cons]; omega
    | seg s =>
      rw [hp] at hs
      simp only at hs
      cases hq : parseParts ps with
      | panic => rw [hq] at hs; simp at hs
      | err => rw [hq] at hs; simp at hs
      | ok ss2 =>
        rw [hq] at hs
        simp only [Parse.ok.injEq] at hs
        subst hs
        have h1 := ih hq
        have h2 := parsePart_multi (h p (List.mem_cons_self ..)) hp
        simp only [mult_cons, List.countP_cons, decide_eq_true_eq] at *
        omega

theorem parsePath_mult {parts : List Bytes} (hb : ∀ p ∈ parts, c!"|" ∉ p) {ss : List Seg} (h : parsePath (pathOf parts) = .ok ss) :
    mult ss ≤ parts.countP multiPart := by
  unfold parsePath at h
  split at h
  · simp at h
  · rename_i hne
    have hp : parts ≠ [[]] := by rintro rfl; exact hne rfl
    unfold parsePathInternal at h
    rw [splitPath_pathOf parts hp] at h
    split at h
    · simp at h
    · cases hs : parseParts parts with
      | panic => rw [hs] at h; simp at h
      | err => rw [hs] at h; simp at h
      | ok ss0 =>
        rw [hs] at h
        simp only [Parse.ok.injEq] at h
        subst h
        exact Nat.le_trans (fuseFields_mult ss0) (parseParts_mult hb hs)

end Verif
