import Verif.Lemmas.Reading
import Verif.Model.Set
/- Which errors the builder returns, and why. -/
namespace Verif
open Spec

/-! ### kinds of steps -/

theorem isSeg_not_filter {p : Bytes} {s : Seg} (h : IsSeg p s) (hf : ¬ b!"#(" <+: p) : p ≠ [] ∧ s.kind =
    if hasPrefix (beforeBar p) b!"@" then .attr ((beforeBar p).drop 1)
    else if beforeBar p = b!"%" then .text
    else if beforeBar p = b!"#" then .count
    else if beforeBar p = b!"*" then .wild false
    else if beforeBar p = b!"**" then .wild true
    else if isNumeric (beforeBar p) then .index (atoi (beforeBar p))
    else .elem (beforeBar p) := by
  unfold IsSeg parsePart at h
  split at h
  · cases h
  · rename_i h0
    refine ⟨by simpa using h0, ?_⟩
    simp only [beforeBar_eq] at h
    rw [if_neg (by rw [hasPrefix, List.isPrefixOf_iff_prefix]; exact fun h => hf ((prefix_beforeBar (by decide)).mpr h))] at h
    repeat' split at h
    all_goals (injection h with h; subst h; simp_all)

theorem isSeg_filter {p : Bytes} {s : Seg} (h : IsSeg p s) (hf : b!"#(" <+: p) : ∃ f all, s.kind = .filter f all := by
  unfold IsSeg parsePart at h
  have h0 : p ≠ [] := by rintro rfl; simp at hf
  rw [if_neg (by simpa using h0)] at h
  simp only [beforeBar_eq] at h
  have h2 : hasPrefix (beforeBar p) b!"#(" = true := by rw [hasPrefix, List.isPrefixOf_iff_prefix]; exact (prefix_beforeBar (by decide)).mp hf
  rw [if_pos h2] at h
  rcases parseFilterPart_body (mods := (parseModifiers p).2) h2 with ⟨e, all, _, _, hr⟩ | ⟨_, hr⟩
  · rw [hr] at h
    split at h
    · cases h
    · cases h
    · injection h with h; subst h; exact ⟨_, _, rfl⟩
  · rw [hr] at h; cases h

theorem decimal_of_digits {ds : Bytes} (h0 : ds ≠ []) (h : ∀ d ∈ ds, 48 ≤ d ∧ d ≤ 57) : Decimal ds (digitsVal ds) := by
  have key : ∀ n (ds : Bytes), ds.length = n → ds ≠ [] → (∀ d ∈ ds, 48 ≤ d ∧ d ≤ 57) → Decimal ds (digitsVal ds) := by
    intro n
    induction n with
    | zero => intro ds hl h0; exact absurd (List.eq_nil_of_length_eq_zero hl) h0
    | succ n ih =>
      intro ds hl h0 h
      have e := List.dropLast_concat_getLast h0
      have hd := h (ds.getLast h0) (List.getLast_mem h0)
      by_cases h1 : ds.dropLast = []
      · rw [h1] at e
        rw [← e]
        have := Decimal.digit (ds.getLast h0) hd
        simpa [digitsVal] using this
      · have := Decimal.snoc (ih ds.dropLast (by simp [hl]) h1 fun d hm => h d (List.dropLast_subset _ hm)) hd
        rw [e] at this
        have e2 : digitsVal ds = 10 * digitsVal ds.dropLast + ((ds.getLast h0).toNat - 48) := by
          conv => lhs; rw [← e]
          rw [digitsVal_append]; omega
        rw [e2]; exact this
  exact key _ ds rfl h0 h

theorem isDigit_iff {c : UInt8} : isDigit c = true ↔ 48 ≤ c ∧ c ≤ 57 := by simp [isDigit]

theorem digitsVal_shorter {a b : Bytes} : digitsVal a ≤ digitsVal (a ++ b) := by
  have key : ∀ (b : Bytes) (m : Nat), m ≤ b.foldl (fun n c => n * 10 + (c.toNat - 48)) m := by
    intro b
    induction b with
    | nil => intro m; exact Nat.le_refl _
    | cons c cs ih => intro m; rw [List.foldl_cons]; exact Nat.le_trans (by omega) (ih _)
  unfold digitsVal
  rw [List.foldl_append]
  exact key b _

theorem atoi_neg {s : Bytes} (h : atoi s < 0) (hs : ∀ c ∈ s, c = c!"-" ∨ (48 ≤ c ∧ c ≤ 57)) :
    ∃ ds rest n, s = c!"-" :: ds ++ rest ∧ Decimal ds n ∧ 0 < n ∧ (rest = [] ∨ (2 ^ 64 ≤ n ∧ ∀ c ∈ rest, c = c!"-" ∨ (48 ≤ c ∧ c ≤ 57))) ∧ (atoi s = -1 ↔ n = 1) := by
  match s with
  | [] => simp [atoi] at h
  | c :: cs =>
    by_cases hc : c = c!"-"
    · subst hc
      unfold atoi at h ⊢
      simp only [if_true] at h ⊢
      have e := List.takeWhile_append_dropWhile (p := isDigit) (l := cs)
      generalize hd : cs.takeWhile isDigit = ds at *
      generalize hr : cs.dropWhile isDigit = rest at *
      have hdig : ∀ d ∈ ds, 48 ≤ d ∧ d ≤ 57 := fun d hm => isDigit_iff.mp (by rw [← hd] at hm; exact List.all_eq_true.mp List.all_takeWhile d hm)
      by_cases h1 : (cs.isEmpty || (!cs.all isDigit && decide (digitsVal ds < 2 ^ 64))) = true
      · rw [if_pos h1] at h; omega
      · rw [if_neg h1] at h ⊢
        simp only [Bool.or_eq_true, List.isEmpty_iff, Bool.and_eq_true, Bool.not_eq_true', not_or, not_and, decide_eq_true_eq, Nat.not_lt] at h1
        have hn : 0 < digitsVal ds := by
          split at h <;> omega
        have h0 : ds ≠ [] := by rintro rfl; exact absurd hn (by decide)
        refine ⟨ds, rest, digitsVal ds, by rw [← e]; simp, decimal_of_digits h0 hdig, hn, ?_, ?_⟩
        · by_cases hall : cs.all isDigit = true
          · left
            have := List.takeWhile_append_of_pos (l₂ := []) (List.all_eq_true.mp hall)
            rw [List.append_nil, List.takeWhile_nil, List.append_nil, hd] at this
            rw [this] at e
            exact List.append_cancel_left (e.trans (List.append_nil cs).symm)
          · right
            exact ⟨h1.2 (by simpa using hall), fun c hm => hs c (by rw [← e]; simp [hm])⟩
        · split <;> omega
    · exfalso
      unfold atoi at h
      simp only [hc, if_false] at h
      by_cases hp : c = c!"+"
      · simp only [hp, if_true] at h
        repeat' split at h
        all_goals first | omega | (rename_i hf _; exact absurd hf (by simp)) | (rename_i hf; exact absurd hf (by simp))
      · simp only [hp, if_false] at h
        repeat' split at h
        all_goals first | omega | (rename_i hf _; exact absurd hf (by simp)) | (rename_i hf; exact absurd hf (by simp))

theorem neg_atoi {ds rest : Bytes} {n : Nat} (h : Decimal ds n) (hn : 0 < n) (hr : rest = [] ∨ (2 ^ 64 ≤ n ∧ ∀ c ∈ rest, c = c!"-" ∨ (48 ≤ c ∧ c ≤ 57))) :
    isNumeric (c!"-" :: ds ++ rest) = true ∧ atoi (c!"-" :: ds ++ rest) < 0 ∧ (atoi (c!"-" :: ds ++ rest) = -1 ↔ n = 1) := by
  obtain ⟨h1, h2, h3⟩ := decimal_facts h
  have hdig : ∀ d ∈ ds, isDigit d = true := fun d hd => isDigit_iff.mpr (h2 d hd)
  have hl := List.length_pos_iff.mpr h1
  have hrest : ∀ c ∈ rest, c = c!"-" ∨ (48 ≤ c ∧ c ≤ 57) := by
    rcases hr with rfl | ⟨_, hr⟩
    · simp
    · exact hr
  refine ⟨?_, ?_⟩
  · unfold isNumeric
    simp only [List.cons_append, List.isEmpty_cons, Bool.not_false, Bool.true_and, List.all_cons, Bool.and_eq_true, List.length_cons, List.length_append]
    refine ⟨by simp; omega, List.all_eq_true.mpr fun d hd => ?_⟩
    rcases List.mem_append.mp hd with hd | hd
    · simp [hdig d hd]
    · rcases hrest d hd with rfl | hd
      · simp; omega
      · simp [isDigit_iff.mpr hd]
  · have htw : (ds ++ rest).takeWhile isDigit = ds ++ rest.takeWhile isDigit := List.takeWhile_append_of_pos hdig
    have hmin : n ≤ digitsVal (ds ++ rest.takeWhile isDigit) := h3 ▸ digitsVal_shorter
    unfold atoi
    simp only [List.cons_append, if_true, htw]
    rcases hr with rfl | ⟨hn64, _⟩
    · have hall : ds.all isDigit = true := List.all_eq_true.mpr hdig
      simp only [List.append_nil, List.takeWhile_nil, hall, h3]
      rw [if_neg (by simp [h1])]
      split <;> constructor <;> omega
    · have hno : ¬ ((ds ++ rest).isEmpty || (!(ds ++ rest).all isDigit && decide (digitsVal (ds ++ rest.takeWhile isDigit) < 2 ^ 64))) = true := by
        simp only [Bool.or_eq_true, List.isEmpty_iff, List.append_eq_nil_iff, h1, false_and, Bool.and_eq_true, decide_eq_true_eq, false_or, not_and, Nat.not_lt]
        intro _; omega
      rw [if_neg hno]
      split <;> constructor <;> omega

/-- What kinds of segment the steps are. -/
theorem isSeg_kind {p : Bytes} {s : Seg} (h : IsSeg p s) :
    (AttrStep p ↔ ∃ a, s.kind = .attr a) ∧ (beforeBar p = b!"#" ↔ s.kind = .count) ∧ (NameStep p ↔ ∃ n, s.kind = .elem n) ∧ (∀ n, s.kind = .elem n → n = beforeBar p) ∧
    ((∃ n, Negative p n) ↔ ∃ i, s.kind = .index i ∧ i < 0) ∧ (Negative p 1 ↔ s.kind = .index (-1)) := by
  by_cases hf : b!"#(" <+: p
  · obtain ⟨f, all, hk⟩ := isSeg_filter h hf
    have hb := (prefix_beforeBar (z := b!"#(") (by decide)).mp hf
    have hneg : ∀ n, ¬ Negative p n := by
      rintro n ⟨ds, rest, e, _⟩; rw [e] at hb; simp at hb
    refine ⟨⟨fun h => ?_, fun ⟨a, h⟩ => by rw [hk] at h; cases h⟩, ⟨fun h => ?_, fun h => by rw [hk] at h; cases h⟩, ⟨fun h => absurd hf h.2.1, fun ⟨n, h⟩ => by rw [hk] at h; cases h⟩,
      fun n h => (by rw [hk] at h; cases h), ⟨fun ⟨n, h⟩ => absurd h (hneg n), fun ⟨i, h, _⟩ => by rw [hk] at h; cases h⟩,
      ⟨fun h => absurd h (hneg 1), fun h => by rw [hk] at h; cases h⟩⟩
    · obtain ⟨t, rfl⟩ := hf; obtain ⟨u, hu⟩ := h; simp at hu
    · rw [h] at hb; simp at hb
  · obtain ⟨h0, hk⟩ := isSeg_not_filter h hf
    have ha : hasPrefix (beforeBar p) b!"@" = true ↔ b!"@" <+: p := by
      rw [hasPrefix, List.isPrefixOf_iff_prefix]; exact (prefix_beforeBar (by decide)).symm
    by_cases h1 : hasPrefix (beforeBar p) b!"@" = true
    · rw [if_pos h1] at hk
      have hb := (prefix_beforeBar (z := b!"@") (by decide)).mp (ha.mp h1)
      have hneg : ∀ n, ¬ Negative p n := by
        rintro n ⟨ds, rest, e, _⟩; rw [e] at hb; simp at hb
      refine ⟨⟨fun _ => ⟨_, hk⟩, fun _ => ha.mp h1⟩, ⟨fun h => ?_, fun h => by rw [hk] at h; cases h⟩, ⟨fun h => absurd (ha.mp h1) h.2.2.1, fun ⟨n, h⟩ => by rw [hk] at h; cases h⟩,
        fun n h => (by rw [hk] at h; cases h), ⟨fun ⟨n, h⟩ => absurd h (hneg n), fun ⟨i, h, _⟩ => by rw [hk] at h; cases h⟩,
        ⟨fun h => absurd h (hneg 1), fun h => by rw [hk] at h; cases h⟩⟩
      rw [h] at hb; simp at hb
    · rw [if_neg h1] at hk
      have hna : ¬ AttrStep p := fun h => h1 (ha.mpr h)
      have sym : ∀ t k, beforeBar p = t → t ∈ [b!"%", b!"#", b!"*", b!"**"] → s.kind = k → (∀ a, k ≠ .attr a) → (∀ a, k ≠ .elem a) → (∀ i, k ≠ .index i) → (t = b!"#" ↔ k = .count) →
          (AttrStep p ↔ ∃ a, s.kind = .attr a) ∧ (beforeBar p = b!"#" ↔ s.kind = .count) ∧ (NameStep p ↔ ∃ n, s.kind = .elem n) ∧ (∀ n, s.kind = .elem n → n = beforeBar p) ∧
          ((∃ n, Negative p n) ↔ ∃ i, s.kind = .index i ∧ i < 0) ∧ (Negative p 1 ↔ s.kind = .index (-1)) := by
        intro t k ht hm hk ka ke ki kc
        have hneg : ∀ n, ¬ Negative p n := by
          rintro n ⟨ds, rest, e, _⟩; rw [ht] at e; subst e; simp at hm
        refine ⟨⟨fun h => absurd h hna, fun ⟨a, h⟩ => absurd (hk.symm.trans h) (ka a)⟩, by rw [ht, hk]; exact kc,
          ⟨fun h => absurd (ht ▸ hm) h.2.2.2.1, fun ⟨n, h⟩ => absurd (hk.symm.trans h) (ke n)⟩, fun n h => absurd (hk.symm.trans h) (ke n),
          ⟨fun ⟨n, h⟩ => absurd h (hneg n), fun ⟨i, h, _⟩ => absurd (hk.symm.trans h) (ki i)⟩, ⟨fun h => absurd h (hneg 1), fun h => absurd (hk.symm.trans h) (ki _)⟩⟩
      by_cases e1 : beforeBar p = b!"%"
      · rw [if_pos e1] at hk; exact sym _ _ e1 (by simp) hk (by simp) (by simp) (by simp) (by simp)
      rw [if_neg e1] at hk
      by_cases e2 : beforeBar p = b!"#"
      · rw [if_pos e2] at hk; exact sym _ _ e2 (by simp) hk (by simp) (by simp) (by simp) (by simp)
      rw [if_neg e2] at hk
      by_cases e3 : beforeBar p = b!"*"
      · rw [if_pos e3] at hk; exact sym _ _ e3 (by simp) hk (by simp) (by simp) (by simp) (by simp)
      rw [if_neg e3] at hk
      by_cases e4 : beforeBar p = b!"**"
      · rw [if_pos e4] at hk; exact sym _ _ e4 (by simp) hk (by simp) (by simp) (by simp) (by simp)
      rw [if_neg e4] at hk
      have hnum : isNumeric (beforeBar p) = true ↔ (beforeBar p ≠ [] ∧ beforeBar p ≠ b!"-" ∧ ∀ c ∈ beforeBar p, c = c!"-" ∨ (48 ≤ c ∧ c ≤ 57)) := by
        unfold isNumeric
        simp only [Bool.and_eq_true, Bool.not_eq_true', List.isEmpty_eq_false_iff, List.all_eq_true, Bool.or_eq_true, decide_eq_true_eq, isDigit_iff]
        constructor
        · rintro ⟨a, b⟩
          refine ⟨a, fun e => ?_, fun c hc => ?_⟩
          · have := b c!"-" (by rw [e]; simp)
            rw [e] at this; revert this; decide
          · rcases b c hc with h | h
            · exact .inr h
            · exact .inl h.1
        · rintro ⟨a, b, c⟩
          refine ⟨a, fun x hx => ?_⟩
          rcases c x hx with h | h
          · right
            refine ⟨h, ?_⟩
            match hb : beforeBar p with
            | [] => exact absurd hb a
            | [y] => rw [hb] at hx; rw [List.mem_singleton.mp hx] at h; rw [hb, h] at b; exact absurd rfl b
            | _ :: _ :: _ => simp
          · exact .inl h
      by_cases e5 : isNumeric (beforeBar p) = true
      · rw [if_pos e5] at hk
        refine ⟨⟨fun h => absurd h hna, fun ⟨a, h⟩ => by rw [hk] at h; cases h⟩, ⟨fun h => absurd h e2, fun h => by rw [hk] at h; cases h⟩,
          ⟨fun h => absurd (hnum.mp e5) h.2.2.2.2, fun ⟨n, h⟩ => by rw [hk] at h; cases h⟩, fun n h => (by rw [hk] at h; cases h), ?_, ?_⟩
        · constructor
          · rintro ⟨n, ds, rest, e, hd, hn, hr⟩
            refine ⟨_, hk, ?_⟩
            rw [e]; exact (neg_atoi hd hn hr).2.1
          · rintro ⟨i, h, hi⟩
            rw [hk] at h; injection h with h; subst h
            obtain ⟨ds, rest, n, e, hd, hn, hr, _⟩ := atoi_neg hi (hnum.mp e5).2.2
            exact ⟨n, ds, rest, e, hd, hn, hr⟩
        · constructor
          · rintro ⟨ds, rest, e, hd, hn, hr⟩
            rw [hk, e, (neg_atoi hd hn hr).2.2.mpr rfl]
          · intro h
            rw [hk] at h; injection h with h
            obtain ⟨ds, rest, n, e, hd, hn, hr, hi⟩ := atoi_neg (s := beforeBar p) (by rw [h]; decide) (hnum.mp e5).2.2
            have := hi.mp h
            subst this
            exact ⟨ds, rest, e, hd, hn, hr⟩
      · rw [if_neg e5] at hk
        have hneg : ∀ n, ¬ Negative p n := by
          rintro n ⟨ds, rest, e, hd, hn, hr⟩; rw [e] at e5; exact e5 (neg_atoi hd hn hr).1
        refine ⟨⟨fun h => absurd h hna, fun ⟨a, h⟩ => by rw [hk] at h; cases h⟩, ⟨fun h => absurd h e2, fun h => by rw [hk] at h; cases h⟩,
          ⟨fun _ => ⟨_, hk⟩, fun _ => ⟨h0, hf, hna, by simp [e1, e2, e3, e4], fun h => e5 (hnum.mpr h)⟩⟩, fun n h => (by rw [hk] at h; injection h with h; exact h.symm),
          ⟨fun ⟨n, h⟩ => absurd h (hneg n), fun ⟨i, h, _⟩ => by rw [hk] at h; cases h⟩, ⟨fun h => absurd h (hneg 1), fun h => by rw [hk] at h; cases h⟩⟩

/-! ### fields -/

/-- The segment that `#` and the segment after it make together. -/
def joined (s t : Seg) : Option Seg :=
  if s.kind = .count then
    match fieldOf t.kind with
    | some f => if isValidFieldName f && f.length ≤ maxFieldNameLength then some ⟨.field f, t.mods⟩ else none
    | none => none
  else none

theorem fuse_cons2 (s t : Seg) (r : List Seg) : fuseFields (s :: t :: r) =
    match joined s t with
    | some x => x :: fuseFields r
    | none => s :: fuseFields (t :: r) := by
  rw [fuseFields.eq_def]
  simp only [joined]
  by_cases h : s.kind = .count
  · rw [if_pos h, if_pos h]
    cases fieldOf t.kind with
    | none => rfl
    | some f => simp only; split <;> rfl
  · rw [if_neg h, if_neg h]

theorem joined_facts {s t x : Seg} (h : joined s t = some x) : s.kind = .count ∧ (∃ f, fieldOf t.kind = some f ∧ x = ⟨.field f, t.mods⟩) ∧ t.kind ≠ .count ∧ (∀ i, t.kind ≠ .index i) := by
  unfold joined at h
  split at h
  · rename_i hc
    split at h
    · rename_i f hf
      split at h
      · injection h with h
        refine ⟨hc, ⟨f, hf, h.symm⟩, ?_, ?_⟩
        · intro e; rw [e] at hf; simp [fieldOf] at hf
        · intro i e; rw [e] at hf; simp [fieldOf] at hf
      · cases h
    · cases h
  · cases h

theorem fuse_isEmpty (ss : List Seg) : (fuseFields ss).isEmpty = ss.isEmpty := by
  match ss with
  | [] => rfl
  | [s] => rfl
  | s :: t :: r => rw [fuse_cons2]; split <;> rfl

theorem fuse_keep (l : List Seg) (p : Seg) (h : ∀ q, l.getLast? = some q → joined q p = none) : fuseFields (l ++ [p]) = fuseFields l ++ [p] := by
  have key : ∀ n (l : List Seg), l.length ≤ n → (∀ q, l.getLast? = some q → joined q p = none) → fuseFields (l ++ [p]) = fuseFields l ++ [p] := by
    intro n
    induction n with
    | zero =>
      intro l hl _
      have h0 : l = [] := List.eq_nil_of_length_eq_zero (by omega)
      subst h0; rfl
    | succ n ih =>
      intro l hl h
      match l with
      | [] => rfl
      | [s] =>
        show fuseFields (s :: p :: []) = _
        rw [fuse_cons2, h s rfl]; rfl
      | s :: t :: r =>
        simp only [List.length_cons] at hl
        show fuseFields (s :: t :: (r ++ [p])) = _
        rw [fuse_cons2, fuse_cons2]
        cases hj : joined s t with
        | some x =>
          simp only [List.cons_append]
          rw [ih r (by omega)]
          intro q hq
          refine h q ?_
          rw [List.getLast?_cons, List.getLast?_cons, hq]; rfl
        | none =>
          simp only [List.cons_append]
          rw [show t :: (r ++ [p]) = (t :: r) ++ [p] from rfl, ih (t :: r) (by simp; omega)]
          intro q hq
          refine h q ?_
          rw [List.getLast?_cons, hq]; rfl
  exact key _ l (Nat.le_refl _) h

theorem fuse_take (l : List Seg) (c p x : Seg) (h : joined c p = some x) : fuseFields (l ++ [c, p]) = fuseFields l ++ [x] := by
  have key : ∀ n (l : List Seg), l.length ≤ n → fuseFields (l ++ [c, p]) = fuseFields l ++ [x] := by
    intro n
    induction n with
    | zero =>
      intro l hl
      have h0 : l = [] := List.eq_nil_of_length_eq_zero (by omega)
      subst h0
      show fuseFields (c :: p :: []) = _
      rw [fuse_cons2, h]; rfl
    | succ n ih =>
      intro l hl
      match l with
      | [] =>
        show fuseFields (c :: p :: []) = _
        rw [fuse_cons2, h]; rfl
      | [s] =>
        show fuseFields (s :: c :: [p]) = _
        have hj : joined s c = none := by
          cases hj : joined s c with
          | none => rfl
          | some y => exact absurd (joined_facts h).1 (joined_facts hj).2.2.1
        rw [fuse_cons2, hj]
        simp only
        rw [fuse_cons2, h]; rfl
      | s :: t :: r =>
        simp only [List.length_cons] at hl
        show fuseFields (s :: t :: (r ++ [c, p])) = _
        rw [fuse_cons2, fuse_cons2]
        cases hj : joined s t with
        | some y =>
          simp only [List.cons_append]
          rw [ih r (by omega)]
        | none =>
          simp only [List.cons_append]
          rw [show t :: (r ++ [c, p]) = (t :: r) ++ [c, p] from rfl, ih (t :: r) (by simp; omega)]
  exact key _ l (Nat.le_refl _)

theorem fuse_snoc (l : List Seg) (p : Seg) : fuseFields (l ++ [p]) = fuseFields l ++ [p] ∨
    ∃ l' c x, l = l' ++ [c] ∧ joined c p = some x ∧ fuseFields (l ++ [p]) = fuseFields l' ++ [x] := by
  rcases Option.eq_none_or_eq_some l.getLast? with hl | ⟨c, hl⟩
  · left; exact fuse_keep l p fun q hq => by rw [hl] at hq; cases hq
  · rcases Option.eq_none_or_eq_some (joined c p) with hj | ⟨x, hj⟩
    · left; exact fuse_keep l p fun q hq => by rw [hl] at hq; injection hq with hq; rw [← hq]; exact hj
    · right
      obtain ⟨l', rfl⟩ := List.getLast?_eq_some_iff.mp hl
      refine ⟨l', c, x, rfl, hj, ?_⟩
      rw [List.append_assoc]; exact fuse_take l' c p x hj

/-! ### positions -/

theorem intent_cons {s : Seg} (h : ∀ i, s.kind = .index i → 0 ≤ i) (r : List Seg) : indexIntent (s :: r) = indexIntent r := by
  rw [indexIntent]
  split
  · rename_i i hk; rw [if_pos (h i hk)]
  · rfl

theorem intent_neg {s : Seg} {i : Int} (hk : s.kind = .index i) (hi : i < 0) (r : List Seg) :
    indexIntent (s :: r) = if i = -1 ∧ r = [] then some true else some false := by
  rw [indexIntent]
  simp only [hk]
  rw [if_neg (by omega)]
  by_cases h1 : i = -1
  · rw [if_pos h1]
    cases r <;> simp [h1]
  · rw [if_neg h1, if_neg (by simp [h1])]

theorem intent_fuse (ss : List Seg) : indexIntent (fuseFields ss) = indexIntent ss := by
  have key : ∀ n (ss : List Seg), ss.length ≤ n → indexIntent (fuseFields ss) = indexIntent ss := by
    intro n
    induction n with
    | zero =>
      intro l hl
      have h0 : l = [] := List.eq_nil_of_length_eq_zero (by omega)
      subst h0; rfl
    | succ n ih =>
      intro l hl
      match l with
      | [] => rfl
      | [s] => rfl
      | s :: t :: r =>
        simp only [List.length_cons] at hl
        rw [fuse_cons2]
        cases hj : joined s t with
        | some x =>
          obtain ⟨h1, ⟨f, h2, rfl⟩, h3, h4⟩ := joined_facts hj
          rw [intent_cons (s := s) (by intro i h; rw [h1] at h; cases h), intent_cons (s := t) (fun i h => absurd h (h4 i)),
            intent_cons (by intro i h; cases h), ih r (by omega)]
        | none =>
          have e := ih (t :: r) (by simp; omega)
          have hem := fuse_isEmpty (t :: r)
          simp only
          rw [indexIntent, indexIntent, e, hem]
  exact key _ ss (Nat.le_refl _)

/-- Lower-casing of names, unless the options are case-sensitive. -/
def lowIf (cs : Bool) (s : Seg) : Seg := if cs then s else lowerSeg s

theorem lowIf_kind (cs : Bool) (s : Seg) : ((∃ a, (lowIf cs s).kind = .attr a) ↔ ∃ a, s.kind = .attr a) ∧ ((∃ n, (lowIf cs s).kind = .elem n) ↔ ∃ n, s.kind = .elem n) ∧
    (∀ i, (lowIf cs s).kind = .index i ↔ s.kind = .index i) ∧ (∀ n, s.kind = .elem n → ∃ m, (lowIf cs s).kind = .elem m ∧ m.length = n.length) := by
  obtain ⟨k, m⟩ := s
  cases cs
  · unfold lowIf lowerSeg
    cases k <;> simp [toLowerASCII]
  · unfold lowIf
    cases k <;> simp

theorem intent_low (cs : Bool) (ss : List Seg) : indexIntent (ss.map (lowIf cs)) = indexIntent ss := by
  induction ss with
  | nil => rfl
  | cons s r ih =>
    rw [List.map_cons]
    have hk := (lowIf_kind cs s).2.2.1
    by_cases h : ∃ i, s.kind = .index i ∧ i < 0
    · obtain ⟨i, h1, h2⟩ := h
      rw [intent_neg ((hk i).mpr h1) h2, intent_neg h1 h2]
      simp
    · have h' : ∀ i, s.kind = .index i → 0 ≤ i := fun i hi => by
        rcases Int.lt_or_le i 0 with h0 | h0
        · exact absurd ⟨i, hi, h0⟩ h
        · exact h0
      rw [intent_cons h', intent_cons (fun i hi => h' i ((hk i).mp hi)), ih]

theorem badPosition_cons {p : Bytes} {ss : List Bytes} : BadPosition (p :: ss) ↔ (∃ n, Negative p n ∧ ¬ (ss = [] ∧ n = 1)) ∨ BadPosition ss := by
  constructor
  · rintro ⟨pre, q, post, n, e, h1, h2⟩
    cases pre with
    | nil => injection e with e1 e2; subst e1 e2; exact .inl ⟨n, h1, h2⟩
    | cons a pre => injection e with e1 e2; exact .inr ⟨pre, q, post, n, e2, h1, h2⟩
  · rintro (⟨n, h1, h2⟩ | ⟨pre, q, post, n, e, h1, h2⟩)
    · exact ⟨[], p, ss, n, rfl, h1, h2⟩
    · exact ⟨p :: pre, q, post, n, by rw [e]; rfl, h1, h2⟩

theorem negative_one {p : Bytes} {n : Nat} (h : Negative p n) (h' : Negative p 1) : n = 1 := by
  obtain ⟨ds, rest, e, hd, _, hr⟩ := h
  obtain ⟨ds', rest', e', hd', _, hr'⟩ := h'
  have : rest' = [] := by
    rcases hr' with h | ⟨h, _⟩
    · exact h
    · omega
  subst this
  rw [e, List.cons_append, List.append_nil] at e'; injection e' with _ e'
  have h1 := (decimal_facts hd).2.2
  have h2 := (decimal_facts hd').2.2
  rcases hr with rfl | ⟨hn, _⟩
  · rw [List.append_nil] at e'; subst e'; exact h1.symm.trans h2
  · have := digitsVal_shorter (a := ds) (b := rest)
    rw [e', h1, h2] at this; omega

theorem all2_length {α β : Type} {R : α → β → Prop} {as : List α} {bs : List β} (h : All2 R as bs) : as.length = bs.length := by
  induction h with
  | nil => rfl
  | cons _ _ ih => simp [ih]

theorem all2_snoc_inv {α β : Type} {R : α → β → Prop} {as : List α} {a : α} {bs : List β} (h : All2 R (as ++ [a]) bs) : ∃ bs' b, bs = bs' ++ [b] ∧ All2 R as bs' ∧ R a b := by
  induction as generalizing bs with
  | nil => cases h with | cons h1 h2 => cases h2; exact ⟨[], _, rfl, .nil, h1⟩
  | cons x as ih =>
    cases h with
    | cons h1 h2 =>
      obtain ⟨bs', b, rfl, h3, h4⟩ := ih h2
      exact ⟨_ :: bs', b, rfl, .cons h1 h3, h4⟩

/-- What the positions of a path ask for. -/
theorem intent_iff {ss : List Bytes} {segs : List Seg} (h : All2 IsSeg ss segs) :
    (indexIntent segs = some false ↔ BadPosition ss) ∧ (indexIntent segs = some true ↔ ¬ BadPosition ss ∧ ∃ pre, Appends ss pre) := by
  induction h with
  | nil =>
    refine ⟨⟨fun h => by simp [indexIntent] at h, ?_⟩, ⟨fun h => by simp [indexIntent] at h, ?_⟩⟩
    · rintro ⟨pre, q, post, n, e, _⟩; simp at e
    · rintro ⟨_, pre, p, e, _⟩; simp at e
  | @cons p s ss segs hs ha ih =>
    have hk := isSeg_kind hs
    rw [badPosition_cons]
    have hemp : ss = [] ↔ segs = [] := by
      have := all2_length ha
      rw [← List.length_eq_zero_iff, ← List.length_eq_zero_iff, this]
    rcases Classical.em (∃ n, Negative p n) with hn | hn
    · obtain ⟨i, h1, h2⟩ := hk.2.2.2.2.1.mp hn
      rw [intent_neg h1 h2]
      have hi : i = -1 ↔ Negative p 1 := by
        rw [hk.2.2.2.2.2, h1]; constructor
        · intro h; rw [h]
        · intro h; injection h
      obtain ⟨n, hn⟩ := hn
      have hp1 : Negative p 1 ↔ n = 1 := ⟨fun h => negative_one hn h, fun h => h ▸ hn⟩
      by_cases hlast : ss = [] ∧ n = 1
      · rw [if_pos ⟨hi.mpr (hp1.mpr hlast.2), hemp.mp hlast.1⟩]
        have hb : ¬ ((∃ n, Negative p n ∧ ¬ (ss = [] ∧ n = 1)) ∨ BadPosition ss) := by
          rintro (⟨m, h3, h4⟩ | ⟨pre, q, post, m, e, _⟩)
          · exact h4 ⟨hlast.1, negative_one h3 (hp1.mpr hlast.2)⟩
          · rw [hlast.1] at e; simp at e
        exact ⟨⟨fun h => by simp at h, fun h => absurd h hb⟩, ⟨fun _ => ⟨hb, [], p, by rw [hlast.1]; rfl, hp1.mpr hlast.2⟩, fun _ => rfl⟩⟩
      · rw [if_neg (fun h => hlast ⟨hemp.mpr h.2, hp1.mp (hi.mp h.1)⟩)]
        have hb : (∃ n, Negative p n ∧ ¬ (ss = [] ∧ n = 1)) ∨ BadPosition ss := .inl ⟨n, hn, hlast⟩
        exact ⟨⟨fun _ => hb, fun _ => rfl⟩, ⟨fun h => by simp at h, fun h => absurd hb h.1⟩⟩
    · rw [intent_cons (fun i hi => ?_)]
      · have hb : ((∃ n, Negative p n ∧ ¬ (ss = [] ∧ n = 1)) ∨ BadPosition ss) ↔ BadPosition ss :=
          ⟨fun h => h.elim (fun ⟨n, h, _⟩ => absurd ⟨n, h⟩ hn) id, .inr⟩
        rw [hb, ih.1, ih.2]
        refine ⟨Iff.rfl, ⟨fun ⟨h1, pre, q, e, hq⟩ => ⟨h1, p :: pre, q, by rw [e]; rfl, hq⟩, ?_⟩⟩
        rintro ⟨h1, pre, q, e, hq⟩
        cases pre with
        | nil => injection e with e1 e2; subst e1; exact absurd ⟨1, hq⟩ hn
        | cons a pre => injection e with e1 e2; exact ⟨h1, pre, q, e2, hq⟩
      · rcases Int.lt_or_le i 0 with h0 | h0
        · exact absurd (hk.2.2.2.2.1.mpr ⟨i, hi, h0⟩) hn
        · exact h0

/-- How the steps of a path are read, with options. -/
theorem parseOpt_reads {path : Bytes} {ss : List Bytes} (h : PathSteps path ss) (hne : ss ≠ []) (cs : Bool) :
    ∃ segs, parsePathWithOptions path cs = .ok ((fuseFields segs).map (lowIf cs)) ∧ All2 IsSeg ss segs := by
  rcases parsePath_reads h with ⟨_, h0⟩ | ⟨segs, h1, h2⟩
  · exact absurd h0 hne
  · refine ⟨segs, ?_, h2⟩
    unfold parsePathWithOptions
    rw [h1]
    cases cs
    · rfl
    · have : lowIf true = id := rfl
      rw [this, List.map_id]; rfl

theorem parseOpt_none {path : Bytes} (h : NoPath path ∨ PathSteps path []) (cs : Bool) : parsePathWithOptions path cs = .err ∨ parsePathWithOptions path cs = .ok [] := by
  unfold parsePathWithOptions
  rcases h with h | h
  · rw [parsePath_none h]; exact .inl rfl
  · rcases parsePath_reads h with ⟨h0, _⟩ | ⟨segs, h1, h2⟩
    · subst h0; exact .inl rfl
    · cases h2
      rw [h1]; right; simp [fuseFields]

/-! ### errors of the builder -/

theorem splice_noerr {d mid : Bytes} {i j : Int} {e : Err} : splice d i j mid ≠ .err e := by
  unfold splice; split <;> simp

theorem ite_err {c : Prop} [Decidable c] {a b : BRes} {e : Err} (h : (if c then a else b) = .err e) : (c ∧ a = .err e) ∨ (¬ c ∧ b = .err e) := by
  split at h
  · exact .inl ⟨‹_›, h⟩
  · exact .inr ⟨‹_›, h⟩

theorem createInRoot_err {o : Ord} {ind data t : Bytes} {P : List Seg} {e : Err} (h0 : data ≠ []) (h : createInRoot o ind data P t = .err e) :
    e = .malformed ∧ topElems o data = [] ∧ ∀ s n, P.head? = some s → s.kind ≠ .elem n := by
  unfold createInRoot at h
  simp only at h
  rcases ite_err h with ⟨_, h⟩ | ⟨hs, h⟩
  · cases h
  · cases ht : topElems o data with
    | nil =>
      rw [ht] at h
      injection h with h
      refine ⟨h.symm, rfl, ?_⟩
      intro s n hh hk
      match P with
      | [] => simp at hh
      | s' :: P =>
        simp only [List.head?_cons, Option.some.injEq] at hh
        subst hh
        simp only [hk] at hs
        simp [shouldCreateSiblingRoot, ht, h0] at hs
    | cons x xs =>
      rw [ht] at h
      simp only at h
      rcases ite_err h with ⟨_, h⟩ | ⟨_, h⟩
      · cases h
      · rcases ite_err h with ⟨_, h⟩ | ⟨_, h⟩
        · exact absurd h splice_noerr
        · exact absurd h splice_noerr

/-- Creating an element fails only if the parser sees no element at all and the path does not begin with a name. -/
theorem createElement_err {o : Ord} {cs : Bool} {ind data t : Bytes} {P : List Seg} {e : Err} (h : createElement o cs ind data P t = .err e) :
    e = .malformed ∧ data ≠ [] ∧ topElems o data = [] ∧ ∀ s n, P.head? = some s → s.kind ≠ .elem n := by
  unfold createElement at h
  split at h
  · cases h
  · rename_i h0
    have h0' : data ≠ [] := by simpa using h0
    split at h
    · obtain ⟨h1, h2, h3⟩ := createInRoot_err h0' h; exact ⟨h1, h0', h2, h3⟩
    · unfold createInParent at h
      split at h
      · exact absurd h splice_noerr
      · exact absurd h splice_noerr

theorem sizeChecked_err {r : BRes} {e : Err} (hr : ∀ e, r ≠ .err e) (h : sizeChecked r = .err e) : e = .invalidValue ∧ ∃ b, r = .ok b ∧ 10485760 < b.length := by
  cases r with
  | panic => cases h
  | err e => exact absurd rfl (hr e)
  | ok b =>
    simp only [sizeChecked] at h
    split at h
    · rename_i hb; injection h with h; exact ⟨h.symm, b, rfl, hb⟩
    · cases h

theorem splice_here_length {d mid b : Bytes} {i : Int} (h : splice d i i mid = .ok b) : b.length = d.length + mid.length := by
  unfold splice at h
  split at h
  · rename_i x y hx hy
    injection h with h; subst h
    unfold sliceTo at hx
    unfold sliceFrom at hy
    split at hx
    · rename_i hi
      rw [if_pos hi] at hy
      injection hx with hx; injection hy with hy
      subst hx hy
      simp; omega
    · cases hx
  · cases h

theorem indentAt_length (ind : Bytes) (n : Nat) : (indentAt ind n).length = if ind = [] then 0 else 1 + n * ind.length := by
  unfold indentAt
  cases ind with
  | nil => simp
  | cons c cs =>
    simp only [List.isEmpty_cons, Bool.false_eq_true, if_false, List.length_cons]
    rw [if_neg (by simp)]
    simp [repeatB]; omega

/-- Why an append can fail. -/
theorem appendElement_err {o : Ord} {cs : Bool} {ind data t : Bytes} {P : List Seg} {e : Err} (h : appendElement o cs ind data P t = .err e) :
    (e = .invalidPath ∧ ¬ ∃ s n, P.getLast? = some s ∧ s.kind = .elem n) ∨
    (∃ s n, P.getLast? = some s ∧ s.kind = .elem n ∧
      ((e = .invalidValue ∧ 10485760 < data.length + (wrapElem n t).length + (if ind = [] then 0 else 1 + (P.length - 1) * ind.length)) ∨
       (e = .malformed ∧ data ≠ [] ∧ topElems o data = [] ∧ ∀ s n, P.head? = some s → s.kind ≠ .elem n))) := by
  unfold appendElement at h
  split at h
  · rename_i hl
    injection h with h
    exact .inl ⟨h.symm, fun ⟨s, n, h1, _⟩ => by rw [hl] at h1; cases h1⟩
  · rename_i seg hl
    split at h
    · rename_i name hk
      right
      refine ⟨seg, name, hl, hk, ?_⟩
      split at h
      · unfold appendRootElement at h
        split at h
        · cases h
        · simp only at h
          obtain ⟨h1, b, h2, h3⟩ := sizeChecked_err (fun e => splice_noerr) h
          have := splice_here_length h2
          have hv : seg.value = name := by simp [Seg.value, hk]
          rw [hv] at this
          left; exact ⟨h1, by omega⟩
      · rename_i hne
        split at h
        · right; exact createElement_err h
        · split at h
          · exact absurd h splice_noerr
          · split at h
            · cases h
            · rename_i pos _
              simp only at h
              obtain ⟨h1, b, h2, h3⟩ := sizeChecked_err (fun e => splice_noerr) h
              have h4 := splice_here_length h2
              left; refine ⟨h1, ?_⟩
              have h5 := indentAt_length ind P.dropLast.length
              rw [show P.length - 1 = P.dropLast.length from List.length_dropLast.symm]
              rw [List.length_append] at h4
              split at h4
              · omega
              · simp only [List.length_nil] at h4; omega
    · rename_i hk
      injection h with h
      refine .inl ⟨h.symm, fun ⟨s, n, h1, h2⟩ => ?_⟩
      rw [hl] at h1; injection h1 with h1; subst h1
      exact hk n h2

theorem replaceAttribute_noerr {cs : Bool} {data a t : Bytes} {l : Loc} {e : Err} : replaceAttribute cs data l a t ≠ .err e := splice_noerr

/-- Why Set can fail after the path has been read. -/
theorem setElement_err {o : Ord} {cs : Bool} {ind data : Bytes} {P : List Seg} {v : GoVal} {e : Err} (hP : P ≠ []) (hd : data.length ≤ 10485760)
    (h : setElement o cs ind data P v = .err e) :
    (e = .invalidValue ∧ (valueToXML v = none ∨ ∃ t, valueToXML v = some t ∧ 5242880 < t.length)) ∨
    (e = .invalidPath ∧ indexIntent P = some false) ∨
    (∃ t, valueToXML v = some t ∧ indexIntent P = some true ∧ appendElement o cs ind data P.dropLast t = .err e) ∨
    (indexIntent P = none ∧ (∃ s a, P.getLast? = some s ∧ s.kind = .attr a) ∧ findLoc o cs P.dropLast data 0 = none ∧ (e = .malformed ∨ e = .invalidPath)) ∨
    (e = .malformed ∧ data ≠ [] ∧ topElems o data = [] ∧ ∀ s n, P.head? = some s → s.kind ≠ .elem n) := by
  unfold setElement at h
  rw [List.getLast?_eq_some_getLast hP] at h
  simp only at h
  split at h
  · rename_i hv; injection h with h; exact .inl ⟨h.symm, .inl hv⟩
  · rename_i t hv
    split at h
    · rename_i hb; injection h with h; exact .inl ⟨h.symm, .inr ⟨t, hv, hb⟩⟩
    · rw [if_neg (by simp [maxDocumentSize]; omega)] at h
      split at h
      · rename_i hi; injection h with h; exact .inr (.inl ⟨h.symm, hi⟩)
      · rename_i hi; exact .inr (.inr (.inl ⟨t, hv, hi, h⟩))
      · rename_i hi
        split at h
        · rename_i a hk
          split at h
          · rename_i hl
            refine .inr (.inr (.inr (.inl ⟨hi, ⟨_, a, List.getLast?_eq_some_getLast hP, hk⟩, hl, ?_⟩)))
            unfold createElementForAttribute at h
            split at h
            · cases h
            · rename_i hc; injection h with h; subst h; exact .inl (createElement_err hc).1
            · simp only at h
              split at h
              · injection h with h; exact .inl h.symm
              · split at h
                · injection h with h; exact .inr h.symm
                · exact absurd h replaceAttribute_noerr
          · exact absurd h replaceAttribute_noerr
        · split at h
          · exact absurd h splice_noerr
          · exact .inr (.inr (.inr (.inr (createElement_err h))))

/-- Why Delete can fail after the path has been read. -/
theorem deleteElement_err {o : Ord} {cs : Bool} {data : Bytes} {P : List Seg} {e : Err} (hP : P ≠ []) (hd : data.length ≤ 10485760) :
    deleteElement o cs data P = .err e ↔ e = .invalidPath ∧ ∃ s a, P = [s] ∧ s.kind = .attr a := by
  unfold deleteElement
  rw [List.getLast?_eq_some_getLast hP]
  simp only
  rw [if_neg (by simp [maxDocumentSize]; omega)]
  split
  · rename_i a hk
    by_cases hl : P.length < 2
    · rw [if_pos hl]
      match P, hP with
      | [s], _ => simp only [List.getLast_singleton] at hk; simp [hk, eq_comm]
      | _ :: _ :: _, _ => simp at hl; omega
    · rw [if_neg hl]
      constructor
      · intro h
        split at h
        · cases h
        · unfold deleteAttribute at h
          split at h
          · exact absurd h splice_noerr
          · cases h
      · rintro ⟨_, s, a, rfl, _⟩; simp at hl
  · rename_i hk
    constructor
    · intro h
      split at h
      · cases h
      · split at h
        · exact absurd h splice_noerr
        · exact absurd h splice_noerr
    · rintro ⟨_, s, a, rfl, h⟩; exact absurd h (hk a)

theorem escByte_length (c : UInt8) : (escByte c).length = escapedSize c := by
  unfold escByte escapedSize
  by_cases h1 : c = c!"&"
  · subst h1; rfl
  by_cases h2 : c = c!"<"
  · subst h2; rfl
  by_cases h3 : c = c!">"
  · subst h3; rfl
  by_cases h4 : c = c!"\""
  · subst h4; rfl
  by_cases h5 : c = c!"'"
  · subst h5; rfl
  simp [h1, h2, h3, h4, h5]

theorem escapeXML_length (s : Bytes) : (escapeXML s).length = (s.map escapedSize).sum := by
  induction s with
  | nil => rfl
  | cons c cs ih => simp [escapeXML, ih, escByte_length]

theorem valueToXML_size {v : GoVal} {t : Bytes} (h : valueToXML v = some t) : t.length = storedSize v := by
  cases v with
  | nil => simp [valueToXML] at h; subst h; rfl
  | str s => simp [valueToXML] at h; subst h; exact escapeXML_length s
  | int i => simp [valueToXML] at h; subst h; rfl
  | float f => simp [valueToXML] at h; subst h; rfl
  | bool b => cases b <;> (simp [valueToXML] at h; subst h; rfl)
  | raw s => simp [valueToXML] at h; subst h; rfl
  | other => simp [valueToXML] at h

theorem unstorable_iff {v : GoVal} : Unstorable v ↔ (valueToXML v = none ∨ ∃ t, valueToXML v = some t ∧ 5242880 < t.length) := by
  unfold Unstorable
  cases h : valueToXML v with
  | none =>
    have : v = .other := by cases v with
      | other => rfl
      | bool b => cases b <;> simp [valueToXML] at h
      | _ => simp [valueToXML] at h
    simp [this]
  | some t =>
    have hv : v ≠ .other := by rintro rfl; simp [valueToXML] at h
    have := valueToXML_size h
    simp [hv, this]

end Verif
