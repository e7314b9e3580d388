import Verif.Lemmas.Astray
import Verif.Lemmas.Hops
import Verif.Lemmas.Slots
import Verif.Spec.Astray
/- The segments that the steps of a path stand for (C77). -/
namespace Verif
open Verif.Spec

/-! ### kinds -/

theorem isSeg_text {p : Bytes} {s : Seg} (h : IsSeg p s) (hp : beforeBar p = b!"%") : s.kind = .text := by
  have hf : ¬ b!"#(" <+: p := fun hf => by
    have := (prefix_beforeBar (z := b!"#(") (by decide)).mp hf
    rw [hp] at this; simp at this
  rw [(isSeg_not_filter h hf).2, hp]; rfl

theorem isSeg_wild {p : Bytes} {s : Seg} (h : IsSeg p s) : WildStep p ↔ ∃ b, s.kind = .wild b := by
  by_cases hf : b!"#(" <+: p
  · obtain ⟨f, all, hk⟩ := isSeg_filter h hf
    have hb := (prefix_beforeBar (z := b!"#(") (by decide)).mp hf
    refine ⟨fun hw => ?_, fun ⟨b, e⟩ => by rw [hk] at e; cases e⟩
    rcases hw with hw | hw <;> rw [hw] at hb <;> simp at hb
  · have hk := (isSeg_not_filter h hf).2
    refine ⟨fun hw => ?_, fun ⟨b, e⟩ => ?_⟩
    · rcases hw with hw | hw <;> rw [hw] at hk
      · exact ⟨false, hk⟩
      · exact ⟨true, hk⟩
    · rw [hk] at e
      repeat' split at e
      all_goals first | (cases e; done) | (rename_i h; exact .inl h) | (rename_i h; exact .inr h)

theorem isSeg_deep {p : Bytes} {s : Seg} (h : IsSeg p s) : beforeBar p = b!"**" ↔ s.kind = .wild true := by
  by_cases hf : b!"#(" <+: p
  · obtain ⟨f, all, hk⟩ := isSeg_filter h hf
    have hb := (prefix_beforeBar (z := b!"#(") (by decide)).mp hf
    refine ⟨fun hw => ?_, fun e => by rw [hk] at e; cases e⟩
    rw [hw] at hb; simp at hb
  · have hk := (isSeg_not_filter h hf).2
    refine ⟨fun hw => ?_, fun e => ?_⟩
    · rw [hw] at hk; exact hk
    · rw [hk] at e
      repeat' split at e
      all_goals first | (cases e; done) | (rename_i h; exact h)

theorem isSeg_filter_iff {p : Bytes} {s : Seg} (h : IsSeg p s) : FilterStep p ↔ ∃ f all, s.kind = .filter f all := by
  refine ⟨isSeg_filter h, fun ⟨f, all, e⟩ => ?_⟩
  by_cases hf : b!"#(" <+: p
  · exact hf
  · rw [(isSeg_not_filter h hf).2] at e
    repeat' split at e
    all_goals cases e

theorem isSeg_move {p : Bytes} {s : Seg} (h : IsSeg p s) (hm : MoveStep p) : s.step := by
  by_cases hf : b!"#(" <+: p
  · exact .inr (.inr (.inr (isSeg_filter h hf)))
  · have hk := (isSeg_not_filter h hf).2
    rw [if_neg (by rw [hasPrefix, List.isPrefixOf_iff_prefix]; exact fun hh => hm.1 ((prefix_beforeBar (by decide)).mpr hh)), if_neg hm.2.1, if_neg hm.2.2] at hk
    repeat' split at hk
    · exact .inr (.inr (.inl ⟨_, hk⟩))
    · exact .inr (.inr (.inl ⟨_, hk⟩))
    · exact .inr (.inl ⟨_, hk⟩)
    · exact .inl ⟨_, hk⟩

theorem identifier_at {a : Bytes} : ¬ Identifier (c!"@" :: a) := not_identifier (by decide)

/-- `#` and the next step are fused exactly if that is a field. -/
theorem joined_field {c p : Bytes} {s t : Seg} (hs : IsSeg c s) (ht : IsSeg p t) : (∃ x, joined s t = some x) ↔ beforeBar c = b!"#" ∧ FieldStep p := by
  have hc := (isSeg_kind hs).2.1
  unfold joined
  by_cases h : s.kind = .count
  · rw [if_pos h]
    have hcb := hc.mpr h
    simp only [hcb, true_and]
    by_cases hf : b!"#(" <+: p
    · obtain ⟨f, all, hk⟩ := isSeg_filter ht hf
      have hb := (prefix_beforeBar (z := b!"#(") (by decide)).mp hf
      simp only [hk, fieldOf]
      refine ⟨fun ⟨x, hx⟩ => (by cases hx), fun hfs => ?_⟩
      exfalso
      obtain ⟨u, hu⟩ := hb
      rcases hfs with e | ⟨e, -⟩ | ⟨a, e, -⟩
      · rw [e] at hu; simp at hu
      · rw [← hu] at e; exact not_identifier (by decide) e
      · rw [e] at hu; simp at hu
    · have hk := (isSeg_not_filter ht hf).2
      by_cases h1 : hasPrefix (beforeBar p) b!"@" = true
      · rw [if_pos h1] at hk
        rw [hasPrefix, List.isPrefixOf_iff_prefix] at h1
        obtain ⟨a, ha⟩ := h1
        rw [← ha] at hk
        simp only [List.cons_append, List.nil_append, List.drop_one, List.tail_cons] at hk ha
        have hv : isValidFieldName (c!"@" :: a) = isValidIdentifier a := by
          unfold isValidFieldName
          cases a with
          | nil => rfl
          | cons x a => simp
        simp only [hk, fieldOf, hv]
        constructor
        · rintro ⟨x, hx⟩
          split at hx
          · rename_i hh
            simp only [Bool.and_eq_true] at hh
            have h4 := of_decide_eq_true hh.2
            simp only [maxFieldNameLength, List.length_cons] at h4
            exact .inr (.inr ⟨a, ha.symm, identifier_iff.mp hh.1, by omega⟩)
          · cases hx
        · intro hfs
          rcases hfs with e | ⟨e, -⟩ | ⟨a', e, he, hl⟩
          · rw [← ha] at e; simp at e
          · rw [← ha] at e; exact absurd e identifier_at
          · rw [← ha] at e; injection e with _ e; subst e
            rw [if_pos (by rw [identifier_ok he, Bool.true_and]; exact decide_eq_true (by simp only [maxFieldNameLength, List.length_cons]; omega))]
            exact ⟨_, rfl⟩
      · rw [if_neg h1] at hk
        have hnat : ∀ a, beforeBar p ≠ c!"@" :: a := by
          intro a e; rw [e] at h1; simp [hasPrefix] at h1
        by_cases h2 : beforeBar p = b!"%"
        · rw [if_pos h2] at hk
          simp only [hk, fieldOf]
          rw [if_pos (by decide)]
          exact ⟨fun _ => .inl h2, fun _ => ⟨_, rfl⟩⟩
        · rw [if_neg h2] at hk
          have hfs : FieldStep p ↔ Identifier (beforeBar p) ∧ (beforeBar p).length ≤ 256 := by
            refine ⟨fun hfs => ?_, fun e => .inr (.inl e)⟩
            rcases hfs with e | e | ⟨a, e, -⟩
            · exact absurd e h2
            · exact e
            · exact absurd e (hnat a)
          rw [hfs]
          have nid : ∀ {c : UInt8} {cs : Bytes}, beforeBar p = c :: cs → ¬ (((65 ≤ c ∧ c ≤ 90) ∨ (97 ≤ c ∧ c ≤ 122)) ∨ c = c!"_") → ¬ Identifier (beforeBar p) := by
            intro c cs e hc; rw [e]; exact not_identifier hc
          by_cases h3 : ∃ n, t.kind = .elem n
          · obtain ⟨n, hn⟩ := h3
            have hnb : n = beforeBar p := (isSeg_kind ht).2.2.2.1 n hn
            simp only [hn, fieldOf, hnb]
            have hv : isValidFieldName (beforeBar p) = isValidIdentifier (beforeBar p) := by
              unfold isValidFieldName
              split
              · rename_i e; rw [e]; rfl
              · rename_i c cs e
                rw [← e, if_neg h2, if_neg (by rintro rfl; exact hnat cs e)]
            rw [hv]
            constructor
            · rintro ⟨x, hx⟩
              split at hx
              · rename_i hh
                simp only [Bool.and_eq_true] at hh
                exact ⟨identifier_iff.mp hh.1, of_decide_eq_true hh.2⟩
              · cases hx
            · rintro ⟨he, hl⟩
              rw [if_pos (by rw [identifier_ok he, Bool.true_and]; exact decide_eq_true hl)]
              exact ⟨_, rfl⟩
          · have hno : fieldOf t.kind = none := by
              rw [hk] at h3 ⊢
              repeat' split
              all_goals first | rfl | (exfalso; simp_all; done)
            rw [hno]
            refine ⟨fun ⟨x, hx⟩ => (by cases hx), fun ⟨he, hl⟩ => ?_⟩
            exfalso
            apply h3
            refine (isSeg_kind ht).2.2.1.mp ⟨(isSeg_not_filter ht hf).1, hf, fun hh => ?_, ?_, ?_⟩
            · obtain ⟨a, ha⟩ := (prefix_beforeBar (z := b!"@") (by decide)).mp hh
              exact hnat a ha.symm
            · intro hm
              simp only [List.mem_cons, List.not_mem_nil, or_false] at hm
              rcases hm with e | e | e | e <;> exact nid e (by decide) he
            · rintro ⟨-, -, hall⟩
              obtain ⟨c, cs, e, hcc, -⟩ := he
              have := hall c (by rw [e]; simp)
              rw [e] at hall
              rcases this with h4 | h4
              · subst h4; revert hcc; decide
              · rcases hcc with (hcc | hcc) | hcc
                · exact absurd (UInt8.le_trans hcc.1 h4.2) (by decide)
                · exact absurd (UInt8.le_trans hcc.1 h4.2) (by decide)
                · subst hcc; revert h4; decide
  · rw [if_neg h]
    exact ⟨fun ⟨x, hx⟩ => (by cases hx), fun e => absurd (hc.mp e.1) h⟩


/-! ### `#` and what follows it -/

theorem fuse_append (l r : List Seg) (h : ∀ q p, l.getLast? = some q → r.head? = some p → joined q p = none) : fuseFields (l ++ r) = fuseFields l ++ fuseFields r := by
  have key : ∀ n (l : List Seg), l.length ≤ n → (∀ q p, l.getLast? = some q → r.head? = some p → joined q p = none) → fuseFields (l ++ r) = fuseFields l ++ fuseFields r := by
    intro n
    induction n with
    | zero =>
      intro l hl _
      obtain rfl : l = [] := List.eq_nil_of_length_eq_zero (by omega)
      rfl
    | succ n ih =>
      intro l hl h
      match l with
      | [] => rfl
      | [s] =>
        cases r with
        | nil => rfl
        | cons t r =>
          show fuseFields (s :: t :: r) = _
          rw [fuse_cons2, h s t rfl rfl]; rfl
      | s :: t :: l =>
        simp only [List.length_cons] at hl
        show fuseFields (s :: t :: (l ++ r)) = _
        rw [fuse_cons2, fuse_cons2]
        cases hj : joined s t with
        | some x =>
          simp only [List.cons_append]
          rw [ih l (by omega)]
          intro q p hq hp
          refine h q p ?_ hp
          rw [List.getLast?_cons, List.getLast?_cons, hq]; rfl
        | none =>
          simp only [List.cons_append]
          rw [show t :: (l ++ r) = (t :: l) ++ r from rfl, ih (t :: l) (by simp; omega)]
          intro q p hq hp
          refine h q p ?_ hp
          rw [List.getLast?_cons, hq]; rfl
  exact key _ l (Nat.le_refl _) h

theorem all2_last {a : List Bytes} {b : List Seg} (h : All2 IsSeg a b) : (∀ s, b.getLast? = some s → ∃ p, a.getLast? = some p ∧ IsSeg p s) ∧ (∀ p, a.getLast? = some p → ∃ s, b.getLast? = some s ∧ IsSeg p s) := by
  induction h with
  | nil => simp
  | @cons p s as bs h1 h2 ih =>
    rw [List.getLast?_cons, List.getLast?_cons]
    cases h2 with
    | nil => exact ⟨fun x hx => by simp at hx; subst hx; exact ⟨p, rfl, h1⟩, fun x hx => by simp at hx; subst hx; exact ⟨s, rfl, h1⟩⟩
    | @cons p' s' as' bs' h3 h4 =>
      obtain ⟨y, hy⟩ : ∃ y, (s' :: bs').getLast? = some y := ⟨_, List.getLast?_eq_some_getLast (by simp)⟩
      obtain ⟨x, hx⟩ : ∃ x, (p' :: as').getLast? = some x := ⟨_, List.getLast?_eq_some_getLast (by simp)⟩
      rw [hx, hy] at ih ⊢
      exact ih

/-- The segments of a path with a final step: those before it, one that shuts, and others. -/
theorem fuse_final {pre rest : List Bytes} {p : Bytes} {ss : List Seg} (h : All2 IsSeg (pre ++ p :: rest) ss) (hf : Final pre p rest) :
    ∃ l x r, fuseFields ss = l ++ x :: r ∧ x.shut ∧ ∀ ss', All2 IsSeg (pre ++ [p]) ss' → fuseFields ss' = l ++ [x] := by
  obtain ⟨a, b, rfl, ha, hb⟩ := all2_split h
  cases hb with
  | @cons _ s _ rs h1 h2 =>
    have hsame : ∀ ss', All2 IsSeg (pre ++ [p]) ss' → ss' = a ++ [s] := fun ss' h' => all2_fun h' (ha.append (.cons h1 .nil))
    by_cases hj : ∃ q x, a.getLast? = some q ∧ joined q s = some x
    · obtain ⟨q, x, hq, hj⟩ := hj
      obtain ⟨l, rfl⟩ := List.getLast?_eq_some_iff.mp hq
      have hql : ∀ y z, l.getLast? = some y → [q, s].head? = some z → joined y z = none := by
        intro y z _ hz
        simp at hz; subst hz
        cases hyq : joined y q with
        | none => rfl
        | some w => exact absurd (joined_facts hj).1 (joined_facts hyq).2.2.1
      refine ⟨fuseFields l, x, fuseFields rs, ?_, ?_, fun ss' h' => ?_⟩
      · rw [List.append_assoc]
        rw [fuse_append l _ (by intro y z hy hz; exact hql y z hy (by simpa using hz))]
        show _ ++ fuseFields (q :: s :: rs) = _
        rw [fuse_cons2, hj]
      · obtain ⟨-, ⟨f, -, rfl⟩, -⟩ := joined_facts hj; exact .inr (.inr ⟨f, rfl⟩)
      · rw [hsame ss' h', List.append_assoc]; exact fuse_take l q s x hj
    · have hj' : ∀ q, a.getLast? = some q → joined q s = none := by
        intro q hq
        cases hjs : joined q s with
        | none => rfl
        | some x => exact absurd ⟨q, x, hq, hjs⟩ hj
      rw [fuse_append a _ (by intro q z hq hz; simp at hz; subst hz; exact hj' q hq)]
      have hsh : s.shut ∧ fuseFields (s :: rs) = s :: fuseFields rs := by
        rcases hf with e | ⟨e, hr⟩ | ⟨e, q, hq, e2⟩
        · have hk := isSeg_text h1 e
          exact ⟨.inl hk, fuseFields_cons (by rw [hk]; simp) rs⟩
        · have hk := (isSeg_kind h1).2.1.mp e
          refine ⟨.inr (.inl hk), ?_⟩
          cases h2 with
          | nil => rfl
          | @cons q t _ _ h3 h4 =>
            rw [fuse_cons2]
            cases hjs : joined s t with
            | none => rfl
            | some x => exact absurd ((joined_field h1 h3).mp ⟨x, hjs⟩).2 (hr q rfl)
        · obtain ⟨y, hy, hys⟩ := (all2_last ha).2 q hq
          obtain ⟨x, hx⟩ := (joined_field hys h1).mpr ⟨e2, e⟩
          exact absurd ⟨y, x, hy, hx⟩ hj
      refine ⟨fuseFields a, s, fuseFields rs, by rw [hsh.2], hsh.1, fun ss' h' => ?_⟩
      rw [hsame ss' h']; exact fuse_keep a s hj'

theorem all2_steps {pre : List Bytes} {a : List Seg} (h : All2 IsSeg pre a) (hm : ∀ p ∈ pre, MoveStep p) : (∀ s ∈ a, s.step) ∧ ∀ s ∈ a, s.kind ≠ .count := by
  have h1 : ∀ s ∈ a, s.step := by
    induction h with
    | nil => simp
    | cons h1 h2 ih =>
      intro s hs
      rcases List.mem_cons.mp hs with rfl | hs
      · exact isSeg_move h1 (hm _ (by simp))
      · exact ih (fun p hp => hm p (by simp [hp])) s hs
  refine ⟨h1, fun s hs e => ?_⟩
  rcases h1 s hs with ⟨_, h⟩ | ⟨_, h⟩ | ⟨_, h⟩ | ⟨_, _, h⟩ <;> rw [e] at h <;> cases h

end Verif
