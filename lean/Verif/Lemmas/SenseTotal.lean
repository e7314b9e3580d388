import Verif.Lemmas.SensePath
/- Every path without modifiers has one meaning (C78). -/
namespace Verif
open Verif.Spec

theorem place_total (p : Bytes) : ∃ j, Place p j := by
  by_cases h1 : ∃ ds rest n, p = ds ++ rest ∧ Decimal ds n ∧ (rest = [] ∨ (2 ^ 64 ≤ n ∧ rest.head? = some c!"-"))
  · obtain ⟨ds, rest, n, h1, h2, h3⟩ := h1
    exact ⟨_, .number h1 h2 h3⟩
  · by_cases h2 : ∃ n, Negative p n
    · obtain ⟨n, h2⟩ := h2
      exact ⟨_, .negative h2⟩
    · exact ⟨_, .none h1 h2⟩

theorem role_total {p : Bytes} (h0 : p ≠ []) (hb : c!"|" ∉ p) (hf : ¬ b!"#(" <+: p) (hc : p ≠ b!"#") : ∃ k, RoleOf p k := by
  have hbb := beforeBar_plain hb
  by_cases ha : b!"@" <+: p
  · obtain ⟨a, rfl⟩ := ha; exact ⟨_, .attr⟩
  by_cases h1 : p = b!"%"
  · subst h1; exact ⟨_, .text⟩
  by_cases h2 : p = b!"*"
  · subst h2; exact ⟨_, .any⟩
  by_cases h3 : p = b!"**"
  · subst h3; exact ⟨_, .deep⟩
  by_cases h4 : Position p
  · obtain ⟨j, hj⟩ := place_total p
    exact ⟨_, .pos h4 hj⟩
  · refine ⟨_, .name ⟨h0, hf, ha, ?_, h4⟩⟩
    rw [hbb]
    simp only [List.mem_cons, List.not_mem_nil, or_false, not_or]
    exact ⟨h1, hc, h2, h3⟩

theorem field_total {p : Bytes} (hb : c!"|" ∉ p) (h : FieldStep p) : ∃ g, GoalText [b!"#", p] g := by
  unfold FieldStep at h
  rw [beforeBar_plain hb] at h
  rcases h with rfl | ⟨h1, h2⟩ | ⟨a, rfl, h1, h2⟩
  · exact ⟨_, .fieldText⟩
  · exact ⟨_, .fieldElem h1 h2⟩
  · exact ⟨_, .fieldAttr h1 h2⟩

theorem filter_text {p : Bytes} {s : Seg} (h : IsSeg p s) (hb : c!"|" ∉ p) (hf : b!"#(" <+: p) : ∃ expr all q op v, p = filterPart expr all ∧ Condition expr q op v := by
  obtain ⟨r, rfl⟩ := hf
  unfold IsSeg parsePart at h
  rw [parseModifiers_plain _ hb] at h
  simp only at h
  rw [if_neg (by simp), if_pos (by simp [hasPrefix, List.isPrefixOf])] at h
  unfold parseFilterPart at h
  simp only at h
  split at h
  · rename_i hs
    split at h
    · cases h
    · rename_i hl
      split at h
      · cases h
      · cases h
      · rename_i f hc
        obtain ⟨u, hu⟩ := List.isSuffixOf_iff_suffix.mp hs
        have hr : ∃ e, r = e ++ b!")#" := by
          have h2 : 2 ≤ u.length := by
            have := congrArg List.length hu; simp at this hl; omega
          obtain ⟨a, b, e, rfl⟩ : ∃ a b e, u = a :: b :: e := by
            match u, h2 with
            | a :: b :: e, _ => exact ⟨a, b, e, rfl⟩
          simp only [List.cons_append, List.nil_append, List.cons.injEq] at hu
          exact ⟨e, hu.2.2.symm⟩
        obtain ⟨e, rfl⟩ := hr
        have he : ((b!"#(" ++ (e ++ b!")#")).take ((b!"#(" ++ (e ++ b!")#")).length - 2)).drop 2 = e := by
          rw [← List.append_assoc, List.take_left' (by simp)]; rfl
        rw [he] at hc
        exact ⟨e, true, f.path, f.op, f.value, by simp [filterPart], condition_iff.mp hc⟩
  · split at h
    · rename_i hs
      split at h
      · cases h
      · rename_i hl
        split at h
        · cases h
        · cases h
        · rename_i f hc
          obtain ⟨u, hu⟩ := List.isSuffixOf_iff_suffix.mp hs
          have hr : ∃ e, r = e ++ b!")" := by
            have h2 : 2 ≤ u.length := by
              have := congrArg List.length hu; simp at this hl; omega
            obtain ⟨a, b, e, rfl⟩ : ∃ a b e, u = a :: b :: e := by
              match u, h2 with
              | a :: b :: e, _ => exact ⟨a, b, e, rfl⟩
            simp only [List.cons_append, List.nil_append, List.cons.injEq] at hu
            exact ⟨e, hu.2.2.symm⟩
          obtain ⟨e, rfl⟩ := hr
          have he : ((b!"#(" ++ (e ++ b!")")).take ((b!"#(" ++ (e ++ b!")")).length - 1)).drop 2 = e := by
            rw [← List.append_assoc, List.take_left' (by simp)]; rfl
          rw [he] at hc
          exact ⟨e, false, f.path, f.op, f.value, by simp [filterPart], condition_iff.mp hc⟩
    · cases h

theorem steps_total (pf : Bytes → Option FVal) (n : Nat) (ih : ∀ p : Bytes, p.length < n → c!"|" ∉ p → parsePath p ≠ .panic → ∃ A, Sense pf (.path p A)) :
    ∀ (m : Nat) (ss : List Bytes) (segs : List Seg), ss.length ≤ m → All2 IsSeg ss segs → (∀ s ∈ ss, c!"|" ∉ s ∧ s.length ≤ n) → ∃ ks, Sense pf (.steps ss ks) := by
  intro m
  induction m with
  | zero =>
    intro ss segs hl _ _
    have : ss = [] := List.length_eq_zero_iff.mp (by omega)
    subst this
    exact ⟨_, .nil⟩
  | succ m ihm =>
    intro ss segs hl h hb
    cases h with
    | nil => exact ⟨_, .nil⟩
    | @cons p s ss segs h1 h2 =>
      simp only [List.length_cons] at hl
      obtain ⟨hp, hpl⟩ := hb p (by simp)
      obtain ⟨ks, hks⟩ := ihm ss segs (by omega) h2 (fun s hs => hb s (by simp [hs]))
      by_cases hc : p = b!"#"
      · subst hc
        by_cases hf : ∃ q, ss.head? = some q ∧ FieldStep q
        · obtain ⟨q, hq, hf⟩ := hf
          cases h2 with
          | nil => cases hq
          | @cons q' t ss segs h3 h4 =>
            simp only [List.head?_cons, Option.some.injEq] at hq; subst hq
            obtain ⟨g, hg⟩ := field_total (hb q' (by simp)).1 hf
            simp only [List.length_cons] at hl
            obtain ⟨ks, hks⟩ := ihm ss segs (by omega) h4 (fun s hs => hb s (by simp [hs]))
            exact ⟨_, .field hg hks⟩
        · exact ⟨_, .count (fun q hq hfs => hf ⟨q, hq, hfs⟩) hks⟩
      · by_cases hf : b!"#(" <+: p
        · obtain ⟨expr, all, q, op, v, rfl, hcond⟩ := filter_text h1 hp hf
          obtain ⟨s1, s2, s3, s4⟩ := condition_sub hcond
          have hlen : q.length < n := by
            have : expr.length + 3 ≤ (filterPart expr all).length := by unfold filterPart; cases all <;> simp
            omega
          have hqb : c!"|" ∉ q := fun hm => hp (filterPart_mem (s1 _ hm))
          obtain ⟨f, hfs⟩ : ∃ f, Sense pf (.test q f) := by
            by_cases ha : AttrStep q
            · obtain ⟨a, rfl⟩ := ha; exact ⟨_, .attr⟩
            · obtain ⟨A, hA⟩ := ih q hlen hqb s4
              exact ⟨_, .value ha hA⟩
          exact ⟨_, .cond (q := fun nd => compareFilter pf ⟨q, op, v⟩ (f nd)) hcond hfs (fun nd => compareFilter_iff ..) hks⟩
        · obtain ⟨k, hk⟩ := role_total (by rintro rfl; unfold IsSeg parsePart at h1; simp at h1) hp hf hc
          exact ⟨_, .step hk hks⟩

theorem sense_total (pf : Bytes → Option FVal) : ∀ (n : Nat) (p : Bytes), p.length ≤ n → c!"|" ∉ p → parsePath p ≠ .panic → ∃ A, Sense pf (.path p A) := by
  intro n
  induction n with
  | zero =>
    intro p hl _ _
    have : p = [] := List.length_eq_zero_iff.mp (by omega)
    subst this
    exact ⟨_, .path pathSteps_nil .nil⟩
  | succ n ih =>
    intro p hl hb hn
    rcases path_total p with ⟨ss, h⟩ | h | h
    · rcases parsePath_reads h with ⟨rfl, rfl⟩ | ⟨segs, -, h2⟩
      · exact ⟨_, .path h .nil⟩
      · obtain ⟨ks, hks⟩ := steps_total pf (n + 1) (fun q hq => ih q (by omega)) _ ss segs (Nat.le_refl _) h2
          (fun s hs => ⟨fun hm => hb ((steps_bytes h hs).1 _ hm), by have := (steps_bytes h hs).2; omega⟩)
        exact ⟨_, .path h hks⟩
    · exact ⟨_, .nowhere h⟩
    · exact absurd (parsePath_bad h) hn

theorem digits_split {a b r s : Bytes} (h : a ++ r = b ++ s) (ha : ∀ d ∈ a, 48 ≤ d ∧ d ≤ 57) (hb : ∀ d ∈ b, 48 ≤ d ∧ d ≤ 57) (hr : r = [] ∨ r.head? = some c!"-") (hs : s = [] ∨ s.head? = some c!"-") : a = b := by
  induction a generalizing b with
  | nil =>
    cases b with
    | nil => rfl
    | cons y b =>
      simp only [List.nil_append, List.cons_append] at h
      subst h
      have := hb y (by simp)
      rcases hr with hr | hr
      · cases hr
      · simp only [List.head?_cons, Option.some.injEq] at hr; subst hr; exact absurd this (by decide)
  | cons x a ih =>
    cases b with
    | nil =>
      simp only [List.nil_append, List.cons_append] at h
      subst h
      have := ha x (by simp)
      rcases hs with hs | hs
      · cases hs
      · simp only [List.head?_cons, Option.some.injEq] at hs; subst hs; exact absurd this (by decide)
    | cons y b =>
      simp only [List.cons_append, List.cons.injEq] at h
      rw [h.1, ih h.2 (fun d hd => ha d (by simp [hd])) (fun d hd => hb d (by simp [hd]))]

theorem place_fun {p : Bytes} (hp : c!"|" ∉ p) {i j : Option Nat} (h : Place p i) (h' : Place p j) : i = j := by
  have hbb := beforeBar_plain hp
  have clash : ∀ {ds rest n}, p = ds ++ rest → Decimal ds n → ∀ m, ¬ Negative p m := by
    rintro ds rest n e hd m ⟨ds', rest', e', -⟩
    rw [hbb, e] at e'
    obtain ⟨h0, h1, -⟩ := decimal_facts hd
    cases ds with
    | nil => exact h0 rfl
    | cons x ds =>
      simp only [List.cons_append, List.cons.injEq] at e'
      have := h1 x (by simp)
      rw [e'.1] at this; exact absurd this (by decide)
  cases h with
  | number he hd hr =>
    cases h' with
    | number he' hd' hr' =>
      obtain ⟨-, a1, a2⟩ := decimal_facts hd
      obtain ⟨-, b1, b2⟩ := decimal_facts hd'
      have := digits_split (he.symm.trans he') a1 b1 (hr.imp id And.right) (hr'.imp id And.right)
      rw [← a2, ← b2, this]
    | negative h' => exact absurd h' (clash he hd _)
    | none h1 _ => exact absurd ⟨_, _, _, he, hd, hr⟩ h1
  | negative h =>
    cases h' with
    | number he' hd' _ => exact absurd h (clash he' hd' _)
    | negative => rfl
    | none _ h2 => exact absurd ⟨_, h⟩ h2
  | none h1 h2 =>
    cases h' with
    | number he' hd' hr' => exact absurd ⟨_, _, _, he', hd', hr'⟩ h1
    | negative h' => exact absurd ⟨_, h'⟩ h2
    | none => rfl

theorem role_facts {p : Bytes} {k : Role} (h : RoleOf p k) : p ≠ [] ∧ p ≠ b!"#" ∧ ¬ b!"#(" <+: p := by
  cases h with
  | name h =>
    refine ⟨h.1, ?_, h.2.1⟩
    rintro rfl; exact h.2.2.2.1 (by decide)
  | pos h _ =>
    refine ⟨?_, ?_, ?_⟩
    · rintro rfl; exact h.1 rfl
    · rintro rfl; have := h.2.2 c!"#" (by decide); exact absurd this (by decide)
    · intro hf
      have := h.2.2 c!"#" (by
        obtain ⟨r, hr⟩ := (prefix_beforeBar (z := b!"#(") (by decide)).mp hf
        rw [← hr]; simp)
      exact absurd this (by decide)
  | any => decide
  | deep => decide
  | attr => refine ⟨by simp, by simp, ?_⟩; rintro ⟨r, hr⟩; simp at hr
  | text => decide

theorem role_fun {p : Bytes} (hb : c!"|" ∉ p) {k k' : Role} (h : RoleOf p k) (h' : RoleOf p k') : k = k' := by
  have hbb := beforeBar_plain hb
  have posat : ∀ a : Bytes, ¬ Position (c!"@" :: a) := fun a h => by
    have := h.2.2 c!"@" (by rw [beforeBar]; simp [List.takeWhile])
    exact absurd this (by decide)
  have nameat : ∀ a : Bytes, ¬ NameStep (c!"@" :: a) := fun a h => h.2.2.1 ⟨a, rfl⟩
  cases h with
  | name h =>
    cases h' with
    | name => rfl
    | pos h' => exact absurd h' h.2.2.2.2
    | any => exact absurd (by decide) h.2.2.2.1
    | deep => exact absurd (by decide) h.2.2.2.1
    | attr => exact absurd h (nameat _)
    | text => exact absurd (by decide) h.2.2.2.1
  | pos h hj =>
    cases h' with
    | name h' => exact absurd h h'.2.2.2.2
    | pos h' hj' => rw [place_fun hb hj hj']
    | any => have := h.2.2 c!"*" (by decide); exact absurd this (by decide)
    | deep => have := h.2.2 c!"*" (by decide); exact absurd this (by decide)
    | attr => exact absurd h (posat _)
    | text => have := h.2.2 c!"%" (by decide); exact absurd this (by decide)
  | any =>
    cases h' with
    | name h' => exact absurd (by decide) h'.2.2.2.1
    | pos h => have := h.2.2 c!"*" (by decide); exact absurd this (by decide)
    | any => rfl
  | deep =>
    cases h' with
    | name h' => exact absurd (by decide) h'.2.2.2.1
    | pos h => have := h.2.2 c!"*" (by decide); exact absurd this (by decide)
    | deep => rfl
  | attr =>
    cases h' with
    | name h' => exact absurd h' (nameat _)
    | pos h' => exact absurd h' (posat _)
    | attr => rfl
  | text =>
    cases h' with
    | name h' => exact absurd (by decide) h'.2.2.2.1
    | pos h => have := h.2.2 c!"%" (by decide); exact absurd this (by decide)
    | text => rfl

theorem field_fun {p : Bytes} {g g' : Goal} (h : GoalText [b!"#", p] g) (h' : GoalText [b!"#", p] g') : g = g' := by
  have idat : ∀ a, ¬ Identifier (c!"@" :: a) := by
    rintro a ⟨c, cs, e, hc, -⟩
    simp only [List.cons.injEq] at e
    rw [← e.1] at hc; revert hc; decide
  have idpc : ¬ Identifier b!"%" := by
    rintro ⟨c, cs, e, hc, -⟩
    simp only [List.cons.injEq] at e
    rw [← e.1] at hc; revert hc; decide
  cases h with
  | fieldElem h =>
    cases h' with
    | fieldElem => rfl
    | fieldAttr => exact absurd h (idat _)
    | fieldText => exact absurd h idpc
  | fieldAttr h =>
    cases h' with
    | fieldElem h' => exact absurd h' (idat _)
    | fieldAttr => rfl
  | fieldText =>
    cases h' with
    | fieldElem h' => exact absurd h' idpc
    | fieldText => rfl

theorem goal_fieldStep {p : Bytes} {g : Goal} (h : GoalText [b!"#", p] g) : FieldStep p := by
  cases h with
  | fieldElem h hl => have := (identifier_plain h).noBar; exact .inr (.inl (by rw [beforeBar_plain this]; exact ⟨h, hl⟩))
  | fieldAttr h hl => have := (identifier_plain h).noBar; exact .inr (.inr ⟨_, beforeBar_plain (by simp [this]), h, hl⟩)
  | fieldText => exact .inl rfl

theorem filterPart_long (e : Bytes) (a : Bool) : filterPart e a ≠ b!"#" := by unfold filterPart; simp

/-- A topic is about one thing only. -/
def Spec.Topic.Only (pf : Bytes → Option FVal) : Topic → Prop
  | .path p A => c!"|" ∉ p → ∀ B, Sense pf (.path p B) → A = B
  | .steps ss ks => (∀ s ∈ ss, c!"|" ∉ s) → ∀ ls, Sense pf (.steps ss ls) → ks = ls
  | .test p f => c!"|" ∉ p → ∀ g, Sense pf (.test p g) → f = g

theorem sense_only {pf : Bytes → Option FVal} {T : Topic} (h : Sense pf T) : T.Only pf := by
  have clash : ∀ {p ss}, NoPath p → PathSteps p ss → p = [] ∧ ss = [] := by
    intro p ss h1 h2
    rcases parsePath_reads h2 with h | ⟨segs, h3, -⟩
    · exact h
    · rw [parsePath_none h1] at h3; cases h3
  induction h with
  | nowhere h =>
    intro _ B hB
    cases hB with
    | nowhere => rfl
    | path h' hs' => obtain ⟨-, rfl⟩ := clash h h'; cases hs'; rfl
  | path h hs ih =>
    intro hb B hB
    cases hB with
    | nowhere h' => obtain ⟨-, rfl⟩ := clash h' h; cases hs; rfl
    | path h' hs' =>
      have := pathSteps_fun h h'; subst this
      rw [ih (fun s hm hbar => hb ((steps_bytes h hm).1 _ hbar)) _ hs']
  | nil => intro _ ls hl; cases hl; rfl
  | @step s k ss ks h hs ih =>
    intro hb ls hl
    have hf := role_facts h
    generalize hT : Topic.steps (s :: ss) ls = T at hl
    cases hl with
    | step h' hs' =>
      cases hT
      rw [role_fun (hb s (by simp)) h h', ih (fun s hs => hb s (by simp [hs])) _ hs']
    | count => cases hT; exact absurd rfl hf.2.1
    | field => cases hT; exact absurd rfl hf.2.1
    | cond => injection hT with h1 h2; injection h1 with h1 h3; exact absurd (h1 ▸ filterPart_pre _ _) hf.2.2
    | _ => cases hT
  | @count ss ks h hs ih =>
    intro hb ls hl
    generalize hT : Topic.steps (b!"#" :: ss) ls = T at hl
    cases hl with
    | step h' hs' => cases hT; exact absurd rfl (role_facts h').2.1
    | count h' hs' => cases hT; rw [ih (fun s hs => hb s (by simp [hs])) _ hs']
    | field h' => cases hT; exact absurd (goal_fieldStep h') (h _ rfl)
    | cond => injection hT with h1 h2; injection h1 with h1 h3; exact absurd h1.symm (filterPart_long _ _)
    | _ => cases hT
  | @field s g ss ks h hs ih =>
    intro hb ls hl
    generalize hT : Topic.steps (b!"#" :: s :: ss) ls = T at hl
    cases hl with
    | step h' hs' => cases hT; exact absurd rfl (role_facts h').2.1
    | count h' hs' => cases hT; exact absurd (goal_fieldStep h) (h' _ rfl)
    | field h' hs' => cases hT; rw [field_fun h h', ih (fun s hs => hb s (by simp [hs])) _ hs']
    | cond => injection hT with h1 h2; injection h1 with h1 h3; exact absurd h1.symm (filterPart_long _ _)
    | _ => cases hT
  | @cond expr p v op all f q ss ks hc ht hq hs iht ihs =>
    intro hb ls hl
    generalize hT : Topic.steps (filterPart expr all :: ss) ls = T at hl
    cases hl with
    | step h' hs' => injection hT with h1 h2; injection h1 with h1 h3; exact absurd (h1 ▸ filterPart_pre _ _) (role_facts h').2.2
    | count => injection hT with h1 h2; injection h1 with h1 h3; exact absurd h1 (filterPart_long _ _)
    | field => injection hT with h1 h2; injection h1 with h1 h3; exact absurd h1 (filterPart_long _ _)
    | @cond expr' p' v' op' all' f' q' ss' ks' hc' ht' hq' hs' =>
      injection hT with h1 h2; injection h1 with h1 h3
      obtain ⟨rfl, rfl⟩ := filterPart_inj h1
      subst h2; subst h3
      have := (condition_iff.mpr hc).symm.trans (condition_iff.mpr hc')
      injection this with this; injection this with e1 e2 e3
      subst e1; subst e2; subst e3
      have hbar : c!"|" ∉ p := fun hm => hb _ (List.mem_cons_self ..) (filterPart_mem ((condition_sub hc).1 _ hm))
      have := iht hbar _ ht'; subst this
      have : q = q' := by funext nd; rw [Bool.eq_iff_iff, hq, hq']
      rw [this, ihs (fun s hs => hb s (by simp [hs])) _ hs']
    | _ => cases hT
  | attr =>
    intro _ g hg
    cases hg with
    | attr => rfl
    | value h0 => exact absurd ⟨_, rfl⟩ h0
  | value h0 h ih =>
    intro hb g hg
    cases hg with
    | attr => exact absurd ⟨_, rfl⟩ h0
    | value h0' h' => rw [ih hb _ h']

end Verif
