import Verif.Lemmas.Query
import Verif.Lemmas.Modifier
import Verif.Spec.Order
import Verif.Model.GetOpt
/- Two runs of the query engine, on two texts that say the same and with two iteration orders of maps, side by side. -/
namespace Verif
open Spec

/-! ### results alike -/

theorem All2.of_get {α β : Type} {R : α → β → Prop} {l1 : List α} {l2 : List β} (hlen : l1.length = l2.length)
    (h : ∀ (i : Nat) r1 r2, l1[i]? = some r1 → l2[i]? = some r2 → R r1 r2) : All2 R l1 l2 := by
  induction l1 generalizing l2 with
  | nil => cases l2 with
    | nil => exact .nil
    | cons => simp at hlen
  | cons a l1 ih =>
    cases l2 with
    | nil => simp at hlen
    | cons b l2 => exact .cons (h 0 a b rfl rfl) (ih (by simpa using hlen) (fun i => h (i + 1)))

theorem alike_nest {t : RType} {s : Bytes} {n : FVal} {l1 l2 : List Result} (h : All2 Alike l1 l2) :
    Alike (.mk t [] s n l1) (.mk t [] s n l2) := by
  refine .nest t s n l1 l2 h.length (fun i r1 r2 h1 h2 => ?_)
  rcases h.get i with ⟨h3, -⟩ | ⟨a, b, h3, h4, h5⟩
  · rw [h3] at h1; simp at h1
  · rw [h3] at h1; rw [h4] at h2
    simp only [Option.some.injEq] at h1 h2
    subst h1; subst h2; exact h5

theorem Spec.Alike.fields {r1 r2 : Result} (h : Alike r1 r2) :
    r1.typ = r2.typ ∧ r1.str = r2.str ∧ r1.num = r2.num ∧ All2 Alike r1.results r2.results := by
  cases h with
  | leaf t raw1 raw2 s n => exact ⟨rfl, rfl, rfl, .nil⟩
  | nest t s n l1 l2 hlen h => exact ⟨rfl, rfl, rfl, All2.of_get hlen h⟩

theorem Spec.Alike.typ {r1 r2 : Result} (h : Alike r1 r2) : r1.typ = r2.typ := h.fields.1

theorem alike_null : Alike .null .null := .leaf _ _ _ _ _
theorem alike_attr (v : Bytes) : Alike (.ofAttr v) (.ofAttr v) := .leaf _ _ _ _ _
theorem alike_count (n : Nat) : Alike (.ofCount n) (.ofCount n) := .leaf _ _ _ _ _
theorem alike_array {l1 l2 : List Result} (h : All2 Alike l1 l2) : Alike (.ofArray l1) (.ofArray l2) := alike_nest h

theorem map_attach_val {α β : Type} (l : List α) (f : α → β) : (l.attach.map fun x => f x.1) = l.map f := by
  rw [List.attach_map_val]

theorem toStr_eq (t : RType) (raw s : Bytes) (n : FVal) (l : List Result) :
    (Result.mk t raw s n l).toStr =
      if t = .null then [] else if t = .array then b!"[" ++ Result.joinItems (l.map Result.toStr) ++ b!"]" else s := by
  rw [Result.toStr]
  have : (l.attach.map fun x => match x with | ⟨r, _⟩ => r.toStr) = l.map Result.toStr := map_attach_val l Result.toStr
  rw [← this]

theorem map_of_all2 {α β γ : Type} {R : α → β → Prop} {f : α → γ} {g : β → γ} {l1 : List α} {l2 : List β} (h : All2 R l1 l2)
    (hfg : ∀ a b, R a b → f a = g b) : l1.map f = l2.map g := by
  induction h with
  | nil => rfl
  | cons hab _ ih => simp [hfg _ _ hab, ih]

theorem all2_eq {α : Type} {l1 l2 : List α} (h : All2 Eq l1 l2) : l1 = l2 := by
  induction h with
  | nil => rfl
  | cons hab _ ih => rw [hab, ih]

theorem Spec.Alike.toStr {r1 r2 : Result} (h : Alike r1 r2) : r1.toStr = r2.toStr := by
  induction h with
  | leaf t raw1 raw2 s n => rw [toStr_eq, toStr_eq]
  | nest t s n l1 l2 hlen h ih =>
    rw [toStr_eq, toStr_eq, map_of_all2 (All2.of_get hlen ih) (fun _ _ e => e)]

theorem Spec.Alike.toInt {r1 r2 : Result} (h : Alike r1 r2) : r1.toInt = r2.toInt := by
  obtain ⟨h1, h2, h3, -⟩ := h.fields
  simp only [Result.toInt, h1, h2, h3]

theorem Spec.Alike.toFloat {r1 r2 : Result} (pf : Bytes → Option FVal) (h : Alike r1 r2) : r1.toFloat pf = r2.toFloat pf := by
  obtain ⟨h1, h2, h3, -⟩ := h.fields
  simp only [Result.toFloat, h1, h2, h3]

theorem Spec.Alike.toBool {r1 r2 : Result} (h : Alike r1 r2) : r1.toBool = r2.toBool := by
  obtain ⟨h1, h2, h3, -⟩ := h.fields
  simp only [Result.toBool, h1, h2, h3]

theorem Spec.Alike.exists? {r1 r2 : Result} (h : Alike r1 r2) : r1.exists? = r2.exists? := by
  simp only [Result.exists?, h.typ]

theorem Spec.Alike.array {r1 r2 : Result} (h : Alike r1 r2) : All2 Alike r1.array r2.array := by
  simp only [Result.array, h.typ]
  split
  · exact h.fields.2.2.2
  · split
    · exact .nil
    · exact .cons h .nil

theorem alike_asList {r1 r2 : Result} (h : Alike r1 r2) : All2 Alike (asList r1) (asList r2) := by
  simp only [asList, h.typ]
  split
  · exact .nil
  · split
    · exact h.fields.2.2.2
    · exact .cons h .nil

theorem alike_pack {l1 l2 : List Result} (h : All2 Alike l1 l2) : Alike (packResults l1) (packResults l2) := by
  cases h with
  | nil => exact alike_array .nil
  | cons hab h =>
    cases h with
    | nil => exact hab
    | cons hab' h => exact alike_array (.cons hab (.cons hab' h))

/-! ### modifiers -/

/-- All registered modifiers respect results alike. -/
def BlindMods (mods : Bytes → Option (Result → Result)) : Prop := ∀ n m, mods n = some m → RawBlind m

theorem runMods_alike {mods : Bytes → Option (Result → Result)} (hm : BlindMods mods) (ns : List Bytes) {r1 r2 : Result}
    (h : Alike r1 r2) : Alike (runMods mods r1 ns) (runMods mods r2 ns) := by
  induction ns generalizing r1 r2 with
  | nil => exact h
  | cons n ns ih =>
    simp only [runMods]
    cases hn : mods n with
    | none => exact alike_null
    | some m =>
      have := hm n m hn _ _ h
      simp only [this.typ]
      split
      · exact this
      · exact ih this

theorem applyModifiers_alike {mods : Bytes → Option (Result → Result)} (hm : BlindMods mods) (ns : List Bytes) {r1 r2 : Result}
    (h : Alike r1 r2) : Alike (applyModifiers mods r1 ns) (applyModifiers mods r2 ns) := by
  unfold applyModifiers
  split
  · exact alike_null
  · exact runMods_alike hm ns h

theorem All2.reverse {α β : Type} {R : α → β → Prop} {l1 : List α} {l2 : List β} (h : All2 R l1 l2) :
    All2 R l1.reverse l2.reverse := by
  induction h with
  | nil => exact .nil
  | cons hab _ ih => simp only [List.reverse_cons]; exact ih.append (.cons hab .nil)

theorem reverseMod_blind : RawBlind reverseMod := by
  intro r1 r2 h
  have hl := h.fields.2.2.2
  simp only [reverseMod, h.typ, hl.isEmpty]
  split
  · exact h
  · exact alike_array hl.reverse

theorem firstMod_blind : RawBlind firstMod := by
  intro r1 r2 h
  have hl := h.fields.2.2.2
  simp only [firstMod, h.typ]
  split
  · generalize r1.results = l1 at hl
    generalize r2.results = l2 at hl
    cases hl with
    | nil => exact h
    | cons hab _ => exact hab
  · exact h

theorem All2.getLast {α β : Type} {R : α → β → Prop} {l1 : List α} {l2 : List β} (h : All2 R l1 l2) :
    (l1.getLast? = none ∧ l2.getLast? = none) ∨ ∃ a b, l1.getLast? = some a ∧ l2.getLast? = some b ∧ R a b := by
  rw [List.getLast?_eq_getElem?, List.getLast?_eq_getElem?, h.length]
  exact h.get _

theorem lastMod_blind : RawBlind lastMod := by
  intro r1 r2 h
  simp only [lastMod, h.typ]
  split
  · rcases h.fields.2.2.2.getLast with ⟨h1, h2⟩ | ⟨a, b, h1, h2, h3⟩
    · rw [h1, h2]; exact h
    · rw [h1, h2]; exact h3
  · exact h

theorem flattenMod_blind : RawBlind flattenMod := by
  intro r1 r2 h
  simp only [flattenMod, h.typ]
  split
  · exact h
  · have : All2 Alike (r1.results.flatMap fun x => if x.typ = .array then x.results else [x])
        (r2.results.flatMap fun x => if x.typ = .array then x.results else [x]) := by
      refine All2.flatMap h.fields.2.2.2 (fun a b hab => ?_)
      rw [hab.typ]
      split
      · exact hab.fields.2.2.2
      · exact .cons hab .nil
    rw [this.isEmpty]
    split
    · exact alike_null
    · exact alike_array this

theorem uglyMod_blind : RawBlind uglyMod := by
  intro r1 r2 h
  cases h with
  | leaf t raw1 raw2 s n =>
    simp only [uglyMod, Result.raw, Result.typ, Result.str, Result.num]
    have h1 : ∀ (c : Prop) [Decidable c] (a b x : Result), Alike a x → Alike b x → Alike (if c then a else b) x := by
      intro c _ a b x ha hb; split <;> assumption
    have h2 : ∀ (c : Prop) [Decidable c] (a b x : Result), Alike x a → Alike x b → Alike x (if c then a else b) := by
      intro c _ a b x ha hb; split <;> assumption
    refine h1 _ _ _ _ (h2 _ _ _ _ ?_ ?_) (h2 _ _ _ _ ?_ ?_) <;> exact .leaf _ _ _ _ _
  | nest t s n l1 l2 hlen h =>
    simp only [uglyMod, Result.raw, List.isEmpty_nil, if_true]
    exact .nest t s n l1 l2 hlen h

theorem sortNum_alike (pf : Bytes → Option FVal) {r1 r2 : Result} (h : Alike r1 r2) : sortNum pf r1 = sortNum pf r2 := by
  obtain ⟨h1, h2, h3, -⟩ := h.fields
  simp only [sortNum, h1, h2, h3]

theorem all_of_all2 {α β : Type} {R : α → β → Prop} {p : α → Bool} {q : β → Bool} {l1 : List α} {l2 : List β} (h : All2 R l1 l2)
    (hpq : ∀ a b, R a b → p a = q b) : l1.all p = l2.all q := by
  induction h with
  | nil => rfl
  | cons hab _ ih => simp [hpq _ _ hab, ih]

theorem any_of_all2 {α β : Type} {R : α → β → Prop} {p : α → Bool} {q : β → Bool} {l1 : List α} {l2 : List β} (h : All2 R l1 l2)
    (hpq : ∀ a b, R a b → p a = q b) : l1.any p = l2.any q := by
  induction h with
  | nil => rfl
  | cons hab _ ih => simp [hpq _ _ hab, ih]

theorem sortMod_blind {srt : Sorter} (hs : Oblivious srt) (pf : Bytes → Option FVal) : RawBlind (sortMod srt pf) := by
  intro r1 r2 h
  have hl := h.fields.2.2.2
  simp only [sortMod, h.typ, hl.length]
  split
  · exact h
  · refine alike_array (hs Alike _ _ _ _ hl (fun a1 b1 a2 b2 ha hb => ?_))
    have hall : (r1.results.all fun r => (sortNum pf r).isSome) = r2.results.all fun r => (sortNum pf r).isSome :=
      all_of_all2 hl (fun a b hab => by rw [sortNum_alike pf hab])
    simp only [sortLess, hall]
    split
    · simp only [sortNum_alike pf ha, sortNum_alike pf hb]
    · simp only [ha.toStr, hb.toStr]

/-- The built-in registry respects results alike, if `@pretty` touches nothing but `Raw`. -/
theorem builtin_blind {srt : Sorter} (hs : Oblivious srt) (pf : Bytes → Option FVal) {pretty : Result → Result} (hp : RawBlind pretty) :
    BlindMods (builtinMods srt pf pretty) := by
  intro n m h
  unfold builtinMods at h
  split at h
  · cases h; exact reverseMod_blind
  split at h
  · cases h; exact sortMod_blind hs pf
  split at h
  · cases h; exact firstMod_blind
  split at h
  · cases h; exact lastMod_blind
  split at h
  · cases h; exact flattenMod_blind
  split at h
  · cases h; exact hp
  split at h
  · cases h; exact uglyMod_blind
  · cases h

/-! ### texts that say the same -/

theorem directText_piece {b : Bytes} (h : c!"<" ∉ b) (p : Option UInt8) (k : Int) :
    ∃ out q k', ∀ R, directText p false k (b ++ R) = out ++ directText q false k' R := by
  induction b generalizing p k with
  | nil => exact ⟨[], p, k, fun R => rfl⟩
  | cons c cs ih =>
    simp only [List.mem_cons, not_or] at h
    have hc : c ≠ c!"<" := fun e => h.1 e.symm
    by_cases h2 : c = c!">"
    · obtain ⟨out, q, k', hR⟩ := ih h.2 (some c) (if p = some c!"/" then k - 1 else k)
      refine ⟨out, q, k', fun R => ?_⟩
      rw [List.cons_append, directText.eq_def]; simp only; rw [if_neg hc, if_pos h2, hR]
    · obtain ⟨out, q, k', hR⟩ := ih h.2 (some c) k
      by_cases hk : k = 0
      · refine ⟨c :: out, q, k', fun R => ?_⟩
        rw [List.cons_append, directText.eq_def]; simp only; rw [if_neg hc, if_neg h2, if_pos (by simp [hk]), hR]; rfl
      · refine ⟨out, q, k', fun R => ?_⟩
        rw [List.cons_append, directText.eq_def]; simp only; rw [if_neg hc, if_neg h2, if_neg (by simp [hk]), hR]

theorem directText_chunk (w : Bytes) (p : Option UInt8) (t : Bool) (k : Int) :
    ∃ out k', ∀ R, directText p t k (w ++ c!">" :: R) = out ++ directText (some c!">") false k' R := by
  induction w generalizing p t k with
  | nil =>
    refine ⟨[], if p = some c!"/" then k - 1 else k, fun R => ?_⟩
    rw [List.nil_append, directText.eq_def]; simp
  | cons c cs ih =>
    by_cases hc : c = c!"<"
    · have hd : ∃ k1, ∀ R, directText p t k (c :: cs ++ c!">" :: R) = directText (some c) true k1 (cs ++ c!">" :: R) := by
        cases cs with
        | nil => exact ⟨_, fun R => by rw [List.cons_append, directText.eq_def]; simp only; rw [if_pos hc]; rfl⟩
        | cons d ds => exact ⟨_, fun R => by rw [List.cons_append, directText.eq_def]; simp only; rw [if_pos hc]; rfl⟩
      obtain ⟨k1, h1⟩ := hd
      obtain ⟨out, k', h2⟩ := ih (some c) true k1
      exact ⟨out, k', fun R => by rw [h1, h2]⟩
    by_cases hg : c = c!">"
    · obtain ⟨out, k', h2⟩ := ih (some c) false (if p = some c!"/" then k - 1 else k)
      exact ⟨out, k', fun R => by rw [List.cons_append, directText.eq_def]; simp only; rw [if_neg hc, if_pos hg, h2]⟩
    · obtain ⟨out, k', h2⟩ := ih (some c) t k
      by_cases hk : (!t && k == 0) = true
      · exact ⟨c :: out, k', fun R => by rw [List.cons_append, directText.eq_def]; simp only; rw [if_neg hc, if_neg hg, if_pos hk, h2]; rfl⟩
      · exact ⟨out, k', fun R => by rw [List.cons_append, directText.eq_def]; simp only; rw [if_neg hc, if_neg hg, if_neg hk, h2]⟩

theorem directText_any {b : Bytes} (h : c!"<" ∉ b) (p : Option UInt8) (t : Bool) (k : Int) :
    ∃ out q s k', ∀ R, directText p t k (b ++ R) = out ++ directText q s k' R := by
  induction b generalizing p t k with
  | nil => exact ⟨[], p, t, k, fun R => rfl⟩
  | cons c cs ih =>
    simp only [List.mem_cons, not_or] at h
    have hc : c ≠ c!"<" := fun e => h.1 e.symm
    by_cases h2 : c = c!">"
    · obtain ⟨out, q, s, k', hR⟩ := ih h.2 (some c) false (if p = some c!"/" then k - 1 else k)
      refine ⟨out, q, s, k', fun R => ?_⟩
      rw [List.cons_append, directText.eq_def]; simp only; rw [if_neg hc, if_pos h2, hR]
    · obtain ⟨out, q, s, k', hR⟩ := ih h.2 (some c) t k
      by_cases hk : (!t && k == 0) = true
      · refine ⟨c :: out, q, s, k', fun R => ?_⟩
        rw [List.cons_append, directText.eq_def]; simp only; rw [if_neg hc, if_neg h2, if_pos hk, hR]; rfl
      · refine ⟨out, q, s, k', fun R => ?_⟩
        rw [List.cons_append, directText.eq_def]; simp only; rw [if_neg hc, if_neg h2, if_neg hk, hR]

theorem directText_misc {m : Misc} (hi : m.Inner) (p : Option UInt8) (k : Int) :
    ∃ out q k', ∀ R, ReadBefore m R → directText p false k (m.render ++ R) = out ++ directText q false k' R := by
  rcases inner_closed hi with ⟨w, hw⟩ | ⟨b, rfl⟩
  · obtain ⟨out, k', h1⟩ := directText_chunk w p false k
    refine ⟨out, some c!">", k', fun R _ => ?_⟩
    rw [hw, ← h1]; simp
  by_cases hb : c!"<" ∉ b
  · by_cases hg : c!">" ∈ b
    · obtain ⟨u, v, rfl⟩ := List.append_of_mem hg
      obtain ⟨out, k', h1⟩ := directText_chunk (b!"<!" ++ u) p false k
      obtain ⟨out2, q, k2, h2⟩ := directText_piece (b := v) (fun hm => hb (by simp [hm])) (some c!">") k'
      refine ⟨out ++ out2, q, k2, fun R _ => ?_⟩
      have e : (Misc.mark (u ++ c!">" :: v)).render ++ R = (b!"<!" ++ u) ++ c!">" :: (v ++ R) := by simp [Misc.render]
      rw [e, h1, h2, List.append_assoc]
    · obtain ⟨out, q, s, k', h1⟩ := directText_any (b := c!"!" :: b) (by simp [hb]) (some c!"<") true k
      refine ⟨out, none, k', fun R hr => ?_⟩
      have e : (Misc.mark b).render ++ R = c!"<" :: c!"!" :: (b ++ R) := by simp [Misc.render]
      rw [e, directText_bang (.inl rfl), ← List.cons_append, h1]
      rcases hr with hr | ⟨b', he, -⟩ | ⟨b', he, -, -, -, h2⟩
      · exact hr.elim
      · cases he
      cases he
      have h2 := h2.resolve_left hg
      cases R with
      | nil => simp at h2
      | cons y R =>
        simp only [List.head?_cons, Option.some.injEq] at h2
        subst h2
        congr 1
  · refine ⟨[], p, k, fun R hr => ?_⟩
    rcases hr with hr | ⟨b', he, -⟩ | ⟨b', he, h1, -⟩
    · exact hr.elim
    · cases he
    · cases he; exact absurd h1 hb

/-- On canonical text, the scan for direct text depends on what the text says only. -/
theorem directText_info (i : Info) : ∀ (p : Option UInt8) (k : Int), ∃ out q k', ∀ g : Forest, CanonF g → g.Loose → g.Tame false →
    g.info = i → ∀ R, directText p false k (g.render ++ R) = out ++ directText q false k' R := by
  induction i with
  | nil =>
    intro p k
    refine ⟨[], p, k, fun g hc hl ht hi R => ?_⟩
    cases g <;> simp [Forest.info] at hi
    rfl
  | text b next ih =>
    intro p k
    by_cases hb : c!"<" ∉ b
    · obtain ⟨out, q, k', h1⟩ := directText_piece hb p k
      obtain ⟨out2, q2, k2, h2⟩ := ih q k'
      refine ⟨out ++ out2, q2, k2, fun g hc hl ht hi R => ?_⟩
      cases g <;> simp [Forest.info] at hi
      rename_i b' next'
      obtain ⟨rfl, rfl⟩ := hi
      rw [Forest.render, List.append_assoc, h1, h2 next' hc hl.2 ht rfl, List.append_assoc]
    · refine ⟨[], p, k, fun g hc hl ht hi R => ?_⟩
      cases g <;> simp [Forest.info] at hi
      rename_i b' next'
      exact absurd (hi.1 ▸ hl.1) hb
  | misc m next ih =>
    intro p k
    by_cases hm : m.Inner
    · obtain ⟨out, q, k', h1⟩ := directText_misc hm p k
      obtain ⟨out2, q2, k2, h2⟩ := ih q k'
      refine ⟨out ++ out2, q2, k2, fun g hc hl ht hi R => ?_⟩
      cases g <;> simp [Forest.info] at hi
      rename_i m' next'
      obtain ⟨rfl, rfl⟩ := hi
      rw [Forest.render, List.append_assoc, h1 _ (readBefore hl.1 R), h2 next' hc hl.2 ht.2 rfl, List.append_assoc]
    · refine ⟨[], p, k, fun g hc hl ht hi R => ?_⟩
      cases g <;> simp [Forest.info] at hi
      rename_i m' next'
      obtain ⟨rfl, rfl⟩ := hi
      exact absurd (by simpa using ht.1) hm
  | elem n a kids next ihk ihn =>
    intro p k
    have hk : ∃ out q k', (kids = .nil → out = [] ∧ k' = k + 1) ∧ ∀ g : Forest, CanonF g → g.Loose → g.Tame false →
        g.info = kids → ∀ R, directText (some c!">") false (k + 1) (g.render ++ R) = out ++ directText q false k' R := by
      by_cases h0 : kids = .nil
      · refine ⟨[], some c!">", k + 1, fun _ => ⟨rfl, rfl⟩, fun g _ _ _ hi R => ?_⟩
        rw [h0] at hi
        cases g <;> simp [Forest.info] at hi
        rfl
      · obtain ⟨out, q, k', h1⟩ := ihk (some c!">") (k + 1)
        exact ⟨out, q, k', fun h => absurd h h0, h1⟩
    obtain ⟨out, q, k', hnil, h1⟩ := hk
    obtain ⟨out2, q2, k2, h2⟩ := ihn (some c!">") (k' - 1)
    refine ⟨out ++ out2, q2, k2, fun g hc hl ht hi R => ?_⟩
    cases g <;> simp [Forest.info] at hi
    · rename_i n' as ws next'
      obtain ⟨rfl, -, hk0, rfl⟩ := hi
      obtain ⟨hn, ha, hws, hl⟩ := hl
      obtain ⟨-, ht⟩ := ht
      obtain ⟨hca, rfl, hc⟩ := hc
      have e : (Forest.leaf n' as [] next').render ++ R =
          c!"<" :: (n' ++ (as.flatMap Attr.render ++ b!"/" ++ c!">" :: (next'.render ++ R))) := by
        simp [Forest.render, openTag]
      have hcl := canon_tag_clean hn hca ha
      have e2 : n' ++ (as.flatMap Attr.render ++ b!"/" ++ c!">" :: (next'.render ++ R)) =
          (n' ++ as.flatMap Attr.render ++ b!"/") ++ c!">" :: (next'.render ++ R) := by simp
      obtain ⟨rfl, rfl⟩ := hnil hk0.symm
      rw [e, directText_open hn, e2, directText_tag, if_pos]
      · rw [h2 next' hc hl ht rfl]; rfl
      · simp [List.getLast?_cons, List.getLast?_append]
      · simp only [List.mem_append, not_or] at hcl ⊢
        refine ⟨⟨fun h => (hcl _ (.inl h)).1 rfl, fun h => (hcl _ (.inr h)).1 rfl⟩, by decide⟩
      · simp only [List.mem_append, not_or] at hcl ⊢
        refine ⟨⟨fun h => (hcl _ (.inl h)).2 rfl, fun h => (hcl _ (.inr h)).2 rfl⟩, by decide⟩
    · rename_i n' as ws kids' cws next'
      obtain ⟨rfl, -, rfl, rfl⟩ := hi
      obtain ⟨hn, ha, hws, hlk, -, hl⟩ := hl
      obtain ⟨-, -, htk, ht⟩ := ht
      obtain ⟨hca, rfl, rfl, hck, hc⟩ := hc
      have e : (Forest.node n' as [] kids' [] next').render ++ R =
          c!"<" :: (n' ++ (as.flatMap Attr.render ++ c!">" :: (kids'.render ++ (c!"<" :: c!"/" :: (n' ++ c!">" :: (next'.render ++ R)))))) := by
        simp [Forest.render, openTag, closeTag]
      have e2 : ∀ t, n' ++ (as.flatMap Attr.render ++ c!">" :: t) = (n' ++ as.flatMap Attr.render) ++ c!">" :: t := by intro t; simp
      have hcl := canon_tag_clean hn hca ha
      rw [e, directText_open hn, e2, directText_tag (fun h => (hcl _ h).1 rfl) (fun h => (hcl _ h).2 rfl),
        if_neg (tag_last hn hca _), h1 kids' hck hlk htk rfl, directText_close, ← List.cons_append, directText_tag, if_neg,
        h2 next' hc hl ht rfl, List.append_assoc]
      · rw [List.getLast?_cons_cons]; exact name_last hn _
      · simp only [List.mem_cons, not_or]; exact ⟨by decide, fun hm => (hn.2.1 _ hm).2.2.2 rfl⟩
      · simp only [List.mem_cons, not_or]; exact ⟨by decide, fun hm => (hn.2.1 _ hm).2.2.1 rfl⟩

/-- Empty texts only. -/
def Spec.Info.blank : Info → Bool
  | .nil => true
  | .text b next => b.isEmpty && next.blank
  | .misc _ _ => false
  | .elem _ _ _ _ => false

theorem Spec.Info.blank_append (i j : Info) : (i.append j).blank = (i.blank && j.blank) := by
  induction i with
  | nil => simp [Info.append, Info.blank]
  | text b next ih => simp [Info.append, Info.blank, ih, Bool.and_assoc]
  | misc m next ih => simp [Info.append, Info.blank]
  | elem n a k next _ ih => simp [Info.append, Info.blank]

theorem forest_blank (g : Forest) : g.render.isEmpty = g.info.blank := by
  induction g with
  | nil => rfl
  | text b next ih => simp only [Forest.render, Forest.info, Info.blank, ← ih]; cases b <;> simp
  | misc m next _ => cases m <;> simp [Forest.render, Forest.info, Info.blank, Misc.render]
  | leaf n as ws next _ => simp [Forest.render, Forest.info, Info.blank, openTag]
  | node n as ws kids cws next _ _ => simp [Forest.render, Forest.info, Info.blank, openTag]

theorem writes_blank {c : Bytes} {i : Info} (h : Writes c i) : c.isEmpty = i.blank := by
  obtain ⟨g, -, -, -, rfl, rfl⟩ := h
  cases g with
  | done f => exact forest_blank f
  | more f n as ws rest => simp [Draft.render, Draft.info_more, Info.blank_append, Info.blank, openTag]

theorem CanonF.join {f g : Forest} (hf : CanonF f) (hg : CanonF g) : CanonF (f.append g) := by
  induction f with
  | nil => exact hg
  | text b next ih => exact ih hf
  | misc m next ih => exact ih hf
  | leaf n as ws next ih => exact ⟨hf.1, hf.2.1, ih hf.2.2⟩
  | node n as ws kids cws next _ ih => exact ⟨hf.1, hf.2.1, hf.2.2.1, hf.2.2.2.1, ih hf.2.2.2.2⟩

theorem Spec.Misc.Opens.join {m : Misc} {f : Forest} (h : m.Opens f) (g : Forest) : m.Opens (f.append g) :=
  h.mono (fun hs => by cases f <;> first | exact hs.elim | trivial)

theorem Spec.Forest.Loose.join {f g : Forest} (hf : f.Loose) (hg : g.Loose) : (f.append g).Loose := by
  induction f with
  | nil => exact hg
  | text b next ih => exact ⟨hf.1, ih hf.2⟩
  | misc m next ih => exact ⟨hf.1.imp_right (·.join g), ih hf.2⟩
  | leaf n as ws next ih => obtain ⟨h1, h2, h3, h4⟩ := hf; exact ⟨h1, h2, h3, ih h4⟩
  | node n as ws kids cws next _ ih => obtain ⟨h1, h2, h3, h4, h5, h6⟩ := hf; exact ⟨h1, h2, h3, h4, h5, ih h6⟩

theorem Spec.Forest.Tame.join {top : Bool} {f g : Forest} (hf : f.Tame top) (hg : g.Tame top) : (f.append g).Tame top := by
  induction f with
  | nil => exact hg
  | text b next ih => exact ih hf
  | misc m next ih => exact ⟨hf.1, ih hf.2⟩
  | leaf n as ws next ih => exact ⟨hf.1, ih hf.2⟩
  | node n as ws kids cws next _ ih => obtain ⟨h1, h2, h3, h4⟩ := hf; exact ⟨h1, h2, h3, ih h4⟩

/-- A draft and the forest made by closing it are of the same kind. -/
theorem Spec.Draft.close_loose {g : Draft} (h : g.Loose) : g.close.Loose := by
  induction g with
  | done f => exact h
  | more f n as ws rest ih =>
    obtain ⟨h1, h2, h3, h4, h5⟩ := h
    exact h1.join ⟨h2.1, h3, h4, ih h5, ⟨by simp, by simp⟩, trivial⟩

theorem Spec.Draft.close_tame {top : Bool} {g : Draft} (hl : g.Loose) (h : g.Tame top) : g.close.Tame top := by
  induction g generalizing top with
  | done f => exact h
  | more f n as ws rest ih =>
    obtain ⟨h1, h2, h3⟩ := h
    exact h1.join ⟨h2, by simpa using hl.2.1.1.2.2.2.2.2, ih hl.2.2.2.2 h3, trivial⟩

theorem close_canon {g : Draft} (h : CanonD g) : CanonF g.close := by
  induction g with
  | done f => exact h
  | more f n as ws rest ih =>
    obtain ⟨h1, h2, h3, h4⟩ := h
    exact h1.join ⟨h2, h3, rfl, ih h4, trivial⟩

/-- Closing the open elements adds nothing to the direct text. -/
theorem directText_close_all {g : Draft} (hc : CanonD g) (hl : g.Loose) (ht : g.Tame false) (p : Option UInt8) (k : Int) :
    ∃ q k', ∀ R, directText p false k (g.close.render ++ R) = directText p false k g.render ++ directText q false k' R := by
  induction g generalizing p k with
  | done f =>
    obtain ⟨out, q, k', h⟩ := directText_info f.info p k
    have h0 := h f hc hl ht rfl []
    rw [List.append_nil, directText, List.append_nil] at h0
    refine ⟨q, k', fun R => ?_⟩
    rw [Draft.render, h0]; exact h f hc hl ht rfl R
  | more f n as ws rest ih =>
    obtain ⟨hf, ⟨hn, -⟩, ha, hws, hr⟩ := hl
    obtain ⟨htf, hfit, htr⟩ := ht
    obtain ⟨hcf, hca, rfl, hcr⟩ := hc
    obtain ⟨out, q, k', h⟩ := directText_info f.info p k
    obtain ⟨q2, k2, h2⟩ := ih hcr hr htr (some c!">") (k' + 1)
    refine ⟨some c!">", k2 - 1, fun R => ?_⟩
    have hcl := canon_tag_clean hn hca ha
    have e : ∀ t, openTag n as [] ++ c!">" :: t = c!"<" :: (n ++ (as.flatMap Attr.render ++ c!">" :: t)) := by intro t; simp [openTag]
    have e2 : ∀ t, n ++ (as.flatMap Attr.render ++ c!">" :: t) = (n ++ as.flatMap Attr.render) ++ c!">" :: t := by intro t; simp
    have e3 : (Draft.more f n as [] rest).close.render ++ R =
        f.render ++ (openTag n as [] ++ c!">" :: (rest.close.render ++ (c!"<" :: c!"/" :: (n ++ c!">" :: R)))) := by
      simp [Draft.close, Forest.render_join, Forest.render, closeTag]
    have hopen : ∀ t, directText q false k' (openTag n as [] ++ c!">" :: t) = directText (some c!">") false (k' + 1) t := by
      intro t
      rw [e, directText_open hn, e2, directText_tag (fun h => (hcl _ h).1 rfl) (fun h => (hcl _ h).2 rfl), if_neg (tag_last hn hca _)]
    rw [e3, h f hcf hf htf rfl, hopen, h2, Draft.render, h f hcf hf htf rfl, hopen, directText_close, ← List.cons_append, directText_tag, if_neg,
      List.append_assoc]
    · rw [List.getLast?_cons_cons]; exact name_last hn _
    · simp only [List.mem_cons, not_or]; exact ⟨by decide, fun hm => (hn.2.1 _ hm).2.2.2 rfl⟩
    · simp only [List.mem_cons, not_or]; exact ⟨by decide, fun hm => (hn.2.1 _ hm).2.2.1 rfl⟩

/-- Two contents that say the same. -/
def WA (c1 c2 : Bytes) : Prop := ∃ i, Writes c1 i ∧ Writes c2 i

/-- Two elements that say the same. -/
def EA (e1 e2 : Elem) : Prop := ∃ nd, Rep e1 nd ∧ Rep e2 nd

/-- Two texts read as the same, under two orders. -/
def RA (o1 o2 : Ord) (x1 x2 : Bytes) : Prop := ∃ i, Reads o1 x1 i ∧ Reads o2 x2 i

theorem all2_join {α β γ : Type} {R : α → γ → Prop} {S : β → γ → Prop} {as : List α} {bs : List β} {cs : List γ} (h1 : All2 R as cs) (h2 : All2 S bs cs) :
    All2 (fun a b => ∃ c, R a c ∧ S b c) as bs := by
  induction h1 generalizing bs with
  | nil => cases h2; exact .nil
  | cons hab _ ih => cases h2 with
    | cons h h2 => exact .cons ⟨_, hab, h⟩ (ih h2)

theorem RA.tops {o1 o2 : Ord} {x1 x2 : Bytes} (h : RA o1 o2 x1 x2) : All2 EA (topElems o1 x1) (topElems o2 x2) := by
  obtain ⟨i, h1, h2⟩ := h
  exact all2_join h1 h2

theorem WA.ra {o1 o2 : Ord} (h1 : o1.IsPerm) (h2 : o2.IsPerm) {c1 c2 : Bytes} (h : WA c1 c2) : RA o1 o2 c1 c2 := by
  obtain ⟨i, ha, hb⟩ := h
  exact ⟨i, writes_reads h1 ha, writes_reads h2 hb⟩

theorem EA.name {e1 e2 : Elem} (h : EA e1 e2) : e1.name = e2.name := by
  obtain ⟨nd, h1, h2⟩ := h; rw [h1.name, h2.name]

theorem EA.attr {e1 e2 : Elem} (h : EA e1 e2) (k : Bytes) : Attrs.get? k e1.attrs = Attrs.get? k e2.attrs := by
  obtain ⟨nd, h1, h2⟩ := h; rw [h1.attr, h2.attr]

theorem EA.content {e1 e2 : Elem} (h : EA e1 e2) : WA e1.content e2.content := by
  obtain ⟨nd, h1, h2⟩ := h; exact ⟨_, h1.content, h2.content⟩

theorem EA.deep {e1 e2 : Elem} (h : EA e1 e2) : (!e1.selfClosing && !e1.content.isEmpty) = (!e2.selfClosing && !e2.content.isEmpty) := by
  obtain ⟨nd, h1, h2⟩ := h
  have hs : ∀ {e : Elem}, Rep e nd → (!e.selfClosing && !e.content.isEmpty) = !nd.kids.blank := by
    intro e he
    rw [← writes_blank he.content]
    cases hsc : e.selfClosing with
    | true => simp [he.self hsc]
    | false => simp
  rw [hs h1, hs h2]

theorem WA.element {c1 c2 : Bytes} (h : WA c1 c2) : Alike (.ofContent c1) (.ofContent c2) := by
  obtain ⟨i, h1, h2⟩ := h
  simp only [Result.ofContent, writes_text h1, writes_text h2]
  exact .leaf _ _ _ _ _

theorem WA.direct {c1 c2 : Bytes} (h : WA c1 c2) : extractDirectTextOnly c1 = extractDirectTextOnly c2 := by
  obtain ⟨i, ⟨g1, a1, a2, a3, a4, rfl⟩, ⟨g2, b1, b2, b3, b4, rfl⟩⟩ := h
  obtain ⟨out, q, k, hR⟩ := directText_info i none 0
  have h1 := hR g1.close (close_canon a1) (Draft.close_loose a2) (Draft.close_tame a2 a3) a4 []
  have h2 := hR g2.close (close_canon b1) (Draft.close_loose b2) (Draft.close_tame b2 b3) b4 []
  obtain ⟨_, _, k1⟩ := directText_close_all a1 a2 a3 none 0
  obtain ⟨_, _, k2⟩ := directText_close_all b1 b2 b3 none 0
  rw [k1] at h1
  rw [k2] at h2
  simp only [directText, List.append_nil] at h1 h2
  rw [extractDirectTextOnly, extractDirectTextOnly, h1, h2]

theorem WA.text {c1 c2 : Bytes} (h : WA c1 c2) : Alike (.ofText c1) (.ofText c2) := by
  simp only [Result.ofText, h.direct]
  exact .leaf _ _ _ _ _

/-! ### the engine, twice -/

/-- Two environments that differ in the iteration order of maps only. -/
structure Envs (e1 e2 : Env) : Prop where
  p1 : e1.ord.IsPerm
  p2 : e2.ord.IsPerm
  mods : e1.mods = e2.mods
  pf : e1.parseFloat = e2.parseFloat
  blind : BlindMods e2.mods

theorem Envs.apply {e1 e2 : Env} (h : Envs e1 e2) (ns : List Bytes) {r1 r2 : Result} (hr : Alike r1 r2) :
    Alike (applyModifiers e1.mods r1 ns) (applyModifiers e2.mods r2 ns) := by
  rw [h.mods]; exact applyModifiers_alike h.blind ns hr

theorem fieldValues_alike {e1 e2 : Env} (he : Envs e1 e2) (f : Bytes) {m1 m2 : Elem} (h : EA m1 m2) :
    All2 Alike (fieldValues e1.ord f m1) (fieldValues e2.ord f m2) := by
  unfold fieldValues
  split
  · rw [h.attr]
    cases Attrs.get? (f.drop 1) m2.attrs with
    | none => exact .nil
    | some v => exact .cons (alike_attr v) .nil
  · split
    · simp only [h.content.direct]
      split
      · exact .nil
      · exact .cons (.leaf _ _ _ _ _) .nil
    · refine All2.map (All2.filter (h.content.ra he.p1 he.p2).tops (fun a b hab => by rw [hab.name])) (fun a b hab => hab.content.element)

theorem fieldExtraction_alike {e1 e2 : Env} (he : Envs e1 e2) (f : Bytes) (mods : List Bytes) {ms1 ms2 : List Elem} (h : All2 EA ms1 ms2) :
    Alike (fieldExtraction e1 ms1 f mods) (fieldExtraction e2 ms2 f mods) := by
  unfold fieldExtraction
  split
  · exact alike_null
  · have := (All2.flatMap h (fun a b hab => fieldValues_alike he f hab)).take maxWildcardResults
    simp only [this.isEmpty]
    split
    · exact alike_array .nil
    · exact he.apply _ (alike_array this)

theorem handleWildcard_alike {e1 e2 : Env} (he : Envs e1 e2) {ms1 ms2 : List Elem} (h : All2 EA ms1 ms2) (rest : List Seg) {k1 k2 : Bytes → Result}
    (hk : ∀ c1 c2, WA c1 c2 → Alike (k1 c1) (k2 c2)) : Alike (handleWildcard e1 ms1 rest k1) (handleWildcard e2 ms2 rest k2) := by
  unfold handleWildcard
  cases rest with
  | nil => exact alike_pack (All2.map h (fun a b hab => hab.content.element))
  | cons nxt rest2 =>
    have key : ∀ (g1 g2 : Elem → List Result) (q1 q2 : Elem → Bool), (∀ a b, EA a b → All2 Alike (g1 a) (g2 b)) → (∀ a b, EA a b → q1 a = q2 b) →
        Alike (if (ms1.flatMap g1).isEmpty then (if ms1.any q1 then .ofArray [] else .null) else applyModifiers e1.mods (packResults (ms1.flatMap g1)) nxt.mods)
          (if (ms2.flatMap g2).isEmpty then (if ms2.any q2 then .ofArray [] else .null) else applyModifiers e2.mods (packResults (ms2.flatMap g2)) nxt.mods) := by
      intro g1 g2 q1 q2 hg hq
      have := All2.flatMap h hg
      rw [this.isEmpty, any_of_all2 h hq]
      split
      · split
        · exact alike_array .nil
        · exact alike_null
      · exact he.apply _ (alike_pack this)
    refine key _ _ _ _ (fun a b hab => ?_) (fun a b hab => ?_)
    · cases nxt.kind <;> simp only [hab.attr] <;> try exact alike_asList (hk _ _ hab.content)
      · split
        · split
          · exact .cons (alike_attr _) .nil
          · exact .nil
        · exact .nil
      · exact .cons hab.content.text .nil
    · have hh := hk _ _ hab.content
      simp only [hh.typ, hh.fields.2.2.2.isEmpty]

theorem recEmit_alike {e1 e2 : Env} (he : Envs e1 e2) (rest : List Seg) {k1 k2 : Bytes → Result}
    (hk : ∀ c1 c2, WA c1 c2 → Alike (k1 c1) (k2 c2)) {m1 m2 : Elem} (h : EA m1 m2) : All2 Alike (recEmit e1 rest k1 m1) (recEmit e2 rest k2 m2) := by
  unfold recEmit
  cases rest with
  | nil => exact .cons h.content.element .nil
  | cons nxt rest2 =>
    simp only
    cases nxt.kind <;> simp only [h.attr] <;> try exact alike_asList (hk _ _ h.content)
    · split
      · split
        · exact .cons (alike_attr _) .nil
        · exact .nil
      · exact .nil
    · exact .cons h.content.text .nil
    · rename_i f
      have := fieldExtraction_alike he f nxt.mods (.cons h .nil)
      rw [this.typ]
      split
      · exact this.fields.2.2.2
      · exact .nil

/-- Search states with alike results. -/
def StA (s1 s2 : SearchSt) : Prop := s1.ops = s2.ops ∧ All2 Alike s1.res s2.res

theorem recLoop_alike {inner1 inner2 : Bytes → SearchSt → SearchSt} {tgt : Elem → Bool} {emit1 emit2 : Elem → List Result}
    (hi : ∀ c1 c2 s1 s2, WA c1 c2 → StA s1 s2 → StA (inner1 c1 s1) (inner2 c2 s2))
    (htgt : ∀ a b, EA a b → tgt a = tgt b) (hemit : ∀ a b, EA a b → All2 Alike (emit1 a) (emit2 b))
    {l1 l2 : List Elem} (h : All2 EA l1 l2) {s1 s2 : SearchSt} (hs : StA s1 s2) :
    StA (recLoop inner1 tgt emit1 l1 s1) (recLoop inner2 tgt emit2 l2 s2) := by
  induction h generalizing s1 s2 with
  | nil => exact hs
  | @cons a b l1 l2 hab h ih =>
    simp only [recLoop, hab.deep, htgt a b hab]
    have h1 : StA (if (!b.selfClosing && !b.content.isEmpty) = true then inner1 a.content s1 else s1)
        (if (!b.selfClosing && !b.content.isEmpty) = true then inner2 b.content s2 else s2) := by
      split
      · exact hi _ _ _ _ hab.content hs
      · exact hs
    generalize (if (!b.selfClosing && !b.content.isEmpty) = true then inner1 a.content s1 else s1) = t1 at h1 ⊢
    generalize (if (!b.selfClosing && !b.content.isEmpty) = true then inner2 b.content s2 else s2) = t2 at h1 ⊢
    rw [h1.1, h1.2.length]
    split
    · exact h1
    · split
      · split
        · exact h1
        · exact ih ⟨rfl, h1.2.append (hemit a b hab)⟩
      · exact ih h1

theorem recSearch_alike {o1 o2 : Ord} (p1 : o1.IsPerm) (p2 : o2.IsPerm) {tgt : Elem → Bool} {emit1 emit2 : Elem → List Result}
    (htgt : ∀ a b, EA a b → tgt a = tgt b) (hemit : ∀ a b, EA a b → All2 Alike (emit1 a) (emit2 b)) (n : Nat)
    {x1 x2 : Bytes} (h : RA o1 o2 x1 x2) {s1 s2 : SearchSt} (hs : StA s1 s2) :
    StA (recSearch o1 tgt emit1 n x1 s1) (recSearch o2 tgt emit2 n x2 s2) := by
  induction n generalizing x1 x2 s1 s2 with
  | zero => exact ⟨by simp [recSearch, hs.1], hs.2⟩
  | succ n ih =>
    simp only [recSearch, hs.1, hs.2.length]
    split
    · exact ⟨rfl, hs.2⟩
    · exact recLoop_alike (fun c1 c2 t1 t2 hc ht => ih (hc.ra p1 p2) ht) htgt hemit h.tops ⟨rfl, hs.2⟩

theorem handleRecursive_alike {e1 e2 : Env} (he : Envs e1 e2) (rest : List Seg) {k1 k2 : Bytes → Result}
    (hk : ∀ c1 c2, WA c1 c2 → Alike (k1 c1) (k2 c2)) {x1 x2 : Bytes} (h : RA e1.ord e2.ord x1 x2) :
    Alike (handleRecursive e1 rest k1 x1) (handleRecursive e2 rest k2 x2) := by
  unfold handleRecursive
  cases rest with
  | nil => exact alike_null
  | cons tgt rest2 =>
    have := (recSearch_alike he.p1 he.p2 (tgt := fun e => tgt.matches e.name) (fun a b hab => by simp only [hab.name])
      (fun a b hab => recEmit_alike he rest2 hk hab) (maxNestingDepth + 1) h (s1 := ⟨0, []⟩) (s2 := ⟨0, []⟩) ⟨rfl, .nil⟩).2
    simp only
    generalize (recSearch e1.ord _ _ _ _ _).res = l1 at this ⊢
    generalize (recSearch e2.ord _ _ _ _ _).res = l2 at this ⊢
    cases this with
    | nil => exact alike_null
    | cons hab h => exact alike_pack (.cons hab h)

theorem processFirst_alike {e1 e2 : Env} (he : Envs e1 e2) {m1 m2 : Elem} (h : EA m1 m2) (seg : Seg) (rest : List Seg) {k1 k2 : Bytes → Result}
    (hk : ∀ c1 c2, WA c1 c2 → Alike (k1 c1) (k2 c2)) : Alike (processFirst e1 m1 seg rest k1) (processFirst e2 m2 seg rest k2) := by
  unfold processFirst
  cases rest with
  | nil => exact he.apply _ h.content.element
  | cons nxt rest2 =>
    simp only
    cases nxt.kind <;> simp only [h.attr] <;> try exact hk _ _ h.content
    · split
      · exact he.apply _ (alike_attr _)
      · exact alike_null
    · exact he.apply _ h.content.text
    · exact fieldExtraction_alike he _ _ (.cons h .nil)

theorem processAll_alike {e1 e2 : Env} (he : Envs e1 e2) {ms1 ms2 : List Elem} (h : All2 EA ms1 ms2) (seg : Seg) (rest : List Seg) {k1 k2 : Bytes → Result}
    (hk : ∀ c1 c2, WA c1 c2 → Alike (k1 c1) (k2 c2)) : Alike (processAll e1 ms1 seg rest k1) (processAll e2 ms2 seg rest k2) := by
  unfold processAll
  cases rest with
  | nil => exact he.apply _ (alike_array (All2.map h (fun a b hab => hab.content.element)))
  | cons nxt rest2 =>
    have key : ∀ g1 g2 : Elem → List Result, (∀ a b, EA a b → All2 Alike (g1 a) (g2 b)) →
        Alike (if (ms1.flatMap g1).isEmpty then .null else applyModifiers e1.mods (packResults (ms1.flatMap g1)) nxt.mods)
          (if (ms2.flatMap g2).isEmpty then .null else applyModifiers e2.mods (packResults (ms2.flatMap g2)) nxt.mods) := by
      intro g1 g2 hg
      have := All2.flatMap h hg
      rw [this.isEmpty]
      split
      · exact alike_null
      · exact he.apply _ (alike_pack this)
    simp only
    cases nxt.kind <;> simp only <;> first
      | exact fieldExtraction_alike he _ _ h
      | skip
    all_goals refine key _ _ (fun a b hab => ?_)
    all_goals try simp only [hab.attr]
    all_goals try exact alike_asList (hk _ _ hab.content)
    · split
      · exact .cons (alike_attr _) .nil
      · exact .nil
    · exact .cons hab.content.text .nil

theorem routeFilter_alike {e1 e2 : Env} (he : Envs e1 e2) {ms1 ms2 : List Elem} (h : All2 EA ms1 ms2) (seg : Seg) (all : Bool) (rest : List Seg)
    {k1 k2 : Bytes → Result} (hk : ∀ c1 c2, WA c1 c2 → Alike (k1 c1) (k2 c2)) :
    Alike (routeFilter e1 ms1 seg all rest k1) (routeFilter e2 ms2 seg all rest k2) := by
  unfold routeFilter
  cases h with
  | nil => exact alike_null
  | cons hab h =>
    simp only
    split
    · exact processAll_alike he (.cons hab h) seg rest hk
    · exact processFirst_alike he hab seg rest hk

theorem fragmentRoots_alike {e1 e2 : Env} (he : Envs e1 e2) {ms1 ms2 : List Elem} (h : All2 EA ms1 ms2) (nxt : Seg) (rest2 : List Seg)
    {k1 k2 : Bytes → Result} (hk : ∀ c1 c2, WA c1 c2 → Alike (k1 c1) (k2 c2)) :
    Alike (fragmentRoots e1 ms1 nxt rest2 k1) (fragmentRoots e2 ms2 nxt rest2 k2) := by
  unfold fragmentRoots
  rw [h.isEmpty]
  split
  · exact alike_null
  · cases nxt.kind <;> simp only <;> try exact alike_null
    · rename_i i
      split
      · exact alike_null
      · rcases h.get i.toNat with ⟨h1, h2⟩ | ⟨a, b, h1, h2, hab⟩
        · rw [h1, h2]; exact alike_null
        · rw [h1, h2]
          simp only
          cases rest2 with
          | nil => exact hab.content.element
          | cons s rest3 =>
            simp only
            cases s.kind <;> simp only [hab.attr] <;> try exact hk _ _ hab.content
            · split
              · exact alike_attr _
              · exact alike_null
            · exact hab.content.text
    · rw [h.length]; exact alike_count _
    · exact fieldExtraction_alike he _ _ h

theorem arrayOp_alike {e1 e2 : Env} (he : Envs e1 e2) {ms1 ms2 : List Elem} (h : All2 EA ms1 ms2) (nxt : Seg) (rest2 : List Seg)
    {k1 k2 : Bytes → Result} (hk : ∀ c1 c2, WA c1 c2 → Alike (k1 c1) (k2 c2)) :
    Alike (arrayOp e1 ms1 nxt rest2 k1) (arrayOp e2 ms2 nxt rest2 k2) := by
  unfold arrayOp
  rw [h.isEmpty]
  split
  · exact alike_null
  · cases nxt.kind <;> simp only <;> try exact alike_null
    · rename_i i
      split
      · exact alike_null
      · rcases h.get i.toNat with ⟨h1, h2⟩ | ⟨a, b, h1, h2, hab⟩
        · rw [h1, h2]; exact alike_null
        · rw [h1, h2]
          simp only
          cases rest2 with
          | nil => exact he.apply _ hab.content.element
          | cons s rest3 =>
            simp only
            cases s.kind <;> simp only [hab.attr] <;> try exact hk _ _ hab.content
            · split
              · split
                · exact he.apply _ (alike_attr _)
                · exact alike_attr _
              · exact alike_null
    · rw [h.length]; exact he.apply _ (alike_count _)

theorem firstMatch_alike {e1 e2 : Env} (he : Envs e1 e2) (cur : Seg) (rest : List Seg)
    {k1 k2 : Bytes → Result} (hk : ∀ c1 c2, WA c1 c2 → Alike (k1 c1) (k2 c2)) {ms1 ms2 : List Elem} (h : All2 EA ms1 ms2) :
    Alike (firstMatch e1 cur rest k1 ms1) (firstMatch e2 cur rest k2 ms2) := by
  induction h with
  | nil => exact alike_null
  | @cons a b l1 l2 hab h ih =>
    simp only [firstMatch]
    cases rest with
    | nil => exact he.apply _ hab.content.element
    | cons nxt rest2 =>
      simp only
      have hh := hk _ _ hab.content
      have hdef : Alike (if (k1 a.content).typ = .null then firstMatch e1 cur (nxt :: rest2) k1 l1 else k1 a.content)
          (if (k2 b.content).typ = .null then firstMatch e2 cur (nxt :: rest2) k2 l2 else k2 b.content) := by
        rw [hh.typ]
        split
        · exact ih
        · exact hh
      cases nxt.kind <;> simp only [hab.attr] <;> try exact hdef
      · split
        · split
          · exact he.apply _ (alike_attr _)
          · exact alike_null
        · exact alike_null
      · exact he.apply _ hab.content.text

theorem execElem_alike {e1 e2 : Env} (he : Envs e1 e2) {ev1 ev2 : Filter → Elem → Bool} (hev : ∀ f a b, EA a b → ev1 f a = ev2 f b) (cur : Seg) (rest : List Seg)
    {k1 k2 k1' k2' : Bytes → Result} (hk : ∀ c1 c2, WA c1 c2 → Alike (k1 c1) (k2 c2)) (hk' : ∀ c1 c2, WA c1 c2 → Alike (k1' c1) (k2' c2))
    {x1 x2 : Bytes} (h : RA e1.ord e2.ord x1 x2) :
    Alike (execElem e1 ev1 cur rest k1 k1' x1) (execElem e2 ev2 cur rest k2 k2' x2) := by
  have hms : All2 EA ((topElems e1.ord x1).filter (fun e => cur.matches e.name)) ((topElems e2.ord x2).filter (fun e => cur.matches e.name)) :=
    All2.filter h.tops (fun a b hab => by rw [hab.name])
  unfold execElem
  cases rest with
  | nil => exact firstMatch_alike he cur [] hk hms
  | cons nxt rest2 =>
    simp only
    cases nxt.kind <;> simp only <;> try exact firstMatch_alike he cur (nxt :: rest2) hk hms
    · exact arrayOp_alike he (hms.take _) nxt rest2 hk'
    · exact routeFilter_alike he (All2.filter (hms.take _) (fun a b hab => hev _ a b hab)) nxt _ rest2 hk'
    · exact arrayOp_alike he (hms.take _) nxt rest2 hk'
    · exact fieldExtraction_alike he _ _ (hms.take _)

theorem execBody_alike {e1 e2 : Env} (he : Envs e1 e2) {ev1 ev2 : Filter → Elem → Bool} (hev : ∀ f a b, EA a b → ev1 f a = ev2 f b) (root : Bool) (cur : Seg) (rest : List Seg)
    {k1 k2 k1' k2' : Bytes → Result} (hk : ∀ c1 c2, WA c1 c2 → Alike (k1 c1) (k2 c2)) (hk' : ∀ c1 c2, WA c1 c2 → Alike (k1' c1) (k2' c2))
    {x1 x2 : Bytes} (h : RA e1.ord e2.ord x1 x2) :
    Alike (execBody e1 ev1 root cur rest k1 k1' x1) (execBody e2 ev2 root cur rest k2 k2' x2) := by
  unfold execBody
  cases cur.kind with
  | elem v =>
    simp only
    split
    · cases rest with
      | nil => exact alike_null
      | cons nxt rest2 =>
        exact fragmentRoots_alike he (All2.take (All2.filter h.tops (fun a b hab => by rw [hab.name])) _) nxt rest2 hk'
    · exact execElem_alike he hev cur rest hk hk' h
  | filter f all => exact routeFilter_alike he (All2.take (All2.filter h.tops (fun a b hab => hev _ a b hab)) _) cur all rest hk
  | field _ => exact alike_array .nil
  | index _ => exact alike_null
  | count => exact alike_null
  | text => exact alike_null
  | attr _ => exact alike_null
  | wild rec =>
    cases rec with
    | true => exact handleRecursive_alike he rest hk' h
    | false =>
      have hms := h.tops.take maxWildcardResults
      simp only [hms.isEmpty]
      split
      · exact alike_null
      · split
        · exact he.apply _ (handleWildcard_alike he hms rest hk)
        · exact handleWildcard_alike he hms rest hk

theorem execQ_alike {e1 e2 : Env} (he : Envs e1 e2) {ev1 ev2 : Filter → Elem → Bool} (hev : ∀ f a b, EA a b → ev1 f a = ev2 f b) :
    ∀ (ss : List Seg) (root : Bool) (x1 x2 : Bytes), RA e1.ord e2.ord x1 x2 → Alike (execQ e1 ev1 ss root x1) (execQ e2 ev2 ss root x2)
  | [], _, _, _, _ => alike_null
  | [cur], root, x1, x2, h => by
    rw [execQ, execQ]
    exact execBody_alike he hev root cur [] (fun _ _ _ => alike_null) (fun _ _ _ => alike_null) h
  | cur :: nxt :: rest, root, x1, x2, h => by
    rw [execQ, execQ]
    exact execBody_alike he hev root cur (nxt :: rest) (fun c1 c2 hc => execQ_alike he hev (nxt :: rest) false c1 c2 (hc.ra he.p1 he.p2))
      (fun c1 c2 hc => execQ_alike he hev rest false c1 c2 (hc.ra he.p1 he.p2)) h
termination_by ss => ss.length

theorem evalFilterN_alike {e1 e2 : Env} (he : Envs e1 e2) (n : Nat) : ∀ f a b, EA a b → evalFilterN e1 n f a = evalFilterN e2 n f b := by
  induction n with
  | zero => intro f a b _; rfl
  | succ n ih =>
    intro f a b hab
    simp only [evalFilterN, he.pf, hab.attr]
    congr 1
    split
    · rfl
    · cases parsePath f.path with
      | panic => rfl
      | err => rfl
      | ok ss =>
        have := execQ_alike he ih ss true _ _ (hab.content.ra he.p1 he.p2)
        simp only [this.exists?, this.toStr]

theorem executeQuery_alike {e1 e2 : Env} (he : Envs e1 e2) (ss : List Seg) {x1 x2 : Bytes} (h : RA e1.ord e2.ord x1 x2) :
    Alike (executeQuery e1 ss x1) (executeQuery e2 ss x2) :=
  execQ_alike (ev1 := evalFilter e1) (ev2 := evalFilter e2) he (fun f a b hab => evalFilterN_alike he (f.path.length + 1) f a b hab) ss true x1 x2 h

end Verif
