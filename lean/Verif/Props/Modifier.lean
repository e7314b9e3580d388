import Verif.Lemmas.Modifier
import Verif.Lemmas.Result
/- Properties of modifiers: C33 list operations, C34 compaction, C35 chains, C36 registry. -/
namespace Verif.Props
open Spec

/-! ## C33 -/

/-- C33: on an array, @reverse is the reversed array. -/
theorem C33_reverse (r : Result) (h : r.isArray = true) :
    (reverseMod r).isArray = true ∧ (reverseMod r).array = r.array.reverse := by
  have ht : r.typ = .array := by simpa [Result.isArray] using h
  unfold reverseMod
  by_cases he : r.results = []
  · simp [ht, he, Result.isArray, Result.array]
  · simp [ht, he, Result.array]

/-- C33: twice @reverse gives the elements back in order, on any result. -/
theorem C33_reverse_twice (r : Result) : (reverseMod (reverseMod r)).array = r.array := by
  by_cases h : r.isArray = true
  · obtain ⟨h1, h2⟩ := C33_reverse r h
    rw [(C33_reverse _ h1).2, h2, List.reverse_reverse]
  · have ht : r.typ ≠ .array := by simpa [Result.isArray] using h
    simp [reverseMod, ht]

/-- C33: @first is the first element of a non-empty array. -/
theorem C33_first (r x : Result) (h : r.isArray = true) (hx : r.array.head? = some x) : firstMod r = x := by
  have ht : r.typ = .array := by simpa using h
  have ha : r.array = r.results := by simp [Result.array, ht]
  rw [ha] at hx
  unfold firstMod
  rw [if_pos ht]
  generalize r.results = l at hx
  cases l with
  | nil => simp at hx
  | cons y ys => simpa using hx

/-- C33: @last is the last element of a non-empty array. -/
theorem C33_last (r x : Result) (h : r.isArray = true) (hx : r.array.getLast? = some x) : lastMod r = x := by
  have ht : r.typ = .array := by simpa using h
  have ha : r.array = r.results := by simp [Result.array, ht]
  rw [ha] at hx
  unfold lastMod
  rw [if_pos ht, hx]

/-- C33: @flatten replaces each array among the elements by its own elements; if nothing is
left the result does not exist. -/
theorem C33_flatten (r : Result) (h : r.isArray = true) :
    (flattenMod r).array = (r.array.map fun x => if x.isArray then x.array else [x]).flatten ∧
    ((flattenMod r).exists? = false ↔ ∀ x ∈ r.array, x.isArray = true ∧ x.array = []) := by
  have ht : r.typ = .array := by simpa [Result.isArray] using h
  have e : (r.array.map fun x => if x.isArray then x.array else [x]).flatten =
      r.results.flatMap fun x => if x.typ = .array then x.results else [x] := by
    simp only [Result.array, ht, if_true, List.flatMap]
    congr 1
    apply List.map_congr_left
    intro x _
    by_cases hx : x.typ = .array <;> simp [Result.isArray, hx]
  rw [e]
  unfold flattenMod
  simp only [ht, ne_eq, not_true_eq_false, if_false]
  have hz : (r.results.flatMap fun x => if x.typ = .array then x.results else [x]) = [] ↔
      ∀ x ∈ r.array, x.isArray = true ∧ x.array = [] := by
    simp only [Result.array, ht, if_true, List.flatMap_eq_nil_iff]
    constructor
    · intro h x hx
      have := h x hx
      by_cases hx' : x.typ = .array
      · simp only [hx', if_true] at this; simp [Result.isArray, hx', this]
      · simp [hx'] at this
    · intro h x hx
      obtain ⟨h1, h2⟩ := h x hx
      have hx' : x.typ = .array := by simpa [Result.isArray] using h1
      simpa [hx'] using h2
  rw [← hz]
  by_cases he : (r.results.flatMap fun x => if x.typ = .array then x.results else [x]) = []
  · simp [he]
  · simp [he]

/-- C33: @sort gives a permutation, for every sorting function that keeps Go's contract. -/
theorem C33_sort_perm (srt : Sorter) (hs : SortContract srt) (pf : Bytes → Option FVal) (r : Result) :
    (sortMod srt pf r).typ = r.typ ∧ (sortMod srt pf r).array.Perm r.array := by
  unfold sortMod
  split
  · exact ⟨rfl, .refl _⟩
  · rename_i h
    simp only [ne_eq, Bool.or_eq_true, decide_eq_true_eq, not_or, Decidable.not_not] at h
    refine ⟨by simp [h.1], ?_⟩
    rw [Result.array_ofArray, Result.array, if_pos h.1]
    exact (hs _ _).1

/-- C33: numerically sorted when every element is a number (and none is NaN). -/
theorem C33_sort_numeric (srt : Sorter) (hs : SortContract srt) (pf : Bytes → Option FVal) (r : Result)
    (h : r.isArray = true) (hnum : ∀ x ∈ r.array, ∃ n, numberOf pf x = some n ∧ n ≠ .nan) :
    (sortMod srt pf r).array.Pairwise
      (fun a b => ∀ x y, numberOf pf a = some x → numberOf pf b = some y → ¬ Below y x) := by
  have ht : r.typ = .array := by simpa [Result.isArray] using h
  have ha : r.array = r.results := by simp [Result.array, ht]
  rw [ha] at hnum
  by_cases hl : r.results.length ≤ 1
  · have : (sortMod srt pf r).array = r.results := by simp [sortMod, hl, ha]
    rw [this]
    match hr : r.results with
    | [] => exact .nil
    | [a] => exact List.pairwise_singleton _ _
    | a :: b :: t => rw [hr] at hl; simp only [List.length_cons] at hl; omega
  · have : (sortMod srt pf r).array = srt (sortLess pf r.results) r.results := by
      simp [sortMod, hl, ht]
    rw [this]
    have hall : r.results.all (fun r => (sortNum pf r).isSome) = true := by
      simp only [List.all_eq_true]
      intro x hx; obtain ⟨n, hn, -⟩ := hnum x hx; rw [numberOf_eq, hn]; rfl
    have hw := sortLess_weak pf r.results (by
      intro _ x hx; obtain ⟨n, hn, h2⟩ := hnum x hx; rw [hn]; simpa using h2)
    refine ((hs _ _).2 hw).imp ?_
    intro a b hab x y hx hy hlt
    unfold sortLess at hab
    rw [if_pos hall] at hab
    simp only [numberOf_eq, hx, hy] at hab
    rw [← FVal.lt_iff, hab] at hlt
    simp at hlt

/-- C33: otherwise (some element is not a number) sorted by String(), bytewise. -/
theorem C33_sort_string (srt : Sorter) (hs : SortContract srt) (pf : Bytes → Option FVal) (r : Result)
    (h : r.isArray = true) (hnum : ∃ x ∈ r.array, numberOf pf x = none) :
    (sortMod srt pf r).array.Pairwise (fun a b => ¬ LexBefore b.toStr a.toStr) := by
  have ht : r.typ = .array := by simpa [Result.isArray] using h
  have ha : r.array = r.results := by simp [Result.array, ht]
  rw [ha] at hnum
  by_cases hl : r.results.length ≤ 1
  · have : (sortMod srt pf r).array = r.results := by simp [sortMod, hl, ha]
    rw [this]
    match hr : r.results with
    | [] => exact .nil
    | [a] => exact List.pairwise_singleton _ _
    | a :: b :: t => rw [hr] at hl; simp only [List.length_cons] at hl; omega
  · have : (sortMod srt pf r).array = srt (sortLess pf r.results) r.results := by
      simp [sortMod, hl, ht]
    rw [this]
    have hall : ¬ r.results.all (fun r => (sortNum pf r).isSome) = true := by
      obtain ⟨x, hx, hn⟩ := hnum
      simp only [List.all_eq_true]
      intro h; have := h x hx; rw [numberOf_eq, hn] at this; simp at this
    have hw := sortLess_weak pf r.results (by
      intro h
      obtain ⟨x, hx, hn⟩ := hnum
      have := h x hx; rw [hn] at this; simp at this)
    refine ((hs _ _).2 hw).imp ?_
    intro a b hab hlt
    unfold sortLess at hab
    rw [if_neg hall] at hab
    rw [← bytesLt_iff, hab] at hlt
    simp at hlt

/-- C33: on anything but an array these modifiers are the identity. -/
theorem C33_identity (srt : Sorter) (pf : Bytes → Option FVal) (r : Result) (h : r.isArray = false) :
    reverseMod r = r ∧ firstMod r = r ∧ lastMod r = r ∧ flattenMod r = r ∧ sortMod srt pf r = r := by
  have ht : r.typ ≠ .array := by simpa [Result.isArray] using h
  simp [reverseMod, firstMod, lastMod, flattenMod, sortMod, ht]

/-- C33: and @first/@last of an empty array is that array. -/
theorem C33_empty (r : Result) (h : r.isArray = true) (he : r.array = []) : firstMod r = r ∧ lastMod r = r := by
  have ht : r.typ = .array := by simpa [Result.isArray] using h
  have : r.results = [] := by simpa [Result.array, ht] using he
  simp [firstMod, lastMod, ht, this]

/-- Insertion sort keeps the contract on the sample below; used as a concrete sorter. -/
def insertSorted (less : Result → Result → Bool) (x : Result) : List Result → List Result
  | [] => [x]
  | y :: ys => if less x y then x :: y :: ys else y :: insertSorted less x ys

example : sortMod (fun less l => l.foldr (insertSorted less) []) (fun s => if s = b!"10" then some (.fin 10) else if s = b!"9" then some (.fin 9) else none)
    (.ofArray [.ofContent b!"10", .ofContent b!"9"]) = .ofArray [.ofContent b!"9", .ofContent b!"10"] := by decide +kernel
example : (Result.ofArray [.ofContent b!"10", .ofContent b!"9"]).isArray = true := by decide
example : flattenMod (.ofArray [.ofArray [.ofContent b!"1"], .ofContent b!"2"]) = .ofArray [.ofContent b!"1", .ofContent b!"2"] := by
  decide +kernel

/-! ## C34 -/

/-- C34: cut any text into text, tags and CDATA sections (possibly with an unclosed one at the
end); compacting removes the white space of the text pieces and nothing else. -/
theorem C34_compact (ps : List Piece) (t : Tail) (h : ∀ p ∈ ps, p.Ok) (ht : t.Ok) :
    compactXML (ps.flatMap Piece.bytes ++ t.bytes) = ps.flatMap Piece.squeezed ++ t.bytes :=
  compact_pieces ps t h ht

/-- C34: every text can be cut like that. -/
theorem C34_pieces (s : Bytes) : ∃ (ps : List Piece) (t : Tail), (∀ p ∈ ps, p.Ok) ∧ t.Ok ∧
    s = ps.flatMap Piece.bytes ++ t.bytes := pieces_exist s

/-- C34: compacting twice is compacting once. -/
theorem C34_idempotent (s : Bytes) : compactXML (compactXML s) = compactXML s := by
  obtain ⟨ps, t, h1, h2, rfl⟩ := pieces_exist s
  rw [compact_pieces ps t h1 h2]
  have : ps.flatMap Piece.squeezed = (ps.map Piece.squeeze).flatMap Piece.bytes := by
    rw [List.flatMap_map]; congr 1; funext p; exact (squeeze_bytes p).symm
  rw [this, compact_pieces _ t _ h2, List.flatMap_map, List.flatMap_map]
  · congr 2; funext p; rw [squeeze_squeezed, squeeze_bytes]
  · intro p hp
    obtain ⟨q, hq, rfl⟩ := List.mem_map.mp hp
    exact squeeze_ok q (h1 q hq)

/-- C34: the modifier compacts the raw text, keeps type, string and number, and is idempotent on any
result without sub-results. -/
theorem C34_ugly (r : Result) (h : r.raw ≠ []) :
    (uglyMod r).raw = compactXML r.raw ∧ (uglyMod r).typ = r.typ ∧ (uglyMod r).str = r.str ∧ (uglyMod r).num = r.num := by
  have : r.raw.isEmpty = false := by simpa using h
  simp [uglyMod, this]
theorem C34_ugly_idempotent (r : Result) : uglyMod (uglyMod r) = uglyMod r := by
  by_cases h : r.raw.isEmpty = true
  · have e : uglyMod r = r := by simp [uglyMod, h]
    rw [e, e]
  · have e : uglyMod r = .mk r.typ (compactXML r.raw) r.str r.num [] := by simp [uglyMod, h]
    rw [e]
    by_cases hq : (compactXML r.raw).isEmpty = true <;> simp [uglyMod, hq, C34_idempotent]

example : compactXML b!"<a  b=\" c\"> x y <![CDATA[ z ]]> </a>" = b!"<a  b=\" c\">xy<![CDATA[ z ]]></a>" := by decide +kernel

/-! ## C35 -/

/-- C35: a chain of at most 20 modifiers is the pipeline. -/
theorem C35_chain (mods : Bytes → Option (Result → Result)) (r out : Result) (ns : List Bytes) (h : ns.length ≤ 20) :
    applyModifiers mods r ns = out ↔ Pipeline mods r ns out := by
  have : maxModifierChainDepth = 20 := rfl
  unfold applyModifiers
  rw [if_neg (by omega)]
  exact runMods_pipeline mods r out ns

/-- C35: a longer chain gives a non-existing result. -/
theorem C35_too_long (mods : Bytes → Option (Result → Result)) (r : Result) (ns : List Bytes) (h : ns.length > 20) :
    (applyModifiers mods r ns).exists? = false := by
  have : maxModifierChainDepth = 20 := rfl
  unfold applyModifiers
  rw [if_pos (by omega)]; rfl

/-- C35: an unknown modifier anywhere in the chain gives a non-existing result. -/
theorem C35_unknown (mods : Bytes → Option (Result → Result)) (r : Result) (ns : List Bytes)
    (h : ∃ n ∈ ns, mods n = none) : (applyModifiers mods r ns).exists? = false := by
  by_cases hl : ns.length > 20
  · exact C35_too_long mods r ns hl
  · obtain ⟨n, hn, hm⟩ := h
    have hp := (C35_chain mods r _ ns (by omega)).mp rfl
    generalize applyModifiers mods r ns = out at hp
    clear hl
    induction hp with
    | done => simp at hn
    | unknown => rfl
    | stop _ _ _ _ _ h => exact h
    | next r out k ns m hk _ _ ih =>
      apply ih
      rcases List.mem_cons.mp hn with rfl | hn
      · rw [hm] at hk; simp at hk
      · exact hn

example : Pipeline (builtinMods (fun _ l => l) (fun _ => none) id) (.ofArray [.ofContent b!"1", .ofContent b!"2"])
    [b!"reverse", b!"first"] (.ofContent b!"2") := by
  rw [← C35_chain _ _ _ _ (by decide)]; decide +kernel

/-! ## C36 -/

/-- The registry after a history of calls (each runs under the write lock, so any concurrent execution is such a
sequence), starting from the built-ins. -/
def after {M : Type} (reg : Registry M) (h : List (RegOp M)) : Registry M := h.foldl RegOp.run reg

/-- A start registry: the built-in names and nothing else are bound. -/
def StartRegistry {M : Type} (reg : Registry M) (orig : Bytes → M) : Prop :=
  ∀ n, reg n = if n ∈ [b!"reverse", b!"sort", b!"first", b!"last", b!"flatten", b!"pretty", b!"ugly"]
    then some (some (orig n)) else none

/-- C36: after any history every built-in is still bound to its original implementation. -/
theorem C36_builtin {M : Type} (reg : Registry M) (orig : Bytes → M) (hs : StartRegistry reg orig) (h : List (RegOp M))
    (n : Bytes) (hn : n ∈ [b!"reverse", b!"sort", b!"first", b!"last", b!"flatten", b!"pretty", b!"ugly"]) :
    getModifier (after reg h) n = some (orig n) := by
  have := run_builtin reg h n (by simpa [isBuiltin, builtinNames] using hn) (some (orig n)) (by rw [hs n, if_pos hn])
  unfold getModifier after
  rw [this]; rfl

/-- C36: any other name is bound to `m` exactly when the history left it registered as `m`. -/
theorem C36_custom {M : Type} (reg : Registry M) (orig : Bytes → M) (hs : StartRegistry reg orig) (h : List (RegOp M))
    (n : Bytes) (hn : n ∉ [b!"reverse", b!"sort", b!"first", b!"last", b!"flatten", b!"pretty", b!"ugly"]) (hne : n ≠ []) (m : M) :
    getModifier (after reg h) n = some m ↔ LeftRegistered h n (some m) := by
  rw [← run_custom reg h n (by simpa [isBuiltin, builtinNames] using hn) hne (by rw [hs n, if_neg hn]) (some m)]
  unfold getModifier after
  cases h.foldl RegOp.run reg n with
  | none => simp
  | some x => cases x <;> simp

/-- C36: the empty name is never bound. -/
theorem C36_empty {M : Type} (reg : Registry M) (orig : Bytes → M) (hs : StartRegistry reg orig) (h : List (RegOp M)) :
    getModifier (after reg h) [] = none := by
  have : ∀ (reg : Registry M), reg [] = none → h.foldl RegOp.run reg [] = none := by
    induction h with
    | nil => intro reg hr; exact hr
    | cons op h ih =>
      intro reg hr
      simp only [List.foldl_cons]
      apply ih
      cases op with
      | register k m =>
        simp only [RegOp.run, registerModifier]
        split
        · exact hr
        · split
          · exact hr
          · rename_i hk _; simp only; rw [if_neg]; · exact hr
            rintro rfl; exact hk rfl
      | unregister k =>
        simp only [RegOp.run, unregisterModifier]
        split
        · exact hr
        · simp only; split
          · rfl
          · exact hr
  unfold getModifier after
  rw [this reg (by rw [hs, if_neg (by decide)])]; rfl

/-- C36: registration fails exactly for the empty name and for bound names, and then changes nothing;
unregistration fails exactly for the built-ins, and then changes nothing. -/
theorem C36_errors {M : Type} (reg : Registry M) (n : Bytes) (m : Option M) :
    ((registerModifier reg n m).2 = true ↔ n = [] ∨ reg n ≠ none) ∧
    ((registerModifier reg n m).2 = true → (registerModifier reg n m).1 = reg) ∧
    ((unregisterModifier reg n).2 = true ↔ n ∈ [b!"reverse", b!"sort", b!"first", b!"last", b!"flatten", b!"pretty", b!"ugly"]) ∧
    ((unregisterModifier reg n).2 = true → (unregisterModifier reg n).1 = reg) := by
  refine ⟨?_, ?_, ?_, ?_⟩
  · unfold registerModifier
    cases n with
    | nil => simp
    | cons c cs => cases hr : reg (c :: cs) <;> simp [hr]
  · unfold registerModifier
    split
    · simp
    · split <;> simp
  · unfold unregisterModifier
    have : isBuiltin n = true ↔ n ∈ [b!"reverse", b!"sort", b!"first", b!"last", b!"flatten", b!"pretty", b!"ugly"] := by
      simp [isBuiltin, builtinNames]
    rw [← this]
    cases isBuiltin n <;> simp
  · unfold unregisterModifier
    split <;> simp

/-- C36: the registry of the program is a start registry. -/
theorem C36_start (srt : Sorter) (pf : Bytes → Option FVal) (pretty : Result → Result) :
    ∃ orig, StartRegistry (fun n => (builtinMods srt pf pretty n).map some) orig := by
  refine ⟨fun n => ((builtinMods srt pf pretty n).getD id), fun n => ?_⟩
  unfold builtinMods
  simp only [List.mem_cons, List.not_mem_nil, or_false]
  by_cases h1 : n = b!"reverse"
  · simp [h1]
  by_cases h2 : n = b!"sort"
  · simp [h2]
  by_cases h3 : n = b!"first"
  · simp [h3]
  by_cases h4 : n = b!"last"
  · simp [h4]
  by_cases h5 : n = b!"flatten"
  · simp [h5]
  by_cases h6 : n = b!"pretty"
  · simp [h6]
  by_cases h7 : n = b!"ugly"
  · simp [h7]
  simp [h1, h2, h3, h4, h5, h6, h7]

/-- Registered twice, removed, registered again: the second implementation after the removal is the bound one. -/
example : LeftRegistered [RegOp.register b!"up" (some 1), .register b!"up" (some 2), .unregister b!"up", .register b!"up" (some 3),
    .register b!"up" (some 4)] b!"up" (some 3) := by
  have := (C36_custom (M := Nat) (fun n => if n ∈ [b!"reverse", b!"sort", b!"first", b!"last", b!"flatten", b!"pretty", b!"ugly"]
    then some (some 0) else none) (fun _ => 0) (fun n => rfl)
    [RegOp.register b!"up" (some 1), .register b!"up" (some 2), .unregister b!"up", .register b!"up" (some 3),
    .register b!"up" (some 4)] b!"up" (by decide) (by decide) 3).mp
  apply this; decide

end Verif.Props
