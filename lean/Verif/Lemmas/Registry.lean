import Verif.Lemmas.ShapeDoc
import Verif.Lemmas.Reading
import Verif.Lemmas.White
import Verif.Spec.Registry
/- A query looks up just the modifiers its path calls: C81. -/
namespace Verif
open Spec

/-! ### the segments say which modifiers are looked up -/

/-- The same modifiers for the names of this segment. -/
def SameMods (env env' : Env) (s : Seg) : Prop := ∀ r, applyModifiers env.mods r s.mods = applyModifiers env'.mods r s.mods

theorem runMods_same {m m' : Bytes → Option (Result → Result)} : ∀ {ns : List Bytes}, (∀ n ∈ ns, m n = m' n) → ∀ r, runMods m r ns = runMods m' r ns := by
  intro ns
  induction ns with
  | nil => intro _ r; rfl
  | cons n ns ih =>
    intro h r
    rw [runMods, runMods, h n (by simp)]
    have ih := ih (fun k hk => h k (List.mem_cons_of_mem _ hk))
    cases m' n with
    | none => rfl
    | some f => simp only [ih]

theorem sameMods_of {env env' : Env} {s : Seg} (h : ∀ n ∈ s.mods, env.mods n = env'.mods n) : SameMods env env' s := by
  intro r
  unfold applyModifiers
  rw [runMods_same h]

/-! ### both engines -/

variable {env env' : Env} (ho : env'.ord = env.ord)
include ho

theorem fieldExtraction_reg {s : Seg} (hs : SameMods env env' s) (ms : List Elem) (f : Bytes) : fieldExtraction env' ms f s.mods = fieldExtraction env ms f s.mods := by
  unfold fieldExtraction
  simp only [ho, hs _]

theorem handleWildcard_reg {rest : List Seg} (hs : ∀ s ∈ rest, SameMods env env' s) (ms : List Elem) (k : Bytes → Result) :
    handleWildcard env' ms rest k = handleWildcard env ms rest k := by
  unfold handleWildcard
  cases rest with
  | nil => rfl
  | cons nxt r => simp only [hs nxt (by simp) _]

theorem recEmit_reg {rest : List Seg} (hs : ∀ s ∈ rest, SameMods env env' s) (k : Bytes → Result) : recEmit env' rest k = recEmit env rest k := by
  funext e
  unfold recEmit
  cases rest with
  | nil => rfl
  | cons nxt r => simp only [fieldExtraction_reg ho (hs nxt (by simp))]

theorem handleRecursive_reg {rest : List Seg} (hs : ∀ s ∈ rest, SameMods env env' s) (k : Bytes → Result) (xml : Bytes) :
    handleRecursive env' rest k xml = handleRecursive env rest k xml := by
  unfold handleRecursive
  cases rest with
  | nil => rfl
  | cons nxt r => simp only [ho, recEmit_reg ho (fun s h => hs s (List.mem_cons_of_mem _ h))]

theorem routeFilter_reg {seg : Seg} (h1 : SameMods env env' seg) {rest : List Seg} (hs : ∀ s ∈ rest, SameMods env env' s) (ms : List Elem) (all : Bool) (k : Bytes → Result) :
    routeFilter env' ms seg all rest k = routeFilter env ms seg all rest k := by
  unfold routeFilter processAll processFirst
  cases rest with
  | nil => simp only [h1 _]
  | cons nxt r => simp only [hs nxt (by simp) _, fieldExtraction_reg ho (hs nxt (by simp))]

theorem fragmentRoots_reg {nxt : Seg} (h1 : SameMods env env' nxt) (ms : List Elem) (rest : List Seg) (k : Bytes → Result) :
    fragmentRoots env' ms nxt rest k = fragmentRoots env ms nxt rest k := by
  unfold fragmentRoots
  simp only [fieldExtraction_reg ho h1]

theorem arrayOp_reg {nxt : Seg} (h1 : SameMods env env' nxt) {rest : List Seg} (hs : ∀ s ∈ rest, SameMods env env' s) (ms : List Elem) (k : Bytes → Result) :
    arrayOp env' ms nxt rest k = arrayOp env ms nxt rest k := by
  unfold arrayOp
  cases rest with
  | nil => simp only [h1 _]
  | cons s r => simp only [h1 _, hs s (by simp) _]

theorem firstMatch_reg {cur : Seg} (h1 : SameMods env env' cur) {rest : List Seg} (hs : ∀ s ∈ rest, SameMods env env' s) (k : Bytes → Result) (ms : List Elem) :
    firstMatch env' cur rest k ms = firstMatch env cur rest k ms := by
  induction ms with
  | nil => simp only [firstMatch]
  | cons m ms ih =>
    cases rest with
    | nil => simp only [firstMatch, h1 _]
    | cons s r => simp only [firstMatch, hs s (by simp) _, ih]

theorem execElem_reg {ev ev' : Filter → Elem → Bool} {cur : Seg} (h1 : SameMods env env' cur) {rest : List Seg} (hs : ∀ s ∈ rest, SameMods env env' s)
    (hev : ∀ s ∈ rest, ∀ f all, s.kind = .filter f all → ev' f = ev f) (k1 k2 : Bytes → Result) (xml : Bytes) :
    execElem env' ev' cur rest k1 k2 xml = execElem env ev cur rest k1 k2 xml := by
  unfold execElem
  cases rest with
  | nil => simp only [ho, firstMatch_reg ho h1 hs]
  | cons s r =>
    have hr : ∀ t ∈ r, SameMods env env' t := fun t ht => hs t (List.mem_cons_of_mem _ ht)
    have e0 := hs s (by simp)
    cases hk : s.kind with
    | filter f all => simp only [hk, ho, hev s (by simp) f all hk, routeFilter_reg ho e0 hr]
    | _ => simp only [hk, ho, firstMatch_reg ho h1 hs, fieldExtraction_reg ho e0, arrayOp_reg ho e0 hr]

theorem execBody_reg {ev ev' : Filter → Elem → Bool} {root : Bool} {cur : Seg} (h1 : SameMods env env' cur) {rest : List Seg} (hs : ∀ s ∈ rest, SameMods env env' s)
    (hev : ∀ s ∈ cur :: rest, ∀ f all, s.kind = .filter f all → ev' f = ev f) (k1 k2 : Bytes → Result) (xml : Bytes) :
    execBody env' ev' root cur rest k1 k2 xml = execBody env ev root cur rest k1 k2 xml := by
  unfold execBody
  cases hk : cur.kind with
  | elem v =>
    simp only [ho, execElem_reg ho h1 hs (fun s h => hev s (List.mem_cons_of_mem _ h))]
    cases rest with
    | nil => rfl
    | cons s r => simp only [fragmentRoots_reg ho (hs s (by simp))]
  | filter f all => simp only [ho, hev cur (by simp) f all hk, routeFilter_reg ho h1 hs]
  | wild b => cases b <;> simp only [ho, handleRecursive_reg ho hs, handleWildcard_reg ho hs, h1 _]
  | _ => rfl

theorem execQ_reg {ev ev' : Filter → Elem → Bool} : ∀ (n : Nat) {S : List Seg}, S.length ≤ n → (∀ s ∈ S, SameMods env env' s) →
    (∀ s ∈ S, ∀ f all, s.kind = .filter f all → ev' f = ev f) → ∀ root xml, execQ env' ev' S root xml = execQ env ev S root xml := by
  intro n
  induction n with
  | zero =>
    intro S hl _ _ root xml
    obtain rfl := List.eq_nil_of_length_eq_zero (Nat.le_zero.mp hl)
    simp only [execQ]
  | succ n ih =>
    intro S hl hs hev root xml
    match S with
    | [] => simp only [execQ]
    | [cur] => rw [execQ, execQ]; exact execBody_reg ho (hs cur (by simp)) (by simp) hev _ _ _
    | cur :: nxt :: rest =>
      simp only [List.length_cons] at hl
      have e1 : execQ env' ev' (nxt :: rest) false = execQ env ev (nxt :: rest) false :=
        funext fun x => ih (by simp only [List.length_cons]; omega) (fun s h => hs s (List.mem_cons_of_mem _ h)) (fun s h => hev s (List.mem_cons_of_mem _ h)) _ _
      have e2 : execQ env' ev' rest false = execQ env ev rest false :=
        funext fun x => ih (by omega) (fun s h => hs s (by simp [h])) (fun s h => hev s (by simp [h])) _ _
      rw [execQ, execQ, e1, e2]
      exact execBody_reg ho (hs cur (by simp)) (fun s h => hs s (List.mem_cons_of_mem _ h)) hev _ _ _

theorem fieldExtractionO_reg {s : Seg} (hs : SameMods env env' s) (cs : Bool) (ms : List Elem) (f : Bytes) : fieldExtractionOpt env' cs ms f s.mods = fieldExtractionOpt env cs ms f s.mods := by
  unfold fieldExtractionOpt
  simp only [ho, hs _]

theorem handleWildcardO_reg {rest : List Seg} (hs : ∀ s ∈ rest, SameMods env env' s) (cs : Bool) (ms : List Elem) (k : Bytes → Result) :
    handleWildcardOpt env' cs ms rest k = handleWildcardOpt env cs ms rest k := by
  unfold handleWildcardOpt
  cases rest with
  | nil => rfl
  | cons nxt r => simp only [ho, hs nxt (by simp) _]

theorem handleRecursiveO_reg (cs : Bool) (rest : List Seg) (k : Bytes → Result) (xml : Bytes) : handleRecursiveOpt env' cs rest k xml = handleRecursiveOpt env cs rest k xml := by
  unfold handleRecursiveOpt
  have : ∀ r, recEmitOpt env' cs r k = recEmitOpt env cs r k := fun r => by
    funext e
    unfold recEmitOpt
    simp only [ho]
  simp only [ho, this]

theorem routeFilterO_reg {seg : Seg} (h1 : SameMods env env' seg) {rest : List Seg} (hs : ∀ s ∈ rest, SameMods env env' s) (cs : Bool) (ms : List Elem) (all : Bool) (k : Bytes → Result) :
    routeFilterOpt env' cs ms seg all rest k = routeFilterOpt env cs ms seg all rest k := by
  unfold routeFilterOpt processAllOpt processFirstOpt
  cases rest with
  | nil => simp only [h1 _]
  | cons nxt r => simp only [ho, hs nxt (by simp) _, fieldExtractionO_reg ho (hs nxt (by simp))]

theorem fragmentRootsO_reg {nxt : Seg} (h1 : SameMods env env' nxt) (ms : List Elem) (rest : List Seg) (k : Bytes → Result) :
    fragmentRootsOpt env' ms nxt rest k = fragmentRootsOpt env ms nxt rest k := by
  unfold fragmentRootsOpt
  simp only [fieldExtractionO_reg ho h1]

theorem arrayOpO_reg (cs : Bool) (ms : List Elem) (nxt : Seg) (rest : List Seg) (k : Bytes → Result) : arrayOpOpt env' cs ms nxt rest k = arrayOpOpt env cs ms nxt rest k := by
  unfold arrayOpOpt
  simp only [ho]

theorem firstMatchO_reg (cs : Bool) (rest : List Seg) (k : Bytes → Result) (ms : List Elem) : firstMatchOpt env' cs rest k ms = firstMatchOpt env cs rest k ms := by
  induction ms with
  | nil => simp only [firstMatchOpt]
  | cons m ms ih => cases rest <;> simp only [firstMatchOpt, ho, ih]

theorem execBodyO_reg {ev ev' : Filter → Elem → Bool} {cs root : Bool} {cur : Seg} (h1 : SameMods env env' cur) {rest : List Seg} (hs : ∀ s ∈ rest, SameMods env env' s)
    (hev : ∀ s ∈ cur :: rest, ∀ f all, s.kind = .filter f all → ev' f = ev f) (k1 k2 : Bytes → Result) (xml : Bytes) :
    execBodyOpt env' ev' cs root cur rest k1 k2 xml = execBodyOpt env ev cs root cur rest k1 k2 xml := by
  have key : execElemOpt env' ev' cs cur rest k1 k2 xml = execElemOpt env ev cs cur rest k1 k2 xml := by
    unfold execElemOpt
    cases rest with
    | nil => simp only [ho, firstMatchO_reg ho]
    | cons s r =>
      have hr : ∀ t ∈ r, SameMods env env' t := fun t ht => hs t (List.mem_cons_of_mem _ ht)
      have e0 := hs s (by simp)
      cases hk : s.kind with
      | filter f all => simp only [hk, ho, hev s (by simp) f all hk, routeFilterO_reg ho e0 hr]
      | _ => simp only [hk, ho, firstMatchO_reg ho, fieldExtractionO_reg ho e0, arrayOpO_reg ho]
  unfold execBodyOpt
  cases hk : cur.kind with
  | elem v =>
    simp only [ho, key]
    cases rest with
    | nil => rfl
    | cons s r => simp only [fragmentRootsO_reg ho (hs s (by simp))]
  | filter f all => simp only [ho, hev cur (by simp) f all hk, routeFilterO_reg ho h1 hs]
  | wild b => cases b <;> simp only [ho, handleRecursiveO_reg ho, handleWildcardO_reg ho hs]
  | _ => rfl

theorem execQO_reg {ev ev' : Filter → Elem → Bool} {cs : Bool} : ∀ (n : Nat) {S : List Seg}, S.length ≤ n → (∀ s ∈ S, SameMods env env' s) →
    (∀ s ∈ S, ∀ f all, s.kind = .filter f all → ev' f = ev f) → ∀ root xml, execQOpt env' ev' cs S root xml = execQOpt env ev cs S root xml := by
  intro n
  induction n with
  | zero =>
    intro S hl _ _ root xml
    obtain rfl := List.eq_nil_of_length_eq_zero (Nat.le_zero.mp hl)
    simp only [execQOpt]
  | succ n ih =>
    intro S hl hs hev root xml
    match S with
    | [] => simp only [execQOpt]
    | [cur] => rw [execQOpt, execQOpt]; exact execBodyO_reg ho (hs cur (by simp)) (by simp) hev _ _ _
    | cur :: nxt :: rest =>
      simp only [List.length_cons] at hl
      have e1 : execQOpt env' ev' cs (nxt :: rest) false = execQOpt env ev cs (nxt :: rest) false :=
        funext fun x => ih (by simp only [List.length_cons]; omega) (fun s h => hs s (List.mem_cons_of_mem _ h)) (fun s h => hev s (List.mem_cons_of_mem _ h)) _ _
      have e2 : execQOpt env' ev' cs rest false = execQOpt env ev cs rest false :=
        funext fun x => ih (by omega) (fun s h => hs s (by simp [h])) (fun s h => hev s (by simp [h])) _ _
      rw [execQOpt, execQOpt, e1, e2]
      exact execBodyO_reg ho (hs cur (by simp)) (fun s h => hs s (List.mem_cons_of_mem _ h)) hev _ _ _

omit ho

/-! ### the text of a path says which modifiers its segments call -/

theorem splitOn_piece {sep : UInt8} : ∀ (s : Bytes) {p : Bytes} {ps : List Bytes}, splitOn sep s = p :: ps → sep ∉ p ∧ (∃ b, s = p ++ b ∧ (b = [] ∨ b.head? = some sep)) ∧
    ∀ w ∈ ps, ∃ a b, s = a ++ sep :: w ++ b ∧ sep ∉ w ∧ (b = [] ∨ b.head? = some sep) := by
  intro s
  induction s with
  | nil => intro p ps h; simp only [splitOn, List.cons.injEq] at h; obtain ⟨rfl, rfl⟩ := h; simp
  | cons c cs ih =>
    intro p ps h
    rw [splitOn] at h
    obtain ⟨q, qs, hq, -⟩ := splitOn_head sep cs
    obtain ⟨i1, ⟨b, i2, i3⟩, i4⟩ := ih hq
    split at h
    · rename_i hc
      subst hc
      simp only [List.cons.injEq] at h
      obtain ⟨rfl, rfl⟩ := h
      refine ⟨by simp, ⟨c :: cs, rfl, .inr rfl⟩, fun w hw => ?_⟩
      rw [hq] at hw
      rcases List.mem_cons.mp hw with rfl | hw
      · exact ⟨[], b, by simp [i2], i1, i3⟩
      · obtain ⟨x, y, e1, e2, e3⟩ := i4 w hw
        exact ⟨c :: x, y, by simp [e1], e2, e3⟩
    · rename_i hc
      rw [hq] at h
      simp only [List.cons.injEq] at h
      obtain ⟨rfl, rfl⟩ := h
      refine ⟨by simp only [List.mem_cons, not_or]; exact ⟨fun e => hc e.symm, i1⟩, ⟨b, by simp [i2], i3⟩, fun w hw => ?_⟩
      obtain ⟨x, y, e1, e2, e3⟩ := i4 w hw
      exact ⟨c :: x, y, by simp [e1], e2, e3⟩

theorem parseModifiers_calls {p n : Bytes} (h : n ∈ (parseModifiers p).2) : Calls p n := by
  unfold parseModifiers at h
  obtain ⟨q, qs, hq, -⟩ := splitOn_head c!"|" p
  rw [hq] at h
  simp only [List.mem_filterMap] at h
  obtain ⟨w, hw, h⟩ := h
  obtain ⟨-, -, h3⟩ := splitOn_piece p hq
  obtain ⟨a, b, e1, e2, e3⟩ := h3 w hw
  refine ⟨a, w, b, by rw [e1]; simp, e2, e3, ?_⟩
  rw [← trims_iff]
  split at h
  · simp at h
  · rename_i c cs hc
    split at h
    · rename_i h0
      simp only [Option.some.injEq] at h
      subst h; subst h0
      exact hc
    · simp at h

theorem filterCondition_path {e : Bytes} {f : Filter} (h : parseFilterCondition e = .ok f) : ∀ c ∈ f.path, c ∈ e := by
  have hsub : ∀ s : Bytes, ∀ c ∈ trimSpace s, c ∈ s := by
    intro s c hc
    obtain ⟨a, b, e1, -⟩ := (trims_iff s _).mp rfl
    rw [e1]; simp [hc]
  unfold parseFilterCondition at h
  simp only at h
  repeat' split at h
  all_goals first | (simp at h; done) | skip
  · simp only [Parse.ok.injEq] at h; subst h; exact hsub e
  · simp only [Parse.ok.injEq] at h
    subst h
    intro c hc
    exact hsub e c (List.mem_of_mem_take (hsub _ c hc))

theorem parsePart_calls {p : Bytes} {s : Seg} (h : parsePart p = .seg s) : (∀ n ∈ s.mods, Calls p n) ∧ ∀ f all, s.kind = .filter f all → c!"|" ∉ f.path := by
  have hc : ∀ n ∈ (parseModifiers p).2, Calls p n := fun n hn => parseModifiers_calls hn
  have hb : c!"|" ∉ (parseModifiers p).1 := by
    unfold parseModifiers
    obtain ⟨q, qs, hq, -⟩ := splitOn_head c!"|" p
    rw [hq]
    exact (splitOn_piece p hq).1
  unfold parsePart at h
  simp only at h
  split at h
  · simp at h
  · split at h
    · unfold parseFilterPart at h
      simp only at h
      have key : ∀ k f, parseFilterCondition (((parseModifiers p).1.take k).drop 2) = .ok f → c!"|" ∉ f.path := fun k f hf hm =>
        hb (List.mem_of_mem_take (List.mem_of_mem_drop (filterCondition_path hf _ hm)))
      repeat' split at h
      all_goals first | (simp at h; done) | skip
      all_goals
        simp only [PartRes.seg.injEq] at h
        subst h
        refine ⟨hc, fun f all hf => ?_⟩
        simp only [SegKind.filter.injEq] at hf
        obtain ⟨rfl, -⟩ := hf
        exact key _ _ (by assumption)
    · repeat' split at h
      all_goals
        simp only [PartRes.seg.injEq] at h
        subst h
        exact ⟨hc, fun f all hf => by simp at hf⟩

theorem parsePath_calls {path : Bytes} {ss : List Seg} (h : parsePath path = .ok ss) :
    ∀ s ∈ ss, (∀ n ∈ s.mods, PathCalls path n) ∧ ∀ f all, s.kind = .filter f all → c!"|" ∉ f.path := by
  unfold parsePath at h
  split at h
  · simp at h
  · rename_i hne
    unfold parsePathInternal at h
    split at h
    · simp at h
    · cases hq : parseParts (splitPath path) with
      | panic => rw [hq] at h; simp at h
      | err => rw [hq] at h; simp at h
      | ok ss0 =>
        rw [hq] at h
        simp only [Parse.ok.injEq] at h
        subst h
        have hp : Parts path (splitPath path) := parts_iff.mpr (by rw [splitPath, if_neg hne])
        have h0 := parseParts_forall (P := fun s => (∀ n ∈ s.mods, PathCalls path n) ∧ ∀ f all, s.kind = .filter f all → c!"|" ∉ f.path)
          (fun p hm s hs => ⟨fun n hn => ⟨_, p, hp, hm, (parsePart_calls hs).1 n hn⟩, (parsePart_calls hs).2⟩) hq
        exact fuseFields_forall h0 fun s _ _ t ht f => ⟨(h0 t ht).1, fun f all hf => by simp at hf⟩

/-! ### filters never look up a modifier -/

theorem evalFilterN_reg {env env' : Env} (ho : env'.ord = env.ord) (hf : env'.parseFloat = env.parseFloat) : ∀ (n : Nat) {f : Filter}, c!"|" ∉ f.path → evalFilterN env' n f = evalFilterN env n f := by
  intro n
  induction n with
  | zero => intro f _; rfl
  | succ n ih =>
    intro f hb
    funext m
    rw [evalFilterN, evalFilterN]
    simp only [hf]
    split
    · rfl
    · cases hp : parsePath f.path with
      | ok ss =>
        have h1 := parsePath_nobar hb hp
        have h2 := parsePath_calls hp
        simp only [execQ_reg ho (ev := evalFilterN env n) (ev' := evalFilterN env' n) _ (Nat.le_refl _)
          (fun s hs => sameMods_of (by rw [h1 s hs]; simp)) (fun s hs f all hk => ih ((h2 s hs).2 f all hk))]
      | _ => rfl

end Verif
