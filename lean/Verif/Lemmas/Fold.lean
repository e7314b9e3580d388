import Verif.Lemmas.Options
/- Case-insensitive queries on paths of names, followed by nothing or an attribute. -/
namespace Verif
open Spec

theorem foldCase_eq (s : Bytes) : foldCase s = toLowerASCII s := rfl

theorem idxOf?_lower {x : UInt8} (hx : ¬ (65 ≤ x ∧ x ≤ 90) ∧ ¬ (97 ≤ x ∧ x ≤ 122)) (s : Bytes) : (toLowerASCII s).idxOf? x = s.idxOf? x := by
  induction s with
  | nil => rfl
  | cons c cs ih =>
    simp only [toLowerASCII, List.map_cons, List.idxOf?_cons] at *
    rw [ih]
    have : (lowerByte c == x) = (c == x) := by rw [Bool.eq_iff_iff]; simp only [beq_iff_eq]; exact lowerByte_eq hx c
    rw [this]

theorem splitNamespace_lower (s : Bytes) : splitNamespace (toLowerASCII s) = (toLowerASCII (splitNamespace s).1, toLowerASCII (splitNamespace s).2) := by
  unfold splitNamespace
  rw [idxOf?_lower (by decide)]
  cases s.idxOf? c!":" with
  | none => rfl
  | some idx =>
    simp only
    have h : ((toLowerASCII s).take idx).any (fun c => c < 0x20 || c = 0x7F) = (s.take idx).any (fun c => c < 0x20 || c = 0x7F) := by
      rw [toLowerASCII, ← List.map_take, List.any_map]
      congr 1; funext c
      simp only [Function.comp, lowerByte_eq (x := 0x7F) (by decide)]
      congr 1
      rw [Bool.eq_iff_iff]
      simp only [decide_eq_true_eq, lowerByte]
      split
      · rename_i hh
        simp only [Bool.and_eq_true, decide_eq_true_eq] at hh
        simp only [UInt8.le_iff_toNat_le, UInt8.lt_iff_toNat_lt, UInt8.toNat_add] at *
        simp at *
        omega
      · simp
    rw [h]
    split
    · rfl
    · split
      · rfl
      · simp only [toLowerASCII, List.map_take, List.map_drop]

theorem nameMatchesOpt_false (v n : Bytes) : nameMatchesOpt false v n = nameMatches (foldCase v) (foldCase n) := by
  rw [foldCase_eq, foldCase_eq, nameMatches, splitNamespace_lower, splitNamespace_lower]
  simp [nameMatchesOpt]

/-- The elements of a level matching a name up to case, as the code collects them. -/
def namedF (o : Ord) (n : Bytes) (xml : Bytes) : List Elem := (topElems o xml).filter (fun e => nameMatches (foldCase n) (foldCase e.name))

theorem namedF_rep {o : Ord} {n xml : Bytes} {i : Info} (h : Reads o xml i) : All2 Rep (namedF o n xml) (i.namedFold n) :=
  All2.filter h (fun _ _ hr => by simp only [hr.name])

theorem namedF_filter (o : Ord) (n : Bytes) (mods : List Bytes) (xml : Bytes) :
    (topElems o xml).filter (fun e => (Seg.mk (.elem (toLowerASCII n)) mods).matchesOpt e.name false) = namedF o n xml := by
  simp only [Seg.matchesOpt, nameMatchesOpt_false]
  rw [namedF, foldCase_eq, foldCase_eq, lower_idem]

/-- A name segment as it is in a case-insensitive query. -/
def lowName (n : Bytes) : Seg := nameSeg (toLowerASCII n)

/-- The contents reached through names up to case, as the code reaches them. -/
def reachF (o : Ord) : List Bytes → Bytes → List Bytes
  | [], xml => [xml]
  | n :: ns, xml => (namedF o n xml).flatMap (fun e => reachF o ns e.content)

theorem reachF_reads {o : Ord} (ho : o.IsPerm) (pre : List Bytes) {xml : Bytes} {i : Info} (h : Reads o xml i) :
    All2 (Reads o) (reachF o pre xml) (i.reachFold pre) := by
  induction pre generalizing xml i with
  | nil => exact .cons h .nil
  | cons n ns ih =>
    simp only [reachF, Info.reachFold]
    exact All2.flatMap (namedF_rep h) (fun a b hr => ih (writes_reads ho hr.content))

theorem execOpt_step (env : Env) (ev : Filter → Elem → Bool) (n m : Bytes) (rest : List Seg) (root : Bool) (xml : Bytes) :
    execQOpt env ev false (lowName n :: nameSeg m :: rest) root xml =
      firstSome (execQOpt env ev false (nameSeg m :: rest) false) ((namedF env.ord n xml).map (·.content)) := by
  rw [execQOpt]
  simp only [execBodyOpt, lowName, nameSeg, Bool.and_false, Bool.false_eq_true, if_false, execElemOpt, namedF_filter]
  generalize namedF env.ord n xml = ms
  induction ms with
  | nil => rfl
  | cons a ms ih => simp only [firstMatchOpt, List.map_cons, firstSome, ih]

theorem execOpt_names (env : Env) (ev : Filter → Elem → Bool) (pre : List Bytes) (hp : pre ≠ []) (n : Bytes) (rest : List Seg) (root : Bool) (xml : Bytes) :
    execQOpt env ev false (pre.map lowName ++ lowName n :: rest) root xml =
      firstSome (execQOpt env ev false (lowName n :: rest) false) (reachF env.ord pre xml) := by
  induction pre generalizing xml root with
  | nil => exact absurd rfl hp
  | cons a ns ih =>
    cases ns with
    | nil =>
      simp only [List.map_cons, List.map_nil, List.cons_append, List.nil_append]
      rw [show lowName n = nameSeg (toLowerASCII n) from rfl, execOpt_step env ev a _ rest root xml]
      simp only [reachF]
      congr 1
      exact List.map_eq_flatMap
    | cons m ms =>
      simp only [List.map_cons, List.cons_append] at ih ⊢
      have := execOpt_step env ev a (toLowerASCII m) (List.map lowName ms ++ lowName n :: rest) root xml
      rw [show nameSeg (toLowerASCII m) = lowName m from rfl] at this
      rw [this, reachF]
      exact firstSome_flatMap _ _ _ _ _ (fun e _ => ih (by simp) false e.content)

theorem execOpt_path {α : Type} {Q : Result → α → Prop} {g : Info → Option α} (env : Env) (ho : env.ord.IsPerm)
    (ev : Filter → Elem → Bool) (pre : List Bytes) (n : Bytes) (rest : List Seg) {xml : Bytes} {i : Info} (h : Reads env.ord xml i)
    (hg : ∀ c k, Reads env.ord c k → Yields Q (execQOpt env ev false (lowName n :: rest) pre.isEmpty c) (g k)) :
    Yields Q (execQOpt env ev false (pre.map lowName ++ lowName n :: rest) true xml) ((i.reachFold pre).findSome? g) := by
  cases pre with
  | nil =>
    simp only [List.map_nil, List.nil_append, Info.reachFold, List.findSome?_cons, List.findSome?_nil]
    have := hg xml i h
    simp only [List.isEmpty_nil] at this
    cases hgi : g i with
    | none => rw [hgi] at this; simpa using this
    | some a => rw [hgi] at this; simpa using this
  | cons m ns =>
    rw [execOpt_names env ev (m :: ns) (by simp) n rest true xml]
    exact firstSome_yields (reachF_reads ho (m :: ns) h) hg

theorem stepOpt_elem (env : Env) (ev : Filter → Elem → Bool) (n : Bytes) (root : Bool) {c : Bytes} {k : Info}
    (h : Reads env.ord c k) : Yields IsElementW (execQOpt env ev false [lowName n] root c) ((k.namedFold n).head?) := by
  have hr := namedF_rep (n := n) h
  rw [execQOpt]
  simp only [execBodyOpt, lowName, nameSeg, Bool.and_false, Bool.false_eq_true, if_false, execElemOpt, namedF_filter]
  generalize namedF env.ord n c = es, k.namedFold n = ns at hr ⊢
  cases hr with
  | nil => exact rfl
  | cons hab _ =>
    rw [firstMatchOpt]
    exact ⟨by simp, ofContent_is hab.content⟩

/-- Get with case-insensitive options on a path of names, a name and final parts. -/
theorem getOpt_path_reads {α : Type} {Q : Result → α → Prop} {g : Info → Option α} (env : Env) (ho : env.ord.IsPerm) {opts : Options} (hc : opts.caseSensitive = false)
    {xml : Bytes} {i : Info} (hx : xml.length ≤ 10485760) (h : Reads env.ord xml i) (pre : List Bytes) (n : Bytes) (parts : List Bytes) (hp : ∀ m ∈ pre ++ [n], PlainName m)
    (hl : pre.length + 1 + parts.length ≤ 100) (ss : List Seg) (hs : parseParts parts = .ok ss)
    (hg : ∀ c k, Reads env.ord c k → Yields Q (execQOpt env (evalFilter env) false (lowName n :: (fuseFields ss).map lowerSeg) pre.isEmpty c) (g k)) :
    ∃ r, getWithOptions env xml (pathOf (pre ++ [n] ++ parts)) (some opts) = .ret r ∧ Yields Q r ((i.reachFold pre).findSome? g) := by
  have hd : maxDocumentSize = 10485760 := rfl
  unfold getWithOptions
  have hdef : isDefaultOptions (some opts) = false := by simp [isDefaultOptions, hc]
  rw [if_neg (by omega), hdef]
  simp only [Bool.false_eq_true, if_false, Option.getD_some, hc, parsePathWithOptions]
  rw [parsePath_names (pre ++ [n]) parts hp (by simp) (by simpa using hl) ss hs]
  simp only
  have e : ((pre ++ [n]).map nameSeg ++ fuseFields ss).map lowerSeg = pre.map lowName ++ lowName n :: (fuseFields ss).map lowerSeg := by
    have hln : (fun x => lowerSeg (nameSeg x)) = lowName := rfl
    simp only [List.map_append, List.map_map, List.map_cons, List.map_nil, Function.comp_def, hln, List.append_assoc, List.cons_append, List.nil_append]
    rfl
  rw [e]
  have hy := execOpt_path env ho (evalFilter env) pre n ((fuseFields ss).map lowerSeg) h hg
  refine ⟨_, ?_, hy⟩
  cases pre <;> rfl

theorem getOpt_path {α : Type} {Q : Result → α → Prop} {g : Info → Option α} (env : Env) (ho : env.ord.IsPerm) {opts : Options} (hc : opts.caseSensitive = false)
    {xml : Bytes} {i : Info} (h : Says xml i) (pre : List Bytes) (n : Bytes) (parts : List Bytes) (hp : ∀ m ∈ pre ++ [n], PlainName m)
    (hl : pre.length + 1 + parts.length ≤ 100) (ss : List Seg) (hs : parseParts parts = .ok ss)
    (hg : ∀ c k, Reads env.ord c k → Yields Q (execQOpt env (evalFilter env) false (lowName n :: (fuseFields ss).map lowerSeg) pre.isEmpty c) (g k)) :
    ∃ r, getWithOptions env xml (pathOf (pre ++ [n] ++ parts)) (some opts) = .ret r ∧ Yields Q r ((i.reachFold pre).findSome? g) :=
  getOpt_path_reads env ho hc h.1 (says_reads ho h) pre n parts hp hl ss hs hg

end Verif
