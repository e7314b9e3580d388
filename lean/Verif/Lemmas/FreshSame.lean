import Verif.Lemmas.Fresh
/- With one order for all visits, the functions of `Model/Fresh` are those of `Model/Get` and `Model/GetOpt`. -/
namespace Verif

/-- The same order at every visit. -/
def Visits.const (o : Ord) : Visits := fun _ => o

theorem const_sub (o : Ord) (t : Nat) (m : Elem) : (Visits.const o).sub t m = Visits.const o := rfl
theorem const_here (o : Ord) : (Visits.const o).here = o := rfl

section
variable (o : Ord) (mods : Bytes → Option (Result → Result)) (pf : Bytes → Option FVal)

theorem fieldExtraction_same (ms : List Elem) (f : Bytes) (names : List Bytes) :
    fieldExtractionF mods (Visits.const o) ms f names = fieldExtraction ⟨o, mods, pf⟩ ms f names := rfl

theorem recLoop_same (inner : Bytes → SearchSt → SearchSt) (tgt : Elem → Bool) (emit : Elem → List Result) (es : List Elem) (st : SearchSt) :
    recLoopF (fun e => inner e.content) tgt emit es st = recLoop inner tgt emit es st := by
  induction es generalizing st with
  | nil => rfl
  | cons e es ih => simp only [recLoopF, recLoop, ih]

theorem recSearch_same (tgt : Elem → Bool) (emit : Visits → Elem → List Result) (n : Nat) (xml : Bytes) (st : SearchSt) :
    recSearchF tgt emit n (Visits.const o) xml st = recSearch o tgt (emit (Visits.const o)) n xml st := by
  induction n generalizing xml st with
  | zero => rfl
  | succ n ih =>
    have e : (fun (e : Elem) => recSearchF tgt emit n ((Visits.const o).sub 1 e) e.content) = fun e => recSearch o tgt (emit (Visits.const o)) n e.content := by
      funext e st; exact ih _ _
    simp only [recSearchF, recSearch, e, const_here]
    rw [recLoop_same (recSearch o tgt (emit (Visits.const o)) n)]

theorem firstMatch_same (cur : Seg) (rest : List Seg) (k : Bytes → Result) (ms : List Elem) :
    firstMatchF mods cur rest (fun e => k e.content) ms = firstMatch ⟨o, mods, pf⟩ cur rest k ms := by
  induction ms with
  | nil => rfl
  | cons m ms ih =>
    simp only [firstMatchF, firstMatch, ih]
    cases rest with
    | nil => rfl
    | cons nxt rest2 => simp only; cases nxt.kind <;> (try rfl) <;> (simp only; split <;> rfl)

theorem handleWildcard_same (ms : List Elem) (rest : List Seg) (k : Bytes → Result) :
    handleWildcardF mods ms rest (fun e => k e.content) = handleWildcard ⟨o, mods, pf⟩ ms rest k := by
  cases rest with
  | nil => rfl
  | cons nxt rest2 =>
    simp only [handleWildcardF, handleWildcard]
    cases nxt.kind <;> simp only
    all_goals (congr 2 <;> (try rfl))

theorem recEmit_same (rest : List Seg) (k : Bytes → Result) :
    recEmitF mods rest (fun _ e => k e.content) (Visits.const o) = recEmit ⟨o, mods, pf⟩ rest k := by
  funext e
  cases rest with
  | nil => rfl
  | cons nxt rest2 =>
    simp only [recEmitF, recEmit, fieldExtraction_same o mods pf]
    cases nxt.kind <;> (try rfl) <;> (simp only; split <;> rfl)

theorem handleRecursive_same (rest : List Seg) (k : Visits → Elem → Result) (q : Bytes → Result) (h : ∀ e, k (Visits.const o) e = q e.content) (xml : Bytes) :
    handleRecursiveF mods (Visits.const o) rest k xml = handleRecursive ⟨o, mods, pf⟩ rest q xml := by
  cases rest with
  | nil => rfl
  | cons tgt rest2 =>
    have he : recEmitF mods rest2 k (Visits.const o) = recEmit ⟨o, mods, pf⟩ rest2 q := by
      rw [← recEmit_same o mods pf]
      funext e
      simp only [recEmitF, h]
    simp only [handleRecursiveF, handleRecursive, recSearch_same, he]
    generalize (recSearch _ _ _ _ _ _).res = l
    cases l <;> rfl

theorem processFirst_same (m : Elem) (seg : Seg) (rest : List Seg) (k : Bytes → Result) :
    processFirstF mods (Visits.const o) m seg rest (fun e => k e.content) = processFirst ⟨o, mods, pf⟩ m seg rest k := by
  cases rest with
  | nil => rfl
  | cons nxt rest2 =>
    simp only [processFirstF, processFirst, fieldExtraction_same o mods pf]
    cases nxt.kind <;> (try rfl) <;> (simp only; split <;> rfl)

theorem processAll_same (ms : List Elem) (seg : Seg) (rest : List Seg) (k : Bytes → Result) :
    processAllF mods (Visits.const o) ms seg rest (fun e => k e.content) = processAll ⟨o, mods, pf⟩ ms seg rest k := by
  cases rest with
  | nil => rfl
  | cons nxt rest2 =>
    simp only [processAllF, processAll, fieldExtraction_same o mods pf]
    cases nxt.kind <;> (try rfl)

theorem routeFilter_same (ms : List Elem) (seg : Seg) (all : Bool) (rest : List Seg) (k : Bytes → Result) :
    routeFilterF mods (Visits.const o) ms seg all rest (fun e => k e.content) = routeFilter ⟨o, mods, pf⟩ ms seg all rest k := by
  cases ms with
  | nil => rfl
  | cons m ms => simp only [routeFilterF, routeFilter, processAll_same o mods pf, processFirst_same o mods pf]

theorem fragmentRoots_same (ms : List Elem) (nxt : Seg) (rest2 : List Seg) (k : Bytes → Result) :
    fragmentRootsF mods (Visits.const o) ms nxt rest2 (fun e => k e.content) = fragmentRoots ⟨o, mods, pf⟩ ms nxt rest2 k := by
  unfold fragmentRootsF fragmentRoots
  split
  · rfl
  · cases nxt.kind <;> (try rfl)

theorem arrayOp_same (ms : List Elem) (nxt : Seg) (rest2 : List Seg) (k : Bytes → Result) :
    arrayOpF mods ms nxt rest2 (fun e => k e.content) = arrayOp ⟨o, mods, pf⟩ ms nxt rest2 k := by
  unfold arrayOpF arrayOp
  split
  · rfl
  · cases nxt.kind <;> (try rfl)

theorem execElem_same (ev : Visits → Filter → Elem → Bool) (cur : Seg) (rest : List Seg) (k1 k2 : Bytes → Result) (xml : Bytes) :
    execElemF mods (Visits.const o) ev cur rest (fun e => k1 e.content) (fun e => k2 e.content) xml =
      execElem ⟨o, mods, pf⟩ (ev (Visits.const o)) cur rest k1 k2 xml := by
  unfold execElemF execElem
  cases rest with
  | nil => exact firstMatch_same o mods pf cur _ k1 _
  | cons nxt rest2 =>
    simp only [firstMatch_same o mods pf, arrayOp_same o mods pf, routeFilter_same o mods pf, fieldExtraction_same o mods pf, const_sub, const_here]
    cases nxt.kind <;> rfl

theorem execBody_same (ev : Visits → Filter → Elem → Bool) (root : Bool) (cur : Seg) (rest : List Seg) (k1 k2 : Visits → Elem → Result) (q1 q2 : Bytes → Result)
    (h1 : ∀ e, k1 (Visits.const o) e = q1 e.content) (h2 : ∀ e, k2 (Visits.const o) e = q2 e.content) (xml : Bytes) :
    execBodyF mods (Visits.const o) ev root cur rest k1 k2 xml = execBody ⟨o, mods, pf⟩ (ev (Visits.const o)) root cur rest q1 q2 xml := by
  unfold execBodyF execBody
  simp only [const_sub, const_here, h1, h2, execElem_same o mods pf, routeFilter_same o mods pf, fragmentRoots_same o mods pf]
  cases cur.kind with
  | wild rec =>
    cases rec with
    | true => simp only; rw [handleRecursive_same o mods pf rest (fun os e => k2 (os.sub 4 e) e) q2 (fun e => h2 e)]
    | false =>
      simp only [handleWildcard_same o mods pf]
  | elem v => simp only; split <;> (try rfl) <;> cases rest <;> rfl
  | _ => rfl

theorem execQ_same (ev : Visits → Filter → Elem → Bool) : ∀ (ss : List Seg) (root : Bool) (xml : Bytes),
    execQF mods ev ss root (Visits.const o) xml = execQ ⟨o, mods, pf⟩ (ev (Visits.const o)) ss root xml
  | [], _, _ => by rw [execQF, execQ]
  | [cur], root, xml => by
    rw [execQF, execQ]; exact execBody_same o mods pf ev root cur [] _ _ _ _ (fun _ => rfl) (fun _ => rfl) xml
  | cur :: nxt :: rest, root, xml => by
    rw [execQF, execQ]
    exact execBody_same o mods pf ev root cur (nxt :: rest) _ _ _ _ (fun e => execQ_same ev (nxt :: rest) false e.content) (fun e => execQ_same ev rest false e.content) xml
termination_by ss => ss.length

theorem evalFilterN_same (n : Nat) : evalFilterNF mods pf n (Visits.const o) = evalFilterN ⟨o, mods, pf⟩ n := by
  induction n with
  | zero => rfl
  | succ n ih =>
    funext f m
    simp only [evalFilterNF, evalFilterN, execQ_same o mods pf, ih]
    cases parsePath f.path <;> rfl

theorem evalFilter_same : evalFilterF mods pf (Visits.const o) = evalFilter ⟨o, mods, pf⟩ := by
  funext f m; simp only [evalFilterF, evalFilter, evalFilterN_same]

theorem executeQuery_same (ss : List Seg) (xml : Bytes) : executeQueryF mods pf (Visits.const o) ss xml = executeQuery ⟨o, mods, pf⟩ ss xml := by
  simp only [executeQueryF, executeQuery, execQ_same o mods pf, evalFilter_same]

theorem fieldExtractionOpt_same (cs : Bool) (ms : List Elem) (f : Bytes) (names : List Bytes) :
    fieldExtractionOptF mods (Visits.const o) cs ms f names = fieldExtractionOpt ⟨o, mods, pf⟩ cs ms f names := rfl

theorem firstMatchOpt_same (cs : Bool) (rest : List Seg) (k : Bytes → Result) (ms : List Elem) :
    firstMatchOptF (Visits.const o) cs rest (fun e => k e.content) ms = firstMatchOpt ⟨o, mods, pf⟩ cs rest k ms := by
  induction ms with
  | nil => rfl
  | cons m ms ih =>
    simp only [firstMatchOptF, firstMatchOpt, ih]
    cases rest with
    | nil => rfl
    | cons nxt rest2 => simp only; cases nxt.kind <;> rfl

theorem handleWildcardOpt_same (cs : Bool) (ms : List Elem) (rest : List Seg) (k : Bytes → Result) :
    handleWildcardOptF mods (Visits.const o) cs ms rest (fun e => k e.content) = handleWildcardOpt ⟨o, mods, pf⟩ cs ms rest k := by
  cases rest with
  | nil => rfl
  | cons nxt rest2 =>
    simp only [handleWildcardOptF, handleWildcardOpt]
    cases nxt.kind <;> simp only
    all_goals (congr 2 <;> (try rfl))

theorem recEmitOpt_same (cs : Bool) (rest : List Seg) (k : Bytes → Result) :
    recEmitOptF cs rest (fun _ e => k e.content) (Visits.const o) = recEmitOpt ⟨o, mods, pf⟩ cs rest k := by
  funext e
  cases rest with
  | nil => rfl
  | cons nxt rest2 =>
    simp only [recEmitOptF, recEmitOpt]
    cases nxt.kind <;> rfl

theorem handleRecursiveOpt_same (cs : Bool) (rest : List Seg) (k : Visits → Elem → Result) (q : Bytes → Result) (h : ∀ e, k (Visits.const o) e = q e.content) (xml : Bytes) :
    handleRecursiveOptF (Visits.const o) cs rest k xml = handleRecursiveOpt ⟨o, mods, pf⟩ cs rest q xml := by
  cases rest with
  | nil => rfl
  | cons tgt rest2 =>
    have he : recEmitOptF cs rest2 k (Visits.const o) = recEmitOpt ⟨o, mods, pf⟩ cs rest2 q := by
      rw [← recEmitOpt_same o mods pf]
      funext e
      simp only [recEmitOptF, h]
    simp only [handleRecursiveOptF, handleRecursiveOpt, recSearch_same, he]
    generalize (recSearch _ _ _ _ _ _).res = l
    cases l <;> rfl

theorem processFirstOpt_same (cs : Bool) (m : Elem) (seg : Seg) (rest : List Seg) (k : Bytes → Result) :
    processFirstOptF mods (Visits.const o) cs m seg rest (fun e => k e.content) = processFirstOpt ⟨o, mods, pf⟩ cs m seg rest k := by
  cases rest with
  | nil => rfl
  | cons nxt rest2 =>
    simp only [processFirstOptF, processFirstOpt, fieldExtractionOpt_same o mods pf]
    cases nxt.kind <;> rfl

theorem processAllOpt_same (cs : Bool) (ms : List Elem) (seg : Seg) (rest : List Seg) (k : Bytes → Result) :
    processAllOptF mods (Visits.const o) cs ms seg rest (fun e => k e.content) = processAllOpt ⟨o, mods, pf⟩ cs ms seg rest k := by
  cases rest with
  | nil => rfl
  | cons nxt rest2 =>
    simp only [processAllOptF, processAllOpt, fieldExtractionOpt_same o mods pf]
    cases nxt.kind <;> rfl

theorem routeFilterOpt_same (cs : Bool) (ms : List Elem) (seg : Seg) (all : Bool) (rest : List Seg) (k : Bytes → Result) :
    routeFilterOptF mods (Visits.const o) cs ms seg all rest (fun e => k e.content) = routeFilterOpt ⟨o, mods, pf⟩ cs ms seg all rest k := by
  cases ms with
  | nil => rfl
  | cons m ms => simp only [routeFilterOptF, routeFilterOpt, processAllOpt_same o mods pf, processFirstOpt_same o mods pf]

theorem fragmentRootsOpt_same (ms : List Elem) (nxt : Seg) (rest2 : List Seg) (k : Bytes → Result) :
    fragmentRootsOptF mods (Visits.const o) ms nxt rest2 (fun e => k e.content) = fragmentRootsOpt ⟨o, mods, pf⟩ ms nxt rest2 k := by
  unfold fragmentRootsOptF fragmentRootsOpt
  split
  · rfl
  · cases nxt.kind <;> rfl

theorem arrayOpOpt_same (cs : Bool) (ms : List Elem) (nxt : Seg) (rest2 : List Seg) (k : Bytes → Result) :
    arrayOpOptF (Visits.const o) cs ms nxt rest2 (fun e => k e.content) = arrayOpOpt ⟨o, mods, pf⟩ cs ms nxt rest2 k := by
  unfold arrayOpOptF arrayOpOpt
  split
  · rfl
  · cases nxt.kind <;> rfl

theorem execElemOpt_same (ev : Visits → Filter → Elem → Bool) (cs : Bool) (cur : Seg) (rest : List Seg) (k1 k2 : Bytes → Result) (xml : Bytes) :
    execElemOptF mods (Visits.const o) ev cs cur rest (fun e => k1 e.content) (fun e => k2 e.content) xml =
      execElemOpt ⟨o, mods, pf⟩ (ev (Visits.const o)) cs cur rest k1 k2 xml := by
  unfold execElemOptF execElemOpt
  cases rest with
  | nil => exact firstMatchOpt_same o mods pf cs _ k1 _
  | cons nxt rest2 =>
    simp only [firstMatchOpt_same o mods pf, arrayOpOpt_same o mods pf, routeFilterOpt_same o mods pf, fieldExtractionOpt_same o mods pf, const_sub, const_here]
    cases nxt.kind <;> rfl

theorem execBodyOpt_same (ev : Visits → Filter → Elem → Bool) (cs root : Bool) (cur : Seg) (rest : List Seg) (k1 k2 : Visits → Elem → Result) (q1 q2 : Bytes → Result)
    (h1 : ∀ e, k1 (Visits.const o) e = q1 e.content) (h2 : ∀ e, k2 (Visits.const o) e = q2 e.content) (xml : Bytes) :
    execBodyOptF mods (Visits.const o) ev cs root cur rest k1 k2 xml = execBodyOpt ⟨o, mods, pf⟩ (ev (Visits.const o)) cs root cur rest q1 q2 xml := by
  unfold execBodyOptF execBodyOpt
  simp only [const_sub, const_here, h1, h2, execElemOpt_same o mods pf, routeFilterOpt_same o mods pf, fragmentRootsOpt_same o mods pf]
  cases cur.kind with
  | wild rec =>
    cases rec with
    | true => simp only; rw [handleRecursiveOpt_same o mods pf cs rest (fun os e => k2 (os.sub 4 e) e) q2 (fun e => h2 e)]
    | false =>
      simp only [handleWildcardOpt_same o mods pf]
  | elem v => simp only; split <;> (try rfl) <;> cases rest <;> rfl
  | _ => rfl

theorem execQOpt_same (ev : Visits → Filter → Elem → Bool) (cs : Bool) : ∀ (ss : List Seg) (root : Bool) (xml : Bytes),
    execQOptF mods ev cs ss root (Visits.const o) xml = execQOpt ⟨o, mods, pf⟩ (ev (Visits.const o)) cs ss root xml
  | [], _, _ => by rw [execQOptF, execQOpt]
  | [cur], root, xml => by
    rw [execQOptF, execQOpt]; exact execBodyOpt_same o mods pf ev cs root cur [] _ _ _ _ (fun _ => rfl) (fun _ => rfl) xml
  | cur :: nxt :: rest, root, xml => by
    rw [execQOptF, execQOpt]
    exact execBodyOpt_same o mods pf ev cs root cur (nxt :: rest) _ _ _ _ (fun e => execQOpt_same ev cs (nxt :: rest) false e.content)
      (fun e => execQOpt_same ev cs rest false e.content) xml
termination_by ss => ss.length

end
end Verif
