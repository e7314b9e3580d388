import Verif.Lemmas.Astray
import Verif.Model.GetOpt
/- The same as in Lemmas/Astray.lean, for the query engine with options. -/
namespace Verif

theorem handleRecursive_idleO {env : Env} {cs : Bool} {tgt : Seg} {rest : List Seg} {k : Bytes → Result} (h : ∀ e, tgt.matchesOpt e.name cs = true → recEmitOpt env cs rest k e = []) (xml : Bytes) :
    handleRecursiveOpt env cs (tgt :: rest) k xml = .null := by
  simp only [handleRecursiveOpt]
  rw [recSearch_idle h]

theorem execQ_cons2O (env : Env) (cs : Bool) (ev : Filter → Elem → Bool) (c d : Seg) (r : List Seg) (root : Bool) (xml : Bytes) :
    execQOpt env ev cs (c :: d :: r) root xml = execBodyOpt env ev cs root c (d :: r) (execQOpt env ev cs (d :: r) false) (execQOpt env ev cs r false) xml := rfl

theorem execQ_headO (env : Env) (cs : Bool) (ev : Filter → Elem → Bool) (c : Seg) (r : List Seg) (root : Bool) (xml : Bytes) :
    ∃ k1 k2, execQOpt env ev cs (c :: r) root xml = execBodyOpt env ev cs root c r k1 k2 xml := by
  cases r with
  | nil => exact ⟨_, _, rfl⟩
  | cons d r => exact ⟨_, _, rfl⟩

/-- What `executeQuery` does with a segment that needs an element to apply to. -/
theorem execQ_looseO {env : Env} {cs : Bool} {ev : Filter → Elem → Bool} {c : Seg} (r : List Seg) (root : Bool) (xml : Bytes) :
    ((∃ a, c.kind = .attr a) → execQOpt env ev cs (c :: r) root xml = .null) ∧ (c.kind = .text → execQOpt env ev cs (c :: r) root xml = .null) ∧
    (c.kind = .count → execQOpt env ev cs (c :: r) root xml = .null) ∧ ((∃ i, c.kind = .index i) → execQOpt env ev cs (c :: r) root xml = .null) ∧
    ((∃ f, c.kind = .field f) → execQOpt env ev cs (c :: r) root xml = .ofArray []) := by
  obtain ⟨k1, k2, e⟩ := execQ_headO env cs ev c r root xml
  rw [e]
  refine ⟨?_, ?_, ?_, ?_, ?_⟩
  · rintro ⟨a, h⟩; simp [execBodyOpt, h]
  · intro h; simp [execBodyOpt, h]
  · intro h; simp [execBodyOpt, h]
  · rintro ⟨a, h⟩; simp [execBodyOpt, h]
  · rintro ⟨a, h⟩; simp [execBodyOpt, h]

theorem matches_shutO {cs : Bool} {s : Seg} (h : s.shut) (n : Bytes) : s.matchesOpt n cs = false := by
  rcases h with h | h | ⟨f, h⟩ <;> simp [Seg.matchesOpt, h]

theorem handleWildcard_sameO {env : Env} {cs : Bool} {ms : List Elem} {r r' : List Seg} (h : Alike r r') (k : Bytes → Result) : handleWildcardOpt env cs ms r k = handleWildcardOpt env cs ms r' k := by
  obtain ⟨x, t, t', rfl, rfl, h⟩ := h
  simp only [handleWildcardOpt]
  rcases h with h | h
  · rw [h]
  · cases hx : x.kind <;> first | rfl | exact absurd hx (h _)

theorem recEmit_sameO {env : Env} {cs : Bool} {r r' : List Seg} (h : Alike r r') (k : Bytes → Result) : recEmitOpt env cs r k = recEmitOpt env cs r' k := by
  obtain ⟨x, t, t', rfl, rfl, h⟩ := h
  funext e
  simp only [recEmitOpt]
  rcases h with h | h
  · rw [h]
  · cases hx : x.kind <;> first | rfl | exact absurd hx (h _)

theorem processFirst_sameO {env : Env} {cs : Bool} {m : Elem} {seg : Seg} {r r' : List Seg} (h : Alike r r') (k : Bytes → Result) : processFirstOpt env cs m seg r k = processFirstOpt env cs m seg r' k := by
  obtain ⟨x, t, t', rfl, rfl, h⟩ := h
  rfl

theorem routeFilter_sameO {env : Env} {cs : Bool} {ms : List Elem} {seg : Seg} {all : Bool} {r r' : List Seg} (h : Alike r r') (k : Bytes → Result) :
    routeFilterOpt env cs ms seg all r k = routeFilterOpt env cs ms seg all r' k := by
  obtain ⟨x, t, t', rfl, rfl, h⟩ := h
  rfl

theorem fragmentRoots_sameO {env : Env} {ms : List Elem} {d : Seg} {r r' : List Seg} (h : Alike r r') (k : Bytes → Result) : fragmentRootsOpt env ms d r k = fragmentRootsOpt env ms d r' k := by
  obtain ⟨x, t, t', rfl, rfl, h⟩ := h
  rfl

theorem arrayOp_sameO {env : Env} {cs : Bool} {ms : List Elem} {d : Seg} {r r' : List Seg} (h : Alike r r') (k : Bytes → Result) : arrayOpOpt env cs ms d r k = arrayOpOpt env cs ms d r' k := by
  obtain ⟨x, t, t', rfl, rfl, h⟩ := h
  rfl

theorem firstMatch_sameO {env : Env} {cs : Bool} {r r' : List Seg} (h : Alike r r') (k : Bytes → Result) (ms : List Elem) : firstMatchOpt env cs r k ms = firstMatchOpt env cs r' k ms := by
  obtain ⟨x, t, t', rfl, rfl, h⟩ := h
  induction ms with
  | nil => rfl
  | cons m ms ih =>
    simp only [firstMatchOpt, ih]
    rcases h with h | h
    · rw [h]
    · cases hx : x.kind <;> first | rfl | exact absurd hx (h _)

/-- One step, when the rests agree up to what is looked at. -/
theorem execBody_sameO {env : Env} {cs : Bool} {ev : Filter → Elem → Bool} {root : Bool} {c d : Seg} {r r' : List Seg} (h : Alike r r') (k1 k2 : Bytes → Result) (xml : Bytes) :
    execBodyOpt env ev cs root c (d :: r) k1 k2 xml = execBodyOpt env ev cs root c (d :: r') k1 k2 xml := by
  have h2 : Alike (d :: r) (d :: r') := by
    obtain ⟨x, t, t', rfl, rfl, -⟩ := h
    exact ⟨d, _, _, rfl, rfl, .inl rfl⟩
  simp only [execBodyOpt, execElemOpt, handleRecursiveOpt, fragmentRoots_sameO h, arrayOp_sameO h, routeFilter_sameO h, recEmit_sameO h, routeFilter_sameO h2, firstMatch_sameO h2,
    handleWildcard_sameO h2, isFragmentQuery]
  rfl

/-- Whatever follows own text, a count or fields is not looked at. -/
theorem execQ_shutO {env : Env} {cs : Bool} {ev : Filter → Elem → Bool} {p : Seg} (hp : p.shut) (rest : List Seg) (pre : List Seg) :
    ∀ (root : Bool) (xml : Bytes), execQOpt env ev cs (pre ++ p :: rest) root xml = execQOpt env ev cs (pre ++ [p]) root xml := by
  have hna : ∀ a, p.kind ≠ .attr a := by intro a e; rcases hp with h | h | ⟨f, h⟩ <;> rw [h] at e <;> cases e
  have key : ∀ n (pre : List Seg), pre.length ≤ n → ∀ (root : Bool) (xml : Bytes), execQOpt env ev cs (pre ++ p :: rest) root xml = execQOpt env ev cs (pre ++ [p]) root xml := by
    intro n
    induction n with
    | zero =>
      intro pre hl root xml
      obtain rfl := List.eq_nil_of_length_eq_zero (Nat.le_zero.mp hl)
      simp only [List.nil_append]
      have h1 := execQ_looseO (env := env) (cs := cs) (ev := ev) (c := p) rest root xml
      have h2 := execQ_looseO (env := env) (cs := cs) (ev := ev) (c := p) [] root xml
      rcases hp with h | h | h
      · rw [h1.2.1 h, h2.2.1 h]
      · rw [h1.2.2.1 h, h2.2.2.1 h]
      · rw [h1.2.2.2.2 h, h2.2.2.2.2 h]
    | succ n ih =>
      intro pre hl root xml
      match pre with
      | [] => exact ih [] (by simp) root xml
      | [c] =>
        have hk : execQOpt env ev cs (p :: rest) false = execQOpt env ev cs [p] false := funext fun x => ih [] (by simp) false x
        have h2 : Alike (p :: rest) [p] := ⟨p, _, _, rfl, rfl, .inr hna⟩
        simp only [List.cons_append, List.nil_append, execQ_cons2O, hk]
        simp only [execBodyOpt, execElemOpt, handleRecursive_idleO (cs := cs) (tgt := p) (fun e he => absurd he (by rw [matches_shutO hp]; simp)), routeFilter_sameO h2, firstMatch_sameO h2,
          handleWildcard_sameO h2, isFragmentQuery]
        rcases hp with h | h | ⟨f, h⟩ <;> simp only [h, arrayOpOpt, fragmentRootsOpt] <;> rfl
      | c :: d :: pre' =>
        simp only [List.length_cons] at hl
        have hk1 : execQOpt env ev cs (d :: (pre' ++ p :: rest)) false = execQOpt env ev cs (d :: (pre' ++ [p])) false := funext fun x => ih (d :: pre') (by simp; omega) false x
        have hk2 : execQOpt env ev cs (pre' ++ p :: rest) false = execQOpt env ev cs (pre' ++ [p]) false := funext fun x => ih pre' (by omega) false x
        simp only [List.cons_append, execQ_cons2O, hk1, hk2]
        refine execBody_sameO ?_ _ _ _
        cases pre' with
        | nil => exact ⟨p, _, _, rfl, rfl, .inr hna⟩
        | cons x t => exact ⟨x, _, _, rfl, rfl, .inl (by cases t <;> rfl)⟩
  exact key _ pre (Nat.le_refl _)

/-- What follows an attribute is not looked at, if before it there is a filter or an index. -/
theorem execQ_attr_keptO {env : Env} {cs : Bool} {ev : Filter → Elem → Bool} {p d : Seg} {a : Bytes} (hp : p.kind = .attr a)
    (hd : (∃ f all, d.kind = .filter f all) ∨ ∃ i, d.kind = .index i) (rest : List Seg) (pre : List Seg) :
    ∀ (root : Bool) (xml : Bytes), execQOpt env ev cs (pre ++ d :: p :: rest) root xml = execQOpt env ev cs (pre ++ [d, p]) root xml := by
  have hm : ∀ n, d.matchesOpt n cs = false := by intro n; rcases hd with ⟨f, all, h⟩ | ⟨i, h⟩ <;> simp [Seg.matchesOpt, h]
  have hal : Alike (d :: p :: rest) [d, p] := ⟨d, _, _, rfl, rfl, .inl rfl⟩
  have key : ∀ n (pre : List Seg), pre.length ≤ n → ∀ (root : Bool) (xml : Bytes), execQOpt env ev cs (pre ++ d :: p :: rest) root xml = execQOpt env ev cs (pre ++ [d, p]) root xml := by
    intro n
    induction n with
    | zero =>
      intro pre hl root xml
      obtain rfl := List.eq_nil_of_length_eq_zero (Nat.le_zero.mp hl)
      simp only [List.nil_append]
      rcases hd with ⟨f, all, h⟩ | ⟨i, h⟩
      · simp only [execQ_cons2O]
        simp only [execBodyOpt, h, routeFilterOpt, processFirstOpt, processAllOpt, hp]
      · rw [(execQ_looseO _ _ _).2.2.2.1 ⟨i, h⟩, (execQ_looseO _ _ _).2.2.2.1 ⟨i, h⟩]
    | succ n ih =>
      intro pre hl root xml
      match pre with
      | [] => exact ih [] (by simp) root xml
      | [c] =>
        have hk : execQOpt env ev cs (d :: p :: rest) false = execQOpt env ev cs [d, p] false := funext fun x => ih [] (by simp) false x
        have hk2 : execQOpt env ev cs (p :: rest) false = execQOpt env ev cs [p] false := by
          funext x
          rw [(execQ_looseO _ _ _).1 ⟨a, hp⟩, (execQ_looseO _ _ _).1 ⟨a, hp⟩]
        simp only [List.cons_append, List.nil_append, execQ_cons2O env cs ev c, hk, hk2]
        simp only [execBodyOpt, execElemOpt, handleRecursive_idleO (tgt := d) (fun e he => absurd he (by rw [hm]; simp)), routeFilter_sameO hal, firstMatch_sameO hal, handleWildcard_sameO hal,
          isFragmentQuery]
        rcases hd with ⟨f, all, h⟩ | ⟨i, h⟩
        · simp only [h, SegKind.isRootOp, routeFilterOpt, processFirstOpt, processAllOpt, hp]
          rfl
        · simp only [h, arrayOpOpt, fragmentRootsOpt, hp]
      | c :: e :: pre' =>
        simp only [List.length_cons] at hl
        have hk1 : execQOpt env ev cs (e :: (pre' ++ d :: p :: rest)) false = execQOpt env ev cs (e :: (pre' ++ [d, p])) false := funext fun x => ih (e :: pre') (by simp; omega) false x
        have hk2 : execQOpt env ev cs (pre' ++ d :: p :: rest) false = execQOpt env ev cs (pre' ++ [d, p]) false := funext fun x => ih pre' (by omega) false x
        simp only [List.cons_append, execQ_cons2O env cs ev c, hk1, hk2]
        refine execBody_sameO ?_ _ _ _
        cases pre' with
        | nil => exact hal
        | cons x t => exact ⟨x, _, _, rfl, rfl, .inl (by cases t <;> rfl)⟩
  exact key _ pre (Nat.le_refl _)

/-! ### paths that find nothing -/

/-- The segments find nothing, in any content. -/
def DeadO (env : Env) (cs : Bool) (ev : Filter → Elem → Bool) (ss : List Seg) : Prop := ∀ root xml, execQOpt env ev cs ss root xml = .null

theorem firstMatch_nullO {env : Env} {cs : Bool} {d : Seg} (hd : d.step) (r : List Seg) {k : Bytes → Result} (hk : ∀ x, k x = .null) (ms : List Elem) : firstMatchOpt env cs (d :: r) k ms = .null := by
  induction ms with
  | nil => rfl
  | cons m ms ih => rcases hd with ⟨n, h⟩ | ⟨n, h⟩ | ⟨n, h⟩ | ⟨f, all, h⟩ <;> simp [firstMatchOpt, h, hk, ih, Result.null]

theorem handleWildcard_nullO {env : Env} {cs : Bool} {d : Seg} (hd : d.step) (r : List Seg) {k : Bytes → Result} (hk : ∀ x, k x = .null) (ms : List Elem) : handleWildcardOpt env cs ms (d :: r) k = .null := by
  have h1 : ∀ l : List Elem, l.flatMap (fun _ => ([] : List Result)) = [] := by simp
  rcases hd with ⟨n, h⟩ | ⟨n, h⟩ | ⟨n, h⟩ | ⟨f, all, h⟩ <;> simp [handleWildcardOpt, h, hk, asList_null] <;> simp [Result.null]

theorem routeFilter_nullO {env : Env} {cs : Bool} {d : Seg} (hd : d.step) (r : List Seg) {k : Bytes → Result} (hk : ∀ x, k x = .null) (ms : List Elem) (seg : Seg) (all : Bool) :
    routeFilterOpt env cs ms seg all (d :: r) k = .null := by
  unfold routeFilterOpt
  cases ms with
  | nil => rfl
  | cons m ms =>
    cases all <;> rcases hd with ⟨n, h⟩ | ⟨n, h⟩ | ⟨n, h⟩ | ⟨f, all, h⟩ <;> simp [processFirstOpt, processAllOpt, h, hk, asList_null]

theorem recEmit_nullO {env : Env} {cs : Bool} {d : Seg} (hd : d.step) (r : List Seg) {k : Bytes → Result} (hk : ∀ x, k x = .null) (e : Elem) : recEmitOpt env cs (d :: r) k e = [] := by
  rcases hd with ⟨n, h⟩ | ⟨n, h⟩ | ⟨n, h⟩ | ⟨f, all, h⟩ <;> simp [recEmitOpt, h, hk, asList_null]

theorem arrayOp_nullO {env : Env} {cs : Bool} {d s : Seg} (hd : ∃ i, d.kind = .index i) (hs : s.step) (r : List Seg) {k : Bytes → Result} (hk : ∀ x, k x = .null) (ms : List Elem) :
    arrayOpOpt env cs ms d (s :: r) k = .null ∧ fragmentRootsOpt env ms d (s :: r) k = .null := by
  obtain ⟨i, hd⟩ := hd
  constructor
  · rcases hs with ⟨n, h⟩ | ⟨n, h⟩ | ⟨n, h⟩ | ⟨f, all, h⟩ <;> simp only [arrayOpOpt, hd, h, hk] <;> (repeat' split) <;> rfl
  · rcases hs with ⟨n, h⟩ | ⟨n, h⟩ | ⟨n, h⟩ | ⟨f, all, h⟩ <;> simp only [fragmentRootsOpt, hd, h, hk] <;> (repeat' split) <;> rfl

/-- One step further up, before a name or a wildcard. -/
theorem execBody_nullO {env : Env} {cs : Bool} {ev : Filter → Elem → Bool} {root : Bool} {c d : Seg} (hc : c.step) (hw : c.kind ≠ .wild true)
    (hd : (∃ n, d.kind = .elem n) ∨ ∃ b, d.kind = .wild b) (r : List Seg) {k1 k2 : Bytes → Result} (hk : ∀ x, k1 x = .null) (xml : Bytes) :
    execBodyOpt env ev cs root c (d :: r) k1 k2 xml = .null := by
  have hs : d.step := by rcases hd with h | h; exact .inl h; exact .inr (.inr (.inl h))
  have hf : isFragmentQuery root (d :: r) = false := by
    rcases hd with ⟨n, h⟩ | ⟨b, h⟩ <;> simp [isFragmentQuery, h, SegKind.isRootOp]
  rcases hc with ⟨n, h⟩ | ⟨i, h⟩ | ⟨b, h⟩ | ⟨f, all, h⟩
  · simp only [execBodyOpt, h, hf, execElemOpt]
    rcases hd with ⟨n, h2⟩ | ⟨b, h2⟩ <;> simp only [h2, firstMatch_nullO hs r hk] <;> rfl
  · simp only [execBodyOpt, h]
  · cases b with
    | true => exact absurd h hw
    | false =>
      simp only [execBodyOpt, h, handleWildcard_nullO hs r hk]
      split
      · rfl
      · rfl
  · simp only [execBodyOpt, h, routeFilter_nullO hs r hk]

/-- One step further up, with two steps below. -/
theorem execBody_null2O {env : Env} {cs : Bool} {ev : Filter → Elem → Bool} {root : Bool} {c d s : Seg} (hc : c.step) (hd : d.step) (hs : s.step) (r : List Seg) {k1 k2 : Bytes → Result}
    (hk : ∀ x, k1 x = .null) (hk2 : ∀ x, k2 x = .null) (xml : Bytes) : execBodyOpt env ev cs root c (d :: s :: r) k1 k2 xml = .null := by
  rcases hc with ⟨n, h⟩ | ⟨i, h⟩ | ⟨b, h⟩ | ⟨f, all, h⟩
  · simp only [execBodyOpt, h]
    split
    · rename_i hf
      rcases hd with ⟨n, h2⟩ | ⟨i, h2⟩ | ⟨b, h2⟩ | ⟨f, all, h2⟩
      · simp [isFragmentQuery, h2, SegKind.isRootOp] at hf
      · exact (arrayOp_nullO (cs := cs) ⟨i, h2⟩ hs r hk2 _).2
      · simp [isFragmentQuery, h2, SegKind.isRootOp] at hf
      · simp [isFragmentQuery, h2, SegKind.isRootOp] at hf
    · simp only [execElemOpt]
      have hdd := hd
      rcases hd with ⟨n, h2⟩ | ⟨i, h2⟩ | ⟨b, h2⟩ | ⟨f, all, h2⟩
      · simp only [h2, firstMatch_nullO hdd _ hk]
      · simp only [h2]; exact (arrayOp_nullO ⟨i, h2⟩ hs r hk2 _).1
      · simp only [h2, firstMatch_nullO hdd _ hk]
      · simp only [h2, routeFilter_nullO hs r hk2]
  · simp only [execBodyOpt, h]
  · cases b with
    | true => simp only [execBodyOpt, h]; exact handleRecursive_idleO (fun e _ => recEmit_nullO hs r hk2 e) xml
    | false =>
      simp only [execBodyOpt, h, handleWildcard_nullO hd _ hk]
      split
      · rfl
      · rfl
  · simp only [execBodyOpt, h, routeFilter_nullO hd _ hk]

theorem dead_preO {env : Env} {cs : Bool} {ev : Filter → Elem → Bool} {d s : Seg} {t : List Seg} (hs : s.step) (hd : d.step) (h1 : DeadO env cs ev (s :: t)) (h2 : DeadO env cs ev (d :: s :: t))
    (pre : List Seg) (hp : ∀ c ∈ pre, c.step) : DeadO env cs ev (pre ++ d :: s :: t) := by
  have : ∀ pre : List Seg, (∀ c ∈ pre, c.step) → ∃ x y r, pre ++ d :: s :: t = x :: y :: r ∧ x.step ∧ y.step ∧ DeadO env cs ev (x :: y :: r) ∧ DeadO env cs ev (y :: r) := by
    intro pre
    induction pre with
    | nil => intro _; exact ⟨d, s, t, rfl, hd, hs, h2, h1⟩
    | cons c pre ih =>
      intro hp
      obtain ⟨x, y, r, e, hx, hy, hxy, hyr⟩ := ih fun c hc => hp c (by simp [hc])
      refine ⟨c, x, y :: r, by rw [List.cons_append, e], hp c (by simp), hx, fun root xml => ?_, hxy⟩
      rw [execQ_cons2O]
      exact execBody_null2O (hp c (by simp)) hx hy r (fun z => hxy false z) (fun z => hyr false z) xml
  obtain ⟨x, y, r, e, -, -, h, -⟩ := this pre hp
  rw [e]; exact h

theorem dead_indexO {env : Env} {cs : Bool} {ev : Filter → Elem → Bool} {p : Seg} (hp : ∃ i, p.kind = .index i) (rest : List Seg) : DeadO env cs ev (p :: rest) :=
  fun root xml => (execQ_looseO rest root xml).2.2.2.1 hp

/-- An attribute with something after it, below a name or a wildcard. -/
theorem dead_attrO {env : Env} {cs : Bool} {ev : Filter → Elem → Bool} {p d : Seg} {a : Bytes} (hp : p.kind = .attr a) (hd : (∃ n, d.kind = .elem n) ∨ ∃ b, d.kind = .wild b) {rest : List Seg} (hr : rest ≠ [])
    (pre : List Seg) (hs : ∀ c ∈ pre, c.step) : DeadO env cs ev (pre ++ d :: p :: rest) := by
  have hds : d.step := by rcases hd with h | h; exact .inl h; exact .inr (.inr (.inl h))
  have hre : rest.isEmpty = false := by simpa using hr
  have h1 : DeadO env cs ev (d :: p :: rest) := by
    intro root xml
    rw [execQ_cons2O]
    rcases hd with ⟨n, h⟩ | ⟨b, h⟩
    · have hfm : ∀ (k : Bytes → Result) (ms : List Elem), firstMatchOpt env cs (p :: rest) k ms = .null := by
        intro k ms
        cases ms with
        | nil => rfl
        | cons m ms => simp only [firstMatchOpt, hp, hre]; split <;> rfl
      simp only [execBodyOpt, h, isFragmentQuery, hp, SegKind.isRootOp, Bool.and_false, execElemOpt, hfm]
      rfl
    · cases b with
      | true => simp only [execBodyOpt, h]; exact handleRecursive_idleO (fun e he => by simp [Seg.matchesOpt, hp] at he) xml
      | false =>
        simp only [execBodyOpt, h]
        split
        · rfl
        · simp [handleWildcardOpt, hp, hre]
  have h2 : ∀ c : Seg, c.step → DeadO env cs ev (c :: d :: p :: rest) := by
    intro c hc root xml
    rw [execQ_cons2O]
    by_cases hw : c.kind = .wild true
    · simp only [execBodyOpt, hw]
      refine handleRecursive_idleO (fun e _ => ?_) xml
      simp [recEmitOpt, hp, hre]
    · exact execBody_nullO hc hw hd _ (fun z => h1 false z) xml
  rcases pre.eq_nil_or_concat with rfl | ⟨q, c, rfl⟩
  · exact h1
  · rw [List.concat_eq_append] at hs ⊢
    rw [List.append_assoc]
    exact dead_preO hds (hs c (by simp)) h1 (h2 c (hs c (by simp))) q fun x hx => hs x (by simp [hx])

/-- An index below something else than a name. -/
theorem dead_index_afterO {env : Env} {cs : Bool} {ev : Filter → Elem → Bool} {p d : Seg} (hp : ∃ i, p.kind = .index i) (hd : d.step) (hn : ∀ n, d.kind ≠ .elem n) (rest : List Seg)
    (pre : List Seg) (hs : ∀ c ∈ pre, c.step) : DeadO env cs ev (pre ++ d :: p :: rest) := by
  have h0 := dead_indexO (env := env) (cs := cs) (ev := ev) hp rest
  have hps : p.step := .inr (.inl hp)
  refine dead_preO hps hd h0 (fun root xml => ?_) pre hs
  rw [execQ_cons2O]
  rcases hd with ⟨n, h⟩ | ⟨i, h⟩ | ⟨b, h⟩ | ⟨f, all, h⟩
  · exact absurd h (hn n)
  · simp only [execBodyOpt, h]
  · cases b with
    | true => simp only [execBodyOpt, h]; exact handleRecursive_idleO (fun e he => by obtain ⟨i, hi⟩ := hp; simp [Seg.matchesOpt, hi] at he) xml
    | false =>
      simp only [execBodyOpt, h, handleWildcard_nullO hps _ (fun z => h0 false z)]
      split <;> rfl
  · simp only [execBodyOpt, h, routeFilter_nullO hps _ (fun z => h0 false z)]

/-- An index below a name that `**` looks for. -/
theorem dead_index_deepO {env : Env} {cs : Bool} {ev : Filter → Elem → Bool} {p d w : Seg} (hp : ∃ i, p.kind = .index i) (hw : w.kind = .wild true) (rest : List Seg)
    (pre : List Seg) (hs : ∀ c ∈ pre, c.step) (hl : ∀ c, pre.getLast? = some c → c.kind ≠ .wild true) : DeadO env cs ev (pre ++ w :: d :: p :: rest) := by
  have h0 := dead_indexO (env := env) (cs := cs) (ev := ev) hp rest
  have hps : p.step := .inr (.inl hp)
  have hws : w.step := .inr (.inr (.inl ⟨_, hw⟩))
  have h1 : DeadO env cs ev (w :: d :: p :: rest) := by
    intro root xml
    rw [execQ_cons2O]
    simp only [execBodyOpt, hw]
    exact handleRecursive_idleO (fun e _ => recEmit_nullO hps _ (fun z => h0 false z) e) xml
  rcases pre.eq_nil_or_concat with rfl | ⟨q, c, rfl⟩
  · exact h1
  · rw [List.concat_eq_append] at hs hl ⊢
    rw [List.append_assoc]
    refine dead_preO hws (hs c (by simp)) h1 (fun root xml => ?_) q fun x hx => hs x (by simp [hx])
    rw [execQ_cons2O]
    exact execBody_nullO (hs c (by simp)) (hl c (by simp)) (.inr ⟨_, hw⟩) _ (fun z => h1 false z) xml

/-- A negative index. -/
theorem dead_negativeO {env : Env} {cs : Bool} {ev : Filter → Elem → Bool} {p : Seg} {i : Int} (hp : p.kind = .index i) (hi : i < 0) (rest : List Seg)
    (pre : List Seg) (hs : ∀ c ∈ pre, c.step) : DeadO env cs ev (pre ++ p :: rest) := by
  have h0 := dead_indexO (env := env) (cs := cs) (ev := ev) ⟨i, hp⟩ rest
  have hps : p.step := .inr (.inl ⟨i, hp⟩)
  rcases pre.eq_nil_or_concat with rfl | ⟨q, d, rfl⟩
  · exact h0
  · rw [List.concat_eq_append] at hs ⊢
    rw [List.append_assoc]
    have hd := hs d (by simp)
    by_cases hn : ∃ n, d.kind = .elem n
    · refine dead_preO hps hd h0 (fun root xml => ?_) q fun x hx => hs x (by simp [hx])
      obtain ⟨n, h⟩ := hn
      rw [execQ_cons2O]
      simp only [execBodyOpt, h]
      split
      · simp only [fragmentRootsOpt, hp, hi]; split <;> rfl
      · simp only [execElemOpt, hp, arrayOpOpt, hi]; split <;> rfl
    · exact dead_index_afterO ⟨i, hp⟩ hd (fun n h => hn ⟨n, h⟩) rest q fun x hx => hs x (by simp [hx])

/-- `**` with nothing after it that an element could be looked for by. -/
theorem dead_deepO {env : Env} {cs : Bool} {ev : Filter → Elem → Bool} {w : Seg} (hw : w.kind = .wild true) {rest : List Seg}
    (hr : ∀ d, rest.head? = some d → (∀ n, d.kind ≠ .elem n) ∧ ∀ b, d.kind ≠ .wild b)
    (pre : List Seg) (hs : ∀ c ∈ pre, c.step) (hl : ∀ c, pre.getLast? = some c → c.kind ≠ .wild true) : DeadO env cs ev (pre ++ w :: rest) := by
  have hws : w.step := .inr (.inr (.inl ⟨_, hw⟩))
  have h1 : DeadO env cs ev (w :: rest) := by
    intro root xml
    cases rest with
    | nil => simp only [execQOpt, execBodyOpt, hw, handleRecursiveOpt]
    | cons d r =>
      rw [execQ_cons2O]
      simp only [execBodyOpt, hw]
      refine handleRecursive_idleO (fun e he => ?_) xml
      have h2 := hr d rfl
      cases hk : d.kind with
      | elem n => exact absurd hk (h2.1 n)
      | wild b => exact absurd hk (h2.2 b)
      | _ => simp [Seg.matchesOpt, hk] at he
  rcases pre.eq_nil_or_concat with rfl | ⟨q, c, rfl⟩
  · exact h1
  · rw [List.concat_eq_append] at hs hl ⊢
    rw [List.append_assoc]
    refine dead_preO hws (hs c (by simp)) h1 (fun root xml => ?_) q fun x hx => hs x (by simp [hx])
    have e : execQOpt env ev cs ([c] ++ w :: rest) root xml = execBodyOpt env ev cs root c (w :: rest) (execQOpt env ev cs (w :: rest) false) (execQOpt env ev cs rest false) xml := rfl
    show execQOpt env ev cs ([c] ++ w :: rest) root xml = .null
    rw [e]
    exact execBody_nullO (hs c (by simp)) (hl c (by simp)) (.inr ⟨_, hw⟩) _ (fun z => h1 false z) xml

end Verif
