import Verif.Lemmas.Errors
import Verif.Model.Get
/- Segments that stand where they mean nothing: what `executeQuery` does with what follows them. -/
namespace Verif

theorem recSearch_idle {o : Ord} {tgt : Elem → Bool} {emit : Elem → List Result} (he : ∀ e, tgt e = true → emit e = []) (n : Nat) :
    ∀ (xml : Bytes) (st : SearchSt), (recSearch o tgt emit n xml st).res = st.res := by
  induction n with
  | zero => intro xml st; rfl
  | succ n ih =>
    intro xml st
    simp only [recSearch]
    split
    · rfl
    · have key : ∀ (es : List Elem) (st : SearchSt), (recLoop (recSearch o tgt emit n) tgt emit es st).res = st.res := by
        intro es
        induction es with
        | nil => intro st; rfl
        | cons e es ihe =>
          intro st
          have h1 : (if !e.selfClosing && !e.content.isEmpty then recSearch o tgt emit n e.content st else st).res = st.res := by
            split
            · exact ih _ _
            · rfl
          simp only [recLoop]
          generalize (if !e.selfClosing && !e.content.isEmpty then recSearch o tgt emit n e.content st else st) = st1 at h1
          split
          · exact h1
          · split
            · rename_i ht
              split
              · exact h1
              · rw [ihe]; simp only [he e ht, List.append_nil]; exact h1
            · rw [ihe]; exact h1
      exact key _ _

theorem handleRecursive_idle {env : Env} {tgt : Seg} {rest : List Seg} {k : Bytes → Result} (h : ∀ e, tgt.matches e.name = true → recEmit env rest k e = []) (xml : Bytes) :
    handleRecursive env (tgt :: rest) k xml = .null := by
  simp only [handleRecursive]
  rw [recSearch_idle h]

/-- A segment after which the rest of the path is not looked at. -/
def Seg.shut (s : Seg) : Prop := s.kind = .text ∨ s.kind = .count ∨ ∃ f, s.kind = .field f

theorem execQ_cons2 (env : Env) (ev : Filter → Elem → Bool) (c d : Seg) (r : List Seg) (root : Bool) (xml : Bytes) :
    execQ env ev (c :: d :: r) root xml = execBody env ev root c (d :: r) (execQ env ev (d :: r) false) (execQ env ev r false) xml := rfl

theorem execQ_head (env : Env) (ev : Filter → Elem → Bool) (c : Seg) (r : List Seg) (root : Bool) (xml : Bytes) :
    ∃ k1 k2, execQ env ev (c :: r) root xml = execBody env ev root c r k1 k2 xml := by
  cases r with
  | nil => exact ⟨_, _, rfl⟩
  | cons d r => exact ⟨_, _, rfl⟩

/-- What `executeQuery` does with a segment that needs an element to apply to. -/
theorem execQ_loose {env : Env} {ev : Filter → Elem → Bool} {c : Seg} (r : List Seg) (root : Bool) (xml : Bytes) :
    ((∃ a, c.kind = .attr a) → execQ env ev (c :: r) root xml = .null) ∧ (c.kind = .text → execQ env ev (c :: r) root xml = .null) ∧
    (c.kind = .count → execQ env ev (c :: r) root xml = .null) ∧ ((∃ i, c.kind = .index i) → execQ env ev (c :: r) root xml = .null) ∧
    ((∃ f, c.kind = .field f) → execQ env ev (c :: r) root xml = .ofArray []) := by
  obtain ⟨k1, k2, e⟩ := execQ_head env ev c r root xml
  rw [e]
  refine ⟨?_, ?_, ?_, ?_, ?_⟩
  · rintro ⟨a, h⟩; simp [execBody, h]
  · intro h; simp [execBody, h]
  · intro h; simp [execBody, h]
  · rintro ⟨a, h⟩; simp [execBody, h]
  · rintro ⟨a, h⟩; simp [execBody, h]

theorem matches_shut {s : Seg} (h : s.shut) (n : Bytes) : s.matches n = false := by
  rcases h with h | h | ⟨f, h⟩ <;> simp [Seg.matches, h]

/-- Two rests of a path that are told apart only further on. -/
def Alike (r r' : List Seg) : Prop := ∃ x t t', r = x :: t ∧ r' = x :: t' ∧ (t.isEmpty = t'.isEmpty ∨ ∀ a, x.kind ≠ .attr a)

theorem handleWildcard_restSame {env : Env} {ms : List Elem} {r r' : List Seg} (h : Alike r r') (k : Bytes → Result) : handleWildcard env ms r k = handleWildcard env ms r' k := by
  obtain ⟨x, t, t', rfl, rfl, h⟩ := h
  simp only [handleWildcard]
  rcases h with h | h
  · rw [h]
  · cases hx : x.kind <;> first | rfl | exact absurd hx (h _)

theorem recEmit_restSame {env : Env} {r r' : List Seg} (h : Alike r r') (k : Bytes → Result) : recEmit env r k = recEmit env r' k := by
  obtain ⟨x, t, t', rfl, rfl, h⟩ := h
  funext e
  simp only [recEmit]
  rcases h with h | h
  · rw [h]
  · cases hx : x.kind <;> first | rfl | exact absurd hx (h _)

theorem processFirst_restSame {env : Env} {m : Elem} {seg : Seg} {r r' : List Seg} (h : Alike r r') (k : Bytes → Result) : processFirst env m seg r k = processFirst env m seg r' k := by
  obtain ⟨x, t, t', rfl, rfl, h⟩ := h
  rfl

theorem routeFilter_restSame {env : Env} {ms : List Elem} {seg : Seg} {all : Bool} {r r' : List Seg} (h : Alike r r') (k : Bytes → Result) :
    routeFilter env ms seg all r k = routeFilter env ms seg all r' k := by
  obtain ⟨x, t, t', rfl, rfl, h⟩ := h
  rfl

theorem fragmentRoots_restSame {env : Env} {ms : List Elem} {d : Seg} {r r' : List Seg} (h : Alike r r') (k : Bytes → Result) : fragmentRoots env ms d r k = fragmentRoots env ms d r' k := by
  obtain ⟨x, t, t', rfl, rfl, h⟩ := h
  rfl

theorem arrayOp_restSame {env : Env} {ms : List Elem} {d : Seg} {r r' : List Seg} (h : Alike r r') (k : Bytes → Result) : arrayOp env ms d r k = arrayOp env ms d r' k := by
  obtain ⟨x, t, t', rfl, rfl, h⟩ := h
  simp only [arrayOp]
  rcases h with h | h
  · rw [h]
  · cases hx : x.kind <;> first | rfl | exact absurd hx (h _)

theorem firstMatch_restSame {env : Env} {c : Seg} {r r' : List Seg} (h : Alike r r') (k : Bytes → Result) (ms : List Elem) : firstMatch env c r k ms = firstMatch env c r' k ms := by
  obtain ⟨x, t, t', rfl, rfl, h⟩ := h
  induction ms with
  | nil => rfl
  | cons m ms ih =>
    simp only [firstMatch, ih]
    rcases h with h | h
    · rw [h]
    · cases hx : x.kind <;> first | rfl | exact absurd hx (h _)

/-- One step, when the rests agree up to what is looked at. -/
theorem execBody_restSame {env : Env} {ev : Filter → Elem → Bool} {root : Bool} {c d : Seg} {r r' : List Seg} (h : Alike r r') (k1 k2 : Bytes → Result) (xml : Bytes) :
    execBody env ev root c (d :: r) k1 k2 xml = execBody env ev root c (d :: r') k1 k2 xml := by
  have h2 : Alike (d :: r) (d :: r') := by
    obtain ⟨x, t, t', rfl, rfl, -⟩ := h
    exact ⟨d, _, _, rfl, rfl, .inl rfl⟩
  simp only [execBody, execElem, handleRecursive, fragmentRoots_restSame h, arrayOp_restSame h, routeFilter_restSame h, recEmit_restSame h, routeFilter_restSame h2, firstMatch_restSame h2,
    handleWildcard_restSame h2, isFragmentQuery]
  rfl

/-- Whatever follows own text, a count or fields is not looked at. -/
theorem execQ_shut {env : Env} {ev : Filter → Elem → Bool} {p : Seg} (hp : p.shut) (rest : List Seg) (pre : List Seg) :
    ∀ (root : Bool) (xml : Bytes), execQ env ev (pre ++ p :: rest) root xml = execQ env ev (pre ++ [p]) root xml := by
  have hna : ∀ a, p.kind ≠ .attr a := by intro a e; rcases hp with h | h | ⟨f, h⟩ <;> rw [h] at e <;> cases e
  have key : ∀ n (pre : List Seg), pre.length ≤ n → ∀ (root : Bool) (xml : Bytes), execQ env ev (pre ++ p :: rest) root xml = execQ env ev (pre ++ [p]) root xml := by
    intro n
    induction n with
    | zero =>
      intro pre hl root xml
      obtain rfl := List.eq_nil_of_length_eq_zero (Nat.le_zero.mp hl)
      simp only [List.nil_append]
      have h1 := execQ_loose (env := env) (ev := ev) (c := p) rest root xml
      have h2 := execQ_loose (env := env) (ev := ev) (c := p) [] root xml
      rcases hp with h | h | h
      · rw [h1.2.1 h, h2.2.1 h]
      · rw [h1.2.2.1 h, h2.2.2.1 h]
      · rw [h1.2.2.2.2 h, h2.2.2.2.2 h]
    | succ n ih =>
      intro pre hl root xml
      match pre with
      | [] => exact ih [] (by simp) root xml
      | [c] =>
        have hk : execQ env ev (p :: rest) false = execQ env ev [p] false := funext fun x => ih [] (by simp) false x
        have h2 : Alike (p :: rest) [p] := ⟨p, _, _, rfl, rfl, .inr hna⟩
        simp only [List.cons_append, List.nil_append, execQ_cons2, hk]
        simp only [execBody, execElem, handleRecursive_idle (tgt := p) (fun e he => absurd he (by rw [matches_shut hp]; simp)), routeFilter_restSame h2, firstMatch_restSame h2,
          handleWildcard_restSame h2, isFragmentQuery]
        rcases hp with h | h | ⟨f, h⟩ <;> simp only [h, arrayOp, fragmentRoots] <;> rfl
      | c :: d :: pre' =>
        simp only [List.length_cons] at hl
        have hk1 : execQ env ev (d :: (pre' ++ p :: rest)) false = execQ env ev (d :: (pre' ++ [p])) false := funext fun x => ih (d :: pre') (by simp; omega) false x
        have hk2 : execQ env ev (pre' ++ p :: rest) false = execQ env ev (pre' ++ [p]) false := funext fun x => ih pre' (by omega) false x
        simp only [List.cons_append, execQ_cons2, hk1, hk2]
        refine execBody_restSame ?_ _ _ _
        cases pre' with
        | nil => exact ⟨p, _, _, rfl, rfl, .inr hna⟩
        | cons x t => exact ⟨x, _, _, rfl, rfl, .inl (by cases t <;> rfl)⟩
  exact key _ pre (Nat.le_refl _)

/-- What follows an attribute is not looked at, if before it there is a filter or an index. -/
theorem execQ_attr_kept {env : Env} {ev : Filter → Elem → Bool} {p d : Seg} {a : Bytes} (hp : p.kind = .attr a)
    (hd : (∃ f all, d.kind = .filter f all) ∨ ((∃ i, d.kind = .index i) ∧ p.mods = [])) (rest : List Seg) (pre : List Seg) :
    ∀ (root : Bool) (xml : Bytes), execQ env ev (pre ++ d :: p :: rest) root xml = execQ env ev (pre ++ [d, p]) root xml := by
  have hm : ∀ n, d.matches n = false := by intro n; rcases hd with ⟨f, all, h⟩ | ⟨⟨i, h⟩, -⟩ <;> simp [Seg.matches, h]
  have hal : Alike (d :: p :: rest) [d, p] := ⟨d, _, _, rfl, rfl, .inl rfl⟩
  have key : ∀ n (pre : List Seg), pre.length ≤ n → ∀ (root : Bool) (xml : Bytes), execQ env ev (pre ++ d :: p :: rest) root xml = execQ env ev (pre ++ [d, p]) root xml := by
    intro n
    induction n with
    | zero =>
      intro pre hl root xml
      obtain rfl := List.eq_nil_of_length_eq_zero (Nat.le_zero.mp hl)
      simp only [List.nil_append]
      rcases hd with ⟨f, all, h⟩ | ⟨⟨i, h⟩, -⟩
      · simp only [execQ_cons2]
        simp only [execBody, h, routeFilter, processFirst, processAll, hp]
      · rw [(execQ_loose _ _ _).2.2.2.1 ⟨i, h⟩, (execQ_loose _ _ _).2.2.2.1 ⟨i, h⟩]
    | succ n ih =>
      intro pre hl root xml
      match pre with
      | [] => exact ih [] (by simp) root xml
      | [c] =>
        have hk : execQ env ev (d :: p :: rest) false = execQ env ev [d, p] false := funext fun x => ih [] (by simp) false x
        have hk2 : execQ env ev (p :: rest) false = execQ env ev [p] false := by
          funext x
          rw [(execQ_loose _ _ _).1 ⟨a, hp⟩, (execQ_loose _ _ _).1 ⟨a, hp⟩]
        simp only [List.cons_append, List.nil_append, execQ_cons2 env ev c, hk, hk2]
        simp only [execBody, execElem, handleRecursive_idle (tgt := d) (fun e he => absurd he (by rw [hm]; simp)), routeFilter_restSame hal, firstMatch_restSame hal, handleWildcard_restSame hal,
          isFragmentQuery]
        rcases hd with ⟨f, all, h⟩ | ⟨⟨i, h⟩, hmods⟩
        · simp only [h, SegKind.isRootOp, routeFilter, processFirst, processAll, hp]
          rfl
        · simp only [h, arrayOp, fragmentRoots, hp, hmods, applyModifiers, runMods]
          simp
      | c :: e :: pre' =>
        simp only [List.length_cons] at hl
        have hk1 : execQ env ev (e :: (pre' ++ d :: p :: rest)) false = execQ env ev (e :: (pre' ++ [d, p])) false := funext fun x => ih (e :: pre') (by simp; omega) false x
        have hk2 : execQ env ev (pre' ++ d :: p :: rest) false = execQ env ev (pre' ++ [d, p]) false := funext fun x => ih pre' (by omega) false x
        simp only [List.cons_append, execQ_cons2 env ev c, hk1, hk2]
        refine execBody_restSame ?_ _ _ _
        cases pre' with
        | nil => exact hal
        | cons x t => exact ⟨x, _, _, rfl, rfl, .inl (by cases t <;> rfl)⟩
  exact key _ pre (Nat.le_refl _)

/-! ### paths that find nothing -/

/-- A segment that leads to elements. -/
def Seg.step (s : Seg) : Prop := (∃ n, s.kind = .elem n) ∨ (∃ i, s.kind = .index i) ∨ (∃ b, s.kind = .wild b) ∨ ∃ f all, s.kind = .filter f all

/-- The segments find nothing, in any content. -/
def Dead (env : Env) (ev : Filter → Elem → Bool) (ss : List Seg) : Prop := ∀ root xml, execQ env ev ss root xml = .null

theorem asList_null : asList .null = [] := rfl

theorem firstMatch_null {env : Env} {c d : Seg} (hd : d.step) (r : List Seg) {k : Bytes → Result} (hk : ∀ x, k x = .null) (ms : List Elem) : firstMatch env c (d :: r) k ms = .null := by
  induction ms with
  | nil => rfl
  | cons m ms ih => rcases hd with ⟨n, h⟩ | ⟨n, h⟩ | ⟨n, h⟩ | ⟨f, all, h⟩ <;> simp [firstMatch, h, hk, ih, Result.null]

theorem handleWildcard_null {env : Env} {d : Seg} (hd : d.step) (r : List Seg) {k : Bytes → Result} (hk : ∀ x, k x = .null) (ms : List Elem) : handleWildcard env ms (d :: r) k = .null := by
  have h1 : ∀ l : List Elem, l.flatMap (fun _ => ([] : List Result)) = [] := by simp
  rcases hd with ⟨n, h⟩ | ⟨n, h⟩ | ⟨n, h⟩ | ⟨f, all, h⟩ <;> simp [handleWildcard, h, hk, asList_null] <;> simp [Result.null]

theorem routeFilter_null {env : Env} {d : Seg} (hd : d.step) (r : List Seg) {k : Bytes → Result} (hk : ∀ x, k x = .null) (ms : List Elem) (seg : Seg) (all : Bool) :
    routeFilter env ms seg all (d :: r) k = .null := by
  unfold routeFilter
  cases ms with
  | nil => rfl
  | cons m ms =>
    cases all <;> rcases hd with ⟨n, h⟩ | ⟨n, h⟩ | ⟨n, h⟩ | ⟨f, all, h⟩ <;> simp [processFirst, processAll, h, hk, asList_null]

theorem recEmit_null {env : Env} {d : Seg} (hd : d.step) (r : List Seg) {k : Bytes → Result} (hk : ∀ x, k x = .null) (e : Elem) : recEmit env (d :: r) k e = [] := by
  rcases hd with ⟨n, h⟩ | ⟨n, h⟩ | ⟨n, h⟩ | ⟨f, all, h⟩ <;> simp [recEmit, h, hk, asList_null]

theorem arrayOp_null {env : Env} {d s : Seg} (hd : ∃ i, d.kind = .index i) (hs : s.step) (r : List Seg) {k : Bytes → Result} (hk : ∀ x, k x = .null) (ms : List Elem) :
    arrayOp env ms d (s :: r) k = .null ∧ fragmentRoots env ms d (s :: r) k = .null := by
  obtain ⟨i, hd⟩ := hd
  constructor
  · rcases hs with ⟨n, h⟩ | ⟨n, h⟩ | ⟨n, h⟩ | ⟨f, all, h⟩ <;> simp only [arrayOp, hd, h, hk] <;> (repeat' split) <;> rfl
  · rcases hs with ⟨n, h⟩ | ⟨n, h⟩ | ⟨n, h⟩ | ⟨f, all, h⟩ <;> simp only [fragmentRoots, hd, h, hk] <;> (repeat' split) <;> rfl

/-- One step further up, before a name or a wildcard. -/
theorem execBody_null {env : Env} {ev : Filter → Elem → Bool} {root : Bool} {c d : Seg} (hc : c.step) (hw : c.kind ≠ .wild true)
    (hd : (∃ n, d.kind = .elem n) ∨ ∃ b, d.kind = .wild b) (r : List Seg) {k1 k2 : Bytes → Result} (hk : ∀ x, k1 x = .null) (xml : Bytes) :
    execBody env ev root c (d :: r) k1 k2 xml = .null := by
  have hs : d.step := by rcases hd with h | h; exact .inl h; exact .inr (.inr (.inl h))
  have hf : isFragmentQuery root (d :: r) = false := by
    rcases hd with ⟨n, h⟩ | ⟨b, h⟩ <;> simp [isFragmentQuery, h, SegKind.isRootOp]
  rcases hc with ⟨n, h⟩ | ⟨i, h⟩ | ⟨b, h⟩ | ⟨f, all, h⟩
  · simp only [execBody, h, hf, execElem]
    rcases hd with ⟨n, h2⟩ | ⟨b, h2⟩ <;> simp only [h2, firstMatch_null hs r hk] <;> rfl
  · simp only [execBody, h]
  · cases b with
    | true => exact absurd h hw
    | false =>
      simp only [execBody, h, handleWildcard_null hs r hk]
      split
      · rfl
      · rfl
  · simp only [execBody, h, routeFilter_null hs r hk]

/-- One step further up, with two steps below. -/
theorem execBody_null2 {env : Env} {ev : Filter → Elem → Bool} {root : Bool} {c d s : Seg} (hc : c.step) (hd : d.step) (hs : s.step) (r : List Seg) {k1 k2 : Bytes → Result}
    (hk : ∀ x, k1 x = .null) (hk2 : ∀ x, k2 x = .null) (xml : Bytes) : execBody env ev root c (d :: s :: r) k1 k2 xml = .null := by
  rcases hc with ⟨n, h⟩ | ⟨i, h⟩ | ⟨b, h⟩ | ⟨f, all, h⟩
  · simp only [execBody, h]
    split
    · rename_i hf
      rcases hd with ⟨n, h2⟩ | ⟨i, h2⟩ | ⟨b, h2⟩ | ⟨f, all, h2⟩
      · simp [isFragmentQuery, h2, SegKind.isRootOp] at hf
      · exact (arrayOp_null ⟨i, h2⟩ hs r hk2 _).2
      · simp [isFragmentQuery, h2, SegKind.isRootOp] at hf
      · simp [isFragmentQuery, h2, SegKind.isRootOp] at hf
    · simp only [execElem]
      have hdd := hd
      rcases hd with ⟨n, h2⟩ | ⟨i, h2⟩ | ⟨b, h2⟩ | ⟨f, all, h2⟩
      · simp only [h2, firstMatch_null hdd _ hk]
      · simp only [h2]; exact (arrayOp_null ⟨i, h2⟩ hs r hk2 _).1
      · simp only [h2, firstMatch_null hdd _ hk]
      · simp only [h2, routeFilter_null hs r hk2]
  · simp only [execBody, h]
  · cases b with
    | true => simp only [execBody, h]; exact handleRecursive_idle (fun e _ => recEmit_null hs r hk2 e) xml
    | false =>
      simp only [execBody, h, handleWildcard_null hd _ hk]
      split
      · rfl
      · rfl
  · simp only [execBody, h, routeFilter_null hd _ hk]

theorem dead_pre {env : Env} {ev : Filter → Elem → Bool} {d s : Seg} {t : List Seg} (hs : s.step) (hd : d.step) (h1 : Dead env ev (s :: t)) (h2 : Dead env ev (d :: s :: t))
    (pre : List Seg) (hp : ∀ c ∈ pre, c.step) : Dead env ev (pre ++ d :: s :: t) := by
  have : ∀ pre : List Seg, (∀ c ∈ pre, c.step) → ∃ x y r, pre ++ d :: s :: t = x :: y :: r ∧ x.step ∧ y.step ∧ Dead env ev (x :: y :: r) ∧ Dead env ev (y :: r) := by
    intro pre
    induction pre with
    | nil => intro _; exact ⟨d, s, t, rfl, hd, hs, h2, h1⟩
    | cons c pre ih =>
      intro hp
      obtain ⟨x, y, r, e, hx, hy, hxy, hyr⟩ := ih fun c hc => hp c (by simp [hc])
      refine ⟨c, x, y :: r, by rw [List.cons_append, e], hp c (by simp), hx, fun root xml => ?_, hxy⟩
      rw [execQ_cons2]
      exact execBody_null2 (hp c (by simp)) hx hy r (fun z => hxy false z) (fun z => hyr false z) xml
  obtain ⟨x, y, r, e, -, -, h, -⟩ := this pre hp
  rw [e]; exact h

theorem dead_index {env : Env} {ev : Filter → Elem → Bool} {p : Seg} (hp : ∃ i, p.kind = .index i) (rest : List Seg) : Dead env ev (p :: rest) :=
  fun root xml => (execQ_loose rest root xml).2.2.2.1 hp

/-- An attribute with something after it, below a name or a wildcard. -/
theorem dead_attr {env : Env} {ev : Filter → Elem → Bool} {p d : Seg} {a : Bytes} (hp : p.kind = .attr a) (hd : (∃ n, d.kind = .elem n) ∨ ∃ b, d.kind = .wild b) {rest : List Seg} (hr : rest ≠ [])
    (pre : List Seg) (hs : ∀ c ∈ pre, c.step) : Dead env ev (pre ++ d :: p :: rest) := by
  have hds : d.step := by rcases hd with h | h; exact .inl h; exact .inr (.inr (.inl h))
  have hre : rest.isEmpty = false := by simpa using hr
  have h1 : Dead env ev (d :: p :: rest) := by
    intro root xml
    rw [execQ_cons2]
    rcases hd with ⟨n, h⟩ | ⟨b, h⟩
    · have hfm : ∀ (k : Bytes → Result) (ms : List Elem), firstMatch env d (p :: rest) k ms = .null := by
        intro k ms
        cases ms with
        | nil => rfl
        | cons m ms => simp only [firstMatch, hp, hre]; split <;> rfl
      simp only [execBody, h, isFragmentQuery, hp, SegKind.isRootOp, Bool.and_false, execElem, hfm]
      rfl
    · cases b with
      | true => simp only [execBody, h]; exact handleRecursive_idle (fun e he => by simp [Seg.matches, hp] at he) xml
      | false =>
        simp only [execBody, h]
        split
        · rfl
        · simp [handleWildcard, hp, hre]
          intro x _ h; exact absurd (by split <;> rfl) h
  have h2 : ∀ c : Seg, c.step → Dead env ev (c :: d :: p :: rest) := by
    intro c hc root xml
    rw [execQ_cons2]
    by_cases hw : c.kind = .wild true
    · simp only [execBody, hw]
      refine handleRecursive_idle (fun e _ => ?_) xml
      simp only [recEmit, hp, hre]
      split <;> rfl
    · exact execBody_null hc hw hd _ (fun z => h1 false z) xml
  rcases pre.eq_nil_or_concat with rfl | ⟨q, c, rfl⟩
  · exact h1
  · rw [List.concat_eq_append] at hs ⊢
    rw [List.append_assoc]
    exact dead_pre hds (hs c (by simp)) h1 (h2 c (hs c (by simp))) q fun x hx => hs x (by simp [hx])

/-- An index below something else than a name. -/
theorem dead_index_after {env : Env} {ev : Filter → Elem → Bool} {p d : Seg} (hp : ∃ i, p.kind = .index i) (hd : d.step) (hn : ∀ n, d.kind ≠ .elem n) (rest : List Seg)
    (pre : List Seg) (hs : ∀ c ∈ pre, c.step) : Dead env ev (pre ++ d :: p :: rest) := by
  have h0 := dead_index (env := env) (ev := ev) hp rest
  have hps : p.step := .inr (.inl hp)
  refine dead_pre hps hd h0 (fun root xml => ?_) pre hs
  rw [execQ_cons2]
  rcases hd with ⟨n, h⟩ | ⟨i, h⟩ | ⟨b, h⟩ | ⟨f, all, h⟩
  · exact absurd h (hn n)
  · simp only [execBody, h]
  · cases b with
    | true => simp only [execBody, h]; exact handleRecursive_idle (fun e he => by obtain ⟨i, hi⟩ := hp; simp [Seg.matches, hi] at he) xml
    | false =>
      simp only [execBody, h, handleWildcard_null hps _ (fun z => h0 false z)]
      split <;> rfl
  · simp only [execBody, h, routeFilter_null hps _ (fun z => h0 false z)]

/-- An index below a name that `**` looks for. -/
theorem dead_index_deep {env : Env} {ev : Filter → Elem → Bool} {p d w : Seg} (hp : ∃ i, p.kind = .index i) (hw : w.kind = .wild true) (rest : List Seg)
    (pre : List Seg) (hs : ∀ c ∈ pre, c.step) (hl : ∀ c, pre.getLast? = some c → c.kind ≠ .wild true) : Dead env ev (pre ++ w :: d :: p :: rest) := by
  have h0 := dead_index (env := env) (ev := ev) hp rest
  have hps : p.step := .inr (.inl hp)
  have hws : w.step := .inr (.inr (.inl ⟨_, hw⟩))
  have h1 : Dead env ev (w :: d :: p :: rest) := by
    intro root xml
    rw [execQ_cons2]
    simp only [execBody, hw]
    exact handleRecursive_idle (fun e _ => recEmit_null hps _ (fun z => h0 false z) e) xml
  rcases pre.eq_nil_or_concat with rfl | ⟨q, c, rfl⟩
  · exact h1
  · rw [List.concat_eq_append] at hs hl ⊢
    rw [List.append_assoc]
    refine dead_pre hws (hs c (by simp)) h1 (fun root xml => ?_) q fun x hx => hs x (by simp [hx])
    rw [execQ_cons2]
    exact execBody_null (hs c (by simp)) (hl c (by simp)) (.inr ⟨_, hw⟩) _ (fun z => h1 false z) xml

/-- A negative index. -/
theorem dead_negative {env : Env} {ev : Filter → Elem → Bool} {p : Seg} {i : Int} (hp : p.kind = .index i) (hi : i < 0) (rest : List Seg)
    (pre : List Seg) (hs : ∀ c ∈ pre, c.step) : Dead env ev (pre ++ p :: rest) := by
  have h0 := dead_index (env := env) (ev := ev) ⟨i, hp⟩ rest
  have hps : p.step := .inr (.inl ⟨i, hp⟩)
  rcases pre.eq_nil_or_concat with rfl | ⟨q, d, rfl⟩
  · exact h0
  · rw [List.concat_eq_append] at hs ⊢
    rw [List.append_assoc]
    have hd := hs d (by simp)
    by_cases hn : ∃ n, d.kind = .elem n
    · refine dead_pre hps hd h0 (fun root xml => ?_) q fun x hx => hs x (by simp [hx])
      obtain ⟨n, h⟩ := hn
      rw [execQ_cons2]
      simp only [execBody, h]
      split
      · simp only [fragmentRoots, hp, hi]; split <;> rfl
      · simp only [execElem, hp, arrayOp, hi]; split <;> rfl
    · exact dead_index_after ⟨i, hp⟩ hd (fun n h => hn ⟨n, h⟩) rest q fun x hx => hs x (by simp [hx])

/-- `**` with nothing after it that an element could be looked for by. -/
theorem dead_deep {env : Env} {ev : Filter → Elem → Bool} {w : Seg} (hw : w.kind = .wild true) {rest : List Seg}
    (hr : ∀ d, rest.head? = some d → (∀ n, d.kind ≠ .elem n) ∧ ∀ b, d.kind ≠ .wild b)
    (pre : List Seg) (hs : ∀ c ∈ pre, c.step) (hl : ∀ c, pre.getLast? = some c → c.kind ≠ .wild true) : Dead env ev (pre ++ w :: rest) := by
  have hws : w.step := .inr (.inr (.inl ⟨_, hw⟩))
  have h1 : Dead env ev (w :: rest) := by
    intro root xml
    cases rest with
    | nil => simp only [execQ, execBody, hw, handleRecursive]
    | cons d r =>
      rw [execQ_cons2]
      simp only [execBody, hw]
      refine handleRecursive_idle (fun e he => ?_) xml
      have h2 := hr d rfl
      cases hk : d.kind with
      | elem n => exact absurd hk (h2.1 n)
      | wild b => exact absurd hk (h2.2 b)
      | _ => simp [Seg.matches, hk] at he
  rcases pre.eq_nil_or_concat with rfl | ⟨q, c, rfl⟩
  · exact h1
  · rw [List.concat_eq_append] at hs hl ⊢
    rw [List.append_assoc]
    refine dead_pre hws (hs c (by simp)) h1 (fun root xml => ?_) q fun x hx => hs x (by simp [hx])
    have e : execQ env ev ([c] ++ w :: rest) root xml = execBody env ev root c (w :: rest) (execQ env ev (w :: rest) false) (execQ env ev rest false) xml := rfl
    show execQ env ev ([c] ++ w :: rest) root xml = .null
    rw [e]
    exact execBody_null (hs c (by simp)) (hl c (by simp)) (.inr ⟨_, hw⟩) _ (fun z => h1 false z) xml

end Verif
