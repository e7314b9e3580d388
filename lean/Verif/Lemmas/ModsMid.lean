import Verif.Spec.ModsMid
import Verif.Lemmas.AstrayStep
import Verif.Lemmas.AstrayOpt
/- Modifiers that are not looked at: C52. -/
namespace Verif
open Spec

/-- What a segment is to the one after it. -/
def Seg.prev (s : Seg) : Prev :=
  match s.kind with
  | .wild false => .list
  | .count => .list
  | .filter _ true => .list
  | .filter _ false => .pick
  | _ => .plain

def Seg.lax (opt : Bool) (b : Prev) (c : Seg) (last : Bool) : Prop :=
  b ≠ .list ∧ ((c.step ∧ last = false) ∨
    (opt = true ∧ ((∃ n, c.kind = .elem n) ∨ (∃ i, c.kind = .index i) ∨ (∃ w, c.kind = .wild w) ∨ c.kind = .count ∨ (b = .plain ∧ ((∃ a, c.kind = .attr a) ∨ c.kind = .text)))))

/-- Two segments that differ at most in modifiers that are not looked at. -/
def Seg.near (opt : Bool) (b : Prev) (c c' : Seg) (last : Bool) : Prop := c.kind = c'.kind ∧ (c = c' ∨ c.lax opt b last)

/-- The same for the first segments of two lists. -/
def Near (opt : Bool) (b : Prev) (r r' : List Seg) : Prop :=
  (r = [] ∧ r' = []) ∨ ∃ x x' t t', r = x :: t ∧ r' = x' :: t' ∧ t.isEmpty = t'.isEmpty ∧ x.near opt b x' t.isEmpty

theorem near_list {opt : Bool} {r r' : List Seg} (h : Near opt .list r r') : (r = [] ∧ r' = []) ∨ ∃ x t t', r = x :: t ∧ r' = x :: t' ∧ t.isEmpty = t'.isEmpty := by
  rcases h with h | ⟨x, x', t, t', rfl, rfl, h, h2, h3⟩
  · exact .inl h
  · rcases h3 with rfl | h3
    · exact .inr ⟨x, t, t', rfl, rfl, h⟩
    · exact absurd rfl h3.1

theorem Seg.lax.kinds {b : Prev} {c : Seg} {last : Bool} (h : c.lax false b last) : c.step ∧ last = false := by
  rcases h.2 with h | h
  · exact h
  · simp at h

theorem Seg.near.matches {opt : Bool} {b : Prev} {c c' : Seg} {last : Bool} (h : c.near opt b c' last) (n : Bytes) : c.matches n = c'.matches n := by
  simp only [Seg.matches, h.1]

theorem Seg.near.matchesO {opt : Bool} {b : Prev} {c c' : Seg} {last : Bool} (h : c.near opt b c' last) (cs : Bool) (n : Bytes) : c.matchesOpt n cs = c'.matchesOpt n cs := by
  simp only [Seg.matchesOpt, h.1]

theorem handleWildcard_near {env : Env} {opt : Bool} {ms : List Elem} {r r' : List Seg} (h : Near opt .list r r') (k : Bytes → Result) : handleWildcard env ms r k = handleWildcard env ms r' k := by
  rcases near_list h with ⟨rfl, rfl⟩ | ⟨x, t, t', rfl, rfl, h4⟩
  · rfl
  · simp only [handleWildcard, h4]

theorem handleWildcard_nearO {env : Env} {cs opt : Bool} {ms : List Elem} {r r' : List Seg} (h : Near opt .list r r') (k : Bytes → Result) :
    handleWildcardOpt env cs ms r k = handleWildcardOpt env cs ms r' k := by
  rcases near_list h with ⟨rfl, rfl⟩ | ⟨x, t, t', rfl, rfl, h4⟩
  · rfl
  · simp only [handleWildcardOpt, h4]

theorem recEmit_near {env : Env} {b : Prev} {r r' : List Seg} (h : Near false b r r') (k : Bytes → Result) : recEmit env r k = recEmit env r' k := by
  funext e
  rcases h with ⟨rfl, rfl⟩ | ⟨x, x', t, t', rfl, rfl, h, h2, h3⟩
  · rfl
  · rcases h3 with rfl | h3
    · simp only [recEmit, h]
    · rcases h3.kinds.1 with ⟨_, e⟩ | ⟨_, e⟩ | ⟨_, e⟩ | ⟨_, _, e⟩ <;> simp only [recEmit, ← h2, e]

theorem recEmit_nearO {env : Env} {cs : Bool} {opt : Bool} {b : Prev} {r r' : List Seg} (h : Near opt b r r') (k : Bytes → Result) : recEmitOpt env cs r k = recEmitOpt env cs r' k := by
  funext e
  rcases h with ⟨rfl, rfl⟩ | ⟨x, x', t, t', rfl, rfl, h, h2, h3⟩
  · rfl
  · simp only [recEmitOpt, h, h2]

theorem processFirst_near {env : Env} {b : Prev} {m : Elem} {c c' : Seg} {r r' : List Seg} (h : Near false b r r') (hc : c = c' ∨ r ≠ []) (k : Bytes → Result) :
    processFirst env m c r k = processFirst env m c' r' k := by
  rcases h with ⟨rfl, rfl⟩ | ⟨x, x', t, t', rfl, rfl, h, h2, h3⟩
  · rcases hc with rfl | hc
    · rfl
    · exact absurd rfl hc
  · rcases h3 with rfl | h3
    · rfl
    · rcases h3.kinds.1 with ⟨_, e⟩ | ⟨_, e⟩ | ⟨_, e⟩ | ⟨_, _, e⟩ <;> simp only [processFirst, ← h2, e]

theorem processFirst_nearO {env : Env} {cs : Bool} {m : Elem} {c c' : Seg} {r r' : List Seg} (h : Near true .pick r r') (hc : c = c' ∨ r ≠ []) (k : Bytes → Result) :
    processFirstOpt env cs m c r k = processFirstOpt env cs m c' r' k := by
  rcases h with ⟨rfl, rfl⟩ | ⟨x, x', t, t', rfl, rfl, h, h2, h3⟩
  · rcases hc with rfl | hc
    · rfl
    · exact absurd rfl hc
  · rcases h3 with rfl | h3
    · rfl
    · rcases h3.2 with ⟨⟨_, e⟩ | ⟨_, e⟩ | ⟨_, e⟩ | ⟨_, _, e⟩, -⟩ | ⟨-, ⟨_, e⟩ | ⟨_, e⟩ | ⟨_, e⟩ | e | ⟨e, -⟩⟩ <;> first | exact absurd e (by simp) | simp only [processFirstOpt, ← h2, e]

theorem processAll_near {env : Env} {opt : Bool} {ms : List Elem} {c c' : Seg} {r r' : List Seg} (h : Near opt .list r r') (hc : c = c' ∨ r ≠ []) (k : Bytes → Result) :
    processAll env ms c r k = processAll env ms c' r' k := by
  rcases near_list h with ⟨rfl, rfl⟩ | ⟨x, t, t', rfl, rfl, h⟩
  · rcases hc with rfl | hc
    · rfl
    · exact absurd rfl hc
  · rfl

theorem processAll_nearO {env : Env} {cs opt : Bool} {ms : List Elem} {c c' : Seg} {r r' : List Seg} (h : Near opt .list r r') (hc : c = c' ∨ r ≠ []) (k : Bytes → Result) :
    processAllOpt env cs ms c r k = processAllOpt env cs ms c' r' k := by
  rcases near_list h with ⟨rfl, rfl⟩ | ⟨x, t, t', rfl, rfl, h⟩
  · rcases hc with rfl | hc
    · rfl
    · exact absurd rfl hc
  · rfl

theorem routeFilter_near {env : Env} {ms : List Elem} {f : Filter} {all : Bool} {c c' : Seg} (hk : c.kind = .filter f all) {r r' : List Seg} (h : Near false c.prev r r')
    (hc : c = c' ∨ r ≠ []) (k : Bytes → Result) : routeFilter env ms c all r k = routeFilter env ms c' all r' k := by
  cases ms with
  | nil => rfl
  | cons m ms =>
    cases all with
    | false => simp only [routeFilter, Bool.false_eq_true, if_false]; exact processFirst_near h hc k
    | true =>
      simp only [Seg.prev, hk] at h
      simp only [routeFilter, if_true]
      exact processAll_near h hc k

theorem routeFilter_nearO {env : Env} {cs : Bool} {ms : List Elem} {f : Filter} {all : Bool} {c c' : Seg} (hk : c.kind = .filter f all) {r r' : List Seg} (h : Near true c.prev r r')
    (hc : c = c' ∨ r ≠ []) (k : Bytes → Result) : routeFilterOpt env cs ms c all r k = routeFilterOpt env cs ms c' all r' k := by
  cases ms with
  | nil => rfl
  | cons m ms =>
    cases all with
    | false =>
      simp only [Seg.prev, hk] at h
      simp only [routeFilterOpt, Bool.false_eq_true, if_false]; exact processFirst_nearO h hc k
    | true =>
      simp only [Seg.prev, hk] at h
      simp only [routeFilterOpt, if_true]
      exact processAll_nearO h hc k

/-- A filter whose modifiers are not looked at has more segments after it. -/
theorem near_filter {opt : Bool} {b : Prev} {c c' : Seg} {t : List Seg} {f : Filter} {all : Bool} (h : c.near opt b c' t.isEmpty) (hk : c.kind = .filter f all) : c = c' ∨ t ≠ [] := by
  rcases h.2 with h | ⟨-, ⟨-, h⟩ | ⟨-, ⟨_, e⟩ | ⟨_, e⟩ | ⟨_, e⟩ | e | ⟨-, ⟨_, e⟩ | e⟩⟩⟩
  · exact .inl h
  · exact .inr (by rintro rfl; simp at h)
  all_goals rw [hk] at e; cases e

theorem fragmentRoots_near {env : Env} {b b' : Prev} {ms : List Elem} {d d' : Seg} {r r' : List Seg} (hd : d.near false b d' r.isEmpty) (h : Near false b' r r') (k : Bytes → Result) :
    fragmentRoots env ms d r k = fragmentRoots env ms d' r' k := by
  have h1 : fragmentRoots env ms d r k = fragmentRoots env ms d' r k := by
    rcases hd.2 with rfl | hl
    · rfl
    · rcases hl.kinds.1 with ⟨_, e⟩ | ⟨_, e⟩ | ⟨_, e⟩ | ⟨_, _, e⟩ <;> simp only [fragmentRoots, ← hd.1, e]
  rw [h1]
  rcases h with ⟨rfl, rfl⟩ | ⟨x, x', t, t', rfl, rfl, h, h2, h3⟩
  · rfl
  · simp only [fragmentRoots, h2]

theorem fragmentRoots_nearO {env : Env} {b b' : Prev} {ms : List Elem} {d d' : Seg} {r r' : List Seg} (hd : d.near true b d' r.isEmpty) (h : Near true b' r r') (k : Bytes → Result) :
    fragmentRootsOpt env ms d r k = fragmentRootsOpt env ms d' r' k := by
  have h1 : fragmentRootsOpt env ms d r k = fragmentRootsOpt env ms d' r k := by
    rcases hd.2 with rfl | hl
    · rfl
    · rcases hl.2 with ⟨⟨_, e⟩ | ⟨_, e⟩ | ⟨_, e⟩ | ⟨_, _, e⟩, -⟩ | ⟨-, ⟨_, e⟩ | ⟨_, e⟩ | ⟨_, e⟩ | e | ⟨-, ⟨_, e⟩ | e⟩⟩ <;> simp only [fragmentRootsOpt, ← hd.1, e]
  rw [h1]
  rcases h with ⟨rfl, rfl⟩ | ⟨x, x', t, t', rfl, rfl, h, h2, h3⟩
  · rfl
  · simp only [fragmentRootsOpt, h2]

theorem arrayOp_near {env : Env} {b b' : Prev} {ms : List Elem} {d d' : Seg} {r r' : List Seg} (hd : d.near false b d' r.isEmpty) (h : Near false b' r r') (k : Bytes → Result) :
    arrayOp env ms d r k = arrayOp env ms d' r' k := by
  have h1 : arrayOp env ms d r k = arrayOp env ms d' r k := by
    rcases hd.2 with rfl | hl
    · rfl
    · rcases hl.kinds with ⟨⟨_, e⟩ | ⟨_, e⟩ | ⟨_, e⟩ | ⟨_, _, e⟩, hn⟩ <;> simp only [arrayOp, ← hd.1, e]
      cases r with
      | nil =>
        simp at hn
      | cons s t => rfl
  rw [h1]
  rcases h with ⟨rfl, rfl⟩ | ⟨x, x', t, t', rfl, rfl, h, h2, h3⟩
  · rfl
  · rcases h3 with rfl | h3
    · simp only [arrayOp, h]
    · rcases h3.kinds.1 with ⟨_, e⟩ | ⟨_, e⟩ | ⟨_, e⟩ | ⟨_, _, e⟩ <;> simp only [arrayOp, ← h2, e]

theorem arrayOp_nearO {env : Env} {cs : Bool} {b b' : Prev} {ms : List Elem} {d d' : Seg} {r r' : List Seg} (hd : d.near true b d' r.isEmpty) (h : Near true b' r r') (k : Bytes → Result) :
    arrayOpOpt env cs ms d r k = arrayOpOpt env cs ms d' r' k := by
  have h1 : arrayOpOpt env cs ms d r k = arrayOpOpt env cs ms d' r k := by simp only [arrayOpOpt, hd.1]
  rw [h1]
  rcases h with ⟨rfl, rfl⟩ | ⟨x, x', t, t', rfl, rfl, h, h2, h3⟩
  · rfl
  · simp only [arrayOpOpt, h2]

theorem firstMatch_near {env : Env} {b : Prev} {c c' : Seg} {r r' : List Seg} (h : Near false b r r') (hc : c = c' ∨ r ≠ []) (k : Bytes → Result) (ms : List Elem) :
    firstMatch env c r k ms = firstMatch env c' r' k ms := by
  induction ms with
  | nil => rfl
  | cons m ms ih =>
    rcases h with ⟨rfl, rfl⟩ | ⟨x, x', t, t', rfl, rfl, h, h2, h3⟩
    · rcases hc with rfl | hc
      · rfl
      · exact absurd rfl hc
    · rcases h3 with rfl | h3
      · simp only [firstMatch, h, ih]
      · rcases h3.kinds.1 with ⟨_, e⟩ | ⟨_, e⟩ | ⟨_, e⟩ | ⟨_, _, e⟩ <;> simp only [firstMatch, ← h2, e, ih]

theorem firstMatch_nearO {env : Env} {cs : Bool} {b : Prev} {r r' : List Seg} (h : Near true b r r') (k : Bytes → Result) (ms : List Elem) :
    firstMatchOpt env cs r k ms = firstMatchOpt env cs r' k ms := by
  induction ms with
  | nil => rfl
  | cons m ms ih =>
    rcases h with ⟨rfl, rfl⟩ | ⟨x, x', t, t', rfl, rfl, h, h2, h3⟩
    · rfl
    · simp only [firstMatchOpt, h, h2, ih]

/-- The same segments, up to modifiers that are not looked at. -/
inductive SegSame (opt : Bool) : Prev → List Seg → List Seg → Prop where
  | nil (b : Prev) : SegSame opt b [] []
  | cons {b : Prev} {c c' : Seg} {ss ss' : List Seg} (hc : c.near opt b c' ss.isEmpty) (h : SegSame opt c.prev ss ss') : SegSame opt b (c :: ss) (c' :: ss')

theorem SegSame.near {opt : Bool} {b : Prev} {r r' : List Seg} (h : SegSame opt b r r') : Near opt b r r' := by
  cases h with
  | nil => exact .inl ⟨rfl, rfl⟩
  | cons hc h =>
    refine .inr ⟨_, _, _, _, rfl, rfl, ?_, hc⟩
    cases h <;> rfl

theorem matches_kind {c c' : Seg} (h : c.kind = c'.kind) : (fun e : Elem => c.matches e.name) = fun e => c'.matches e.name := by
  funext e; simp only [Seg.matches, h]

theorem matches_kindO {c c' : Seg} (h : c.kind = c'.kind) (cs : Bool) : (fun e : Elem => c.matchesOpt e.name cs) = fun e => c'.matchesOpt e.name cs := by
  funext e; simp only [Seg.matchesOpt, h]

theorem execBody_last {env : Env} {ev : Filter → Elem → Bool} {root : Bool} {b : Prev} {c c' : Seg} (hc : c.near false b c' true) (k1 k2 : Bytes → Result) (xml : Bytes) :
    execBody env ev root c [] k1 k2 xml = execBody env ev root c' [] k1 k2 xml := by
  rcases hc.2 with rfl | hl
  · rfl
  · exact absurd hl.kinds.2 (by simp)

theorem execBody_lastO {env : Env} {ev : Filter → Elem → Bool} {cs root : Bool} {b : Prev} {c c' : Seg} (hc : c.near true b c' true) (k1 k2 : Bytes → Result) (xml : Bytes) :
    execBodyOpt env ev cs root c [] k1 k2 xml = execBodyOpt env ev cs root c' [] k1 k2 xml := by
  have h2 := hc.1
  rcases hc.2 with rfl | hl
  · rfl
  · rcases hl.2 with ⟨-, h⟩ | ⟨-, ⟨_, e⟩ | ⟨_, e⟩ | ⟨w, e⟩ | e | ⟨-, ⟨_, e⟩ | e⟩⟩
    · simp at h
    all_goals rw [e] at h2
    · simp only [execBodyOpt, e, ← h2, execElemOpt, isFragmentQuery, matches_kindO (e.trans h2) cs]; rfl
    · simp only [execBodyOpt, e, ← h2]
    · cases w <;> simp only [execBodyOpt, e, ← h2]
    all_goals simp only [execBodyOpt, e, ← h2]

theorem near_wild {opt : Bool} {c : Seg} {r r' : List Seg} (h : Near opt c.prev r r') (hk : c.kind = .wild false) : Near opt .list r r' := by
  simpa only [Seg.prev, hk] using h

theorem execBody_more {env : Env} {ev : Filter → Elem → Bool} {root : Bool} {c c' d d' : Seg} {r r' : List Seg} (hc : c.kind = c'.kind)
    (h1 : Near false c.prev (d :: r) (d' :: r')) (h2 : Near false d.prev r r') (k1 k2 : Bytes → Result) (xml : Bytes) :
    execBody env ev root c (d :: r) k1 k2 xml = execBody env ev root c' (d' :: r') k1 k2 xml := by
  have hd : d.near false c.prev d' r.isEmpty := by
    rcases h1 with ⟨e, -⟩ | ⟨x, x', t, t', e1, e2, -, h⟩
    · simp at e
    · simp only [List.cons.injEq] at e1 e2
      rw [e1.1, e1.2, e2.1]; exact h
  have hf : ∀ k xs, firstMatch env c (d :: r) k xs = firstMatch env c' (d' :: r') k xs := fun k xs => firstMatch_near h1 (.inr (by simp)) k xs
  have hdk := hd.1
  cases hk : c.kind with
  | elem v =>
    rw [hk] at hc
    have hm := matches_kind (hk.trans hc)
    have he : execElem env ev c (d :: r) k1 k2 xml = execElem env ev c' (d' :: r') k1 k2 xml := by
      simp only [execElem, hm, hf]
      cases hdd : d.kind with
      | field f =>
        rcases hd.2 with rfl | hl
        · simp only [hdd]
        · rcases hl.kinds.1 with ⟨_, e⟩ | ⟨_, e⟩ | ⟨_, e⟩ | ⟨_, _, e⟩ <;> rw [hdd] at e <;> cases e
      | filter f all =>
        rw [hdd] at hdk
        simp only [← hdk]
        exact routeFilter_near hdd h2 (near_filter hd hdd) _
      | index i =>
        rw [hdd] at hdk
        simp only [← hdk]
        exact arrayOp_near hd h2 _
      | count =>
        rw [hdd] at hdk
        simp only [← hdk]
        exact arrayOp_near hd h2 _
      | _ => rw [hdd] at hdk; simp only [← hdk]
    simp only [execBody, hk, ← hc, isFragmentQuery, hdk, he, fragmentRoots_near hd h2]
    rfl
  | filter f all =>
    rw [hk] at hc
    simp only [execBody, hk, ← hc]
    exact routeFilter_near hk h1 (.inr (by simp)) _
  | wild w =>
    rw [hk] at hc
    cases w with
    | true => simp only [execBody, hk, ← hc, handleRecursive, matches_kind hdk, recEmit_near h2]
    | false => simp only [execBody, hk, ← hc, handleWildcard_near (near_wild h1 hk)]; rfl
  | _ => rw [hk] at hc; simp only [execBody, hk, ← hc]

theorem execBody_moreO {env : Env} {ev : Filter → Elem → Bool} {cs root : Bool} {c c' d d' : Seg} {r r' : List Seg} (hc : c.kind = c'.kind)
    (h1 : Near true c.prev (d :: r) (d' :: r')) (h2 : Near true d.prev r r') (k1 k2 : Bytes → Result) (xml : Bytes) :
    execBodyOpt env ev cs root c (d :: r) k1 k2 xml = execBodyOpt env ev cs root c' (d' :: r') k1 k2 xml := by
  have hd : d.near true c.prev d' r.isEmpty := by
    rcases h1 with ⟨e, -⟩ | ⟨x, x', t, t', e1, e2, -, h⟩
    · simp at e
    · simp only [List.cons.injEq] at e1 e2
      rw [e1.1, e1.2, e2.1]; exact h
  have hf : ∀ k xs, firstMatchOpt env cs (d :: r) k xs = firstMatchOpt env cs (d' :: r') k xs := fun k xs => firstMatch_nearO h1 k xs
  have hdk := hd.1
  cases hk : c.kind with
  | elem v =>
    rw [hk] at hc
    have hm := matches_kindO (hk.trans hc) cs
    have he : execElemOpt env ev cs c (d :: r) k1 k2 xml = execElemOpt env ev cs c' (d' :: r') k1 k2 xml := by
      simp only [execElemOpt, hm, hf]
      cases hdd : d.kind with
      | field f =>
        rcases hd.2 with rfl | hl
        · simp only [hdd]
        · rcases hl.2 with ⟨⟨_, e⟩ | ⟨_, e⟩ | ⟨_, e⟩ | ⟨_, _, e⟩, -⟩ | ⟨-, ⟨_, e⟩ | ⟨_, e⟩ | ⟨_, e⟩ | e | ⟨-, ⟨_, e⟩ | e⟩⟩ <;> rw [hdd] at e <;> cases e
      | filter f all =>
        rw [hdd] at hdk
        simp only [← hdk]
        exact routeFilter_nearO hdd h2 (near_filter hd hdd) _
      | index i =>
        rw [hdd] at hdk
        simp only [← hdk]
        exact arrayOp_nearO hd h2 _
      | count =>
        rw [hdd] at hdk
        simp only [← hdk]
        exact arrayOp_nearO hd h2 _
      | _ => rw [hdd] at hdk; simp only [← hdk]
    simp only [execBodyOpt, hk, ← hc, isFragmentQuery, hdk, he, fragmentRoots_nearO hd h2]
    rfl
  | filter f all =>
    rw [hk] at hc
    simp only [execBodyOpt, hk, ← hc]
    exact routeFilter_nearO hk h1 (.inr (by simp)) _
  | wild w =>
    rw [hk] at hc
    cases w with
    | true => simp only [execBodyOpt, hk, ← hc, handleRecursiveOpt, matches_kindO hdk, recEmit_nearO h2]
    | false => simp only [execBodyOpt, hk, ← hc, handleWildcard_nearO (near_wild h1 hk)]
  | _ => rw [hk] at hc; simp only [execBodyOpt, hk, ← hc]

/-- Modifiers that are not looked at make no difference. -/
theorem execQ_unseen {env : Env} {ev : Filter → Elem → Bool} : ∀ (n : Nat) {b : Prev} {ss ss' : List Seg}, ss.length ≤ n → SegSame false b ss ss' → ∀ (root : Bool) (xml : Bytes),
    execQ env ev ss root xml = execQ env ev ss' root xml := by
  intro n
  induction n with
  | zero =>
    intro b ss ss' hl h root xml
    obtain rfl := List.eq_nil_of_length_eq_zero (Nat.le_zero.mp hl)
    cases h; rfl
  | succ n ih =>
    intro b ss ss' hl h root xml
    cases h with
    | nil => rfl
    | cons hc h =>
      cases h with
      | nil => exact execBody_last hc _ _ xml
      | cons hd h =>
        simp only [List.length_cons] at hl
        have hk1 := fun x => ih (by simp only [List.length_cons]; omega) (SegSame.cons hd h) false x
        have hk2 := fun x => ih (by omega) h false x
        rw [execQ_cons2, execQ_cons2, funext hk1, funext hk2]
        exact execBody_more hc.1 (SegSame.cons hd h).near h.near _ _ xml

theorem execQ_unseenO {env : Env} {ev : Filter → Elem → Bool} {cs : Bool} : ∀ (n : Nat) {b : Prev} {ss ss' : List Seg}, ss.length ≤ n → SegSame true b ss ss' → ∀ (root : Bool) (xml : Bytes),
    execQOpt env ev cs ss root xml = execQOpt env ev cs ss' root xml := by
  intro n
  induction n with
  | zero =>
    intro b ss ss' hl h root xml
    obtain rfl := List.eq_nil_of_length_eq_zero (Nat.le_zero.mp hl)
    cases h; rfl
  | succ n ih =>
    intro b ss ss' hl h root xml
    cases h with
    | nil => rfl
    | cons hc h =>
      cases h with
      | nil => exact execBody_lastO hc _ _ xml
      | cons hd h =>
        simp only [List.length_cons] at hl
        have hk1 := fun x => ih (by simp only [List.length_cons]; omega) (SegSame.cons hd h) false x
        have hk2 := fun x => ih (by omega) h false x
        rw [execQ_cons2O, execQ_cons2O, funext hk1, funext hk2]
        exact execBody_moreO hc.1 (SegSame.cons hd h).near h.near _ _ xml

/-! ### from the text of the steps -/

/-- The kind of a segment is decided by what stands before the first bar. -/
theorem isSeg_same {p p' : Bytes} {s s' : Seg} (h : IsSeg p s) (h' : IsSeg p' s') (hb : beforeBar p' = beforeBar p) : s.kind = s'.kind := by
  have key : ∀ {q : Bytes} {t : Seg}, IsSeg q t → ∃ mods, (if hasPrefix (beforeBar q) b!"#(" then parseFilterPart (beforeBar q) mods
    else if hasPrefix (beforeBar q) b!"@" then .seg ⟨.attr ((beforeBar q).drop 1), mods⟩
    else if beforeBar q = b!"%" then .seg ⟨.text, mods⟩
    else if beforeBar q = b!"#" then .seg ⟨.count, mods⟩
    else if beforeBar q = b!"*" then .seg ⟨.wild false, mods⟩
    else if beforeBar q = b!"**" then .seg ⟨.wild true, mods⟩
    else if isNumeric (beforeBar q) then .seg ⟨.index (atoi (beforeBar q)), mods⟩
    else .seg ⟨.elem (beforeBar q), mods⟩) = PartRes.seg t := by
    intro q t h
    unfold IsSeg parsePart at h
    split at h
    · cases h
    · simp only [beforeBar_eq] at h
      exact ⟨_, h⟩
  obtain ⟨m, e⟩ := key h
  obtain ⟨m', e'⟩ := key h'
  rw [hb] at e'
  split at e <;> rename_i h1
  · rw [if_pos h1] at e'
    rcases parseFilterPart_body (mods := m) h1 with ⟨x, all, _, hx, hr⟩ | ⟨_, hr⟩
    · rcases parseFilterPart_body (mods := m') h1 with ⟨x', all', _, hx', hr'⟩ | ⟨_, hr'⟩
      · rw [hr] at e
        rw [hr'] at e'
        have hxx : x = x' ∧ all = all' := filterPart_inj (hx.symm.trans hx')
        obtain ⟨rfl, rfl⟩ := hxx
        cases hc : parseFilterCondition x with
        | panic => rw [hc] at e; cases e
        | err => rw [hc] at e; cases e
        | ok f => rw [hc] at e e'; cases e; cases e'; rfl
      · rw [hr'] at e'; cases e'
    · rw [hr] at e; cases e
  · rw [if_neg h1] at e'
    repeat' split at e
    all_goals simp_all
    all_goals (subst e; subst e'; rfl)

theorem isSeg_prev {p : Bytes} {s : Seg} (h : IsSeg p s) : s.prev = prevOf p := by
  by_cases hf : b!"#(" <+: p
  · have hb := (prefix_beforeBar (z := b!"#(") (by decide)).mp hf
    have hb' : hasPrefix (beforeBar p) b!"#(" = true := by rw [hasPrefix, List.isPrefixOf_iff_prefix]; exact hb
    have n1 : ¬ (beforeBar p = b!"*" ∨ beforeBar p = b!"#") := by rintro (e | e) <;> rw [e] at hb <;> simp at hb
    unfold IsSeg parsePart at h
    rw [if_neg (by rintro e; rw [List.isEmpty_iff] at e; subst e; simp at hf)] at h
    simp only [beforeBar_eq, if_pos hb'] at h
    unfold prevOf
    rw [if_neg n1, if_pos (show b!"#(".isPrefixOf (beforeBar p) = true from hb')]
    unfold parseFilterPart at h
    simp only at h
    by_cases h2 : hasSuffix (beforeBar p) b!")#" = true
    · rw [if_pos h2] at h
      rw [if_pos (show b!")#".isSuffixOf (beforeBar p) = true from h2)]
      split at h
      · cases h
      · split at h <;> cases h
        rfl
    · rw [if_neg h2] at h
      rw [if_neg (show ¬ b!")#".isSuffixOf (beforeBar p) = true from h2)]
      split at h
      · split at h
        · cases h
        · split at h <;> cases h
          rfl
      · cases h
  · have hk := (isSeg_not_filter h hf).2
    have hb : ¬ b!"#(".isPrefixOf (beforeBar p) = true := by
      rw [List.isPrefixOf_iff_prefix]; exact fun hh => hf ((prefix_beforeBar (by decide)).mpr hh)
    unfold prevOf
    rw [if_neg hb]
    repeat' split at hk
    all_goals simp_all [Seg.prev]
    constructor <;> intro e <;> simp_all [hasPrefix]

theorem ignored_lax {opt : Bool} {b : Prev} {p : Bytes} {s : Seg} {last : Bool} (h : IsSeg p s) (hi : Ignored opt b p last) : s.lax opt b last := by
  have hk := isSeg_kind h
  refine ⟨hi.1, ?_⟩
  rcases hi.2 with ⟨h1, h2⟩ | ⟨h1, h2⟩
  · exact .inl ⟨isSeg_move h h1, h2⟩
  · refine .inr ⟨h1, ?_⟩
    rcases h2 with h2 | h2 | h2 | h2 | ⟨h2, h3 | h3⟩
    · exact .inl (hk.2.2.1.mp h2)
    · exact .inr (.inl ((isSeg_position h).mp h2))
    · exact .inr (.inr (.inl ((isSeg_wild h).mp h2)))
    · exact .inr (.inr (.inr (.inl (hk.2.1.mp h2))))
    · exact .inr (.inr (.inr (.inr ⟨h2, .inl (hk.1.mp h3)⟩)))
    · refine .inr (.inr (.inr (.inr ⟨h2, .inr ?_⟩)))
      have hf : ¬ b!"#(" <+: p := fun hf => by
        have hb := (prefix_beforeBar (z := b!"#(") (by decide)).mp hf
        rw [h3] at hb; simp at hb
      rw [(isSeg_not_filter h hf).2, h3]
      decide

theorem segSame_of {opt : Bool} {b : Prev} {ss ss' : List Bytes} (h : SameButMods opt b ss ss') : ∀ {segs segs' : List Seg}, All2 IsSeg ss segs → All2 IsSeg ss' segs' →
    SegSame opt b segs segs' := by
  induction h with
  | nil b => intro segs segs' h h'; cases h; cases h'; exact .nil b
  | same h ih =>
    intro segs segs' h1 h2
    cases h1 with
    | cons a as =>
    cases h2 with
    | cons a' as' =>
    have e : IsSeg _ _ := a
    unfold IsSeg at a a'
    rw [a] at a'
    cases a'
    exact .cons ⟨rfl, .inl rfl⟩ (by rw [isSeg_prev e]; exact ih as as')
  | @other b p p' ss ss' hi hb h ih =>
    intro segs segs' h1 h2
    cases h1 with
    | cons a as =>
    cases h2 with
    | cons a' as' =>
    refine .cons ⟨isSeg_same a a' hb, .inr ?_⟩ (by rw [isSeg_prev a]; exact ih as as')
    have := ignored_lax a hi
    cases as <;> exact this

theorem segSame_isEmpty {opt : Bool} {b : Prev} {r r' : List Seg} (h : SegSame opt b r r') : r.isEmpty = r'.isEmpty := by cases h <;> rfl

theorem segSame_fuse {opt : Bool} : ∀ (n : Nat) {b : Prev} {r r' : List Seg}, r.length ≤ n → SegSame opt b r r' → SegSame opt b (fuseFields r) (fuseFields r') := by
  intro n
  induction n with
  | zero =>
    intro b r r' hl h
    obtain rfl := List.eq_nil_of_length_eq_zero (Nat.le_zero.mp hl)
    cases h; exact .nil b
  | succ n ih =>
    intro b r r' hl h
    cases h with
    | nil => exact .nil b
    | @cons _ c c' ss ss' hc h =>
      cases h with
      | nil => exact .cons hc (.nil _)
      | @cons _ d d' t t' hd h =>
        simp only [List.length_cons] at hl
        have hall := ih (by simp only [List.length_cons]; omega) (SegSame.cons hd h)
        have hfree : SegSame opt b (c :: fuseFields (d :: t)) (c' :: fuseFields (d' :: t')) := by
          refine .cons ⟨hc.1, ?_⟩ hall
          rw [fuse_isEmpty]; exact hc.2
        rw [fuseFields, fuseFields, ← hc.1]
        by_cases hk : c.kind = .count
        · rw [if_pos hk, if_pos hk]
          have hp : c.prev = .list := by simp only [Seg.prev, hk]
          rw [hp] at hd
          have hdd : d = d' := by
            rcases hd.2 with e | e
            · exact e
            · exact absurd rfl e.1
          subst hdd
          split
          · rename_i f hf
            split
            · refine .cons ⟨rfl, .inl rfl⟩ ?_
              have hpd : d.prev = .plain := by
                unfold Seg.prev
                cases e : d.kind <;> rw [e] at hf <;> first | rfl | (cases hf)
              rw [hpd] at h
              exact ih (by omega) h
            · exact hfree
          · exact hfree
        · rw [if_neg hk, if_neg hk]; exact hfree

theorem lowIf_prev (cs : Bool) (s : Seg) : (lowIf cs s).prev = s.prev := by
  obtain ⟨k, m⟩ := s
  cases cs <;> cases k <;> rfl

theorem lowIf_lax {opt cs : Bool} {b : Prev} {s : Seg} {last : Bool} (h : s.lax opt b last) : (lowIf cs s).lax opt b last := by
  obtain ⟨k, m⟩ := s
  cases cs
  · cases k <;> simp_all [lowIf, lowerSeg, Seg.lax, Seg.step]
  · exact h

theorem segSame_low {opt : Bool} (cs : Bool) {b : Prev} {r r' : List Seg} (h : SegSame opt b r r') : SegSame opt b (r.map (lowIf cs)) (r'.map (lowIf cs)) := by
  induction h with
  | nil b => exact .nil b
  | @cons b c c' ss ss' hc h ih =>
    rw [List.map_cons, List.map_cons]
    refine .cons ⟨?_, ?_⟩ (by rw [lowIf_prev]; exact ih)
    · have := hc.1
      obtain ⟨k, m⟩ := c
      obtain ⟨k', m'⟩ := c'
      simp only at this
      subst this
      cases cs <;> cases k <;> rfl
    · rcases hc.2 with rfl | h2
      · exact .inl rfl
      · right
        have := lowIf_lax (cs := cs) h2
        simpa using this

end Verif
