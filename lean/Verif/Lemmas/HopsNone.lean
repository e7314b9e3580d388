import Verif.Lemmas.Hops
import Verif.Lemmas.Effect
/- Paths that lead nowhere, and steps that no element satisfies. -/
namespace Verif
open Spec

theorem picked_rep {o : Ord} {cs : Bool} {k : Pick} {data : Bytes} {i : Info} (h : Reads o data i) :
    All2 Rep ((topElems o data).filter (fun e => k.takes cs e.name)) (i.elems.filter (fun e => k.takes cs e.name)) :=
  All2.filter h fun _ _ hr => by rw [hr.name]

theorem spot_cons (cs : Bool) (k : Pick) (j : Nat) (hs : List Hop) (hp : hs ≠ []) (i : Info) :
    Info.spot cs ((k, j) :: hs) i = (i.elems.filter (fun e => k.takes cs e.name))[j]?.bind (fun e => e.kids.spot cs hs) := by
  cases hs with
  | nil => exact absurd rfl hp
  | cons => rfl

/-- Nothing is found where the steps lead nowhere, or lead to an element in which what follows is not found. -/
theorem findLoc_reach {o : Ord} (ho : o.IsPerm) {cs : Bool} {hs : List Hop} {ss : List Seg} (hss : HopSegs cs hs ss) (h0 : hs ≠ []) {data : Bytes} {i : Info} (h : Reads o data i) {r : List Seg} (hr : Fresh r)
    (hn : i.spot cs hs = none ∨ (r ≠ [] ∧ ∀ nd, i.spot cs hs = some nd → ∀ data base, Reads o data nd.kids → findLoc o cs r data base = none)) (base : Int) :
    findLoc o cs (ss ++ r) data base = none := by
  induction hs generalizing ss data i base with
  | nil => exact absurd rfl h0
  | cons hop hs ih =>
    obtain ⟨k, j⟩ := hop
    by_cases hb : base > maxPositionOffset
    · cases hss <;> (rw [List.cons_append, findLoc, if_pos hb])
    obtain ⟨ss', hss', hstep⟩ := findLoc_hop o hss
    rw [hstep r hr data base (by omega)]
    have hrep := picked_rep (cs := cs) (k := k) h
    cases hm : ((topElems o data).filter (fun e => k.takes cs e.name))[j]? with
    | none => rfl
    | some e =>
      obtain ⟨nd, h1, hR⟩ := hrep.get_some_left hm
      simp only
      cases hs with
      | nil =>
        cases hss'
        rw [Info.spot, h1] at hn
        rcases hn with hn | ⟨hn1, hn2⟩
        · cases hn
        · rw [if_neg (by simpa using hn1)]
          split
          · exact hn2 nd rfl _ _ (writes_reads ho hR.content)
          · rfl
      | cons h2 hs =>
        rw [if_neg (by have := hopSegs_ne hss' (by simp); simp [this])]
        split
        · refine ih hss' (by simp) (writes_reads ho hR.content) ?_ _
          rw [spot_cons _ _ _ _ (by simp), h1] at hn
          exact hn
        · rfl

/-- A segment that no element satisfies. -/
structure Never (cs : Bool) (s : Seg) : Prop where
  no : ∀ x, s.matchesOpt x cs = false
  index : ∀ i, s.kind ≠ .index i

theorem findLoc_never {o : Ord} {cs : Bool} {s : Seg} (h : Never cs s) (a b : List Seg) (data : Bytes) (base : Int) : findLoc o cs (a ++ s :: b) data base = none := by
  have key : ∀ n (a : List Seg) (data : Bytes) (base : Int), a.length ≤ n → findLoc o cs (a ++ s :: b) data base = none := by
    intro n
    induction n with
    | zero =>
      intro a data base ha
      have : a = [] := List.eq_nil_of_length_eq_zero (by omega)
      subst this
      rw [List.nil_append, findLoc]
      have : (topElems o data).filter (fun e => s.matchesOpt e.name cs) = [] := by simp [h.no]
      rw [this]
      split
      · rfl
      · cases b with
        | nil => rfl
        | cons t b => cases hk : t.kind <;> simp [hk]
    | succ n ih =>
      intro a data base ha
      cases a with
      | nil => exact ih [] data base (by simp)
      | cons x a =>
        rw [List.cons_append, findLoc]
        split
        · rfl
        cases a with
        | nil =>
          simp only [List.nil_append]
          cases hk : s.kind with
          | index i => exact absurd hk (h.index i)
          | _ =>
            simp only
            cases ((topElems o data).filter fun e => x.matchesOpt e.name cs).head? with
            | none => rfl
            | some e =>
              simp only
              split
              · exact ih [] _ _ (by simp)
              · rfl
        | cons y a =>
          simp only [List.cons_append]
          simp only [List.length_cons] at ha
          cases hk : y.kind with
          | index i =>
            simp only
            split
            · rfl
            cases ((topElems o data).filter fun e => x.matchesOpt e.name cs)[i.toNat]? with
            | none => rfl
            | some e =>
              simp only
              rw [if_neg (by simp)]
              split
              · exact ih a _ _ (by omega)
              · rfl
          | _ =>
            simp only
            cases ((topElems o data).filter fun e => x.matchesOpt e.name cs).head? with
            | none => rfl
            | some e =>
              simp only
              split
              · exact ih (y :: a) _ _ (by simp; omega)
              · rfl
  exact key _ a data base (Nat.le_refl _)

theorem isSeg_blind {cs : Bool} {p : Bytes} {s : Seg} (h : IsSeg p s) (hb : Blind p) : Never cs (lowIf cs s) ∧ Never cs s := by
  have key : (∀ n, s.kind ≠ .elem n) ∧ (∀ b, s.kind ≠ .wild b) ∧ ∀ i, s.kind ≠ .index i := by
    by_cases hf : b!"#(" <+: p
    · obtain ⟨f, all, hk⟩ := isSeg_filter h hf
      rw [hk]; simp
    · have hk := (isSeg_not_filter h hf).2
      rcases hb with hb | hb | hb | hb
      · exact absurd hb hf
      · rw [if_pos (by rw [hasPrefix, List.isPrefixOf_iff_prefix]; exact (prefix_beforeBar (by decide)).mp hb)] at hk
        rw [hk]; simp
      · rw [hb] at hk
        have hk : s.kind = .text := hk
        rw [hk]; simp
      · rw [hb] at hk
        have hk : s.kind = .count := hk
        rw [hk]; simp
  obtain ⟨k, m⟩ := s
  obtain ⟨k1, k2, k3⟩ := key
  simp only at k1 k2 k3
  cases k with
  | elem n => exact absurd rfl (k1 n)
  | wild b => exact absurd rfl (k2 b)
  | index i => exact absurd rfl (k3 i)
  | _ => cases cs <;> exact ⟨⟨fun x => rfl, fun i => by simp [lowIf, lowerSeg]⟩, ⟨fun x => rfl, fun i => by simp⟩⟩

theorem never_kind {cs : Bool} {s : Seg} : Never cs s ↔ (∀ n, s.kind ≠ .elem n) ∧ (∀ b, s.kind ≠ .wild b) ∧ ∀ i, s.kind ≠ .index i := by
  obtain ⟨k, m⟩ := s
  constructor
  · intro h
    refine ⟨fun n e => ?_, fun b e => ?_, h.index⟩
    · simp only at e; subst e
      have := h.no n
      have h2 := agrees_self cs n
      rw [← matchesOpt_agrees] at h2
      simp only [Seg.matchesOpt, nameSeg] at this h2
      rw [this] at h2; cases h2
    · simp only at e; subst e
      have := h.no []
      simp [Seg.matchesOpt] at this
  · rintro ⟨k1, k2, k3⟩
    simp only at k1 k2 k3
    cases k with
    | elem n => exact absurd rfl (k1 n)
    | wild b => exact absurd rfl (k2 b)
    | index i => exact absurd rfl (k3 i)
    | _ => exact ⟨fun x => rfl, fun i => by simp⟩

/-- Joining `#` with what follows keeps what no element satisfies. -/
theorem fuse_full (t : Seg) (b : List Seg) : fuseFields (t :: b) ≠ [] := by
  cases b with
  | nil => simp [fuseFields]
  | cons u b =>
    rw [fuse_cons2]
    cases joined t u <;> simp

theorem fuse_never {cs : Bool} {a b : List Seg} {s : Seg} (h : Never cs s) : ∃ a' s' b', fuseFields (a ++ s :: b) = a' ++ s' :: b' ∧ Never cs s' ∧ (b = [] → b' = []) ∧ (b' = [] → b = [] ∨ ∃ f, s'.kind = .field f) := by
  have field : ∀ f m, Never cs ⟨.field f, m⟩ := fun f m => never_kind.mpr (by simp)
  have key : ∀ n (a : List Seg) (s : Seg) (b : List Seg), a.length ≤ n → Never cs s → ∃ a' s' b', fuseFields (a ++ s :: b) = a' ++ s' :: b' ∧ Never cs s' ∧ (b = [] → b' = []) ∧ (b' = [] → b = [] ∨ ∃ f, s'.kind = .field f) := by
    intro n
    induction n with
    | zero =>
      intro a s b ha h
      have : a = [] := List.eq_nil_of_length_eq_zero (by omega)
      subst this
      cases b with
      | nil => exact ⟨[], s, [], rfl, h, fun _ => rfl, fun _ => .inl rfl⟩
      | cons t b =>
        rw [List.nil_append, fuse_cons2]
        cases hj : joined s t with
        | none => exact ⟨[], s, _, rfl, h, fun h => by (cases h), fun h => absurd h (fuse_full _ _)⟩
        | some x => obtain ⟨_, ⟨f, _, rfl⟩, _⟩ := joined_facts hj; exact ⟨[], _, _, rfl, field _ _, fun h => by (cases h), fun _ => .inr ⟨_, rfl⟩⟩
    | succ n ih =>
      intro a s b ha h
      cases a with
      | nil => exact ih [] s b (by simp) h
      | cons x a =>
        simp only [List.length_cons] at ha
        cases a with
        | nil =>
          rw [List.cons_append, List.nil_append, fuse_cons2]
          cases hj : joined x s with
          | none =>
            obtain ⟨a', s', b', e1, e2, e3⟩ := ih [] s b (by simp) h
            rw [List.nil_append] at e1
            simp only
            rw [e1]; exact ⟨x :: a', s', b', rfl, e2, e3⟩
          | some y =>
            obtain ⟨_, ⟨f, _, rfl⟩, _⟩ := joined_facts hj
            exact ⟨[], _, fuseFields b, rfl, field _ _, fun h => by (subst h; rfl), fun _ => .inr ⟨_, rfl⟩⟩
        | cons y a =>
          simp only [List.cons_append, List.length_cons] at ha ⊢
          rw [fuse_cons2]
          cases hj : joined x y with
          | none =>
            obtain ⟨a', s', b', e1, e2, e3⟩ := ih (y :: a) s b (by simp; omega) h
            rw [List.cons_append] at e1
            simp only
            rw [e1]; exact ⟨x :: a', s', b', rfl, e2, e3⟩
          | some z =>
            obtain ⟨a', s', b', e1, e2, e3⟩ := ih a s b (by omega) h
            simp only
            rw [e1]; exact ⟨z :: a', s', b', rfl, e2, e3⟩
  exact key _ a s b (Nat.le_refl _) h

/-! ### the two descriptions of where steps lead agree -/

theorem tops_getP {p : Bytes → Bool} (b : Forest) (e : El) (a : Forest) (hn : p e.name = true) :
    ((tops (b.append (e.cons a))).filter (fun t => p t.2.1.name))[(b.info.elems.filter (fun x => p x.name)).length]? = some (b, e, a) := by
  have hlen : (((tops b).map (fun t => (t.1, t.2.1, t.2.2.append (e.cons a)))).filter (fun t => p t.2.1.name)).length = (b.info.elems.filter (fun x => p x.name)).length := by
    rw [← tops_elems, List.filter_map, List.filter_map, List.length_map, List.length_map]; rfl
  rw [tops_append, List.filter_append, ← hlen, List.getElem?_append_right (Nat.le_refl _), Nat.sub_self, tops_cons]
  simp [hn, append_nil]

theorem tops_countP {p : Bytes → Bool} {f : Forest} {j : Nat} {t : Forest × El × Forest} (h : ((tops f).filter (fun t => p t.2.1.name))[j]? = some t) :
    f = t.1.append (t.2.1.cons t.2.2) ∧ p t.2.1.name = true ∧ (t.1.info.elems.filter (fun x => p x.name)).length = j := by
  have hm := List.mem_of_getElem? h
  obtain ⟨hm1, hm2⟩ := List.mem_filter.mp hm
  have hf := tops_mem hm1
  refine ⟨hf, hm2, ?_⟩
  obtain ⟨b, e, a⟩ := t
  simp only at hf hm2 ⊢
  clear hm hm1
  have push : ∀ {l : List (Forest × El × Forest)} {k : Forest → Forest} {j : Nat} {t : Forest × El × Forest},
      ((l.map (fun t => (k t.1, t.2))).filter (fun t => p t.2.1.name))[j]? = some t →
      ∃ s, (l.filter (fun t => p t.2.1.name))[j]? = some s ∧ t = (k s.1, s.2) := by
    intro l k j t h
    rw [List.filter_map, List.getElem?_map] at h
    change Option.map _ (l.filter (fun t => p t.2.1.name))[j]? = _ at h
    cases hs : (l.filter (fun t => p t.2.1.name))[j]? with
    | none => rw [hs] at h; simp at h
    | some s => rw [hs] at h; simp only [Option.map_some, Option.some.injEq] at h; exact ⟨s, rfl, h.symm⟩
  have head : ∀ {e : El} {a : Forest} {k : Forest → Forest} {l : List (Forest × El × Forest)} {j : Nat} {t : Forest × El × Forest},
      (∀ {j : Nat} {t : Forest × El × Forest}, (l.filter (fun t => p t.2.1.name))[j]? = some t → (t.1.info.elems.filter (fun x => p x.name)).length = j) →
      (∀ f, (k f).info.elems = e.node :: f.info.elems) →
      (((.nil, e, a) :: l.map (fun t => (k t.1, t.2))).filter (fun t => p t.2.1.name))[j]? = some t → (t.1.info.elems.filter (fun x => p x.name)).length = j := by
    intro e a k l j t ih hk h
    rw [List.filter_cons] at h
    by_cases hmn : p e.name = true
    · rw [if_pos hmn] at h
      cases j with
      | zero => simp only [List.getElem?_cons_zero, Option.some.injEq] at h; subst h; rfl
      | succ j =>
        rw [List.getElem?_cons_succ] at h
        obtain ⟨s, hs, rfl⟩ := push h
        rw [hk, List.filter_cons, if_pos (by simpa [El.node] using hmn), List.length_cons, ih hs]
    · rw [if_neg hmn] at h
      obtain ⟨s, hs, rfl⟩ := push h
      rw [hk, List.filter_cons, if_neg (by simpa [El.node] using hmn), ih hs]
  have main : ∀ (f : Forest) {j : Nat} {t : Forest × El × Forest}, ((tops f).filter (fun t => p t.2.1.name))[j]? = some t → (t.1.info.elems.filter (fun x => p x.name)).length = j := by
    intro f
    induction f with
    | nil => intro j t h; simp [tops] at h
    | text b next ih => intro j t h; obtain ⟨s, hs, rfl⟩ := push (k := Forest.text b) h; exact (ih hs :)
    | misc m next ih => intro j t h; obtain ⟨s, hs, rfl⟩ := push (k := Forest.misc m) h; exact (ih hs :)
    | leaf nm as ws next ih => intro j t h; exact head (k := Forest.leaf nm as ws) (fun h => ih h) (fun f => rfl) h
    | node nm as ws kk cws next _ ih => intro j t h; exact head (k := Forest.node nm as ws kk cws) (fun h => ih h) (fun f => rfl) h
  exact main f h

theorem picked_tops (p : Bytes → Bool) (f : Forest) : f.info.elems.filter (fun x => p x.name) = ((tops f).filter (fun t => p t.2.1.name)).map (fun t => t.2.1.node) := by
  rw [← tops_elems, List.filter_map]; rfl

theorem reach_spot {cs : Bool} {hs : List Hop} {c : Ctx} {e : El} (h : Reach cs hs c e.name) : (c.plug (e.cons .nil)).info.spot cs hs = some e.node := by
  induction hs generalizing c with
  | nil => simp [Reach] at h
  | cons p hs ih =>
    obtain ⟨k, j⟩ := p
    cases c with
    | here b a =>
      cases hs with
      | cons => simp [Reach] at h
      | nil =>
        obtain ⟨h1, rfl⟩ := h
        have hf' : (Ctx.here b a).plug (e.cons .nil) = b.append (e.cons a) := by rw [Ctx.plug, cons_append]; rfl
        rw [Info.spot, hf', picked_tops, List.getElem?_map, Info.count, tops_getP (p := k.takes cs) b e a h1]; rfl
    | within b m as ws c cws a =>
      cases hs with
      | nil => simp [Reach] at h
      | cons p2 hs =>
        obtain ⟨h1, rfl, h2⟩ := h
        have hf' : (Ctx.within b m as ws c cws a).plug (e.cons .nil) = b.append ((⟨m, as, ws, some (c.plug (e.cons .nil), cws)⟩ : El).cons a) := rfl
        rw [spot_cons _ _ _ _ (by simp), hf', picked_tops, List.getElem?_map, Info.count, tops_getP (p := k.takes cs) b _ a h1]
        exact ih h2

theorem spot_reach {cs : Bool} {hs : List Hop} {f : Forest} {nd : Node} (h : f.info.spot cs hs = some nd) : ∃ c e, f = c.plug (El.cons e .nil) ∧ Reach cs hs c e.name ∧ e.node = nd := by
  induction hs generalizing f with
  | nil => simp [Info.spot] at h
  | cons p hs ih =>
    obtain ⟨k, j⟩ := p
    cases hs with
    | nil =>
      rw [Info.spot, picked_tops (k.takes cs), List.getElem?_map] at h
      cases ht : ((tops f).filter (fun t => k.takes cs t.2.1.name))[j]? with
      | none => rw [ht] at h; simp at h
      | some t =>
        rw [ht] at h
        simp only [Option.map_some, Option.some.injEq] at h
        obtain ⟨h1, h2, h3⟩ := tops_countP (p := k.takes cs) ht
        exact ⟨.here t.1 t.2.2, t.2.1, by rw [Ctx.plug, cons_append]; exact h1, ⟨h2, h3⟩, h⟩
    | cons p2 hs =>
      rw [spot_cons _ _ _ _ (by simp), picked_tops (k.takes cs), List.getElem?_map] at h
      cases ht : ((tops f).filter (fun t => k.takes cs t.2.1.name))[j]? with
      | none => rw [ht] at h; simp at h
      | some t =>
        rw [ht] at h
        simp only [Option.map_some, Option.bind_some] at h
        obtain ⟨h1, h2, h3⟩ := tops_countP (p := k.takes cs) ht
        obtain ⟨b, ⟨m, as, ws, body⟩, a⟩ := t
        cases body with
        | none =>
          obtain ⟨c, e, hk, -⟩ := ih (f := .nil) h
          exfalso
          have hk := congrArg Forest.render hk
          rw [plug_render, cons_render] at hk
          have := congrArg List.length hk
          simp [Forest.render, El.render, El.start, openTag] at this
        | some q =>
          obtain ⟨kk, cws⟩ := q
          obtain ⟨c, e, hk, hL, hn⟩ := ih (f := kk) h
          exact ⟨.within b m as ws c cws a, e, by rw [Ctx.plug, ← hk]; exact h1, ⟨h2, h3, hL⟩, hn⟩

end Verif
