import Verif.Lemmas.Mods
/- Modifiers at the end of a path that goes through `*` or `#(…)#`. -/
namespace Verif
open Spec

section
variable {env : Env} {ev : Filter → Elem → Bool} {d t : Prop} {names : List Bytes}

/-- A list of results with the modifiers applied to each of them, and to all of it together if `twice`. -/
def modEach (env : Env) (names : List Bytes) (twice : Bool) (r : Result) : Result :=
  if r.array = [] then r
  else
    let q := packResults (r.array.flatMap fun x => (applyModifiers env.mods x names).array)
    if twice then applyModifiers env.mods q names else q

theorem modEach_null {twice : Bool} : modEach env names twice .null = .null := if_pos rfl

/-- The modifiers make results of a result. -/
def Fruitful (env : Env) (names : List Bytes) : Prop :=
  ∀ r : Result, Single r → (applyModifiers env.mods r names).array ≠ [] ∧ ∀ x ∈ (applyModifiers env.mods r names).array, Single x

theorem pack_array {rs : List Result} (h : ∀ r ∈ rs, Single r) : (packResults rs).array = rs := by
  match rs with
  | [] => rfl
  | [r] =>
    have := h r (by simp)
    show r.array = [r]
    rw [Result.array, if_neg this.1, if_neg this.2]
  | r :: q :: l => rfl

theorem pack_raw {rs : List Result} (h : ∀ r ∈ rs, Single r) : (packResults rs).typ = .array → (packResults rs).raw = [] := by
  match rs with
  | [] => exact fun _ => rfl
  | [r] => exact fun e => absurd e (h r (by simp)).1
  | r :: q :: l => exact fun _ => rfl

theorem pack_typ {rs : List Result} (hne : rs ≠ []) (h : ∀ r ∈ rs, Single r) : (packResults rs).typ ≠ .null := by
  intro e
  have := null_array e
  rw [pack_array h] at this
  exact hne this

theorem each_single (hf : Fruitful env names) {rs : List Result} (h : ∀ r ∈ rs, Single r) :
    (rs ≠ [] → (rs.flatMap fun x => (applyModifiers env.mods x names).array) ≠ []) ∧ ∀ y ∈ rs.flatMap fun x => (applyModifiers env.mods x names).array, Single y := by
  refine ⟨fun hne e => ?_, fun y hy => ?_⟩
  · cases rs with
    | nil => exact hne rfl
    | cons r rs =>
      rw [List.flatMap_cons, List.append_eq_nil_iff] at e
      exact (hf r (h r (by simp))).1 e.1
  · obtain ⟨x, hx, hy⟩ := List.mem_flatMap.mp hy
    exact (hf x (h x hx)).2 y hy

theorem modEach_typ (hk : NoLoss env names) (hf : Fruitful env names) {twice : Bool} {r : Result} (hr : ∀ x ∈ r.array, Single x) :
    (modEach env names twice r).typ = .null ↔ r.typ = .null := by
  unfold modEach
  split
  · rfl
  · rename_i h
    obtain ⟨e1, e2⟩ := each_single hf hr
    refine ⟨fun e => absurd e ?_, fun e => absurd (null_array e) h⟩
    simp only
    split
    · exact hk _ (by rw [pack_array e2]; exact e1 h) (by rw [pack_array e2]; exact e2) (pack_raw e2)
    · exact pack_typ (e1 h) e2

/-- What a list of elements hands on. -/
theorem each_lists {K K' : Bytes → Result} (hK : ∀ x, K' x = modOn env names (K x)) (h1 : ∀ x, (K x).typ ≠ .array) (ms : List Elem) :
    (∀ r ∈ ms.flatMap (fun m => asList (K m.content)), Single r) ∧
    (ms.flatMap fun m => asList (K' m.content)) = (ms.flatMap fun m => asList (K m.content)).flatMap fun x => (applyModifiers env.mods x names).array := by
  have hs : ∀ x, K x = .null ∨ (K x).typ = .null ∨ Single (K x) := fun x => by
    by_cases h : (K x).typ = .null
    · exact .inr (.inl h)
    · exact .inr (.inr ⟨h1 x, h⟩)
  have ha : ∀ x, asList (K x) = [] ∧ (K x).array = [] ∨ asList (K x) = [K x] ∧ Single (K x) := fun x => by
    by_cases h : (K x).typ = .null
    · exact .inl ⟨by simp [asList, h], null_array h⟩
    · exact .inr ⟨by simp [asList, h, h1 x], h1 x, h⟩
  refine ⟨fun r hr => ?_, ?_⟩
  · obtain ⟨m, -, hm⟩ := List.mem_flatMap.mp hr
    rcases ha m.content with ⟨e, -⟩ | ⟨e, e2⟩
    · rw [e] at hm; simp at hm
    · rw [e] at hm; simp at hm; subst hm; exact e2
  · rw [List.flatMap_assoc]
    congr 1
    funext m
    rw [hK]
    rcases ha m.content with ⟨e, e2⟩ | ⟨e, e2⟩
    · rw [e, modOn, if_pos e2, asList_eq, e2]; rfl
    · rw [e, modOn_some (array_ne e2), asList_eq]; simp

/-- What is made of the list. -/
theorem list_mods (hf : Fruitful env names) {K K' : Bytes → Result} (hK : ∀ x, K' x = modOn env names (K x)) (h1 : ∀ x, (K x).typ ≠ .array) (ms : List Elem) {md' : List Bytes} {twice : Bool}
    (hmd : md' = if twice then names else []) :
    (if (ms.flatMap fun m => asList (K' m.content)).isEmpty then Result.null else applyModifiers env.mods (packResults (ms.flatMap fun m => asList (K' m.content))) md') =
      modEach env names twice (if (ms.flatMap fun m => asList (K m.content)).isEmpty then .null else packResults (ms.flatMap fun m => asList (K m.content))) := by
  obtain ⟨k1, k2⟩ := each_lists hK h1 ms
  rw [k2]
  generalize (ms.flatMap fun m => asList (K m.content)) = l at k1
  obtain ⟨e1, e2⟩ := each_single hf k1
  cases l with
  | nil => exact modEach_null.symm
  | cons a l =>
    rw [if_neg (by simpa [List.isEmpty_iff] using e1 (by simp)), if_neg (by simp), modEach, pack_array k1, if_neg (by simp), hmd]
    cases twice
    · simp [runMods_nil]
    · rfl

theorem processAll_list {ms : List Elem} {seg s : Seg} {rest : List Seg} {K : Bytes → Result} (hs : s.kind.isMove = true) :
    processAll env ms seg (s :: rest) K = if (ms.flatMap fun m => asList (K m.content)).isEmpty then .null else applyModifiers env.mods (packResults (ms.flatMap fun m => asList (K m.content))) s.mods := by
  obtain ⟨kind, md⟩ := s
  cases kind <;> simp [SegKind.isMove] at hs <;> rfl

theorem handleWildcard_list {ms : List Elem} {s : Seg} {rest : List Seg} {K : Bytes → Result} (hs : s.kind.isMove = true)
    (h : (ms.flatMap fun m => asList (K m.content)) = [] → ∀ m ∈ ms, (K m.content).typ ≠ .array) :
    handleWildcard env ms (s :: rest) K = if (ms.flatMap fun m => asList (K m.content)).isEmpty then .null else applyModifiers env.mods (packResults (ms.flatMap fun m => asList (K m.content))) s.mods := by
  have hb : (ms.flatMap fun m => asList (K m.content)) = [] → (ms.any fun m => decide ((K m.content).typ = .array) && (K m.content).results.isEmpty) = false := fun e => by
    rw [List.any_eq_false]
    intro m hm
    simp [h e m hm]
  obtain ⟨kind, md⟩ := s
  cases kind <;> simp [SegKind.isMove] at hs <;> simp only [handleWildcard]
  all_goals
    by_cases he : (ms.flatMap fun m => asList (K m.content)) = []
    · simp only [he, hb he, List.isEmpty_nil, if_true, Bool.false_eq_true, if_false]
    · rw [if_neg (by simpa [List.isEmpty_iff] using he), if_neg (by simpa [List.isEmpty_iff] using he)]

/-- Going on after a move that collects. -/
theorem gather_mods (hf : Fruitful env names) {S : List Seg} {m : Move} (hm : MoveSegs d t ev S m) (hg : m = .any ∨ ∃ n p, m = .satAll n p) {s s' : Seg} {r r' : List Seg}
    (hs : s.kind.isMove = true) (hs' : s'.kind = s.kind) (hmd : s.mods = []) {twice : Bool} (hmd' : s'.mods = if twice then names else [])
    (hK : ∀ x, execQ env ev (s' :: r') false x = modOn env names (execQ env ev (s :: r) false x)) (h1 : ∀ x, (execQ env ev (s :: r) false x).typ ≠ .array) (root : Bool) (xml : Bytes) :
    execQ env ev (S ++ s' :: r') root xml = modEach env names twice (execQ env ev (S ++ s :: r) root xml) := by
  have hroute : ∀ (ms : List Elem) (seg : Seg), routeFilter env ms seg true (s' :: r') (execQ env ev (s' :: r') false) = modEach env names twice (routeFilter env ms seg true (s :: r) (execQ env ev (s :: r) false)) := by
    intro ms seg
    cases ms with
    | nil => exact modEach_null.symm
    | cons m ms =>
      simp only [routeFilter, if_true]
      rw [processAll_list hs, processAll_list (hs' ▸ hs), hmd, list_mods hf hK h1 _ hmd']
      simp only [runMods_nil]
  rcases hg with rfl | ⟨n, p, rfl⟩
  · cases hm
    simp only [List.cons_append, List.nil_append, exec_wild]
    split
    · exact modEach_null.symm
    · rw [handleWildcard_list hs (fun _ m _ => h1 _), handleWildcard_list (hs' ▸ hs), hmd, list_mods hf hK h1 _ hmd']
      · simp only [runMods_nil]
      · intro e m hm' ht
        rw [hK] at ht
        unfold modOn at ht
        split at ht
        · exact h1 _ ht
        · rename_i hne
          have hx : asList (execQ env ev (s' :: r') false m.content) = [] := List.flatMap_eq_nil_iff.mp e m hm'
          have hsg : Single (execQ env ev (s :: r) false m.content) := ⟨h1 _, fun e => hne (null_array e)⟩
          rw [hK, modOn_some hne, asList_eq] at hx
          exact (hf _ hsg).1 hx
  · cases hm with
    | satAll n f p hp => simp only [List.cons_append, List.nil_append, exec_name_filter]; exact hroute _ _
    | satAllF f p hp => simp only [List.cons_append, List.nil_append, exec_filter]; exact hroute _ _

/-- Going on after a move to one element, whatever is done with what is found. -/
theorem single_mods' {M : Result → Result} (h0 : M .null = .null) {S : List Seg} {m : Move} (hm : MoveSegs d t ev S m)
    (h1 : m.single = true) {s s' : Seg} {r r' : List Seg} (hs : s.kind.isMove = true) (hs' : s'.kind = s.kind)
    (hfree : (∃ x, m = .name x) → s.kind.isStep = true)
    (hK : ∀ x, execQ env ev (s' :: r') false x = M (execQ env ev (s :: r) false x)) (ht : ∀ x, (M (execQ env ev (s :: r) false x)).typ = .null ↔ (execQ env ev (s :: r) false x).typ = .null)
    (root : Bool) (xml : Bytes) :
    execQ env ev (S ++ s' :: r') root xml = M (execQ env ev (S ++ s :: r) root xml) := by
  have hroute : ∀ (ms : List Elem) (seg : Seg), routeFilter env ms seg false (s' :: r') (execQ env ev (s' :: r') false) = M (routeFilter env ms seg false (s :: r) (execQ env ev (s :: r) false)) := by
    intro ms seg
    cases ms with
    | nil => exact h0.symm
    | cons m ms =>
      simp only [routeFilter, Bool.false_eq_true, if_false]
      rw [processFirst_move (hs' ▸ hs), processFirst_move hs, hK]
  cases hm with
  | name n =>
    have h2 := hfree ⟨n, rfl⟩
    rw [List.singleton_append, List.singleton_append, exec_step env ev n s r root xml h2, exec_step env ev n s' r' root xml (hs' ▸ h2)]
    rw [← firstSome_mod h0 ht]
    congr 1
    funext x; exact hK x
  | nth n j i hij =>
    simp only [List.cons_append, List.nil_append, execQ]
    obtain ⟨kind, md⟩ := s
    obtain ⟨kind', md'⟩ := s'
    simp only at hs'; subst hs'
    cases root with
    | true =>
      simp only [execBody, nameSeg, isFragmentQuery, SegKind.isRootOp, Bool.and_self, if_true, fragmentRoots]
      split
      · exact h0.symm
      · split
        · exact h0.symm
        · split
          · exact h0.symm
          · cases kind' <;> simp [SegKind.isMove] at hs <;> exact hK _
    | false =>
      simp only [execBody, nameSeg, isFragmentQuery, Bool.false_and, Bool.false_eq_true, if_false, execElem, arrayOp]
      split
      · exact h0.symm
      · split
        · exact h0.symm
        · split
          · exact h0.symm
          · cases kind' <;> simp [SegKind.isMove] at hs <;> exact hK _
  | sat n f p hp => simp only [List.cons_append, List.nil_append, exec_name_filter]; exact hroute _ _
  | satF f p hp => simp only [List.cons_append, List.nil_append, exec_filter]; exact hroute _ _
  | _ => simp [Move.single] at h1

theorem firstSome_typ {K : Bytes → Result} (h : ∀ x, (K x).typ ≠ .array) (l : List Bytes) : (firstSome K l).typ ≠ .array := by
  induction l with
  | nil => simp [firstSome, Result.null]
  | cons c l ih =>
    simp only [firstSome]
    split
    · exact ih
    · exact h c

theorem null_flat : (Result.null).typ ≠ .array := by simp [Result.null]
theorem content_flat (c : Bytes) : (Result.ofContent c).typ ≠ .array := (content_single c).1
theorem attr_flat (c : Bytes) : (Result.ofAttr c).typ ≠ .array := (attr_single c).1
theorem text_flat (c : Bytes) : (Result.ofText c).typ ≠ .array := (text_single c).1
theorem count_flat (n : Nat) : (Result.ofCount n).typ ≠ .array := by simp

/-- Going on after a move to one element: no list comes from it. -/
theorem single_flat {S : List Seg} {m : Move} (hm : MoveSegs d t ev S m)
    (h1 : m.single = true) {s : Seg} {r : List Seg} (hs : s.kind.isMove = true)
    (hfree : (∃ x, m = .name x) → s.kind.isStep = true)
    (hK : ∀ x, (execQ env ev (s :: r) false x).typ ≠ .array) (root : Bool) (xml : Bytes) :
    (execQ env ev (S ++ s :: r) root xml).typ ≠ .array := by
  have hroute : ∀ (ms : List Elem) (seg : Seg), (routeFilter env ms seg false (s :: r) (execQ env ev (s :: r) false)).typ ≠ .array := by
    intro ms seg
    cases ms with
    | nil => exact null_flat
    | cons m ms =>
      simp only [routeFilter, Bool.false_eq_true, if_false]
      rw [processFirst_move hs]; exact hK _
  cases hm with
  | name n =>
    have h2 := hfree ⟨n, rfl⟩
    rw [List.singleton_append, exec_step env ev n s r root xml h2]
    exact firstSome_typ hK _
  | nth n j i hij =>
    simp only [List.cons_append, List.nil_append, execQ]
    obtain ⟨kind, md⟩ := s
    cases root with
    | true =>
      simp only [execBody, nameSeg, isFragmentQuery, SegKind.isRootOp, Bool.and_self, if_true, fragmentRoots]
      split
      · exact null_flat
      · split
        · exact null_flat
        · split
          · exact null_flat
          · cases kind <;> simp [SegKind.isMove] at hs <;> exact hK _
    | false =>
      simp only [execBody, nameSeg, isFragmentQuery, Bool.false_and, Bool.false_eq_true, if_false, execElem, arrayOp]
      split
      · exact null_flat
      · split
        · exact null_flat
        · split
          · exact null_flat
          · cases kind <;> simp [SegKind.isMove] at hs <;> exact hK _
  | sat n f p hp => simp only [List.cons_append, List.nil_append, exec_name_filter]; exact hroute _ _
  | satF f p hp => simp only [List.cons_append, List.nil_append, exec_filter]; exact hroute _ _
  | _ => simp [Move.single] at h1

theorem last_flat {S : List Seg} {m : Move} (hm : MoveSegs d t ev S m) (h1 : m.single = true) (g : Goal) (hg : g.isField = false) (xml : Bytes) :
    (execQ env ev (S ++ goalSegs g) false xml).typ ≠ .array := by
  have hroute : ∀ (ms : List Elem) (kind : SegKind), (routeFilter env ms ⟨kind, []⟩ false (goalSegs g) (execQ env ev (goalSegs g) false)).typ ≠ .array := by
    intro ms kind
    cases ms with
    | nil => exact null_flat
    | cons m ms =>
      simp only [routeFilter, Bool.false_eq_true, if_false]
      cases g <;> simp [Goal.isField] at hg <;> simp only [goalSegs, processFirst, runMods_nil, Goal.isField]
      · exact content_flat _
      · split
        · exact attr_flat _
        · exact null_flat
      · exact text_flat _
      · simp only [execQ, execBody]; exact null_flat
  cases hm with
  | sat n f p hp => simp only [List.cons_append, List.nil_append, exec_name_filter]; exact hroute _ _
  | satF f p hp => simp only [List.cons_append, List.nil_append, exec_filter]; exact hroute _ _
  | name n =>
    cases g <;> simp [Goal.isField] at hg <;>
      simp only [List.cons_append, List.nil_append, goalSegs, execQ, execBody, nameSeg, isFragmentQuery, SegKind.isRootOp, Bool.false_and, Bool.false_eq_true, if_false, execElem, namedE_filter, arrayOp, runMods_nil, Goal.isField]
    · cases namedE env.ord n xml <;> simp only [firstMatch, runMods_nil]
      · exact null_flat
      · exact content_flat _
    · cases namedE env.ord n xml <;> simp only [firstMatch, runMods_nil]
      · exact null_flat
      · split
        · first | exact attr_flat _ | (split <;> first | exact attr_flat _ | exact null_flat)
        · exact null_flat
    · cases namedE env.ord n xml <;> simp only [firstMatch, runMods_nil]
      · exact null_flat
      · exact text_flat _
    · split
      · exact null_flat
      · exact count_flat _
  | nth n j i hij =>
    cases g <;> simp [Goal.isField] at hg <;>
      simp only [List.cons_append, List.nil_append, goalSegs, execQ, execBody, nameSeg, isFragmentQuery, Bool.false_and, Bool.false_eq_true, if_false, execElem, arrayOp, Goal.isField, runMods_nil, List.isEmpty_nil, if_true]
    all_goals
      split
      · exact null_flat
      · split
        · exact null_flat
        · split
          · exact null_flat
          · first
            | exact null_flat
            | exact content_flat _
            | exact text_flat _
            | (split
               · exact attr_flat _
               · exact null_flat)
  | _ => simp [Move.single] at h1

/-- A path of moves to one element finds no list. -/
theorem exec_flat {Ss : List (List Seg)} {ms : List Move} (hm : All2 (MoveSegs d t ev) Ss ms) (hne : ms ≠ []) (hp : Proper ms) (h1 : ∀ m ∈ ms, m.single = true) (g : Goal) (hg : g.isField = false)
    (xml : Bytes) : (execQ env ev (Ss.flatten ++ goalSegs g) false xml).typ ≠ .array := by
  induction hm generalizing xml with
  | nil => exact absurd rfl hne
  | @cons S m Ss ms hS hSs ih =>
    cases hSs with
    | nil =>
      simp only [List.flatten_cons, List.flatten_nil, List.append_nil]
      exact last_flat hS (h1 m (by simp)) g hg xml
    | @cons S2 m2 Ss2 ms2 hS2 hSs2 =>
      obtain ⟨s, S', rfl, hs, -, hst, -⟩ := moveSegs_head hS2
      have hp2 : Proper (m2 :: ms2) := by cases m <;> first | exact hp.2 | exact hp
      have hfree : (∃ x, m = .name x) → s.kind.isStep = true := by
        rintro ⟨x, rfl⟩; exact hst hp.1
      have ih' := ih (by simp) hp2 (fun x hx => h1 x (by simp [hx]))
      simp only [List.flatten_cons, List.cons_append, List.append_assoc] at ih' ⊢
      exact single_flat hS (h1 m (by simp)) hs hfree ih' false xml

theorem proper_tail {m : Move} {ms : List Move} (hp : Proper (m :: ms)) : Proper ms := by
  cases ms with
  | nil => trivial
  | cons m2 ms2 => cases m <;> first | exact hp.2 | exact hp

theorem addMods_single (names : List Bytes) (s : Seg) (r : List Seg) : ∃ s' r', addMods names (s :: r) = s' :: r' ∧ s'.kind = s.kind ∧ s'.mods = (if r.isEmpty then names else s.mods) := by
  cases r with
  | nil => exact ⟨_, _, rfl, rfl, rfl⟩
  | cons t r => exact ⟨s, _, rfl, rfl, rfl⟩

/-- A path with one move that collects, and moves to one element before and after it. -/
theorem exec_list (hk : NoLoss env names) (hf : Fruitful env names) {Ss Rs : List (List Seg)} {G : List Seg} {ns ms : List Move} {m : Move}
    (hn : All2 (MoveSegs d t ev) Ss ns) (hG : MoveSegs d t ev G m) (hR : All2 (MoveSegs d t ev) Rs ms) (hp : Proper (ns ++ m :: ms)) (hn1 : ∀ x ∈ ns, x.single = true)
    (hgm : m = .any ∨ ∃ n p, m = .satAll n p) (hne : ms ≠ []) (hm1 : ∀ x ∈ ms, x.single = true) (g : Goal) (hg : g.isField = false) (root : Bool) (xml : Bytes) :
    execQ env ev (addMods names (Ss.flatten ++ (G ++ (Rs.flatten ++ goalSegs g)))) root xml =
      modEach env names ((Rs.flatten ++ goalSegs g).length == 1) (execQ env ev (Ss.flatten ++ (G ++ (Rs.flatten ++ goalSegs g))) root xml) := by
  have hms : Proper (m :: ms) := by
    clear hn hn1
    induction ns with
    | nil => exact hp
    | cons a ns ih => exact ih (proper_tail hp)
  obtain ⟨g0, G0, rfl, hg0, -, hgst, -⟩ := moveSegs_head hG
  cases hR with
  | nil => exact absurd rfl hne
  | @cons S2 m2 Ss2 ms2 hS2 hSs2 =>
    obtain ⟨s, S', rfl, hs, hsm, hst, hsx⟩ := moveSegs_head hS2
    have hR2 : All2 (MoveSegs d t ev) ((s :: S') :: Ss2) (m2 :: ms2) := .cons hS2 hSs2
    have hpm : Proper (m2 :: ms2) := proper_tail hms
    have hdeep : ∀ n, Move.deep n ∉ m2 :: ms2 := fun n hx => by have := hm1 _ hx; simp [Move.single] at this
    have k1 : ∀ x, execQ env ev (addMods names (((s :: S') :: Ss2).flatten ++ goalSegs g)) false x = modOn env names (execQ env ev (((s :: S') :: Ss2).flatten ++ goalSegs g) false x) := fun x =>
      exec_mods hk hR2 hpm (fun x hx => hm1 x (List.dropLast_subset _ hx)) hdeep g false (by rintro (⟨h, -⟩ | ⟨h, -⟩) <;> simp at h) x
    have k2 : ∀ x, (execQ env ev (((s :: S') :: Ss2).flatten ++ goalSegs g) false x).typ ≠ .array := fun x => exec_flat hR2 (by simp) hpm hm1 g hg x
    have hnm : ∀ u ∈ ((s :: S') :: Ss2).flatten ++ goalSegs g, u.mods = [] := by
      intro u hu
      rcases List.mem_append.mp hu with hu | hu
      · exact moveSegs_mods hR2 u hu
      · exact goalSegs_mods g u hu
    have e0 : ((s :: S') :: Ss2).flatten ++ goalSegs g = s :: (S' ++ (Ss2.flatten ++ goalSegs g)) := by simp
    rw [e0] at k1 k2 hnm ⊢
    generalize S' ++ (Ss2.flatten ++ goalSegs g) = R at k1 k2 hnm
    obtain ⟨s', r', a1, a2, a3⟩ := addMods_single names s R
    rw [a1] at k1
    have hT : s'.mods = if ((s :: R).length == 1) then names else [] := by
      rw [a3, hsm]
      cases R <;> simp
    generalize ((s :: R).length == 1) = twice at hT
    rw [addMods_append (by simp), addMods_append (by simp), a1]
    have k3 : ∀ root xml, execQ env ev ((g0 :: G0) ++ s' :: r') root xml = modEach env names twice (execQ env ev ((g0 :: G0) ++ s :: R) root xml) := fun root xml =>
      gather_mods hf hG hgm hs a2 hsm hT k1 k2 root xml
    have hGm : ∀ u ∈ g0 :: G0, u.mods = [] := by
      have := moveSegs_mods (All2.cons hG .nil)
      simpa using this
    clear hms
    induction hn generalizing root xml with
    | nil => exact k3 root xml
    | @cons S a Ss ns hS hSs ih =>
      have ih' := fun xml => ih (fun x hx => hn1 x (by simp [hx])) false xml (proper_tail hp)
      have hnx : ∀ u ∈ Ss.flatten ++ ((g0 :: G0) ++ s :: R), u.mods = [] := by
        intro u hu
        rcases List.mem_append.mp hu with hu | hu
        · exact moveSegs_mods hSs u hu
        · rcases List.mem_append.mp hu with hu | hu
          · exact hGm u hu
          · exact hnm u hu
      have hhead : ∃ b B B', Ss.flatten ++ ((g0 :: G0) ++ s :: R) = b :: B ∧ Ss.flatten ++ ((g0 :: G0) ++ s' :: r') = b :: B' ∧ b.kind.isMove = true ∧ ((∃ x, a = .name x) → b.kind.isStep = true) := by
        cases hSs with
        | nil => exact ⟨g0, _, _, rfl, rfl, hg0, by rintro ⟨x, rfl⟩; exact hgst hp.1⟩
        | @cons S3 m3 Ss3 ms3 hS3 hSs3 =>
          obtain ⟨s3, S3', rfl, q1, -, q2, -⟩ := moveSegs_head hS3
          exact ⟨s3, _, _, by simp; rfl, by simp; rfl, q1, by rintro ⟨x, rfl⟩; exact q2 hp.1⟩
      obtain ⟨b, B, B', b1, b2, b3, b4⟩ := hhead
      rw [List.flatten_cons, List.append_assoc, List.append_assoc]
      rw [b1, b2] at ih' ⊢
      rw [b1] at hnx
      exact single_mods' modEach_null hS (hn1 a (by simp)) b3 rfl b4 ih' (fun x => modEach_typ hk hf (execQ_inv _ hnx false x).2.1) root xml

end

theorem parseParts_clean {ps : List Bytes} {S : List Seg} (h : parseParts ps = .ok S) (hc : ∀ p ∈ ps, Clean p) : S.length = ps.length := by
  induction ps generalizing S with
  | nil => simp only [parseParts, Parse.ok.injEq] at h; subst h; rfl
  | cons p ps ih =>
    obtain ⟨h1, s, h2⟩ := hc p (by simp)
    rw [parseParts, h2] at h
    simp only at h
    cases hq : parseParts ps with
    | panic => rw [hq] at h; simp at h
    | err => rw [hq] at h; simp at h
    | ok ss =>
      rw [hq] at h
      simp only [Parse.ok.injEq] at h
      subst h
      simp [ih hq (fun q hq => hc q (by simp [hq]))]

theorem all2_snoc {α β : Type} {R : α → β → Prop} {as : List α} {bs : List β} {b : β} (h : All2 R as (bs ++ [b])) : ∃ as' a, as = as' ++ [a] ∧ All2 R as' bs ∧ R a b := by
  induction bs generalizing as with
  | nil => cases h with | cons h1 h2 => cases h2; exact ⟨[], _, rfl, .nil, h1⟩
  | cons c bs ih =>
    cases h with
    | cons h1 h2 =>
      obtain ⟨as', a, rfl, e2, e3⟩ := ih h2
      exact ⟨_ :: as', a, rfl, .cons h1 e2, e3⟩

theorem goal_length {gs : List Bytes} {g : Goal} (h : GoalText gs g) (hg : g.isField = false) : (goalSegs g).length = gs.length := by
  cases h <;> simp [Goal.isField] at hg <;> rfl

theorem get_list (env : Env) (ho : env.ord.IsPerm) {dp : Bool} {qs ps gs : List Bytes} {ns ms : List Move} {m : Move} {g : Goal} (hq : Spells env.parseFloat dp (.moves qs (ns ++ [m])))
    (hs : Spells env.parseFloat dp (.moves ps ms)) (hg : GoalText gs g) (hgf : g.isField = false) (hp : Proper (ns ++ m :: ms)) (hl : (qs ++ ps ++ gs).length ≤ 100)
    (hn1 : ∀ x ∈ ns, x.single = true) (hgm : m = .any ∨ ∃ n p, m = .satAll n p) (hne : ms ≠ []) (hm1 : ∀ x ∈ ms, x.single = true)
    {names : List Bytes} (hn : ∀ n ∈ names, ModName n) (hk : NoLoss env names) (hf : Fruitful env names) (xml : Bytes) :
    ∃ r, get env xml (pathOf (qs ++ ps ++ gs)) = .ret r ∧ get env xml (pathOf (withMods names (qs ++ ps ++ gs))) = .ret (modEach env names ((ps ++ gs).length == 1) r) ∧ ∀ x ∈ r.array, Single x := by
  obtain ⟨Qs, e1, e2, -, e3⟩ := spells_parsed ho True hq
  obtain ⟨Rs, f1, f2, -, -⟩ := spells_parsed ho True hs
  obtain ⟨Ss, G, rfl, e4, e5⟩ := all2_snoc e2
  obtain ⟨⟨ss, g1, g2⟩, -, -⟩ := goal_parse hg
  have hcl : ∀ p ∈ qs ++ ps ++ gs, Clean p := fun p hp => by
    rcases List.mem_append.mp hp with hp | hp
    · rcases List.mem_append.mp hp with hp | hp
      · exact spells_clean hq p hp
      · exact spells_clean hs p hp
    · exact goal_clean hg p hp
  have hpp := parseParts_append (parseParts_append e1 f1) g1
  obtain ⟨m1, m2⟩ := parseParts_mods hn hpp hcl
  obtain ⟨w1, w2⟩ := withMods_facts names (qs ++ ps ++ gs)
  have hqne : ∃ p qs', qs = p :: qs' ∧ p ≠ [] := by
    rcases e3 with ⟨-, h⟩ | ⟨p, ps', h1, h2, -⟩
    · simp at h
    · exact ⟨p, ps', h1, h2⟩
  have hne' : qs ++ ps ++ gs ≠ [] := by obtain ⟨p, qs', rfl, -⟩ := hqne; simp
  have hnil : qs ++ ps ++ gs ≠ [[]] := by
    obtain ⟨p, qs', rfl, h2⟩ := hqne
    intro e
    simp only [List.cons_append, List.cons.injEq] at e
    exact h2 e.1
  have hfs : fuseFields ((Ss ++ [G]).flatten ++ Rs.flatten ++ ss) = Ss.flatten ++ (G ++ (Rs.flatten ++ goalSegs g)) := by
    have := fuse_moves (e2.append f2) ss
    rw [List.flatten_append] at this
    rw [this, g2]; simp
  have hlen : (Rs.flatten ++ goalSegs g).length = (ps ++ gs).length := by
    rw [List.length_append, List.length_append, parseParts_clean f1 (spells_clean hs), goal_length hg hgf]
  have p1 : parsePath (pathOf (qs ++ ps ++ gs)) = .ok (Ss.flatten ++ (G ++ (Rs.flatten ++ goalSegs g))) := by
    rw [parsePath_parts _ hne' hnil hl, hpp]; simp only; rw [hfs]
  have p2 : parsePath (pathOf (withMods names (qs ++ ps ++ gs))) = .ok (addMods names (Ss.flatten ++ (G ++ (Rs.flatten ++ goalSegs g)))) := by
    rw [parsePath_parts _ (fun e => hne' (List.eq_nil_of_length_eq_zero (by rw [← w1, e]; rfl))) (fun e => hnil (w2 e)) (by omega), m1]
    simp only; rw [fuseFields_mods, hfs]
  by_cases hx : xml.length > maxDocumentSize
  · exact ⟨.null, get_large _ hx, by rw [modEach_null]; exact get_large _ hx, by simp [Result.array, Result.null]⟩
  · refine ⟨_, get_parsed p1 _ hx, ?_, ?_⟩
    · rw [get_parsed p2 _ hx, exec_list hk hf e4 e5 f2 hp hn1 hgm hne hm1 g hgf true xml, hlen]
    · refine (execQ_inv _ (fun u hu => ?_) true xml).2.1
      have hu : u ∈ (Ss ++ [G] ++ Rs).flatten ++ goalSegs g := by simpa using hu
      rcases List.mem_append.mp hu with hu | hu
      · exact moveSegs_mods (e2.append f2) u hu
      · exact goalSegs_mods g u hu

end Verif
