import Verif.Lemmas.Ask
import Verif.Lemmas.Panic
import Verif.Lemmas.Value
/- From the text of a path to its meaning. -/
namespace Verif
open Spec

/-! ### what an answer can contain -/

theorem pack_items (xs : List Item) : (pack xs).items = xs := by
  match xs with
  | [] => rfl
  | [x] => rfl
  | x :: y :: r => rfl

theorem fill_sub {α : Type} {x : α} {k : Nat} {L : List (List α)} (h : x ∈ fill k L) : ∃ l ∈ L, x ∈ l := by
  induction L generalizing k with
  | nil => rw [fill_nil] at h; simp at h
  | cons l L ih =>
    cases k with
    | zero => simp [fill] at h
    | succ k =>
      rw [fill, List.mem_append] at h
      rcases h with h | h
      · exact ⟨l, by simp, h⟩
      · obtain ⟨m, hm, hx⟩ := ih h; exact ⟨m, by simp [hm], hx⟩

theorem firstAnswer_sub {x : Item} {as : List Answer} (h : x ∈ (firstAnswer as).items) : ∃ a ∈ as, x ∈ a.items := by
  induction as with
  | nil => simp [firstAnswer, Answer.items] at h
  | cons a as ih =>
    cases a with
    | nothing =>
      obtain ⟨b, hb, hx⟩ := ih h; exact ⟨b, by simp [hb], hx⟩
    | one y => exact ⟨.one y, by simp, h⟩
    | many ys => exact ⟨.many ys, by simp, h⟩

theorem join_sub {x : Item} {as : List Answer} {m : Move} (h : x ∈ (m.join as).items) : ∃ a ∈ as, x ∈ a.items := by
  cases m with
  | name n => exact firstAnswer_sub h
  | nth n j => exact firstAnswer_sub h
  | sat n p => exact firstAnswer_sub h
  | satAll n p =>
    rw [Move.join, pack_items] at h
    simpa using h
  | any =>
    simp only [Move.join] at h
    split at h
    · simp [Answer.items] at h
    · rw [pack_items] at h; simpa using h
  | deep n =>
    rw [Move.join, pack_items] at h
    obtain ⟨l, hl, hx⟩ := fill_sub h
    obtain ⟨a, ha, rfl⟩ := List.mem_map.mp hl
    exact ⟨a, ha, hx⟩

def Spec.Goal.isText : Goal → Bool
  | .text => true
  | _ => false

/-- What the goal takes from some element, or a number. -/
def Spec.Goal.Can (g : Goal) (x : Item) : Prop := (∃ nd, x ∈ g.items nd) ∨ ∃ n, x = .count n

theorem last_can {x : Item} {m : Move} {g : Goal} {root : Bool} {i : Info} (h : x ∈ (m.last root i g).items) : g.Can x := by
  have hmem : ∀ {l : List Node}, x ∈ l.flatMap (fun nd => g.items nd) → g.Can x := by
    intro l hx
    obtain ⟨nd, -, hx⟩ := List.mem_flatMap.mp hx
    exact .inl ⟨nd, hx⟩
  have hm : ∀ (l : List Node) (c : Bool), x ∈ (Answer.many (if c then (l.flatMap (fun nd => g.items nd)).take 1000 else [])).items → g.Can x := by
    intro l c hx
    cases c with
    | false => simp [Answer.items] at hx
    | true => exact hmem (take_sub hx)
  have hp : ∀ (l : List Node), x ∈ (pack (l.flatMap (fun nd => g.items nd))).items → g.Can x := by
    intro l hx
    rw [pack_items] at hx; exact hmem hx
  have hl : ∀ (l : List Node), x ∈ (g.listed l).items → g.Can x := by
    intro l hx
    cases g with
    | elem =>
      obtain ⟨nd, -, rfl⟩ := List.mem_map.mp (show x ∈ l.map Item.elem from hx)
      exact .inl ⟨nd, by simp [Goal.items]⟩
    | _ => exact hp l hx
  cases m with
  | name n =>
    by_cases hc : g = .count
    · subst hc
      simp only [Move.last] at h
      split at h
      · simp [Answer.items] at h
      · simp only [Answer.items, List.mem_singleton] at h; exact .inr ⟨_, h⟩
    · have e : (Move.name n).last root i g = if g.isField then
          (if root && (i.hits root n).isEmpty then .nothing else .many ((((i.hits root n).take 1000).flatMap (fun nd => g.items nd)).take 1000))
          else pack (((i.named n).take 1).flatMap (fun nd => g.items nd)) := by
        cases g <;> first | rfl | exact absurd rfl hc
      rw [e] at h
      split at h
      · split at h
        · simp [Answer.items] at h
        · exact hmem (take_sub h)
      · exact hp _ h
  | deep n =>
    have e : (Move.deep n).last root i g = pack (fill 1000 (((Move.deep n).nodes root i).map (fun nd => (g.items nd).take 1000))) := by
      cases g <;> rfl
    rw [e, pack_items] at h
    obtain ⟨l, hl, hx⟩ := fill_sub h
    obtain ⟨nd, -, rfl⟩ := List.mem_map.mp hl
    exact .inl ⟨nd, take_sub hx⟩
  | nth n j =>
    have e : (Move.nth n j).last root i g = if ((Move.nth n j).nodes root i).isEmpty then .nothing else if g.isField then .many (if false then (((Move.nth n j).nodes root i).flatMap (fun nd => g.items nd)).take 1000 else [])
        else if (g.isText && !root) then .nothing else pack (((Move.nth n j).nodes root i).flatMap (fun nd => g.items nd)) := by
      cases g <;> cases root <;> simp [Move.last, Goal.isField, Move.collects, Spec.Goal.isText]
    rw [e] at h
    split at h
    · simp [Answer.items] at h
    · split at h
      · exact hm _ _ h
      · split at h
        · simp [Answer.items] at h
        · exact hp _ h
  | sat n p =>
    have e : (Move.sat n p).last root i g = if ((Move.sat n p).nodes root i).isEmpty then .nothing else if g.isField then .many (if true then (((Move.sat n p).nodes root i).flatMap (fun nd => g.items nd)).take 1000 else [])
        else pack (((Move.sat n p).nodes root i).flatMap (fun nd => g.items nd)) := by
      cases g <;> rfl
    rw [e] at h
    split at h
    · simp [Answer.items] at h
    · split at h
      · exact hm _ _ h
      · exact hp _ h
  | any =>
    have e : Move.any.last root i g = if (Move.any.nodes root i).isEmpty then .nothing else if g.isField then .many (if false then ((Move.any.nodes root i).flatMap (fun nd => g.items nd)).take 1000 else [])
        else pack ((Move.any.nodes root i).flatMap (fun nd => g.items nd)) := by
      cases g <;> rfl
    rw [e] at h
    split at h
    · simp [Answer.items] at h
    · split at h
      · exact hm _ _ h
      · exact hp _ h
  | satAll n p =>
    have e : (Move.satAll n p).last root i g = if ((Move.satAll n p).nodes root i).isEmpty then .nothing else if g.isField then .many (if true then (((Move.satAll n p).nodes root i).flatMap (fun nd => g.items nd)).take 1000 else [])
        else g.listed ((Move.satAll n p).nodes root i) := by
      cases g <;> rfl
    rw [e] at h
    split at h
    · simp [Answer.items] at h
    · split at h
      · exact hm _ _ h
      · exact hl _ h

theorem ask_can {x : Item} {ms : List Move} {g : Goal} {root : Bool} {i : Info} (h : x ∈ (ask ms g root i).items) : g.Can x := by
  induction ms generalizing root i with
  | nil =>
    simp only [ask] at h
    split at h <;> simp [Answer.items] at h
  | cons m ms ih =>
    cases ms with
    | nil => exact last_can h
    | cons n ms =>
      obtain ⟨a, ha, hx⟩ := join_sub h
      obtain ⟨nd, -, rfl⟩ := List.mem_map.mp ha
      exact ih hx

theorem is_str {r : Result} {x : Item} (h : Is r x) (hx : ∀ nd, x ≠ .text nd) : r.toStr = x.str := by
  cases x with
  | elem nd => exact IsElement.str h
  | text nd => exact absurd rfl (hx nd)
  | attr v => have : r = .ofAttr v := h; subst this; rw [Result.toStr_ne _ (by simp) (by simp)]; rfl
  | count n => have : r = .ofCount n := h; subst this; rw [Result.toStr_ne _ (by simp) (by simp)]; rfl

theorem gives_str {r : Result} {a : Answer} (h : Gives r a) (hx : ∀ x ∈ a.items, ∀ nd, x ≠ .text nd) : (if r.exists? then some r.toStr else none) = a.str := by
  cases a with
  | nothing => have : r = .null := h; subst this; rfl
  | one x =>
    have h1 : Is r x := h
    rw [if_pos (by simp [Result.exists?, h1.typ.1]), is_str h1 (hx x (by simp [Answer.items]))]; rfl
  | many xs =>
    obtain ⟨h1, h2⟩ := h
    rw [if_pos (by simp [Result.exists?, h1]), toStr_array r h1, joinItems_any]
    simp only [Answer.str, listText]
    have : r.results.map Result.toStr = xs.map Item.str := by
      simp only [Answer.items] at hx
      generalize r.results = rs at h2
      clear h1
      induction h2 with
      | nil => rfl
      | cons hab _ ih =>
        simp only [List.map_cons]
        rw [ih (fun x hm => hx x (by simp [hm])), is_str hab (hx _ (by simp))]
    rw [this]
    simp only [List.map_map]; rfl

/-! ### parsing -/

theorem parsePart_at {a : Bytes} (h : c!"|" ∉ a) : parsePart (c!"@" :: a) = .seg ⟨.attr a, []⟩ := by
  unfold parsePart
  rw [parseModifiers_plain _ (by simp [h])]
  simp [hasPrefix, List.isPrefixOf]

theorem goal_parse {gs : List Bytes} {g : Goal} (h : GoalText gs g) : (∃ ss, parseParts gs = .ok ss ∧ fuseFields ss = goalSegs g) ∧ g.Ok ∧ gs ≠ [[]] := by
  cases h with
  | elem => exact ⟨⟨[], rfl, rfl⟩, trivial, by simp⟩
  | attr h => exact ⟨⟨[⟨.attr _, []⟩], by simp [parseParts, parsePart_at h], rfl⟩, trivial, by simp⟩
  | text => exact ⟨⟨_, rfl, rfl⟩, trivial, by simp⟩
  | count => exact ⟨⟨_, rfl, rfl⟩, trivial, by simp⟩
  | fieldElem h hl =>
    have hp := identifier_plain h
    exact ⟨parseParts_field_name h hl, ⟨hp.nonempty, hp.noAt, hp.notPct⟩, by simp⟩
  | fieldAttr h hl => exact ⟨parseParts_field_attr h hl, trivial, by simp⟩
  | fieldText => exact ⟨parseParts_field_text, trivial, by simp⟩

theorem parseParts_append {ps qs : List Bytes} {S T : List Seg} (h1 : parseParts ps = .ok S) (h2 : parseParts qs = .ok T) :
    parseParts (ps ++ qs) = .ok (S ++ T) := by
  induction ps generalizing S with
  | nil =>
    have : S = [] := by simpa [parseParts] using h1.symm
    subst this; simpa using h2
  | cons p ps ih =>
    rw [List.cons_append, parseParts]
    rw [parseParts] at h1
    cases hp : parsePart p with
    | panic => rw [hp] at h1; simp at h1
    | reject => rw [hp] at h1; simp at h1
    | skip => rw [hp] at h1; simp only at h1 ⊢; exact ih h1
    | seg s =>
      rw [hp] at h1
      simp only at h1 ⊢
      cases hq : parseParts ps with
      | panic => rw [hq] at h1; simp at h1
      | err => rw [hq] at h1; simp at h1
      | ok ss =>
        rw [hq] at h1
        simp only [Parse.ok.injEq] at h1
        subst h1
        rw [ih hq]; rfl

theorem fuse_moves {d t : Prop} {ev : Filter → Elem → Bool} {Ss : List (List Seg)} {ms : List Move} (h : All2 (MoveSegs d t ev) Ss ms) (R : List Seg) :
    fuseFields (Ss.flatten ++ R) = Ss.flatten ++ fuseFields R := by
  have key : ∀ l : List Seg, (∀ s ∈ l, s.kind ≠ .count) → fuseFields (l ++ R) = l ++ fuseFields R := by
    intro l hl
    induction l with
    | nil => rfl
    | cons s l ih =>
      rw [List.cons_append, fuseFields_cons (hl s (by simp)), ih (fun x hx => hl x (by simp [hx]))]; rfl
  apply key
  induction h with
  | nil => simp
  | cons h _ ih =>
    intro s hs
    rw [List.flatten_cons, List.mem_append] at hs
    rcases hs with hs | hs
    · cases h <;> simp [nameSeg] at hs <;> (try rcases hs with rfl | rfl) <;> (try subst hs) <;> simp
    · exact ih s hs

theorem pathOf_head {p : Bytes} {ps : List Bytes} (hne : p ≠ []) (h : p.head? ≠ some c!"@") : hasPrefix (pathOf (p :: ps)) b!"@" = false := by
  obtain ⟨c, cs, rfl⟩ := List.exists_cons_of_ne_nil hne
  have hc : c!"@" ≠ c := by
    intro e; rw [← e] at h; simp at h
  have : ∃ d ds, pathOf ((c :: cs) :: ps) = d :: ds ∧ (d = c!"\\" ∨ d = c) := by
    unfold pathOf
    cases ps with
    | nil =>
      simp only [List.map_cons, List.map_nil, joinDots, escapeName]
      split
      · exact ⟨_, _, rfl, .inl rfl⟩
      · exact ⟨_, _, rfl, .inr rfl⟩
    | cons m' ms =>
      simp only [List.map_cons, joinDots, escapeName]
      split
      · exact ⟨_, _, rfl, .inl rfl⟩
      · exact ⟨_, _, rfl, .inr rfl⟩
  obtain ⟨d, ds, e, hd⟩ := this
  rw [e]
  rcases hd with rfl | rfl
  · simp [hasPrefix, List.isPrefixOf]
  · simp [hasPrefix, List.isPrefixOf, hc]

/-- What the parts of a path are parsed to, and what a test finds. -/
def Spec.Meaning.Parsed (env : Env) (d t : Prop) : Meaning → Prop
  | .move parts m => ∃ S, parseParts parts = .ok S ∧ MoveSegs d t (evalFilter env) S m ∧ (∀ n, m = .deep n → d) ∧ ∃ p ps, parts = p :: ps ∧ p ≠ [] ∧ p.head? ≠ some c!"@"
  | .moves parts ms => ∃ Ss, parseParts parts = .ok Ss.flatten ∧ All2 (MoveSegs d t (evalFilter env)) Ss ms ∧ ((∃ n, .deep n ∈ ms) → d) ∧
      (parts = [] ∧ ms = [] ∨ ∃ p ps, parts = p :: ps ∧ p ≠ [] ∧ p.head? ≠ some c!"@")
  | .test p f => ∀ op v e nd, Rep e nd → Fine d t nd.kids → evalFilter env ⟨p, op, v⟩ e = compareFilter env.parseFloat ⟨p, op, v⟩ (f nd)

/-- The whole path. -/
theorem path_parse {env : Env} {d t : Prop} {ps gs : List Bytes} {ms : List Move} {g : Goal} (h : (Meaning.moves ps ms).Parsed env d t) (hg : GoalText gs g)
    (hne : ps ++ gs ≠ []) (hl : (ps ++ gs).length ≤ 100) :
    ∃ Ss, parsePath (pathOf (ps ++ gs)) = .ok (Ss.flatten ++ goalSegs g) ∧ All2 (MoveSegs d t (evalFilter env)) Ss ms := by
  obtain ⟨Ss, h1, h2, -, h3⟩ := h
  obtain ⟨⟨ss, h4, h5⟩, -, h6⟩ := goal_parse hg
  refine ⟨Ss, ?_, h2⟩
  rw [parsePath_parts _ hne ?_ hl, parseParts_append h1 h4]
  · simp only; rw [fuse_moves h2, h5]
  · intro e
    rcases h3 with ⟨rfl, -⟩ | ⟨p, ps', rfl, hp, -⟩
    · exact h6 (by simpa using e)
    · simp only [List.cons_append, List.cons.injEq] at e
      exact hp e.1

theorem parts2 {p q : Bytes} {s u : Seg} (h1 : parsePart p = .seg s) (h2 : parsePart q = .seg u) : parseParts [p, q] = .ok [s, u] := by
  simp [parseParts, h1, h2]

theorem parts1 {p : Bytes} {s : Seg} (h1 : parsePart p = .seg s) : parseParts [p] = .ok [s] := by
  simp [parseParts, h1]

theorem plain_head {n : Bytes} (h : PlainName n) : n ≠ [] ∧ n.head? ≠ some c!"@" := ⟨h.nonempty, h.noAt⟩

theorem filterPart_head (expr : Bytes) (all : Bool) : filterPart expr all ≠ [] ∧ (filterPart expr all).head? ≠ some c!"@" := by
  cases all <;> simp [filterPart]

theorem test_sat {env : Env} {d t : Prop} {p v : Bytes} {op : FilterOp} {f : Node → Option Bytes} {q : Node → Bool} (h : (Meaning.test p f).Parsed env d t)
    (hq : ∀ nd, q nd = true ↔ Holds env.parseFloat op v (f nd)) : ∀ e nd, Rep e nd → Fine d t nd.kids → evalFilter env ⟨p, op, v⟩ e = q nd := by
  intro e nd hr hf
  rw [h op v e nd hr hf, Bool.eq_iff_iff, compareFilter_iff, hq]

theorem spells_parsed {env : Env} (ho : env.ord.IsPerm) {dp : Bool} (t : Prop) {M : Meaning} (h : Spells env.parseFloat dp M) : M.Parsed env (dp = true) t := by
  induction h with
  | name hn => exact ⟨_, parts1 (parsePart_plain _ hn), .name _, by simp, _, _, rfl, plain_head hn⟩
  | @nth n ds j hn hd =>
    refine ⟨_, parts2 (parsePart_plain _ hn) (parsePart_decimal hd), .nth _ _ _ ?_, by simp, _, _, rfl, plain_head hn⟩
    split <;> omega
  | sat hn hc ht hq ih =>
    exact ⟨_, parts2 (parsePart_plain _ hn) (parsePart_cond hc false), .sat _ _ _ (test_sat ih hq), by simp, _, _, rfl, plain_head hn⟩
  | satF hc ht hq ih =>
    exact ⟨_, parts1 (parsePart_cond hc false), .satF _ _ (test_sat ih hq), by simp, _, _, rfl, filterPart_head _ _⟩
  | satAll hn hc ht hq ih =>
    exact ⟨_, parts2 (parsePart_plain _ hn) (parsePart_cond hc true), .satAll _ _ _ (test_sat ih hq), by simp, _, _, rfl, plain_head hn⟩
  | satAllF hc ht hq ih =>
    exact ⟨_, parts1 (parsePart_cond hc true), .satAllF _ _ (test_sat ih hq), by simp, _, _, rfl, filterPart_head _ _⟩
  | any => exact ⟨_, parts1 (by rfl), .any, by simp, _, _, rfl, by simp, by simp⟩
  | deep hd hn => exact ⟨_, parts2 (by rfl) (parsePart_plain _ hn), .deep _, by simp [hd], _, _, rfl, by simp, by simp⟩
  | deepAny hd hs =>
    rcases hs with rfl | rfl
    · exact ⟨_, parts2 (by rfl) (by rfl), .deepAny false, by simp [hd], _, _, rfl, by simp, by simp⟩
    · exact ⟨_, parts2 (by rfl) (by rfl), .deepAny true, by simp [hd], _, _, rfl, by simp, by simp⟩
  | nil => exact ⟨[], rfl, .nil, by simp, .inl ⟨rfl, rfl⟩⟩
  | cons h hs ih ihs =>
    obtain ⟨S, h1, h2, h3, p, ps, rfl, h4⟩ := ih
    obtain ⟨Ss, k1, k2, k3, -⟩ := ihs
    refine ⟨S :: Ss, parseParts_append h1 k1, .cons h2 k2, ?_, .inr ⟨p, _, List.cons_append, h4⟩⟩
    rintro ⟨n, hn⟩
    rcases List.mem_cons.mp hn with hn | hn
    · exact h3 n hn.symm
    · exact k3 ⟨n, hn⟩
  | @attr a =>
    intro op v e nd hr hf
    unfold evalFilter evalFilterN
    simp only [hasPrefix, List.isPrefixOf, beq_self_eq_true, Bool.and_true, if_true, List.drop_succ_cons, List.drop_zero, hr.attr]
  | @path ps gs ms g h hg hne hp ht hl ih =>
    intro op v e nd hr hf
    obtain ⟨Ss, h1, h2⟩ := path_parse ih hg (by
      obtain ⟨Ss, -, -, -, h3⟩ := ih
      rcases h3 with ⟨-, h3⟩ | ⟨p, ps', rfl, -⟩
      · exact absurd h3 hne
      · simp) hl
    obtain ⟨Ss', -, -, hd, h3⟩ := ih
    have hat : hasPrefix (pathOf (ps ++ gs)) b!"@" = false := by
      rcases h3 with ⟨-, h3⟩ | ⟨p, ps', rfl, h3, h4⟩
      · exact absurd h3 hne
      · exact pathOf_head h3 h4
    unfold evalFilter evalFilterN
    simp only [hat, Bool.false_eq_true, if_false, h1]
    rw [execQ_ev env _ (evalFilter env) _ _ _ (fun f all mods hm => by
      have := (parsePath_filter h1 hm).1
      funext x
      exact congrFun (evalFilterN_stable env _ _ f this (by omega)) x)]
    have hG := exec_ask ho h2 hp (goal_parse hg).2.1 hd (fun e => absurd e ht.2) true (writes_reads ho hr.content) hf
    rw [gives_str hG]
    intro x hx nd' e
    subst e
    rcases ask_can hx with ⟨n', hn'⟩ | ⟨n, hn⟩
    · cases g <;> simp [Goal.items] at hn' ht
    · simp at hn

/-- `Get` on readable content. -/
theorem get_ask (env : Env) (ho : env.ord.IsPerm) {dp : Bool} {ps gs : List Bytes} {ms : List Move} {g : Goal} (h : Spells env.parseFloat dp (.moves ps ms))
    (hg : GoalText gs g) (hp : Proper ms) (hne : ps ++ gs ≠ []) (hl : (ps ++ gs).length ≤ 100) {xml : Bytes} {i : Info} (hx : xml.length ≤ 10485760)
    (hr : Reads env.ord xml i) (hf : Fine (dp = true) (g = .fieldText) i) :
    ∃ r, get env xml (pathOf (ps ++ gs)) = .ret r ∧ Gives r (ask ms g true i) := by
  have hP := spells_parsed ho (g = .fieldText) h
  obtain ⟨Ss, h1, h2⟩ := path_parse hP hg hne hl
  obtain ⟨-, -, -, hd, -⟩ := hP
  have hG := exec_ask ho h2 hp (goal_parse hg).2.1 hd id true hr hf
  have hmd : maxDocumentSize = 10485760 := rfl
  refine ⟨_, ?_, hG⟩
  unfold get
  rw [if_neg (by omega), h1]
  cases hs : Ss.flatten ++ goalSegs g with
  | nil =>
    simp only
    rw [execQ]
  | cons s ss => simp only [executeQuery]

end Verif
