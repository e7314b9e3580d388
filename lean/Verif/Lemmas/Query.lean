import Verif.Lemmas.Text
import Verif.Lemmas.Result
import Verif.Lemmas.Path
import Verif.Spec.Query
/- executeQuery on element paths followed by one final step, against the document. -/
namespace Verif
open Spec

/-! ### pointwise agreement -/

theorem All2.filter {α β : Type} {R : α → β → Prop} {p : α → Bool} {q : β → Bool} {as : List α} {bs : List β}
    (h : All2 R as bs) (hpq : ∀ a b, R a b → p a = q b) : All2 R (as.filter p) (bs.filter q) := by
  induction h with
  | nil => exact .nil
  | cons hab _ ih =>
    simp only [List.filter_cons, hpq _ _ hab]
    split
    · exact .cons hab ih
    · exact ih

theorem All2.append {α β : Type} {R : α → β → Prop} {as as' : List α} {bs bs' : List β}
    (h : All2 R as bs) (h' : All2 R as' bs') : All2 R (as ++ as') (bs ++ bs') := by
  induction h with
  | nil => exact h'
  | cons hab _ ih => exact .cons hab ih

theorem All2.flatMap {α β γ δ : Type} {R : α → β → Prop} {S : γ → δ → Prop} {f : α → List γ} {g : β → List δ}
    {as : List α} {bs : List β} (h : All2 R as bs) (hfg : ∀ a b, R a b → All2 S (f a) (g b)) :
    All2 S (as.flatMap f) (bs.flatMap g) := by
  induction h with
  | nil => exact .nil
  | cons hab _ ih => exact (hfg _ _ hab).append ih

theorem All2.map {α β γ δ : Type} {R : α → β → Prop} {S : γ → δ → Prop} {f : α → γ} {g : β → δ}
    {as : List α} {bs : List β} (h : All2 R as bs) (hfg : ∀ a b, R a b → S (f a) (g b)) :
    All2 S (as.map f) (bs.map g) := by
  induction h with
  | nil => exact .nil
  | cons hab _ ih => exact .cons (hfg _ _ hab) ih

theorem All2.take {α β : Type} {R : α → β → Prop} {as : List α} {bs : List β} (h : All2 R as bs) (n : Nat) :
    All2 R (as.take n) (bs.take n) := by
  induction h generalizing n with
  | nil => simp; exact .nil
  | cons hab _ ih =>
    cases n with
    | zero => exact .nil
    | succ n => exact .cons hab (ih n)

theorem All2.length {α β : Type} {R : α → β → Prop} {as : List α} {bs : List β} (h : All2 R as bs) :
    as.length = bs.length := by
  induction h with
  | nil => rfl
  | cons _ _ ih => simp [ih]

theorem All2.get {α β : Type} {R : α → β → Prop} {as : List α} {bs : List β} (h : All2 R as bs) (i : Nat) :
    (as[i]? = none ∧ bs[i]? = none) ∨ ∃ a b, as[i]? = some a ∧ bs[i]? = some b ∧ R a b := by
  induction h generalizing i with
  | nil => left; simp
  | cons hab _ ih =>
    cases i with
    | zero => right; exact ⟨_, _, rfl, rfl, hab⟩
    | succ i => simpa using ih i

theorem All2.isEmpty {α β : Type} {R : α → β → Prop} {as : List α} {bs : List β} (h : All2 R as bs) :
    as.isEmpty = bs.isEmpty := by cases h <;> rfl

theorem All2.imp {α β : Type} {R S : α → β → Prop} {as : List α} {bs : List β} (h : All2 R as bs)
    (hi : ∀ a b, R a b → S a b) : All2 S as bs := by
  induction h with
  | nil => exact .nil
  | cons hab _ ih => exact .cons (hi _ _ hab) ih

/-- The bytes are read, level by level, as the information `i`. -/
def Reads (o : Ord) (xml : Bytes) (i : Info) : Prop := All2 Rep (topElems o xml) i.elems

theorem says_reads {o : Ord} (ho : o.IsPerm) {xml : Bytes} {i : Info} (h : Says xml i) : Reads o xml i := by
  obtain ⟨-, f, hl, ht, rfl, rfl⟩ := h
  exact topElems_draft ho hl ht

theorem writes_reads {o : Ord} (ho : o.IsPerm) {xml : Bytes} {i : Info} (h : Writes xml i) : Reads o xml i :=
  topElems_writes ho h

/-- An element segment without modifiers. -/
def nameSeg (n : Bytes) : Seg := ⟨.elem n, []⟩

/-- The elements of a level matching a name, as the code collects them. -/
def namedE (o : Ord) (n : Bytes) (xml : Bytes) : List Elem := (topElems o xml).filter (fun e => nameMatches n e.name)

theorem namedE_rep {o : Ord} {n xml : Bytes} {i : Info} (h : Reads o xml i) : All2 Rep (namedE o n xml) (i.named n) :=
  All2.filter h (fun _ _ hr => by simp only [hr.name])

/-- The contents reached through names, as the code reaches them. -/
def reachE (o : Ord) : List Bytes → Bytes → List Bytes
  | [], xml => [xml]
  | n :: ns, xml => (namedE o n xml).flatMap (fun e => reachE o ns e.content)

theorem reachE_reads {o : Ord} (ho : o.IsPerm) (pre : List Bytes) {xml : Bytes} {i : Info} (h : Reads o xml i) :
    All2 (Reads o) (reachE o pre xml) (i.reach pre) := by
  induction pre generalizing xml i with
  | nil => exact .cons h .nil
  | cons n ns ih =>
    simp only [reachE, Info.reach]
    exact All2.flatMap (namedE_rep h) (fun a b hr => ih (writes_reads ho hr.content))

theorem reachE_writes {o : Ord} (ho : o.IsPerm) (pre : List Bytes) (hp : pre ≠ []) {xml : Bytes} {i : Info} (h : Reads o xml i) :
    All2 Writes (reachE o pre xml) (i.reach pre) := by
  induction pre generalizing xml i with
  | nil => exact absurd rfl hp
  | cons n ns ih =>
    simp only [reachE, Info.reach]
    refine All2.flatMap (namedE_rep h) (fun a b hr => ?_)
    cases ns with
    | nil => exact .cons hr.content .nil
    | cons m ms => exact ih (by simp) (writes_reads ho hr.content)

/-- The first result that is not Null. -/
def firstSome (k : Bytes → Result) : List Bytes → Result
  | [] => .null
  | c :: cs => if (k c).typ = .null then firstSome k cs else k c

theorem firstSome_append (k : Bytes → Result) (a b : List Bytes) :
    firstSome k (a ++ b) = if (firstSome k a).typ = .null then firstSome k b else firstSome k a := by
  induction a with
  | nil => simp [firstSome]
  | cons c cs ih =>
    simp only [List.cons_append, firstSome]
    split
    · exact ih
    · rfl

theorem firstSome_flatMap {α : Type} (k : Bytes → Result) (g : α → List Bytes) (l : List α) (c : α → Bytes)
    (k1 : Bytes → Result) (hk : ∀ a ∈ l, (k1 (c a)) = firstSome k (g a)) :
    firstSome k1 (l.map c) = firstSome k (l.flatMap g) := by
  induction l with
  | nil => rfl
  | cons a l ih =>
    simp only [List.map_cons, firstSome, List.flatMap_cons]
    rw [firstSome_append, hk a (by simp), ih (fun b hb => hk b (by simp [hb]))]

/-- Segments after which the code goes on level by level. -/
def SegKind.isStep : SegKind → Bool
  | .elem _ => true
  | .wild _ => true
  | _ => false

theorem firstMatch_step (env : Env) (cur s : Seg) (rest : List Seg) (k : Bytes → Result) (ms : List Elem) (hs : s.kind.isStep = true) :
    firstMatch env cur (s :: rest) k ms = firstSome k (ms.map (·.content)) := by
  induction ms with
  | nil => rfl
  | cons m ms ih =>
    rw [firstMatch]
    cases hk : s.kind <;> rw [hk] at hs <;> simp only [SegKind.isStep, Bool.false_eq_true] at hs <;>
      simp only [List.map_cons, firstSome, ih]

theorem exec_step (env : Env) (ev : Filter → Elem → Bool) (n : Bytes) (s : Seg) (rest : List Seg) (root : Bool) (xml : Bytes)
    (hs : s.kind.isStep = true) :
    execQ env ev (nameSeg n :: s :: rest) root xml =
      firstSome (execQ env ev (s :: rest) false) ((namedE env.ord n xml).map (·.content)) := by
  have h1 : isFragmentQuery root (s :: rest) = false := by
    unfold isFragmentQuery
    cases hk : s.kind <;> rw [hk] at hs <;> simp only [SegKind.isStep, Bool.false_eq_true] at hs <;> simp [SegKind.isRootOp, hk]
  rw [execQ]
  simp only [execBody, nameSeg, h1, Bool.false_eq_true, if_false]
  unfold execElem
  simp only
  have h2 := firstMatch_step env ⟨.elem n, []⟩ s rest (execQ env ev (s :: rest) false) (namedE env.ord n xml) hs
  rw [← h2]
  cases hk : s.kind <;> rw [hk] at hs <;> simp only [SegKind.isStep, Bool.false_eq_true] at hs <;> rfl

/-- A path of names followed by a step is the step at every content reached, the first that gives something. -/
theorem exec_names (env : Env) (ev : Filter → Elem → Bool) (pre : List Bytes) (hp : pre ≠ []) (s : Seg) (rest : List Seg) (root : Bool) (xml : Bytes)
    (hs : s.kind.isStep = true) :
    execQ env ev (pre.map nameSeg ++ s :: rest) root xml =
      firstSome (execQ env ev (s :: rest) false) (reachE env.ord pre xml) := by
  induction pre generalizing xml root with
  | nil => exact absurd rfl hp
  | cons n ns ih =>
    cases ns with
    | nil =>
      simp only [List.map_cons, List.map_nil, List.cons_append, List.nil_append]
      rw [exec_step env ev n s rest root xml hs]
      simp only [reachE]
      congr 1
      exact List.map_eq_flatMap
    | cons m ms =>
      simp only [List.map_cons, List.cons_append]
      rw [exec_step env ev n (nameSeg m) _ root xml rfl, reachE]
      exact firstSome_flatMap _ _ _ _ _ (fun e _ => ih (by simp) false e.content)

/-- Agreement of a result with an optional specified value. -/
def Yields {α : Type} (Q : Result → α → Prop) (r : Result) (v : Option α) : Prop :=
  match v with
  | none => r = .null
  | some a => r.typ ≠ .null ∧ Q r a

theorem firstSome_yields {α β : Type} {S : Bytes → β → Prop} {Q : Result → α → Prop} {k : Bytes → Result} {g : β → Option α}
    {cs : List Bytes} {bs : List β} (h : All2 S cs bs) (hk : ∀ c b, S c b → Yields Q (k c) (g b)) :
    Yields Q (firstSome k cs) (bs.findSome? g) := by
  induction h with
  | nil => exact rfl
  | @cons c b cs bs hab _ ih =>
    have := hk _ _ hab
    simp only [firstSome, List.findSome?_cons]
    cases hg : g b with
    | none =>
      rw [hg] at this
      simp only [Yields] at this
      rw [this]; simpa using ih
    | some a =>
      rw [hg] at this
      simp only [Yields] at this
      rw [if_neg this.1]; exact this

/-- The whole query: names, then a final step described at one level by `g`. -/
theorem exec_path {α : Type} {Q : Result → α → Prop} {g : Info → Option α} (env : Env) (ho : env.ord.IsPerm)
    (ev : Filter → Elem → Bool) (pre : List Bytes) (s : Seg) (rest : List Seg) (hs : s.kind.isStep = true) {xml : Bytes} {i : Info} (h : Reads env.ord xml i)
    (hg : ∀ c k, Reads env.ord c k → Yields Q (execQ env ev (s :: rest) pre.isEmpty c) (g k)) :
    Yields Q (execQ env ev (pre.map nameSeg ++ s :: rest) true xml) ((i.reach pre).findSome? g) := by
  cases pre with
  | nil =>
    simp only [List.map_nil, List.nil_append, Info.reach, List.findSome?_cons, List.findSome?_nil]
    have := hg xml i h
    simp only [List.isEmpty_nil] at this
    cases hgi : g i with
    | none => rw [hgi] at this; simpa using this
    | some a => rw [hgi] at this; simpa using this
  | cons n ns =>
    rw [exec_names env ev (n :: ns) (by simp) s rest true xml hs]
    exact firstSome_yields (reachE_reads ho (n :: ns) h) hg

end Verif
