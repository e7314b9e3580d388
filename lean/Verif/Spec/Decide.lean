import Verif.Lemmas.Tag
import Verif.Spec.Query
/- Decidability of the grammar predicates, used only to check concrete examples. -/
namespace Verif.Spec

instance : DecidablePred IsWs := fun _ => inferInstanceAs (Decidable (_ ∨ _))
instance : DecidablePred Letter := fun _ => inferInstanceAs (Decidable (_ ∨ _))
instance : DecidablePred NameStart := fun _ => inferInstanceAs (Decidable (_ ∨ _))
instance : DecidablePred NameChar := fun _ => inferInstanceAs (Decidable (_ ∨ _))

instance : DecidablePred IsName := fun n =>
  match n with
  | [] => isFalse (by rintro ⟨⟨c, cs, h, -⟩, -⟩; simp at h)
  | c :: cs =>
    decidable_of_iff (NameStart c ∧ (∀ x ∈ c :: cs, NameChar x) ∧ (c :: cs).length ≤ 1048576)
      ⟨fun ⟨a, b, d⟩ => ⟨⟨c, cs, rfl, a⟩, b, d⟩, fun ⟨⟨x, xs, h, a⟩, b, d⟩ => by
        simp only [List.cons.injEq] at h; rw [h.1]; exact ⟨a, by rw [h.1] at b; exact b, by rw [h.1] at d; exact d⟩⟩

instance : DecidablePred Attr.Legal := fun _ => inferInstanceAs (Decidable (_ ∧ _))

instance : DecidablePred AttrsLegal := fun as =>
  decidable_of_iff (as.length ≤ 100 ∧ (∀ a ∈ as, a.Legal) ∧ (∀ a ∈ as.head?.toList, a.pre ≠ []))
    (by unfold AttrsLegal; simp [Option.mem_toList])

instance (b : Bytes) : Decidable (∀ p, p ++ b!">" <+: b → brackets p ≠ 0) :=
  decidable_of_iff (∀ k, k ≤ b.length → b.take k ++ b!">" <+: b → brackets (b.take k) ≠ 0)
    ⟨fun h p hp => by
      have h1 : p <+: b := (List.prefix_append p _).trans hp
      have h2 := List.prefix_iff_eq_take.mp h1
      have := h p.length h1.length_le
      rw [← h2] at this; exact this hp,
     fun h k _ => h _⟩

instance (a b : Bytes) : Decidable (a <:+: b) :=
  decidable_of_iff (∃ k, k ≤ b.length ∧ a <+: b.drop k)
    ⟨fun ⟨k, _, t, h⟩ => ⟨b.take k, t, by rw [List.append_assoc, h, List.take_append_drop]⟩,
     fun ⟨s, t, h⟩ => ⟨s.length, by rw [← h]; simp, t, by rw [← h]; simp⟩⟩

instance : DecidablePred Misc.Legal := fun m =>
  match m with
  | .comment _ => inferInstanceAs (Decidable (¬ _))
  | .pi _ => inferInstanceAs (Decidable (_ ∧ _))
  | .cdata _ => inferInstanceAs (Decidable (¬ _))
  | .doctype _ => inferInstanceAs (Decidable (_ ∧ _))
  | .decl _ => inferInstanceAs (Decidable (_ ∧ _))
  | .mark _ => inferInstanceAs (Decidable False)

def Forest.decLegal : (d : Nat) → (f : Forest) → Decidable (f.Legal d)
  | _, .nil => isTrue trivial
  | d, .text _ next => have := Forest.decLegal d next; inferInstanceAs (Decidable (_ ∧ _))
  | d, .misc _ next => have := Forest.decLegal d next; inferInstanceAs (Decidable (_ ∧ _))
  | d, .leaf _ _ _ next => have := Forest.decLegal d next; inferInstanceAs (Decidable (_ ∧ _))
  | d, .node _ _ _ kids _ next =>
    have := Forest.decLegal d next; have := Forest.decLegal (d + 1) kids; inferInstanceAs (Decidable (_ ∧ _))
instance (d : Nat) (f : Forest) : Decidable (f.Legal d) := Forest.decLegal d f

instance : DecidablePred TagName := fun _ => inferInstanceAs (Decidable (_ ∧ _))
instance : DecidablePred AttrName := fun _ => inferInstanceAs (Decidable (_ ∧ _))
instance : DecidablePred Attr.Loose := fun _ => inferInstanceAs (Decidable (_ ∧ _))
instance : DecidablePred AttrsLoose := fun as =>
  decidable_of_iff (as.length ≤ 100 ∧ (∀ a ∈ as, a.Loose) ∧ (∀ a ∈ as.head?.toList, a.pre ≠ []))
    (by unfold AttrsLoose; simp [Option.mem_toList])
instance : DecidablePred Attr.Written := fun _ => inferInstanceAs (Decidable (_ = _))

def Forest.decShut : (f : Forest) → Decidable f.Shut
  | .nil => isTrue trivial
  | .text _ next => have := Forest.decShut next; inferInstanceAs (Decidable (_ ∧ _))
  | .misc _ _ => isFalse id
  | .leaf _ _ _ next => have := Forest.decShut next; inferInstanceAs (Decidable (_ ∧ _))
  | .node _ _ _ kids _ next =>
    have := Forest.decShut next; have := Forest.decShut kids; inferInstanceAs (Decidable (_ ∧ _))
instance (f : Forest) : Decidable f.Shut := Forest.decShut f

/-- `Inner` without elements in comments. -/
def Misc.Simple : Misc → Prop
  | .comment b => c!"<" ∉ b ∧ ¬ b!">" <+: b ∧ ¬ b!"->" <+: b
  | .cdata b => c!"<" ∉ b
  | .decl b => c!"<" ∉ b ∧ ¬ DoctypeLike b
  | .pi b => (∀ c ∈ b, ¬ IsWs c ∧ c ≠ c!"/" ∧ c ≠ c!">" ∧ c ≠ c!"<") ∧ b.length + 2 ≤ 1048576
  | .doctype _ => False
  | .mark _ => True

theorem Misc.Simple.inner {m : Misc} (h : m.Simple) : m.Inner := by
  cases m with
  | comment b => exact ⟨⟨.text b .nil, ⟨h.1, trivial⟩, by simp [Forest.render]⟩, h.2⟩
  | _ => exact h

instance : DecidablePred Misc.Simple := fun m =>
  match m with
  | .comment _ => inferInstanceAs (Decidable (_ ∧ _))
  | .pi _ => inferInstanceAs (Decidable (_ ∧ _))
  | .cdata _ => inferInstanceAs (Decidable (¬ _))
  | .doctype _ => inferInstanceAs (Decidable False)
  | .mark _ => inferInstanceAs (Decidable True)
  | .decl _ => inferInstanceAs (Decidable (_ ∧ _))
instance : DecidablePred Misc.Outer := fun m =>
  match m with
  | .comment _ => inferInstanceAs (Decidable (_ ∧ _))
  | .pi _ => inferInstanceAs (Decidable (_ ≤ _))
  | .cdata _ => inferInstanceAs (Decidable (¬ _))
  | .doctype _ => inferInstanceAs (Decidable True)
  | .mark _ => inferInstanceAs (Decidable True)
  | .decl _ => inferInstanceAs (Decidable (_ ∧ _))
instance : DecidablePred AttrsFit := fun as => inferInstanceAs (Decidable (∀ a ∈ as, _))

/-- `Tame` without elements in comments. -/
def Forest.Tidy (top : Bool) : Forest → Prop
  | .nil => True
  | .text _ next => next.Tidy top
  | .misc m next => (if top then m.Outer else m.Simple) ∧ next.Tidy top
  | .leaf _ as _ next => AttrsFit as ∧ next.Tidy top
  | .node n as _ kids cws next => AttrsFit as ∧ n.length + cws.length ≤ 1048576 ∧ kids.Tidy false ∧ next.Tidy top

theorem Forest.Tidy.tame {f : Forest} {top : Bool} (h : f.Tidy top) : f.Tame top := by
  induction f generalizing top with
  | nil => trivial
  | text b next ih => exact ih h
  | misc m next ih => exact ⟨by cases top with | false => exact (show m.Simple from h.1).inner | true => exact h.1, ih h.2⟩
  | leaf n as ws next ih => exact ⟨h.1, ih h.2⟩
  | node n as ws kids cws next ihk ih => exact ⟨h.1, h.2.1, ihk h.2.2.1, ih h.2.2.2⟩

def Forest.decTidy : (t : Bool) → (f : Forest) → Decidable (f.Tidy t)
  | _, .nil => isTrue trivial
  | t, .text _ next => Forest.decTidy t next
  | t, .misc _ next => have := Forest.decTidy t next; inferInstanceAs (Decidable (_ ∧ _))
  | t, .leaf _ _ _ next => have := Forest.decTidy t next; inferInstanceAs (Decidable (_ ∧ _))
  | t, .node _ _ _ kids _ next =>
    have := Forest.decTidy t next; have := Forest.decTidy false kids; inferInstanceAs (Decidable (_ ∧ _))
instance (t : Bool) (f : Forest) : Decidable (f.Tidy t) := Forest.decTidy t f

/-- A way to show `Says` for a concrete forest. -/
theorem says_of (f : Forest) (h : f.render.length ≤ 10485760 ∧ f.Legal 0 ∧ f.Tidy true) : Says f.render f.info :=
  ⟨h.1, .done f, h.2.1.loose, h.2.2.tame, rfl, rfl⟩

instance : DecidablePred EndTail := fun w =>
  decidable_of_iff (c!">" ∉ w ∧ ∀ c ∈ w.head?.toList, IsWs c) (by unfold EndTail; simp [Option.mem_toList])

instance : DecidablePred Forest.Sharp := fun f =>
  match f with
  | .nil => inferInstanceAs (Decidable False)
  | .text _ _ => inferInstanceAs (Decidable False)
  | .misc _ _ => inferInstanceAs (Decidable True)
  | .leaf _ _ _ _ => inferInstanceAs (Decidable True)
  | .node _ _ _ _ _ _ => inferInstanceAs (Decidable True)

instance (m : Misc) (f : Forest) : Decidable (m.Opens f) :=
  match m with
  | .mark _ => inferInstanceAs (Decidable (_ ∧ _))
  | .comment _ => inferInstanceAs (Decidable (¬ _))
  | .pi _ => inferInstanceAs (Decidable False)
  | .cdata _ => inferInstanceAs (Decidable False)
  | .doctype _ => inferInstanceAs (Decidable False)
  | .decl _ => inferInstanceAs (Decidable False)

def Forest.decLoose : (f : Forest) → Decidable f.Loose
  | .nil => isTrue trivial
  | .text _ next => have := Forest.decLoose next; inferInstanceAs (Decidable (_ ∧ _))
  | .misc _ next => have := Forest.decLoose next; inferInstanceAs (Decidable (_ ∧ _))
  | .leaf _ _ _ next => have := Forest.decLoose next; inferInstanceAs (Decidable (_ ∧ _))
  | .node _ _ _ kids _ next =>
    have := Forest.decLoose next; have := Forest.decLoose kids; inferInstanceAs (Decidable (_ ∧ _))
instance (f : Forest) : Decidable f.Loose := Forest.decLoose f

def Draft.decLoose : (f : Draft) → Decidable f.Loose
  | .done f => inferInstanceAs (Decidable f.Loose)
  | .more _ _ _ _ rest => have := Draft.decLoose rest; inferInstanceAs (Decidable (_ ∧ _))
instance (f : Draft) : Decidable f.Loose := Draft.decLoose f

def Draft.Tidy (top : Bool) : Draft → Prop
  | .done f => f.Tidy top
  | .more f _ as _ rest => f.Tidy top ∧ AttrsFit as ∧ rest.Tidy false

theorem Draft.Tidy.tame {f : Draft} {top : Bool} (h : f.Tidy top) : f.Tame top := by
  induction f generalizing top with
  | done f => exact Forest.Tidy.tame h
  | more f n as ws rest ih => exact ⟨Forest.Tidy.tame h.1, h.2.1, ih h.2.2⟩

def Draft.decTidy : (t : Bool) → (f : Draft) → Decidable (f.Tidy t)
  | t, .done f => inferInstanceAs (Decidable (f.Tidy t))
  | _, .more _ _ _ _ rest => have := Draft.decTidy false rest; inferInstanceAs (Decidable (_ ∧ _))
instance (t : Bool) (f : Draft) : Decidable (f.Tidy t) := Draft.decTidy t f

instance : DecidablePred Misc.Quiet := fun _ => inferInstanceAs (Decidable (_ ∧ _))
def Info.decCalm : (i : Info) → Decidable i.Calm
  | .nil => isTrue trivial
  | .text _ next => Info.decCalm next
  | .misc _ next => have := Info.decCalm next; inferInstanceAs (Decidable (_ ∧ _))
  | .elem _ _ k next => have := Info.decCalm next; have := Info.decCalm k; inferInstanceAs (Decidable (_ ∧ _))
instance (i : Info) : Decidable i.Calm := Info.decCalm i
def Info.decQuiet : (i : Info) → Decidable i.Quiet
  | .nil => isTrue trivial
  | .text _ next => have := Info.decQuiet next; inferInstanceAs (Decidable (_ ∧ _))
  | .misc _ next => have := Info.decQuiet next; inferInstanceAs (Decidable (_ ∧ _))
  | .elem _ _ k next => have := Info.decQuiet next; have := Info.decQuiet k; inferInstanceAs (Decidable (_ ∧ _))
instance (i : Info) : Decidable i.Quiet := Info.decQuiet i

/-- A way to show `Says` for a concrete draft. -/
theorem says_draft (f : Draft) (h : f.render.length ≤ 10485760 ∧ f.Loose ∧ f.Tidy true) : Says f.render f.info :=
  ⟨h.1, f, h.2.1, h.2.2.tame, rfl, rfl⟩

/-- Example document `<?xml?><r><a k="1">x<b>y</b><!--c--></a><n:a k='2' j="3"/></r>`. -/
def exDoc : Forest :=
  .misc (.pi b!"xml?") <|
  .node b!"r" [] [] (
    .node b!"a" [⟨b!" ", b!"k", [], [], c!"\"", b!"1"⟩] [] (.text b!"x" <| .node b!"b" [] [] (.text b!"y" .nil) [] <| .misc (.comment b!"c") .nil) [] <|
    .leaf b!"n:a" [⟨b!" ", b!"k", [], [], c!"'", b!"2"⟩, ⟨b!" ", b!"j", [], [], c!"\"", b!"3"⟩] [] .nil) [] .nil

theorem exDoc_render : exDoc.render = b!"<?xml?><r><a k=\"1\">x<b>y</b><!--c--></a><n:a k='2' j=\"3\"/></r>" := by decide +kernel
theorem exDoc_says : Says exDoc.render exDoc.info := says_of exDoc (by decide +kernel)

end Verif.Spec
