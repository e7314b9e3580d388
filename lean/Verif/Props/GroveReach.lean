import Verif.Lemmas.GroveShape
import Verif.Props.Steps
/- Which documents calls of `Set` and `Delete` lead to from the empty one (C76, continued). -/
namespace Verif.Props
open Verif Verif.Spec

/-- The tree is the result of operations on nothing, all of which can be called, with no document longer than 10 MiB on the way. -/
def Reached (d : Dict) : Prop := ∃ ops : List GroveOp, GroveFit .nil ops ∧ ops.foldl (fun d op => op.on d) .nil = d

theorem plant_nil {d : Dict} (hd : d.Shaped 0 []) (hs : d.render.length ≤ 10485760) : GroveFit .nil (d.plant [] []) ∧ (d.plant [] []).foldl (fun d op => op.on d) .nil = d :=
  plant_run d [] [] id .nil ⟨fun _ _ _ _ => rfl, fun _ _ _ => rfl, fun _ _ => rfl, fun _ => rfl, fun _ => .inl rfl, fun _ _ h => h, fun _ => Nat.le_refl _⟩ .nil hd (by simp) hs

/-- C76: the trees that calls lead to from the empty document are exactly those in which entries of one name are next to each other, whose entries can be reached with
paths of 100 parts, and whose names, labels and texts are within the limits. -/
theorem C76_reached (d : Dict) : Reached d ↔ d.Shaped 0 [] ∧ d.render.length ≤ 10485760 := by
  constructor
  · rintro ⟨ops, h1, rfl⟩
    have key : ∀ (ops : List GroveOp) (d : Dict), d.Shaped 0 [] → d.render.length ≤ 10485760 → GroveFit d ops →
        (ops.foldl (fun d op => op.on d) d).Shaped 0 [] ∧ (ops.foldl (fun d op => op.on d) d).render.length ≤ 10485760 := by
      intro ops
      induction ops with
      | nil => intro d hd hs _; exact ⟨hd, hs⟩
      | cons op ops ih => intro d hd _ h; exact ih _ (groveOp_shaped hd h.1) h.2.1 h.2.2
    exact key ops .nil trivial (by decide) h1
  · rintro ⟨h1, h2⟩
    exact ⟨_, plant_nil h1 h2⟩

/-- C76: every such document is written by its calls, one after the other, from the empty one. -/
theorem C76_build (o : Ord) (ho : o.IsPerm) (d : Dict) (hd : d.Shaped 0 []) (hs : d.render.length ≤ 10485760) : Seq (GroveOk o) [] (d.plant [] []) d.render := by
  obtain ⟨h1, h2⟩ := plant_nil hd hs
  have := (C76_run o ho .nil trivial (by decide) _ h1).1
  rwa [h2] at this

/-- C76: and whatever calls do to a document written by `Set`, entries of one name stay next to each other. -/
theorem C76_grouped (d : Dict) (hd : d.Shaped 0 []) (op : GroveOp) (hf : op.Fits d) : (op.on d).Shaped 0 [] := groveOp_shaped hd hf

/-- The steps as parts of a path: the name, and the index unless it is 0. -/
def spell : List Step → List Bytes
  | [] => []
  | (n, j) :: ps => (if j = 0 then [n] else [n, natDec j]) ++ spell ps

/-- No way of writing the steps is shorter. -/
theorem spell_shortest {ps : List Step} {parts : List Bytes} (h : StepsText ps parts) : StepsText ps (spell ps) ∧ (spell ps).length ≤ parts.length := by
  induction h with
  | nil => exact ⟨.nil, Nat.le_refl _⟩
  | name hn _ ih => exact ⟨.name hn ih.1, by simpa [spell] using ih.2⟩
  | @index n ds j ps parts hn hd hj _ ih =>
    by_cases h0 : j = 0
    · subst h0; exact ⟨.name hn ih.1, by simp [spell]; omega⟩
    · rw [spell, if_neg h0]; exact ⟨.index hn (natDec_reads j) hj ih.1, by simpa using ih.2⟩

theorem parts_length (op : GroveOp) {x y : List Bytes} (h : x.length ≤ y.length) : (op.parts x).length ≤ (op.parts y).length := by
  cases op <;> simp [GroveOp.parts] <;> omega

/-- Path and value of an operation that `Set` does. -/
def groveArgs : GroveOp → Option (Bytes × Bytes)
  | .put ps s => some (pathOf ((GroveOp.put ps s).parts (spell ps)), s)
  | .make ps n ns s => some (pathOf ((GroveOp.make ps n ns s).parts (spell ps)), s)
  | .push ps n s => some (pathOf ((GroveOp.push ps n s).parts (spell ps)), s)
  | .label ps k s => some (pathOf ((GroveOp.label ps k s).parts (spell ps)), s)
  | _ => none

/-- C76: one call of `SetMany` does what the calls do one after the other. -/
theorem C76_setMany (o : Ord) (ho : o.IsPerm) (d : Dict) (hd : d.Tidy 0) (hs : d.render.length ≤ 10485760) (ops : List GroveOp) (hf : GroveFit d ops)
    (args : List (Bytes × Bytes)) (ha : ops.map groveArgs = args.map some) :
    setMany o d.render (args.map (·.1)) (args.map (fun a => .str a.2)) = .ret ((ops.foldl (fun d op => op.on d) d).render, none) := by
  refine (C24_setMany_ok o _ _ _ _).mpr ⟨hs, by simp, ?_⟩
  induction ops generalizing d args with
  | nil =>
    cases args with
    | nil => exact .nil _
    | cons => cases ha
  | cons op ops ih =>
    cases args with
    | nil => cases ha
    | cons a args =>
      obtain ⟨f1, f2, f3⟩ := hf
      simp only [List.map_cons, List.cons.injEq] at ha
      obtain ⟨parts, p1, p2⟩ := f1.2.1
      obtain ⟨q1, q2⟩ := spell_shortest p1
      refine .cons ?_ (ih _ (groveOp_tidy hd f1) f2 f3 args ha.2)
      have h1 := (C76_step o ho d hd hs op f1 f2 _ q1 (Nat.le_trans (parts_length op q2) p2)).1
      have h2 := ha.1
      cases op with
      | put ps s => cases h2; exact h1
      | make ps n ns s => cases h2; exact h1
      | push ps n s => cases h2; exact h1
      | label ps k s => cases h2; exact h1
      | drop => cases h2
      | unlabel => cases h2

/-- Path and value of the calls that write a tree. -/
def plantArgs (d : Dict) : List (Bytes × Bytes) := (d.plant [] []).filterMap groveArgs

theorem plant_sets (d : Dict) (at_ : List Step) (seen : List Bytes) : (d.plant at_ seen).map groveArgs = ((d.plant at_ seen).filterMap groveArgs).map some := by
  induction d generalizing at_ seen with
  | nil => rfl
  | entry n as s k r ihk ihr =>
    have hl : ∀ ps, (as.map (fun a => GroveOp.label ps a.1 a.2)).map groveArgs = ((as.map (fun a => GroveOp.label ps a.1 a.2)).filterMap groveArgs).map some := by
      intro ps
      induction as with
      | nil => rfl
      | cons a as ih => rw [List.map_cons, List.map_cons, ih, List.filterMap_cons]; simp [groveArgs]
    rw [Dict.plant, List.map_cons, List.filterMap_cons]
    have hg : ∃ a, groveArgs (if n ∈ seen then GroveOp.push at_ n s else .make at_ n [] s) = some a := by split <;> exact ⟨_, rfl⟩
    obtain ⟨a, hg⟩ := hg
    simp only [hg]
    · rw [List.map_cons, List.map_append, List.map_append, List.filterMap_append, List.filterMap_append, List.map_append, List.map_append, ihk, ihr, hl]

/-- C76: every such document is also written by one call of `SetMany`. -/
theorem C76_build_many (o : Ord) (ho : o.IsPerm) (d : Dict) (hd : d.Shaped 0 []) (hs : d.render.length ≤ 10485760) :
    setMany o [] ((plantArgs d).map (·.1)) ((plantArgs d).map (fun a => .str a.2)) = .ret (d.render, none) := by
  obtain ⟨h1, h2⟩ := plant_nil hd hs
  have := C76_setMany o ho .nil trivial (by decide) _ h1 (plantArgs d) (plant_sets d [] [])
  rwa [h2] at this

/-- C76: what a path leads to is what `Get` finds: an element with all the text in the entry. The first step has no index and indices are below 1000. -/
theorem C76_read (env : Env) (ho : env.ord.IsPerm) (d : Dict) (hd : d.Tidy 0) (hs : d.render.length ≤ 10485760) (n : Bytes) (ps : List Step) (parts : List Bytes) (hps : StepsText ps parts)
    (hns : ∀ p ∈ (n, 0) :: ps, Simple p.1) (hj : ∀ p ∈ ps, p.2 < 1000) (hpl : parts.length < 100) (y : Slot) (hy : d.look ((n, 0) :: ps) = some y) :
    ∃ r, get env d.render (pathOf (n :: parts)) = .ret r ∧ r.typ = .element ∧ r.toStr = trimSpace (y.text ++ y.kids.words) := by
  have h0 : d ≠ .nil := by rintro rfl; rw [look_nil] at hy; cases hy
  have hE := grove_editable hd h0 hs
  obtain ⟨c, m, hL, hp, -⟩ := grove_leads hns hd hy []
  rw [← hp] at hE
  obtain ⟨ms, m1, m2, m3⟩ := ask_steps_top (pf := env.parseFloat) (name_plain (hns (n, 0) (by simp)).1) hps hj
  obtain ⟨r, g1, g2⟩ := C51_get env ho _ _ (editable_says hE) m1 .elem m2 (by simp) (by simp; omega) (by simp) (by simp)
  rw [m3 _ _ (leads_follow (e := slotEl m y) hL)] at g2
  rw [List.append_nil, hp, grove_text] at g1
  replace g2 : IsElement r (slotEl m y).node := g2
  refine ⟨r, g1, g2.typ, ?_⟩
  rw [g2.str]
  show unescapeXML (trimSpace ((escapeXML y.text).filter (fun c => c ≠ c!">") ++ y.kids.forest.info.allText)) = _
  rw [dict_allText, escape_noGt, ← escapeXML_append, trim_escape, unescape_escape]

/-! ### cases -/

/-- `<list><item id="1">a<sub/></item><item>b</item><end/></list>`, with the empty elements as two tags. -/
def exGrove : Dict := .entry b!"list" [] [] (.entry b!"item" [(b!"id", b!"1")] b!"a" (.entry b!"sub" [] [] .nil .nil) (.entry b!"item" [] b!"b" .nil (.entry b!"end" [] [] .nil .nil))) .nil

example : exGrove.render = b!"<list><item id=\"1\">a<sub></sub></item><item>b</item><end></end></list>" := by decide +kernel

theorem exGrove_shaped : exGrove.Shaped 0 [] :=
  ⟨simple_of (by decide), by decide, labelsFine_nil, by decide, by decide,
    ⟨simple_of (by decide), by decide, ⟨by decide, fun a h => by simp at h; subst h; exact isName_of (by decide) (by decide), fun a h => by simp at h; subst h; decide, by simp⟩, by decide, by decide,
      ⟨simple_of (by decide), by decide, labelsFine_nil, by decide, by decide, trivial, trivial⟩,
      simple_of (by decide), by decide, labelsFine_nil, by decide, by decide, trivial, simple_of (by decide), by decide, labelsFine_nil, by decide, by decide, trivial, trivial⟩, trivial⟩

example : plantArgs exGrove = [(b!"list", []), (b!"list.item", b!"a"), (b!"list.item.@id", b!"1"), (b!"list.item.sub", []), (b!"list.item.-1", b!"b"), (b!"list.end", [])] := by decide +kernel

/-- In the model of the code. -/
example : setMany exEnv.ord [] [b!"list", b!"list.item", b!"list.item.@id", b!"list.item.sub", b!"list.item.-1", b!"list.end"] [.str [], .str b!"a", .str b!"1", .str [], .str b!"b", .str []] =
    .ret (exGrove.render, none) := by decide +kernel

example : Reached exGrove := (C76_reached _).mpr ⟨exGrove_shaped, by decide +kernel⟩

/-- C76: a tree in which entries of one name are apart cannot be reached. -/
theorem C76_apart : ¬ Reached (.entry b!"r" [] [] (.entry b!"a" [] [] .nil (.entry b!"b" [] [] .nil (.entry b!"a" [] [] .nil .nil))) .nil) := by
  intro h
  obtain ⟨-, -, -, -, -, ⟨-, -, -, -, -, -, ⟨-, -, -, -, -, -, ⟨-, h1, -⟩⟩⟩, -⟩ := ((C76_reached _).mp h).1
  exact absurd (h1 (by decide)) (by decide)

/-- C76: but when it is there, it can be changed, entry by entry. -/
theorem C76_apart_put : set exEnv.ord b!"<r><a></a><b></b><a></a></r>" b!"r.a.1" (.str b!"x") = .ret (b!"<r><a></a><b></b><a>x</a></r>", none) ∧
    set exEnv.ord b!"<r><a></a><b></b><a></a></r>" b!"r.a.-1" (.str b!"x") = .ret (b!"<r><a></a><b></b><a></a><a>x</a></r>", none) ∧
    delete exEnv.ord b!"<r><a></a><b></b><a></a></r>" b!"r.a.0" = .ret (b!"<r><b></b><a></a></r>", none) := by decide +kernel

/-- The same by the theorem. -/
example : set exEnv.ord b!"<r><a></a><b></b><a></a></r>" b!"r.a.1" (.str b!"x") = .ret (b!"<r><a></a><b></b><a>x</a></r>", none) := by
  have hd : (Dict.entry b!"r" [] [] (.entry b!"a" [] [] .nil (.entry b!"b" [] [] .nil (.entry b!"a" [] [] .nil .nil))) .nil).Tidy 0 :=
    ⟨simple_of (by decide), by decide, labelsFine_nil, ⟨simple_of (by decide), by decide, labelsFine_nil, trivial, simple_of (by decide), by decide, labelsFine_nil, trivial,
      simple_of (by decide), by decide, labelsFine_nil, trivial, trivial⟩, trivial⟩
  have hst : StepsText [(b!"r", 0), (b!"a", 1)] [b!"r", b!"a", b!"1"] :=
    .name (name_plain (simple_of (by decide)).1) (.index (name_plain (simple_of (by decide)).1) (.digit c!"1" (by decide)) (by decide) .nil)
  have := (C76_step exEnv.ord exEnv_perm _ hd (by decide +kernel) (.put [(b!"r", 0), (b!"a", 1)] b!"x")
    ⟨by intro p hp; simp only [GroveOp.steps, List.mem_cons, List.not_mem_nil, or_false] at hp; rcases hp with rfl | rfl <;> exact simple_of (by decide), ⟨_, hst, by decide⟩, by decide +kernel, by decide⟩
    (by decide +kernel) _ hst (by decide)).1
  exact this

end Verif.Props
