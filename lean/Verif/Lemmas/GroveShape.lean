import Verif.Props.Grove
import Verif.Props.DictBuild
import Verif.Props.Group
/- Which trees `Set` can write (for C76). -/
namespace Verif.Props
open Verif Verif.Spec

/-- An entry to which `c` parts lead. -/
structure SlotShaped (c : Nat) (x : Slot) : Prop where
  labels : LabelsFine x.labels
  text : (escapeXML x.text).length ≤ 5242880
  room : c + (if x.labels = [] then 0 else 1) ≤ 100
  kids : x.kids.Shaped c []

theorem shaped_cons {b : Nat} {P : List Bytes} {n : Bytes} {x : Slot} {r : Dict} : (slotCons n x r).Shaped b P ↔
    Simple n ∧ (n ∈ P → P.head? = some n) ∧ SlotShaped (b + (if n ∈ P then 2 else 1)) x ∧ r.Shaped b (n :: P) :=
  ⟨fun ⟨h1, h2, h3, h4, h5, h6, h7⟩ => ⟨h1, h2, ⟨h3, h4, h5, h6⟩, h7⟩, fun ⟨h1, h2, ⟨h3, h4, h5, h6⟩, h7⟩ => ⟨h1, h2, h3, h4, h5, h6, h7⟩⟩

theorem shaped_append {b : Nat} {P : List Bytes} {x y : Dict} : (x.append y).Shaped b P ↔ x.Shaped b P ∧ y.Shaped b (x.names.reverse ++ P) := by
  induction x generalizing P with
  | nil => simp [Dict.append, Dict.Shaped, Dict.names]
  | entry m as s k r _ ih =>
    simp only [Dict.append, Dict.Shaped, ih, Dict.names, List.reverse_cons, List.append_assoc, List.singleton_append, and_assoc]

theorem shaped_mono {b b' : Nat} {P P' : List Bytes} {x : Dict} (h : x.Shaped b P) (hb : b' ≤ b) (h1 : ∀ l ∈ P', l ∈ P) (h2 : ∀ l ∈ P', P.head? = some l → P'.head? = some l) : x.Shaped b' P' := by
  induction x generalizing b b' P P' with
  | nil => trivial
  | entry n as s k r ihk ihr =>
    obtain ⟨g1, g2, g3, g4, g5, g6, g7⟩ := h
    have hc : b' + (if n ∈ P' then 2 else 1) ≤ b + (if n ∈ P then 2 else 1) := by
      by_cases hn : n ∈ P'
      · rw [if_pos hn, if_pos (h1 n hn)]; omega
      · rw [if_neg hn]; split <;> omega
    refine ⟨g1, fun hn => h2 n hn (g2 (h1 n hn)), g3, g4, by omega, ihk g6 hc (by simp) (by simp), ihr g7 hb ?_ ?_⟩
    · intro l hl
      rcases List.mem_cons.mp hl with h | h
      · rw [h]; exact List.mem_cons_self
      · exact List.mem_cons_of_mem _ (h1 l h)
    · intro l _ hh; exact hh

theorem shaped_tidy {b d : Nat} {P : List Bytes} {x : Dict} (h : x.Shaped b P) (hd : d ≤ b) : x.Tidy d := by
  induction x generalizing b d P with
  | nil => trivial
  | entry n as s k r ihk ihr =>
    obtain ⟨g1, g2, g3, g4, g5, g6, g7⟩ := h
    have : 1 ≤ if n ∈ P then 2 else 1 := by split <;> omega
    exact ⟨g1, by omega, g3, ihk g6 (by omega), ihr g7 hd⟩

/-- The parts needed for a step are at least those counted. -/
theorem stepsText_cost {n : Bytes} {j : Nat} {ps : List Step} {parts : List Bytes} (h : StepsText ((n, j) :: ps) parts) {S : List Bytes} (hS : n ∈ S → j ≠ 0) :
    ∃ front rest, parts = front ++ rest ∧ StepsText ps rest ∧ (if n ∈ S then 2 else 1) ≤ front.length := by
  cases h with
  | name hn h => exact ⟨[n], _, rfl, h, by rw [if_neg (fun hh => hS hh rfl)]; simp⟩
  | index hn hd hj h => exact ⟨[n, _], _, rfl, h, by simp; split <;> omega⟩

theorem all_length (n : Bytes) (d : Dict) : (d.all n).length = d.names.count n := by
  induction d with
  | nil => rfl
  | entry m as s k r _ ih =>
    simp only [Dict.all, Dict.names]
    by_cases h : m = n
    · subst h; simp [ih]
    · rw [if_neg h, List.count_cons_of_ne (by simpa using h), ih]

theorem shaped_edit {ps : List Step} {parts : List Bytes} (hps : StepsText ps parts) {b : Nat} {x : Dict} (h : x.Shaped b []) {f : Slot → Option Slot}
    (hf : ∀ y z c, x.look ps = some y → c ≤ b + parts.length → SlotShaped c y → f y = some z → SlotShaped c z) : (x.edit f ps).Shaped b [] := by
  induction ps generalizing x b parts with
  | nil => exact h
  | cons p ps ih =>
    obtain ⟨n, j⟩ := p
    cases hg : (x.all n)[j]? with
    | none =>
      cases ps with
      | nil => simp only [Dict.edit, alterNth_none hg]; exact h
      | cons q ps => rw [edit_cons, alterNth_none hg]; exact h
    | some y =>
      obtain ⟨B, A, hx, hB, h1⟩ := nth_split hg
      have h' := h
      rw [hx, shaped_append, shaped_cons, List.append_nil] at h'
      obtain ⟨s1, s2, s3, s4, s5⟩ := h'
      have hS : n ∈ B.names.reverse → j ≠ 0 := fun hh e => by
        rw [e, List.length_eq_zero_iff, all_names] at hB
        exact hB (List.mem_reverse.mp hh)
      obtain ⟨front, rest, rfl, r1, r2⟩ := stepsText_cost hps hS
      cases ps with
      | nil =>
        simp only [Dict.look, hg] at hf
        simp only [Dict.edit, h1]
        rw [shaped_append, List.append_nil]
        refine ⟨s1, ?_⟩
        cases hz : f y with
        | none => exact shaped_mono s5 (Nat.le_refl _) (fun l hl => List.mem_cons_of_mem _ hl) (fun l hl hh => by
            simp only [List.head?_cons, Option.some.injEq] at hh
            subst hh
            exact s3 hl)
        | some z =>
          rw [slotCons?, shaped_cons]
          exact ⟨s2, s3, hf y z _ rfl (by simp only [List.length_append]; omega) s4 hz, s5⟩
      | cons q ps =>
        rw [edit_cons]
        simp only [h1]
        rw [shaped_append, List.append_nil, slotCons?, shaped_cons]
        refine ⟨s1, s2, s3, ⟨s4.labels, s4.text, s4.room, ih r1 s4.kids (fun w z c hw hc => hf w z c ?_ ?_)⟩, s5⟩
        · rw [look_cons]; simp only [hg]; exact hw
        · simp only [List.length_append]; omega

theorem shaped_into {ps : List Step} {parts : List Bytes} (hps : StepsText ps parts) {x : Dict} (h : x.Shaped 0 []) {g : Dict → Dict}
    (hg : ∀ c, c ≤ parts.length → (x.under ps).Shaped c [] → (g (x.under ps)).Shaped c []) : (x.into g ps).Shaped 0 [] := by
  cases ps with
  | nil => exact hg 0 (by omega) h
  | cons p ps =>
    rw [Dict.into]
    refine shaped_edit hps h (fun y z c hy hc hs hz => ?_)
    cases hz
    have := hg c (by omega)
    rw [Dict.under, hy] at this
    exact ⟨hs.labels, hs.text, hs.room, this hs.kids⟩

theorem nest_shaped {ns : List Bytes} (hns : ∀ n ∈ ns, Simple n) {c : Nat} (hc : c + ns.length ≤ 100) {s : Bytes} (hs : (escapeXML s).length ≤ 5242880) : SlotShaped c (nest ns s) := by
  induction ns generalizing c with
  | nil => exact ⟨labelsFine_nil, hs, by simp [nest]; exact hc, trivial⟩
  | cons n ns ih =>
    simp only [List.length_cons] at hc
    obtain ⟨i1, i2, i3, i4⟩ := ih (fun q hq => hns q (by simp [hq])) (c := c + 1) (by omega)
    refine ⟨labelsFine_nil, by simp [nest, escapeXML], by simp [nest]; omega, ?_⟩
    exact ⟨hns n (by simp), by simp, i1, i2, by simpa using i3, by simpa using i4, trivial⟩

theorem shaped_snoc {c : Nat} {n : Bytes} {x : Slot} {K : Dict} (hK : K.Shaped c []) (hn : Simple n) (hx : SlotShaped (c + 1) x) (hm : n ∉ K.names) : (K.snoc n x).Shaped c [] := by
  rw [snoc_append, shaped_append, shaped_cons]
  have hm : n ∉ K.names.reverse ++ [] := by simpa using hm
  exact ⟨hK, hn, fun h => absurd h hm, by rw [if_neg hm]; exact hx, trivial⟩

theorem slotShaped_mono {c c' : Nat} {x : Slot} (h : SlotShaped c x) (hc : c' ≤ c) : SlotShaped c' x :=
  ⟨h.labels, h.text, by have := h.room; omega, shaped_mono h.kids hc (by simp) (by simp)⟩

theorem shaped_push {c : Nat} {n : Bytes} {x : Slot} {K : Dict} (hK : K.Shaped c []) (hn : Simple n) (hx : SlotShaped (c + 2) x) : (K.push n x).Shaped c [] := by
  by_cases hm : n ∈ K.names
  · obtain ⟨B, y, A, rfl, -, hp⟩ := push_split x hm
    rw [hp]
    rw [shaped_append, shaped_cons] at hK ⊢
    obtain ⟨h1, h2, h3, h4, h5⟩ := hK
    refine ⟨h1, h2, h3, h4, shaped_cons.mpr ⟨hn, fun _ => rfl, by rw [if_pos List.mem_cons_self]; exact hx, ?_⟩⟩
    exact shaped_mono h5 (Nat.le_refl _) (fun l hl => by
      rcases List.mem_cons.mp hl with h | h
      · rw [h]; exact List.mem_cons_self
      · exact h) (fun l _ hh => hh)
  · rw [push_new x hm, ← snoc_append]
    exact shaped_snoc hK hn (slotShaped_mono hx (by omega)) hm

/-- Whatever is done to a tree that can be written, it stays one. -/
theorem groveOp_shaped {d : Dict} (hd : d.Shaped 0 []) {op : GroveOp} (hf : op.Fits d) : (op.on d).Shaped 0 [] := by
  obtain ⟨h1, ⟨parts, h2, h3⟩, h4⟩ := hf
  cases op with
  | put ps s => exact shaped_edit h2 hd (fun y z c hy hc hs hz => by cases hz; exact ⟨hs.labels, h4.2, hs.room, trivial⟩)
  | make ps n ns s =>
    obtain ⟨-, g2, g3, g4⟩ := h4
    simp only [GroveOp.parts, List.length_append, List.length_cons] at h3
    exact shaped_into h2 hd (fun c hc hu => shaped_snoc hu (g2 n (by simp)) (nest_shaped (fun q hq => g2 q (by simp [hq])) (by omega) g4) g3)
  | push ps n s =>
    simp only [GroveOp.parts, List.length_append, List.length_cons, List.length_nil] at h3
    exact shaped_into h2 hd (fun c hc hu => shaped_push hu h4.2.1 ⟨labelsFine_nil, h4.2.2, by simp; omega, trivial⟩)
  | drop ps =>
    rw [GroveOp.on]
    split
    · exact hd
    · exact shaped_edit h2 hd (fun y z c hy hc hs hz => by cases hz)
  | label ps k s =>
    obtain ⟨g1, g2, x, g3, g4⟩ := h4
    simp only [GroveOp.parts, List.length_append, List.length_cons, List.length_nil] at h3
    refine shaped_edit h2 hd (fun y z c hy hc hs hz => ?_)
    rw [show (GroveOp.label ps k s).steps = ps from rfl, g3] at hy
    cases hy
    cases hz
    refine ⟨putLabel_fine hs.labels g1 g2 g4, hs.text, ?_, hs.kids⟩
    split <;> omega
  | unlabel ps k =>
    refine shaped_edit h2 hd (fun y z c hy hc hs hz => ?_)
    cases hz
    refine ⟨filter_fine hs.labels _, hs.text, ?_, hs.kids⟩
    have := hs.room
    by_cases hl : y.labels = []
    · simp only [hl, List.filter_nil]; rw [if_pos hl] at this; simpa using this
    · rw [if_neg hl] at this; split <;> omega

/-! ### every such tree is written -/

theorem into_ne {ps : List Step} (h : ps ≠ []) (g : Dict → Dict) (d : Dict) : d.into g ps = d.edit (fun x => some { x with kids := g x.kids }) ps := by
  cases ps with
  | nil => exact absurd rfl h
  | cons p ps => rfl

theorem under_look {ps : List Step} {d : Dict} {x : Slot} (h : d.look ps = some x) : d.under ps = x.kids := (into_edit h id).1

theorem alterNth_last (n : Bytes) (f : Slot → Option Slot) (K : Dict) (x : Slot) :
    (K.append (slotCons n x .nil)).alterNth n f (K.all n).length = K.append (slotCons? n (f x) .nil) := by
  induction K with
  | nil =>
    simp only [Dict.append, Dict.all, slotCons, List.length_nil, Dict.alterNth, if_pos]
    cases f x <;> rfl
  | entry m as s k r _ ih =>
    by_cases h : m = n
    · simp only [Dict.append, Dict.all, if_pos h, List.length_cons, Dict.alterNth, ih]
    · simp only [Dict.append, Dict.all, if_neg h, Dict.alterNth, ih]

theorem all_last (n : Bytes) (K : Dict) (x : Slot) : ((K.append (slotCons n x .nil)).all n)[(K.all n).length]? = some x := by
  rw [all_append]; simp [slotCons, Dict.all]

theorem push_end {n : Bytes} {K : Dict} (h : K.names.reverse.head? = some n) (x : Slot) : K.push n x = K.append (slotCons n x .nil) := by
  rw [List.head?_reverse] at h
  induction K with
  | nil => cases h
  | entry m as s k r _ ih =>
    cases r with
    | nil =>
      simp only [Dict.names, List.getLast?_singleton, Option.some.injEq] at h
      rw [Dict.push, if_pos ⟨h, by simp [Dict.names]⟩]; rfl
    | entry m2 as2 s2 k2 r2 =>
      have h2 : (Dict.entry m2 as2 s2 k2 r2).names.getLast? = some n := by
        simp only [Dict.names] at h ⊢
        rw [List.getLast?_cons_cons] at h; exact h
      have hmem : n ∈ (Dict.entry m2 as2 s2 k2 r2).names := List.mem_of_getLast? h2
      rw [Dict.push, if_neg (fun hh => hh.2 hmem), ih h2]; rfl

/-- A place in a tree: what is put there is found and changed below the path. -/
structure GPlace (at_ : List Step) (C : Dict → Dict) : Prop where
  edit : ∀ p ps f K, (C K).edit f (at_ ++ p :: ps) = C (K.edit f (p :: ps))
  look : ∀ p ps K, (C K).look (at_ ++ p :: ps) = K.look (p :: ps)
  into : ∀ g K, (C K).into g at_ = C (g K)
  under : ∀ K, (C K).under at_ = K
  has : ∀ K, (C K).Has at_
  mono : ∀ K L : Dict, K.render.length ≤ L.render.length → (C K).render.length ≤ (C L).render.length
  big : ∀ K : Dict, K.render.length ≤ (C K).render.length

theorem GPlace.sub {at_ : List Step} {C : Dict → Dict} (h : GPlace at_ C) (K : Dict) (n : Bytes) (as : List (Bytes × Bytes)) (s : Bytes) :
    GPlace (at_ ++ [(n, (K.all n).length)]) (fun k => C (K.append (.entry n as s k .nil))) := by
  have hl : ∀ k, (C (K.append (.entry n as s k .nil))).look (at_ ++ [(n, (K.all n).length)]) = some ⟨as, s, k⟩ := fun k => by
    rw [h.look, Dict.look]; exact all_last n K ⟨as, s, k⟩
  refine ⟨fun p ps f k => ?_, fun p ps k => ?_, fun g k => ?_, fun k => ?_, fun k => .inr (by rw [hl]; simp), fun k l hl => h.mono _ _ ?_, fun k => Nat.le_trans ?_ (h.big _)⟩
  · rw [List.append_assoc, List.singleton_append, h.edit, edit_cons]
    exact congrArg C (alterNth_last n _ K ⟨as, s, k⟩)
  · rw [List.append_assoc, List.singleton_append, h.look, look_cons]
    simp only []
    rw [show K.append (.entry n as s k .nil) = K.append (slotCons n ⟨as, s, k⟩ .nil) from rfl, all_last]; rfl
  · rw [into_ne (by simp), h.edit, Dict.edit]
    exact congrArg C (alterNth_last n _ K ⟨as, s, k⟩)
  · exact under_look (hl k)
  · simp only [dict_append_render, Dict.render, List.length_append]
    omega
  · simp only [dict_append_render, Dict.render, List.length_append]
    omega

theorem groveFit_append (d : Dict) (x y : List GroveOp) : GroveFit d (x ++ y) ↔ GroveFit d x ∧ GroveFit (x.foldl (fun d op => op.on d) d) y := by
  induction x generalizing d with
  | nil => simp [GroveFit]
  | cons op x ih => simp only [List.cons_append, GroveFit, ih, List.foldl_cons, and_assoc]

theorem labels_plant {at_ : List Step} {parts : List Bytes} {C : Dict → Dict} (h : GPlace at_ C) (hps : StepsText at_ parts) {K : Dict} {n : Bytes} {front : List Bytes}
    (hstep : StepsText [(n, (K.all n).length)] front) (s : Bytes) (as bs : List (Bytes × Bytes))
    (hf : LabelsFine (as ++ bs)) (hat : ∀ p ∈ at_, Simple p.1) (hnm : Simple n) (hl : bs ≠ [] → parts.length + front.length ≤ 99)
    (hs : (C (K.append (.entry n (as ++ bs) s .nil .nil))).render.length ≤ 10485760) :
    GroveFit (C (K.append (.entry n as s .nil .nil))) (bs.map (fun a => .label (at_ ++ [(n, (K.all n).length)]) a.1 a.2)) ∧
    (bs.map (fun a => GroveOp.label (at_ ++ [(n, (K.all n).length)]) a.1 a.2)).foldl (fun d op => op.on d) (C (K.append (.entry n as s .nil .nil))) =
      C (K.append (.entry n (as ++ bs) s .nil .nil)) := by
  induction bs generalizing as with
  | nil => exact ⟨trivial, by simp⟩
  | cons b bs ih =>
    have hl := hl (by simp)
    have e : as ++ b :: bs = (as ++ [b]) ++ bs := by simp
    rw [e] at hf hs ⊢
    obtain ⟨i1, i2⟩ := ih (as ++ [b]) hf (fun _ => hl) hs
    have hp := hf.sorted
    rw [List.map_append, List.map_append, List.pairwise_append, List.pairwise_append] at hp
    have hput : putLabel b.1 b.2 as = as ++ [b] := putLabel_last (fun a ha => hp.1.2.2 a.1 (List.mem_map_of_mem ha) b.1 (by simp)) b.2
    have hon : (GroveOp.label (at_ ++ [(n, (K.all n).length)]) b.1 b.2).on (C (K.append (.entry n as s .nil .nil))) = C (K.append (.entry n (as ++ [b]) s .nil .nil)) := by
      rw [GroveOp.on, h.edit, Dict.edit, ← hput]
      exact congrArg C (alterNth_last n _ K ⟨as, s, .nil⟩)
    rw [List.map_cons, GroveFit, List.foldl_cons, hon]
    refine ⟨⟨⟨?_, ⟨parts ++ front, stepsText_append hps hstep, by simp [GroveOp.parts]; omega⟩, hf.names b (by simp), hf.sizes b (by simp), ⟨as, s, .nil⟩, ?_, ?_⟩, ?_, i1⟩, i2⟩
    · intro p hp
      rcases List.mem_append.mp hp with h | h
      · exact hat p h
      · rw [List.mem_singleton.mp h]; exact hnm
    · rw [h.look, Dict.look]; exact all_last n K ⟨as, s, .nil⟩
    · rw [hput]
      have := hf.count
      simp only [List.length_append] at this ⊢
      omega
    · refine Nat.le_trans (h.mono _ _ ?_) hs
      simp only [dict_append_render, Dict.render, List.length_append, List.flatMap_append]
      omega

theorem all_small (n : Bytes) (d : Dict) : (d.all n).length ≤ d.render.length := by
  induction d with
  | nil => exact Nat.le_refl _
  | entry m as s k r _ ih =>
    simp only [Dict.all, Dict.render, List.length_append]
    split
    · simp only [List.length_cons, List.length_nil]; omega
    · omega

theorem plant_run (d : Dict) : ∀ (at_ : List Step) (parts : List Bytes) (C : Dict → Dict) (K : Dict), GPlace at_ C → StepsText at_ parts → d.Shaped parts.length K.names.reverse →
    (∀ p ∈ at_, Simple p.1) → (C (K.append d)).render.length ≤ 10485760 →
    GroveFit (C K) (d.plant at_ K.names.reverse) ∧ (d.plant at_ K.names.reverse).foldl (fun d op => op.on d) (C K) = C (K.append d) := by
  induction d with
  | nil => intro at_ parts C K _ _ _ _ _; exact ⟨trivial, by rw [dict_append_nil]; rfl⟩
  | entry n as s k r ihk ihr =>
    intro at_ parts C K h hps hd hat hs
    obtain ⟨f1, f2, f3, f4, f5, f6, f7⟩ := hd
    have hj : K.names.reverse.count n = (K.all n).length := by rw [List.count_reverse, all_length]
    have hmem : n ∈ K.names.reverse ↔ (K.all n).length ≠ 0 := by rw [List.mem_reverse, ← Decidable.not_iff_not, ← all_names, Decidable.not_not, List.length_eq_zero_iff]
    have hall : ∀ p ∈ at_ ++ [(n, (K.all n).length)], Simple p.1 := by
      intro p hp
      rcases List.mem_append.mp hp with h | h
      · exact hat p h
      · rw [List.mem_singleton.mp h]; exact f1
    have hle : ∀ (bs : List (Bytes × Bytes)) (q : Dict), (Dict.entry n bs s q .nil).render.length ≤ (Dict.entry n as s k r).render.length →
        (C (K.append (.entry n bs s q .nil))).render.length ≤ 10485760 := fun bs q hq => by
      refine Nat.le_trans (h.mono _ _ ?_) hs
      simp only [dict_append_render, List.length_append]
      omega
    have hsmall : (K.all n).length < 2 ^ 63 := by
      have h1 := all_small n K
      have h2 := h.big (K.append (.entry n as s k r))
      rw [dict_append_render, List.length_append] at h2
      omega
    obtain ⟨front, hstep, hfl⟩ : ∃ front, StepsText [(n, (K.all n).length)] front ∧ front.length = (if n ∈ K.names.reverse then 2 else 1) := by
      by_cases hm : n ∈ K.names.reverse
      · exact ⟨[n, _], .index (name_plain f1.1) (natDec_reads _) hsmall .nil, by rw [if_pos hm]; rfl⟩
      · have h0 : (K.all n).length = 0 := by
          by_cases hz : (K.all n).length = 0
          · exact hz
          · exact absurd (hmem.mpr hz) hm
        rw [h0]
        exact ⟨[n], .name (name_plain f1.1) .nil, by rw [if_neg hm]; rfl⟩
    have l0 := hle [] .nil (by simp only [Dict.render, List.length_append, List.flatMap_nil, List.length_nil]; omega)
    have hfirst : ((if n ∈ K.names.reverse then GroveOp.push at_ n s else .make at_ n [] s).Fits (C K)) ∧
        (if n ∈ K.names.reverse then GroveOp.push at_ n s else .make at_ n [] s).on (C K) = C (K.append (.entry n [] s .nil .nil)) := by
      by_cases hm : n ∈ K.names.reverse
      · rw [if_pos hm] at f5
        rw [if_pos hm]
        refine ⟨⟨hat, ⟨parts, hps, by simp [GroveOp.parts]; omega⟩, h.has K, f1, f4⟩, ?_⟩
        rw [GroveOp.on, h.into, push_end (f2 hm)]; rfl
      · rw [if_neg hm] at f5
        rw [if_neg hm]
        refine ⟨⟨hat, ⟨parts, hps, by simp [GroveOp.parts]; omega⟩, h.has K, by simpa using f1, by rw [h.under]; simpa using hm, f4⟩, ?_⟩
        rw [GroveOp.on, h.into, snoc_append]; rfl
    obtain ⟨hfit, hon⟩ := hfirst
    obtain ⟨l1, l2⟩ := labels_plant h hps hstep s [] as (by simpa using f3) hat f1 (fun ha => by rw [if_neg ha] at f5; omega)
      (hle as .nil (by simp only [Dict.render, List.length_append, List.length_nil]; omega))
    have l3 := hle as k (by simp only [Dict.render, List.length_append, List.length_nil]; omega)
    obtain ⟨k1, k2⟩ := ihk (at_ ++ [(n, (K.all n).length)]) (parts ++ front) (fun k => C (K.append (.entry n as s k .nil))) .nil (h.sub K n as s) (stepsText_append hps hstep)
      (by rw [List.length_append, hfl]; exact f6) hall l3
    have e : (K.append (.entry n as s k .nil)).append r = K.append (.entry n as s k r) := by rw [dict_append_assoc]; rfl
    have e2 : (K.append (.entry n as s k .nil)).names.reverse = n :: K.names.reverse := by rw [names_append]; simp [Dict.names]
    have hr := ihr at_ parts C (K.append (.entry n as s k .nil)) h hps (by rw [e2]; exact f7) hat (by rw [e]; exact hs)
    rw [e2] at hr
    obtain ⟨r1, r2⟩ := hr
    rw [List.nil_append] at l2
    rw [Dict.plant, GroveFit, groveFit_append, groveFit_append, List.foldl_cons, List.foldl_append, List.foldl_append, hon, hj, l2]
    simp only [Dict.names, List.reverse_nil, Dict.append] at k1 k2
    rw [k2]
    exact ⟨⟨hfit, l0, l1, k1, r1⟩, by rw [r2, e]⟩

end Verif.Props
