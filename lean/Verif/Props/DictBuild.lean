import Verif.Props.Dict
/- Every nested dictionary within the limits is the result of `Set` calls on the empty document (C72, continued). -/
namespace Verif.Spec

/-- The calls that write a dictionary below a path, entry by entry: the text, then the labels, then what is in it. -/
def Dict.build (at_ : List Bytes) : Dict → List DictOp
  | .nil => []
  | .entry n as s k r => .put (at_ ++ [n]) s :: (as.map (fun a => .label (at_ ++ [n]) a.1 a.2) ++ (k.build (at_ ++ [n]) ++ r.build at_))

/-- Every text is at most 5 MiB long, escaped. -/
def Dict.Short : Dict → Prop
  | .nil => True
  | .entry _ _ s k r => (escapeXML s).length ≤ 5242880 ∧ k.Short ∧ r.Short

end Verif.Spec

namespace Verif.Props
open Verif Verif.Spec

theorem fitAll_append (d : Dict) (x y : List DictOp) : FitAll d (x ++ y) ↔ FitAll d x ∧ FitAll (x.foldl (fun d op => op.on d) d) y := by
  induction x generalizing d with
  | nil => simp [FitAll]
  | cons op x ih => simp only [List.cons_append, FitAll, ih, List.foldl_cons, and_assoc]

theorem putLabel_last {k : Bytes} {as : List (Bytes × Bytes)} (h : ∀ a ∈ as, a.1 < k) (v : Bytes) : putLabel k v as = as ++ [(k, v)] := by
  induction as with
  | nil => rfl
  | cons a as ih =>
    obtain ⟨j, u⟩ := a
    have hj : j < k := h (j, u) (by simp)
    rw [putLabel, if_neg (fun e => by subst e; exact List.lt_irrefl _ hj), if_neg (fun e => List.lt_irrefl _ (lt_trans' hj e)),
      ih (fun a ha => h a (List.mem_cons_of_mem _ ha))]
    rfl

/-- A place in a dictionary: what is put there is found and changed below the path. -/
structure Place (at_ : List Bytes) (C : Dict → Dict) : Prop where
  change : ∀ n ns f K, (C K).change (at_ ++ n :: ns) f = C (K.change (n :: ns) f)
  find : ∀ n ns K, (C K).find (at_ ++ n :: ns) = K.find (n :: ns)
  mono : ∀ K L : Dict, K.render.length ≤ L.render.length → (C K).render.length ≤ (C L).render.length

theorem append_get_none {K : Dict} {n : Bytes} (h : K.get n = none) (L : Dict) : (K.append L).get n = L.get n := by
  induction K with
  | nil => rfl
  | entry m as s k r _ ih =>
    rw [Dict.get] at h
    by_cases hm : m = n
    · rw [if_pos hm] at h; cases h
    · rw [if_neg hm] at h; rw [Dict.append, Dict.get, if_neg hm, ih h]

theorem append_alter_none {K : Dict} {n : Bytes} (h : K.get n = none) (L : Dict) (f : Option Slot → Option Slot) : (K.append L).alter n f = K.append (L.alter n f) := by
  induction K with
  | nil => rfl
  | entry m as s k r _ ih =>
    rw [Dict.get] at h
    by_cases hm : m = n
    · rw [if_pos hm] at h; cases h
    · rw [if_neg hm] at h; rw [Dict.append, Dict.alter, if_neg hm, ih h]; rfl

theorem append_get_ne {K : Dict} {n m : Bytes} (h : K.get n = none) (hm : m ≠ n) (as s k) : (K.append (.entry m as s k .nil)).get n = none := by
  rw [append_get_none h, Dict.get, if_neg hm]; rfl

theorem dict_append_assoc (x y z : Dict) : (x.append y).append z = x.append (y.append z) := by
  induction x with
  | nil => rfl
  | entry m as s k r _ ih => simp only [Dict.append, ih]

theorem Place.sub {at_ : List Bytes} {C : Dict → Dict} (h : Place at_ C) {K : Dict} {n : Bytes} (hn : K.get n = none) (as : List (Bytes × Bytes)) (s : Bytes) :
    Place (at_ ++ [n]) (fun k => C (K.append (.entry n as s k .nil))) := by
  refine ⟨fun m ns f k => ?_, fun m ns k => ?_, fun k l hl => h.mono _ _ ?_⟩
  · rw [List.append_assoc, List.singleton_append, h.change, change_cons, append_alter_none hn]
    simp only [Dict.alter, if_pos]
  · rw [List.append_assoc, List.singleton_append, h.find, find_cons, append_get_none hn]
    simp only [Dict.get, if_pos, Option.bind_some]
  · simp only [dict_append_render, Dict.render, List.length_append]
    omega

theorem labels_build {at_ : List Bytes} {C : Dict → Dict} (h : Place at_ C) {K : Dict} {n : Bytes} (hn : K.get n = none) (s : Bytes) (as bs : List (Bytes × Bytes))
    (hf : LabelsFine (as ++ bs)) (hat : ∀ m ∈ at_, Simple m) (hnm : Simple n) (hl : at_.length + 1 ≤ 99)
    (hs : (C (K.append (.entry n (as ++ bs) s .nil .nil))).render.length ≤ 10485760) :
    FitAll (C (K.append (.entry n as s .nil .nil))) (bs.map (fun a => .label (at_ ++ [n]) a.1 a.2)) ∧
    (bs.map (fun a => DictOp.label (at_ ++ [n]) a.1 a.2)).foldl (fun d op => op.on d) (C (K.append (.entry n as s .nil .nil))) =
      C (K.append (.entry n (as ++ bs) s .nil .nil)) := by
  induction bs generalizing as with
  | nil => exact ⟨trivial, by simp⟩
  | cons b bs ih =>
    have e : as ++ b :: bs = (as ++ [b]) ++ bs := by simp
    rw [e] at hf hs ⊢
    obtain ⟨i1, i2⟩ := ih (as ++ [b]) hf hs
    have hp := hf.sorted
    rw [List.map_append, List.map_append, List.pairwise_append, List.pairwise_append] at hp
    have hput : putLabel b.1 b.2 as = as ++ [b] := putLabel_last (fun a ha => hp.1.2.2 a.1 (List.mem_map_of_mem ha) b.1 (by simp)) b.2
    have hon : (DictOp.label (at_ ++ [n]) b.1 b.2).on (C (K.append (.entry n as s .nil .nil))) = C (K.append (.entry n (as ++ [b]) s .nil .nil)) := by
      rw [DictOp.on, h.change, Dict.change, append_alter_none hn]
      simp only [Dict.alter, if_pos, Option.getD_some, hput]
    rw [List.map_cons, FitAll, List.foldl_cons, hon]
    refine ⟨⟨⟨by simp, by simp; omega, ?_, hf.names b (by simp), hf.sizes b (by simp), ?_⟩, ?_, i1⟩, i2⟩
    · intro m hm
      rcases List.mem_append.mp hm with h | h
      · exact hat m h
      · rw [List.mem_singleton.mp h]; exact hnm
    · rw [h.find, Dict.find, append_get_none hn]
      simp only [Dict.get, if_pos, Option.getD_some, hput]
      have := hf.count
      simp only [List.length_append] at this ⊢
      omega
    · refine Nat.le_trans (h.mono _ _ ?_) hs
      simp only [dict_append_render, Dict.render, List.length_append, List.flatMap_append]
      omega

theorem build_run (d : Dict) : ∀ (at_ : List Bytes) (C : Dict → Dict) (K : Dict), Place at_ C → d.Fine (at_.length + 1) → d.Short → (∀ m ∈ at_, Simple m) →
    (∀ n, d.get n ≠ none → K.get n = none) → (C (K.append d)).render.length ≤ 10485760 →
    FitAll (C K) (d.build at_) ∧ (d.build at_).foldl (fun d op => op.on d) (C K) = C (K.append d) := by
  induction d with
  | nil => intro at_ C K _ _ _ _ _ _; exact ⟨trivial, by rw [dict_append_nil]; rfl⟩
  | entry n as s k r ihk ihr =>
    intro at_ C K h hf hsh hat hfree hs
    obtain ⟨f1, f2, f3, f4, f5, f6⟩ := hf
    obtain ⟨s1, s2, s3⟩ := hsh
    have hn : K.get n = none := hfree n (by simp [Dict.get])
    have hall : ∀ m ∈ at_ ++ [n], Simple m := by
      intro m hm
      rcases List.mem_append.mp hm with h | h
      · exact hat m h
      · rw [List.mem_singleton.mp h]; exact f1
    have hle : ∀ (bs : List (Bytes × Bytes)) (q : Dict), (Dict.entry n bs s q .nil).render.length ≤ (Dict.entry n as s k r).render.length →
        (C (K.append (.entry n bs s q .nil))).render.length ≤ 10485760 := fun bs q hq => by
      refine Nat.le_trans (h.mono _ _ ?_) hs
      simp only [dict_append_render, List.length_append]
      omega
    have hon : (DictOp.put (at_ ++ [n]) s).on (C K) = C (K.append (.entry n [] s .nil .nil)) := by
      rw [DictOp.on, h.change, Dict.change, get_none_split hn]; rfl
    have l0 := hle [] .nil (by simp only [Dict.render, List.length_append, List.flatMap_nil, List.length_nil]; omega)
    obtain ⟨l1, l2⟩ := labels_build h hn s [] as (by simpa using f3) hat f1 (by omega) (hle as .nil (by simp only [Dict.render, List.length_append, List.length_nil]; omega))
    have l3 := hle as k (by simp only [Dict.render, List.length_append, List.length_nil]; omega)
    obtain ⟨k1, k2⟩ := ihk (at_ ++ [n]) (fun k => C (K.append (.entry n as s k .nil))) .nil (h.sub hn as s) (by simpa using f4) s2 hall (fun _ _ => rfl) l3
    have e : (K.append (.entry n as s k .nil)).append r = K.append (.entry n as s k r) := by rw [dict_append_assoc]; rfl
    obtain ⟨r1, r2⟩ := ihr at_ C (K.append (.entry n as s k .nil)) h f6 s3 hat (fun m hm => by
      have hmn : n ≠ m := fun e => by subst e; exact hm f5
      exact append_get_ne (hfree m (by rw [Dict.get, if_neg hmn]; exact hm)) hmn as s k) (by rw [e]; exact hs)
    rw [List.nil_append] at l2
    rw [Dict.build, FitAll, fitAll_append, fitAll_append, List.foldl_cons, List.foldl_append, List.foldl_append, hon, l2]
    dsimp only [Dict.append] at k1 k2
    rw [k2]
    exact ⟨⟨⟨by simp, by simp; omega, hall, s1⟩, l0, l1, k1, r1⟩, by rw [r2, e]⟩

theorem fine_mono {d : Nat} {x : Dict} (h : x.Fine (d + 1)) : x.Fine d := by
  induction x generalizing d with
  | nil => trivial
  | entry n as s k r ihk ihr => obtain ⟨h1, h2, h3, h4, h5, h6⟩ := h; exact ⟨h1, by omega, h3, ihk h4, h5, ihr h6⟩

/-- C72: every nested dictionary within the limits can be built: its calls, made one after the other on the empty document, all succeed and give its document. -/
theorem C72_build (o : Ord) (ho : o.IsPerm) (d : Dict) (hd : d.Fine 1) (ht : d.Short) (hs : d.render.length ≤ 10485760) : Seq (DictOk o) [] (d.build []) d.render := by
  obtain ⟨h1, h2⟩ := build_run d [] id .nil ⟨fun _ _ _ _ => rfl, fun _ _ _ => rfl, fun _ _ h => h⟩ hd ht (by simp) (fun _ _ => rfl) hs
  have := (C72_run o ho .nil trivial (by decide) _ h1).1
  have e : (d.build []).foldl (fun d op => op.on d) Dict.nil = d := h2
  rwa [e] at this

/-- The path and the value of every call that writes a dictionary. -/
def buildArgs (d : Dict) : List (Bytes × Bytes) := (d.build []).filterMap setArgs

theorem build_sets (d : Dict) (at_ : List Bytes) : (d.build at_).map setArgs = ((d.build at_).filterMap setArgs).map some := by
  induction d generalizing at_ with
  | nil => rfl
  | entry n as s k r ihk ihr =>
    have hl : (as.map (fun a => DictOp.label (at_ ++ [n]) a.1 a.2)).map setArgs = ((as.map (fun a => DictOp.label (at_ ++ [n]) a.1 a.2)).filterMap setArgs).map some := by
      induction as with
      | nil => rfl
      | cons a as ih => rw [List.map_cons, List.map_cons, ih, List.filterMap_cons]; simp [setArgs]
    rw [Dict.build, List.map_cons, List.filterMap_cons]
    simp only [setArgs, List.map_append, List.filterMap_append, List.map_cons]
    rw [ihk, ihr, ← hl]

/-- C72: or by one call of `SetMany` on the empty document. -/
theorem C72_build_many (o : Ord) (ho : o.IsPerm) (d : Dict) (hd : d.Fine 1) (ht : d.Short) (hs : d.render.length ≤ 10485760) :
    setMany o [] ((buildArgs d).map (·.1)) ((buildArgs d).map (fun a => .str a.2)) = .ret (d.render, none) := by
  obtain ⟨h1, h2⟩ := build_run d [] id .nil ⟨fun _ _ _ _ => rfl, fun _ _ _ => rfl, fun _ _ h => h⟩ hd ht (by simp) (fun _ _ => rfl) hs
  have := C72_setMany o ho .nil trivial (by decide) _ h1 (buildArgs d) (build_sets d [])
  have e : (d.build []).foldl (fun d op => op.on d) Dict.nil = d := h2
  rwa [e] at this

/-! ### a case -/

theorem exDict_short : exDict.Short := by simp only [exDict, Dict.Short]; decide +kernel

theorem exDict_fine1 : exDict.Fine 1 :=
  ⟨simple_of (by decide), by decide, labelsFine_nil,
    ⟨simple_of (by decide), by decide, ⟨by decide, fun a h => by simp at h; subst h; exact isName_of (by decide) (by decide), fun a h => by simp at h; subst h; decide, by simp⟩, trivial,
      by decide, simple_of (by decide), by decide, labelsFine_nil, trivial, rfl, trivial⟩, rfl, trivial⟩

example : buildArgs exDict = [(b!"db", []), (b!"db.host", b!"h & i"), (b!"db.host.@port", b!"5432"), (b!"db.user", b!"u")] := by decide +kernel

example : setMany exEnv.ord [] [b!"db", b!"db.host", b!"db.host.@port", b!"db.user"] [.str [], .str b!"h & i", .str b!"5432", .str b!"u"] =
    .ret (b!"<db><host port=\"5432\">h &amp; i</host><user>u</user></db>", none) := by
  have := C72_build_many exEnv.ord exEnv_perm exDict exDict_fine1 exDict_short (by decide +kernel)
  rw [show buildArgs exDict = [(b!"db", []), (b!"db.host", b!"h & i"), (b!"db.host.@port", b!"5432"), (b!"db.user", b!"u")] by decide +kernel] at this
  rwa [show exDict.render = b!"<db><host port=\"5432\">h &amp; i</host><user>u</user></db>" by decide +kernel] at this

end Verif.Props
