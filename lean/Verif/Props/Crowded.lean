import Verif.Props.Trail
import Verif.Lemmas.SeriesAttr
import Verif.Lemmas.SlotsValid
import Verif.Props.Labels
import Verif.Props.Excess
import Verif.Props.Dict
/- C98: an attribute too many. -/
namespace Verif.Props
open Verif Verif.Spec

/-- Each of the attributes written anew is legal, however many there are. -/
theorem retagBy_each {cs : Bool} {e : El} {k s : Bytes} {as : List Attr} (h : RetagBy cs e k (some s) as) (hl : AttrsLegal e.attrs) (hf : AttrsFit e.attrs) (hk : IsName k)
    (hs : (escapeXML s).length ≤ 1048576) (hnew : ∀ j, sameKey cs j k → Spec.attrVal e.attrs j = none) : ∀ a ∈ as, a.Legal := by
  intro a ha
  have hv := attrVal_nodup h.neat.2 ha
  have hmem : IsName a.name ∧ (escapeXML (unescapeXML a.raw)).length ≤ 1048576 := by
    by_cases hkk : sameKey cs a.name k
    · rw [h.new hnew _ hkk] at hv
      split at hv
      · rename_i hh
        simp only [Option.some.injEq] at hv
        rw [← hv, hh]
        exact ⟨spelling_name hk, hs⟩
      · cases hv
    · rw [h.others _ hkk] at hv
      obtain ⟨b, hb, hb2, hb3⟩ := attrVal_mem hv
      exact ⟨by rw [← hb2]; exact (hl.2.1 b hb).2.1, by rw [← hb3]; exact hf b hb⟩
  obtain ⟨n1, n2, n3, n4, v, n5⟩ := h.neat.1 a ha
  have hv := hmem.2
  rw [n5, unescape_escape, ← n5] at hv
  exact ⟨by rw [n1]; decide, hmem.1, by rw [n2]; simp, by rw [n3]; simp, .inl n4, by rw [n4, n5]; exact escape_no_quote v, hv⟩

/-- There is one more than before. -/
theorem retagBy_more {cs : Bool} {e : El} {k s : Bytes} {as : List Attr} (h : RetagBy cs e k (some s) as)
    (hnew : ∀ j, sameKey cs j k → Spec.attrVal e.attrs j = none) (hn : (e.attrs.map (·.name)).Nodup) : e.attrs.length < as.length := by
  have hsk := sameKey_self cs k
  have hnot : spelling cs k ∉ e.attrs.map (·.name) := fun hh => (attrVal_iff _ _).mpr hh (hnew _ hsk)
  have : (spelling cs k :: e.attrs.map (·.name)).length ≤ (as.map (·.name)).length := by
    refine nodup_length (List.nodup_cons.mpr ⟨hnot, hn⟩) fun x hx => ?_
    rw [← attrVal_iff]
    rcases List.mem_cons.mp hx with rfl | hx
    · rw [h.new hnew _ hsk]
      simp
    · have hx' := (attrVal_iff _ _).mpr hx
      rw [h.others x fun hh => hx' (hnew x hh)]
      exact hx'
  simp only [List.length_cons, List.length_map] at this
  omega

/-- A tag with more than 100 attributes is a fault. -/
theorem crowded_fault {st : List (Bytes × Bytes)} {n : Bytes} {as : List Attr} (hd : st.length < 100) (hn : IsName n) (ha : ∀ a ∈ as, a.Legal) (hp : ∀ a ∈ as, a.pre = b!" ")
    (h : 100 < as.length) (t : Bytes) : ∃ u, TagFault st (openTag n as [] ++ t) u b!"too many attributes (maximum 100)" := by
  obtain ⟨b, bs, hb⟩ : ∃ b bs, as.drop 100 = b :: bs := by
    cases hh : as.drop 100 with
    | nil =>
      have := congrArg List.length hh
      simp at this; omega
    | cons b bs => exact ⟨b, bs, rfl⟩
  have hsplit : as = as.take 100 ++ b :: bs := by rw [← hb, List.take_append_drop]
  have hbm : b ∈ as := by rw [hsplit]; simp
  have hlen : (as.take 100).length = 100 := by simp; omega
  obtain ⟨l1, ⟨⟨c0, cs0, l2, l3⟩, l4, -⟩, -⟩ := ha b hbm
  have hch : NameChar c0 := l4 c0 (by rw [l2]; simp)
  have hgt : ∀ x, NameChar x → x ≠ c!">" ∧ x ≠ c!"/" ∧ ¬ IsWs x := by
    intro x hx
    refine ⟨?_, ?_, ?_⟩
    · rintro rfl; revert hx; decide
    · rintro rfl; revert hx; decide
    · intro hw
      revert hx
      unfold IsWs at hw
      rcases hw with rfl | rfl | rfl | rfl <;> decide
  let t' : Bytes := c0 :: (cs0 ++ b.mid1 ++ b!"=" ++ b.mid2 ++ [b.quote] ++ b.raw ++ [b.quote] ++ bs.flatMap Attr.render ++ t)
  have hr : openTag n as [] ++ t = openTag n (as.take 100) b.pre ++ t' := by
    conv => lhs; rw [hsplit]
    simp only [openTag, List.flatMap_append, List.flatMap_cons, Attr.render, l2, t', List.append_assoc, List.cons_append, List.nil_append, List.append_nil]
  rw [hr]
  have hw : Word n ((as.take 100).flatMap Attr.render ++ b.pre ++ t') := by
    refine ⟨hn.2.1, fun c u hc => ?_, .inl hn.2.2⟩
    cases hz : as.take 100 with
    | nil => rw [hz] at hlen; cases hlen
    | cons a as' =>
      have ham : a ∈ as := List.mem_of_mem_take (by rw [hz]; simp)
      rw [hz] at hc
      simp only [List.flatMap_cons, Attr.render, hp a ham] at hc
      have : c = c!" " := by
        have := congrArg List.head? hc
        simpa using this.symm
      rw [this]
      decide
  exact ⟨_, .attr hd hw hn.1 (fun a hh => ha a (List.mem_of_mem_take hh)) (by omega) l1
    (fun c u hc => by injection hc with h1 _; rw [← h1]; exact (hgt c0 hch).2.2)
    (by rw [hlen]; exact .many rfl (hgt c0 hch).1 (hgt c0 hch).2.1)⟩

/-- **C98.** Set does not count the attributes. In an element that has 100 of them already, it writes a further one
without an error, and the result is not valid: ValidateWithError says so, with the reason, unless the document has
also become too large. -/
theorem C98_attribute {o : Ord} (ho : o.IsPerm) (opts : Options) {c : Ctx} {e : El} (h : Editable (c.plug (e.cons .nil))) {qs : List Bytes} {x p : Bytes} (hp : PathSteps p (qs ++ [x])) (hx : AttrStep x)
    (hl : LeadTo opts.caseSensitive qs c e.name) {v : GoVal} {s : Bytes} (hv0 : v ≠ .nil) (hv : valueToXML v = some (escapeXML s)) (hw : (escapeXML s).length ≤ 1048576)
    (hk : IsName ((beforeBar x).drop 1)) (hnew : ∀ j, sameKey opts.caseSensitive j ((beforeBar x).drop 1) → Spec.attrVal e.attrs j = none)
    (hn : (e.attrs.map (·.name)).Nodup) (h100 : e.attrs.length = 100) :
    ∃ r q, setWithOptions o (c.plug (e.cons .nil)).render p v (some opts) = .ret (r, none) ∧
      valid r = false ∧ (r.length ≤ 10485760 → validate r = some ⟨lineAt q, colAt q, b!"too many attributes (maximum 100)"⟩) ∧ c.before <+: q := by
  obtain ⟨as, h1, h2⟩ := C79_set_attribute ho opts h hp hx hl hv0 hv (by omega)
  have he := editable_el h
  obtain ⟨l1, l2⟩ := el_attrs he.legal he.tame
  have hd := (el_kids_good he).2.2.2
  have hname : IsName e.name := by
    obtain ⟨nm, as0, ws, body⟩ := e
    have := he.legal
    rcases body with _ | ⟨k, cws⟩ <;> exact this.1
  have hmore := retagBy_more h1 hnew hn
  obtain ⟨st, b, b1, b2, -⟩ := begun_ctx h.2.1 Begun.start rfl
  simp only [List.nil_append, Nat.zero_add] at b1 b2
  have hre : c.before ++ (e.retag as).render ++ c.after =
      c.before ++ (openTag e.name as [] ++ ((if e.body.isNone then b!"/>" else b!">") ++ e.inner ++ e.stop ++ c.after)) := by
    obtain ⟨nm, as0, ws, body⟩ := e
    rcases body with _ | ⟨k, cws⟩ <;> simp [El.render, El.start, El.retag, El.inner, El.stop, List.append_assoc]
  obtain ⟨u, hu⟩ := crowded_fault (st := st) (by omega) hname (retagBy_each h1 l1 l2 hk hw hnew) (fun a ha => (h1.neat.1 a ha).1) (by omega)
    ((if e.body.isNone then b!"/>" else b!">") ++ e.inner ++ e.stop ++ c.after)
  have hval : (c.before ++ (e.retag as).render ++ c.after).length ≤ 10485760 →
      validate (c.before ++ (e.retag as).render ++ c.after) = some ⟨lineAt (c.before ++ u), colAt (c.before ++ u), b!"too many attributes (maximum 100)"⟩ := by
    intro hz
    rw [hre] at hz ⊢
    exact fault_validate b2 (.tag hu) hz (by simp [openTag])
  refine ⟨_, c.before ++ u, h2, ?_, hval, List.prefix_append _ _⟩
  by_cases hz : (c.before ++ (e.retag as).render ++ c.after).length ≤ 10485760
  · unfold valid
    rw [hval hz]
    rfl
  · unfold valid validate
    rw [if_pos (by have := docMax; omega)]
    rfl

/-- **C98.** So nothing can be changed in it any more: every further Set and Delete is refused, also the one that
would take the attribute away again. -/
theorem C98_stuck {o : Ord} (ho : o.IsPerm) (opts : Options) {c : Ctx} {e : El} (h : Editable (c.plug (e.cons .nil))) {qs : List Bytes} {x p : Bytes} (hp : PathSteps p (qs ++ [x])) (hx : AttrStep x)
    (hl : LeadTo opts.caseSensitive qs c e.name) {v : GoVal} {s : Bytes} (hv0 : v ≠ .nil) (hv : valueToXML v = some (escapeXML s)) (hw : (escapeXML s).length ≤ 1048576)
    (hk : IsName ((beforeBar x).drop 1)) (hnew : ∀ j, sameKey opts.caseSensitive j ((beforeBar x).drop 1) → Spec.attrVal e.attrs j = none)
    (hn : (e.attrs.map (·.name)).Nodup) (h100 : e.attrs.length = 100) :
    ∃ r, setWithOptions o (c.plug (e.cons .nil)).render p v (some opts) = .ret (r, none) ∧
      ∀ o' p', (∀ v' opts', setWithOptions o' r p' v' opts' = .ret (r, some .malformed)) ∧ ∀ opts', deleteWithOptions o' r p' opts' = .ret (r, some .malformed) := by
  obtain ⟨r, q, h1, h2, -, -⟩ := C98_attribute ho opts h hp hx hl hv0 hv hw hk hnew hn h100
  have hne : r ≠ [] := by
    intro hr
    obtain ⟨as, -, h4⟩ := C79_set_attribute ho opts h hp hx hl hv0 hv (by omega)
    have h5 := h1.symm.trans h4
    injection h5 with h5
    injection h5 with h5 _
    rw [hr] at h5
    simp [El.render, El.start, openTag] at h5
  exact ⟨r, h1, fun o' p' => ⟨fun v' opts' => C26_set o' r p' v' opts' hne h2, fun opts' => C26_delete o' r p' opts' h2⟩⟩

theorem nameChar_apart {x : UInt8} (hx : NameChar x) : x ≠ c!">" ∧ x ≠ c!"/" ∧ ¬ IsWs x := by
  refine ⟨?_, ?_, ?_⟩
  · rintro rfl; revert hx; decide
  · rintro rfl; revert hx; decide
  · intro hw
    revert hx
    unfold IsWs at hw
    rcases hw with rfl | rfl | rfl | rfl <;> decide

/-- A fault in the attribute after some legal ones. -/
theorem next_fault {st : List (Bytes × Bytes)} {n : Bytes} {as bs : List Attr} {b : Attr} {u m : Bytes} (hd : st.length < 100) (hn : IsName n) (ha : ∀ a ∈ as, a.Legal) (hl : as.length ≤ 100)
    (hp : ∀ a ∈ as ++ b :: bs, a.pre = b!" ") (hb : IsName b.name) (t : Bytes)
    (hf : AttrFault as.length (b.name ++ b.mid1 ++ b!"=" ++ b.mid2 ++ [b.quote] ++ b.raw ++ [b.quote] ++ bs.flatMap Attr.render ++ t) u m) :
    ∃ u', TagFault st (openTag n (as ++ b :: bs) [] ++ t) u' m := by
  obtain ⟨⟨c0, cs0, l2, l3⟩, l4, -⟩ := hb
  have hch : NameChar c0 := l4 c0 (by rw [l2]; simp)
  have hr : openTag n (as ++ b :: bs) [] ++ t = openTag n as b.pre ++ (b.name ++ b.mid1 ++ b!"=" ++ b.mid2 ++ [b.quote] ++ b.raw ++ [b.quote] ++ bs.flatMap Attr.render ++ t) := by
    simp only [openTag, List.flatMap_append, List.flatMap_cons, Attr.render, List.append_assoc, List.append_nil]
  rw [hr]
  have hbp : b.pre = b!" " := hp b (by simp)
  have hw : Word n (as.flatMap Attr.render ++ b.pre ++ (b.name ++ b.mid1 ++ b!"=" ++ b.mid2 ++ [b.quote] ++ b.raw ++ [b.quote] ++ bs.flatMap Attr.render ++ t)) := by
    refine ⟨hn.2.1, fun c u hc => ?_, .inl hn.2.2⟩
    have : c = c!" " := by
      have h2 := congrArg List.head? hc
      cases as with
      | nil => rw [hbp] at h2; simpa using h2.symm
      | cons a as' =>
        simp only [List.flatMap_cons, Attr.render, hp a (by simp)] at h2
        simpa using h2.symm
    rw [this]
    decide
  refine ⟨_, .attr hd hw hn.1 ha hl (by rw [hbp]; decide) (fun c u hc => ?_) hf⟩
  rw [l2] at hc
  injection hc with h1 _
  rw [← h1]; exact (nameChar_apart hch).2.2

/-- More than 100 attributes, or a value of more than 1 MiB. -/
theorem excess_fault {st : List (Bytes × Bytes)} {n : Bytes} (hd : st.length < 100) (hn : IsName n) (t : Bytes) : ∀ (bs as : List Attr), (∀ a ∈ as, a.Legal) → as.length ≤ 100 →
    (∀ a ∈ as ++ bs, a.pre = b!" " ∧ a.mid1 = [] ∧ a.mid2 = [] ∧ a.quote = c!"\"" ∧ c!"\"" ∉ a.raw ∧ IsName a.name) →
    ¬ ((as ++ bs).length ≤ 100 ∧ ∀ a ∈ as ++ bs, a.raw.length ≤ 1048576) → ∃ u m, TagFault st (openTag n (as ++ bs) [] ++ t) u m := by
  intro bs
  induction bs with
  | nil =>
    intro as h1 h2 h3 h4
    exact absurd ⟨by simpa using h2, fun a ha => (h1 a (by simpa using ha)).2.2.2.2.2.2⟩ h4
  | cons b bs ih =>
    intro as h1 h2 h3 h4
    obtain ⟨b1, b2, b3, b4, b5, b6⟩ := h3 b (by simp)
    have hpre : ∀ a ∈ as ++ b :: bs, a.pre = b!" " := fun a ha => (h3 a ha).1
    have hch : ∀ c cs, b.name = c :: cs → NameChar c := fun c cs h => b6.2.1 c (by rw [h]; simp)
    by_cases hk : as.length = 100
    · obtain ⟨⟨c0, cs0, l2, l3⟩, -, -⟩ := id b6
      obtain ⟨u, hu⟩ := next_fault (u := []) (m := b!"too many attributes (maximum 100)") hd hn h1 h2 hpre b6 t (by
        rw [l2]
        exact .many hk (nameChar_apart (hch c0 cs0 l2)).1 (nameChar_apart (hch c0 cs0 l2)).2.1)
      exact ⟨u, _, hu⟩
    · by_cases hr : b.raw.length ≤ 1048576
      · have := ih (as ++ [b]) (fun a ha => by
            rcases List.mem_append.mp ha with ha | ha
            · exact h1 a ha
            · rw [List.mem_singleton.mp ha]
              exact ⟨by rw [b1]; decide, b6, by rw [b2]; simp, by rw [b3]; simp, .inl b4, by rw [b4]; exact b5, hr⟩)
          (by simp; omega) (by simpa using h3) (by simpa using h4)
        simpa using this
      · have hun : ∃ u m, Unended c!"\"" (b.raw ++ [b.quote] ++ bs.flatMap Attr.render ++ t) u m := by
          have hz : b.raw ++ [b.quote] ++ bs.flatMap Attr.render ++ t = b.raw.take 1048577 ++ (b.raw.drop 1048577 ++ [b.quote] ++ bs.flatMap Attr.render ++ t) := by
            conv => lhs; rw [← List.take_append_drop 1048577 b.raw]
            simp only [List.append_assoc]
          obtain ⟨c, t', hc⟩ : ∃ c t', b.raw.drop 1048577 ++ [b.quote] ++ bs.flatMap Attr.render ++ t = c :: t' := by
            cases b.raw.drop 1048577 with
            | nil => exact ⟨_, _, rfl⟩
            | cons c l => exact ⟨_, _, rfl⟩
          rw [hz, hc]
          exact ⟨_, _, .large (fun hh => b5 (List.mem_of_mem_take hh)) (by rw [List.length_take]; omega)⟩
        obtain ⟨u, m, hu⟩ := hun
        have hv := AttrFault.value (k := as.length) (n := b.name) (w := []) (v := []) (q := c!"\"") (by omega) b6 (by simp) (by simp) (.inl rfl) hu
        obtain ⟨u', hu'⟩ := next_fault hd hn h1 h2 hpre b6 t (by
          rw [b2, b3, b4]
          simpa only [List.append_nil, List.append_assoc, b4] using hv)
        exact ⟨u', _, hu'⟩

theorem retagBy_name {cs : Bool} {e : El} {k s : Bytes} {as : List Attr} (h : RetagBy cs e k (some s) as) (hl : AttrsLegal e.attrs) (hk : IsName k) {a : Attr} (ha : a ∈ as) : IsName a.name := by
  have hv := attrVal_nodup h.neat.2 ha
  have old : ∀ j, Spec.attrVal e.attrs j ≠ none → IsName j := by
    intro j hj
    obtain ⟨v, hv'⟩ := Option.ne_none_iff_exists'.mp hj
    obtain ⟨b, hb, hb2, -⟩ := attrVal_mem hv'
    rw [← hb2]
    exact (hl.2.1 b hb).2.1
  by_cases hkk : sameKey cs a.name k
  · by_cases hn : Spec.attrVal e.attrs a.name = none
    · by_cases hx : ∃ j', sameKey cs j' k ∧ Spec.attrVal e.attrs j' ≠ none
      · rw [h.no _ hkk hx hn] at hv; cases hv
      · have hall : ∀ j, sameKey cs j k → Spec.attrVal e.attrs j = none := fun j hj => Classical.byContradiction fun hh => hx ⟨j, hj, hh⟩
        rw [h.new hall _ hkk] at hv
        split at hv
        · rename_i hh
          rw [hh]; exact spelling_name hk
        · cases hv
    · exact old _ hn
  · rw [h.others _ hkk] at hv
    exact old _ (by rw [hv]; simp)

theorem retagBy_has {cs : Bool} {e : El} {k s : Bytes} {as : List Attr} (h : RetagBy cs e k (some s) as) : ∃ a ∈ as, a.raw = escapeXML s := by
  have : ∃ j, Spec.attrVal as j = some s := by
    by_cases hx : ∃ j', sameKey cs j' k ∧ Spec.attrVal e.attrs j' ≠ none
    · obtain ⟨j, j1, j2⟩ := hx
      exact ⟨j, h.this j j1 j2⟩
    · refine ⟨spelling cs k, ?_⟩
      rw [h.new (fun j hj => Classical.byContradiction fun hh => hx ⟨j, hj, hh⟩) _ (sameKey_self cs k), if_pos rfl]
  obtain ⟨j, hj⟩ := this
  obtain ⟨a, ha, -, h3⟩ := attrVal_mem hj
  obtain ⟨-, -, -, -, v, hv⟩ := h.neat.1 a ha
  refine ⟨a, ha, ?_⟩
  rw [hv, unescape_escape] at h3
  rw [hv, h3]

/-- **C98.** Set of an attribute, with a name of XML, in an element without an attribute twice, reports success. The
result is valid exactly if the attribute was there already or there were fewer than 100, the value is at most 1 MiB
as written, and the document at most 10 MiB. -/
theorem C98_valid {o : Ord} (ho : o.IsPerm) (opts : Options) {c : Ctx} {e : El} (h : Editable (c.plug (e.cons .nil))) {qs : List Bytes} {x p : Bytes} (hp : PathSteps p (qs ++ [x])) (hx : AttrStep x)
    (hl : LeadTo opts.caseSensitive qs c e.name) {v : GoVal} {s : Bytes} (hv0 : v ≠ .nil) (hv : valueToXML v = some (escapeXML s)) (hw : (escapeXML s).length ≤ 5242880)
    (hk : IsName ((beforeBar x).drop 1)) (hn : (e.attrs.map (·.name)).Nodup) :
    ∃ r, setWithOptions o (c.plug (e.cons .nil)).render p v (some opts) = .ret (r, none) ∧
      (valid r = true ↔ ((∃ j, sameKey opts.caseSensitive j ((beforeBar x).drop 1) ∧ Spec.attrVal e.attrs j ≠ none) ∨ e.attrs.length < 100) ∧
        (escapeXML s).length ≤ 1048576 ∧ r.length ≤ 10485760) := by
  obtain ⟨as, h1, h2⟩ := C79_set_attribute ho opts h hp hx hl hv0 hv hw
  have he := editable_el h
  obtain ⟨l1, l2⟩ := el_attrs he.legal he.tame
  have hd := (el_kids_good he).2.2.2
  have hren : (c.plug ((e.retag as).cons .nil)).render = c.before ++ (e.retag as).render ++ c.after := by rw [plug_render, el_render]
  refine ⟨_, h2, fun hval => ?_, fun ⟨k1, k2, k3⟩ => ?_⟩
  · have hz : (c.before ++ (e.retag as).render ++ c.after).length ≤ 10485760 := by
      refine Classical.byContradiction fun hz => ?_
      unfold valid validate at hval
      rw [if_pos (by have := docMax; omega)] at hval
      cases hval
    refine Classical.byContradiction fun hno => ?_
    have hbad : ¬ (([] ++ as).length ≤ 100 ∧ ∀ a ∈ [] ++ as, a.raw.length ≤ 1048576) := by
      rintro ⟨q1, q2⟩
      refine hno ⟨?_, ?_, hz⟩
      · refine Classical.byContradiction fun hh => ?_
        have := retagBy_more h1 (fun j hj => Classical.byContradiction fun hne => hh (.inl ⟨j, hj, hne⟩)) hn
        have h3 : ¬ e.attrs.length < 100 := fun hlt => hh (.inr hlt)
        simp only [List.nil_append] at q1
        omega
      · obtain ⟨a, ha, har⟩ := retagBy_has h1
        rw [← har]
        exact q2 a (by simpa using ha)
    have hname : IsName e.name := by
      obtain ⟨nm, as0, ws, body⟩ := e
      have := he.legal
      rcases body with _ | ⟨k, cws⟩ <;> exact this.1
    obtain ⟨st, b, b1, b2, -⟩ := begun_ctx h.2.1 Begun.start rfl
    simp only [List.nil_append, Nat.zero_add] at b1 b2
    have hre : c.before ++ (e.retag as).render ++ c.after =
        c.before ++ (openTag e.name as [] ++ ((if e.body.isNone then b!"/>" else b!">") ++ e.inner ++ e.stop ++ c.after)) := by
      obtain ⟨nm, as0, ws, body⟩ := e
      rcases body with _ | ⟨k, cws⟩ <;> simp [El.render, El.start, El.retag, El.inner, El.stop, List.append_assoc]
    obtain ⟨u, m, hu⟩ := excess_fault (st := st) (by omega) hname ((if e.body.isNone then b!"/>" else b!">") ++ e.inner ++ e.stop ++ c.after) as [] (by simp) (by simp)
      (fun a ha => by
        have ha : a ∈ as := by simpa using ha
        obtain ⟨n1, n2, n3, n4, v, n5⟩ := h1.neat.1 a ha
        exact ⟨n1, n2, n3, n4, by rw [n5]; exact escape_no_quote v, retagBy_name h1 l1 hk ha⟩) hbad
    rw [List.nil_append] at hu
    have hv := fault_validate b2 (.tag hu) (by rw [← hre]; exact hz) (by simp [openTag])
    rw [← hre] at hv
    unfold valid at hval
    rw [hv] at hval
    cases hval
  · obtain ⟨l3, l4⟩ := retagBy_fits h1 l1 l2 hk k2 k1
    rw [← hren] at k3 ⊢
    exact editable_valid (editable_retag h l3 l4 h1.neat k3)

/-- **C98.** What was written is not what is read: in `<n ...>t</n>` with 100 attributes, after Set of one more, the attribute
with the last name of the 101 is gone for Get, and it is at the beginning of the text of `n`. -/
theorem C98_lost (env : Env) (he : env.ord.IsPerm) {o : Ord} (ho : o.IsPerm) (opts : Options) {n ws t : Bytes} {as : List Attr} (hpn : PlainName n)
    (h : Editable ((Ctx.here .nil .nil).plug ((El.mk n as ws (some (.text t .nil, []))).cons .nil))) {qs : List Bytes} {x p : Bytes} (hp : PathSteps p (qs ++ [x])) (hx : AttrStep x)
    (hl : LeadTo opts.caseSensitive qs (.here .nil .nil) n) {v : GoVal} {s : Bytes} (hv0 : v ≠ .nil) (hv : valueToXML v = some (escapeXML s)) (hw : (escapeXML s).length ≤ 1048576)
    (hk : IsName ((beforeBar x).drop 1)) (hnew : ∀ j, sameKey opts.caseSensitive j ((beforeBar x).drop 1) → Spec.attrVal as j = none)
    (hn : (as.map (·.name)).Nodup) (h100 : as.length = 100) :
    ∃ r j w, setWithOptions o ((Ctx.here .nil .nil).plug ((El.mk n as ws (some (.text t .nil, []))).cons .nil)).render p v (some opts) = .ret (r, none) ∧
      (Spec.attrVal as j = some w ∨ j = spelling opts.caseSensitive ((beforeBar x).drop 1) ∧ w = s) ∧
      (∀ i, Spec.attrVal as i ≠ none ∨ i = spelling opts.caseSensitive ((beforeBar x).drop 1) → i = j ∨ LexBefore i j) ∧
      (r.length ≤ 10485760 → get env r (pathOf [n, c!"@" :: j]) = .ret .null ∧
        ∃ q, get env r (pathOf [n]) = .ret q ∧ q.toStr = unescapeXML (trimSpace (j ++ b!"=\"" ++ escapeXML w ++ b!"\"" ++ t.filter (· ≠ c!">")))) := by
  obtain ⟨as', h1, h2⟩ := C79_set_attribute ho opts h hp hx hl hv0 hv (by omega)
  have hed := editable_el h
  obtain ⟨l1, l2⟩ := el_attrs hed.legal hed.tame
  have hname : IsName n := hed.legal.1
  have ht : c!"<" ∉ t := by
    exact hed.legal.2.2.2.2.1.1
  have hmore := retagBy_more h1 hnew hn
  have hleg := retagBy_each h1 l1 l2 hk hw hnew
  have hsk := sameKey_self opts.caseSensitive ((beforeBar x).drop 1)
  generalize (beforeBar x).drop 1 = k at *
  have hmem : ∀ i, i ∈ as'.map (·.name) ↔ Spec.attrVal as i ≠ none ∨ i = spelling opts.caseSensitive k := by
    intro i
    rw [← attrVal_iff]
    by_cases hi : sameKey opts.caseSensitive i k
    · rw [h1.new hnew i hi, hnew i hi]
      split <;> simp [*]
    · rw [h1.others i hi]
      refine ⟨.inl, fun hh => hh.elim id fun hh => absurd (hh ▸ hsk) hi⟩
  have hlen : as'.length = 101 := by
    have : (as'.map (·.name)).length ≤ (spelling opts.caseSensitive k :: as.map (·.name)).length := by
      refine nodup_length h1.neat.2 fun i hi => ?_
      rcases (hmem i).mp hi with hh | hh
      · exact List.mem_cons_of_mem _ ((attrVal_iff _ _).mp hh)
      · rw [hh]; exact List.mem_cons_self
    simp only [List.length_cons, List.length_map] at this
    have := hmore
    simp only at this
    omega
  obtain ⟨b, a, hba, hb⟩ : ∃ b a, as' = b ++ [a] ∧ b.length = 100 := by
    refine ⟨as'.dropLast, as'.getLast (by intro hh; rw [hh] at hlen; cases hlen), (List.dropLast_concat_getLast _).symm, ?_⟩
    rw [List.length_dropLast, hlen]
  have ha : a ∈ as' := by rw [hba]; simp
  obtain ⟨n1, n2, n3, n4, w, n5⟩ := h1.neat.1 a ha
  have hnj : Spec.attrVal b a.name = none := by
    refine Classical.byContradiction fun hh => ?_
    have h3 := (attrVal_iff _ _).mp hh
    have h4 := h1.neat.2
    rw [hba, List.map_append, List.nodup_append] at h4
    exact h4.2.2 _ h3 a.name (by simp) rfl
  have hval : Spec.attrVal as' a.name = some w := by
    rw [attrVal_nodup h1.neat.2 ha, n5, unescape_escape]
  refine ⟨_, a.name, w, h2, ?_, ?_, fun hz => ?_⟩
  · rcases (hmem a.name).mp (List.mem_map_of_mem ha) with hh | hh
    · left
      rw [← h1.others a.name fun h3 => hh (hnew _ h3)]
      exact hval
    · right
      rw [h1.new hnew a.name (hh ▸ hsk), if_pos hh] at hval
      exact ⟨hh, (Option.some.inj hval).symm⟩
  · intro i hi
    have h3 := (hmem i).mpr hi
    rw [hba, List.map_append, List.mem_append] at h3
    have h4 := h1.sorted
    rw [hba, List.map_append, List.pairwise_append] at h4
    rcases h3 with h3 | h3
    · exact .inr (h4.2.2 i h3 a.name (by simp))
    · exact .inl (by simpa using h3)
  · obtain ⟨⟨c, cs, hc, hc1⟩, hcc, -⟩ := (hleg a ha).2.1
    have hbm : ∀ y ∈ b, y ∈ as' := fun y hy => by rw [hba]; exact List.mem_append_left _ hy
    have hloose : AttrsLoose b := AttrsLegal.loose ⟨by omega, fun y hy => hleg y (hbm y hy), fun y hy => by
      rw [(h1.neat.1 y (hbm y (List.mem_of_head? hy))).1]; simp⟩
    have hfit : AttrsFit b := by
      intro y hy
      obtain ⟨-, -, -, -, u, n6⟩ := h1.neat.1 y (hbm y hy)
      have := (hleg y (hbm y hy)).2.2.2.2.2.2
      rw [n6, unescape_escape, ← n6]
      exact this
    have hch : ∀ d ∈ a.name, ¬ IsWs d ∧ d ≠ c!">" ∧ d ≠ c!"/" ∧ d ≠ c!"<" ∧ d ≠ c!"|" := by
      intro d hd
      have := hcc d hd
      rw [← isNameChar_iff] at this
      refine ⟨fun hh => ?_, ?_, ?_, ?_, ?_⟩
      · rcases hh with rfl | rfl | rfl | rfl <;> revert this <;> decide
      all_goals rintro rfl; revert this; decide
    have hcm : c ∈ a.name := by rw [hc]; exact List.mem_cons_self
    have hnolt : c!"<" ∉ c :: (cs ++ b!"=\"" ++ escapeXML w ++ b!"\">" ++ t) := by
      have e1 : c!"<" ∉ escapeXML w := fun hh => (escapeXML_mem hh).1 rfl
      have e2 : c!"<" ∉ c :: cs := by rw [← hc]; exact fun hh => (hch _ hh).2.2.2.1 rfl
      simp only [List.mem_cons, List.mem_append, not_or] at e2 ⊢
      exact ⟨e2.1, ⟨⟨⟨e2.2, by simp⟩, e1⟩, by simp⟩, ht⟩
    have key := C58_leak env he n b c!" " c (cs ++ b!"=\"" ++ escapeXML w ++ b!"\">" ++ t) hname.tag hpn hloose hfit hb (by decide) (hch c hcm).1 (hch c hcm).2.1 (hch c hcm).2.2.1 hnolt
    have hre : (Ctx.here .nil .nil).before ++ ((El.mk n as ws (some (.text t .nil, []))).retag as').render ++ (Ctx.here .nil .nil).after =
       b!"<" ++ n ++ b.flatMap Attr.render ++ b!" " ++ c :: (cs ++ b!"=\"" ++ escapeXML w ++ b!"\">" ++ t) ++ b!"</" ++ n ++ b!">" := by
      have hra : a.render = b!" " ++ c :: cs ++ b!"=\"" ++ escapeXML w ++ b!"\"" := by
        simp [Attr.render, n1, n2, n3, n4, n5, hc]
      simp [Ctx.before, Ctx.after, El.render, El.start, El.retag, El.inner, El.stop, openTag, closeTag, Forest.render, hba, hra]
    rw [hre] at hz ⊢
    obtain ⟨⟨q, q1, q2⟩, q3⟩ := key hz
    refine ⟨by rw [q3 a.name (fun hh => (hch _ hh).2.2.2.2 rfl), hnj], q, q1, q2.trans ?_⟩
    have e3 : a.name.filter (· ≠ c!">") = a.name := List.filter_eq_self.mpr fun d hd => by simpa using (hch d hd).2.1
    have e4 := escape_noGt w
    rw [hc] at e3 ⊢
    have e5 : c :: (cs ++ b!"=\"" ++ escapeXML w ++ b!"\">" ++ t) = (c :: cs) ++ b!"=\"" ++ escapeXML w ++ b!"\">" ++ t := by simp
    rw [e5, List.filter_append, List.filter_append, List.filter_append, List.filter_append, e3, e4]
    rfl

/-- `<r a00="" a01="" ...>t</r>` with `n` attributes, and `more` behind them. -/
def hundred (n : Nat) (more : Bytes) : Bytes :=
  b!"<r" ++ (List.range n).flatMap (fun i => b!" a" ++ (if i < 10 then b!"0" else []) ++ natDec i ++ b!"=\"\"") ++ more ++ b!">t</r>"

/-- Beside it: the 100th attribute of `r` is written and can be taken away again; the 101st is written too, and then
it cannot be taken away. -/
theorem C98_witness :
    (set (fun _ a => a) (hundred 99 []) b!"r.@z" (.str b!"1") = .ret (hundred 99 b!" z=\"1\"", none) ∧ valid (hundred 99 b!" z=\"1\"") = true ∧
      delete (fun _ a => a) (hundred 99 b!" z=\"1\"") b!"r.@z" = .ret (hundred 99 [], none)) ∧
    valid (hundred 100 []) = true ∧ set (fun _ a => a) (hundred 100 []) b!"r.@z" (.str b!"1") = .ret (hundred 100 b!" z=\"1\"", none) ∧
      validate (hundred 100 b!" z=\"1\"") = some ⟨1, 703, b!"too many attributes (maximum 100)"⟩ ∧
      delete (fun _ a => a) (hundred 100 b!" z=\"1\"") b!"r.@z" = .ret (hundred 100 b!" z=\"1\"", some .malformed) := by
  refine ⟨⟨?_, ?_, ?_⟩, ?_, ?_, ?_, ?_⟩ <;> decide +kernel


/-- Beside C98_lost: the new attribute `z` is the last one, so it cannot be read, and it is in the text. -/
theorem C98_lost_witness :
    set (fun _ a => a) (hundred 100 []) b!"r.@z" (.str b!"1") = .ret (hundred 100 b!" z=\"1\"", none) ∧
      get exEnv (hundred 100 b!" z=\"1\"") b!"r.@z" = .ret .null ∧
      (∃ q, get exEnv (hundred 100 []) b!"r" = .ret q ∧ q.toStr = b!"t") ∧
      ∃ q, get exEnv (hundred 100 b!" z=\"1\"") b!"r" = .ret q ∧ q.toStr = b!"z=\"1\"t" := by
  refine ⟨?_, ?_, ⟨.mk .element b!"t" b!"t" (.fin 0) [], ?_, by simp [Result.toStr]⟩, .mk .element b!"z=\"1\">t" b!"z=\"1\"t" (.fin 0) [], ?_, by simp [Result.toStr]⟩ <;> decide +kernel

end Verif.Props
