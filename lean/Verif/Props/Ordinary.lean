import Verif.Spec.Ordinary
import Verif.Lemmas.Place
import Verif.Props.Valid
import Verif.Props.SenseBy
/- C84: valid documents without anything unusual are in the classes of the other theorems. -/
namespace Verif.Props
open Verif Verif.Spec

theorem infix_mid {xml pre post x : Bytes} (h : xml = pre ++ x ++ post) : x <:+: xml := ⟨pre, post, h.symm⟩

theorem attrs_fit {xml : Bytes} (hO : Ordinary xml) : ∀ {as : List Attr}, (∀ a ∈ as, a.Legal) → ∀ {pre post : Bytes}, xml = pre ++ as.flatMap Attr.render ++ post → AttrsFit as
  | [], _, _, _, _ => fun a ha => by cases ha
  | a :: as, hl, pre, post, h => by
    intro x hx
    rcases List.mem_cons.mp hx with rfl | hx
    · obtain ⟨-, -, -, -, h5, h6, -⟩ := hl x List.mem_cons_self
      have := hO.quoted x.quote x.raw h5 h6 ⟨pre ++ (x.pre ++ x.name ++ x.mid1 ++ b!"=" ++ x.mid2), as.flatMap Attr.render ++ post, by
        rw [h, List.flatMap_cons, Attr.render]; simp only [List.append_assoc, List.cons_append, List.nil_append]⟩
      have := wt_six x.raw
      omega
    · exact attrs_fit hO (fun b hb => hl b (List.mem_cons_of_mem _ hb)) (pre := pre ++ a.render) (post := post) (by rw [h, List.flatMap_cons]; simp only [List.append_assoc]) x hx

/-- A tag has begun. -/
def Begun (a : Bytes) : Prop := ∃ p c q, a = p ++ c!"<" :: c :: q ∧ c ≠ c!"?" ∧ c ≠ c!"!"

theorem Begun.not_early {a : Bytes} (h : Begun a) : ¬ Early a := by
  obtain ⟨p, c, q, h1, h2, h3⟩ := h
  exact fun he => (he p c q h1).elim h2 h3

theorem Begun.append {a : Bytes} (h : Begun a) (x : Bytes) : Begun (a ++ x) := by
  obtain ⟨p, c, q, rfl, h⟩ := h
  exact ⟨p, c, q ++ x, by simp, h⟩

theorem begun_tag {n : Bytes} (hn : IsName n) (p q : Bytes) : Begun (p ++ (b!"<" ++ n ++ q)) := by
  obtain ⟨⟨c, cs, rfl, h⟩, -⟩ := hn
  refine ⟨p, c, cs ++ q, by simp, ?_, ?_⟩ <;>
  · rintro rfl
    rcases h with (h | h) | h | h <;> revert h <;> decide

theorem forest_tame {xml : Bytes} (hO : Ordinary xml) : ∀ (f : Forest) (d : Nat) (top : Bool) (pre post : Bytes), f.Legal d → xml = pre ++ f.render ++ post →
    (top = false → Begun pre) → f.Tame top := by
  intro f
  induction f with
  | nil => intros; trivial
  | text b next ih =>
    intro d top pre post hl h ht
    exact ih d top (pre ++ b) post hl.2.2 (by rw [h, Forest.render]; simp only [List.append_assoc]) (fun e => (ht e).append _)
  | misc m next ih =>
    intro d top pre post hl h ht
    obtain ⟨hm, hn⟩ := hl
    have h2 : xml = pre ++ m.render ++ (next.render ++ post) := by rw [h, Forest.render]; simp only [List.append_assoc]
    refine ⟨?_, ih d top (pre ++ m.render) post hn (by rw [h, Forest.render]; simp only [List.append_assoc]) (fun e => (ht e).append _)⟩
    have hi := infix_mid h2
    cases m with
    | comment b =>
      obtain ⟨h3, h4⟩ := hO.comment b hm hi
      cases top with
      | true => exact h4
      | false => exact ⟨⟨.text b .nil, ⟨h3, trivial⟩, by simp [Forest.render]⟩, h4⟩
    | cdata b => have := hO.cdata b hm hi; cases top <;> exact this
    | decl b =>
      obtain ⟨k1, -, k2, k3, k4, k5⟩ := hm
      have := hO.decl b k1 k2 k3 k4 k5 hi
      cases top <;> exact this
    | pi b =>
      cases top with
      | true => exact hO.piLen b hm.1 hi
      | false =>
        exact absurd (hO.pi pre (b ++ b!">" ++ (next.render ++ post)) (by rw [h2, Misc.render]; simp only [List.append_assoc])) (ht rfl).not_early
    | doctype b =>
      cases top with
      | true => trivial
      | false =>
        refine absurd ?_ (ht rfl).not_early
        obtain ⟨hb, -⟩ := hm
        rcases hb with ⟨t, rfl⟩ | ⟨t, rfl⟩
        · exact hO.doctype pre (t ++ b!">" ++ (next.render ++ post)) (.inl (by rw [h2, Misc.render]; simp only [List.append_assoc, List.cons_append, List.nil_append]))
        · exact hO.doctype pre (t ++ b!">" ++ (next.render ++ post)) (.inr (by rw [h2, Misc.render]; simp only [List.append_assoc, List.cons_append, List.nil_append]))
    | mark b => exact hm.elim
  | leaf n as ws next ih =>
    intro d top pre post hl h ht
    obtain ⟨hn, ha, hws, -, hx⟩ := hl
    refine ⟨attrs_fit hO ha.2.1 (pre := pre ++ (b!"<" ++ n)) (post := ws ++ b!"/>" ++ (next.render ++ post)) ?_, ih d top (pre ++ (openTag n as ws ++ b!"/>")) post hx ?_ (fun e => (ht e).append _)⟩ <;>
    · rw [h, Forest.render, openTag]; simp only [List.append_assoc]
  | node n as ws kids cws next ihk ih =>
    intro d top pre post hl h ht
    obtain ⟨hn, ha, hws, -, hk, hc, hx⟩ := hl
    refine ⟨attrs_fit hO ha.2.1 (pre := pre ++ (b!"<" ++ n)) (post := ws ++ b!">" ++ (kids.render ++ (closeTag n cws ++ (next.render ++ post)))) ?_, ?_,
      ihk (d + 1) false (pre ++ (b!"<" ++ n ++ (as.flatMap Attr.render ++ ws ++ b!">"))) (closeTag n cws ++ (next.render ++ post)) hk ?_ (fun _ => begun_tag hn _ _),
      ih d top (pre ++ (openTag n as ws ++ b!">" ++ kids.render ++ closeTag n cws)) post hx ?_ (fun e => (ht e).append _)⟩
    · rw [h, Forest.render, openTag]; simp only [List.append_assoc]
    · have := hO.closing (n ++ cws) ?_ ⟨pre ++ (openTag n as ws ++ b!">" ++ kids.render), next.render ++ post, by rw [h, Forest.render, closeTag]; simp only [List.append_assoc]⟩
      · simpa using this
      · intro hm
        rcases List.mem_append.mp hm with hm | hm
        · exact (hn.tag.2.1 _ hm).2.2.1 rfl
        · have := hc _ hm
          revert this; unfold IsWs; decide
    · rw [h, Forest.render, openTag]; simp only [List.append_assoc]
    · rw [h, Forest.render]; simp only [List.append_assoc]

/-- C84: a document that the validator accepts and that has nothing unusual in it is in the class of the theorems about modifications of documents of any layout (C61, C68, C79). -/
theorem C84_sound (xml : Bytes) (hv : valid xml = true) (hO : Ordinary xml) : ∃ f : Forest, f.render = xml ∧ Sound f := by
  obtain ⟨hl, f, h1, h2, rfl⟩ := (C02_valid_iff_document xml).mp hv
  exact ⟨f, rfl, hl, h1, forest_tame hO f 0 true [] [] h1 (by simp) (by simp), h2⟩

/-- C84: and it says something, so that the theorems about queries apply. -/
theorem C84_says (xml : Bytes) (hv : valid xml = true) (hO : Ordinary xml) : ∃ i, Says xml i := by
  obtain ⟨f, rfl, hl, h1, h2, -⟩ := C84_sound xml hv hO
  exact ⟨f.info, hl, .done f, h1.loose, h2, rfl, rfl⟩

/-- C84: enough for it: at most 174762 bytes, no `<!` at all and no `<?` but at the very beginning. -/
theorem C84_plain (xml : Bytes) (hl : xml.length ≤ 174762) (h1 : ¬ b!"<!" <:+: xml) (h2 : ¬ b!"<?" <:+: xml.drop 1) : Ordinary xml where
  quoted q b _ _ h := by have := h.length_le; simp at this; omega
  closing b _ h := by have := h.length_le; simp at this; omega
  pi a b h := by
    cases a with
    | nil => intro p c q e; simp at e
    | cons x a => exact absurd ⟨a, b, by rw [h]; simp⟩ h2
  piLen b _ h := by have := h.length_le; simp at this; omega
  doctype a b h := by
    refine absurd ?_ h1
    rcases h with h | h
    · exact ⟨a, b!"DOCTYPE" ++ b, by rw [h]; simp⟩
    · exact ⟨a, b!"doctype" ++ b, by rw [h]; simp⟩
  comment b _ h := absurd (List.IsInfix.trans ⟨[], b!"--" ++ b ++ b!"-->", by simp⟩ h) h1
  cdata b _ h := absurd (List.IsInfix.trans ⟨[], b!"[CDATA[" ++ b ++ b!"]]>", by simp⟩ h) h1
  decl b _ _ _ _ _ h := absurd (List.IsInfix.trans ⟨[], b ++ b!">", by simp⟩ h) h1

/-! ### neat tags -/

theorem plain_esc {b : Bytes} (h : ∀ c ∈ b, c ≠ c!"<" ∧ c ≠ c!">" ∧ c ≠ c!"&" ∧ c ≠ c!"\"" ∧ c ≠ c!"'") : escapeXML (unescapeXML b) = b := by
  have e : escapeXML b = b := by
    induction b with
    | nil => rfl
    | cons c cs ih =>
      obtain ⟨h1, h2, h3, h4, h5⟩ := h c List.mem_cons_self
      simp [escapeXML, escByte, h1, h2, h3, h4, h5, ih (fun d hd => h d (List.mem_cons_of_mem _ hd))]
  have := unescape_escape b
  rw [e] at this
  rw [this, e]

theorem last_ws {l : Bytes} (h : ∀ c ∈ l, IsWs c) (h0 : l ≠ []) : ∃ m w, l = m ++ [w] ∧ IsWs w :=
  ⟨l.dropLast, l.getLast h0, (List.dropLast_concat_getLast h0).symm, h _ (List.getLast_mem h0)⟩

/-- The attribute as the library would write it, up to the choice of quotes and blank. -/
def NeatAttr (a : Attr) : Prop := ∃ w, IsWs w ∧ a.pre = [w] ∧ a.mid1 = [] ∧ a.mid2 = [] ∧ escapeXML (unescapeXML a.raw) = a.raw ∧ c!"<" ∉ a.render

theorem neat_attrs {xml : Bytes} (hN : NeatTags xml) : ∀ {as : List Attr}, (∀ a ∈ as, a.Legal) → ∀ {pre post : Bytes}, xml = pre ++ as.flatMap Attr.render ++ post →
    (∀ a, as.head? = some a → a.pre = [] → ∃ p q, (q = c!"\"" ∨ q = c!"'") ∧ pre = p ++ [q]) → ∀ a ∈ as, NeatAttr a
  | [], _, _, _, _, _ => fun a ha => by cases ha
  | a :: as, hl, pre, post, h, hh => by
    obtain ⟨h1, h2, h3, h4, h5, h6, -⟩ := hl a List.mem_cons_self
    have hx : xml = pre ++ (a.pre ++ a.name ++ a.mid1 ++ b!"=" ++ a.mid2 ++ [a.quote] ++ a.raw ++ [a.quote]) ++ (as.flatMap Attr.render ++ post) := by
      rw [h, List.flatMap_cons, Attr.render]; simp only [List.append_assoc]
    have m1 : a.mid1 = [] := by
      by_cases h0 : a.mid1 = []
      · exact h0
      · obtain ⟨m, w, e, hw⟩ := last_ws h3 h0
        exact absurd ⟨pre ++ a.pre ++ a.name ++ m, a.mid2 ++ [a.quote] ++ a.raw ++ [a.quote] ++ (as.flatMap Attr.render ++ post), by rw [hx, e]; simp⟩ (hN.before w hw)
    have m2 : a.mid2 = [] := by
      cases e : a.mid2 with
      | nil => rfl
      | cons w m =>
        exact absurd ⟨pre ++ a.pre ++ a.name ++ a.mid1, m ++ [a.quote] ++ a.raw ++ [a.quote] ++ (as.flatMap Attr.render ++ post), by rw [hx, e]; simp⟩
          (hN.behind w (h4 w (by rw [e]; exact List.mem_cons_self)))
    rw [m1, m2] at hx
    have mp : ∃ w, IsWs w ∧ a.pre = [w] := by
      by_cases h0 : a.pre = []
      · obtain ⟨p, q, hq, e⟩ := hh a rfl h0
        refine absurd ⟨p, [a.quote] ++ a.raw ++ [a.quote] ++ (as.flatMap Attr.render ++ post), ?_⟩ (hN.apart q a.name hq h2)
        rw [hx, e, h0]; simp
      · obtain ⟨m, w, e, hw⟩ := last_ws h1 h0
        by_cases h00 : m = []
        · exact ⟨w, hw, by rw [e, h00]; rfl⟩
        · obtain ⟨m', v, e', hv⟩ := last_ws (l := m) (fun c hc => h1 c (by rw [e]; exact List.mem_append.mpr (.inl hc))) h00
          refine absurd ⟨pre ++ m', [a.quote] ++ a.raw ++ [a.quote] ++ (as.flatMap Attr.render ++ post), ?_⟩ (hN.single v w a.name hv hw h2)
          rw [hx, e, e']; simp
    have mv := hN.value a.quote a.raw h5 h6 ⟨pre ++ a.pre ++ a.name, as.flatMap Attr.render ++ post, by rw [hx]; simp⟩
    intro x hxm
    rcases List.mem_cons.mp hxm with rfl | hxm
    · obtain ⟨w, hw, e⟩ := mp
      refine ⟨w, hw, e, m1, m2, plain_esc mv, ?_⟩
      intro hm
      rw [Attr.render, e, m1, m2] at hm
      simp only [List.mem_append, List.mem_singleton, List.not_mem_nil, or_false] at hm
      rcases hm with (((((hm | hm) | hm) | hm) | hm)) | hm
      · rw [← hm] at hw; revert hw; unfold IsWs; decide
      · exact (h2.tag.2.1 _ hm).2.2.2 rfl
      · revert hm; decide
      · rw [← hm] at h5; revert h5; decide
      · exact (mv _ hm).1 rfl
      · rw [← hm] at h5; revert h5; decide
    · refine neat_attrs hN (fun b hb => hl b (List.mem_cons_of_mem _ hb)) (pre := pre ++ a.render) (post := post) (by rw [h, List.flatMap_cons]; simp only [List.append_assoc]) ?_ x hxm
      intro b _ _
      exact ⟨pre ++ (a.pre ++ a.name ++ a.mid1 ++ b!"=" ++ a.mid2 ++ [a.quote] ++ a.raw), a.quote, h5, by rw [Attr.render]; simp only [List.append_assoc]⟩

theorem neat_once {xml : Bytes} (hN : NeatTags xml) : ∀ {as : List Attr}, (∀ a ∈ as, a.Legal) → (∀ a ∈ as, NeatAttr a) → ∀ {pre post : Bytes}, xml = pre ++ as.flatMap Attr.render ++ post → lastOnly as = as
  | [], _, _, _, _, _ => rfl
  | a :: as, hl, hn, pre, post, h => by
    have ih := neat_once hN (fun b hb => hl b (List.mem_cons_of_mem _ hb)) (fun b hb => hn b (List.mem_cons_of_mem _ hb)) (pre := pre ++ a.render) (post := post)
      (by rw [h, List.flatMap_cons]; simp only [List.append_assoc])
    rw [lastOnly, if_neg, ih]
    intro hm
    obtain ⟨b, hb, e⟩ := List.mem_map.mp hm
    obtain ⟨l1, l2, rfl⟩ := List.append_of_mem hb
    obtain ⟨v, hv, a1, a2, a3, a4, a5⟩ := hn a List.mem_cons_self
    obtain ⟨w, hw, b1, b2, b3, b4, b5⟩ := hn b (List.mem_cons_of_mem _ hb)
    obtain ⟨-, hna, -⟩ := hl a List.mem_cons_self
    refine hN.once v w a.name ([a.quote] ++ a.raw ++ [a.quote] ++ l1.flatMap Attr.render) hv hw hna ?_
      ⟨pre, [b.quote] ++ b.raw ++ [b.quote] ++ (l2.flatMap Attr.render ++ post), ?_⟩
    · intro hc
      rcases List.mem_append.mp hc with hc | hc
      · refine a5 ?_
        rw [Attr.render]
        simp only [List.mem_append] at hc ⊢
        rcases hc with (hc | hc) | hc
        · exact .inl (.inl (.inr hc))
        · exact .inl (.inr hc)
        · exact .inr hc
      · obtain ⟨c, hc1, hc2⟩ := List.mem_flatMap.mp hc
        obtain ⟨_, _, _, _, _, _, h5⟩ := hn c (List.mem_cons_of_mem _ (List.mem_append.mpr (.inl hc1)))
        exact h5 hc2
    · rw [h]
      simp only [List.flatMap_cons, List.flatMap_append, Attr.render, a1, a2, a3, b1, b2, b3, e, List.append_assoc, List.nil_append, List.cons_append]

theorem neat_even {xml : Bytes} (hN : NeatTags xml) {as : List Attr} (ha : AttrsLegal as) {ws pre post : Bytes} (h : xml = pre ++ as.flatMap Attr.render ++ post) (hw : ws = []) : Spec.Even as ws := by
  have h1 := neat_attrs hN ha.2.1 h (fun a h0 h1 => absurd h1 (ha.2.2 a h0))
  have h2 := neat_once hN ha.2.1 h1 h
  unfold Spec.Even redoAttrs
  rw [h2, hw, List.append_nil]
  clear h2 h ha
  induction as with
  | nil => rfl
  | cons a as ih =>
    obtain ⟨w, hw, e1, e2, e3, e4, -⟩ := h1 a List.mem_cons_self
    simp only [List.flatMap_cons, List.map_cons, List.length_append, ih (fun b hb => h1 b (List.mem_cons_of_mem _ hb)), Attr.rewritten, Attr.render, e1, e2, e3, e4, List.length_cons, List.length_nil]

theorem neat_tail {xml : Bytes} (hN : NeatTags xml) {ws pre post : Bytes} (hws : ∀ c ∈ ws, IsWs c) (h : xml = pre ++ ws ++ (b!">" ++ post) ∨ xml = pre ++ ws ++ (b!"/>" ++ post)) : ws = [] := by
  by_cases h0 : ws = []
  · exact h0
  · obtain ⟨m, w, rfl, hw⟩ := last_ws hws h0
    obtain ⟨k1, k2⟩ := hN.close w hw
    rcases h with h | h
    · exact absurd ⟨pre ++ m, post, by rw [h]; simp⟩ k1
    · exact absurd ⟨pre ++ m, post, by rw [h]; simp⟩ k2

theorem forest_neat {xml : Bytes} (hN : NeatTags xml) : ∀ (f : Forest) (d : Nat) (pre post : Bytes), f.Legal d → xml = pre ++ f.render ++ post → f.Even ∧ f.Stable := by
  intro f
  induction f with
  | nil => intros; exact ⟨trivial, trivial⟩
  | text b next ih =>
    intro d pre post hl h
    exact ih d (pre ++ b) post hl.2.2 (by rw [h, Forest.render]; simp only [List.append_assoc])
  | misc m next ih =>
    intro d pre post hl h
    exact ih d (pre ++ m.render) post hl.2 (by rw [h, Forest.render]; simp only [List.append_assoc])
  | leaf n as ws next ih =>
    intro d pre post hl h
    obtain ⟨hn, ha, hws, -, hx⟩ := hl
    have h0 := neat_tail hN (pre := pre ++ (b!"<" ++ n ++ as.flatMap Attr.render)) (post := next.render ++ post) hws (.inr (by rw [h, Forest.render, openTag]; simp only [List.append_assoc]))
    have h1 := neat_even hN ha (ws := ws) (pre := pre ++ (b!"<" ++ n)) (post := ws ++ b!"/>" ++ (next.render ++ post)) (by rw [h, Forest.render, openTag]; simp only [List.append_assoc]) h0
    obtain ⟨h2, h3⟩ := ih d (pre ++ (openTag n as ws ++ b!"/>")) post hx (by rw [h, Forest.render]; simp only [List.append_assoc])
    exact ⟨⟨h1, h2⟩, h3⟩
  | node n as ws kids cws next ihk ih =>
    intro d pre post hl h
    obtain ⟨hn, ha, hws, -, hk, hc, hx⟩ := hl
    have h0 := neat_tail hN (pre := pre ++ (b!"<" ++ n ++ as.flatMap Attr.render)) (post := kids.render ++ (closeTag n cws ++ (next.render ++ post))) hws
      (.inl (by rw [h, Forest.render, openTag]; simp only [List.append_assoc]))
    have h0' := neat_tail hN (pre := pre ++ (openTag n as ws ++ b!">" ++ kids.render ++ (b!"</" ++ n))) (post := next.render ++ post) hc
      (.inl (by rw [h, Forest.render, closeTag]; simp only [List.append_assoc]))
    have h1 := neat_even hN ha (ws := ws) (pre := pre ++ (b!"<" ++ n)) (post := ws ++ b!">" ++ (kids.render ++ (closeTag n cws ++ (next.render ++ post))))
      (by rw [h, Forest.render, openTag]; simp only [List.append_assoc]) h0
    obtain ⟨h2, -⟩ := ihk (d + 1) (pre ++ (openTag n as ws ++ b!">")) (closeTag n cws ++ (next.render ++ post)) hk (by rw [h, Forest.render]; simp only [List.append_assoc])
    obtain ⟨h4, h5⟩ := ih d (pre ++ (openTag n as ws ++ b!">" ++ kids.render ++ closeTag n cws)) post hx (by rw [h, Forest.render]; simp only [List.append_assoc])
    exact ⟨⟨h1, h0', h2, h4⟩, h0', h2, h5⟩

/-- C84: if its tags are written neatly as well, it is in the class of all the theorems about modifications. -/
theorem C84_editable (xml : Bytes) (hv : valid xml = true) (hO : Ordinary xml) (hN : NeatTags xml) : ∃ f : Forest, f.render = xml ∧ Editable f := by
  obtain ⟨f, rfl, hl, h1, h2, h3⟩ := C84_sound xml hv hO
  exact ⟨f, rfl, hl, h1, h2, h3, (forest_neat hN f 0 [] [] h1 (by simp)).2⟩

/-- C84: enough for neat tags: no `=` at all, and no white space before `>` and `/>`. -/
theorem C84_bare (xml : Bytes) (h1 : c!"=" ∉ xml) (h2 : ∀ w ∈ b!" \t\n\r", ¬ [w, c!">"] <:+: xml ∧ ¬ [w, c!"/", c!">"] <:+: xml) : NeatTags xml where
  before w _ h := h1 (h.subset (by simp))
  behind w _ h := h1 (h.subset (by simp))
  close w hw := h2 w (by unfold IsWs at hw; simpa using hw)
  single v w n _ _ _ h := h1 (h.subset (by simp))
  apart q n _ _ h := h1 (h.subset (by simp))
  value q b _ _ h := absurd (h.subset (by simp)) h1
  once v w n x _ _ _ _ h := h1 (h.subset (by simp))

/-- C84: so on every ordinary valid document each path without bar that is not one of the panicking ones has an answer, which is its meaning (C78), and the document determines it. -/
theorem C84_get (env : Env) (ho : env.ord.IsPerm) (xml : Bytes) (hv : valid xml = true) (hO : Ordinary xml) :
    ∃ i, Says xml i ∧ ∀ path, c!"|" ∉ path → (Searches path → i.descendants.length < 9999) → (c!"%" ∈ path → c!"#" ∈ path → i.Quiet) → ¬ BadPath path →
      ∃ a r, Sense env.parseFloat (.path path a) ∧ get env xml path = .ret r ∧ Gives r (a i) := by
  obtain ⟨i, hi⟩ := C84_says xml hv hO
  refine ⟨i, hi, fun path hb hd ht hq => ?_⟩
  obtain ⟨a, ha, -⟩ := C78_meaning env.parseFloat path hb hq
  obtain ⟨r, h1, h2⟩ := C78_get env ho xml i hi ha hb hd ht
  exact ⟨a, r, ha, h1, h2⟩

/-! ### examples -/

/-- A document with a declaration, attributes, references and white space in its tags, told by its bytes. -/
def exCatalog : Bytes := b!"<?xml version=\"1.0\"?>\n<catalog>\n <book id='1' lang=\"en\" ><title>A &amp; B</title><price>10</price></book>\n <book id = '2'/>\n</catalog >\n"

theorem exCatalog_ordinary : valid exCatalog = true ∧ Ordinary exCatalog :=
  ⟨by decide +kernel, C84_plain _ (by decide +kernel) (by decide +kernel) (by decide +kernel)⟩

example : ∃ i, Says exCatalog i := C84_says _ exCatalog_ordinary.1 exCatalog_ordinary.2

/-- A document without attributes, with text of all kinds and some layout. -/
def exNotes : Bytes := b!"<notes>\n  <note>\n    <to>Tove &lt;t@x&gt;</to>\n    <done/>\n  </note>\n  <note><to>Jani \"J\"</to></note>\n</notes>\n"

theorem exNotes_editable : ∃ f : Forest, f.render = exNotes ∧ Editable f :=
  C84_editable _ (by decide +kernel) (C84_plain _ (by decide +kernel) (by decide +kernel) (by decide +kernel)) (C84_bare _ (by decide +kernel) (by decide +kernel))

/-- C84: valid documents that are not ordinary are misread: the closing tag in a comment ends the element, the opening one hides what follows it; tags in a CDATA section are found;
and a processing instruction inside an element comes back changed. -/
theorem C84_witness :
    (valid b!"<r><x><!--</x>--></x></r>" = true ∧ get exEnv b!"<r><x><!--</x>--></x></r>" b!"r.x" = .ret (.ofContent b!"<!--")) ∧
    (valid b!"<r><x><!--<x>--></x><b>1</b></r>" = true ∧ get exEnv b!"<r><x><!--<x>--></x><b>1</b></r>" b!"r.b" = .ret .null) ∧
    (valid b!"<r><![CDATA[<a>1</a>]]></r>" = true ∧ get exEnv b!"<r><![CDATA[<a>1</a>]]></r>" b!"r.a" = .ret (.ofContent b!"1")) ∧
    (valid b!"<r><?p 1/?></r>" = true ∧ get exEnv b!"<r><?p 1/?></r>" b!"r" = .ret (.ofContent b!"<?p/?>")) := by
  decide +kernel

/-- C84: Set in a document whose tags are not neat may write in the wrong place (C61). -/
theorem C84_neat_needed : valid b!"<r><a><b  k='1'/><c>2</c></a></r>" = true ∧
    setWithOptions exEnv.ord b!"<r><a><b  k='1'/><c>2</c></a></r>" b!"r.a.c" (.str b!"3") (some defaultOptions) ≠ .ret (b!"<r><a><b  k='1'/><c>3</c></a></r>", none) := by
  decide +kernel

end Verif.Props
