import Verif.Spec.Pretty
import Verif.Props.Order
import Verif.Props.Mods
/- C59: what `@pretty` does between the decoder and the encoder of encoding/xml, whatever these do. -/
namespace Verif.Props
open Verif.Spec

/-! ### the attributes -/

theorem split_first {a a' r r' : Bytes} {c : UInt8} (h : c ∉ a) (h' : c ∉ a') (e : a ++ c :: r = a' ++ c :: r') : a = a' ∧ r = r' := by
  induction a generalizing a' with
  | nil =>
    cases a' with
    | nil => simpa using e
    | cons x xs => simp at e; exact absurd (by simp [e.1]) h'
  | cons y ys ih =>
    cases a' with
    | nil => simp at e; exact absurd (by simp [e.1]) h
    | cons x xs =>
      simp only [List.cons_append, List.cons.injEq] at e
      simp only [List.mem_cons, not_or] at h h'
      obtain ⟨h1, h2⟩ := ih h.2 h'.2 e.2
      exact ⟨by rw [e.1, h1], h2⟩

theorem split_last {a a' r r' : Bytes} {c : UInt8} (h : c ∉ r) (h' : c ∉ r') (e : a ++ c :: r = a' ++ c :: r') : a = a' ∧ r = r' := by
  have := congrArg List.reverse e
  simp only [List.reverse_append, List.reverse_cons, List.append_assoc, List.singleton_append] at this
  obtain ⟨h1, h2⟩ := split_first (a := r.reverse) (a' := r'.reverse) (by simpa using h) (by simpa using h') this
  exact ⟨List.reverse_inj.mp h2, List.reverse_inj.mp h1⟩

/-- Which of the three sorts of keys an attribute has. -/
theorem key_cases (a : XAttr) : (a.name = ⟨[], b!"xmlns"⟩ ∧ xmlnsKey a = b!"xmlns=" ++ a.value) ∨
    (a.name ≠ ⟨[], b!"xmlns"⟩ ∧ a.name.space = b!"xmlns" ∧ xmlnsKey a = b!"xmlns:" ++ (a.name.loc ++ c!"=" :: a.value)) ∨
    (a.name ≠ ⟨[], b!"xmlns"⟩ ∧ a.name.space ≠ b!"xmlns" ∧ a.name.space ≠ [] ∧ xmlnsKey a = a.name.space ++ c!":" :: a.name.loc) ∨
    (a.name ≠ ⟨[], b!"xmlns"⟩ ∧ a.name.space ≠ b!"xmlns" ∧ a.name.space = [] ∧ xmlnsKey a = a.name.loc) := by
  obtain ⟨⟨s, l⟩, v⟩ := a
  unfold xmlnsKey
  simp only [XName.mk.injEq]
  by_cases h1 : l = b!"xmlns" ∧ s = []
  · left; simp [h1]
  · by_cases h2 : s = b!"xmlns"
    · subst h2; right; left; simp
    · by_cases h3 : s = []
      · subst h3
        have : l ≠ b!"xmlns" := fun e => h1 ⟨e, rfl⟩
        simp [this]
      · simp [h2, h3]

/-- On clean attributes, equal keys mean that the attributes say the same. -/
theorem key_same {a b : XAttr} (ha : CleanAttr a) (hb : CleanAttr b) : xmlnsKey a = xmlnsKey b ↔ SameAttr a b := by
  constructor
  · intro e
    have plainKey : ∀ x : XAttr, CleanAttr x → x.name.space ≠ [] → c!"=" ∉ x.name.space ++ c!":" :: x.name.loc := by
      intro x hx _; simp [hx.2.1, hx.2.2]
    rcases key_cases a with ⟨n1, k1⟩ | ⟨n1, s1, k1⟩ | ⟨n1, s1, e1, k1⟩ | ⟨n1, s1, e1, k1⟩ <;>
      rcases key_cases b with ⟨n2, k2⟩ | ⟨n2, s2, k2⟩ | ⟨n2, s2, e2, k2⟩ | ⟨n2, s2, e2, k2⟩ <;> rw [k1, k2] at e
    · obtain ⟨n, v⟩ := a; obtain ⟨n', v'⟩ := b
      simp only at n1 n2 e; subst n1 n2
      have : v = v' := by simpa using e
      subst this; exact .default v
    · simp at e
    · exact absurd (show c!"=" ∈ _ from e ▸ (by simp)) (plainKey b hb e2)
    · exact absurd (show c!"=" ∈ _ from e ▸ (by simp)) hb.2.1
    · simp at e
    · obtain ⟨⟨s, l⟩, v⟩ := a; obtain ⟨⟨s', l'⟩, v'⟩ := b
      simp only at s1 s2; subst s1 s2
      obtain ⟨rfl, rfl⟩ := split_first ha.2.1 hb.2.1 (List.append_cancel_left e)
      exact .prefixed _ _
    · exact absurd (show c!"=" ∈ _ from e ▸ (by simp)) (plainKey b hb e2)
    · exact absurd (show c!"=" ∈ _ from e ▸ (by simp)) hb.2.1
    · exact absurd (show c!"=" ∈ _ from e.symm ▸ (by simp)) (plainKey a ha e1)
    · exact absurd (show c!"=" ∈ _ from e.symm ▸ (by simp)) (plainKey a ha e1)
    · obtain ⟨⟨s, l⟩, v⟩ := a; obtain ⟨⟨s', l'⟩, v'⟩ := b
      obtain ⟨h1, h2⟩ := split_last ha.1 hb.1 e
      simp only at h1 h2; subst h1 h2
      exact .plain _ n1 s1 _ _
    · exact absurd (show c!":" ∈ _ from e ▸ (by simp)) hb.1
    · exact absurd (show c!"=" ∈ _ from e.symm ▸ (by simp)) ha.2.1
    · exact absurd (show c!"=" ∈ _ from e.symm ▸ (by simp)) ha.2.1
    · exact absurd (show c!":" ∈ _ from e.symm ▸ (by simp)) ha.1
    · obtain ⟨⟨s, l⟩, v⟩ := a; obtain ⟨⟨s', l'⟩, v'⟩ := b
      simp only at e1 e2 e; subst e1 e2 e
      exact .plain _ n1 s1 _ _
  · intro h
    cases h with
    | default v => rfl
    | prefixed p v => rfl
    | plain n h1 h2 v w =>
      obtain ⟨s, l⟩ := n
      simp only [ne_eq, XName.mk.injEq, not_and] at h1 h2
      by_cases hs : s = []
      · have := h1 hs
        simp [xmlnsKey, hs, this]
      · simp [xmlnsKey, hs, h2]

theorem dedup_firsts (R : XAttr → XAttr → Prop) : ∀ (as e : List XAttr) (seen : List Bytes), (∀ a ∈ as, ∀ x, x ∈ e ∨ x ∈ as → (xmlnsKey x = xmlnsKey a ↔ R x a)) →
    (∀ k, k ∈ seen ↔ ∃ x ∈ e, xmlnsKey x = k) → Firsts R e as (dedupLoop seen as) := by
  intro as
  induction as with
  | nil => intro e seen _ _; exact .nil e
  | cons a as ih =>
    intro e seen hR hs
    have hstep : ∀ seen', (∀ k, k ∈ seen' ↔ k = xmlnsKey a ∨ k ∈ seen) → Firsts R (e ++ [a]) as (dedupLoop seen' as) := by
      intro seen' h'
      refine ih (e ++ [a]) seen' (fun b hb x hx => hR b (by simp [hb]) x ?_) (fun k => ?_)
      · simp only [List.mem_append, List.mem_cons, List.not_mem_nil, or_false] at hx ⊢
        rcases hx with (h | h) | h <;> simp [h]
      · rw [h', hs]
        simp only [List.mem_append, List.mem_cons, List.not_mem_nil, or_false]
        constructor
        · rintro (rfl | ⟨x, hx, hk⟩)
          · exact ⟨a, .inr rfl, rfl⟩
          · exact ⟨x, .inl hx, hk⟩
        · rintro ⟨x, hx | rfl, hk⟩
          · exact .inr ⟨x, hx, hk⟩
          · exact .inl hk.symm
    unfold dedupLoop
    by_cases hc : xmlnsKey a ∈ seen
    · rw [if_pos (by simpa using hc)]
      obtain ⟨x, hx, hk⟩ := (hs _).mp hc
      refine .drop e a x as _ hx ((hR a (by simp) x (.inl hx)).mp hk) (hstep seen fun k => ?_)
      constructor
      · exact .inr
      · rintro (rfl | h)
        · exact hc
        · exact h
    · rw [if_neg (by simpa using hc)]
      refine .keep e a as _ (fun x hx h => hc ((hs _).mpr ⟨x, hx, (hR a (by simp) x (.inl hx)).mpr h⟩)) (hstep _ (by simp))

theorem dedup_loop (as : List XAttr) : deduplicateXmlnsAttrs as = dedupLoop [] as := by
  unfold deduplicateXmlnsAttrs
  match as with
  | [] => rfl
  | [a] => simp [dedupLoop]
  | a :: b :: as => simp

theorem firsts_unique {α : Type} {R : α → α → Prop} {e as o1 o2 : List α} (h1 : Firsts R e as o1) (h2 : Firsts R e as o2) : o1 = o2 := by
  induction h1 generalizing o2 with
  | nil e => cases h2; rfl
  | keep e a as out h hs ih =>
    cases h2 with
    | keep _ _ _ out' _ hs' => rw [ih hs']
    | drop _ _ x _ _ hx hr hs' => exact absurd hr (h x hx)
  | drop e a x as out hx hr hs ih =>
    cases h2 with
    | keep _ _ _ out' h' hs' => exact absurd hr (h' x hx)
    | drop _ _ _ _ _ _ _ hs' => exact ih hs'

/-- C59: of the attributes of an element, `@pretty` keeps the first of those that say the same, and every other one: nothing else is lost, and the order stays. -/
theorem C59_attributes (as : List XAttr) (h : ∀ a ∈ as, CleanAttr a) : Firsts SameAttr [] as (deduplicateXmlnsAttrs as) := by
  rw [dedup_loop]
  exact dedup_firsts SameAttr as [] [] (fun a ha x hx => key_same (h x (by simpa using hx)) (h a ha)) (by simp)

/-- C59: whatever the attributes, `@pretty` invents none, keeps their order, and keeps the first. -/
theorem C59_attributes_any (as : List XAttr) : (deduplicateXmlnsAttrs as).Sublist as ∧ (deduplicateXmlnsAttrs as).head? = as.head? := by
  rw [dedup_loop]
  have : ∀ (as : List XAttr) seen, (dedupLoop seen as).Sublist as := by
    intro as
    induction as with
    | nil => intro seen; exact .slnil
    | cons a as ih =>
      intro seen
      unfold dedupLoop
      split
      · exact (ih _).cons _
      · exact (ih _).cons_cons _
  refine ⟨this as [], ?_⟩
  cases as with
  | nil => rfl
  | cons a as => simp [dedupLoop]

/-- C59: why the attributes have to be clean: in `<a xmlns:p="u:x" xmlns:q="xmlns:p=u" q:x="1"/>` the name of the last attribute has the namespace
`xmlns:p=u` and the local name `x`, and `@pretty` takes it for a second declaration of `p`. -/
theorem C59_lost : deduplicateXmlnsAttrs [⟨⟨b!"xmlns", b!"p"⟩, b!"u:x"⟩, ⟨⟨b!"xmlns", b!"q"⟩, b!"xmlns:p=u"⟩, ⟨⟨b!"xmlns:p=u", b!"x"⟩, b!"1"⟩] =
      [⟨⟨b!"xmlns", b!"p"⟩, b!"u:x"⟩, ⟨⟨b!"xmlns", b!"q"⟩, b!"xmlns:p=u"⟩] ∧
    ¬ SameAttr ⟨⟨b!"xmlns", b!"p"⟩, b!"u:x"⟩ ⟨⟨b!"xmlns:p=u", b!"x"⟩, b!"1"⟩ := by
  refine ⟨by decide, fun h => ?_⟩
  have : (⟨b!"xmlns", b!"p"⟩ : XName) = ⟨b!"xmlns:p=u", b!"x"⟩ := by
    revert h
    generalize (⟨b!"xmlns", b!"p"⟩ : XName) = n
    generalize (⟨b!"xmlns:p=u", b!"x"⟩ : XName) = m
    intro h; cases h <;> rfl
  exact absurd this (by decide)

/-! ### the tokens -/

theorem told_pretty {t : XToken} (h : CleanToken t) : Told t (prettyToken t) := by
  cases t with
  | start n as => exact .start n as _ (C59_attributes as h)
  | stop n => exact .stop n
  | other k d => exact .other k d

theorem told_unique {t a b : XToken} (h1 : Told t a) (h2 : Told t b) : a = b := by
  cases h1 with
  | start n as out h => cases h2 with | start _ _ out' h' => rw [firsts_unique h h']
  | stop n => cases h2; rfl
  | other k d => cases h2; rfl

theorem told_all {ts out : List XToken} (hc : ∀ t ∈ ts, CleanToken t) (h : All2 Told ts out) : out = ts.map prettyToken := by
  induction h with
  | nil => rfl
  | cons h hs ih => rw [List.map_cons, told_unique h (told_pretty (hc _ (by simp))), ih (fun t ht => hc t (by simp [ht]))]

theorem all_told {ts : List XToken} (hc : ∀ t ∈ ts, CleanToken t) : All2 Told ts (ts.map prettyToken) := by
  induction ts with
  | nil => exact .nil
  | cons t ts ih => exact .cons (told_pretty (hc t (by simp))) (ih fun x hx => hc x (by simp [hx]))

theorem pretty_encodes (c : XmlCodec) (ts : List XToken) (s : c.State) (out : Bytes) :
    (prettyLoop c s ts true).bind c.flush = some out ↔ Encodes c s (ts.map prettyToken) out := by
  induction ts generalizing s with
  | nil =>
    constructor
    · intro h; exact .done s out h
    · intro h; cases h; assumption
  | cons t ts ih =>
    simp only [prettyLoop, List.map_cons]
    constructor
    · intro h
      cases e : c.encode s (prettyToken t) with
      | none => rw [e] at h; simp at h
      | some s' => rw [e] at h; exact .token s s' _ _ out e ((ih s').mp h)
    · intro h
      cases h with
      | token _ s' _ _ _ e hs => rw [e]; exact (ih s').mpr hs

theorem pretty_noeof (c : XmlCodec) (ts : List XToken) (s : c.State) : prettyLoop c s ts false = none := by
  induction ts generalizing s with
  | nil => rfl
  | cons t ts ih =>
    unfold prettyLoop
    split
    · rfl
    · exact ih _

theorem pretty_bind (c : XmlCodec) (r : Result) (h : r.raw ≠ []) :
    prettyMod c r = match (prettyLoop c c.init (c.decode r.raw).1 (c.decode r.raw).2).bind c.flush with
      | none => r
      | some out => .mk r.typ out r.str r.num [] := by
  unfold prettyMod
  rw [if_neg (by simpa using h)]
  cases prettyLoop c c.init (c.decode r.raw).1 (c.decode r.raw).2 with
  | none => rfl
  | some s => cases h : c.flush s <;> simp [h]

/-- C59: what `@pretty` is. If the decoder reads Raw to its end and the encoder accepts the tokens, with the namespaces of element names removed and of
the attributes that say the same all but the first, the new Raw is what the encoder wrote and Type, Str and Num stay. Otherwise nothing changes. -/
theorem C59_meaning (c : XmlCodec) (r : Result) (hne : r.raw ≠ []) (hc : ∀ t ∈ (c.decode r.raw).1, CleanToken t) :
    (∃ ts out, (c.decode r.raw).2 = true ∧ All2 Told (c.decode r.raw).1 ts ∧ Encodes c c.init ts out ∧ prettyMod c r = .mk r.typ out r.str r.num []) ∨
    (((c.decode r.raw).2 = false ∨ ∀ ts out, All2 Told (c.decode r.raw).1 ts → ¬ Encodes c c.init ts out) ∧ prettyMod c r = r) := by
  rw [pretty_bind c r hne]
  cases he : (c.decode r.raw).2 with
  | false => right; rw [pretty_noeof]; exact ⟨.inl rfl, rfl⟩
  | true =>
    cases hl : (prettyLoop c c.init (c.decode r.raw).1 true).bind c.flush with
    | none =>
      right
      refine ⟨.inr fun ts out ht h => ?_, rfl⟩
      rw [told_all hc ht, ← pretty_encodes, hl] at h; simp at h
    | some out => exact .inl ⟨_, out, rfl, all_told hc, (pretty_encodes c _ _ _).mp hl, rfl⟩

/-- C59: without Raw there is nothing to format: arrays, counts and the result of a failed query stay as they are. -/
theorem C59_no_raw (c : XmlCodec) (r : Result) (h : r.raw = []) : prettyMod c r = r := by simp [prettyMod, h]

/-- C59: whatever encoding/xml does, `@pretty` returns its argument, or the same Type, Str and Num with another Raw and without nested results. In
particular it changes no value: String(), Int(), Float() and Bool() of an element, attribute, text or count stay. -/
theorem C59_shape (c : XmlCodec) (r : Result) : prettyMod c r = r ∨ ∃ raw, prettyMod c r = .mk r.typ raw r.str r.num [] := by
  by_cases h : r.raw = []
  · exact .inl (C59_no_raw c r h)
  · rw [pretty_bind c r h]
    split
    · exact .inl rfl
    · exact .inr ⟨_, rfl⟩

theorem C59_values (c : XmlCodec) (r : Result) (h : r.typ ≠ .array) (pf : Bytes → Option FVal) : (prettyMod c r).typ = r.typ ∧ (prettyMod c r).toStr = r.toStr ∧
    (prettyMod c r).toInt = r.toInt ∧ (prettyMod c r).toFloat pf = r.toFloat pf ∧ (prettyMod c r).toBool = r.toBool ∧ (prettyMod c r).exists? = r.exists? := by
  rcases C59_shape c r with e | ⟨raw, e⟩
  · simp [e]
  · rw [e]
    obtain ⟨t, raw', s, n, rs⟩ := r
    simp only [Result.typ] at h
    cases t <;> first | exact absurd rfl h | (simp [Result.toStr, Result.toInt, Result.toFloat, Result.toBool, Result.exists?, Result.typ, Result.str, Result.num]; done) | (simp [Result.toStr, Result.toInt, Result.toFloat, Result.toBool, Result.exists?, Result.typ, Result.str, Result.num]; rfl)

/-- C59: the namespaces of element names are lost. If two texts decode to tokens that differ only in these (`<p:a/>` and `<q:a/>`, and also `<a/>`), `@pretty`
cannot tell them apart: it leaves both as they are, or makes the same of both. -/
theorem C59_prefixes (c : XmlCodec) (r1 r2 : Result) (h1 : r1.raw ≠ []) (h2 : r2.raw ≠ []) (ht : All2 SameToken (c.decode r1.raw).1 (c.decode r2.raw).1)
    (he : (c.decode r1.raw).2 = (c.decode r2.raw).2) : (prettyMod c r1 = r1 ∧ prettyMod c r2 = r2) ∨
      ∃ out, prettyMod c r1 = .mk r1.typ out r1.str r1.num [] ∧ prettyMod c r2 = .mk r2.typ out r2.str r2.num [] := by
  have hl : ∀ (ts1 ts2 : List XToken) (s : c.State) e, All2 SameToken ts1 ts2 → prettyLoop c s ts1 e = prettyLoop c s ts2 e := by
    intro ts1 ts2 s e h
    induction h generalizing s with
    | nil => rfl
    | cons h hs ih =>
      have : ∀ {a b}, SameToken a b → prettyToken a = prettyToken b := by intro a b h; cases h <;> rfl
      unfold prettyLoop
      rw [this h]
      split
      · rfl
      · exact ih _
  rw [pretty_bind c r1 h1, pretty_bind c r2 h2, hl _ _ _ _ ht, he]
  cases (prettyLoop c c.init (c.decode r2.raw).1 (c.decode r2.raw).2).bind c.flush with
  | none => exact .inl ⟨rfl, rfl⟩
  | some out => exact .inr ⟨out, rfl, rfl⟩

/-! ### with the rest -/

/-- C59, C32: all seven built-in modifiers pass on results alike as results alike, so `C32_get` holds for them without an assumption on `@pretty`. -/
theorem C59_order (srt : Sorter) (hs : Oblivious srt) (pf : Bytes → Option FVal) (c : XmlCodec) (n : Bytes) (m : Result → Result)
    (h : builtinMods srt pf (prettyMod c) n = some m) : RawBlind m :=
  C32_builtin srt hs pf (prettyMod c) (C59_no_raw c) (C59_shape c) n m h

/-- C59, C52: all seven built-in modifiers do not lose results. -/
theorem C59_keep (srt : Sorter) (hsrt : ∀ less l, (srt less l).Perm l) (pf : Bytes → Option FVal) (c : XmlCodec)
    {mods : Bytes → Option (Result → Result)} {names : List Bytes} (hm : ∀ n ∈ names, mods n = builtinMods srt pf (prettyMod c) n)
    (h : ∀ n ∈ names, n ∈ [b!"reverse", b!"sort", b!"first", b!"last", b!"flatten", b!"ugly", b!"pretty"]) : Keeps mods names := by
  refine keeps_of_each fun n hn => ?_
  by_cases hp : n = b!"pretty"
  · subst hp
    refine ⟨prettyMod c, hm _ hn, fun r hr => ?_⟩
    by_cases hraw : r.raw = []
    · rw [C59_no_raw c r hraw]; exact hr
    · have hna : r.typ ≠ .array := fun e => hraw (hr.2.2 (by simp [Result.isArray, e]))
      rcases C59_shape c r with e | ⟨raw, e⟩ <;> rw [e]
      · exact hr
      · exact found_one ⟨decide_eq_false hna, (show r.exists? = true from found_exists hr)⟩
  · obtain ⟨m, h1, h2⟩ := builtin_found srt hsrt pf (prettyMod c) n (by have := h n hn; simp only [List.mem_cons, List.not_mem_nil, or_false] at this ⊢; simpa [hp] using this)
    exact ⟨m, by rw [hm n hn, h1], h2⟩

/-! ### examples -/

/-- A small stand-in for encoding/xml: it reads `<p:a></p:a>` and `<a></a>` (with `p` for the namespace) and writes every token on a line. -/
def toyCodec : XmlCodec where
  decode s :=
    if s = b!"<p:a></p:a>" then ([.start ⟨b!"p", b!"a"⟩ [], .stop ⟨b!"p", b!"a"⟩], true)
    else if s = b!"<a></a>" then ([.start ⟨[], b!"a"⟩ [], .stop ⟨[], b!"a"⟩], true)
    else if s = b!"<a>" then ([.start ⟨[], b!"a"⟩ []], false)
    else if s = b!"x" then ([.other 0 b!"x"], true)
    else ([], false)
  State := Bytes
  init := []
  encode s t := match t with
    | .start n _ => some (s ++ b!"<" ++ n.loc ++ b!">\n")
    | .stop n => some (s ++ b!"</" ++ n.loc ++ b!">\n")
    | .other _ d => if d = b!"x" then none else some (s ++ d)
  flush s := some s

/-- `@pretty` loses the prefix, leaves a text alone that the decoder rejects, and one that the encoder rejects. -/
theorem C59_witness : prettyMod toyCodec (.mk .element b!"<p:a></p:a>" [] (.fin 0) []) = .mk .element b!"<a>\n</a>\n" [] (.fin 0) [] ∧
    prettyMod toyCodec (.mk .element b!"<a></a>" [] (.fin 0) []) = .mk .element b!"<a>\n</a>\n" [] (.fin 0) [] ∧
    prettyMod toyCodec (.mk .element b!"<a>" [] (.fin 0) []) = .mk .element b!"<a>" [] (.fin 0) [] ∧
    prettyMod toyCodec (.mk .element b!"x" b!"x" (.fin 0) []) = .mk .element b!"x" b!"x" (.fin 0) [] := by decide

example : ∃ ts out, (toyCodec.decode b!"<p:a></p:a>").2 = true ∧ All2 Told (toyCodec.decode b!"<p:a></p:a>").1 ts ∧ Encodes toyCodec toyCodec.init ts out ∧
    prettyMod toyCodec (.mk .element b!"<p:a></p:a>" [] (.fin 0) []) = .mk .element out [] (.fin 0) [] := by
  rcases C59_meaning toyCodec (.mk .element b!"<p:a></p:a>" [] (.fin 0) []) (by decide) (by
    intro t ht; simp [toyCodec, Result.raw] at ht; rcases ht with rfl | rfl <;> simp [CleanToken]) with h | ⟨-, h⟩
  · exact h
  · exact absurd h (by decide)

/-- Declarations repeated and not, an attribute given twice, and attributes of the same local name. -/
example : deduplicateXmlnsAttrs [⟨⟨[], b!"xmlns"⟩, b!"u"⟩, ⟨⟨[], b!"xmlns"⟩, b!"u"⟩, ⟨⟨b!"xmlns", b!"p"⟩, b!"u"⟩, ⟨⟨[], b!"id"⟩, b!"1"⟩, ⟨⟨b!"u", b!"id"⟩, b!"2"⟩, ⟨⟨[], b!"id"⟩, b!"3"⟩,
    ⟨⟨[], b!"xmlns"⟩, b!"w"⟩] =
    [⟨⟨[], b!"xmlns"⟩, b!"u"⟩, ⟨⟨b!"xmlns", b!"p"⟩, b!"u"⟩, ⟨⟨[], b!"id"⟩, b!"1"⟩, ⟨⟨b!"u", b!"id"⟩, b!"2"⟩, ⟨⟨[], b!"xmlns"⟩, b!"w"⟩] := by decide

end Verif.Props
