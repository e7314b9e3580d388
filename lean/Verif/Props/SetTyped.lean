import Verif.Props.TripOptions
import Verif.Props.Attr
import Verif.Props.Value
/- C50: integers and booleans survive Set and Get. -/
namespace Verif.Props
open Spec

/-- Values that are written alike have the same effect. -/
theorem value_alike (o : Ord) (xml p : Bytes) (v v' : GoVal) (opts : Option Options) (h : valueToXML v = valueToXML v') (hv : v ≠ .nil) (hv' : v' ≠ .nil) :
    setWithOptions o xml p v opts = setWithOptions o xml p v' opts := by
  have hs : ∀ cs ind ss, setElement o cs ind xml ss v = setElement o cs ind xml ss v' := by
    intro cs ind ss
    unfold setElement
    rw [h]
  unfold setWithOptions
  simp only [if_neg hv, if_neg hv', hs]

/-- Bytes that need no escaping and are no white space. -/
def Dull (w : Bytes) : Prop := ∀ c ∈ w, 33 ≤ c ∧ c ≤ 122 ∧ c ≠ c!"<" ∧ c ≠ c!">" ∧ c ≠ c!"&" ∧ c ≠ c!"\"" ∧ c ≠ c!"'"

instance (w : Bytes) : Decidable (Dull w) := inferInstanceAs (Decidable (∀ c ∈ w, _))

theorem dull_escape {w : Bytes} (h : Dull w) : escapeXML w = w := by
  rw [escape_flatMap]
  induction w with
  | nil => rfl
  | cons c w ih =>
    obtain ⟨-, -, h1, h2, h3, h4, h5⟩ := h c (by simp)
    rw [List.flatMap_cons, ih (fun d hd => h d (by simp [hd]))]
    simp [escByte, h1, h2, h3, h4, h5]

theorem dull_trim {w : Bytes} (h : Dull w) : trimSpace w = w := by
  have key : ∀ (len : Bytes → Nat) (s : Bytes), len s = 0 → trimFront len s = s := by
    intro len s hs
    rw [trimFront, dif_neg (by omega)]
  have n1 : ∀ c : UInt8, 33 ≤ c → c ≤ 122 → ¬ ((9 ≤ c ∧ c ≤ 13) ∨ c = 32) ∧ ¬ c = 0xC2 ∧ ¬ c = 0xE1 ∧ ¬ c = 0xE2 ∧ ¬ c = 0xE3 := by
    intro c h1 h2
    simp only [UInt8.le_iff_toNat_le, ← UInt8.toNat_inj] at *
    simp at *; omega
  have hl : ∀ s, Dull s → spaceLen s = 0 := by
    intro s hs
    cases s with
    | nil => rfl
    | cons c s =>
      obtain ⟨h1, h2, -⟩ := hs c (by simp)
      obtain ⟨a, b, c, d, e⟩ := n1 c h1 h2
      simp [spaceLen, a, b, c, d, e]
  have hr : ∀ s, Dull s → spaceLenRev s = 0 := by
    intro s hs
    match s with
    | [] => rfl
    | [c] =>
      obtain ⟨h1, h2, -⟩ := hs c (by simp)
      obtain ⟨a, -⟩ := n1 c h1 h2
      simp [spaceLenRev, a]
    | [c, d] =>
      obtain ⟨h1, h2, -⟩ := hs c (by simp)
      obtain ⟨h3, h4, -⟩ := hs d (by simp)
      obtain ⟨a, -⟩ := n1 c h1 h2
      obtain ⟨-, b, -⟩ := n1 d h3 h4
      simp [spaceLenRev, a, b]
    | c :: d :: e :: s =>
      obtain ⟨h1, h2, -⟩ := hs c (by simp)
      obtain ⟨h3, h4, -⟩ := hs d (by simp)
      obtain ⟨h5, h6, -⟩ := hs e (by simp)
      obtain ⟨a, -⟩ := n1 c h1 h2
      obtain ⟨-, b, -⟩ := n1 d h3 h4
      obtain ⟨-, -, x, y, z⟩ := n1 e h5 h6
      simp [spaceLenRev, a, b, x, y, z]
  unfold trimSpace
  rw [key _ w (hl w h), key _ _ (hr _ (fun c hc => h c (by simpa using hc))), List.reverse_reverse]

theorem dull_natDec (n : Nat) : Dull (natDec n) ∧ (natDec n).length ≤ n + 1 := by
  induction n using Nat.strongRecOn with
  | _ n ih =>
    have hd : ∀ k, k < 10 → Dull [UInt8.ofNat (48 + k)] := by decide
    rw [natDec]
    split
    · exact ⟨hd n ‹_›, by simp⟩
    · obtain ⟨i1, i2⟩ := ih (n / 10) (by omega)
      refine ⟨fun c hc => ?_, by simp; omega⟩
      rcases List.mem_append.mp hc with hc | hc
      · exact i1 c hc
      · exact hd (n % 10) (by omega) c hc

theorem natDec_length (n k : Nat) (h : n < 10 ^ (k + 1)) : (natDec n).length ≤ k + 1 := by
  induction k generalizing n with
  | zero => rw [natDec, if_pos (by simpa using h)]; simp
  | succ k ih =>
    rw [natDec]
    split
    · simp
    · have := ih (n / 10) (by rw [Nat.pow_succ] at h; omega)
      simp; omega

theorem intDec_dull (i : Int) : Dull (intDec i) := by
  cases i with
  | ofNat n => exact (dull_natDec n).1
  | negSucc n =>
    intro c hc
    rcases List.mem_cons.mp hc with rfl | hc
    · decide
    · exact (dull_natDec (n + 1)).1 c hc

theorem intDec_decimal (i : Int) : DecimalInt (intDec i) i := by
  cases i with
  | ofNat n => exact .plain (natDec_decimal n)
  | negSucc n => exact .minus (natDec_decimal (n + 1))

theorem intDec_length (i : Int) (h1 : -(2 ^ 63) ≤ i) (h2 : i < 2 ^ 63) : (intDec i).length ≤ 20 := by
  cases i with
  | ofNat n => exact Nat.le_trans (natDec_length n 18 (by have : (n : Int) < 2 ^ 63 := h2; omega)) (by decide)
  | negSucc n =>
    have := natDec_length (n + 1) 18 (by omega)
    simp only [intDec, List.length_cons]; omega

theorem str_of_element {a : Result} (h : a.typ = .element) : a.toStr = a.str := by
  obtain ⟨t, raw, s, n, l⟩ := a
  simp only [Result.typ] at h; subst h; simp [Result.toStr, Result.str]

/-- C50: Set with an integer does what Set with its decimal digits does, and Set with a boolean what Set with its name does. -/
theorem C50_as_text (o : Ord) (xml p : Bytes) (opts : Option Options) :
    (∀ i : Int, ∃ ds, DecimalInt ds i ∧ setWithOptions o xml p (.int i) opts = setWithOptions o xml p (.str ds) opts) ∧
    setWithOptions o xml p (.bool true) opts = setWithOptions o xml p (.str b!"true") opts ∧
    setWithOptions o xml p (.bool false) opts = setWithOptions o xml p (.str b!"false") opts := by
  refine ⟨fun i => ⟨intDec i, intDec_decimal i, ?_⟩, ?_, ?_⟩
  · exact value_alike _ _ _ _ _ _ (by simp only [valueToXML, dull_escape (intDec_dull i)]) (by simp) (by simp)
  · exact value_alike _ _ _ _ _ _ (by decide +kernel) (by simp) (by simp)
  · exact value_alike _ _ _ _ _ _ (by decide +kernel) (by simp) (by simp)

/-- C50: an integer of 64 bits written by Set at a path of names is what Int gives afterwards, with any options. -/
theorem C50_set_int (opts : Options) (hi : c!"<" ∉ opts.indent) (env : Env) (ho : env.ord.IsPerm) (f : Forest) (h : Editable f) (ns : List Bytes) (n : Bytes) (hn : ∀ m ∈ ns ++ [n], IsName m)
    (hl : ns.length < 100) (hsc : ∀ c e, f = c.plug (El.cons e .nil) → LeadsBy opts.caseSensitive (firsts (ns ++ [n])) c e.name → e.body ≠ none)
    (i : Int) (h1 : -(2 ^ 63) ≤ i) (h2 : i < 2 ^ 63) :
    ∃ r, setWithOptions env.ord f.render (pathOf (ns ++ [n])) (.int i) (some opts) = .ret (r, none) ∧
      (r.length ≤ 10485760 → ∃ a, getWithOptions env r (pathOf (ns ++ [n])) (some opts) = .ret a ∧ a.exists? = true ∧ a.toInt = i) := by
  have hd := intDec_dull i
  obtain ⟨r, g1, g2⟩ := C49_set_get opts hi env ho f h ns n hn hl hsc (intDec i) (by rw [dull_escape hd]; have := intDec_length i h1 h2; omega)
  refine ⟨r, ?_, fun hr => ?_⟩
  · rw [← g1]
    exact value_alike _ _ _ _ _ _ (by simp only [valueToXML, dull_escape hd]) (by simp) (by simp)
  · obtain ⟨a, a1, a2, a3⟩ := g2 hr
    refine ⟨a, a1, ?_, ?_⟩
    · obtain ⟨t, raw, s, n, l⟩ := a
      simp only [Result.typ] at a2; subst a2; rfl
    · rw [dull_trim hd, str_of_element a2] at a3
      rw [(C37_int a (.inr (.inl a2))).1 i (by rw [a3]; exact intDec_decimal i), if_pos ⟨h1, h2⟩]

/-- C50: a boolean written by Set at a path of names is what Bool gives afterwards, with any options. -/
theorem C50_set_bool (opts : Options) (hi : c!"<" ∉ opts.indent) (env : Env) (ho : env.ord.IsPerm) (f : Forest) (h : Editable f) (ns : List Bytes) (n : Bytes) (hn : ∀ m ∈ ns ++ [n], IsName m)
    (hl : ns.length < 100) (hsc : ∀ c e, f = c.plug (El.cons e .nil) → LeadsBy opts.caseSensitive (firsts (ns ++ [n])) c e.name → e.body ≠ none) (b : Bool) :
    ∃ r, setWithOptions env.ord f.render (pathOf (ns ++ [n])) (.bool b) (some opts) = .ret (r, none) ∧
      (r.length ≤ 10485760 → ∃ a, getWithOptions env r (pathOf (ns ++ [n])) (some opts) = .ret a ∧ a.exists? = true ∧ a.toBool = b) := by
  have key : ∀ w, Dull w → w.length ≤ 5 → valueToXML (.bool b) = some w → (b = true ↔ w = b!"true") → (w = b!"true" ∨ w = b!"false") →
      ∃ r, setWithOptions env.ord f.render (pathOf (ns ++ [n])) (.bool b) (some opts) = .ret (r, none) ∧
      (r.length ≤ 10485760 → ∃ a, getWithOptions env r (pathOf (ns ++ [n])) (some opts) = .ret a ∧ a.exists? = true ∧ a.toBool = b) := by
    intro w hd hw hx hb hor
    obtain ⟨r, g1, g2⟩ := C49_set_get opts hi env ho f h ns n hn hl hsc w (by rw [dull_escape hd]; omega)
    refine ⟨r, ?_, fun hr => ?_⟩
    · rw [← g1]
      exact value_alike _ _ _ _ _ _ (by rw [hx]; simp only [valueToXML, dull_escape hd]) (by simp) (by simp)
    · obtain ⟨a, a1, a2, a3⟩ := g2 hr
      refine ⟨a, a1, ?_, ?_⟩
      · obtain ⟨t, raw, s, n, l⟩ := a
        simp only [Result.typ] at a2; subst a2; rfl
      · rw [dull_trim hd, str_of_element a2] at a3
        rw [Bool.eq_iff_iff, C37_bool a (.inr (.inl a2)), hb, a3]
        rcases hor with rfl | rfl <;> decide
  cases b with
  | true => exact key b!"true" (by decide) (by decide) rfl (by decide) (by decide)
  | false => exact key b!"false" (by decide) (by decide) rfl (by decide) (by decide)

/-- C50: the same for an integer written to an attribute of an existing element. -/
theorem C50_attr_int (env : Env) (ho : env.ord.IsPerm) (ns : List Bytes) (n : Bytes) (hn : ∀ m ∈ ns ++ [n], PlainName m) (hl : ns.length < 99)
    (c : Ctx) (e : El) (hL : Leads (firsts (ns ++ [n])) c e.name) (h : Editable (c.plug (e.cons .nil))) (k : Bytes) (hk : IsName k)
    (hcount : attrVal e.attrs k ≠ none ∨ e.attrs.length < 100) (i : Int) (h1 : -(2 ^ 63) ≤ i) (h2 : i < 2 ^ 63) :
    ∃ r, set env.ord (c.plug (e.cons .nil)).render (pathOf (ns ++ [n] ++ [c!"@" :: k])) (.int i) = .ret (r, none) ∧ (r.length ≤ 10485760 →
      ∃ a, get env r (pathOf (ns ++ [n] ++ [c!"@" :: k])) = .ret a ∧ a.exists? = true ∧ a.toInt = i) := by
  have hd := intDec_dull i
  obtain ⟨r, g1, g2⟩ := C29_set_get env ho ns n hn hl c e hL h k hk (intDec i) (by rw [dull_escape hd]; have := intDec_length i h1 h2; omega) hcount
  refine ⟨r, ?_, fun hr => ⟨_, (g2 hr).2.1, rfl, ?_⟩⟩
  · rw [← g1]
    exact value_alike _ _ _ _ _ _ (by simp only [valueToXML, dull_escape hd]) (by simp) (by simp)
  · rw [(C37_int (.ofAttr (intDec i)) (.inr (.inr rfl))).1 i (intDec_decimal i), if_pos ⟨h1, h2⟩]

example : set exEnv.ord b!"<r><n>x</n></r>" b!"r.n" (.int (-42)) = .ret (b!"<r><n>-42</n></r>", none) ∧
    (∃ a, get exEnv b!"<r><n>-42</n></r>" b!"r.n" = .ret a ∧ a.toInt = -42 ∧ a.toBool = false) ∧
    set exEnv.ord b!"<r/>" b!"r.@k" (.bool true) = .ret (b!"<r k=\"true\"/>", none) := by
  refine ⟨by decide +kernel, ⟨.mk .element b!"-42" b!"-42" (.fin 0) [], by decide +kernel⟩, by decide +kernel⟩

/-- C50: Int of 1 and Bool of true are not exchangeable: the boolean true has Int 0. -/
theorem C50_no_mix : (Result.ofAttr b!"true").toInt = 0 ∧ (Result.ofAttr b!"true").toBool = true ∧ (Result.ofAttr b!"1").toBool = true ∧ (Result.ofAttr b!"2").toBool = false := by
  decide +kernel

end Verif.Props
