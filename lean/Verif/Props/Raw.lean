import Verif.Lemmas.RawForest
import Verif.Props.Set
/- Properties of SetRaw: C44. -/
namespace Verif.Props
open Spec

/-! ## C44 SetRaw checks the fragment -/

/-- C44: a sequence of tokens is accepted exactly if it is balanced: no stray, mismatched or missing end tag. -/
theorem C44_tokens (ts : List RawTok) (h : ∀ t ∈ ts, t.Legal) : validateRawXML (rawText ts) = true ↔ Balanced ts := by
  have := rawLoop_tokens h [] []
  rw [List.append_nil] at this
  rw [validateRawXML, this, Balanced]
  cases openAfter [] ts with
  | none => simp
  | some st =>
    simp only [rawLoop, Option.some.injEq]
    simp

example : (∀ t ∈ [RawTok.start b!"a" b!" k=\"1\"", .text b!"x", .empty b!"b" [], .stop b!"a" b!" "], t.Legal) ∧
    rawText [RawTok.start b!"a" b!" k=\"1\"", .text b!"x", .empty b!"b" [], .stop b!"a" b!" "] = b!"<a k=\"1\">x<b/></a >" ∧
    Balanced [RawTok.start b!"a" b!" k=\"1\"", .text b!"x", .empty b!"b" [], .stop b!"a" b!" "] := by
  refine ⟨?_, by decide, by unfold Balanced; decide⟩
  intro t ht
  simp only [List.mem_cons, List.not_mem_nil, or_false] at ht
  rcases ht with rfl | rfl | rfl | rfl
  · refine ⟨⟨by decide, by decide, by decide, by decide⟩, by decide, by decide, by decide⟩
  · show _ ∉ _; decide
  · refine ⟨⟨by decide, by decide, by decide, by decide⟩, by decide, by decide⟩
  · refine ⟨by decide, by decide, by decide⟩
example : ¬ Balanced [RawTok.start b!"a" [], .start b!"b" [], .stop b!"a" [], .stop b!"b" []] := by unfold Balanced; decide

/-- C44: conversely, every accepted fragment is a balanced sequence of tokens; the last end tag may lack its `>`. -/
theorem C44_accepted (raw : Bytes) : validateRawXML raw = true ↔ ∃ ts, (∀ t ∈ ts, t.Legal) ∧ Balanced ts ∧
    (raw = rawText ts ∨ raw ++ b!">" = rawText ts ∧ ∃ ts' n q, ts = ts' ++ [.stop n q]) := by
  constructor
  · exact rawLoop_complete raw.length raw [] (Nat.le_refl _)
  · rintro ⟨ts, h1, h2, rfl | ⟨h3, ts', n, q, rfl⟩⟩
    · exact (C44_tokens ts h1).mpr h2
    · have e : raw = rawText ts' ++ c!"<" :: c!"/" :: (n ++ q) := by
        have : raw ++ b!">" = (rawText ts' ++ c!"<" :: c!"/" :: (n ++ q)) ++ b!">" := by rw [h3]; simp [rawText, RawTok.render]
        exact (List.append_inj' this rfl).1
      obtain ⟨g1, g2, g3⟩ := h1 (.stop n q) (by simp)
      have g4 : ∀ c, q.head? = some c → rawCloseChar c = false := by
        intro c hc
        rcases g3 with rfl | g3
        · simp at hc
        · rw [g3] at hc; cases hc; decide
      rw [validateRawXML, e, rawLoop_tokens (fun t ht => h1 t (by simp [ht])) [] _]
      have h4 : ∀ (st : List Bytes) (l : List RawTok), openAfter st (l ++ [.stop n q]) = (openAfter st l).bind (fun st' => openAfter st' [.stop n q]) := by
        intro st l
        induction l generalizing st with
        | nil => rfl
        | cons t l ih =>
          cases t with
          | stop m p =>
            cases st with
            | nil => rfl
            | cons o st =>
              simp only [List.cons_append, openAfter]
              by_cases ho : o = m
              · rw [if_pos ho, if_pos ho, ih]
              · rw [if_neg ho, if_neg ho]; rfl
          | _ => simp only [List.cons_append, openAfter, ih]
      rw [Balanced, h4] at h2
      cases hs : openAfter [] ts' with
      | none => rw [hs] at h2; simp at h2
      | some st =>
        rw [hs] at h2
        simp only [Option.bind_some] at h2
        simp only
        rw [rawLoop_close g1 g4]
        cases st with
        | nil => simp [openAfter] at h2
        | cons o st =>
          simp only [openAfter] at h2
          by_cases ho : o = n
          · rw [if_pos ho] at h2
            simp only [Option.some.injEq] at h2
            simp only
            rw [if_pos ho, afterGt_none g2, h2, rawLoop]
            rfl
          · rw [if_neg ho] at h2; simp at h2

/-- C44: after any tokens, a DOCTYPE or ENTITY declaration, an unterminated comment, CDATA section or other markup, a CDATA section within
a CDATA section, a lone `<`, an empty tag name and an unterminated start tag are refused, whatever follows. -/
theorem C44_refused (ts : List RawTok) (h : ∀ t ∈ ts, t.Legal) (x : Bytes) :
    validateRawXML (rawText ts ++ (b!"<!DOCTYPE" ++ x)) = false ∧
    validateRawXML (rawText ts ++ (b!"<!ENTITY" ++ x)) = false ∧
    (¬ b!"-->" <:+: b!"<!--" ++ x → validateRawXML (rawText ts ++ (b!"<!--" ++ x)) = false) ∧
    (¬ b!"]]>" <:+: x → validateRawXML (rawText ts ++ (b!"<![CDATA[" ++ x)) = false) ∧
    (∀ y, OnlyAtEnd b!"]]>" (x ++ b!"]]>") → b!"<![CDATA[" <:+: x → validateRawXML (rawText ts ++ (b!"<![CDATA[" ++ x ++ b!"]]>" ++ y)) = false) ∧
    (c!">" ∉ x → validateRawXML (rawText ts ++ (b!"<?" ++ x)) = false) ∧
    validateRawXML (rawText ts ++ b!"<") = false ∧
    validateRawXML (rawText ts ++ (b!"<>" ++ x)) = false ∧
    (∀ n, RawName n → c!">" ∉ x → (x = [] ∨ x.head? = some c!" " ∨ x.head? = some c!"/") → validateRawXML (rawText ts ++ (b!"<" ++ n ++ x)) = false) := by
  have key : ∀ tail, (∀ st, rawLoop st tail = false) → validateRawXML (rawText ts ++ tail) = false := by
    intro tail ht
    rw [validateRawXML, rawLoop_tokens h]
    cases openAfter [] ts with
    | none => rfl
    | some st => exact ht st
  refine ⟨key _ fun st => ?_, key _ fun st => ?_, fun hx => key _ fun st => ?_, fun hx => key _ fun st => ?_, fun y hy hx => key _ fun st => ?_,
    fun hx => key _ fun st => ?_, key _ fun st => ?_, key _ fun st => ?_, fun n hn hx hx2 => key _ fun st => ?_⟩
  · show rawLoop st (c!"<" :: c!"!" :: (b!"DOCTYPE" ++ x)) = false
    rw [rawLoop_lt, if_neg (by decide), if_pos (by decide), if_neg (by simp), if_neg (by simp [List.isPrefixOf]), if_pos (by simp [List.isPrefixOf])]
  · show rawLoop st (c!"<" :: c!"!" :: (b!"ENTITY" ++ x)) = false
    rw [rawLoop_lt, if_neg (by decide), if_pos (by decide), if_neg (by simp), if_neg (by simp [List.isPrefixOf]), if_neg (by simp [List.isPrefixOf]),
      if_pos (by simp [List.isPrefixOf])]
  · have hi := indexOf_none.mpr hx
    show rawLoop st (c!"<" :: c!"!" :: (b!"--" ++ x)) = false
    rw [rawLoop_lt, if_neg (by decide), if_pos (by decide), if_pos (by simp), show c!"<" :: c!"!" :: (b!"--" ++ x) = b!"<!--" ++ x from rfl, hi]
  · have hi := indexOf_none.mpr hx
    show rawLoop st (c!"<" :: c!"!" :: (b!"[CDATA[" ++ x)) = false
    rw [rawLoop_lt, if_neg (by decide), if_pos (by decide), if_neg (by simp), if_pos (by simp [List.isPrefixOf]),
      show (b!"[CDATA[" ++ x).drop 7 = x from rfl, hi]
  · have hi := indexOf_end (by simp) hy y
    have e : b!"<![CDATA[" ++ x ++ b!"]]>" ++ y = c!"<" :: c!"!" :: (b!"[CDATA[" ++ (x ++ b!"]]>" ++ y)) := by simp
    rw [e, rawLoop_lt, if_neg (by decide), if_pos (by decide), if_neg (by simp), if_pos (by simp [List.isPrefixOf]),
      show (b!"[CDATA[" ++ (x ++ b!"]]>" ++ y)).drop 7 = x ++ b!"]]>" ++ y from rfl, hi]
    have e3 : (x ++ b!"]]>").length - b!"]]>".length = x.length := by simp
    simp only [e3]
    have e4 : (x ++ b!"]]>" ++ y).take x.length = x := by simp
    rw [e4, if_pos]
    cases hn : indexOf b!"<![CDATA[" x with
    | none => exact absurd hx (indexOf_none.mp hn)
    | some _ => rfl
  · have hi : indexOf b!">" (c!"<" :: c!"?" :: x) = none := by
      rw [indexOf_none]
      intro hh
      have := hh.subset (a := c!">") (by simp)
      simp [hx] at this
    have hi2 : indexOf b!"-->" (c!"<" :: c!"?" :: x) = none := by
      rw [indexOf_none]
      intro hh
      have := hh.subset (a := c!">") (by simp)
      simp [hx] at this
    show rawLoop st (c!"<" :: c!"?" :: x) = false
    rw [rawLoop_lt, if_neg (by decide), if_pos (by decide), hi, hi2]
    simp only
    split
    · rfl
    · rw [if_neg (by simp [List.isPrefixOf]), if_neg (by simp [List.isPrefixOf]), if_neg (by simp [List.isPrefixOf])]
  · rw [rawLoop.eq_def]; rfl
  · show rawLoop st (c!"<" :: c!">" :: x) = false
    rw [rawLoop_lt, if_neg (by decide), if_neg (by decide), if_pos (by simp [List.takeWhile, rawOpenChar])]
  · show rawLoop st (c!"<" :: (n ++ x)) = false
    rw [rawLoop_open hn, rawTagEnd_none hx]
    · rw [rawLoop.eq_def]; rfl
    · intro c hc
      rcases hx2 with rfl | hx2 | hx2
      · simp at hc
      · rw [hx2] at hc; cases hc; decide
      · rw [hx2] at hc; cases hc; decide

/-- C44: a refused fragment gives an error, and the document is returned unchanged. -/
theorem C44_error (o : Ord) (xml path raw : Bytes) (h : validateRawXML raw = false) : setRaw o xml path raw = .ret (xml, some .invalidValue) := by
  rw [setRaw, h]; rfl

/-- C44: well-formed content is accepted, if the first blank in each tag is a space and attribute values have no `>`. -/
theorem C44_wellformed (f : Forest) (d : Nat) (hl : f.Legal d) (hp : f.RawPlain) : validateRawXML f.render = true := by
  have := rawLoop_forest hl hp [] []
  rw [List.append_nil] at this
  rw [validateRawXML, this, rawLoop]
  rfl

/-- C44: in particular content in the layout in which the library writes. -/
theorem C44_layout (f : Forest) (d : Nat) (hl : f.Legal d) (ht : f.Tame false) (hn : f.Neat) (he : f.NoEntity) : f.RawPlain :=
  neat_rawPlain hl ht hn he

/-- C44: and then the content of the target is that content; the document stays in the class if it is not too long (so it is valid), and the
path leads to an element with that content. -/
theorem C44_set (o : Ord) (ho : o.IsPerm) (ps : List Step) (parts : List Bytes) (hps : StepsText ps parts) (hpl : parts.length ≤ 100)
    (c : Ctx) (e : El) (hL : Leads ps c e.name) (h : Editable (c.plug (e.cons .nil))) (hb : e.body ≠ none)
    (g : Forest) (hg : g.Legal (c.depth + 1)) (hgt : g.Tame false) (hgn : g.Neat) (hge : g.NoEntity) (hw : g.render.length ≤ 5242880) :
    setRaw o (c.plug (e.cons .nil)).render (pathOf parts) g.render = .ret ((c.plug ((e.refill e.attrs e.ws g).cons .nil)).render, none) ∧
    ((c.plug ((e.refill e.attrs e.ws g).cons .nil)).render.length ≤ 10485760 →
      Editable (c.plug ((e.refill e.attrs e.ws g).cons .nil)) ∧ valid (c.plug ((e.refill e.attrs e.ws g).cons .nil)).render = true ∧
      (c.plug ((e.refill e.attrs e.ws g).cons .nil)).info.follow ps = some ⟨e.name, attrVal e.attrs, g.info⟩) := by
  have hv : validateRawXML g.render = true := C44_wellformed g _ hg (neat_rawPlain hg hgt hgn hge)
  have hgood := editable_el h
  constructor
  · rw [setRaw, if_pos hv, set_existing ho hps hpl hL h (by simp) rfl hw]
    congr 2
    rw [plug_el_render]
    obtain ⟨nm, as, ws, body⟩ := e
    rcases body with _ | ⟨k0, cws⟩
    · exact absurd rfl hb
    · have : cws = [] := hgood.stable.1
      subst this
      simp [El.refill, El.start, El.inner, El.stop]
  · intro hsz
    have he := editable_swapEl h (refill_good hgood (opened_kept hb) hg hgt (neatF_even hgn)) hsz
    refine ⟨he, editable_valid he, ?_⟩
    have := leads_follow (e := e.refill e.attrs e.ws g) hL
    rw [this]
    rfl

example : setRaw exEnv.ord b!"<!--x--><r v='1' ><a k=\"&lt;\">x</a> <a><b>y</b></a><c j=\"1\"/></r>" b!"r.a.1" b!"<d k=\"1\">t</d><e/>" =
    .ret (b!"<!--x--><r v='1' ><a k=\"&lt;\">x</a> <a><d k=\"1\">t</d><e/></a><c j=\"1\"/></r>", none) := by decide +kernel

theorem chain_render {x y : Forest} (h : x.render = y.render) (ns : List Bytes) : (chain ns x).render = (chain ns y).render := by
  induction ns with
  | nil => exact h
  | cons n ns ih => simp [chain, Forest.render, ih]

/-- C44: where the target is missing, the elements on the way to it are created and the innermost gets the content. -/
theorem C44_created (o : Ord) (ho : o.IsPerm) (ps : List Step) (parts : List Bytes) (hps : StepsText ps parts) (c : Ctx) (e : El) (hL : Leads ps c e.name)
    (h : Editable (c.plug (e.cons .nil))) (ns : List Bytes) (n : Bytes) (hns : ∀ m ∈ ns ++ [n], IsName m) (hpl : parts.length + (ns ++ [n]).length ≤ 100)
    (hd : c.depth + 1 + (ns ++ [n]).length ≤ 100) (hm : e.kids.info.named ((ns ++ [n]).head (by simp)) = [])
    (g : Forest) (hg : g.Legal (c.depth + 1 + (ns ++ [n]).length)) (hgt : g.Tame false) (hgn : g.Neat) (hge : g.NoEntity) (hw : g.render.length ≤ 5242880) :
    ∃ as ws y, Opened e as ws ∧ y = c.plug ((e.refill as ws (e.kids.append (chain (ns ++ [n]) g))).cons .nil) ∧
      setRaw o (c.plug (e.cons .nil)).render (pathOf (parts ++ (ns ++ [n]))) g.render = .ret (y.render, none) ∧
      (y.render.length ≤ 10485760 → Editable y ∧ valid y.render = true ∧ y.info.follow (ps ++ firsts (ns ++ [n])) = some ⟨n, fun _ => none, g.info⟩) := by
  have hv : validateRawXML g.render = true := C44_wellformed g _ hg (neat_rawPlain hg hgt hgn hge)
  obtain ⟨as, ws, hop, hset⟩ := set_missing ho hps hL h
  obtain ⟨k, ks, hk⟩ : ∃ k ks, ns ++ [n] = k :: ks := by cases ns <;> exact ⟨_, _, rfl⟩
  refine ⟨as, ws, _, hop, rfl, ?_, fun hy => ?_⟩
  · rw [setRaw, if_pos hv]
    have h1 := hset k ks (fun m hm => name_plain (hns m (hk ▸ hm))) (by rw [← hk]; exact hpl) (by simpa [hk] using hm) (.raw g.render) g.render (by simp) rfl hw
    rw [← hk] at h1
    have h2 : (chain (ns ++ [n]) (.text g.render .nil)).render = (chain (ns ++ [n]) g).render := chain_render (by simp [Forest.render]) _
    rw [h1, plug_el_render]
    simp [El.render, El.refill, El.start, El.inner, El.stop, append_render, h2]
  · have hgood := editable_el h
    obtain ⟨k1, k2, k3, k4⟩ := el_kids_good hgood
    obtain ⟨c1, c2, c3⟩ := chain_good (t := false) (by simp) hns hd hg hgt (neatF_even hgn)
    have hE : Editable (c.plug ((e.refill as ws (e.kids.append (chain (ns ++ [n]) g))).cons .nil)) := by
      refine editable_swapEl h (refill_good hgood hop ?_ ?_ ?_) hy
      · rw [append_legal]; exact ⟨k1, c1⟩
      · rw [append_tame]; exact ⟨k2, c2⟩
      · rw [append_even]; exact ⟨k3, c3⟩
    refine ⟨hE, editable_valid hE, ?_⟩
    have e1 : (down c e.name as ws [] (chainCtx e.kids (ns ++ [n]))).plug ((⟨n, [], [], some (g, [])⟩ : El).cons .nil) =
        c.plug ((e.refill as ws (e.kids.append (chain (ns ++ [n]) g))).cons .nil) := by rw [down_plug, chainCtx_plug, El.cons]; rfl
    rw [← e1]
    rw [leads_follow (e := ⟨n, [], [], some (g, [])⟩) (leads_down hL (chainCtx_leads hm))]
    rfl

example : setRaw exEnv.ord b!"<r><a k='1'/></r>" b!"r.a.b.c" b!"<d k=\"1\">t</d><e/>" =
    .ret (b!"<r><a k=\"1\"><b><c><d k=\"1\">t</d><e/></c></b></a></r>", none) := by decide +kernel

/-- C44: the barrier has holes, since a tag is taken to end at the first `>` or `/>`, also within quotes: an unclosed element is accepted,
and the document is broken afterwards. -/
theorem C44_hole_quotes : validateRawXML b!"<a b=\"/>\">" = true ∧
    setRaw exEnv.ord b!"<r><x>1</x></r>" b!"r.x" b!"<a b=\"/>\">" = .ret (b!"<r><x><a b=\"/>\"></x></r>", none) ∧
    valid b!"<r><x><a b=\"/>\"></x></r>" = false := by decide +kernel

/-- C44: an end tag without `>` at the end of the fragment is accepted. -/
theorem C44_hole_end : validateRawXML b!"<a></a" = true ∧
    setRaw exEnv.ord b!"<r><x>1</x></r>" b!"r.x" b!"<a></a" = .ret (b!"<r><x><a></a</x></r>", none) ∧
    valid b!"<r><x><a></a</x></r>" = false := by decide +kernel

/-- C44: the refusal of DOCTYPE and ENTITY is case-sensitive. -/
theorem C44_hole_case : validateRawXML b!"<!doctype a>" = true ∧ validateRawXML b!"<!entity a>" = true ∧ validateRawXML b!"<!DOCTYPE a>" = false := by decide +kernel

/-- C44: content that breaks the line within a start tag is refused, although it is well-formed. -/
theorem C44_refuses_newline : validateRawXML b!"<a\nk=\"1\"></a>" = false ∧ valid b!"<r><a\nk=\"1\"></a></r>" = true := by decide +kernel

end Verif.Props
