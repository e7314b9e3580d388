import Verif.Model.Parser
import Verif.Spec.Escape
/- Lemmas about escapeXML and unescapeXML. -/
namespace Verif

theorem escapeXML_append (s t : Bytes) : escapeXML (s ++ t) = escapeXML s ++ escapeXML t := by
  induction s with
  | nil => rfl
  | cons c cs ih => simp [escapeXML, ih]

theorem unescapeXML_nil : unescapeXML [] = [] := by rw [unescapeXML]

theorem unescapeXML_cons_ne {c : UInt8} (h : c ≠ c!"&") (s : Bytes) :
    unescapeXML (c :: s) = c :: unescapeXML s := by
  rw [unescapeXML]; simp [h]

theorem unescapeXML_lt (s : Bytes) : unescapeXML (b!"&lt;" ++ s) = c!"<" :: unescapeXML s := by
  rw [List.cons_append, unescapeXML]; simp [List.isPrefixOf]
theorem unescapeXML_gt (s : Bytes) : unescapeXML (b!"&gt;" ++ s) = c!">" :: unescapeXML s := by
  rw [List.cons_append, unescapeXML]; simp [List.isPrefixOf]
theorem unescapeXML_amp (s : Bytes) : unescapeXML (b!"&amp;" ++ s) = c!"&" :: unescapeXML s := by
  rw [List.cons_append, unescapeXML]; simp [List.isPrefixOf]
theorem unescapeXML_quot (s : Bytes) : unescapeXML (b!"&quot;" ++ s) = c!"\"" :: unescapeXML s := by
  rw [List.cons_append, unescapeXML]; simp [List.isPrefixOf]
theorem unescapeXML_apos (s : Bytes) : unescapeXML (b!"&apos;" ++ s) = c!"'" :: unescapeXML s := by
  rw [List.cons_append, unescapeXML]; simp [List.isPrefixOf]

theorem unescapeXML_bare (s : Bytes) (h : ∀ e ∈ Spec.entities, ¬ e <+: s) :
    unescapeXML (c!"&" :: s) = c!"&" :: unescapeXML s := by
  rw [unescapeXML]
  simp only [Spec.entities, List.mem_cons, List.not_mem_nil, or_false, forall_eq_or_imp, forall_eq,
    ← List.isPrefixOf_iff_prefix] at h
  obtain ⟨h1, h2, h3, h4, h5⟩ := h
  simp [h1, h2, h3, h4, h5]

theorem unescapeXML_escByte (c : UInt8) (t : Bytes) :
    unescapeXML (escByte c ++ t) = c :: unescapeXML t := by
  unfold escByte
  split
  · rename_i h; subst h; exact unescapeXML_amp t
  split
  · rename_i h; subst h; exact unescapeXML_lt t
  split
  · rename_i h; subst h; exact unescapeXML_gt t
  split
  · rename_i h; subst h; exact unescapeXML_quot t
  split
  · rename_i h; subst h; exact unescapeXML_apos t
  · rename_i h _ _ _ _; exact unescapeXML_cons_ne h t

theorem unescape_escape_append (s t : Bytes) :
    unescapeXML (escapeXML s ++ t) = s ++ unescapeXML t := by
  induction s with
  | nil => simp [escapeXML]
  | cons c cs ih => simp only [escapeXML, List.append_assoc, unescapeXML_escByte, ih, List.cons_append]

theorem unescape_escape (s : Bytes) : unescapeXML (escapeXML s) = s := by
  have := unescape_escape_append s []
  simpa [unescapeXML_nil] using this

theorem decodes_unescape (s : Bytes) : Spec.Decodes s (unescapeXML s) := by
  fun_induction unescapeXML s with
  | case1 => exact .nil
  | case2 =>
    rename_i cs h ih
    obtain ⟨u, rfl⟩ := List.isPrefixOf_iff_prefix.mp h
    exact .lt (by simpa using ih)
  | case3 =>
    rename_i cs _ h ih
    obtain ⟨u, rfl⟩ := List.isPrefixOf_iff_prefix.mp h
    exact .gt (by simpa using ih)
  | case4 =>
    rename_i cs _ _ h ih
    obtain ⟨u, rfl⟩ := List.isPrefixOf_iff_prefix.mp h
    exact .quot (by simpa using ih)
  | case5 =>
    rename_i cs _ _ _ h ih
    obtain ⟨u, rfl⟩ := List.isPrefixOf_iff_prefix.mp h
    exact .apos (by simpa using ih)
  | case6 =>
    rename_i cs _ _ _ _ h ih
    obtain ⟨u, rfl⟩ := List.isPrefixOf_iff_prefix.mp h
    exact .amp (by simpa using ih)
  | case7 =>
    rename_i cs h1 h2 h3 h4 h5 ih
    refine .bareAmp ?_ ih
    simp only [Spec.entities, List.mem_cons, List.not_mem_nil, or_false, forall_eq_or_imp, forall_eq,
      ← List.isPrefixOf_iff_prefix]
    exact ⟨h1, h2, h5, h3, h4⟩
  | case8 => rename_i h ih; exact .char _ h ih

theorem unescape_of_decodes {s t : Bytes} (h : Spec.Decodes s t) : unescapeXML s = t := by
  induction h with
  | nil => exact unescapeXML_nil
  | lt _ ih => rw [unescapeXML_lt, ih]
  | gt _ ih => rw [unescapeXML_gt, ih]
  | amp _ ih => rw [unescapeXML_amp, ih]
  | quot _ ih => rw [unescapeXML_quot, ih]
  | apos _ ih => rw [unescapeXML_apos, ih]
  | char c hc _ ih => rw [unescapeXML_cons_ne hc, ih]
  | bareAmp h _ ih => rw [unescapeXML_bare _ h, ih]

theorem escByte_mem {c d : UInt8} (h : d ∈ escByte c) :
    d ≠ c!"<" ∧ d ≠ c!">" ∧ d ≠ c!"\"" ∧ d ≠ c!"'" := by
  unfold escByte at h
  repeat' split at h
  all_goals simp only [List.mem_cons, List.not_mem_nil, or_false] at h
  all_goals first
    | (rcases h with h | h | h | h | h | h <;> subst h <;> decide)
    | (rcases h with h | h | h | h | h <;> subst h <;> decide)
    | (rcases h with h | h | h | h <;> subst h <;> decide)
    | (subst h; refine ⟨?_, ?_, ?_, ?_⟩ <;> assumption)

theorem escapeXML_mem {s : Bytes} {d : UInt8} (h : d ∈ escapeXML s) :
    d ≠ c!"<" ∧ d ≠ c!">" ∧ d ≠ c!"\"" ∧ d ≠ c!"'" := by
  induction s with
  | nil => simp [escapeXML] at h
  | cons c cs ih =>
    simp only [escapeXML, List.mem_append] at h
    rcases h with h | h
    · exact escByte_mem h
    · exact ih h

/-- A byte list starts at each `&` one of the entities. -/
theorem escapeXML_amp (s pre suf : Bytes) (h : escapeXML s = pre ++ c!"&" :: suf) :
    ∃ e ∈ Spec.entities, e <+: suf := by
  induction s generalizing pre with
  | nil => simp [escapeXML] at h
  | cons c cs ih =>
    simp only [escapeXML] at h
    rw [List.append_eq_append_iff] at h
    rcases h with ⟨l, h1, h2⟩ | ⟨l, h1, h2⟩
    · exact ih l h2
    · have key : ∀ l, escByte c = pre ++ l → l ≠ [] → l.head? = some c!"&" → pre = [] ∧
          (∃ e ∈ Spec.entities, l = c!"&" :: e) := by
        intro l hl hne hhd
        unfold escByte at hl
        repeat' split at hl
        all_goals
          rcases pre with _ | ⟨p0, pre⟩
          · subst hl; simp_all [Spec.entities]
          · exfalso
            simp only [List.cons_append, List.cons.injEq] at hl
            obtain ⟨-, hl⟩ := hl
            have : c!"&" ∈ pre ++ l := by
              cases l with
              | nil => simp at hne
              | cons x l => simp at hhd; subst hhd; simp
            rw [← hl] at this
            revert this
            decide
      cases l with
      | nil => exact ih [] (by simpa using h2.symm)
      | cons x l =>
        simp only [List.cons_append, List.cons.injEq] at h2
        obtain ⟨rfl, rfl⟩ := h2
        obtain ⟨-, e, he, hl⟩ := key _ h1 (by simp) rfl
        simp only [List.cons.injEq, true_and] at hl
        exact ⟨e, he, by rw [hl]; exact List.prefix_append _ _⟩

end Verif
