import Verif.Model.Cache
/- Invariant of the path cache transition system. -/
namespace Verif

theorem cacheGet_mem {p : Bytes} {c : List (Bytes × Nat)} {a : Nat} (h : cacheGet p c = some a) : (p, a) ∈ c := by
  induction c with
  | nil => simp [cacheGet] at h
  | cons x r ih =>
    obtain ⟨k, b⟩ := x
    simp only [cacheGet] at h
    split at h
    · rename_i hk; simp only [Option.some.injEq] at h; subst hk h; exact List.mem_cons_self
    · exact List.mem_cons_of_mem _ (ih h)

theorem cacheSet_mem {p : Bytes} {a : Nat} {c : List (Bytes × Nat)} {q : Bytes} {b : Nat}
    (h : (q, b) ∈ cacheSet p a c) : (q = p ∧ b = a) ∨ (q, b) ∈ c := by
  induction c with
  | nil => simp [cacheSet] at h; exact .inl h
  | cons x r ih =>
    obtain ⟨k, d⟩ := x
    simp only [cacheSet] at h
    split at h
    · rcases List.mem_cons.mp h with h | h
      · simp at h; exact .inl h
      · exact .inr (List.mem_cons_of_mem _ h)
    · rcases List.mem_cons.mp h with h | h
      · rw [h]; exact .inr List.mem_cons_self
      · rcases ih h with h | h
        · exact .inl h
        · exact .inr (List.mem_cons_of_mem _ h)

theorem cacheSet_length (p : Bytes) (a : Nat) (c : List (Bytes × Nat)) : (cacheSet p a c).length ≤ c.length + 1 := by
  induction c with
  | nil => simp [cacheSet]
  | cons x r ih =>
    obtain ⟨k, d⟩ := x
    simp only [cacheSet]; split <;> simp only [List.length_cons] <;> omega

/-- What holds of a goroutine's position. -/
def PCOk (s : CState) (g : Nat) : PC → Prop
  | .idle => True
  | .looked p => p ≠ []
  | .hit p a => p ≠ [] ∧ a < s.next ∧ s.owned a = none ∧ parsePathInternal p = .ok (s.heap a)
  | .parsed p a => p ≠ [] ∧ a < s.next ∧ s.owned a = some g ∧ parsePathInternal p = .ok (s.heap a)

/-- The invariant. -/
structure CInv (s : CState) : Prop where
  cache : ∀ p a, (p, a) ∈ s.cache → p ≠ [] ∧ a < s.next ∧ s.owned a = none ∧ parsePathInternal p = .ok (s.heap a)
  pcs : ∀ g, PCOk s g (s.pc g)
  log : ∀ e ∈ s.log, e.ret = parsePath e.path
  size : s.cache.length ≤ pathCacheLimit
  fresh : ∀ a, s.next ≤ a → s.owned a = none

theorem parsePath_ne {p : Bytes} (h : p ≠ []) : parsePath p = parsePathInternal p := by
  unfold parsePath; rw [if_neg (by simpa using h)]

/-- Changing the heap at an address nobody but idle owners know, and the position of one goroutine. -/
theorem PCOk.mono {s t : CState} {g : Nat} {q : PC} (h : PCOk s g q) (hn : s.next ≤ t.next)
    (hh : ∀ a, a < s.next → s.owned a = none → t.heap a = s.heap a ∧ t.owned a = none)
    (hg : ∀ p a, q = .parsed p a → s.owned a = some g → a < s.next → t.heap a = s.heap a ∧ t.owned a = some g) :
    PCOk t g q := by
  cases q with
  | idle => trivial
  | looked p => exact h
  | hit p a =>
    obtain ⟨h1, h2, h3, h4⟩ := h
    obtain ⟨e1, e2⟩ := hh a h2 h3
    exact ⟨h1, by omega, e2, by rw [e1]; exact h4⟩
  | parsed p a =>
    obtain ⟨h1, h2, h3, h4⟩ := h
    obtain ⟨e1, e2⟩ := hg p a rfl h3 h2
    exact ⟨h1, by omega, e2, by rw [e1]; exact h4⟩

theorem CInv.step {s t : CState} (hi : CInv s) (h : CStep s t) : CInv t := by
  cases h with
  | empty g h =>
    refine ⟨hi.cache, fun g' => (hi.pcs g').mono (Nat.le_refl _) (fun a _ h => ⟨rfl, h⟩) (fun _ a _ h _ => ⟨rfl, h⟩), ?_, hi.size, hi.fresh⟩
    intro e he
    rcases List.mem_cons.mp he with rfl | he
    · rfl
    · exact hi.log e he
  | lookupHit g p a h hp hc =>
    refine ⟨hi.cache, ?_, hi.log, hi.size, hi.fresh⟩
    intro g'
    by_cases hg : g' = g
    · subst hg
      have := hi.cache p a (cacheGet_mem hc)
      simpa [upd, PCOk] using this
    · simp only [upd, hg, if_false]
      exact (hi.pcs g').mono (Nat.le_refl _) (fun a _ h => ⟨rfl, h⟩) (fun _ a _ h _ => ⟨rfl, h⟩)
  | lookupMiss g p h hp hc =>
    refine ⟨hi.cache, ?_, hi.log, hi.size, hi.fresh⟩
    intro g'
    by_cases hg : g' = g
    · subst hg; simpa [upd, PCOk] using hp
    · simp only [upd, hg, if_false]
      exact (hi.pcs g').mono (Nat.le_refl _) (fun a _ h => ⟨rfl, h⟩) (fun _ a _ h _ => ⟨rfl, h⟩)
  | copyOut g p a h =>
    have hpc := hi.pcs g
    rw [h] at hpc
    obtain ⟨h1, h2, h3, h4⟩ := hpc
    refine ⟨?_, ?_, ?_, hi.size, ?_⟩
    · intro q b hb
      obtain ⟨c1, c2, c3, c4⟩ := hi.cache q b hb
      have hne : b ≠ s.next := by omega
      refine ⟨c1, ?_, ?_, ?_⟩
      · show b < s.next + 1; omega
      · simp [upd, hne, c3]
      · simp [upd, hne, c4]
    · intro g'
      by_cases hg : g' = g
      · subst hg; simp [upd, PCOk]
      · simp only [upd, hg, if_false]
        refine (hi.pcs g').mono (Nat.le_succ _) ?_ ?_
        · intro b hb ho
          have : b ≠ s.next := by omega
          simp [upd, this, ho]
        · intro q b _ ho hb
          have : b ≠ s.next := by omega
          simp [upd, this, ho]
    · intro e he
      rcases List.mem_cons.mp he with rfl | he
      · show Parse.ok (s.heap a) = parsePath p
        rw [parsePath_ne h1, h4]
      · exact hi.log e he
    · intro b hb
      have hb' : s.next + 1 ≤ b := hb
      have hne : b ≠ s.next := by omega
      have := hi.fresh b (by omega)
      simp [upd, hne, this]
  | parse g p ss h hp =>
    have hpc := hi.pcs g
    rw [h] at hpc
    refine ⟨?_, ?_, hi.log, hi.size, ?_⟩
    · intro q b hb
      obtain ⟨c1, c2, c3, c4⟩ := hi.cache q b hb
      have hne : b ≠ s.next := by omega
      refine ⟨c1, ?_, ?_, ?_⟩
      · show b < s.next + 1; omega
      · simp [upd, hne, c3]
      · simp [upd, hne, c4]
    · intro g'
      by_cases hg : g' = g
      · subst hg
        have h1 : p ≠ [] := hpc
        simp [upd, PCOk, hp, h1]
      · simp only [upd, hg, if_false]
        refine (hi.pcs g').mono (Nat.le_succ _) ?_ ?_
        · intro b hb ho
          have : b ≠ s.next := by omega
          simp [upd, this, ho]
        · intro q b _ ho hb
          have : b ≠ s.next := by omega
          simp [upd, this, ho]
    · intro b hb
      have hb' : s.next + 1 ≤ b := hb
      have hne : b ≠ s.next := by omega
      have := hi.fresh b (by omega)
      simp [upd, hne, this]
  | parseNil g p h hp =>
    have hpc := hi.pcs g
    rw [h] at hpc
    refine ⟨hi.cache, ?_, ?_, hi.size, hi.fresh⟩
    · intro g'
      by_cases hg : g' = g
      · subst hg; simp [upd, PCOk]
      · simp only [upd, hg, if_false]
        exact (hi.pcs g').mono (Nat.le_refl _) (fun a _ h => ⟨rfl, h⟩) (fun _ a _ h _ => ⟨rfl, h⟩)
    · intro e he
      rcases List.mem_cons.mp he with rfl | he
      · show Parse.err = parsePath p
        rw [parsePath_ne hpc, hp]
      · exact hi.log e he
  | parsePanic g p h hp =>
    have hpc := hi.pcs g
    rw [h] at hpc
    refine ⟨hi.cache, ?_, ?_, hi.size, hi.fresh⟩
    · intro g'
      by_cases hg : g' = g
      · subst hg; simp [upd, PCOk]
      · simp only [upd, hg, if_false]
        exact (hi.pcs g').mono (Nat.le_refl _) (fun a _ h => ⟨rfl, h⟩) (fun _ a _ h _ => ⟨rfl, h⟩)
    · intro e he
      rcases List.mem_cons.mp he with rfl | he
      · show Parse.panic = parsePath p
        rw [parsePath_ne hpc, hp]
      · exact hi.log e he
  | store g p a h =>
    have hpc := hi.pcs g
    rw [h] at hpc
    obtain ⟨h1, h2, h3, h4⟩ := hpc
    refine ⟨?_, ?_, ?_, ?_, ?_⟩
    · intro q b hb
      rcases cacheSet_mem hb with ⟨rfl, rfl⟩ | hb
      · refine ⟨h1, Nat.lt_succ_self _, hi.fresh _ (Nat.le_refl _), ?_⟩
        simp [upd, h4]
      · have hb : (q, b) ∈ s.cache := by
          split at hb
          · simp at hb
          · exact hb
        obtain ⟨c1, c2, c3, c4⟩ := hi.cache q b hb
        have hne : b ≠ s.next := by omega
        refine ⟨c1, ?_, c3, ?_⟩
        · show b < s.next + 1; omega
        · simp [upd, hne, c4]
    · intro g'
      by_cases hg : g' = g
      · subst hg; simp [upd, PCOk]
      · simp only [upd, hg, if_false]
        refine (hi.pcs g').mono (Nat.le_succ _) ?_ ?_
        · intro b hb ho
          have : b ≠ s.next := by omega
          simp [upd, this, ho]
        · intro q b _ ho hb
          have : b ≠ s.next := by omega
          simp [upd, this, ho]
    · intro e he
      rcases List.mem_cons.mp he with rfl | he
      · show Parse.ok (s.heap a) = parsePath p
        rw [parsePath_ne h1, h4]
      · exact hi.log e he
    · have hl : pathCacheLimit = 256 := rfl
      have := hi.size
      refine Nat.le_trans (cacheSet_length _ _ _) ?_
      split
      · simp only [List.length_nil]; omega
      · omega
    · intro b hb
      have hb' : s.next + 1 ≤ b := hb
      exact hi.fresh b (by omega)
  | callerWrite g a ss ho h =>
    refine ⟨?_, ?_, hi.log, hi.size, hi.fresh⟩
    · intro q b hb
      obtain ⟨c1, c2, c3, c4⟩ := hi.cache q b hb
      have hne : b ≠ a := by rintro rfl; rw [ho] at c3; simp at c3
      exact ⟨c1, c2, c3, by simp [upd, hne, c4]⟩
    · intro g'
      refine (hi.pcs g').mono (Nat.le_refl _) ?_ ?_
      · intro b _ hb
        have hne : b ≠ a := by rintro rfl; rw [ho] at hb; simp at hb
        simp [upd, hne, hb]
      · intro p b hq hb _
        have hne : b ≠ a := by
          rintro rfl
          rw [ho] at hb
          simp only [Option.some.injEq] at hb
          subst hb
          rw [h] at hq; simp at hq
        simp [upd, hne, hb]

theorem CReach.inv {s : CState} (h : CReach s) : CInv s := by
  induction h with
  | start => exact ⟨by simp [CState.init], fun g => trivial, by simp [CState.init], by simp [CState.init], fun _ _ => rfl⟩
  | step _ h ih => exact ih.step h

end Verif
