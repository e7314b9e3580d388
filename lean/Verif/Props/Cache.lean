import Verif.Lemmas.Cache
/- C16: the path cache is invisible and bounded, under every interleaving. -/
namespace Verif
namespace Props

/-- C16: in every execution, every call of parsePath returns what parsing from scratch returns. -/
theorem C16_transparent (s : CState) (h : CReach s) : ∀ e ∈ s.log, e.ret = parsePath e.path := h.inv.log

/-- C16: the cache never has more than 256 entries. -/
theorem C16_bounded (s : CState) (h : CReach s) : s.cache.length ≤ 256 := h.inv.size

/-- C16: no slice handed to a caller is (or ever becomes) the one in the cache. -/
theorem C16_not_shared (s : CState) (h : CReach s) (p : Bytes) (a g : Nat) (hc : (p, a) ∈ s.cache) :
    s.owned a ≠ some g := by
  rw [(h.inv.cache p a hc).2.2.1]; simp

/-- C16: a goroutine inside the call always has a step of its own (nothing is waited for). -/
theorem C16_progress (s : CState) (g : Nat) (hg : s.pc g ≠ .idle) :
    ∃ t, CStep s t ∧ t.pc g ≠ s.pc g := by
  cases hp : s.pc g with
  | idle => exact absurd hp hg
  | looked p =>
    cases hq : parsePathInternal p with
    | panic => exact ⟨_, .parsePanic s g p hp hq, by simp [upd]⟩
    | err => exact ⟨_, .parseNil s g p hp hq, by simp [upd]⟩
    | ok ss => exact ⟨_, .parse s g p ss hp hq, by simp [upd]⟩
  | hit p a => exact ⟨_, .copyOut s g p a hp, by simp [upd]⟩
  | parsed p a => exact ⟨_, .store s g p a hp, by simp [upd]⟩

/-- An execution where goroutine 1 lower-cases what it received and goroutine 2 then hits the cache. -/
example : ∃ s, CReach s ∧ s.log.map (fun e => (e.who, e.path)) = [(2, b!"A"), (1, b!"A")] := by
  have hp : parsePathInternal b!"A" = .ok [⟨.elem b!"A", []⟩] := by decide
  have s1 := CReach.start.step (.lookupMiss _ 1 b!"A" rfl (by decide) rfl)
  have s2 := s1.step (.parse _ 1 b!"A" _ (by simp [upd]) hp)
  have s3 := s2.step (.store _ 1 b!"A" 0 (by simp [upd, CState.init]))
  have s4 := s3.step (.callerWrite _ 1 0 [⟨.elem b!"a", []⟩] (by simp [upd, CState.init]) (by simp [upd]))
  have s5 := s4.step (.lookupHit _ 2 b!"A" 1 (by simp [upd, CState.init]) (by decide) (by simp [cacheSet, cacheGet, CState.init, pathCacheLimit]))
  have s6 := s5.step (.copyOut _ 2 b!"A" 1 (by simp [upd]))
  exact ⟨_, s6, rfl⟩

end Props
end Verif
