import Verif.Model.Path
/- Model of the path cache, /repo/path.go:15-27 and 124-158, as a transition system over any number
of goroutines. Slices live in a heap so that sharing and later writes by the callers are visible.
Each step is one that no other goroutine can split (a critical section under the mutex, a copy
into memory the goroutine owns, or a write by the caller into a slice it received). Segments are
values; the `Filter` pointers and `Modifiers` slices they share are never written by the code. -/
namespace Verif

/-- path.go:27 pathCacheLimit -/
def pathCacheLimit : Nat := 256

/-- Where a goroutine is in parsePath (path.go:124-158). -/
inductive PC where
  | idle                                   -- not inside parsePath
  | looked (path : Bytes)                  -- after RLock/RUnlock with a miss (138)
  | hit (path : Bytes) (addr : Nat)        -- after RUnlock with a hit (132), before the copy
  | parsed (path : Bytes) (addr : Nat)     -- after parsePathInternal (141), before Lock
deriving DecidableEq

/-- One completed call: who, which path, and the outcome at the moment of return (`err` = nil). -/
structure CallRet where
  who : Nat
  path : Bytes
  ret : Parse (List Seg)

/-- The shared state. `owned a = some g`: the slice at `a` was handed to goroutine `g`. -/
structure CState where
  heap : Nat → List Seg
  next : Nat
  cache : List (Bytes × Nat)
  owned : Nat → Option Nat
  pc : Nat → PC
  log : List CallRet

/-- Map lookup `pathCache[path]` -/
def cacheGet (p : Bytes) : List (Bytes × Nat) → Option Nat
  | [] => none
  | (k, a) :: r => if k = p then some a else cacheGet p r

/-- Map assignment `pathCache[path] = a` -/
def cacheSet (p : Bytes) (a : Nat) : List (Bytes × Nat) → List (Bytes × Nat)
  | [] => [(p, a)]
  | (k, b) :: r => if k = p then (p, a) :: r else (k, b) :: cacheSet p a r

/-- Function update. -/
def upd {β : Type} (f : Nat → β) (i : Nat) (b : β) : Nat → β := fun j => if j = i then b else f j

/-- Steps of the system. A panic in parsePathInternal unwinds the goroutine (no lock is held at 141). -/
inductive CStep : CState → CState → Prop
  /-- path.go:125-127: empty path. -/
  | empty (s : CState) (g : Nat) (h : s.pc g = .idle) :
      CStep s { s with log := ⟨g, [], .err⟩ :: s.log }
  /-- path.go:130-132: read lock, hit, unlock. -/
  | lookupHit (s : CState) (g : Nat) (p : Bytes) (a : Nat) (h : s.pc g = .idle) (hp : p ≠ [])
      (hc : cacheGet p s.cache = some a) :
      CStep s { s with pc := upd s.pc g (.hit p a) }
  /-- path.go:130,138: read lock, miss, unlock. -/
  | lookupMiss (s : CState) (g : Nat) (p : Bytes) (h : s.pc g = .idle) (hp : p ≠ [])
      (hc : cacheGet p s.cache = none) :
      CStep s { s with pc := upd s.pc g (.looked p) }
  /-- path.go:134-136: copy into a fresh slice and return it. -/
  | copyOut (s : CState) (g : Nat) (p : Bytes) (a : Nat) (h : s.pc g = .hit p a) :
      CStep s { s with heap := upd s.heap s.next (s.heap a), next := s.next + 1,
                       owned := upd s.owned s.next (some g), pc := upd s.pc g .idle,
                       log := ⟨g, p, .ok (s.heap a)⟩ :: s.log }
  /-- path.go:141: parse; the slice belongs to the goroutine. -/
  | parse (s : CState) (g : Nat) (p : Bytes) (ss : List Seg) (h : s.pc g = .looked p)
      (hp : parsePathInternal p = .ok ss) :
      CStep s { s with heap := upd s.heap s.next ss, next := s.next + 1,
                       owned := upd s.owned s.next (some g), pc := upd s.pc g (.parsed p s.next) }
  /-- path.go:141,144,157: parsing gives nil. -/
  | parseNil (s : CState) (g : Nat) (p : Bytes) (h : s.pc g = .looked p)
      (hp : parsePathInternal p = .err) :
      CStep s { s with pc := upd s.pc g .idle, log := ⟨g, p, .err⟩ :: s.log }
  /-- path.go:141: a panic. -/
  | parsePanic (s : CState) (g : Nat) (p : Bytes) (h : s.pc g = .looked p)
      (hp : parsePathInternal p = .panic) :
      CStep s { s with pc := upd s.pc g .idle, log := ⟨g, p, .panic⟩ :: s.log }
  /-- path.go:145-157: write lock, clear a full cache, store a copy, unlock, return the original. -/
  | store (s : CState) (g : Nat) (p : Bytes) (a : Nat) (h : s.pc g = .parsed p a) :
      CStep s { s with heap := upd s.heap s.next (s.heap a), next := s.next + 1,
                       cache := cacheSet p s.next (if s.cache.length ≥ pathCacheLimit then [] else s.cache),
                       pc := upd s.pc g .idle, log := ⟨g, p, .ok (s.heap a)⟩ :: s.log }
  /-- A caller writes into a slice it received (e.g. get.go:901-909 lower-cases in place). -/
  | callerWrite (s : CState) (g a : Nat) (ss : List Seg) (ho : s.owned a = some g) (h : s.pc g = .idle) :
      CStep s { s with heap := upd s.heap a ss }

/-- Program start: empty cache (path.go:24), nobody inside. -/
def CState.init : CState := ⟨fun _ => [], 0, [], fun _ => none, fun _ => .idle, []⟩

/-- States reachable by any interleaving. -/
inductive CReach : CState → Prop
  | start : CReach .init
  | step {s t : CState} (hs : CReach s) (h : CStep s t) : CReach t

end Verif
