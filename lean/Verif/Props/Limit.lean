import Verif.Lemmas.Limit
import Verif.Props.Query
/- C45: how many results a query can have. -/
namespace Verif.Props
open Spec

/-- C45: on any document, a query whose path has no modifiers has at most 1000 to the power of the number of its multiplying parts
(`*`, `**`, `#`, `#(...)#`) as many results; none of them is itself a list, and none is missing. -/
theorem C45_bound (env : Env) (xml : Bytes) (parts : List Bytes) (hb : ∀ p ∈ parts, c!"|" ∉ p) (r : Result)
    (h : get env xml (pathOf parts) = .ret r) : r.array.length ≤ 1000 ^ parts.countP multiPart ∧ ∀ x ∈ r.array, x.isArray = false ∧ x.exists? = true := by
  have hnull : Inv (1000 ^ parts.countP multiPart) .null := inv_single null_typ (pow_pos' _)
  suffices hi : Inv (1000 ^ parts.countP multiPart) r from ⟨hi.1, fun x hx => by simpa [Result.isArray, Result.exists?, Single] using hi.2.1 x hx⟩
  unfold get at h
  split at h
  · simp only [Outcome.ret.injEq] at h; subst h; exact hnull
  · cases hp : parsePath (pathOf parts) with
    | panic => rw [hp] at h; simp at h
    | err => rw [hp] at h; simp only [Outcome.ret.injEq] at h; subst h; exact hnull
    | ok ss =>
      have h1 := (parsePath_forms hb hp).1
      have h2 := parsePath_mult hb hp
      rw [hp] at h
      cases ss with
      | nil => simp only [Outcome.ret.injEq] at h; subst h; exact hnull
      | cons s ss =>
        simp only [Outcome.ret.injEq, executeQuery] at h
        subst h
        exact (execQ_inv (s :: ss) h1 true xml).mono (Nat.pow_le_pow_right (by omega) h2)

/-- C45: with one such part there are at most 1000 results; with none, at most one. -/
theorem C45_single (env : Env) (xml : Bytes) (parts : List Bytes) (hb : ∀ p ∈ parts, c!"|" ∉ p) (r : Result)
    (h : get env xml (pathOf parts) = .ret r) : (parts.countP multiPart ≤ 1 → r.array.length ≤ 1000) ∧ (parts.countP multiPart = 0 → r.array.length ≤ 1) := by
  have := (C45_bound env xml parts hb r h).1
  refine ⟨fun hc => Nat.le_trans this (Nat.le_trans (Nat.pow_le_pow_right (by omega) hc) (by omega)), fun hc => ?_⟩
  rw [hc] at this; exact this

example : ∃ r, get exEnv exDoc.render (pathOf [b!"r", b!"*"]) = .ret r ∧ r.array.length ≤ 1000 := by
  obtain ⟨r, h⟩ : ∃ r, get exEnv exDoc.render (pathOf [b!"r", b!"*"]) = .ret r := by
    cases h : get exEnv exDoc.render (pathOf [b!"r", b!"*"]) with
    | ret r => exact ⟨r, rfl⟩
    | panic => exact absurd h (by decide +kernel)
  exact ⟨r, h, (C45_single exEnv _ _ (by decide) r h).1 (by decide)⟩

/-- `n` times the same text. -/
def times (n : Nat) (s : Bytes) : Bytes := (List.replicate n s).flatten

/-- Number of results of a query. -/
def howMany : Outcome Result → Nat
  | .ret r => r.array.length
  | .panic => 0

/-- C45: the limit is reached: the last of 1001 elements is not among the results. -/
theorem C45_reached : howMany (get exEnv (times 1001 b!"<a/>") b!"*") = 1000 := by
  decide +kernel

/-- C45: two wildcards can give more than 1000 results. -/
theorem C45_two : howMany (get exEnv (times 32 (b!"<a>" ++ times 32 b!"<b/>" ++ b!"</a>")) b!"*.*") = 1024 := by
  decide +kernel

end Verif.Props
