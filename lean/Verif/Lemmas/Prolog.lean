import Verif.Lemmas.Top
import Verif.Spec.Prolog
import Verif.Model.GetOpt
/- A query reads a document only through its elements, so markup that the scan for elements skips does not matter. -/
namespace Verif
open Spec

theorem doctypeR_drop {b : Bytes} (h : DoctypeLike b) (d : Int) (r : Bytes) : doctypeR d (b ++ r) = doctypeR d (b.drop 7 ++ r) := by
  rw [doctypeLike_iff] at h
  have key : ∀ (k b : Bytes) (_ : k.map lowerByte = k) (_ : ∀ c ∈ k, c ≠ c!"[" ∧ c ≠ c!"]" ∧ c ≠ c!">") (_ : (b.take k.length).map lowerByte = k),
      doctypeR d (b ++ r) = doctypeR d (b.drop k.length ++ r) := by
    intro k
    induction k with
    | nil => intros; rfl
    | cons x k ih =>
      intro b hk hc hb
      cases b with
      | nil => simp at hb
      | cons y b =>
        simp only [List.length_cons, List.take_succ_cons, List.map_cons, List.cons.injEq] at hb hk
        have := hc x (List.mem_cons_self ..)
        have e1 : y ≠ c!"[" := by rintro rfl; exact this.1 (by rw [← hb.1]; decide)
        have e2 : y ≠ c!"]" := by rintro rfl; exact this.2.1 (by rw [← hb.1]; decide)
        have e3 : y ≠ c!">" := by rintro rfl; exact this.2.2 (by rw [← hb.1]; decide)
        rw [List.cons_append, doctypeR, if_neg e1, if_neg e2, if_neg (by simp [e3])]
        exact ih b hk.2 (fun c hh => hc c (List.mem_cons_of_mem _ hh)) hb.2
  exact key b!"doctype" b (by decide) (by decide) h

theorem doctypeLike_append {b : Bytes} (h : DoctypeLike b) (r : Bytes) : DoctypeLike (b ++ r) := by
  rw [doctypeLike_iff] at *
  have : 7 ≤ b.length := by
    have := congrArg List.length h
    simp only [List.length_map, List.length_take, List.length_cons, List.length_nil] at this
    omega
  rwa [List.take_append_of_le_length this]

theorem skipToNext_item {p : Bytes} (h : PrologItem p) (r : Bytes) : skipToNext (p ++ r) = skipToNext r := by
  cases h with
  | text _ h => exact skipToNext_text h r
  | comment b h =>
    have e : b!"<!--" ++ b ++ b!"-->" ++ r = c!"<" :: c!"!" :: ((b!"--" ++ b) ++ b!"-->" ++ r) := by simp
    rw [e, skipToNext.eq_def]
    simp only
    rw [if_pos trivial, if_neg (by decide), if_pos trivial, if_neg, if_pos (by simp [List.isPrefixOf]), skipCommentP_first h]
    rw [isDoctype_iff, doctypeLike_iff]
    simp only [List.cons_append, List.take_succ_cons, List.map_cons, List.cons.injEq]
    intro hh; exact absurd hh.1 (by decide)
  | pi b h1 h2 =>
    have e : b!"<?" ++ b ++ b!">" ++ r = c!"<" :: c!"?" :: (b ++ b!">" ++ r) := by simp
    have e2 : c!"<" :: c!"?" :: (b ++ b!">" ++ r) = (c!"<" :: c!"?" :: b) ++ c!">" :: r := by simp
    rw [e, skipToNext.eq_def]
    simp only
    rw [if_pos trivial, if_neg (by decide), if_neg (by decide), e2,
      readUntil_of (by simp [h1]) (by simpa using h2)]
    rfl
  | doctype b h1 h2 h3 =>
    have hd : doctypeR 0 (b ++ c!">" :: r) = some r := doctypeR_of (by simpa using h2) (by simpa using h3) r
    have e : b!"<!" ++ b ++ b!">" ++ r = c!"<" :: c!"!" :: (b ++ c!">" :: r) := by simp
    rw [e, skipToNext.eq_def]
    simp only
    rw [if_pos trivial, if_neg (by decide), if_pos trivial, if_pos ((isDoctype_iff _).mpr (doctypeLike_append h1 _))]
    have h7 : 7 ≤ b.length := by
      have := congrArg List.length ((doctypeLike_iff b).mp h1)
      simp only [List.length_map, List.length_take, List.length_cons, List.length_nil] at this
      omega
    rw [List.drop_append_of_le_length h7]
    rw [doctypeR_drop h1] at hd
    rw [skipDoctype_of hd]

theorem skipToNext_prolog {p : Bytes} (h : Prolog p) (r : Bytes) : skipToNext (p ++ r) = skipToNext r := by
  induction h with
  | nil => rfl
  | cons h1 _ ih => rw [List.append_assoc, skipToNext_item h1, ih]

theorem recSearch_congr {o : Ord} {a b : Bytes} (h : topElems o a = topElems o b) (tgt : Elem → Bool) (emit : Elem → List Result) (n : Nat) (st : SearchSt) :
    recSearch o tgt emit n a st = recSearch o tgt emit n b st := by
  cases n with
  | zero => rfl
  | succ n => simp only [recSearch, h]

theorem execBody_congr {env : Env} {a b : Bytes} (h : topElems env.ord a = topElems env.ord b) (ev : Filter → Elem → Bool) (root : Bool) (cur : Seg) (rest : List Seg)
    (k1 k2 : Bytes → Result) : execBody env ev root cur rest k1 k2 a = execBody env ev root cur rest k1 k2 b := by
  simp only [execBody, execElem, h]
  cases rest with
  | nil => rfl
  | cons t rest2 => simp only [handleRecursive, recSearch_congr h]

theorem execQ_congr {env : Env} {a b : Bytes} (h : topElems env.ord a = topElems env.ord b) (ev : Filter → Elem → Bool) (ss : List Seg) (root : Bool) :
    execQ env ev ss root a = execQ env ev ss root b := by
  match ss with
  | [] => rfl
  | [cur] => exact execBody_congr h ..
  | cur :: nxt :: rest => exact execBody_congr h ..

theorem execBodyOpt_congr {env : Env} {a b : Bytes} (h : topElems env.ord a = topElems env.ord b) (ev : Filter → Elem → Bool) (cs root : Bool) (cur : Seg)
    (rest : List Seg) (k1 k2 : Bytes → Result) : execBodyOpt env ev cs root cur rest k1 k2 a = execBodyOpt env ev cs root cur rest k1 k2 b := by
  simp only [execBodyOpt, execElemOpt, h]
  cases rest with
  | nil => rfl
  | cons t rest2 => simp only [handleRecursiveOpt, recSearch_congr h]

theorem execQOpt_congr {env : Env} {a b : Bytes} (h : topElems env.ord a = topElems env.ord b) (ev : Filter → Elem → Bool) (cs : Bool) (ss : List Seg) (root : Bool) :
    execQOpt env ev cs ss root a = execQOpt env ev cs ss root b := by
  match ss with
  | [] => rfl
  | [cur] => exact execBodyOpt_congr h ..
  | cur :: nxt :: rest => exact execBodyOpt_congr h ..

end Verif
