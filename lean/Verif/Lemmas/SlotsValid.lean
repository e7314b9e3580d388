import Verif.Lemmas.Slots
import Verif.Lemmas.Fault
import Verif.Spec.TagOnly
/- When a document with elements written for any steps is valid. -/
namespace Verif
open Spec

theorem begun_text {s : List (Bytes × Bytes)} {b : Bool} {p : Bytes} (h : Begun s b p) {t : Bytes} (ht : c!"<" ∉ t) (h0 : s = [] → ∀ c ∈ t, IsWs c) : Begun s b (p ++ t) := by
  induction t generalizing p with
  | nil => simpa using h
  | cons c t ih =>
    have := ih (Begun.text (c := c) h (by rintro rfl; simp at ht) (fun e => h0 e c (by simp))) (by simp at ht; exact ht.2) (fun e d hd => h0 e d (by simp [hd]))
    simpa using this

theorem begun_forest {f : Forest} {d : Nat} (hf : f.Legal d) {s : List (Bytes × Bytes)} {b : Bool} {p : Bytes} (h : Begun s b p) (hd : s.length = d) :
    ∃ b', Begun s b' (p ++ f.render) ∧ (b = true → b' = true) := by
  induction f generalizing d s b p with
  | nil => exact ⟨b, by simpa [Forest.render] using h, id⟩
  | text t next ih =>
    obtain ⟨g1, g2, g3⟩ := hf
    obtain ⟨b', k1, k2⟩ := ih g3 (begun_text h g1 (fun e => g2 (by rw [← hd, e]; rfl))) hd
    exact ⟨b', by simpa [Forest.render] using k1, k2⟩
  | misc m next ih =>
    obtain ⟨g1, g3⟩ := hf
    obtain ⟨b', k1, k2⟩ := ih g3 (Begun.misc h g1) hd
    exact ⟨b', by simpa [Forest.render] using k1, k2⟩
  | leaf n as ws next ih =>
    obtain ⟨g1, g2, g3, g4, g5⟩ := hf
    obtain ⟨b', k1, k2⟩ := ih g5 (Begun.leaf h g1 g2 g3 (by omega)) hd
    exact ⟨b', by simpa [Forest.render] using k1, fun _ => k2 rfl⟩
  | node n as ws kids cws next ihk ih =>
    obtain ⟨g1, g2, g3, g4, g5, g6, g7⟩ := hf
    obtain ⟨b1, k1, k2⟩ := ihk g5 (Begun.node h g1 g2 g3 (by omega)) (by simp [hd])
    obtain ⟨b', k3, k4⟩ := ih g7 (Begun.close k1 g6) hd
    exact ⟨b', by simpa [Forest.render] using k3, fun _ => k4 rfl⟩

/-- The text around a place. -/
theorem begun_ctx {c : Ctx} {x : Forest} {d : Nat} (hc : (c.plug x).Legal d) {s : List (Bytes × Bytes)} {b : Bool} {p : Bytes} (h : Begun s b p) (hd : s.length = d) :
    ∃ s' b', s'.length = d + c.depth ∧ Begun s' b' (p ++ c.before) ∧ ∀ q, Begun s' true q → Begun s true (q ++ c.after) := by
  induction c generalizing d s b p with
  | here bf af =>
    simp only [Ctx.plug, append_legal] at hc
    obtain ⟨b', k1, _⟩ := begun_forest hc.1 h hd
    refine ⟨s, b', by simp [hd, Ctx.depth], k1, fun q hq => ?_⟩
    obtain ⟨b2, k2, k3⟩ := begun_forest hc.2.2 hq hd
    rw [k3 rfl] at k2
    exact k2
  | within bf n as ws c cws af ih =>
    simp only [Ctx.plug, append_legal, Forest.Legal] at hc
    obtain ⟨g0, g1, g2, g3, g4, g5, g6, g7⟩ := hc
    obtain ⟨b', k1, _⟩ := begun_forest g0 h hd
    obtain ⟨s', b2, k2, k3, k4⟩ := ih g5 (Begun.node k1 g1 g2 g3 (by omega)) (by simp [hd])
    refine ⟨s', b2, by rw [k2, Ctx.depth]; omega, by simpa [Ctx.before] using k3, fun q hq => ?_⟩
    obtain ⟨b3, k5, k6⟩ := begun_forest g7 (Begun.close (k4 q hq) g6) hd
    rw [k6 rfl] at k5
    simpa [Ctx.after] using k5

theorem newLine_no {ind : Bytes} (hi : c!"<" ∉ ind) (d : Nat) : c!"<" ∉ newLine ind d := by
  unfold newLine
  split
  · simp
  · simp [hi]

/-- Names are written well, if they are not too many. -/
theorem begun_slots {ind w : Bytes} (hi : c!"<" ∉ ind) (hw : c!"<" ∉ w) {ts : List (Option Bytes)} (ht : ∀ n, some n ∈ ts → IsName n) {s : List (Bytes × Bytes)} {b : Bool} {p : Bytes}
    (h : Begun s b p) (hs : s ≠ []) (hd : s.length + (ts.filter Option.isSome).length ≤ 100) (d : Nat) : ∃ b', Begun s b' (p ++ slotLines ind d ts w) ∧ (b = true → b' = true) := by
  induction ts generalizing s b p d with
  | nil => exact ⟨b, begun_text h hw (fun e => absurd e hs), id⟩
  | cons t ts ih =>
    cases t with
    | none => exact ih (fun n hn => ht n (by simp [hn])) h hs (by simpa using hd) (d + 1)
    | some n =>
      simp only [List.filter_cons, Option.isSome_some, if_true, List.length_cons] at hd
      have h1 := begun_text h (newLine_no hi d) (fun e => absurd e hs)
      have h2 := Begun.node (as := []) (ws := []) h1 (ht n (by simp)) ⟨by simp, by simp, by simp⟩ (by simp) (by omega)
      obtain ⟨b', k1, _⟩ := ih (fun n hn => ht n (by simp [hn])) h2 (by simp) (by simp; omega) (d + 1)
      exact ⟨true, by simpa [slotLines, openTag, closeTag] using Begun.close (ws := []) k1 (by simp), fun _ => rfl⟩

/-- A text between `<` and `>` that is not a name. -/
theorem tag_or_fault {n : Bytes} (h : TagOnly n) : IsName n ∨ ∀ (s : List (Bytes × Bytes)) (r : Bytes), ∃ u m, TagFault s (b!"<" ++ n ++ b!">" ++ r) u m := by
  obtain ⟨h1, h2, h3⟩ := h
  cases n with
  | nil => exact .inr fun s r => ⟨_, _, TagFault.noName (c := c!">") (t := r) (by decide) (by decide) (by decide) (by decide)⟩
  | cons c n =>
    by_cases hc : NameChar c
    · have key : ∀ n : Bytes, ∃ g t, n = g ++ t ∧ (∀ c ∈ g, NameChar c) ∧ (∀ c u, t = c :: u → ¬ NameChar c) := by
        intro n
        induction n with
        | nil => exact ⟨[], [], rfl, by simp, by simp⟩
        | cons x n ih =>
          by_cases hx : NameChar x
          · obtain ⟨g, t, rfl, e1, e2⟩ := ih
            exact ⟨x :: g, t, rfl, by intro c hc; rcases List.mem_cons.mp hc with rfl | hc; exact hx; exact e1 c hc, e2⟩
          · exact ⟨[], x :: n, rfl, by simp, by rintro c u e; injection e with e; subst e; exact hx⟩
      obtain ⟨g, t, e, e1, e2⟩ := key (c :: n)
      have hg0 : g ≠ [] := by
        rintro rfl
        exact e2 c n e.symm hc
      by_cases hlong : g.length ≤ 1048576
      · have hgood := start_cases e1 hg0
        have hnext : ∀ r c u, t ++ b!">" ++ r = c :: u → ¬ NameChar c := by
          intro r c u he
          cases t with
          | nil => simp at he; rw [← he.1]; decide
          | cons x t => simp at he; rw [← he.1]; exact e2 x t rfl
        have hword : ∀ r, Word g (t ++ b!">" ++ r) := fun r => ⟨e1, hnext r, .inl hlong⟩
        rcases hgood with hgood | ⟨why, hbad⟩
        · cases ht : t with
          | nil => subst ht; rw [e]; left; rw [List.append_nil]; exact ⟨hgood, e1, hlong⟩
          | cons x t' =>
            right
            intro s r
            rw [e]
            by_cases hdeep : 100 ≤ s.length
            · exact ⟨_, _, by simpa [List.append_assoc] using TagFault.deep (s := s) (hword r) hgood hdeep⟩
            · obtain ⟨x1, x2, x3⟩ := h1 x (by rw [e, ht]; simp)
              have := TagFault.attr (s := s) (as := []) (w := []) (n := g) (t := t ++ b!">" ++ r) (by omega) (by simpa using hword r) hgood (by simp) (by simp) (by simp)
                (by intro c u he; rw [ht] at he; simp at he; rw [← he.1]; exact x1)
                (by rw [ht]; exact AttrFault.noName (k := 0) (c := x) (t := t' ++ b!">" ++ r) (by omega) x3 x2 (e2 x t' ht))
              exact ⟨_, _, by simpa [openTag] using this⟩
        · right
          intro s r
          rw [e]
          exact ⟨_, _, by simpa using TagFault.start (s := s) (hword r) hbad⟩
      · right
        intro s r
        rw [e]
        obtain ⟨w, c', g', rfl, hwl⟩ : ∃ w c g', g = w ++ g' ∧ w.length = 1048577 := ⟨g.take 1048577, c, g.drop 1048577, by simp, by rw [List.length_take]; omega⟩
        have hl : TooLong (w ++ (g' ++ t ++ b!">" ++ r)) := by
          cases hz : g' ++ t ++ b!">" ++ r with
          | nil => simp at hz
          | cons z zs => exact ⟨w, z, zs, rfl, hwl, fun c hc => e1 c (by simp [hc])⟩
        exact ⟨_, _, by simpa using TagFault.long (s := s) hl⟩
    · right
      intro s r
      have c1 : c ≠ c!"?" := by rintro rfl; exact h3 rfl
      have c2 : c ≠ c!"!" := by rintro rfl; exact h2 rfl
      exact ⟨_, _, by simpa using TagFault.noName (s := s) (t := n ++ b!">" ++ r) hc c1 c2 (h1 c (by simp)).2.1⟩

/-- Otherwise the text is not valid, whatever follows. -/
theorem bad_slots {ind w : Bytes} (hi : c!"<" ∉ ind) {ts : List (Option Bytes)} (hc : ∀ n, some n ∈ ts → TagOnly n) {s : List (Bytes × Bytes)} {b : Bool} {p : Bytes} (h : Begun s b p) (hs : s ≠ [])
    (hsl : s.length ≤ 100) (hbad : (∃ n, some n ∈ ts ∧ ¬ IsName n) ∨ 100 < s.length + (ts.filter Option.isSome).length) (d : Nat) (tail : Bytes) (hlen : (p ++ slotLines ind d ts w ++ tail).length ≤ 10485760) :
    validate (p ++ slotLines ind d ts w ++ tail) ≠ none := by
  induction ts generalizing s b p d tail with
  | nil => rcases hbad with ⟨n, h, _⟩ | h; simp at h; simp at h; omega
  | cons t ts ih =>
    cases t with
    | none =>
      rw [slotLines] at hlen ⊢
      exact ih (fun n hn => hc n (by simp [hn])) h hs hsl (by simpa using hbad) _ tail hlen
    | some n =>
      have h1 := begun_text h (newLine_no hi d) (fun e => absurd e hs)
      have hfault : ∀ r u m, TagFault s (b!"<" ++ n ++ b!">" ++ r) u m → ((p ++ newLine ind d) ++ (b!"<" ++ n ++ b!">" ++ r)).length ≤ 10485760 →
          validate ((p ++ newLine ind d) ++ (b!"<" ++ n ++ b!">" ++ r)) ≠ none := by
        intro r u m hf hl
        rw [fault_validate h1 (Fault.tag hf) hl (by simp)]
        simp
      have e1 : p ++ slotLines ind d (some n :: ts) w ++ tail = (p ++ newLine ind d) ++ (b!"<" ++ n ++ b!">" ++ (slotLines ind (d + 1) ts w ++ (b!"</" ++ n ++ b!">") ++ tail)) := by simp [slotLines]
      rcases tag_or_fault (hc n (by simp)) with hn | hn
      · by_cases hdeep : s.length < 100
        · have h2 := Begun.node (as := []) (ws := []) h1 hn ⟨by simp, by simp, by simp⟩ (by simp) hdeep
          have e2 : p ++ slotLines ind d (some n :: ts) w ++ tail = (p ++ newLine ind d ++ (openTag n [] [] ++ b!">")) ++ slotLines ind (d + 1) ts w ++ ((b!"</" ++ n ++ b!">") ++ tail) := by simp [slotLines, openTag]
          rw [e2] at hlen ⊢
          refine ih (fun n hn => hc n (by simp [hn])) h2 (by simp) (by simp; omega) ?_ _ _ hlen
          simp only [List.filter_cons, Option.isSome_some, if_true, List.length_cons] at hbad
          rcases hbad with ⟨m, hm, hmn⟩ | hbad
          · rcases List.mem_cons.mp hm with hm | hm
            · injection hm with hm; subst hm; exact absurd hn hmn
            · exact .inl ⟨m, hm, hmn⟩
          · right; simp only [List.length_cons]; omega
        · rw [e1] at hlen ⊢
          have hwd : Word n (b!">" ++ (slotLines ind (d + 1) ts w ++ (b!"</" ++ n ++ b!">") ++ tail)) := ⟨hn.2.1, by intro c u e; simp at e; rw [← e.1]; decide, .inl hn.2.2⟩
          exact hfault _ _ _ (by simpa using TagFault.deep (s := s) hwd hn.1 (by omega)) hlen
      · obtain ⟨u, m, hf⟩ := hn s (slotLines ind (d + 1) ts w ++ (b!"</" ++ n ++ b!">") ++ tail)
        rw [e1] at hlen ⊢
        exact hfault _ _ _ hf hlen

/-- The whole text. -/
theorem slotted_valid {c : Ctx} {e : El} (h : Editable (c.plug (e.cons .nil))) {as : List Attr} {ws : Bytes} (ho : Opened e as ws) {ind w : Bytes} (hi : c!"<" ∉ ind) (hw : c!"<" ∉ w) {ts : List (Option Bytes)}
    (hc : ∀ n, some n ∈ ts → TagOnly n) :
    valid (c.before ++ (openTag e.name as ws ++ b!">" ++ e.inner ++ slotLines ind 0 ts w ++ closeTag e.name []) ++ c.after) = true ↔
      (∀ n, some n ∈ ts → IsName n) ∧ c.depth + 1 + (ts.filter Option.isSome).length ≤ 100 ∧
        (c.before ++ (openTag e.name as ws ++ b!">" ++ e.inner ++ slotLines ind 0 ts w ++ closeTag e.name []) ++ c.after).length ≤ 10485760 := by
  obtain ⟨s, b, g1, g2, g3⟩ := begun_ctx h.2.1 Begun.start rfl
  have hl := (plug_legal h.2.1).1
  rw [Nat.zero_add] at hl g1
  have hel : IsName e.name ∧ AttrsLegal as ∧ (∀ c ∈ ws, IsWs c) ∧ c.depth < 100 ∧ ∃ k : Forest, e.inner = k.render ∧ k.Legal (c.depth + 1) := by
    obtain ⟨n, eas, ews, bd⟩ := e
    cases bd with
    | none =>
      obtain ⟨k1, k2, k3, k4, _⟩ := hl
      obtain ⟨_, m2, _, m4, _⟩ := ho.anew rfl
      exact ⟨k1, m4, by simp [m2], by omega, .nil, rfl, trivial⟩
    | some q =>
      obtain ⟨k, cws⟩ := q
      obtain ⟨k1, k2, k3, k4, k5, _, _⟩ := hl
      obtain ⟨m1, m2⟩ := ho.kept (by simp)
      subst m1 m2
      exact ⟨k1, k2, k3, by omega, k, rfl, k5⟩
  obtain ⟨k1, k2, k3, k4, k, k5, k6⟩ := hel
  rw [k5]
  have h1 := Begun.node g2 k1 k2 k3 (by omega)
  obtain ⟨b1, h2, _⟩ := begun_forest k6 h1 (by simp [g1])
  rw [List.nil_append] at h2
  generalize hpp : c.before ++ (openTag e.name as ws ++ b!">") ++ k.render = p at h2
  have e1 : c.before ++ (openTag e.name as ws ++ b!">" ++ k.render ++ slotLines ind 0 ts w ++ closeTag e.name []) ++ c.after = p ++ slotLines ind 0 ts w ++ (closeTag e.name [] ++ c.after) := by
    rw [← hpp]; simp
  rw [e1]
  have hpne : p ++ slotLines ind 0 ts w ++ (closeTag e.name [] ++ c.after) ≠ [] := by rw [← hpp]; simp
  constructor
  · intro hv
    have hlen : (p ++ slotLines ind 0 ts w ++ (closeTag e.name [] ++ c.after)).length ≤ 10485760 := by
      apply Classical.byContradiction
      intro hx
      unfold valid validate at hv
      rw [if_pos (by rw [docMax]; omega)] at hv
      simp at hv
    have hno : ¬ ((∃ n, some n ∈ ts ∧ ¬ IsName n) ∨ 100 < ((e.name, [] ++ c.before) :: s).length + (ts.filter Option.isSome).length) := by
      intro hbad
      refine bad_slots hi hc h2 (by simp) (by simp; omega) hbad 0 _ hlen ?_
      unfold valid at hv
      exact Option.isNone_iff_eq_none.mp hv
    refine ⟨fun n hn => Classical.byContradiction fun hx => hno (.inl ⟨n, hn, hx⟩), ?_, hlen⟩
    simp only [List.length_cons] at hno
    omega
  · rintro ⟨q1, q2, q3⟩
    obtain ⟨b2, h3, _⟩ := begun_slots hi hw q1 h2 (by simp) (by simp; omega) 0
    have h4 := g3 _ (Begun.close (ws := []) h3 (by simp))
    rw [List.append_assoc] at h4
    unfold valid
    rw [complete_validate h4 q3 hpne]
    rfl

end Verif
