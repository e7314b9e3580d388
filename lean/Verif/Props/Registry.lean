import Verif.Lemmas.Registry
import Verif.Model.Fluent
import Verif.Props.Mods
import Verif.Props.White
/- A query looks up just the modifiers its path calls: C81. -/
namespace Verif.Props
open Spec

theorem splitOn_tail (sep : UInt8) (t : Bytes) : ∀ a : Bytes, ∀ x ∈ splitOn sep t, x ∈ (splitOn sep (a ++ sep :: t)).tail := by
  intro a
  induction a with
  | nil => intro x hx; simp [splitOn, hx]
  | cons c cs ih =>
    intro x hx
    have := ih x hx
    obtain ⟨q, qs, hq, -⟩ := splitOn_head sep (cs ++ sep :: t)
    simp only [List.cons_append, splitOn]
    split
    · simp only [List.tail_cons]; exact List.mem_of_mem_tail this
    · rw [hq] at this ⊢; exact this

/-- The names a part calls can be computed. -/
theorem calls_mem {p n : Bytes} (h : Calls p n) : (c!"@" :: n) ∈ (splitOn c!"|" p).tail.map trimSpace := by
  obtain ⟨a, w, b, rfl, h2, h3, h4⟩ := h
  rw [← trims_iff] at h4
  refine List.mem_map.mpr ⟨w, ?_, h4⟩
  have : w ∈ splitOn c!"|" (w ++ b) := by
    rcases b with _ | ⟨x, b⟩
    · simp [splitOn_of_not_mem _ _ h2]
    · simp at h3
      subst h3
      rw [splitOn_append _ h2]
      simp
  have := splitOn_tail c!"|" (w ++ b) a w this
  simpa using this

theorem pathCalls_mem {path n : Bytes} (h : PathCalls path n) : ∃ p ∈ (splitPathAux false path).1 :: (splitPathAux false path).2, (c!"@" :: n) ∈ (splitOn c!"|" p).tail.map trimSpace := by
  obtain ⟨ps, p, hps, hp, hc⟩ := h
  rw [parts_iff.mp hps] at hp
  exact ⟨p, hp, calls_mem hc⟩

/-- C81: two registries that have the same modifiers under the names the path calls give the same answer, in any document. -/
theorem C81_get {env env' : Env} (ho : env'.ord = env.ord) (hf : env'.parseFloat = env.parseFloat) (xml path : Bytes) (h : ∀ n, PathCalls path n → env.mods n = env'.mods n) :
    get env' xml path = get env xml path := by
  unfold get
  split
  · rfl
  · cases hp : parsePath path with
    | panic => rfl
    | err => rfl
    | ok ss =>
      cases ss with
      | nil => rfl
      | cons s ss =>
        have h2 := parsePath_calls hp
        simp only [executeQuery]
        rw [execQ_reg ho (ev := evalFilter env) _ (Nat.le_refl _) (fun s hs => sameMods_of fun n hn => h n ((h2 s hs).1 n hn))
          (fun s hs f all hk => by funext m; exact congrFun (evalFilterN_reg ho hf _ ((h2 s hs).2 f all hk)) m)]

/-- C81: with options. -/
theorem C81_options {env env' : Env} (ho : env'.ord = env.ord) (hf : env'.parseFloat = env.parseFloat) (xml path : Bytes) (opts : Option Options)
    (h : ∀ n, PathCalls path n → env.mods n = env'.mods n) : getWithOptions env' xml path opts = getWithOptions env xml path opts := by
  by_cases hd : isDefaultOptions opts = true
  · have := C81_get ho hf xml path h
    unfold get at this
    unfold getWithOptions
    simp only [hd, if_true]
    exact this
  · unfold getWithOptions
    simp only [hd]
    split
    · rfl
    · unfold parsePathWithOptions
      cases hp : parsePath path with
      | panic => rfl
      | err => rfl
      | ok ss =>
        have h2 := parsePath_calls hp
        have h3 : ∀ s ∈ (if (opts.getD defaultOptions).caseSensitive then ss else ss.map lowerSeg), SameMods env env' s ∧ ∀ f all, s.kind = .filter f all → evalFilter env' f = evalFilter env f := by
          intro s hs
          have : ∃ t ∈ ss, s.mods = t.mods ∧ ∀ f all, s.kind = .filter f all → t.kind = .filter f all := by
            split at hs
            · exact ⟨s, hs, rfl, fun _ _ hk => hk⟩
            · obtain ⟨t, ht, rfl⟩ := List.mem_map.mp hs
              refine ⟨t, ht, lowerSeg_mods t, fun f all hk => ?_⟩
              unfold lowerSeg at hk
              split at hk <;> simp_all
          obtain ⟨t, ht, e1, e2⟩ := this
          refine ⟨fun r => ?_, fun f all hk => by funext m; exact congrFun (evalFilterN_reg ho hf _ ((h2 t ht).2 f all (e2 f all hk))) m⟩
          rw [e1]
          exact sameMods_of (fun n hn => h n ((h2 t ht).1 n hn)) r
        have key := fun S (hS : ∀ s ∈ S, SameMods env env' s ∧ ∀ f all, s.kind = .filter f all → evalFilter env' f = evalFilter env f) =>
          execQO_reg ho (ev := evalFilter env) (ev' := evalFilter env') (cs := (opts.getD defaultOptions).caseSensitive) _ (Nat.le_refl S.length) (fun s hs => (hS s hs).1) (fun s hs => (hS s hs).2) true xml
        cases hcs : (opts.getD defaultOptions).caseSensitive with
        | true =>
          rw [hcs] at h3 key
          simp only [if_true] at h3 ⊢
          cases ss with
          | nil => rfl
          | cons s ss => simp [key _ h3]
        | false =>
          rw [hcs] at h3 key
          simp only [Bool.false_eq_true, if_false] at h3 ⊢
          cases ss with
          | nil => rfl
          | cons s ss => simp only [List.map_cons] at h3 ⊢; simp [key _ h3]

theorem wrapped_calls {P : Bytes → Prop} {path : Bytes} (h : ∀ n, PathCalls path n → P n) : ∀ n, PathCalls (b!"_xmldot_root." ++ path) n → P n := by
  rintro n ⟨ps, p, hps, hp, hc⟩
  have e := parts_iff.mp hps
  have e2 : (splitPathAux false (b!"_xmldot_root." ++ path)) = (b!"_xmldot_root", (splitPathAux false path).1 :: (splitPathAux false path).2) := by
    simp [splitPathAux]
  rw [e2] at e
  subst e
  rcases List.mem_cons.mp hp with h0 | hp
  · obtain ⟨a, w, b, hh, -⟩ := hc
    rw [h0] at hh
    have h1 : c!"|" ∈ a ++ b!"|" ++ w ++ b := by simp
    rw [← hh] at h1
    simp at h1
  · exact h n ⟨_, p, parts_iff.mpr rfl, hp, hc⟩

/-- C81: on a result. -/
theorem C81_result {env env' : Env} (ho : env'.ord = env.ord) (hf : env'.parseFloat = env.parseFloat) (path : Bytes) (h : ∀ n, PathCalls path n → env.mods n = env'.mods n) :
    ∀ r : Result, r.get env' path = r.get env path := by
  have key : ∀ raw, getFromRaw env' raw path = getFromRaw env raw path := fun raw => by
    unfold getFromRaw
    split
    · exact C81_get ho hf _ _ (wrapped_calls h)
    · exact C81_get ho hf _ _ h
  intro r
  fun_induction Result.get env path r <;> rw [Result.get.eq_def] <;> simp_all

/-- C81: on a result, with options. -/
theorem C81_result_options {env env' : Env} (ho : env'.ord = env.ord) (hf : env'.parseFloat = env.parseFloat) (path : Bytes) (opts : Option Options)
    (h : ∀ n, PathCalls path n → env.mods n = env'.mods n) : ∀ r : Result, r.getWithOptions env' path opts = r.getWithOptions env path opts := by
  have key : ∀ raw, getFromRawOpt env' raw path opts = getFromRawOpt env raw path opts := fun raw => by
    unfold getFromRawOpt
    split
    · exact C81_options ho hf _ _ opts (wrapped_calls h)
    · exact C81_options ho hf _ _ opts h
  have k2 := C81_result ho hf path h
  intro r
  fun_induction Result.getWithOptions env path opts r <;> rw [Result.getWithOptions.eq_def] <;> simp_all

/-- C81: without a bar in the path, the registry does not matter at all. -/
theorem C81_plain {env env' : Env} (ho : env'.ord = env.ord) (hf : env'.parseFloat = env.parseFloat) (xml path : Bytes) (hb : c!"|" ∉ path) (opts : Option Options) :
    get env' xml path = get env xml path ∧ getWithOptions env' xml path opts = getWithOptions env xml path opts := by
  have h : ∀ n, PathCalls path n → env.mods n = env'.mods n := by
    rintro n ⟨ps, p, hps, hp, a, w, b, hh, -⟩
    have e := parts_iff.mp hps
    subst e
    have := splitPathAux_without false path _ hb
    have hn : c!"|" ∉ p := by
      rcases List.mem_cons.mp hp with rfl | hp
      · exact this.1
      · exact this.2 p hp
    exact absurd (by rw [hh]; simp) hn
  exact ⟨C81_get ho hf xml path h, C81_options ho hf xml path opts h⟩

/-- C81: GetMany. -/
theorem C81_getMany {env env' : Env} (ho : env'.ord = env.ord) (hf : env'.parseFloat = env.parseFloat) (xml : Bytes) (paths : List Bytes) (h : ∀ path ∈ paths, ∀ n, PathCalls path n → env.mods n = env'.mods n) :
    getMany env' xml paths = getMany env xml paths := by
  unfold getMany
  rw [List.map_congr_left fun p hp => C81_get ho hf xml p (h p hp)]

/-- C81: RegisterModifier and UnregisterModifier, successful or not, change no answer of a path that does not call the name. -/
theorem C81_register (env : Env) (reg : Registry (Result → Result)) (name : Bytes) (m : Option (Result → Result)) (xml path : Bytes) (hn : ¬ PathCalls path name) :
    get { env with mods := getModifier (registerModifier reg name m).1 } xml path = get { env with mods := getModifier reg } xml path ∧
    get { env with mods := getModifier (unregisterModifier reg name).1 } xml path = get { env with mods := getModifier reg } xml path := by
  refine ⟨C81_get (env := { env with mods := getModifier reg }) (env' := { env with mods := getModifier (registerModifier reg name m).1 }) rfl rfl xml path fun n hc => ?_,
    C81_get (env := { env with mods := getModifier reg }) (env' := { env with mods := getModifier (unregisterModifier reg name).1 }) rfl rfl xml path fun n hc => ?_⟩
  · have : n ≠ name := fun e => hn (e ▸ hc)
    show getModifier reg n = getModifier _ n
    unfold registerModifier getModifier
    repeat' split
    all_goals simp [this]
  · have : n ≠ name := fun e => hn (e ▸ hc)
    show getModifier reg n = getModifier _ n
    unfold unregisterModifier getModifier
    repeat' split
    all_goals simp [this]

/-- `r.a| @reverse |@first` calls `reverse` and `first` and nothing else; a bar before a word without `@` calls nothing. -/
example : PathCalls b!"r.a| @reverse |@first" b!"reverse" ∧ PathCalls b!"r.a| @reverse |@first" b!"first" ∧
    (∀ n, PathCalls b!"r.a| @reverse |@first" n → n = b!"reverse" ∨ n = b!"first") ∧ ∀ n, ¬ PathCalls b!"r.a|reverse" n := by
  refine ⟨⟨_, b!"a| @reverse |@first", parts_iff.mpr rfl, by decide, b!"a", b!" @reverse ", b!"|@first", rfl, by decide, by decide, (trims_iff _ _).mp (by decide +kernel)⟩,
    ⟨_, b!"a| @reverse |@first", parts_iff.mpr rfl, by decide, b!"a| @reverse ", b!"@first", [], rfl, by decide, by decide, (trims_iff _ _).mp (by decide +kernel)⟩, fun n h => ?_, fun n h => ?_⟩
  · obtain ⟨p, hp, hm⟩ := pathCalls_mem h
    have e : (splitPathAux false b!"r.a| @reverse |@first").1 :: (splitPathAux false b!"r.a| @reverse |@first").2 = [b!"r", b!"a| @reverse |@first"] := by decide +kernel
    have e1 : (splitOn c!"|" b!"r").tail.map trimSpace = [] := by decide +kernel
    have e2 : (splitOn c!"|" b!"a| @reverse |@first").tail.map trimSpace = [b!"@reverse", b!"@first"] := by decide +kernel
    rw [e] at hp
    simp only [List.mem_cons, List.not_mem_nil, or_false] at hp
    rcases hp with rfl | rfl
    · rw [e1] at hm; simp at hm
    · rw [e2] at hm; simpa using hm
  · obtain ⟨p, hp, hm⟩ := pathCalls_mem h
    have e : (splitPathAux false b!"r.a|reverse").1 :: (splitPathAux false b!"r.a|reverse").2 = [b!"r", b!"a|reverse"] := by decide +kernel
    have e1 : (splitOn c!"|" b!"r").tail.map trimSpace = [] := by decide +kernel
    have e2 : (splitOn c!"|" b!"a|reverse").tail.map trimSpace = [b!"reverse"] := by decide +kernel
    rw [e] at hp
    simp only [List.mem_cons, List.not_mem_nil, or_false] at hp
    rcases hp with rfl | rfl
    · rw [e1] at hm; simp at hm
    · rw [e2] at hm; simp at hm

/-- C81: a name that is called does matter, so no smaller set of names would do; and a name that is only written without `@` does not. -/
theorem C81_called_witness :
    get exModEnv b!"<a>x</a>" b!"a|@bang" = .ret (.ofAttr b!"x!") ∧ get { exModEnv with mods := fun _ => none } b!"<a>x</a>" b!"a|@bang" = .ret .null ∧
    get { exModEnv with mods := fun _ => none } b!"<a>x</a>" b!"a|bang" = get exModEnv b!"<a>x</a>" b!"a" := by
  decide +kernel

end Verif.Props
