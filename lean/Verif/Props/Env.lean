import Verif.Spec.Env

/-!
# Properties C144 and C145: environment variables and launching programs
-/

namespace Asteria.Env

open Spec

/-! ## Helper lemmas -/

theorem split_val (s key val : Bytes) : split s false key val = (key, val ++ s) := by
  induction s generalizing val with
  | nil => simp [split]
  | cons c s ih => simp [split, ih]

theorem split_key (k : Bytes) (hk : (61 : UInt8) ∉ k) (v key val : Bytes) :
    split (k ++ 61 :: v) true key val = (key ++ k, val ++ v) := by
  induction k generalizing key with
  | nil => simp [split, eqSign, split_val]
  | cons c k ih =>
    have hc : c ≠ 61 := fun h => hk (by simp [h])
    have hk' : (61 : UInt8) ∉ k := fun h => hk (by simp [h])
    simp [split, eqSign, hc, ih hk']

theorem split_none (k : Bytes) (hk : (61 : UInt8) ∉ k) (key val : Bytes) : split k true key val = (key ++ k, val) := by
  induction k generalizing key with
  | nil => simp [split]
  | cons c k ih =>
    have hc : c ≠ 61 := fun h => hk (by simp [h])
    have hk' : (61 : UInt8) ∉ k := fun h => hk (by simp [h])
    simp [split, eqSign, hc, ih hk']

theorem field_assign (k k' v : Bytes) (l : List (Bytes × Bytes)) :
    field k (assign k' v l) = if k = k' then some v else field k l := by
  induction l with
  | nil =>
    unfold assign field
    by_cases h : k = k'
    · simp [h]
    · have h' : ¬ k' = k := fun e => h e.symm
      simp [h, h']
  | cons e l ih =>
    obtain ⟨a, b⟩ := e
    unfold assign
    by_cases h : a = k'
    · rw [if_pos h]
      unfold field
      subst h
      by_cases h2 : k = a
      · simp [h2]
      · have h' : ¬ a = k := fun e => h2 e.symm
        simp [h2, h']
    · rw [if_neg h]
      unfold field at ih ⊢
      by_cases h2 : a = k
      · subst h2
        simp [h]
      · simp [h2, ih]

theorem field_append (k : Bytes) (l m : List (Bytes × Bytes)) : field k (l ++ m) = (field k l).or (field k m) := by
  unfold field
  rw [List.find?_append]
  cases l.find? (fun e => e.1 = k) <;> simp

theorem field_collect (k : Bytes) (l : List (Bytes × Bytes)) (hl : ∀ x ∈ l, (61 : UInt8) ∉ x.1) (vars : List (Bytes × Bytes)) :
    field k (collect (l.map entry) vars) = (field k l.reverse).or (field k vars) := by
  induction l generalizing vars with
  | nil => simp [collect, field]
  | cons x l ih =>
    have hx := hl x (by simp)
    simp only [List.map_cons, collect, entry]
    rw [split_key x.1 hx]
    simp only [List.nil_append]
    rw [ih (fun y hy => hl y (by simp [hy])), field_assign, List.reverse_cons, field_append]
    cases field k l.reverse with
    | some y => rfl
    | none =>
      simp only [Option.none_or]
      by_cases h : k = x.1
      · rw [if_pos h]
        simp [field, h]
      · rw [if_neg h]
        have h' : ¬ x.1 = k := fun e => h e.symm
        simp [field, h']

theorem prefix_entry (k : Bytes) (hk : (61 : UInt8) ∉ k) (x : Bytes × Bytes) (hx : (61 : UInt8) ∉ x.1) :
    (k ++ [eqSign]).isPrefixOf (entry x) = decide (x.1 = k) := by
  obtain ⟨a, b⟩ := x
  unfold entry eqSign
  dsimp only at hx ⊢
  induction k generalizing a with
  | nil =>
    cases a with
    | nil => simp [List.isPrefixOf]
    | cons c a =>
      have hc : ¬ (61 : UInt8) = c := fun h => hx (by simp [h])
      simp [List.isPrefixOf, hc]
  | cons d k ih =>
    have hd : ¬ d = 61 := fun h => hk (by simp [h])
    have hk' : (61 : UInt8) ∉ k := fun h => hk (by simp [h])
    cases a with
    | nil => simp [List.isPrefixOf, hd]
    | cons c a =>
      have hx' : (61 : UInt8) ∉ a := fun h => hx (by simp [h])
      have := ih hk' a hx'
      simp only [List.cons_append, List.isPrefixOf]
      rw [this]
      by_cases h : d = c
      · subst h; simp
      · have h' : ¬ c = d := fun e => h e.symm
        simp [h, h']

theorem getenv_entries (k : Bytes) (hk : k ≠ []) (hk' : (61 : UInt8) ∉ k) (l : List (Bytes × Bytes))
    (hl : ∀ x ∈ l, (61 : UInt8) ∉ x.1) : getenv (l.map entry) k = field k l := by
  unfold getenv
  rw [if_neg hk]
  induction l with
  | nil => rfl
  | cons x l ih =>
    have ih := ih (fun y hy => hl y (by simp [hy]))
    have hp := prefix_entry k hk' x (hl x (by simp))
    simp only [List.map_cons, List.find?_cons, hp]
    unfold field at ih ⊢
    by_cases h : x.1 = k
    · simp only [h, decide_true, List.find?_cons]
      unfold entry
      rw [h]
      simp
    · simp only [h, decide_false, List.find?_cons]
      exact ih

theorem field_reverse (k : Bytes) (l : List (Bytes × Bytes)) (hn : (l.map Prod.fst).Nodup) : field k l.reverse = field k l := by
  induction l with
  | nil => rfl
  | cons x l ih =>
    rw [List.map_cons, List.nodup_cons] at hn
    rw [List.reverse_cons, field_append, ih hn.2]
    by_cases h : x.1 = k
    · have : field k l = none := by
        unfold field
        rw [Option.map_eq_none_iff, List.find?_eq_none]
        intro y hy
        simp only [decide_eq_true_eq]
        intro e
        exact hn.1 (by rw [h, ← e]; exact List.mem_map_of_mem hy)
      rw [this]
      simp [field, h]
    · have h1 : field k [x] = none := by simp [field, h]
      rw [h1, Option.or_none]
      simp [field, h]

/-! ## C144: environment variables -/

/-- `A=1` and `A=2`, which a program gets from `std.system.call("program", [ ], [ "A=1", "A=2" ])`. -/
def demoTwice : List Bytes := [[65, 61, 49], [65, 61, 50]]

/-- `A`, without a value. -/
def demoBare : List Bytes := [[65]]

/-- **C144 is false of the code.** If a variable is there twice, `get_environment_variable` returns the first value, and
`get_environment_variables` has the last one; and a string without `=` is a field, but not a variable. -/
theorem C144_false :
    getOne demoTwice [65] = .ok (some [49]) ∧ field [65] (getAll demoTwice) = some [50] ∧
    getOne demoBare [65] = .ok none ∧ field [65] (getAll demoBare) = some [] := by decide

/-- **C144 (part).** In an environment where every string is a name, `=` and a value, and no name is there twice, both functions
agree about every name, and return the value that is in the environment.  What is missing: see `C144_false`. -/
theorem C144_agree_partial (l : List (Bytes × Bytes)) (hl : ∀ x ∈ l, Name x.1) (hn : (l.map Prod.fst).Nodup) {k : Bytes} (hk : Name k) :
    getOne (l.map entry) k = .ok (field k (getAll (l.map entry))) ∧ field k (getAll (l.map entry)) = field k l ∧
    ∀ v, (k, v) ∈ l → getOne (l.map entry) k = .ok (some v) := by
  have hl' : ∀ x ∈ l, (61 : UInt8) ∉ x.1 := fun x hx => (hl x hx).2.1
  have h1 : field k (getAll (l.map entry)) = field k l := by
    unfold getAll
    rw [field_collect k l hl', field_reverse k l hn]
    simp [field]
  have h2 : getOne (l.map entry) k = .ok (field k l) := by
    unfold getOne safeCStr
    rw [if_neg hk.2.2]
    dsimp only
    rw [getenv_entries k hk.1 hk.2.1 l hl']
  refine ⟨by rw [h1]; exact h2, h1, ?_⟩
  intro v hv
  rw [h2]
  congr 1
  clear h1 h2 hl hl'
  induction l with
  | nil => simp at hv
  | cons x l ih =>
    rw [List.map_cons, List.nodup_cons] at hn
    rcases List.mem_cons.mp hv with h | h
    · subst h; simp [field]
    · have hne : ¬ x.1 = k := by
        intro e
        exact hn.1 (by rw [e]; exact List.mem_map_of_mem (f := Prod.fst) h)
      have := ih hn.2 h
      unfold field at this ⊢
      simp only [List.find?_cons, hne, decide_false]
      exact this

/-- **C144 (with repetitions).** If names may be there twice, `get_environment_variable` returns the first value, and
`get_environment_variables` has the last one. -/
theorem C144_first_and_last (l : List (Bytes × Bytes)) (hl : ∀ x ∈ l, Name x.1) {k : Bytes} (hk : Name k) :
    getOne (l.map entry) k = .ok (field k l) ∧ field k (getAll (l.map entry)) = field k l.reverse := by
  have hl' : ∀ x ∈ l, (61 : UInt8) ∉ x.1 := fun x hx => (hl x hx).2.1
  refine ⟨?_, ?_⟩
  · unfold getOne safeCStr
    rw [if_neg hk.2.2]
    dsimp only
    rw [getenv_entries k hk.1 hk.2.1 l hl']
  · unfold getAll
    rw [field_collect k l hl']
    simp [field]

/-- **C144 (names).** A name with a null character is refused, and nothing else is. -/
theorem C144_names (environ : List Bytes) (k : Bytes) : getOne environ k = .throw ↔ (0 : UInt8) ∈ k := by
  unfold getOne safeCStr
  by_cases h : (0 : UInt8) ∈ k
  · rw [if_pos h]; simp [h]
  · rw [if_neg h]; simp [h]

/-- The conditions in a case: `A=1` and `B=x=y`. -/
example : (∀ x ∈ [(([65] : Bytes), ([49] : Bytes)), ([66], [120, 61, 121])], Name x.1) ∧
    field [66] (getAll [[65, 61, 49], [66, 61, 120, 61, 121]]) = some [120, 61, 121] := by
  refine ⟨?_, by decide⟩
  intro x hx
  simp at hx
  rcases hx with rfl | rfl <;> exact ⟨by decide, by decide, by decide⟩

/-! ## C145: launching programs -/

theorem cString_cases (a : Arg) : (∃ s, Passable a s ∧ cString a = .ok s) ∨ ((∀ s, ¬ Passable a s) ∧ cString a = .throw) := by
  cases a with
  | other => exact Or.inr ⟨(fun s h => by cases h.1), rfl⟩
  | string s =>
    unfold cString safeCStr
    by_cases h : (0 : UInt8) ∈ s
    · refine Or.inr ⟨?_, if_pos h⟩
      rintro t ⟨e, h'⟩
      cases e
      exact h' h
    · exact Or.inl ⟨s, ⟨rfl, h⟩, if_neg h⟩

theorem pushAll_cases (as : List Arg) (cs : List (Option Bytes)) :
    (∃ ss : List Bytes, as = ss.map .string ∧ (∀ s ∈ ss, (0 : UInt8) ∉ s) ∧ pushAll as cs = .ok (cs ++ ss.map some)) ∨
    ((∃ a ∈ as, ∀ s, ¬ Passable a s) ∧ pushAll as cs = .throw) := by
  induction as generalizing cs with
  | nil => exact Or.inl ⟨[], rfl, by simp, by simp [pushAll]⟩
  | cons a as ih =>
    unfold pushAll
    rcases cString_cases a with ⟨s, ⟨e, hs⟩, h⟩ | ⟨hn, h⟩
    · rw [h]
      dsimp only
      rcases ih (cs ++ [some s]) with ⟨ss, e', hss, h'⟩ | ⟨⟨b, hb, hb'⟩, h'⟩
      · refine Or.inl ⟨s :: ss, by simp [e, e'], ?_, by rw [h']; simp⟩
        intro t ht
        rcases List.mem_cons.mp ht with rfl | ht
        · exact hs
        · exact hss t ht
      · exact Or.inr ⟨⟨b, by simp [hb], hb'⟩, h'⟩
    · rw [h]
      exact Or.inr ⟨⟨a, by simp, hn⟩, rfl⟩

theorem upToNull_ends (ss : List Bytes) (l : List (Option Bytes)) : upToNull (ss.map some ++ none :: l) = .ok ss := by
  induction ss with
  | nil => rfl
  | cons s ss ih => simp [upToNull, ih]

theorem launch_cases (cmd : Bytes) (argv envp : Option (List Arg)) :
    (∃ as es : List Bytes, (0 : UInt8) ∉ cmd ∧ (∀ s ∈ as, (0 : UInt8) ∉ s) ∧ (∀ s ∈ es, (0 : UInt8) ∉ s) ∧
      argv.getD [] = as.map .string ∧ envp.getD [] = es.map .string ∧ launch cmd argv envp = .ok ⟨cmd, cmd :: as, es⟩) ∨
    (((0 : UInt8) ∈ cmd ∨ (∃ a ∈ argv.getD [], ∀ s, ¬ Passable a s) ∨ (∃ a ∈ envp.getD [], ∀ s, ¬ Passable a s)) ∧
      launch cmd argv envp = .throw) := by
  unfold launch safeCStr
  by_cases hc : (0 : UInt8) ∈ cmd
  · rw [if_pos hc]
    exact Or.inr ⟨Or.inl hc, rfl⟩
  · rw [if_neg hc]
    dsimp only
    rcases pushAll_cases (argv.getD []) [some cmd] with ⟨as, e1, hs1, h1⟩ | ⟨hb, h1⟩
    · rw [h1]
      dsimp only
      rcases pushAll_cases (envp.getD []) ([some cmd] ++ as.map some ++ [none]) with ⟨es, e2, hs2, h2⟩ | ⟨hb, h2⟩
      · rw [h2]
        dsimp only
        have u1 : upToNull ([some cmd] ++ as.map some ++ [none] ++ es.map some ++ [none]) = .ok (cmd :: as) := by
          have := upToNull_ends (cmd :: as) (es.map some ++ [none])
          simpa using this
        have u2 : upToNull (([some cmd] ++ as.map some ++ [none] ++ es.map some ++ [none]).drop
            ([some cmd] ++ as.map some ++ [none]).length) = .ok es := by
          generalize [some cmd] ++ as.map some ++ [none] = x
          rw [List.append_assoc, List.drop_left]
          exact upToNull_ends es []
        rw [u1, u2]
        exact Or.inl ⟨as, es, hc, hs1, hs2, e1, e2, rfl⟩
      · rw [h2]
        exact Or.inr ⟨Or.inr (Or.inr hb), rfl⟩
    · rw [h1]
      exact Or.inr ⟨Or.inr (Or.inl hb), rfl⟩

/-- **C145 (arguments).** If the command, the arguments and the environment are strings without null characters, then one program
is launched: the command, with the command and then the arguments, and with just that environment, which is empty if it is
not given.  Otherwise an exception is thrown and no program is launched. -/
theorem C145_launched (cmd : Bytes) (argv envp : Option (List Arg)) (spawn : Launch → Bool) (waits : List (Option Nat)) :
    (∀ as es : List Bytes, (0 : UInt8) ∉ cmd → (∀ s ∈ as, (0 : UInt8) ∉ s) → (∀ s ∈ es, (0 : UInt8) ∉ s) →
      argv.getD [] = as.map .string → envp.getD [] = es.map .string →
      (call cmd argv envp spawn waits).1 = some ⟨cmd, cmd :: as, es⟩) ∧
    (((0 : UInt8) ∈ cmd ∨ (∃ a ∈ argv.getD [], ∀ s, ¬ Passable a s) ∨ (∃ a ∈ envp.getD [], ∀ s, ¬ Passable a s)) →
      call cmd argv envp spawn waits = (none, some .throw)) := by
  have inj : ∀ {x y : List Bytes}, x.map Arg.string = y.map Arg.string → x = y := by
    intro x y h
    exact List.map_inj_right (fun a b h => by cases h; rfl) |>.mp h
  have no : ∀ {ss : List Bytes} {l : List Arg}, (∀ s ∈ ss, (0 : UInt8) ∉ s) → l = ss.map Arg.string →
      ¬ ∃ a ∈ l, ∀ s, ¬ Passable a s := by
    rintro ss l hs rfl ⟨a, ha, hn⟩
    obtain ⟨s, h, rfl⟩ := List.mem_map.mp ha
    exact hn s ⟨rfl, hs s h⟩
  unfold call
  rcases launch_cases cmd argv envp with ⟨as, es, hc, ha, he, ea, ee, h⟩ | ⟨hb, h⟩
  · rw [h]
    refine ⟨?_, ?_⟩
    · intro as' es' _ _ _ ea' ee'
      rw [ea] at ea'
      rw [ee] at ee'
      cases inj ea'
      cases inj ee'
      dsimp only
      split <;> rfl
    · rintro (hb | hb | hb)
      · exact absurd hb hc
      · exact absurd hb (no ha ea)
      · exact absurd hb (no he ee)
  · rw [h]
    refine ⟨?_, fun _ => rfl⟩
    intro as es hc ha he ea ee
    rcases hb with hb | hb | hb
    · exact absurd hb hc
    · exact absurd hb (no ha ea)
    · exact absurd hb (no he ee)

theorem await_pause {e : Event} (he : e.Pause) (l : List (Option Nat)) : await (some e.code :: l) = await l := by
  have h : e.code % 128 = 127 := by
    cases e with
    | exited n => exact absurd he (by simp [Event.Pause])
    | killed s core => exact absurd he (by simp [Event.Pause])
    | stopped s => show (s * 256 + 127) % 128 = 127; omega
    | continued => rfl
  show (if e.code % 128 = 0 then _ else if 0 < e.code % 128 ∧ e.code % 128 + 1 < 128 then _ else _) = _
  rw [h, if_neg (by omega), if_neg (by omega)]

/-- **C145 (status).** Whatever the program does before it ends: the result is its exit status, or 128 and the number of the
signal that killed it. -/
theorem C145_status (pauses : List Event) (last : Event) (rest : List (Option Nat)) (hp : ∀ e ∈ pauses, e.Valid ∧ e.Pause)
    (hv : last.Valid) (hl : ¬ last.Pause) :
    await (pauses.map (fun e => some e.code) ++ some last.code :: rest) = some (.ok last.result) := by
  induction pauses with
  | nil =>
    cases last with
    | exited n =>
      have hn : n < 256 := hv
      simp only [List.map_nil, List.nil_append, await, Event.code, Event.result]
      rw [if_pos (by omega)]
      congr 2
      omega
    | killed s core =>
      have hs : 0 < s ∧ s ≤ 64 := hv
      simp only [List.map_nil, List.nil_append, await, Event.code, Event.result]
      have e : (s + (if core then 128 else 0)) % 128 = s := by
        split <;> omega
      rw [e, if_neg (by omega), if_pos (by omega)]
    | stopped s => exact absurd trivial hl
    | continued => exact absurd trivial hl
  | cons e pauses ih =>
    rw [List.map_cons, List.cons_append, await_pause (hp e (by simp)).2]
    exact ih (fun x hx => hp x (by simp [hx]))

/-- **C145 (failures).** If the program cannot be launched, or its status cannot be had while it is stopped or running, an exception
is thrown. -/
theorem C145_failures (cmd : Bytes) (argv envp : Option (List Arg)) (spawn : Launch → Bool) (waits : List (Option Nat))
    (pauses : List Event) (rest : List (Option Nat)) (hp : ∀ e ∈ pauses, e.Valid ∧ e.Pause) :
    ((∀ l, spawn l = false) → (call cmd argv envp spawn waits).2 = some .throw) ∧
    await (pauses.map (fun e => some e.code) ++ none :: rest) = some .throw := by
  refine ⟨?_, ?_⟩
  · intro h
    unfold call
    rcases launch_cases cmd argv envp with ⟨as, es, _, _, _, _, _, e⟩ | ⟨_, e⟩
    · rw [e]
      dsimp only
      rw [h]
      rfl
    · rw [e]
  · induction pauses with
    | nil => rfl
    | cons e pauses ih =>
      rw [List.map_cons, List.cons_append, await_pause (hp e (by simp)).2]
      exact ih (fun x hx => hp x (by simp [hx]))

/-- A case: a program is stopped, goes on, and is killed. -/
example : call [108, 115] (some [.string [45, 108]]) (some [.string [65, 61, 49]]) (fun _ => true)
    [some (Event.stopped 19).code, some Event.continued.code, some (Event.killed 9 true).code] =
    (some ⟨[108, 115], [[108, 115], [45, 108]], [[65, 61, 49]]⟩, some (.ok 137)) := by decide

end Asteria.Env
