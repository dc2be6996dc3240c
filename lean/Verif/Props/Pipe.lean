import Verif.Proof.Pipe

/-!
# C130 and C131: `std.system.pipe`
-/

namespace Asteria.Pipe

/-! ### C130: it does not hang -/

/-- **C130** as one would like it: as long as `std.system.pipe` has not ended, it or the program that it has started goes on. -/
def C130_claim : Prop := ∀ (σ : Type) (S : Setup σ) (c : σ) (n m : Nat) (s : State σ), 0 < S.cap → Run S c n m s → Stuck S s → ∃ o, s.pc = .done o

/-- A program that writes what it reads, such as `cat`: `some` is what it has to write. -/
def echo : Option Bytes → Ask (Option Bytes)
  | none => .exit (some 0)
  | some [] => .read fun p => if p = [] then none else some p
  | some (b :: bs) => .write b (some bs)

/-- `std.system.pipe` runs `cat`. -/
def cat (input : Bytes) (cap : Nat) (sigpipe : Bool) : Setup (Option Bytes) := { ask := echo, input := input, cap := cap, sigpipe := sigpipe }

/-- The state when `cat` has passed on `k` bytes, and its standard input is full. -/
def passed (input : Bytes) (cap k : Nat) : State (Option Bytes) :=
  { pc := .write, inW := true, moved := k + cap, inp := (input.drop k).take cap, out := input.take k, child := some [], got := input.take k, said := input.take k }

theorem getElem_drop {l : Bytes} {n : Nat} (h : n < l.length) : l.drop n = l[n] :: l.drop (n + 1) := List.drop_eq_getElem_cons h

theorem run_eq {σ : Type} {S : Setup σ} {c : σ} {n m : Nat} {s t : State σ} (h : Run S c n m s) (e : s = t) : Run S c n m t := e ▸ h

theorem cat_passes (input : Bytes) (cap : Nat) (sigpipe : Bool) (hcap : 0 < cap) (hlen : 2 * cap + 2 ≤ input.length) (k : Nat) (hk : k ≤ cap) :
    ∃ n m, Run (cat input cap sigpipe) (some []) n m (passed input cap k) := by
  induction k with
  | zero =>
    have hne : input ≠ [] := fun e => by rw [e] at hlen; simp at hlen
    have hi : (!input.isEmpty) = true := by cases input <;> simp_all
    have r0 : Run (cat input cap sigpipe) (some []) 0 0 (start input (some [])) := .start
    have r1 := Run.parent r0 (.poll _ true rfl (fun _ => ⟨hi, hcap⟩) (fun _ _ => rfl) (by simp))
    have r2 := Run.parent r1 (.hup _ _ _ _ rfl)
    have r3 := Run.parent r2 (.writeStart _ _ rfl)
    have r4 := Run.parent r3 (.writeSome _ (input.take cap) (input.drop cap) rfl rfl (by simp [start, cat])
      (by simp [hne]; omega) (by simp [start, cat]; omega))
    refine ⟨_, _, run_eq r4 ?_⟩
    unfold passed
    simp [start, hne]
    omega
  | succ k ih =>
    obtain ⟨n, m, r⟩ := ih (by omega)
    have h1 : input.drop k = input[k] :: input.drop (k + 1) := getElem_drop (by omega)
    have hd : (input.drop k).take cap = [input[k]] ++ (input.drop (k + 1)).take (cap - 1) := by
      obtain ⟨c, rfl⟩ : ∃ c, cap = c + 1 := ⟨cap - 1, by omega⟩
      rw [h1]; rfl
    have r1 := Run.child r (.readSome _ (fun p => if p = [] then none else some p) [input[k]] _ rfl rfl rfl hd (by simp))
    have r2 := Run.child r1 (.write _ input[k] (some []) rfl rfl rfl rfl (by simp [passed, cat]; omega))
    have h2 : input.drop (k + cap) = [input[k + cap]] ++ input.drop (k + cap + 1) := getElem_drop (by omega)
    have r3 := Run.parent r2 (.writeSome _ [input[k + cap]] (input.drop (k + cap + 1)) rfl rfl (by simp only [passed, cat, Nat.zero_add]; exact h2) (by simp)
      (by simp [passed, cat]; omega))
    refine ⟨_, _, run_eq r3 ?_⟩
    have e1 : input.take (k + 1) = input.take k ++ [input[k]] := (List.take_append_getElem (by omega)).symm
    have e2 : (input.drop (k + 1)).take cap = (input.drop (k + 1)).take (cap - 1) ++ [input[k + cap]] := by
      obtain ⟨c, rfl⟩ : ∃ c, cap = c + 1 := ⟨cap - 1, by omega⟩
      rw [List.take_add_one, List.getElem?_drop, show k + 1 + c = k + (c + 1) by omega, List.getElem?_eq_getElem (by omega)]
      rfl
    unfold passed
    simp only [e1, e2, List.length_singleton]
    congr 1
    omega

/-- **C130** does not hold: for every capacity of pipes, `cat` with an input that is longer than two pipes and two bytes may hang for ever: `std.system.pipe`
waits until all of the input has been written and does not read the output, and the program waits until its output is read and does not read
its input. -/
theorem C130_deadlock (input : Bytes) (cap : Nat) (sigpipe : Bool) (hcap : 0 < cap) (hlen : 2 * cap + 2 ≤ input.length) :
    ∃ n m s, Run (cat input cap sigpipe) (some []) n m s ∧ Stuck (cat input cap sigpipe) s ∧ ∀ o, s.pc ≠ .done o := by
  obtain ⟨n, m, r⟩ := cat_passes input cap sigpipe hcap hlen cap (Nat.le_refl _)
  have h1 : input.drop cap = input[cap] :: input.drop (cap + 1) := getElem_drop (by omega)
  have hd : (input.drop cap).take cap = [input[cap]] ++ (input.drop (cap + 1)).take (cap - 1) := by
    obtain ⟨c, rfl⟩ : ∃ c, cap = c + 1 := ⟨cap - 1, by omega⟩
    rw [h1]; rfl
  have r1 := Run.child r (.readSome _ (fun p => if p = [] then none else some p) [input[cap]] _ rfl rfl rfl hd (by simp))
  have h2 : input.drop (cap + cap) = [input[cap + cap]] ++ input.drop (cap + cap + 1) := getElem_drop (by omega)
  have r2 := Run.parent r1 (.writeSome _ [input[cap + cap]] (input.drop (cap + cap + 1)) rfl rfl (by simp only [passed, cat, Nat.zero_add]; exact h2) (by simp)
    (by simp [passed, cat]; omega))
  refine ⟨_, _, _, r2, ⟨fun s' h => ?_, fun s' h => ?_⟩, by simp [passed]⟩
  · have hask : ∀ x, (cat input cap sigpipe).ask (some [input[cap]]) = x → x = .write input[cap] (some []) := fun x hx => hx.symm
    cases h with
    | write b k he ha hw ho hl => simp [passed, cat] at hl; omega
    | readSome k p rest he ha => cases hask _ ha
    | readEnd k he ha => cases hask _ ha
    | readBad k he ha => cases hask _ ha
    | writePipe b k he ha hw ho => cases ho
    | writeBad b k he ha hw => cases hw
    | closeIn k he ha => cases hask _ ha
    | closeOut k he ha => cases hask _ ha
    | exit st he ha => cases hask _ ha
  · cases h with
    | writeSome p rest hpc hr hd hp hl =>
      have := List.length_pos_iff.2 hp
      simp [passed, cat] at hl
      omega
    | writeEnd hpc hd =>
      have := List.drop_eq_nil_iff.1 hd
      simp [passed, cat] at this
      omega
    | writeKill hpc hr => cases hr
    | writeFail hpc hr => cases hr
    | writePart hpc hr => cases hr
    | poll _ hpc => cases hpc
    | readSome _ _ _ _ _ hpc => cases hpc
    | readEnd _ _ _ hpc => cases hpc
    | hup _ _ _ hpc => cases hpc
    | writeStart _ hpc => cases hpc
    | err _ hpc => cases hpc
    | check hpc => cases hpc
    | wait _ hpc => cases hpc

/-- **C130** does not hold: an instance with pipes of the usual size. -/
theorem C130_false : ¬ C130_claim := fun h => by
  obtain ⟨n, m, s, h1, h2, h3⟩ := C130_deadlock (List.replicate 131074 0x41) 65536 true (by decide) (by rw [List.length_replicate]; decide)
  obtain ⟨o, ho⟩ := h _ _ _ n m s (by decide) h1 h2
  exact h3 o ho

/-- **C130**, the part that is true: it hangs only while it is writing the input, both pipes are full, and the program is writing. -/
theorem C130_partial {σ : Type} (S : Setup σ) (c : σ) (n m : Nat) (s : State σ) (hcap : 0 < S.cap) (hrun : Run S c n m s) (hs : Stuck S s) :
    (∃ o, s.pc = .done o) ∨ (s.pc = .write ∧ s.inp.length = S.cap ∧ s.out.length = S.cap ∧ (∃ b k, S.ask s.child = .write b k) ∧
      s.got.length + S.cap < S.input.length) := by
  by_cases hd : ∀ o, s.pc ≠ .done o
  · obtain ⟨h1, _, h3, h4, h5, h6⟩ := stuck_write hcap hrun hs hd
    refine .inr ⟨h1, h3, Nat.le_antisymm (caps hrun).2 h4, h5, ?_⟩
    have := congrArg List.length (inv_run hrun).got
    rw [List.length_append, List.length_take, h3] at this
    omega
  · left
    exact Classical.byContradiction fun h => hd fun o ho => h ⟨o, ho⟩

/-- **C130** for an input that fits into a pipe: it never hangs. -/
theorem C130_short_partial {σ : Type} (S : Setup σ) (c : σ) (n m : Nat) (s : State σ) (hcap : 0 < S.cap) (hlen : S.input.length ≤ S.cap)
    (hrun : Run S c n m s) (hs : Stuck S s) : ∃ o, s.pc = .done o := by
  rcases C130_partial S c n m s hcap hrun hs with h | ⟨_, _, _, _, h⟩
  · exact h
  · omega

/-- **C130**: it does not run for ever by itself: if the program has taken `n` steps, `std.system.pipe` has taken at most `8 * (n + length) + 24`. -/
theorem C130_steps {σ : Type} (S : Setup σ) (c : σ) (n m : Nat) (s : State σ) (hrun : Run S c n m s) : m ≤ 8 * (n + S.input.length) + 24 := by
  have : m + weight S s ≤ 8 * n + (8 * S.input.length + 24) := by
    induction hrun with
    | start =>
      simp only [weight, start, left, List.length_nil]
      split <;> simp <;> split <;> omega
    | child _ hs ih => have := weight_child hs; omega
    | parent hr hs ih => have := weight_parent (inv_run hr) hs; omega
  omega

/-! ### C131: what it returns -/

/-- **C131** as one would like it: `std.system.pipe` returns what the program has written if it has exited with status zero, and null otherwise. -/
def C131_claim : Prop := ∀ (σ : Type) (S : Setup σ) (c : σ) (n m : Nat) (s : State σ) (o : Outcome), 0 < S.cap → Run S c n m s → s.pc = .done o →
  ∃ st, s.exited = some st ∧ o = .returned (if st = some 0 then some s.said else none)

/-- **C131** does not hold: a program that exits without reading its input, such as `true`, has the calling process killed by `SIGPIPE`. -/
theorem C131_false : ¬ C131_claim := fun h => by
  let S : Setup Unit := { ask := fun _ => .exit (some 0), input := [0x41], cap := 65536, sigpipe := true }
  have r0 : Run S () 0 0 (start S.input ()) := .start
  have r1 := Run.child r0 (.exit _ (some 0) rfl rfl)
  have r2 := Run.parent r1 (.poll _ true rfl (fun _ => ⟨rfl, by decide⟩) (fun _ _ => rfl) rfl)
  have r3 := Run.parent r2 (.hup _ _ _ _ rfl)
  have r4 := Run.parent r3 (.writeStart _ _ rfl)
  have r5 := Run.parent r4 (.writeKill _ rfl rfl (by decide) rfl)
  obtain ⟨st, _, h2⟩ := h Unit S () _ _ _ .killed (by decide) r5 rfl
  cases h2

/-- **C131** does not hold either if `SIGPIPE` is ignored: an exception is thrown instead. -/
theorem C131_false_ignored : ¬ C131_claim := fun h => by
  let S : Setup Unit := { ask := fun _ => .exit (some 0), input := [0x41], cap := 65536, sigpipe := false }
  have r0 : Run S () 0 0 (start S.input ()) := .start
  have r1 := Run.child r0 (.exit _ (some 0) rfl rfl)
  have r2 := Run.parent r1 (.poll _ true rfl (fun _ => ⟨rfl, by decide⟩) (fun _ _ => rfl) rfl)
  have r3 := Run.parent r2 (.hup _ _ _ _ rfl)
  have r4 := Run.parent r3 (.writeStart _ _ rfl)
  have r5 := Run.parent r4 (.writeFail _ rfl rfl (by decide) rfl rfl)
  obtain ⟨st, _, h2⟩ := h Unit S () _ _ _ .thrown (by decide) r5 rfl
  cases h2

/-- **C131**, the part that is true: whatever the program does, and in whatever order things happen, if `std.system.pipe` returns, then the result is
right; and otherwise the program has closed its standard input before all of the input has been written.  What the program has read is
the input from its beginning. -/
theorem C131_partial {σ : Type} (S : Setup σ) (c : σ) (n m : Nat) (s : State σ) (o : Outcome) (hrun : Run S c n m s) (hd : s.pc = .done o) :
    s.got <+: S.input ∧ match o with
      | .returned r => ∃ st, s.exited = some st ∧ r = if st = some 0 then some s.said else none
      | .killed => S.sigpipe = true ∧ s.reader = false ∧ s.got.length < S.input.length
      | .thrown => S.sigpipe = false ∧ s.reader = false ∧ s.got.length < S.input.length := by
  have h := inv_run hrun
  have hl := congrArg List.length h.got
  rw [List.length_append, List.length_take] at hl
  refine ⟨⟨s.inp ++ S.input.drop (s.written + s.moved), by rw [← List.append_assoc, h.got, List.take_append_drop]⟩, ?_⟩
  cases o with
  | returned r =>
    obtain ⟨st, h1, h2, h3⟩ := h.returned r hd
    refine ⟨st, h1, ?_⟩
    rw [h3, h.said, h2, List.append_nil]
  | killed => exact ⟨(h.killed hd).1, (h.killed hd).2.1, by have := (h.killed hd).2.2; omega⟩
  | thrown => exact ⟨(h.thrown hd).1, (h.thrown hd).2.1, by have := (h.thrown hd).2.2; omega⟩

/-- A case of C131: `cat` passes on one byte, and `std.system.pipe` returns it. -/
example : ∃ n m s, Run (cat [0x41] 65536 true) (some []) n m s ∧ s.pc = .done (.returned (some [0x41])) := by
  have r0 : Run (cat [0x41] 65536 true) (some []) 0 0 (start [0x41] (some [])) := .start
  have r1 := Run.parent r0 (.poll _ true rfl (fun _ => ⟨rfl, by decide⟩) (fun _ _ => rfl) rfl)
  have r2 := Run.parent r1 (.hup _ _ _ _ rfl)
  have r3 := Run.parent r2 (.writeStart _ _ rfl)
  have r4 := Run.parent r3 (.writeSome _ [0x41] [] rfl rfl rfl (by simp) (by decide))
  have r5 := Run.parent r4 (.writeEnd _ rfl rfl)
  have r6 := Run.child r5 (.readSome _ (fun p => if p = [] then none else some p) [0x41] [] rfl rfl rfl rfl (by simp))
  have r7 := Run.child r6 (.write _ 0x41 (some []) rfl rfl rfl rfl (by decide))
  have r8 := Run.child r7 (.readEnd _ (fun p => if p = [] then none else some p) rfl rfl rfl rfl rfl)
  have r9 := Run.parent r8 (.check _ rfl)
  have r10 := Run.parent r9 (.poll _ false rfl nofun (fun h => by cases h) rfl)
  have r11 := Run.parent r10 (.readSome _ _ _ _ [0x41] [] rfl rfl (by simp) (by decide))
  have r12 := Run.parent r11 (.err _ _ rfl)
  have r13 := Run.parent r12 (.check _ rfl)
  have r14 := Run.child r13 (.exit _ (some 0) rfl rfl)
  have r15 := Run.parent r14 (.poll _ false rfl nofun (fun h => by cases h) rfl)
  have r16 := Run.parent r15 (.hup _ _ _ _ rfl)
  have r17 := Run.parent r16 (.err _ _ rfl)
  have r18 := Run.parent r17 (.check _ rfl)
  have r19 := Run.parent r18 (.wait _ (some 0) rfl rfl)
  exact ⟨_, _, _, r19, rfl⟩

/-- A case of C130 where the input fits: nothing is stuck before the end of the run above. -/
example (n m : Nat) (s : State (Option Bytes)) (h : Run (cat [0x41] 65536 true) (some []) n m s) (hs : Stuck (cat [0x41] 65536 true) s) : ∃ o, s.pc = .done o :=
  C130_short_partial _ _ n m s (by decide) (by decide) h hs

end Asteria.Pipe
