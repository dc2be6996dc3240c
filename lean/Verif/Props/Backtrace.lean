import Verif.Proof.Backtrace

/-!
# C157: exceptions have complete backtraces, and the message says so

The hypotheses are that values print as less than 2^64 bytes, that there are less than 2^64 frames, and that line numbers are `int`s.
-/

namespace Asteria.Backtrace

/-- **C157, `throw` statements.** Of an exception that is thrown while `cur` is being handled, and has gone through some events, the frames
are: the statement, the events in order, and after the event that ends the handling of `cur`, the frames of `cur`.  The message is
always that of the present frames. -/
theorem C157_throw {V : Type} (S : Values V) (hS : ∀ v, (S.print v).length < 2 ^ 64) (cur : Option (Err V)) (value : V) (sloc : Sloc)
    (hl : sloc.Fits) (hf : ∀ f ∈ handledFrames cur, f.sloc.Fits) (evs : List (Event V)) (he : ∀ ev ∈ evs, ev.sloc.Fits)
    (hn : (handledFrames cur).length + 1 + evs.length < 2 ^ 64) :
    ∃ e e', newThrow S cur value sloc = .ok e ∧ pushAll S e evs = .ok e' ∧ e'.value = value ∧
      e'.frames = ⟨.throwStmt, sloc, value⟩ :: chain S value (handledFrames cur) evs ∧ e'.msg = render S value e'.frames :=
  made S hS cur value .throwStmt (some sloc) hl hf evs he hn

/-- **C157, assertions.** -/
theorem C157_assert {V : Type} (S : Values V) (hS : ∀ v, (S.print v).length < 2 ^ 64) (cur : Option (Err V)) (msg : Bytes) (sloc : Sloc)
    (hl : sloc.Fits) (hf : ∀ f ∈ handledFrames cur, f.sloc.Fits) (evs : List (Event V)) (he : ∀ ev ∈ evs, ev.sloc.Fits)
    (hn : (handledFrames cur).length + 1 + evs.length < 2 ^ 64) :
    ∃ e e', newAssert S cur sloc msg = .ok e ∧ pushAll S e evs = .ok e' ∧
      e'.value = S.ofString ("assertion failure: ".toUTF8.toList ++ msg) ∧
      e'.frames = ⟨.assertion, sloc, e'.value⟩ :: chain S e'.value (handledFrames cur) evs ∧ e'.msg = render S e'.value e'.frames := by
  obtain ⟨e, e', h1, h2, h3, h4, h5⟩ := made S hS cur (S.ofString ("assertion failure: ".toUTF8.toList ++ msg)) .assertion (some sloc)
    hl hf evs he hn
  exact ⟨e, e', h1, h2, h3, by rw [h3]; exact h4, by rw [h3]; exact h5⟩

/-- **C157, exceptions of native code.** -/
theorem C157_native {V : Type} (S : Values V) (hS : ∀ v, (S.print v).length < 2 ^ 64) (cur : Option (Err V)) (text : Bytes)
    (hf : ∀ f ∈ handledFrames cur, f.sloc.Fits) (evs : List (Event V)) (he : ∀ ev ∈ evs, ev.sloc.Fits)
    (hn : (handledFrames cur).length + 1 + evs.length < 2 ^ 64) :
    ∃ e e', newFormat S cur text = .ok e ∧ pushAll S e evs = .ok e' ∧ e'.value = S.ofString text ∧
      e'.frames = ⟨.native, ⟨"[unknown]".toUTF8.toList, -1, -1⟩, e'.value⟩ :: chain S e'.value (handledFrames cur) evs ∧
      e'.msg = render S e'.value e'.frames := by
  obtain ⟨e, e', h1, h2, h3, h4, h5⟩ := made S hS cur (S.ofString text) .native none
    (by unfold Option.getD Sloc.unknown Sloc.Fits; decide) hf evs he hn
  exact ⟨e, e', h1, h2, h3, by rw [h3]; exact h4, by rw [h3]; exact h5⟩

/-- **C157, order.** In a chain, the events are in order, and so are the frames of what was being handled; there is nothing else. -/
theorem C157_order {V : Type} (S : Values V) (value : V) (handled : List (Frame V)) (evs : List (Event V)) :
    handled.Sublist (chain S value handled evs) ∧ (evs.map (Event.frame S value)).Sublist (chain S value handled evs)
    ∧ (chain S value handled evs).length = handled.length + evs.length := by
  refine ⟨(chain_handled S value handled evs).1, (chain_handled S value handled evs).2, ?_⟩
  induction evs with
  | nil => rfl
  | cons ev evs ih =>
    unfold chain
    split
    · simp; omega
    · simp [ih]; omega

/-- **C157, nothing is forgotten.** An exception that replaces another one has all of its frames, in order; so has what comes out of a
scope whose deferred expressions throw. -/
theorem C157_kept {V : Type} (S : Values V) :
    (∀ cur e, Thrown S cur e → (handledFrames cur).Sublist e.frames)
    ∧ ∀ (ds : List (Deferred V)), (∀ d ∈ ds, ∀ e n, d.2 (some e) = .ok (some n) → Thrown S (some e) n) →
      ∀ e e', scopeExit S e ds = .ok e' → e.frames.Sublist e'.frames := by
  refine ⟨fun _ _ h => thrown_keeps h, ?_⟩
  intro ds
  induction ds with
  | nil => intro _ e e' h; cases h; exact List.Sublist.refl _
  | cons d ds ih =>
    intro hd e e' h
    have ih := ih (fun d h => hd d (by simp [h]))
    obtain ⟨sloc, run⟩ := d
    unfold scopeExit at h
    generalize hr : run (some e) = r at h
    cases r with
    | throw => cases h
    | ub => cases h
    | ok r =>
      rw [Res.ok_bind] at h
      cases r with
      | none => exact ih e e' h
      | some n =>
        have h1 : e.frames.Sublist n.frames := thrown_keeps (hd (sloc, run) (by simp) e n hr)
        dsimp only at h
        generalize hp : pushDefer S n sloc = p at h
        cases p with
        | throw => cases h
        | ub => cases h
        | ok p => exact (h1.trans (push_keeps (ev := .deferStmt sloc) hp)).trans (ih p e' h)

/-- **C157, what replaces what.** What comes out of a scope is what was thrown by the last deferred expression that throws, with a frame
for it; deferred expressions that do not throw change nothing. -/
theorem C157_replaced {V : Type} (S : Values V) (e e' : Err V) (before after : List (Deferred V))
    (hq : ∀ d ∈ after, ∀ x r, d.2 x = .ok r → r = none) :
    (scopeExit S e after = .ok e' → e' = e)
    ∧ ∀ (sloc : Sloc) (run : Option (Err V) → Res (Option (Err V))) (v : V),
      (∀ x r, run x = .ok r → ∃ n, r = some n ∧ n.value = v) → scopeExit S e (before ++ (sloc, run) :: after) = .ok e' →
      e'.value = v ∧ ⟨.deferStmt, sloc, v⟩ ∈ e'.frames := by
  refine ⟨scopeExit_quiet hq, ?_⟩
  intro sloc run v hv
  induction before generalizing e with
  | nil =>
    intro h
    rw [List.nil_append] at h
    unfold scopeExit at h
    generalize hr : run (some e) = r at h
    cases r with
    | throw => cases h
    | ub => cases h
    | ok r =>
      obtain ⟨n, rfl, rfl⟩ := hv _ r hr
      rw [Res.ok_bind] at h
      dsimp only at h
      generalize hp : pushDefer S n sloc = p at h
      cases p with
      | throw => cases h
      | ub => cases h
      | ok p =>
        rw [scopeExit_quiet hq h]
        exact pushDefer_has hp
  | cons d before ih =>
    intro h
    obtain ⟨l, run'⟩ := d
    rw [List.cons_append] at h
    unfold scopeExit at h
    generalize hr : run' (some e) = r at h
    cases r with
    | throw => cases h
    | ub => cases h
    | ok r =>
      rw [Res.ok_bind] at h
      cases r with
      | none => exact ih e h
      | some n =>
        dsimp only at h
        generalize hp : pushDefer S n l = p at h
        cases p with
        | throw => cases h
        | ub => cases h
        | ok p => exact ih p h

/-- **C157, `__backtrace`.** It has an element for each frame, in order, with its type, location and value. -/
theorem C157_backtrace {V : Type} (e : Err V) : backtrace e = .ok (e.frames.map seen) := by
  unfold backtrace
  rw [backtraceLoop_eq e _ 0 [] (by omega)]
  simp only [List.drop_zero, List.nil_append]
  congr 1
  exact List.map_congr_left fun f _ => element_eq f

/-! ## Cases -/

/-- Values that are strings, which are written with quotes. -/
def strings : Values Bytes := ⟨some, fun s => 0x22 :: (s ++ [0x22]), id⟩

/-- The message of an exception, after some events. -/
def shownText (evs : List (Event Bytes)) : Bytes :=
  match newFormat strings none (lit "Zero as divisor") with
  | .ok e => match pushAll strings e evs with
    | .ok e => e.msg
    | _ => []
  | _ => []

example : shownText [.plain ⟨lit "expression #1", 1, 3⟩ [], .func ⟨lit "expression #1", 0, 0⟩ (lit "[file scope]")]
    = lit "runtime error: Zero as divisor\n[backtrace frames:\n  1) native code at '[unknown]:-1:-1': \"Zero as divisor\"\n  2)   expression at 'expression #1:1:3': \"\"\n  3)   function at 'expression #1:0:0': \"[file scope]\"\n  -- end of backtrace frames]" := by
  decide +kernel

example : ((⟨lit "expression #1", 1, 3⟩ : Sloc)).Fits := by unfold Sloc.Fits; decide

example : numeral 10 = [0x31, 0x30] ∧ line strings 2 9 ⟨.func, ⟨lit "a", 0, -1⟩, lit "f"⟩ = lit "\n   9)   function at 'a:0:-1': \"f\"" := by
  constructor
  · simp [numeral]
  · simp [line, numeral, integer, strings, shortened, title, lit]; decide +kernel

example : chain strings [0x61] [⟨.native, Sloc.unknown, [0x62]⟩]
    [.plain ⟨[], 1, 2⟩ [], .catchClause ⟨[], 3, 4⟩ [0x62], .plain ⟨[], 5, 6⟩ []]
    = [⟨.plain, ⟨[], 1, 2⟩, []⟩, ⟨.catchClause, ⟨[], 3, 4⟩, [0x62]⟩, ⟨.native, Sloc.unknown, [0x62]⟩, ⟨.plain, ⟨[], 5, 6⟩, []⟩] := rfl

/-- A deferred expression that throws. -/
def throws : Deferred Bytes := (⟨[], 1, 1⟩, fun cur => (newThrow strings cur [0x61] ⟨[], 2, 2⟩).map some)

example (e n : Err Bytes) (h : throws.2 (some e) = .ok (some n)) : Thrown strings (some e) n := by
  unfold throws at h
  dsimp only at h
  generalize hi : newThrow strings (some e) [0x61] ⟨[], 2, 2⟩ = r at h
  cases r with
  | ok r => cases h; exact .byThrow (evs := []) hi rfl
  | throw => cases h
  | ub => cases h

/-- A deferred expression that does not. -/
def quiet : Deferred Bytes := (⟨[], 3, 3⟩, fun _ => .ok none)

example : (match scopeExit strings ⟨[0x62], [], 0, []⟩ [throws, quiet] with
    | .ok e => decide (e.value = [0x61] ∧ e.frames.map (·.type) = [.throwStmt, .deferStmt])
    | _ => false) = true := by decide +kernel

end Asteria.Backtrace
