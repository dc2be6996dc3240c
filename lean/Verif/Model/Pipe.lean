import Verif.Model.Basic

/-!
# Running a program with input and output

`std_system_pipe`, /repo/asteria/src/library/system.cpp:228-386, from line 306 on, when the program has been started: the function and the
program run at the same time, and are connected by two pipes.  Simplified: no system call fails unless it is said; the time limit of
`::poll()`, after which it is called again, is left out; signals whose handlers return are left out.
-/

namespace Asteria.Pipe

/-- What a program asks for next: to read from its standard input, which gives something or nothing at the end; to write a byte to its
standard output; to close one of them; or to exit with a status, or because of a signal.  Not in /repo: any program may be
started at system.cpp:298. -/
inductive Ask (σ : Type) where
  | read (k : Bytes → σ)
  | write (b : UInt8) (k : σ)
  | closeIn (k : σ)
  | closeOut (k : σ)
  | exit (status : Option Nat)

/-- How `std_system_pipe` ends: it returns a string or null, it throws an exception, or the process that called it is killed by
`SIGPIPE`. -/
inductive Outcome where
  | returned (output : Option Bytes)
  | thrown
  | killed
deriving DecidableEq

/-- Where `std_system_pipe` is: at `::poll()`, system.cpp:325; at line 331 with the events `POLLIN`, `POLLHUP` and `POLLOUT`, `POLLERR`; at line 348
with the latter; in `::write()`, line 350; at line 364; at `::waitpid()`, line 372; or at its end. -/
inductive Pc where
  | poll
  | rd (pollin pollhup pollout pollerr : Bool)
  | wr (pollout pollerr : Bool)
  | write
  | check
  | wait
  | done (o : Outcome)
deriving DecidableEq

/-- The local variables of `std_system_pipe`, the pipes and the program.  `outR` and `inW` tell whether the descriptors are open, system.cpp:245;
`written` is `in_written`; `moved` is how much the call of `::write()` has written so far; `inp` and `out` are what the pipes hold; `reader` and `writer`
tell whether the standard input and output of the program are open; `got` and `said` are all that the program has
read and written. -/
structure State (σ : Type) where
  pc : Pc := .poll
  outR : Bool := true
  inW : Bool
  output : Bytes := []
  written : Nat := 0
  moved : Nat := 0
  inp : Bytes := []
  out : Bytes := []
  child : σ
  reader : Bool := true
  writer : Bool := true
  exited : Option (Option Nat) := none
  got : Bytes := []
  said : Bytes := []

/-- The state when the program has been started, system.cpp:306-314; an input that is null is as one that is empty. -/
def start (input : Bytes) (child : σ) : State σ := { inW := !input.isEmpty, child := child }

/-- A program, and what is given: the input, how much a pipe holds, and whether `SIGPIPE` has its default action. -/
structure Setup (σ : Type) where
  ask : σ → Ask σ
  input : Bytes
  cap : Nat
  sigpipe : Bool

/-- What the program does.  Not in /repo: pipes of POSIX. -/
inductive ChildStep (S : Setup σ) : State σ → State σ → Prop
  | readSome (s k p rest) : s.exited = none → S.ask s.child = .read k → s.reader = true → s.inp = p ++ rest → p ≠ [] →
      ChildStep S s { s with child := k p, inp := rest, got := s.got ++ p }
  | readEnd (s k) : s.exited = none → S.ask s.child = .read k → s.reader = true → s.inp = [] → s.inW = false →
      ChildStep S s { s with child := k [] }
  | readBad (s k) : s.exited = none → S.ask s.child = .read k → s.reader = false →
      ChildStep S s { s with child := k [] }
  | write (s b k) : s.exited = none → S.ask s.child = .write b k → s.writer = true → s.outR = true → s.out.length < S.cap →
      ChildStep S s { s with child := k, out := s.out ++ [b], said := s.said ++ [b] }
  | writePipe (s b k) : s.exited = none → S.ask s.child = .write b k → s.writer = true → s.outR = false →
      ChildStep S s { s with exited := some none, reader := false, writer := false }
  | writeBad (s b k) : s.exited = none → S.ask s.child = .write b k → s.writer = false →
      ChildStep S s { s with child := k }
  | closeIn (s k) : s.exited = none → S.ask s.child = .closeIn k →
      ChildStep S s { s with child := k, reader := false }
  | closeOut (s k) : s.exited = none → S.ask s.child = .closeOut k →
      ChildStep S s { s with child := k, writer := false }
  | exit (s st) : s.exited = none → S.ask s.child = .exit st →
      ChildStep S s { s with exited := some st, reader := false, writer := false }

/-- What `std_system_pipe` does, system.cpp:316-385.  `::poll()` waits for an event; `POLLOUT` is reported if the pipe is empty, and is not if it is full.
`::write()` of a pipe that is not in non-blocking mode returns when all has been written. -/
inductive ParentStep (S : Setup σ) : State σ → State σ → Prop
  /-- system.cpp:317-329. -/
  | poll (s pollout) : s.pc = .poll → (pollout = true → s.inW = true ∧ s.inp.length < S.cap) → (s.inW = true → s.inp = [] → pollout = true) →
      ((s.outR && !s.out.isEmpty) || (s.outR && !s.writer) || pollout || (s.inW && !s.reader)) = true →
      ParentStep S s { s with pc := .rd (s.outR && !s.out.isEmpty) (s.outR && !s.writer) pollout (s.inW && !s.reader) }
  /-- system.cpp:331-341. -/
  | readSome (s h o e p rest) : s.pc = .rd true h o e → s.out = p ++ rest → p ≠ [] → p.length ≤ 65536 →
      ParentStep S s { s with pc := .wr o e, output := s.output ++ p, out := rest }
  /-- system.cpp:342-343. -/
  | readEnd (s h o e) : s.pc = .rd true h o e → s.out = [] → s.writer = false →
      ParentStep S s { s with pc := .wr o e, outR := false }
  /-- system.cpp:345-346. -/
  | hup (s h o e) : s.pc = .rd false h o e →
      ParentStep S s { s with pc := .wr o e, outR := s.outR && !h }
  /-- system.cpp:348-350. -/
  | writeStart (s e) : s.pc = .wr true e →
      ParentStep S s { s with pc := .write }
  /-- system.cpp:361-362. -/
  | err (s e) : s.pc = .wr false e →
      ParentStep S s { s with pc := .check, inW := s.inW && !e }
  /-- system.cpp:350. -/
  | writeSome (s p rest) : s.pc = .write → s.reader = true → S.input.drop (s.written + s.moved) = p ++ rest → p ≠ [] → s.inp.length + p.length ≤ S.cap →
      ParentStep S s { s with inp := s.inp ++ p, moved := s.moved + p.length }
  /-- system.cpp:357-359. -/
  | writeEnd (s) : s.pc = .write → S.input.drop (s.written + s.moved) = [] →
      ParentStep S s { s with pc := .check, written := s.written + s.moved, moved := 0, inW := s.inW && decide (s.written + s.moved < S.input.length) }
  /-- system.cpp:350: the standard input of the program has been closed. -/
  | writeKill (s) : s.pc = .write → s.reader = false → S.input.drop (s.written + s.moved) ≠ [] → S.sigpipe = true →
      ParentStep S s { s with pc := .done .killed }
  /-- system.cpp:351-355. -/
  | writeFail (s) : s.pc = .write → s.reader = false → S.input.drop (s.written + s.moved) ≠ [] → S.sigpipe = false → s.moved = 0 →
      ParentStep S s { s with pc := .done .thrown }
  /-- system.cpp:357-359. -/
  | writePart (s) : s.pc = .write → s.reader = false → S.input.drop (s.written + s.moved) ≠ [] → S.sigpipe = false → s.moved ≠ 0 →
      ParentStep S s { s with pc := .check, written := s.written + s.moved, moved := 0 }
  /-- system.cpp:364-365. -/
  | check (s) : s.pc = .check →
      ParentStep S s { s with pc := if !s.outR && !s.inW then .wait else .poll }
  /-- system.cpp:368-385. -/
  | wait (s st) : s.pc = .wait → s.exited = some st →
      ParentStep S s { s with pc := .done (.returned (if st = some 0 then some s.output else none)) }

/-- A run with the given number of steps of the program and of `std_system_pipe`, in any order. -/
inductive Run (S : Setup σ) (child : σ) : Nat → Nat → State σ → Prop
  | start : Run S child 0 0 (start S.input child)
  | child {n m s s'} : Run S child n m s → ChildStep S s s' → Run S child (n + 1) m s'
  | parent {n m s s'} : Run S child n m s → ParentStep S s s' → Run S child n (m + 1) s'

end Asteria.Pipe
