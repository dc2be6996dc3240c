import Verif.Model.Env

/-!
# Specification for C144 and C145
-/

namespace Asteria.Env.Spec

/-- The value of a variable in an object. -/
def field (k : Bytes) (vars : List (Bytes × Bytes)) : Option Bytes := (vars.find? (fun e => e.1 = k)).map Prod.snd

/-- A name. -/
def Name (k : Bytes) : Prop := k ≠ [] ∧ (61 : UInt8) ∉ k ∧ (0 : UInt8) ∉ k

/-- A string in the environment: a name, `=`, and a value. -/
def entry (x : Bytes × Bytes) : Bytes := x.1 ++ 61 :: x.2

/-- What can happen to a program. -/
inductive Event where
  | exited (status : Nat)
  | killed (signal : Nat) (core : Bool)
  | stopped (signal : Nat)
  | continued

/-- How Linux encodes that in a status, <bits/waitstatus.h>. -/
def Event.code : Event → Nat
  | .exited status => status * 256
  | .killed signal core => signal + (if core then 128 else 0)
  | .stopped signal => signal * 256 + 127
  | .continued => 65535

/-- Which there are. -/
def Event.Valid : Event → Prop
  | .exited status => status < 256
  | .killed signal _ => 0 < signal ∧ signal ≤ 64
  | .stopped signal => 0 < signal ∧ signal ≤ 64
  | .continued => True

/-- The program has not ended. -/
def Event.Pause : Event → Prop
  | .stopped _ => True
  | .continued => True
  | _ => False

/-- The documented result. -/
def Event.result : Event → Nat
  | .exited status => status
  | .killed signal _ => 128 + signal
  | _ => 0

/-- A value that can be passed to a program. -/
def Passable (a : Arg) (s : Bytes) : Prop := a = .string s ∧ (0 : UInt8) ∉ s

end Asteria.Env.Spec
