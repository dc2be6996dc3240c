import Verif.Model.MemPool

/-!
# Where blocks are
-/

namespace Asteria.MemPool

variable {T : Type}

/-- Who may access an address: no one; the callers of `xmemalloc`; it is in a list; a thread that is in one of the functions. -/
inductive Owner (T : Type) where
  | free
  | user
  | pool (si : Nat)
  | thr (t : T)

/-- A block is in the list that begins with a pointer. -/
inductive Linked (next : Addr → Option Addr) : Option Addr → Addr → Prop
  | here {a} : Linked next (some a) a
  | there {a b} : Linked next (next a) b → Linked next (some a) b

/-- The blocks that a thread works on. -/
def Uses (w : World T) (t : T) (a : Addr) : Prop :=
  match w.pc t with
  | .idle | .take _ _ | .new _ | .clean _ => False
  | .test _ b | .drop _ b => Linked w.next (some b) a
  | .swap _ b m => a = b ∨ Linked w.next (some m) a
  | .del p k => Linked w.next p a ∨ ∃ q, k = .give q a
  | .give _ b | .free _ b _ | .load _ b | .cas _ b | .flush _ b => a = b

/-- Requests of at most half the address space, or such that `element_size * count` overflows. -/
def Act.sane : Act T → Prop
  | .alloc _ q _ => q.bytes ≤ 2 ^ 63 ∨ q.bytes ≥ 2 ^ 64
  | _ => True

variable [DecidableEq T]

/-- States that can be reached. -/
def Reach (w : World T) : Prop := ∃ as : List (Act T), (∀ a ∈ as, a.sane) ∧ run (World.init T) as = .ok w

end Asteria.MemPool
