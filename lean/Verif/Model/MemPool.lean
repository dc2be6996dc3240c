import Verif.Model.Basic
import Mathlib.Logic.Function.Basic

/-!
# Model of the memory pools

/repo/asteria/src/rocket/xmemory.cpp: `xmemalloc`, `xmemfree` and `xmemclean`, which keep freed blocks in 64 lists that all
threads share.  Threads take turns at each access to a list head; that is what `atomic_acq_rel`,
/repo/asteria/rocket/atomic.hpp:110-144, is taken to mean.  Steps in between, which access only the blocks themselves, are
separate steps here as well.

A block has an address; the heap of the system knows which addresses are blocks that have been got from `operator new` and
not been given to `operator delete`, and how large they are.  Any access to an address that is not such a block, or beyond
its size, is undefined behaviour.
-/

namespace Asteria.MemPool

/-- Addresses of blocks; the null pointer is `none`. -/
abbrev Addr := Nat

/-- `lzcnt64`, /repo/asteria/rocket/fwd.hpp:711-715. -/
def lzcnt64 (x : Nat) : Nat := if x = 0 then 64 else 63 - Nat.log2 x

/-- The number of the pool in `do_get_pool_for_size`, xmemory.cpp:25-41; the size becomes 2 to this power. -/
def pool (size : Nat) : Nat := if size > 2 ^ 5 then 64 - lzcnt64 (size - 1) else 5

/-- `xmemopt`, /repo/asteria/rocket/xmemory.hpp:18-23. -/
inductive Opt where
  | use | bypass | clear
deriving DecidableEq

/-- A call to `xmemalloc`: `info.element_size`, `info.count`. -/
structure Req where
  esize : Nat
  count : Nat
deriving DecidableEq

/-- The size that is asked for. -/
def Req.bytes (q : Req) : Nat := q.esize * q.count

/-- `info.count` when `xmemalloc` returns, xmemory.cpp:92. -/
def Req.got (q : Req) : Nat := if q.esize > 1 then 2 ^ pool q.bytes / q.esize else 2 ^ pool q.bytes

/-- What comes after `do_deallocate_list`: `xmemalloc` returns a block; `xmemfree` returns; `xmemclean` goes on. -/
inductive After where
  | give (q : Req) (b : Addr)
  | done
  | clean (si : Nat)
deriving DecidableEq

/-- Where a thread is, xmemory.cpp:56-140. -/
inductive Pc where
  /-- Outside. -/
  | idle
  /-- `b = p.head.xchg(nullptr)`, line 69 or 75. -/
  | take (q : Req) (o : Opt)
  /-- `b->next != nullptr`, line 70. -/
  | test (q : Req) (b : Addr)
  /-- `b->next = p.head.xchg(b->next)`, line 71; `m` is the old `b->next`.  The exchange and the store to
  the block, which no other thread accesses, are one step. -/
  | swap (q : Req) (b m : Addr)
  /-- `b = ::operator new(rsize)`, line 80. -/
  | new (q : Req)
  /-- `do_deallocate_list(b->next)`, line 82: `b->next` is read. -/
  | drop (q : Req) (b : Addr)
  /-- The loop in `do_deallocate_list`, lines 43-52. -/
  | del (p : Option Addr) (k : After)
  /-- Lines 84-92, and the return. -/
  | give (q : Req) (b : Addr)
  /-- Lines 103-114. -/
  | free (si : Nat) (b : Addr) (o : Opt)
  /-- `b->next = p.head.load()`, line 118. -/
  | load (si : Nat) (b : Addr)
  /-- `p.head.cmpxchg_weak(b->next, b)`, line 119. -/
  | cas (si : Nat) (b : Addr)
  /-- `b->next = p.head.xchg(nullptr)`, line 124. -/
  | flush (si : Nat) (b : Addr)
  /-- `free_block* b = p.head.xchg(nullptr)` for pool `si`, line 137, and the loop around it. -/
  | clean (si : Nat)
deriving DecidableEq

/-- The state: list heads; the field `next` at the beginning of each block; the blocks of the system with their sizes; the
blocks that have been given to callers of `xmemalloc`, with the number of bytes that `info` has told them; where threads
are. -/
structure World (T : Type) where
  head : Nat → Option Addr
  next : Addr → Option Addr
  real : Addr → Option Nat
  held : Addr → Option Nat
  pc : T → Pc

/-- The state in which a process begins. -/
def World.init (T : Type) : World T := ⟨fun _ => none, fun _ => none, fun _ => none, fun _ => none, fun _ => .idle⟩

/-- What may happen next. -/
inductive Act (T : Type) where
  /-- Thread `t` calls `xmemalloc`. -/
  | alloc (t : T) (q : Req) (o : Opt)
  /-- Thread `t` calls `xmemfree` with a block and `info`; `info.count` may be less than what `xmemalloc` has told, as
  `Reference_Dictionary::do_clear` and `Variable_HashMap::do_clear` pass `m_nbkt` and not `m_nbkt + 1`,
  /repo/asteria/src/llds/reference_dictionary.cpp:81, /repo/asteria/src/llds/variable_hashmap.cpp:80. -/
  | free (t : T) (b : Addr) (q : Req) (o : Opt)
  /-- Thread `t` calls `xmemclean`. -/
  | clean (t : T)
  /-- A thread writes something to the beginning of a block that its callers hold. -/
  | write (b : Addr) (x : Option Addr)
  /-- Thread `t`, which is in one of these functions, makes one step.  `a` is the address of a block from the system, or
  none if `operator new` throws; `s` is whether `cmpxchg_weak` fails without a reason. -/
  | step (t : T) (a : Option Addr) (s : Bool)

section

variable {T : Type} [DecidableEq T]

/-- Thread `t` goes on at `p`. -/
def World.goto (w : World T) (t : T) (p : Pc) : World T := { w with pc := Function.update w.pc t p }

/-- `b->next = x`. -/
def World.setNext (w : World T) (b : Addr) (x : Option Addr) : World T := { w with next := Function.update w.next b x }

/-- `s_pools[si].head = x`. -/
def World.setHead (w : World T) (si : Nat) (x : Option Addr) : World T := { w with head := Function.update w.head si x }

/-- An access to `n` bytes of a block. -/
def World.touch (w : World T) (b : Addr) (n : Nat) (k : World T) : Res (World T) :=
  match w.real b with
  | none => .ub
  | some s => if n ≤ s then .ok k else .ub

/-- Where `After` leads to; for `xmemclean`, lines 135-139. -/
def After.pc : After → Pc
  | .give q b => .give q b
  | .done => .idle
  | .clean si => if si + 1 < 64 then .clean (si + 1) else .idle

/-- One step of a thread, xmemory.cpp:56-140. -/
def step (w : World T) (t : T) (a : Option Addr) (s : Bool) : Res (World T) :=
  match w.pc t with
  | .idle => .ok w
  | .take q o =>
    let si := pool q.bytes
    let w' := w.setHead si none
    match w.head si with
    | none => .ok (w'.goto t (.new q))
    | some b => .ok (w'.goto t (if o = .use then .test q b else .drop q b))
  | .test q b => w.touch b 16 (w.goto t (match w.next b with
      | none => .drop q b
      | some m => .swap q b m))
  | .swap q b m =>
    let si := pool q.bytes
    w.touch b 16 (((w.setHead si (some m)).setNext b (w.head si)).goto t (.drop q b))
  | .new q =>
    match a with
    | none => .ok (w.goto t .idle)
    | some a =>
      if w.real a = none then
        .ok ({ w with real := Function.update w.real a (some (2 ^ pool q.bytes)) }.goto t (.give q a))
      else .ok w
  | .drop q b => w.touch b 16 (w.goto t (.del (w.next b) (.give q b)))
  | .del none k => .ok (w.goto t k.pc)
  | .del (some p) k => w.touch p 16 ({ w with real := Function.update w.real p none }.goto t (.del (w.next p) k))
  | .give q b => w.touch b (2 ^ pool q.bytes)
      ({ w with held := Function.update w.held b (some (q.esize * q.got)) }.goto t .idle)
  | .free si b o => w.touch b (2 ^ si) ((w.setNext b none).goto t (match o with
      | .use => .load si b
      | .clear => .flush si b
      | .bypass => .del (some b) .done))
  | .load si b => w.touch b 16 ((w.setNext b (w.head si)).goto t (.cas si b))
  | .cas si b =>
    if w.head si = w.next b ∧ s = false then w.touch b 16 ((w.setHead si (some b)).goto t .idle)
    else w.touch b 16 (w.setNext b (w.head si))
  | .flush si b => w.touch b 16 (((w.setHead si none).setNext b (w.head si)).goto t (.del (some b) .done))
  | .clean si => .ok ((w.setHead si none).goto t (.del (w.head si) (.clean si)))

/-- One event.  Calls take place only in threads that are outside, and `xmemfree` is called only with blocks that are held;
otherwise nothing happens. -/
def exec (w : World T) : Act T → Res (World T)
  | .alloc t q o =>
    if w.pc t ≠ .idle then .ok w
    else if q.bytes ≥ 2 ^ 64 then .ok w
    else if pool q.bytes ≥ 64 then .ub
    else .ok (w.goto t (if o = .bypass then .new q else .take q o))
  | .free t b q o =>
    if w.pc t ≠ .idle then .ok w
    else match w.held b with
      | none => .ok w
      | some n =>
        if q.bytes ≤ n then
          .ok ({ w with held := Function.update w.held b none }.goto t (.free (pool q.bytes) b o))
        else .ok w
  | .clean t => if w.pc t ≠ .idle then .ok w else .ok (w.goto t (.clean 0))
  | .write b x => if w.held b = none then .ok w else w.touch b 16 (w.setNext b x)
  | .step t a s => step w t a s

/-- Any number of events. -/
def run : World T → List (Act T) → Res (World T)
  | w, [] => .ok w
  | w, a :: as => (exec w a).bind fun w => run w as

end

end Asteria.MemPool
