import Verif.Model.MemPool

/-!
# Model of nodes in memory and of the reference stack

/repo/asteria/llds/avm_rod.hpp, /repo/asteria/src/llds/avm_rod.cpp: solidified code is a sequence of nodes of different
sizes in one block.  A block is a list of cells of `sizeof(Header)` = 16 bytes.  Moving a block moves the bytes of objects
in it.

/repo/asteria/llds/reference_stack.hpp, /repo/asteria/src/llds/reference_stack.cpp: references in one block.

What `xmemalloc` gives is as in `Verif.Model.MemPool`.  Failing assertions are undefined behaviour.
-/

namespace Asteria.Avm

open MemPool (Req)

/-- Functions that the owner of the rod passes: `Executor`, `Destructor`, `Collector`. -/
abbrev Fn := Nat

/-- `uint32_t`. -/
def u32 (n : Nat) : Nat := n % 2 ^ 32

/-- Subtraction of `uint32_t`. -/
def sub32 (a b : Nat) : Nat := u32 (a + 2 ^ 32 - b)

/-- `Uparam`, avm_rod.hpp:26-60: eight bytes.  The first is `nheaders`, and bit 0 of the second is `has_pv_meta`,
avm_rod.hpp:75-82; the others belong to the user. -/
structure Uparam where
  b0 : UInt8
  b1 : UInt8
  user : List UInt8
deriving DecidableEq

/-- `Metadata`, avm_rod.hpp:62-68. -/
structure Metadata (L : Type) where
  exec : Fn
  dtor : Option Fn
  coll : Option Fn
  sloc : Option L
deriving DecidableEq

/-- `pv_exec` or `pv_meta`, avm_rod.hpp:84-87.  Metadata are on the heap and have addresses. -/
inductive Pv where
  | unset
  | exec (f : Fn)
  | info (m : Nat)
deriving DecidableEq

/-- What is in `sparam`: zeros, or what a constructor has made. -/
inductive Obj (X : Type) where
  | zero
  | made (x : X)
deriving DecidableEq

/-- A cell: not initialized; a header; the `k`-th part of an object in `sparam`. -/
inductive Cell (X : Type) where
  | junk
  | head (up : Uparam) (pv : Pv)
  | part (o : Obj X) (k : Nat)
deriving DecidableEq

/-- `AVM_Rod`, avm_rod.hpp:92-95: `m_bptr` with what is there, and `m_einit`; `m_estor` is the number of cells. -/
structure Rod (X : Type) where
  mem : Option (List (Cell X))
  einit : Nat

/-- `m_estor`. -/
def Rod.estor {X : Type} (r : Rod X) : Nat :=
  match r.mem with
  | none => 0
  | some m => m.length

/-- `*m_bptr`. -/
def Rod.cells {X : Type} (r : Rod X) : List (Cell X) := r.mem.getD []

/-- A default-constructed rod, avm_rod.hpp:93-100. -/
def Rod.new (X : Type) : Rod X := ⟨none, 0⟩

/-- Objects written to consecutive cells; beyond the end this is undefined. -/
def write {A : Type} (m : List A) (i : Nat) (cs : List A) : Res (List A) :=
  if i + cs.length ≤ m.length then .ok (m.take i ++ cs ++ m.drop (i + cs.length)) else .ub

/-- `do_reallocate`, avm_rod.cpp:14-41.  `good` says whether the system has memory. -/
def reallocate {X : Type} (r : Rod X) (estor : Nat) (good : Bool) : Res (Rod X) :=
  if estor ≥ 0x7FFE0000 / 16 then .throw
  else if estor < r.einit then .ub
  else if !good then .throw
  else
    let count := u32 (Req.got ⟨16, estor⟩)
    match r.mem with
    | none => .ok ⟨some (List.replicate count .junk), r.einit⟩
    | some m =>
      if r.einit ≤ Req.got ⟨16, estor⟩ ∧ r.einit ≤ m.length then
        .ok ⟨some (m.take r.einit ++ List.replicate (count - r.einit) .junk), r.einit⟩
      else .ub

/-- The arguments of `push_function`, avm_rod.hpp:155-158.  A constructor makes an object or throws. -/
structure Arg (X L : Type) where
  exec : Fn
  up : Uparam
  size : Nat
  ctor : Option (Option X)
  dtor : Option Fn
  coll : Option Fn
  sloc : Option L

/-- What the surroundings do in a call to `push_function`: whether memory is there for metadata and for nodes, and the
address of the metadata. -/
structure Luck where
  info : Bool
  addr : Nat
  nodes : Bool

/-- `ctor_opt || dtor_opt || coll_opt || sloc_opt`, avm_rod.cpp:97. -/
def Arg.needsMeta {X L : Type} (a : Arg X L) : Bool := a.ctor.isSome || a.dtor.isSome || a.coll.isSome || a.sloc.isSome

/-- A call to a destructor, with the user's part of `uparam` and the object. -/
structure Death (X : Type) where
  dtor : Fn
  user : List UInt8
  obj : Option (Obj X)
deriving DecidableEq

/-- Some rods, metadata on the heap, and the calls to destructors so far. -/
structure State (R X L : Type) where
  rod : R → Rod X
  metas : Nat → Option (Metadata L)
  log : List (Death X)

/-- The state in which all rods are new. -/
def State.init (R X L : Type) : State R X L := ⟨fun _ => Rod.new X, fun _ => none, []⟩

section
variable {R X L : Type} [DecidableEq R]

/-- `this` becomes `r'`. -/
def State.set (s : State R X L) (r : R) (r' : Rod X) : State R X L := { s with rod := Function.update s.rod r r' }

/-- `delete pv_meta`; undefined if it is not there. -/
def State.delete (s : State R X L) (m : Nat) : Res (State R X L) :=
  match s.metas m with
  | none => .ub
  | some _ => .ok { s with metas := Function.update s.metas m none }

/-- The object is initialized and the node counted, avm_rod.cpp:117-136; `r` has room and `m` is the metadata.  The
constructor throws: nothing more happens to the rod. -/
def construct (r : Rod X) (a : Arg X L) (p1 : Nat) (m : Option Nat) : Res (Rod X × Bool) :=
  let n := p1 - 1
  let up : Uparam := ⟨UInt8.ofNat n, 0, a.up.user⟩
  (write r.cells r.einit [.head up .unset]).bind fun c =>
    match a.ctor with
    | some none => .ok (⟨some c, r.einit⟩, true)
    | _ =>
      let o : Obj X := match a.ctor with
        | some (some x) => .made x
        | _ => .zero
      (write c (r.einit + 1) ((List.range n).map (.part o))).bind fun c =>
        let h : Cell X := match m with
          | none => .head up (.exec a.exec)
          | some m => .head ⟨up.b0, up.b1 ||| 1, up.user⟩ (.info m)
        (write c r.einit [h]).bind fun c =>
          .ok (⟨some c, u32 (r.einit + p1)⟩, false)

/-- `push_function`, avm_rod.cpp:84-138; `dbg` says whether `ASTERIA_DEBUG` is defined.  The second component is whether
it throws; metadata that have not been released are deleted then.  Addresses of metadata that are in use do not come
from the system. -/
def push (dbg : Bool) (s : State R X L) (r : R) (a : Arg X L) (k : Luck) : Res (State R X L × Bool) :=
  if a.size > 255 * 16 - 1 then .ok (s, true)
  else if a.needsMeta = true ∧ (k.info = false ∨ s.metas k.addr ≠ none) then .ok (s, true)
  else
    let rod := s.rod r
    let p1 := u32 (1 + (a.size + 16 - 1) / 16)
    let grown :=
      if dbg then reallocate rod (u32 (rod.einit + p1)) k.nodes
      else if p1 > sub32 rod.estor rod.einit then reallocate rod (u32 (rod.einit * 2 + p1 + 5)) k.nodes
      else .ok rod
    match grown with
    | .ub => .ub
    | .throw => .ok (s, true)
    | .ok rod =>
      (construct rod a p1 (if a.needsMeta then some k.addr else none)).bind fun (rod, threw) =>
        let s := s.set r rod
        if threw then .ok (s, true)
        else if a.needsMeta then
          .ok ({ s with metas := Function.update s.metas k.addr (some ⟨a.exec, a.dtor, a.coll, a.sloc⟩) }, false)
        else .ok (s, false)

/-- The loop `for(auto head = m_bptr; head != eptr; head += 1U + head->nheaders)`, avm_rod.cpp:67, 154, 186.  The body gets
the position of a header and what is there, and says whether the loop ends.  The first argument bounds the number of
iterations; what is not a header, or not in the block, must not be accessed. -/
def walk {S : Type} (mem : List (Cell X)) (e : Nat) (f : Nat → Uparam → Pv → S → Res (Bool × S)) : Nat → Nat → S → Res S
  | 0, i, s => if i = e then .ok s else .ub
  | n + 1, i, s =>
    if i = e then .ok s
    else match mem[i]? with
      | some (.head up pv) => (f i up pv s).bind fun (stop, s) =>
        if stop then .ok s else walk mem e f n (i + (1 + up.b0.toNat)) s
      | _ => .ub

/-- What callbacks find in `sparam`, of `n` cells after the header at `i`. -/
def object [DecidableEq X] (mem : List (Cell X)) (i n : Nat) : Res (Option (Obj X)) :=
  if n = 0 then .ok none
  else match mem[i + 1]? with
    | some (.part o 0) =>
      if (mem.drop (i + 1)).take n = (List.range n).map (.part o) then .ok (some o) else .ub
    | _ => .ub

/-- `has_pv_meta`. -/
def Uparam.hasMeta (up : Uparam) : Bool := up.b1 &&& 1 ≠ 0

/-- `*pv_meta`. -/
def State.info (s : State R X L) : Pv → Res (Nat × Metadata L)
  | .info m => match s.metas m with
    | some x => .ok (m, x)
    | none => .ub
  | _ => .ub

/-- The destructor of a node, if it has one, avm_rod.cpp:71-72. -/
def bury [DecidableEq X] (mem : List (Cell X)) (i : Nat) (up : Uparam) (dtor : Option Fn) (s : State R X L) :
    Res (State R X L) :=
  match dtor with
  | none => .ok s
  | some d => (object mem i up.b0.toNat).bind fun o => .ok { s with log := s.log ++ [⟨d, up.user, o⟩] }

/-- The body of the loop in `clear`, avm_rod.cpp:68-74. -/
def clearNode [DecidableEq X] (mem : List (Cell X)) (i : Nat) (up : Uparam) (pv : Pv) (s : State R X L) :
    Res (Bool × State R X L) :=
  if !up.hasMeta then .ok (false, s)
  else (s.info pv).bind fun (m, x) => (bury mem i up x.dtor s).bind fun s => (s.delete m).bind fun s => .ok (false, s)

/-- `clear`, avm_rod.cpp:61-82. -/
def clear [DecidableEq X] (s : State R X L) (r : R) : Res (State R X L) :=
  let rod := s.rod r
  (walk rod.cells rod.einit (clearNode rod.cells) (rod.cells.length + 1) 0 s).bind fun s => .ok (s.set r ⟨rod.mem, 0⟩)

/-- The destructor, avm_rod.hpp:135-139 and avm_rod.cpp:43-59.  The rod is as new afterwards. -/
def destroy [DecidableEq X] (s : State R X L) (r : R) : Res (State R X L) :=
  match (s.rod r).mem with
  | none => .ok s
  | some _ => (clear s r).bind fun s => .ok (s.set r ⟨none, (s.rod r).einit⟩)

/-- `swap`, also `operator=`, avm_rod.hpp:108-124. -/
def swap (s : State R X L) (r r' : R) : State R X L := (s.set r (s.rod r')).set r' (s.rod r)

/-- What a rod's owner may do with it. -/
inductive Op (R X L : Type) where
  | push (r : R) (a : Arg X L) (k : Luck)
  | clear (r : R)
  | destroy (r : R)
  | swap (r r' : R)

/-- One operation, and whether it throws an exception. -/
def apply [DecidableEq X] (dbg : Bool) (s : State R X L) : Op R X L → Res (State R X L × Bool)
  | .push r a k => push dbg s r a k
  | .clear r => (clear s r).bind fun s => .ok (s, false)
  | .destroy r => (destroy s r).bind fun s => .ok (s, false)
  | .swap r r' => .ok (swap s r r', false)

/-- Any number of operations, and which of them throw. -/
def run [DecidableEq X] (dbg : Bool) : State R X L → List (Op R X L) → Res (State R X L × List Bool)
  | s, [] => .ok (s, [])
  | s, o :: os => (apply dbg s o).bind fun (s, b) => (run dbg s os).bind fun (s, bs) => .ok (s, b :: bs)

/-- How an executor ends: it returns, throws a `Runtime_Error` with some frames, or throws another exception. -/
inductive Ends (C E : Type) where
  | ret (c : C)
  | error (c : C) (e : E)
  | other (c : C) (what : String)

/-- What `execute` needs to know of the context and of exceptions: executors; `status() == air_status_next`; a new
`Runtime_Error` for another exception; `push_frame_plain`. -/
structure Machine (X L C E : Type) where
  exec : Fn → List UInt8 → Option (Obj X) → C → Ends C E
  start : C → C
  next : C → Bool
  wrap : String → E
  frame : L → E → E

/-- The executor of a node and its source location, avm_rod.cpp:156-159, 163, 170. -/
def State.executor (s : State R X L) (up : Uparam) (pv : Pv) : Res (Fn × Option L) :=
  if !up.hasMeta then
    match pv with
    | .exec f => .ok (f, none)
    | _ => .ub
  else (s.info pv).bind fun (_, x) => .ok (x.exec, x.sloc)

/-- A frame is added if there is a source location, avm_rod.cpp:163-164, 170-171. -/
def Machine.blame {C E : Type} (mc : Machine X L C E) (sloc : Option L) (e : E) : E :=
  match sloc with
  | some l => mc.frame l e
  | none => e

/-- The body of the loop in `execute`, avm_rod.cpp:155-176. -/
def execNode [DecidableEq X] {C E : Type} (mc : Machine X L C E) (s : State R X L) (mem : List (Cell X)) (i : Nat) (up : Uparam)
    (pv : Pv) (c : C × Option E) : Res (Bool × (C × Option E)) :=
  (s.executor up pv).bind fun (f, sloc) =>
    (object mem i up.b0.toNat).bind fun o =>
      match mc.exec f up.user o c.1 with
      | .ret c => .ok (!mc.next c, (c, none))
      | .error c e => .ok (true, (c, some (mc.blame sloc e)))
      | .other c w => .ok (true, (c, some (mc.blame sloc (mc.wrap w))))

/-- `execute`, avm_rod.cpp:147-178: the context, and the exception if one is thrown. -/
def execute [DecidableEq X] {C E : Type} (mc : Machine X L C E) (s : State R X L) (r : R) (c : C) : Res (C × Option E) :=
  let rod := s.rod r
  walk rod.cells rod.einit (execNode mc s rod.cells) (rod.cells.length + 1) 0 (mc.start c, none)

/-- The body of the loop in `collect_variables`, avm_rod.cpp:187-191. -/
def collNode [DecidableEq X] (s : State R X L) (mem : List (Cell X)) (i : Nat) (up : Uparam) (pv : Pv) (cs : List (Death X)) :
    Res (Bool × List (Death X)) :=
  if !up.hasMeta then .ok (false, cs)
  else (s.info pv).bind fun (_, x) =>
    match x.coll with
    | none => .ok (false, cs)
    | some f => (object mem i up.b0.toNat).bind fun o => .ok (false, cs ++ [⟨f, up.user, o⟩])

/-- `collect_variables`, avm_rod.cpp:180-193: the calls to collectors. -/
def collect [DecidableEq X] (s : State R X L) (r : R) : Res (List (Death X)) :=
  let rod := s.rod r
  walk rod.cells rod.einit (collNode s rod.cells) (rod.cells.length + 1) 0 []

end

/-! ### The reference stack -/

/-- `Reference_Stack`, reference_stack.hpp:13-16; a slot in which no object has been constructed is `none`. -/
structure Stack (V : Type) where
  mem : Option (List (Option V))
  size : Nat

section
variable {V : Type}

/-- `m_estor`. -/
def Stack.estor (s : Stack V) : Nat :=
  match s.mem with
  | none => 0
  | some m => m.length

/-- A new stack, reference_stack.hpp:14-21. -/
def Stack.new (V : Type) : Stack V := ⟨none, 0⟩

/-- `do_reallocate`, reference_stack.cpp:10-38; `sz` is `sizeof(Reference)`.  Bytes are copied, so objects move. -/
def Stack.reallocate (sz : Nat) (s : Stack V) (estor : Nat) (good : Bool) : Res (Stack V) :=
  if estor ≥ 0x7FFE0000 / sz then .throw
  else if estor < s.size then .ub
  else if !good then .throw
  else
    let count := u32 (Req.got ⟨sz, estor⟩)
    match s.mem with
    | none => .ok ⟨some (List.replicate count none), s.size⟩
    | some m =>
      if s.size ≤ Req.got ⟨sz, estor⟩ ∧ s.size ≤ m.length then
        .ok ⟨some (m.take s.size ++ List.replicate (count - s.size) none), s.size⟩
      else .ub

/-- `push`, reference_stack.hpp:107-122, and the assignment to the reference that it returns.  An object must not be
constructed where there is one. -/
def Stack.push (dbg : Bool) (sz : Nat) (s : Stack V) (v : V) (good : Bool) : Res (Stack V) :=
  (if dbg then s.reallocate sz (u32 (s.size + 1)) good
    else if s.size ≥ s.estor then s.reallocate sz (u32 (s.size * 2) ||| 17) good
    else .ok s).bind fun s =>
    match s.mem with
    | none => .ub
    | some m =>
      match m[s.size]? with
      | some none => .ok ⟨some (m.set s.size (some v)), u32 (s.size + 1)⟩
      | _ => .ub

/-- The loops in `pop`, reference_stack.hpp:130-134, and `do_clear`, reference_stack.cpp:46-49: `n` objects are destroyed. -/
def Stack.popLoop : Nat → Stack V → Res (Stack V)
  | 0, s => .ok s
  | n + 1, s =>
    match s.mem with
    | none => .ub
    | some m =>
      match m[s.size - 1]? with
      | some (some _) => Stack.popLoop n ⟨some (m.set (s.size - 1) none), s.size - 1⟩
      | _ => .ub

/-- `pop`, reference_stack.hpp:124-135. -/
def Stack.pop (s : Stack V) (count : Nat) : Res (Stack V) := if count ≤ s.size then Stack.popLoop count s else .ub

/-- `clear`, reference_stack.hpp:69-75. -/
def Stack.clear (s : Stack V) : Res (Stack V) := if s.size ≠ 0 then Stack.popLoop s.size s else .ok s

/-- The destructor, reference_stack.hpp:56-60, reference_stack.cpp:40-63.  Objects that remain in a block that is freed
are leaked; that is undefined here. -/
def Stack.destroy (s : Stack V) : Res (Stack V) :=
  match s.mem with
  | none => .ok s
  | some _ => (Stack.popLoop s.size s).bind fun s =>
    if ∀ x ∈ s.mem.getD [], x.isNone then .ok ⟨none, s.size⟩ else .ub

/-- The slot at an index; an assertion fails, or an object is read where there is none. -/
def Stack.at (s : Stack V) (i : Nat) : Res V :=
  match (s.mem.getD [])[i]? with
  | some (some v) => .ok v
  | _ => .ub

/-- `top`, reference_stack.hpp:77-90. -/
def Stack.top (s : Stack V) (i : Nat) : Res V := if i < s.size then s.at (s.size - 1 - i) else .ub

/-- `bottom`, reference_stack.hpp:92-105. -/
def Stack.bottom (s : Stack V) (i : Nat) : Res V := if i < s.size then s.at i else .ub

/-- An assignment to `mut_top`, reference_stack.hpp:85-90. -/
def Stack.setTop (s : Stack V) (i : Nat) (v : V) : Res (Stack V) :=
  if i < s.size then (s.at (s.size - 1 - i)).bind fun _ =>
    .ok ⟨s.mem.map fun m => m.set (s.size - 1 - i) (some v), s.size⟩
  else .ub

/-- What a stack's owner may do with it. -/
inductive StackOp (V : Type) where
  | push (v : V) (good : Bool)
  | pop (count : Nat)
  | clear
  | destroy
  | setTop (i : Nat) (v : V)

/-- One operation, and whether it throws an exception; the stack is as before then, as `do_reallocate` changes nothing
before it throws. -/
def Stack.apply (dbg : Bool) (sz : Nat) (s : Stack V) : StackOp V → Res (Stack V × Bool)
  | .push v good => match s.push dbg sz v good with
    | .ok s => .ok (s, false)
    | .throw => .ok (s, true)
    | .ub => .ub
  | .pop n => (s.pop n).bind fun s => .ok (s, false)
  | .clear => s.clear.bind fun s => .ok (s, false)
  | .destroy => s.destroy.bind fun s => .ok (s, false)
  | .setTop i v => (s.setTop i v).bind fun s => .ok (s, false)

end

end Asteria.Avm
