import Verif.Model.IntOps
import Verif.Model.SeqOps
import Verif.Model.Subscript

/-!
# Model of binary operators, and of their forms with a constant operand

/repo/asteria/src/runtime/air_node.cpp:3047-4087 (`S_apply_operator`), 4909-5895 (`S_apply_operator_bi32`),
/repo/asteria/src/compiler/expression_unit.cpp:245-299 (which form is chosen).
-/

namespace Asteria.Operators

open Subscript (Sub Ref Var)

/-- Arithmetic of `V_real` (C++ `double`, `<cmath>`).  Simplified: it is arbitrary.  `ofInt` is `static_cast<V_real>` of a
`V_integer`. -/
structure Fp where
  ofInt : Int → Dbl
  add : Dbl → Dbl → Dbl
  sub : Dbl → Dbl → Dbl
  mul : Dbl → Dbl → Dbl
  div : Dbl → Dbl → Dbl
  fmod : Dbl → Dbl → Dbl

/-- What operators depend on: the arithmetic of reals, and the greatest sizes of strings and arrays (`max_size()`,
rocket/cow_string.hpp and rocket/cow_vector.hpp). -/
structure Cfg where
  fp : Fp
  maxStr : Nat
  maxArr : Nat

/-- Binary operators, /repo/asteria/fwd.hpp (`enum Xop`). -/
inductive Bin where
  | cmpEq | cmpNe | cmpUn | cmpLt | cmpGt | cmpLte | cmpGte | cmp3way
  | add | sub | mul | div | mod
  | andb | orb | xorb
  | addm | subm | mulm | adds | subs | muls
  | sll | srl | sla | sra
deriving DecidableEq

/-- An operator on two `V_integer`s.  Valid values are in range (`Value.Valid`). -/
def onInts (f : IntOps.I64 → IntOps.I64 → Res IntOps.I64) (a b : Int) : Res Value :=
  (f (BitVec.ofInt 64 a) (BitVec.ofInt 64 b)).map fun r => .int r.toInt

/-- `Value::is_integer() && as_integer()`, /repo/asteria/value.hpp:162-175. -/
def asInt : Value → Option Int
  | .int i => some i
  | _ => none

/-- `Value::is_real() && as_real()`, value.hpp:187-203: integers are converted. -/
def asReal (fp : Fp) : Value → Option Dbl
  | .int i => some (fp.ofInt i)
  | .real d => some d
  | _ => none

/-- The text that `<=>` gives if the operands are not ordered: `[unordered]`, air_node.cpp:3249 and 5183. -/
def unorderedText : Bytes := [0x5B, 0x75, 0x6E, 0x6F, 0x72, 0x64, 0x65, 0x72, 0x65, 0x64, 0x5D]

/-- `static_cast<int64_t>(cmp) - compare_equal`, air_node.cpp:3251 and 5185; `enum Compare`, fwd.hpp:717-723. -/
def threeWay : Compare → Value
  | .unordered => .str unorderedText
  | .less => .int (-1)
  | .equal => .int 0
  | .greater => .int 1

/-- Binary operators on values, air_node.cpp:3047-4087: the result for operands `lhs` and `rhs`. -/
def bin (c : Cfg) (op : Bin) (lhs rhs : Value) : Res Value :=
  match op with
  -- 3047-3264
  | .cmpEq => .ok (.bool (decide (lhs.comparePartial rhs = .equal)))
  | .cmpNe => .ok (.bool (decide (lhs.comparePartial rhs ≠ .equal)))
  | .cmpUn => .ok (.bool (decide (lhs.comparePartial rhs = .unordered)))
  | .cmpLt => (lhs.compareTotal rhs).map fun x => .bool (decide (x = .less))
  | .cmpGt => (lhs.compareTotal rhs).map fun x => .bool (decide (x = .greater))
  | .cmpLte => (lhs.compareTotal rhs).map fun x => .bool (decide (x ≠ .greater))
  | .cmpGte => (lhs.compareTotal rhs).map fun x => .bool (decide (x ≠ .less))
  | .cmp3way => .ok (threeWay (lhs.comparePartial rhs))
  -- 3266-3316
  | .add => match asInt lhs, asInt rhs with
    | some a, some b => onInts IntOps.add a b
    | _, _ => match asReal c.fp lhs, asReal c.fp rhs with
      | some a, some b => .ok (.real (c.fp.add a b))
      | _, _ => match lhs, rhs with
        | .bool a, .bool b => .ok (.bool (a || b))
        | .str a, .str b => if a.length + b.length ≤ c.maxStr then .ok (.str (a ++ b)) else .throw
        | _, _ => .throw
  -- 3318-3358
  | .sub => match asInt lhs, asInt rhs with
    | some a, some b => onInts IntOps.sub a b
    | _, _ => match asReal c.fp lhs, asReal c.fp rhs with
      | some a, some b => .ok (.real (c.fp.sub a b))
      | _, _ => .throw
  -- 3360-3425
  | .mul => match asInt lhs, asInt rhs with
    | some a, some b => onInts IntOps.mul a b
    | _, _ => match asReal c.fp lhs, asReal c.fp rhs with
      | some a, some b => .ok (.real (c.fp.mul a b))
      | _, _ => match lhs, rhs with
        | .bool a, .bool b => .ok (.bool (a && b))
        | .str a, .int n => (SeqOps.duplicate c.maxStr a n).map .str
        | .arr a, .int n => (SeqOps.duplicate c.maxArr a n).map .arr
        | .int n, .str b => (SeqOps.duplicate c.maxStr b n).map .str
        | .int n, .arr b => (SeqOps.duplicate c.maxArr b n).map .arr
        | _, _ => .throw
  -- 3427-3474
  | .div => match asInt lhs, asInt rhs with
    | some a, some b => onInts IntOps.div a b
    | _, _ => match asReal c.fp lhs, asReal c.fp rhs with
      | some a, some b => .ok (.real (c.fp.div a b))
      | _, _ => match lhs, rhs with
        | .str a, .str b => if a.length + 1 + b.length ≤ c.maxStr then .ok (.str (a ++ 0x2F :: b)) else .throw
        | _, _ => .throw
  -- 3476-3517
  | .mod => match asInt lhs, asInt rhs with
    | some a, some b => onInts IntOps.mod a b
    | _, _ => match asReal c.fp lhs, asReal c.fp rhs with
      | some a, some b => .ok (.real (c.fp.fmod a b))
      | _, _ => .throw
  -- 3519-3564
  | .andb => match lhs, rhs with
    | .int a, .int b => onInts (fun x y => .ok (IntOps.andb x y)) a b
    | .bool a, .bool b => .ok (.bool (a && b))
    | .str a, .str b => .ok (.str (SeqOps.andStr a b))
    | _, _ => .throw
  -- 3566-3611
  | .orb => match lhs, rhs with
    | .int a, .int b => onInts (fun x y => .ok (IntOps.orb x y)) a b
    | .bool a, .bool b => .ok (.bool (a || b))
    | .str a, .str b => (SeqOps.orStr c.maxStr a b).map .str
    | _, _ => .throw
  -- 3613-3658
  | .xorb => match lhs, rhs with
    | .int a, .int b => onInts (fun x y => .ok (IntOps.xorb x y)) a b
    | .bool a, .bool b => .ok (.bool (a != b))
    | .str a, .str b => (SeqOps.xorStr c.maxStr a b).map .str
    | _, _ => .throw
  -- 3660-3865
  | .addm => match lhs, rhs with
    | .int a, .int b => onInts IntOps.addmOp a b
    | _, _ => .throw
  | .subm => match lhs, rhs with
    | .int a, .int b => onInts IntOps.submOp a b
    | _, _ => .throw
  | .mulm => match lhs, rhs with
    | .int a, .int b => onInts IntOps.mulmOp a b
    | _, _ => .throw
  | .adds => match lhs, rhs with
    | .int a, .int b => onInts IntOps.adds a b
    | _, _ => .throw
  | .subs => match lhs, rhs with
    | .int a, .int b => onInts IntOps.subs a b
    | _, _ => .throw
  | .muls => match lhs, rhs with
    | .int a, .int b => onInts IntOps.muls a b
    | _, _ => .throw
  -- 3867-3921
  | .sll => match rhs with
    | .int n => if n < 0 then .throw else match lhs with
      | .int a => onInts IntOps.sll a n
      | .str a => (SeqOps.sllSeq c.maxStr 0 a n).map .str
      | .arr a => (SeqOps.sllSeq c.maxArr .null a n).map .arr
      | _ => .throw
    | _ => .throw
  -- 3923-3977
  | .srl => match rhs with
    | .int n => if n < 0 then .throw else match lhs with
      | .int a => onInts IntOps.srl a n
      | .str a => (SeqOps.srlSeq c.maxStr 0 a n).map .str
      | .arr a => (SeqOps.srlSeq c.maxArr .null a n).map .arr
      | _ => .throw
    | _ => .throw
  -- 3979-4033
  | .sla => match rhs with
    | .int n => if n < 0 then .throw else match lhs with
      | .int a => onInts IntOps.sla a n
      | .str a => (SeqOps.slaSeq c.maxStr 0 a n).map .str
      | .arr a => (SeqOps.slaSeq c.maxArr .null a n).map .arr
      | _ => .throw
    | _ => .throw
  -- 4035-4086
  | .sra => match rhs with
    | .int n => if n < 0 then .throw else match lhs with
      | .int a => onInts IntOps.sra a n
      | .str a => (SeqOps.sraSeq a n).map .str
      | .arr a => (SeqOps.sraSeq a n).map .arr
      | _ => .throw
    | _ => .throw

/-- `compare_numeric_total(V_integer)`, value.hpp:387-395. -/
def numericTotal (lhs : Value) (irhs : Int) : Res Compare :=
  if lhs.compareNumericInt irhs = .unordered then .throw else .ok (lhs.compareNumericInt irhs)

/-- Binary operators with a constant right operand, air_node.cpp:4992-5895. -/
def binConst (c : Cfg) (op : Bin) (lhs : Value) (irhs : Int) : Res Value :=
  match op with
  -- 4992-5196
  | .cmpEq => .ok (.bool (decide (lhs.compareNumericInt irhs = .equal)))
  | .cmpNe => .ok (.bool (decide (lhs.compareNumericInt irhs ≠ .equal)))
  | .cmpUn => .ok (.bool (decide (lhs.compareNumericInt irhs = .unordered)))
  | .cmpLt => (numericTotal lhs irhs).map fun x => .bool (decide (x = .less))
  | .cmpGt => (numericTotal lhs irhs).map fun x => .bool (decide (x = .greater))
  | .cmpLte => (numericTotal lhs irhs).map fun x => .bool (decide (x ≠ .greater))
  | .cmpGte => (numericTotal lhs irhs).map fun x => .bool (decide (x ≠ .less))
  | .cmp3way => .ok (threeWay (lhs.compareNumericInt irhs))
  -- 5198-5236
  | .add => match lhs with
    | .int a => onInts IntOps.add a irhs
    | .real a => .ok (.real (c.fp.add a (c.fp.ofInt irhs)))
    | _ => .throw
  -- 5238-5276
  | .sub => match lhs with
    | .int a => onInts IntOps.sub a irhs
    | .real a => .ok (.real (c.fp.sub a (c.fp.ofInt irhs)))
    | _ => .throw
  -- 5278-5326
  | .mul => match lhs with
    | .int a => onInts IntOps.mul a irhs
    | .real a => .ok (.real (c.fp.mul a (c.fp.ofInt irhs)))
    | .str a => (SeqOps.duplicate c.maxStr a irhs).map .str
    | .arr a => (SeqOps.duplicate c.maxArr a irhs).map .arr
    | _ => .throw
  -- 5328-5367
  | .div => match lhs with
    | .int a => onInts IntOps.div a irhs
    | .real a => .ok (.real (c.fp.div a (c.fp.ofInt irhs)))
    | _ => .throw
  -- 5369-5408
  | .mod => match lhs with
    | .int a => onInts IntOps.mod a irhs
    | .real a => .ok (.real (c.fp.fmod a (c.fp.ofInt irhs)))
    | _ => .throw
  -- 5410-5498
  | .andb => match lhs with
    | .int a => onInts (fun x y => .ok (IntOps.andb x y)) a irhs
    | _ => .throw
  | .orb => match lhs with
    | .int a => onInts (fun x y => .ok (IntOps.orb x y)) a irhs
    | _ => .throw
  | .xorb => match lhs with
    | .int a => onInts (fun x y => .ok (IntOps.xorb x y)) a irhs
    | _ => .throw
  -- 5500-5591
  | .addm => match lhs with
    | .int a => onInts IntOps.addmOp a irhs
    | _ => .throw
  | .subm => match lhs with
    | .int a => onInts IntOps.submOp a irhs
    | _ => .throw
  | .mulm => match lhs with
    | .int a => onInts IntOps.mulmOp a irhs
    | _ => .throw
  -- 5593-5693
  | .adds => match lhs with
    | .int a => onInts IntOps.adds a irhs
    | _ => .throw
  | .subs => match lhs with
    | .int a => onInts IntOps.subs a irhs
    | _ => .throw
  | .muls => match lhs with
    | .int a => onInts IntOps.muls a irhs
    | _ => .throw
  -- 5695-5743
  | .sll => if irhs < 0 then .throw else match lhs with
    | .int a => onInts IntOps.sll a irhs
    | .str a => (SeqOps.sllSeq c.maxStr 0 a irhs).map .str
    | .arr a => (SeqOps.sllSeq c.maxArr .null a irhs).map .arr
    | _ => .throw
  -- 5745-5793
  | .srl => if irhs < 0 then .throw else match lhs with
    | .int a => onInts IntOps.srl a irhs
    | .str a => (SeqOps.srlSeq c.maxStr 0 a irhs).map .str
    | .arr a => (SeqOps.srlSeq c.maxArr .null a irhs).map .arr
    | _ => .throw
  -- 5795-5843
  | .sla => if irhs < 0 then .throw else match lhs with
    | .int a => onInts IntOps.sla a irhs
    | .str a => (SeqOps.slaSeq c.maxStr 0 a irhs).map .str
    | .arr a => (SeqOps.slaSeq c.maxArr .null a irhs).map .arr
    | _ => .throw
  -- 5845-5890
  | .sra => if irhs < 0 then .throw else match lhs with
    | .int a => onInts IntOps.sra a irhs
    | .str a => (SeqOps.sraSeq a irhs).map .str
    | .arr a => (SeqOps.sraSeq a irhs).map .arr
    | _ => .throw

/-! ### Nodes -/

/-- Operators which the code generator treats specially, /repo/asteria/fwd.hpp (`enum Xop`): the binary ones, and `pos`,
`notb`.  Simplified: other unary operators, and `fma`, are left out. -/
inductive Xop where
  | assign
  | index
  | pos
  | notb
  | bin (op : Bin)
deriving DecidableEq

/-- Nodes, /repo/asteria/runtime/air_node.hpp: `S_push_constant`, `S_push_bound_reference`, `S_apply_operator`,
`S_apply_operator_bi32`, `S_member_access`, `S_check_null`. -/
inductive Node where
  | pushConstant (v : Value)
  | pushBound (r : Ref)
  | op (x : Xop) (assign : Bool)
  | opConst (x : Xop) (assign : Bool) (irhs : Int)
  | member (k : Bytes)
  | checkNull (negative : Bool)

/-- The variables. -/
abbrev Env := Nat → Var

/-- `dereference_mutable`, reference.cpp:186-221, followed by a modification `f` of the element found, which is left alone if
`f` throws an exception. -/
def modifyPath (lim : Nat) (f : Value → Res Value) : List Sub → Value → Value × Res Unit
  | [], v => match f v with
    | .ok x => (x, .ok ())
    | .throw => (v, .throw)
    | .ub => (v, .ub)
  | s :: ss, v =>
    let r := Subscript.applyOpen lim s v
    match r.2 with
    | .throw => (r.1, .throw)
    | .ub => (r.1, .ub)
    | .ok p => match Subscript.get r.1 p with
      | none => (r.1, .ub)
      | some c =>
        let q := modifyPath lim f ss c
        (Subscript.put r.1 p q.1, q.2)

/-- `dereference_mutable`, reference.cpp:186-221, and the modification `f`.  Returns the variables afterwards. -/
def modify (lim : Nat) (env : Env) (f : Value → Res Value) : Ref → Env × Res Unit
  | .bad => (env, .throw)
  | .temp _ _ => (env, .throw)
  | .var v subs =>
    match (env v).value with
    | none => (env, .throw)
    | some val =>
      if (env v).immutable then (env, .throw)
      else
        let r := modifyPath lim f subs val
        ((fun u => if u = v then { env v with value := some r.1 } else env u), r.2)

/-- `push_subscript`, /repo/asteria/runtime/reference.hpp:181-197. -/
def push (s : Sub) : Ref → Res Ref
  | .bad => .throw
  | .temp v subs => .ok (.temp v (subs ++ [s]))
  | .var v subs => .ok (.var v (subs ++ [s]))

/-- `do_push_subscript_and_check`, air_node.cpp:69-75. -/
def pushAndCheck (env : Env) (s : Sub) (r : Ref) : Res Ref :=
  (push s r).bind fun r => (r.readonly env).map fun _ => r

/-- What operators do with the left operand `lhs`, where `f` is the operation: `assign ? top.dereference_mutable() :
top.dereference_copy()`, for example air_node.cpp:3276.  The result is on the top of the stack. -/
def onTop (c : Cfg) (env : Env) (assign : Bool) (f : Value → Res Value) (lhs : Ref) (stack : List Ref) : Env × Res (List Ref) :=
  if assign then
    let r := modify c.maxArr env f lhs
    (r.1, r.2.map fun _ => lhs :: stack)
  else (env, ((lhs.copy env).bind f).map fun x => .temp x [] :: stack)

/-- The execution of a node: the variables, and the stack, whose top comes first.  An access to an empty stack is undefined.
Simplified: the right operand is read before the left one is opened; what happens if it is part of that is C69. -/
def exec (c : Cfg) (env : Env) (stack : List Ref) : Node → Env × Res (List Ref)
  -- 4721-4750
  | .pushConstant v => (env, .ok (.temp v [] :: stack))
  -- 1828-1848
  | .pushBound r => (env, .ok (r :: stack))
  -- 2301-2322
  | .op .assign _ => match stack with
    | rhs :: lhs :: stack => match rhs.copy env with
      | .ok x =>
        let r := modify c.maxArr env (fun _ => .ok x) lhs
        (r.1, r.2.map fun _ => lhs :: stack)
      | .throw => (env, .throw)
      | .ub => (env, .ub)
    | _ => (env, .ub)
  -- 2324-2355
  | .op .index _ => match stack with
    | rhs :: lhs :: stack => (env, (rhs.copy env).bind fun x => match x with
      | .int i => (pushAndCheck env (.index i) lhs).map fun r => r :: stack
      | .str k => (pushAndCheck env (.key k) lhs).map fun r => r :: stack
      | _ => .throw)
    | _ => (env, .ub)
  -- 2357-2378
  | .op .pos assign => match stack with
    | rhs :: stack => onTop c env assign .ok rhs stack
    | _ => (env, .ub)
  -- 2419-2457
  | .op .notb assign => match stack with
    | rhs :: stack => onTop c env assign (fun v => match v with
      | .int i => .ok (.int (IntOps.notb (BitVec.ofInt 64 i)).toInt)
      | .bool b => .ok (.bool !b)
      | .str s => .ok (.str (SeqOps.notStr s))
      | _ => .throw) rhs stack
    | _ => (env, .ub)
  -- 3047-4087
  | .op (.bin op) assign => match stack with
    | rhs :: lhs :: stack => match rhs.readonly env with
      | .ok x => onTop c env assign (fun v => bin c op v x) lhs stack
      | .throw => (env, .throw)
      | .ub => (env, .ub)
    | _ => (env, .ub)
  -- 4951-4970
  | .opConst .assign _ irhs => match stack with
    | lhs :: stack =>
      let r := modify c.maxArr env (fun _ => .ok (.int irhs)) lhs
      (r.1, r.2.map fun _ => lhs :: stack)
    | _ => (env, .ub)
  -- 4972-4990
  | .opConst .index _ irhs => match stack with
    | lhs :: stack => (env, (pushAndCheck env (.index irhs) lhs).map fun r => r :: stack)
    | _ => (env, .ub)
  -- 4918-4949: the process is terminated
  | .opConst .pos _ _ => (env, .ub)
  | .opConst .notb _ _ => (env, .ub)
  -- 4992-5890
  | .opConst (.bin op) assign irhs => match stack with
    | lhs :: stack => onTop c env assign (fun v => binConst c op v irhs) lhs stack
    | _ => (env, .ub)
  -- 4871-4907
  | .member k => match stack with
    | top :: stack => (env, (pushAndCheck env (.key k) top).map fun r => r :: stack)
    | _ => (env, .ub)
  -- 5936-5953
  | .checkNull negative => match stack with
    | top :: stack => (env, (top.readonly env).map fun v =>
      .temp (.bool ((match v with | .null => true | _ => false) != negative)) [] :: stack)
    | _ => (env, .ub)

/-- The execution of nodes, one after another. -/
def execAll (c : Cfg) (env : Env) (stack : List Ref) : List Node → Env × Res (List Ref)
  | [] => (env, .ok stack)
  | n :: ns =>
    let r := exec c env stack n
    match r.2 with
    | .ok stack => execAll c r.1 stack ns
    | .throw => (r.1, .throw)
    | .ub => (r.1, .ub)

/-! ### The code generator -/

/-- `get_constant_opt`, air_node.cpp:199-221.  `env` is irrelevant, as no variable is read.  -/
def constant : Node → Option Value
  | .pushConstant v => some v
  | .pushBound (.temp v subs) => match Subscript.readPath subs v with
    | .ok x => some x
    | _ => none
  | _ => none

/-- `(int32_t) x == x`, expression_unit.cpp:278. -/
def isInt32 (x : Int) : Bool := decide (x.bmod (2 ^ 32) = x)

/-- `xop_cmp_eq` and `xop_cmp_ne`, expression_unit.cpp:259-260: `some` of whether it is the latter. -/
def nullTest : Xop → Option Bool
  | .bin .cmpEq => some false
  | .bin .cmpNe => some true
  | _ => none

/-- The operator `x` is appended to `code`, expression_unit.cpp:245-299, where `level` is `opts.optimization_level`. -/
def generate (level : Nat) (x : Xop) (assign : Bool) (code : List Node) : List Node :=
  let plain := code ++ [.op x assign]
  if level ≥ 1 then
    match code.getLast?.bind constant with
    | none => plain
    | some v =>
      if x = .pos ∧ assign = false then code
      else match v, nullTest x with
        | .null, some ne => code.dropLast ++ [.checkNull ne]
        | v, _ => match v, x with
          | .str k, .index => code.dropLast ++ [.member k]
          | .int i, .notb => code.dropLast ++ [.pushConstant (.int (BitVec.ofInt 64 i ^^^ -1).toInt)]
          | .int i, x => if isInt32 i ∧ x ≠ .pos then code.dropLast ++ [.opConst x assign (i.bmod (2 ^ 32))] else plain
          | _, _ => plain
  else plain

end Asteria.Operators
