import Verif.Model.Compile
import Verif.Model.Parser

/-!
# Model of the parser

/repo/asteria/src/compiler/statement_sequence.cpp and /repo/asteria/src/compiler/infix_element.cpp: tokens are turned
into the statements of `Compile`.  In contrast to `Parser`, which has only expressions, this has closures, arrays,
objects and all statements.

Left out are source locations, the kinds of errors, the messages of `assert` statements and the names of functions.
`__vcall` and `import` expressions are outside the model, see `P.out`.  The recursion sentries, which throw if the
native stack is nearly exhausted, are replaced by a bound for the recursion; see C102 for a bound that suffices.
-/

namespace Asteria.Syntax

open Compile
open _root_.Asteria.Parser (Punct Xop infixGeneral precXop)
open Exec (Name ClauseKind)

/-- Keywords, /repo/asteria/compiler/enums.hpp:76-137. -/
inductive Kw where
  | abs | addm | adds | ceil | floor | fma | iceil | ifcomplete | ifloor | iround | isinf | isnan | isvoid
  | itrunc | lzcnt | mulm | muls | popcnt | round | sign | sqrt | subm | subs | trunc | tzcnt | vcall | and
  | assert | break_ | case | catch_ | const | continue_ | countof | default | defer | do_ | each | else_ | extern_
  | false | for_ | func | if_ | import_ | not | null | or | ref | return_ | switch | this | throw_ | true | try_
  | typeof | unset | var | while_
deriving DecidableEq, Repr

/-- All keywords, in the order of the table at /repo/asteria/src/compiler/token_stream.cpp:660-721. -/
def Kw.all : List Kw :=
  [.abs, .addm, .adds, .ceil, .floor, .fma, .iceil, .ifcomplete, .ifloor, .iround, .isinf, .isnan, .isvoid,
   .itrunc, .lzcnt, .mulm, .muls, .popcnt, .round, .sign, .sqrt, .subm, .subs, .trunc, .tzcnt, .vcall, .and,
   .assert, .break_, .case, .catch_, .const, .continue_, .countof, .default, .defer, .do_, .each, .else_,
   .extern_, .false, .for_, .func, .if_, .import_, .not, .null, .or, .ref, .return_, .switch, .this, .throw_,
   .true, .try_, .typeof, .unset, .var, .while_]

/-- The text of a keyword, token_stream.cpp:660-721; `stringify_keyword`, which `do_accept_json5_key_opt` uses, gives
the same text. -/
def Kw.text : Kw → Bytes
  | .abs => [0x5F, 0x5F, 0x61, 0x62, 0x73]
  | .addm => [0x5F, 0x5F, 0x61, 0x64, 0x64, 0x6D]
  | .adds => [0x5F, 0x5F, 0x61, 0x64, 0x64, 0x73]
  | .ceil => [0x5F, 0x5F, 0x63, 0x65, 0x69, 0x6C]
  | .floor => [0x5F, 0x5F, 0x66, 0x6C, 0x6F, 0x6F, 0x72]
  | .fma => [0x5F, 0x5F, 0x66, 0x6D, 0x61]
  | .iceil => [0x5F, 0x5F, 0x69, 0x63, 0x65, 0x69, 0x6C]
  | .ifcomplete => [0x5F, 0x5F, 0x69, 0x66, 0x63, 0x6F, 0x6D, 0x70, 0x6C, 0x65, 0x74, 0x65]
  | .ifloor => [0x5F, 0x5F, 0x69, 0x66, 0x6C, 0x6F, 0x6F, 0x72]
  | .iround => [0x5F, 0x5F, 0x69, 0x72, 0x6F, 0x75, 0x6E, 0x64]
  | .isinf => [0x5F, 0x5F, 0x69, 0x73, 0x69, 0x6E, 0x66]
  | .isnan => [0x5F, 0x5F, 0x69, 0x73, 0x6E, 0x61, 0x6E]
  | .isvoid => [0x5F, 0x5F, 0x69, 0x73, 0x76, 0x6F, 0x69, 0x64]
  | .itrunc => [0x5F, 0x5F, 0x69, 0x74, 0x72, 0x75, 0x6E, 0x63]
  | .lzcnt => [0x5F, 0x5F, 0x6C, 0x7A, 0x63, 0x6E, 0x74]
  | .mulm => [0x5F, 0x5F, 0x6D, 0x75, 0x6C, 0x6D]
  | .muls => [0x5F, 0x5F, 0x6D, 0x75, 0x6C, 0x73]
  | .popcnt => [0x5F, 0x5F, 0x70, 0x6F, 0x70, 0x63, 0x6E, 0x74]
  | .round => [0x5F, 0x5F, 0x72, 0x6F, 0x75, 0x6E, 0x64]
  | .sign => [0x5F, 0x5F, 0x73, 0x69, 0x67, 0x6E]
  | .sqrt => [0x5F, 0x5F, 0x73, 0x71, 0x72, 0x74]
  | .subm => [0x5F, 0x5F, 0x73, 0x75, 0x62, 0x6D]
  | .subs => [0x5F, 0x5F, 0x73, 0x75, 0x62, 0x73]
  | .trunc => [0x5F, 0x5F, 0x74, 0x72, 0x75, 0x6E, 0x63]
  | .tzcnt => [0x5F, 0x5F, 0x74, 0x7A, 0x63, 0x6E, 0x74]
  | .vcall => [0x5F, 0x5F, 0x76, 0x63, 0x61, 0x6C, 0x6C]
  | .and => [0x61, 0x6E, 0x64]
  | .assert => [0x61, 0x73, 0x73, 0x65, 0x72, 0x74]
  | .break_ => [0x62, 0x72, 0x65, 0x61, 0x6B]
  | .case => [0x63, 0x61, 0x73, 0x65]
  | .catch_ => [0x63, 0x61, 0x74, 0x63, 0x68]
  | .const => [0x63, 0x6F, 0x6E, 0x73, 0x74]
  | .continue_ => [0x63, 0x6F, 0x6E, 0x74, 0x69, 0x6E, 0x75, 0x65]
  | .countof => [0x63, 0x6F, 0x75, 0x6E, 0x74, 0x6F, 0x66]
  | .default => [0x64, 0x65, 0x66, 0x61, 0x75, 0x6C, 0x74]
  | .defer => [0x64, 0x65, 0x66, 0x65, 0x72]
  | .do_ => [0x64, 0x6F]
  | .each => [0x65, 0x61, 0x63, 0x68]
  | .else_ => [0x65, 0x6C, 0x73, 0x65]
  | .extern_ => [0x65, 0x78, 0x74, 0x65, 0x72, 0x6E]
  | .false => [0x66, 0x61, 0x6C, 0x73, 0x65]
  | .for_ => [0x66, 0x6F, 0x72]
  | .func => [0x66, 0x75, 0x6E, 0x63]
  | .if_ => [0x69, 0x66]
  | .import_ => [0x69, 0x6D, 0x70, 0x6F, 0x72, 0x74]
  | .not => [0x6E, 0x6F, 0x74]
  | .null => [0x6E, 0x75, 0x6C, 0x6C]
  | .or => [0x6F, 0x72]
  | .ref => [0x72, 0x65, 0x66]
  | .return_ => [0x72, 0x65, 0x74, 0x75, 0x72, 0x6E]
  | .switch => [0x73, 0x77, 0x69, 0x74, 0x63, 0x68]
  | .this => [0x74, 0x68, 0x69, 0x73]
  | .throw_ => [0x74, 0x68, 0x72, 0x6F, 0x77]
  | .true => [0x74, 0x72, 0x75, 0x65]
  | .try_ => [0x74, 0x72, 0x79]
  | .typeof => [0x74, 0x79, 0x70, 0x65, 0x6F, 0x66]
  | .unset => [0x75, 0x6E, 0x73, 0x65, 0x74]
  | .var => [0x76, 0x61, 0x72]
  | .while_ => [0x77, 0x68, 0x69, 0x6C, 0x65]

/-- Tokens, /repo/asteria/compiler/token.hpp. -/
inductive Tok where
  | p (x : Punct)
  | k (x : Kw)
  | ident (name : Bytes)
  | int (v : Int)
  | real (d : Dbl)
  | str (s : Bytes)

/-- What is not in the tokens: numbers for names (which differ for different names; only the rejection of names that
occur twice depends on this), the name of the file, and the number of the line in which the rest of the tokens begins. -/
structure Cfg where
  num : Bytes → Name
  file : Bytes
  line : List Tok → Int

/-- Units of expressions. -/
abbrev U := XUnit Xop

/-- Statements. -/
abbrev S := Stmt Xop

mutual
/-- `Expression_Unit::may_be_void`, /repo/asteria/src/compiler/expression_unit.cpp:51-82. -/
def mayBeVoid {X : Type} : XUnit X → Bool
  | .localRef _ | .globalRef _ | .call _ => true
  | .branch bs _ => voidBranches bs
  | _ => false
termination_by structural x => x

/-- `units.size() && units.back().may_be_void()`, expression_unit.cpp:77. -/
def lastVoid {X : Type} : List (XUnit X) → Bool
  | [] => false
  | [u] => mayBeVoid u
  | _ :: us => lastVoid us
termination_by structural x => x

/-- `any_of` for the branches, expression_unit.cpp:75-78. -/
def voidBranches {X : Type} : List (Branch X) → Bool
  | [] => false
  | .mk _ us :: bs => lastVoid us || voidBranches bs
termination_by structural x => x
end

/-- The part of `do_accept_expression_and_check` after the expression, statement_sequence.cpp:367-373. -/
def addCheck (byRef : Bool) (us : List U) : List U :=
  if lastVoid us then us ++ [.checkArg byRef] else us

/-- Outcomes of a function which accepts something: it has done so and leaves the remaining tokens; it returns `false`
or `nullopt` and has not consumed anything; it throws; it comes to something that is outside the model; the bound of
the model is exceeded. -/
inductive P (α : Type) where
  | yes (a : α) (rest : List Tok)
  | no
  | throw
  | out
  | fuel

/-- Something follows which must be there: `if(!do_accept_x(..)) throw Compiler_Error(..)`. -/
def P.need {α β : Type} (x : P α) (f : α → List Tok → P β) : P β :=
  match x with
  | .yes a ts => f a ts
  | .no => .throw
  | .throw => .throw
  | .out => .out
  | .fuel => .fuel

/-- Something follows which may be there: `if(do_accept_x(..)) .. else ..`. -/
def P.orElse {α β : Type} (x : P α) (f : α → List Tok → P β) (g : P β) : P β :=
  match x with
  | .yes a ts => f a ts
  | .no => g
  | .throw => .throw
  | .out => .out
  | .fuel => .fuel

/-- `do_accept_punctuator_opt(tstrm, { x })`, statement_sequence.cpp:38-56, followed by `throw` if it fails. -/
def expect {β : Type} (x : Punct) (ts : List Tok) (f : List Tok → P β) : P β :=
  match ts with
  | .p y :: ts => if x = y then f ts else .throw
  | _ => .throw

/-- `do_accept_keyword_opt(tstrm, { x })`, statement_sequence.cpp:18-36, followed by `throw` if it fails. -/
def expectKw {β : Type} (x : Kw) (ts : List Tok) (f : List Tok → P β) : P β :=
  match ts with
  | .k y :: ts => if x = y then f ts else .throw
  | _ => .throw

/-- Names which cannot be declared, statement_sequence.cpp:74. -/
def reserved (s : Bytes) : Bool := s.getD 0 0 == 0x5F && s.getD 1 0 == 0x5F

/-- `do_accept_identifier_opt(tstrm, true)`, statement_sequence.cpp:58-83. -/
def userIdent (c : Cfg) : List Tok → P Name
  | .k _ :: _ => .throw
  | .ident s :: ts => if reserved s then .throw else .yes (c.num s) ts
  | _ => .no

/-- `do_accept_identifier_opt(tstrm, false)`, statement_sequence.cpp:58-83. -/
def anyIdent (c : Cfg) : List Tok → P Name
  | .ident s :: ts => .yes (c.num s) ts
  | _ => .no

/-- `do_accept_json5_key_opt`, statement_sequence.cpp:102-131. -/
def key : List Tok → P Bytes
  | .k w :: ts => .yes w.text ts
  | .ident s :: ts => .yes s ts
  | .str s :: ts => .yes s ts
  | _ => .no

/-- The loop that concatenates string literals, statement_sequence.cpp:179-187. -/
def strings : List Tok → Bytes × List Tok
  | .str s :: ts => (s ++ (strings ts).1, (strings ts).2)
  | ts => ([], ts)

/-- `do_accept_literal_opt`, statement_sequence.cpp:133-192. -/
def literal : List Tok → P Value
  | .k .null :: ts => .yes .null ts
  | .k .false :: ts => .yes (.bool false) ts
  | .k .true :: ts => .yes (.bool true) ts
  | .int v :: ts => .yes (.int v) ts
  | .real d :: ts => .yes (.real d) ts
  | .str s :: ts => .yes (.str (strings (.str s :: ts)).1) (strings (.str s :: ts)).2
  | _ => .no

/-- `do_accept_negation_opt`, statement_sequence.cpp:194-209. -/
def negation : List Tok → Bool × List Tok
  | .p .notl :: ts => (true, ts)
  | .k .not :: ts => (true, ts)
  | ts => (false, ts)

/-- The loop over the names between brackets or braces, statement_sequence.cpp:235-253, 277-295. -/
def names (c : Cfg) (acc : List Name) : List Tok → P (List Name)
  | .k _ :: _ => .throw
  | .ident s :: ts =>
    if reserved s ∨ c.num s ∈ acc then .throw
    else match ts with
      | .p .comma :: ts => names c (acc ++ [c.num s]) ts
      | ts => .yes (acc ++ [c.num s]) ts
  | ts => .yes acc ts

/-- The names in a declarator, `Statement::variable_declaration::decls`. -/
inductive Binder where
  | scalar (n : Name)
  | array (ns : List Name)
  | object (ns : List Name)

/-- `do_accept_variable_declarator_opt`, statement_sequence.cpp:211-310. -/
def declarator (c : Cfg) (ts : List Tok) : P Binder :=
  (userIdent c ts).orElse (fun n ts => .yes (.scalar n) ts)
    (match ts with
    | .p .brackOp :: ts => (names c [] ts).need fun ns ts =>
        if ns.isEmpty then .throw else expect .brackCl ts fun ts => .yes (.array ns) ts
    | .p .braceOp :: ts => (names c [] ts).need fun ns ts =>
        if ns.isEmpty then .throw else expect .braceCl ts fun ts => .yes (.object ns) ts
    | _ => .no)

/-- The declaration of variables with an initializer, or none. -/
def Binder.decl (us : List U) : Binder → Decl Xop
  | .scalar n => .scalar n us
  | .array ns => .array ns us
  | .object ns => .object ns us

/-- The loop over parameters, statement_sequence.cpp:618-644, 1796-1822; the second result is whether there is `...`. -/
def params (c : Cfg) (acc : List Name) : List Tok → P (List Name × Bool)
  | .p .ellipsis :: ts => .yes (acc, true) ts
  | .k _ :: _ => .throw
  | .ident s :: ts =>
    if reserved s ∨ c.num s ∈ acc then .throw
    else match ts with
      | .p .comma :: ts => params c (acc ++ [c.num s]) ts
      | ts => .yes (acc ++ [c.num s], false) ts
  | ts => .yes (acc, false) ts

/-- `scope_flags`, statement_sequence.cpp:315-333. -/
structure Scope where
  sw : Bool
  wh : Bool
  fr : Bool

/-- `scope_plain`, statement_sequence.cpp:319. -/
def plain : Scope := ⟨false, false, false⟩

/-- `do_accept_break_statement_opt` after the keyword, statement_sequence.cpp:1190-1221. -/
def breakStmt (sc : Scope) (ts : List Tok) : P S :=
  let r : Target × Bool × List Tok := match ts with
    | .k .switch :: ts => (.switch, sc.sw, ts)
    | .k .while_ :: ts => (.while, sc.wh, ts)
    | .k .for_ :: ts => (.for, sc.fr, ts)
    | ts => (.none, sc.sw || sc.wh || sc.fr, ts)
  if r.2.1 then expect .semicol r.2.2 fun ts => .yes (.breakS r.1) ts else .throw

/-- `do_accept_continue_statement_opt` after the keyword, statement_sequence.cpp:1233-1259. -/
def contStmt (sc : Scope) (ts : List Tok) : P S :=
  let r : Target × Bool × List Tok := match ts with
    | .k .while_ :: ts => (.while, sc.wh, ts)
    | .k .for_ :: ts => (.for, sc.fr, ts)
    | ts => (.none, sc.wh || sc.fr, ts)
  if r.2.1 then expect .semicol r.2.2 fun ts => .yes (.contS r.1) ts else .throw

/-- The message of an `assert` statement, statement_sequence.cpp:1350-1360. -/
def assertMsg {β : Type} (ts : List Tok) (f : List Tok → P β) : P β :=
  match ts with
  | .p .colon :: ts =>
    match ts with
    | .str _ :: ts => f ts
    | _ => .throw
  | ts => f ts

/-- `s_prefix_keyword_xop` and `s_prefix_punctuator_xop`, statement_sequence.cpp:1602-1653. -/
def prefixOp : Tok → Option Xop
  | .k .unset => some .unset
  | .k .countof => some .countof
  | .k .typeof => some .typeof
  | .k .not => some .notl
  | .k .abs => some .abs
  | .k .sign => some .sign
  | .k .sqrt => some .sqrt
  | .k .isnan => some .isnan
  | .k .isinf => some .isinf
  | .k .isvoid => some .isvoid
  | .k .round => some .round
  | .k .floor => some .floor
  | .k .ceil => some .ceil
  | .k .trunc => some .trunc
  | .k .iround => some .iround
  | .k .ifloor => some .ifloor
  | .k .iceil => some .iceil
  | .k .itrunc => some .itrunc
  | .k .lzcnt => some .lzcnt
  | .k .tzcnt => some .tzcnt
  | .k .popcnt => some .popcnt
  | .p .add => some .pos
  | .p .sub => some .neg
  | .p .notb => some .notb
  | .p .notl => some .notl
  | .p .inc => some .inc
  | .p .dec => some .dec
  | .p .hash => some .countof
  | _ => none

/-- The loop which collects prefixes, statement_sequence.cpp:2456-2460, with `do_accept_prefix_operator`, 1664-1697.
They are reversed, as they are appended at line 2482. -/
def prefixes (acc : List U) : List Tok → List U × List Tok
  | [] => (acc, [])
  | t :: ts =>
    match prefixOp t with
    | some x => prefixes (.op x false :: acc) ts
    | none => (acc, t :: ts)

/-- `s_postfix_punctuator_xop`, statement_sequence.cpp:2307-2314. -/
def postfixOp : Tok → Option Xop
  | .p .inc => some .inc
  | .p .dec => some .dec
  | .p .head => some .head
  | .p .tail => some .tail
  | .p .random => some .random
  | _ => none

/-- `s_prefix_keyword_binary_xop`, statement_sequence.cpp:2041-2049. -/
def pairedOp : Tok → Option Xop
  | .k .addm => some .addm
  | .k .subm => some .subm
  | .k .mulm => some .mulm
  | .k .adds => some .adds
  | .k .subs => some .subs
  | .k .muls => some .muls
  | _ => none

/-- `Infix_Element`, /repo/asteria/compiler/infix_element.hpp:11-62. -/
inductive El where
  | head (us : List U)
  | ternary (assign : Bool) (t f : List U)
  | andl (assign : Bool) (t : List U)
  | orl (assign : Bool) (f : List U)
  | coales (assign : Bool) (n : List U)
  | general (x : Xop) (assign : Bool) (rhs : List U)

/-- `Infix_Element::tell_precedence`, infix_element.cpp:13-104, values at enums.hpp:147-162.  The `ASTERIA_TERMINATE` of
line 95 is made 0; operators that lead there are not in `s_infix_punctuator_xop`. -/
def El.prec : El → Nat
  | .head _ => 99
  | .ternary .. => 11
  | .andl a _ => if a then 11 else 9
  | .orl a _ => if a then 11 else 10
  | .coales a _ => if a then 11 else 1
  | .general x a _ => if a then 11 else (precXop x).getD 0

/-- `Infix_Element::extract`, infix_element.cpp:106-205. -/
def El.extract (lhs : List U) : El → List U
  | .head us => lhs ++ us
  | .ternary a t f => lhs ++ [.branch [.mk .true t, .mk .false f] a]
  | .andl a t => lhs ++ [.branch [.mk .true t] a]
  | .orl a f => lhs ++ [.branch [.mk .false f] a]
  | .coales a n => lhs ++ [.branch [.mk .null n] a]
  | .general x a rhs => lhs ++ rhs ++ [.op x a]

/-- What `Infix_Element::mut_junction` refers to, infix_element.cpp:207-236. -/
def El.junction : El → List U
  | .head us => us
  | .ternary _ _ f => f
  | .andl _ t => t
  | .orl _ f => f
  | .coales _ n => n
  | .general _ _ rhs => rhs

/-- Writing through `Infix_Element::mut_junction`, infix_element.cpp:207-236. -/
def El.setJunction (us : List U) : El → El
  | .head _ => .head us
  | .ternary a t _ => .ternary a t us
  | .andl a _ => .andl a us
  | .orl a _ => .orl a us
  | .coales a _ => .coales a us
  | .general x a _ => .general x a us

/-- The stack of `do_accept_expression`, topmost element first: the topmost one is extracted into the junction of the
one below, statement_sequence.cpp:2715-2718. -/
def popOne : List El → List El
  | e :: d :: s => d.setJunction (e.extract d.junction) :: s
  | s => s

/-- `while((stack.size() >= 2) && (stack.back().tell_precedence() <= next_precedence))`, statement_sequence.cpp:
2713-2718.  The bound is the number of elements. -/
def collapse (next : Nat) : Nat → List El → List El
  | 0, s => s
  | n + 1, s =>
    match s with
    | e :: _ :: _ => if e.prec ≤ next then collapse next n (popOne s) else s
    | _ => s

/-- `while(stack.size() >= 2)` and the final extraction, statement_sequence.cpp:2722-2729. -/
def collapseAll : Nat → List El → List U
  | 0, _ => []
  | n + 1, s =>
    match s with
    | _ :: _ :: _ => collapseAll n (popOne s)
    | [e] => e.extract []
    | [] => []

/-- The precedence down to which elements are collapsed, statement_sequence.cpp:2709-2711. -/
def nextPrec (e : El) : Nat := if e.prec = 11 then 10 else e.prec

/-- `do_accept_infix_logical_and_opt`, `.._or_opt`, `.._coalescence_opt` and `do_accept_infix_operator_general_opt`,
statement_sequence.cpp:2524-2656. -/
def infixOne : Tok → Option El
  | .p .andl => some (.andl false [])
  | .p .andlEq => some (.andl true [])
  | .k .and => some (.andl false [])
  | .p .orl => some (.orl false [])
  | .p .orlEq => some (.orl true [])
  | .k .or => some (.orl false [])
  | .p .coales => some (.coales false [])
  | .p .coalesEq => some (.coales true [])
  | .p x => (infixGeneral x).map fun y => .general y.1 y.2 []
  | _ => none

/-- `?` and `?=`, statement_sequence.cpp:2503-2508. -/
def questTok : Tok → Option Bool
  | .p .quest => some false
  | .p .questEq => some true
  | _ => none

/-- `do_accept_reference_specifier_opt`, statement_sequence.cpp:1286-1300. -/
def refSpec : List Tok → Bool × List Tok
  | .k .ref :: ts => (true, ts)
  | .p .arrow :: ts => (true, ts)
  | ts => (false, ts)

/-- `do_accept_local_reference` after the name, statement_sequence.cpp:1708-1722: the names `__file` and `__line` are
replaced. -/
def localName (c : Cfg) (s : Bytes) (ts : List Tok) : U :=
  if s = [0x5F, 0x5F, 0x66, 0x69, 0x6C, 0x65] then .literal (.str c.file)
  else if s = [0x5F, 0x5F, 0x6C, 0x69, 0x6E, 0x65] then .literal (.int (c.line ts))
  else .localRef (c.num s)

/-- `do_blockify_statement`, statement_sequence.cpp:1531-1539, for `S_if` and so on; blocks are not wrapped,
1590-1591. -/
def blockify : S → List S
  | .block b => b
  | s => [s]

mutual

/-- `do_accept_expression`, statement_sequence.cpp:2685-2731. -/
def expr (c : Cfg) : Nat → List Tok → P (List U)
  | 0, _ => .fuel
  | n + 1, ts => (elem c n ts).orElse (fun us ts => infixLoop c n [.head us] ts) .no

/-- The `for(;;)` loop and what follows it, statement_sequence.cpp:2699-2730. -/
def infixLoop (c : Cfg) : Nat → List El → List Tok → P (List U)
  | 0, _, _ => .fuel
  | n + 1, s, ts =>
    (infixOp c n ts).orElse
      (fun e ts => (elem c n ts).need fun us ts =>
        infixLoop c n (e.setJunction us :: collapse (nextPrec e) s.length s) ts)
      (.yes (collapseAll s.length s) ts)

/-- `do_accept_infix_operator_opt`, statement_sequence.cpp:2658-2682, with `do_accept_infix_ternary_opt`, 2497-2522. -/
def infixOp (c : Cfg) : Nat → List Tok → P El
  | 0, _ => .fuel
  | _ + 1, [] => .no
  | n + 1, t :: ts =>
    match questTok t with
    | some a => (expr c n ts).need fun us ts => expect .colon ts fun ts => .yes (.ternary a us []) ts
    | none =>
      match infixOne t with
      | some e => .yes e ts
      | none => .no

/-- `do_accept_infix_element`, statement_sequence.cpp:2440-2484. -/
def elem (c : Cfg) : Nat → List Tok → P (List U)
  | 0, _ => .fuel
  | n + 1, ts =>
    (primary c n (prefixes [] ts).2).orElse
      (fun us rest => (suffixes c n us rest).need fun us rest => .yes (us ++ (prefixes [] ts).1) rest)
      (if (prefixes [] ts).1.isEmpty then .no else .throw)

/-- `do_accept_primary_expression`, statement_sequence.cpp:2243-2300, and what it calls: names (1699-1724), `extern`
(1726-1744), literals (1746-1757), `this` (1759-1771), closures (1773-1863), arrays (1865-1908), objects (1910-1967),
nested expressions (1969-1990), `__fma` (1992-2039), the binary keyword operators (2051-2108) and `catch` (2110-2138).
The alternatives begin with different tokens, so their order is irrelevant. -/
def primary (c : Cfg) : Nat → List Tok → P (List U)
  | 0, _ => .fuel
  | _ + 1, [] => .no
  | n + 1, t :: ts =>
    match pairedOp t with
    | some x =>
      expect .parOp ts fun ts => (expr c n ts).need fun a ts =>
        expect .comma ts fun ts => (expr c n ts).need fun b ts =>
          expect .parCl ts fun ts => .yes (a ++ b ++ [.op x false]) ts
    | none =>
      match t with
      | .ident s => .yes [localName c s (t :: ts)] ts
      | .k .extern_ => (anyIdent c ts).need fun i ts => .yes [.globalRef i] ts
      | .k .this => .yes [.localRef (c.num [0x5F, 0x5F, 0x74, 0x68, 0x69, 0x73])] ts
      | .k .func => closure c n ts
      | .p .brackOp => (elements c n 0 ts).need fun r ts =>
          expect .brackCl ts fun ts => .yes (r.2 ++ [.array r.1]) ts
      | .p .braceOp => (members c n [] ts).need fun r ts =>
          expect .braceCl ts fun ts => .yes (r.2 ++ [.object r.1]) ts
      | .p .parOp => (expr c n ts).need fun us ts => expect .parCl ts fun ts => .yes us ts
      | .k .fma =>
        expect .parOp ts fun ts => (expr c n ts).need fun a ts =>
          expect .comma ts fun ts => (expr c n ts).need fun b ts =>
            expect .comma ts fun ts => (expr c n ts).need fun d ts =>
              expect .parCl ts fun ts => .yes (a ++ b ++ d ++ [.op .fma false]) ts
      | .k .catch_ =>
        expect .parOp ts fun ts => (expr c n ts).need fun us ts => expect .parCl ts fun ts => .yes [.catchE us] ts
      | .k .vcall => .out
      | .k .import_ => .out
      | t => (literal (t :: ts)).orElse (fun v ts => .yes [.literal v] ts) .no

/-- `do_accept_closure_function` after the keyword, statement_sequence.cpp:1787-1862. -/
def closure (c : Cfg) : Nat → List Tok → P (List U)
  | 0, _ => .fuel
  | n + 1, ts =>
    expect .parOp ts fun ts => (params c [] ts).need fun ps ts => expect .parCl ts fun ts =>
      match ts with
      | .p .braceOp :: ts => (stmts c n plain ts).need fun b ts =>
          expect .braceCl ts fun ts => .yes [.closure ps.1 ps.2 b] ts
      | .p .assign :: ts => (expr c n ts).need fun us ts => .yes [.closure ps.1 ps.2 [.returnS false us]] ts
      | .p .arrow :: ts => (expr c n ts).need fun us ts => .yes [.closure ps.1 ps.2 [.returnS true us]] ts
      | _ => .throw

/-- The loop over the elements of an array, statement_sequence.cpp:1879-1896; `k` elements have been accepted.  The
result is the number of elements and the units for those that follow. -/
def elements (c : Cfg) : Nat → Nat → List Tok → P (Nat × List U)
  | 0, _, _ => .fuel
  | n + 1, k, ts =>
    (expr c n ts).orElse
      (fun us ts =>
        if k ≥ 0xFFFFF then .throw
        else match ts with
          | .p .comma :: ts => (elements c n (k + 1) ts).need fun r ts => .yes (r.1, addCheck false us ++ r.2) ts
          | .p .semicol :: ts => (elements c n (k + 1) ts).need fun r ts => .yes (r.1, addCheck false us ++ r.2) ts
          | ts => .yes (k + 1, addCheck false us) ts)
      (.yes (k, []) ts)

/-- The loop over the members of an object, statement_sequence.cpp:1926-1955, with the keys so far. -/
def members (c : Cfg) : Nat → List Bytes → List Tok → P (List Bytes × List U)
  | 0, _, _ => .fuel
  | n + 1, ks, ts =>
    (key ts).orElse
      (fun s ts =>
        if s ∈ ks then .throw
        else
          let rest := match ts with
            | .p .assign :: ts => some ts
            | .p .colon :: ts => some ts
            | _ => none
          match rest with
          | none => .throw
          | some ts => (expr c n ts).need fun us ts =>
            match ts with
            | .p .comma :: ts => (members c n (ks ++ [s]) ts).need fun r ts => .yes (r.1, addCheck false us ++ r.2) ts
            | .p .semicol :: ts => (members c n (ks ++ [s]) ts).need fun r ts => .yes (r.1, addCheck false us ++ r.2) ts
            | ts => .yes (ks ++ [s], addCheck false us) ts)
      (.yes (ks, []) ts)

/-- The loop which collects suffixes, statement_sequence.cpp:2473-2478: `do_accept_postfix_operator` (2324-2344),
`.._function_call` (2346-2390), `.._subscript` (2392-2415) and `.._member_access` (2417-2438). -/
def suffixes (c : Cfg) : Nat → List U → List Tok → P (List U)
  | 0, _, _ => .fuel
  | _ + 1, us, [] => .yes us []
  | n + 1, us, t :: ts =>
    match postfixOp t with
    | some x => suffixes c n (us ++ [.op x true]) ts
    | none =>
      match t with
      | .p .parOp => (args c n ts).need fun as ts => expect .parCl ts fun ts => suffixes c n (us ++ [.call as]) ts
      | .p .brackOp => (expr c n ts).need fun is ts =>
          expect .brackCl ts fun ts => suffixes c n (us ++ is ++ [.op .index false]) ts
      | .p .dot => (key ts).need fun s ts => suffixes c n (us ++ [.literal (.str s), .op .index false]) ts
      | t => .yes us (t :: ts)

/-- The loop over arguments, statement_sequence.cpp:2357-2380. -/
def args (c : Cfg) : Nat → List Tok → P (List (Arg Xop))
  | 0, _ => .fuel
  | n + 1, ts =>
    (expr c n (refSpec ts).2).orElse
      (fun us rest =>
        match rest with
        | .p .comma :: rest => (args c n rest).need fun as rest => .yes (.mk (addCheck (refSpec ts).1 us) :: as) rest
        | rest => .yes [.mk (addCheck (refSpec ts).1 us)] rest)
      (if (refSpec ts).1 then .throw else .yes [] ts)

/-- `( expression )` of `if` and so on with `do_accept_expression_as_rvalue_opt`, statement_sequence.cpp:375-385,
716-730. -/
def cond (c : Cfg) : Nat → List Tok → P (List U)
  | 0, _ => .fuel
  | n + 1, ts => expect .parOp ts fun ts => (expr c n ts).need fun us ts =>
      expect .parCl ts fun ts => .yes (addCheck false us) ts

/-- The loop over declarators with `do_accept_equal_initializer_opt`, statement_sequence.cpp:467-488, 512-533; for
`const` an initializer is required. -/
def decls (c : Cfg) (imm : Bool) : Nat → List Tok → P (List (Decl Xop))
  | 0, _ => .fuel
  | n + 1, ts =>
    (declarator c ts).need fun b ts =>
      (match ts with
      | .p .assign :: ts => (expr c n ts).need fun us ts => .yes us ts
      | ts => if imm then .throw else .yes [] ts).need fun us ts =>
        match ts with
        | .p .comma :: ts => (decls c imm n ts).need fun ds ts => .yes (b.decl us :: ds) ts
        | ts => .yes [b.decl us] ts

/-- The loop over declarators with `do_accept_ref_initializer_opt`, statement_sequence.cpp:557-578. -/
def refDecls (c : Cfg) : Nat → List Tok → P (List (RefDecl Xop))
  | 0, _ => .fuel
  | n + 1, ts =>
    (userIdent c ts).need fun i ts => expect .arrow ts fun ts => (expr c n ts).need fun us ts =>
      match ts with
      | .p .comma :: ts => (refDecls c n ts).need fun ds ts => .yes (.mk i us :: ds) ts
      | ts => .yes [.mk i us] ts

/-- `do_accept_variable_definition_opt` (452-496), `do_accept_immutable_variable_definition_opt` (498-541) and
`do_accept_reference_definition_opt` (543-586), statement_sequence.cpp. -/
def definition (c : Cfg) : Nat → List Tok → P S
  | 0, _ => .fuel
  | n + 1, .k .var :: ts => (decls c false n ts).need fun ds ts => expect .semicol ts fun ts => .yes (.vars false ds) ts
  | n + 1, .k .const :: ts => (decls c true n ts).need fun ds ts => expect .semicol ts fun ts => .yes (.vars true ds) ts
  | n + 1, .k .ref :: ts => (refDecls c n ts).need fun ds ts => expect .semicol ts fun ts => .yes (.refs ds) ts
  | _ + 1, _ => .no

/-- `do_accept_function_definition_opt` after the keyword, statement_sequence.cpp:601-673. -/
def function (c : Cfg) : Nat → List Tok → P S
  | 0, _ => .fuel
  | n + 1, ts =>
    (userIdent c ts).need fun i ts => expect .parOp ts fun ts => (params c [] ts).need fun ps ts =>
      expect .parCl ts fun ts => expect .braceOp ts fun ts => (stmts c n plain ts).need fun b ts =>
        expect .braceCl ts fun ts => .yes (.func i ps.1 ps.2 (b ++ [.returnS true []])) ts

/-- The loop over clauses, statement_sequence.cpp:790-864; the flag says whether there has been a `default` clause. -/
def clauses (c : Cfg) (sc : Scope) : Nat → Bool → List Tok → P (List (SClause Xop))
  | 0, _, _ => .fuel
  | n + 1, d, ts =>
    match ts with
    | .k .default :: ts =>
      if d then .throw
      else expect .colon ts fun ts => (stmts c n { sc with sw := true } ts).need fun b ts =>
        (clauses c sc n true ts).need fun cs ts => .yes (.mk .default [] [] b :: cs) ts
    | .k .case :: ts =>
      (expr c n ts).need fun us ts => expect .colon ts fun ts => (stmts c n { sc with sw := true } ts).need fun b ts =>
        (clauses c sc n d ts).need fun cs ts => .yes (.mk .case (addCheck false us) [] b :: cs) ts
    | .k .each :: ts => (interval c n ts).need fun r ts => expect .colon ts fun ts =>
      (stmts c n { sc with sw := true } ts).need fun b ts =>
        (clauses c sc n d ts).need fun cs ts => .yes (.mk r.1 r.2.1 r.2.2 b :: cs) ts
    | ts => .yes [] ts

/-- The labels of an `each` clause, statement_sequence.cpp:819-854. -/
def interval (c : Cfg) : Nat → List Tok → P (ClauseKind × List U × List U)
  | 0, _ => .fuel
  | n + 1, ts =>
    (match ts with
    | .p .parOp :: ts => P.yes false ts
    | .p .brackOp :: ts => .yes true ts
    | _ => .no).need fun lower ts =>
      (expr c n ts).need fun a ts => expect .comma ts fun ts => (expr c n ts).need fun b ts =>
        match ts with
        | .p .parCl :: ts => .yes (.each lower false, addCheck false a, addCheck false b) ts
        | .p .brackCl :: ts => .yes (.each lower true, addCheck false a, addCheck false b) ts
        | _ => .throw

/-- `__ifcomplete` and what follows, for example statement_sequence.cpp:979-989; the result is the empty block if there is
no such keyword, together with whether there was. -/
def complete (c : Cfg) (sc : Scope) : Nat → List Tok → P (Bool × List S)
  | 0, _ => .fuel
  | n + 1, .k .ifcomplete :: ts => (nondecl c sc n ts).need fun s ts => .yes (true, blockify s) ts
  | _ + 1, ts => .yes (false, []) ts

/-- `do_accept_for_statement_opt` after the keyword, statement_sequence.cpp:1168-1178, with
`do_accept_for_complement_opt` (1142-1156), `.._range_opt` (993-1058), `.._triplet_opt` (1088-1139) and
`do_accept_for_initializer_opt` (1061-1085). -/
def forStmt (c : Cfg) (sc : Scope) : Nat → List Tok → P S
  | 0, _ => .fuel
  | n + 1, ts => expect .parOp ts fun ts =>
    match ts with
    | .k .each :: ts =>
      (userIdent c ts).need fun i ts =>
        (match ts with
        | .p .comma :: ts => (userIdent c ts).need fun j ts => .yes (some i, j) ts
        | .p .colon :: ts => (userIdent c ts).need fun j ts => .yes (some i, j) ts
        | .p .assign :: ts => (userIdent c ts).need fun j ts => .yes (some i, j) ts
        | ts => P.yes ((none, i) : Option Name × Name) ts).need fun r ts =>
          expect .arrow ts fun ts => (expr c n ts).need fun us ts => expect .parCl ts fun ts =>
            (nondecl c { sc with fr := true } n ts).need fun b ts => (complete c sc n ts).need fun k ts =>
              .yes (.forEach r.1 r.2 us (blockify b) k.2) ts
    | ts => (forInit c n ts).need fun i ts =>
        ((expr c n ts).orElse (fun us ts => .yes (addCheck false us) ts) (.yes [] ts)).need fun us ts =>
          expect .semicol ts fun ts =>
            ((expr c n ts).orElse (fun us ts => .yes us ts) (.yes [] ts)).need fun vs ts =>
              expect .parCl ts fun ts => (nondecl c { sc with fr := true } n ts).need fun b ts =>
                (complete c sc n ts).need fun k ts => .yes (.forS [i] us vs (blockify b) k.2) ts

/-- `do_accept_for_initializer_opt`, statement_sequence.cpp:1061-1085. -/
def forInit (c : Cfg) : Nat → List Tok → P S
  | 0, _ => .fuel
  | n + 1, ts =>
    (definition c n ts).orElse (fun s ts => .yes s ts)
      (match ts with
      | .p .semicol :: ts => .yes (.block []) ts
      | ts => exprStmt c n ts)

/-- `do_accept_expression_statement_opt`, statement_sequence.cpp:387-403. -/
def exprStmt (c : Cfg) : Nat → List Tok → P S
  | 0, _ => .fuel
  | n + 1, ts => (expr c n ts).orElse (fun us ts => expect .semicol ts fun ts => .yes (.expr us) ts) .no

/-- The statements that `do_accept_statement_opt` and `do_accept_nondeclarative_statement_as_block_opt` have in common,
statement_sequence.cpp:1487-1525, 1559-1597: `if` (700-750), `switch` (752-875), `do` (878-938), `while` (941-990), `for`,
`break`, `continue`, `throw` (1262-1284), `return` (1302-1332), `assert` (1334-1368), `try` (1370-1418), blocks (1420-1442)
and expressions.  The result of the second function is this, made a block, see `blockify`. -/
def nondecl (c : Cfg) (sc : Scope) : Nat → List Tok → P S
  | 0, _ => .fuel
  | n + 1, ts =>
    match ts with
    | .k .if_ :: ts =>
      (cond c n (negation ts).2).need fun us ts' => (nondecl c sc n ts').need fun t ts' =>
        (match ts' with
        | .k .else_ :: ts' => (nondecl c sc n ts').need fun f ts' => .yes (blockify f) ts'
        | ts' => .yes [] ts').need fun f ts' => .yes (.ifS (negation ts).1 us (blockify t) f) ts'
    | .k .switch :: ts =>
      (cond c n ts).need fun us ts => expect .braceOp ts fun ts => (clauses c sc n false ts).need fun cs ts =>
        expect .braceCl ts fun ts => .yes (.switchS us cs) ts
    | .k .do_ :: ts =>
      (nondecl c { sc with wh := true } n ts).need fun b ts => expectKw .while_ ts fun ts =>
        (cond c n (negation ts).2).need fun us ts' => (complete c sc n ts').need fun k ts' =>
          if k.1 then .yes (.doWhile (blockify b) (negation ts).1 us k.2) ts'
          else expect .semicol ts' fun ts' => .yes (.doWhile (blockify b) (negation ts).1 us k.2) ts'
    | .k .while_ :: ts =>
      (cond c n (negation ts).2).need fun us ts' => (nondecl c { sc with wh := true } n ts').need fun b ts' =>
        (complete c sc n ts').need fun k ts' => .yes (.whileS (negation ts).1 us (blockify b) k.2) ts'
    | .k .for_ :: ts => forStmt c sc n ts
    | .k .break_ :: ts => breakStmt sc ts
    | .k .continue_ :: ts => contStmt sc ts
    | .k .throw_ :: ts => (expr c n ts).need fun us ts => expect .semicol ts fun ts => .yes (.throwS (addCheck false us)) ts
    | .k .return_ :: ts =>
      ((expr c n (refSpec ts).2).orElse (fun us ts' => .yes us ts')
        (if (refSpec ts).1 then .throw else .yes [] (refSpec ts).2)).need fun us ts' =>
          expect .semicol ts' fun ts' => .yes (.returnS (refSpec ts).1 us) ts'
    | .k .assert :: ts => (expr c n ts).need fun us ts => assertMsg ts fun ts =>
        expect .semicol ts fun ts => .yes (.assertS (addCheck false us)) ts
    | .k .try_ :: ts =>
      (nondecl c sc n ts).need fun b ts => expectKw .catch_ ts fun ts => expect .parOp ts fun ts =>
        (userIdent c ts).need fun i ts => expect .parCl ts fun ts => (nondecl c sc n ts).need fun h ts =>
          .yes (.tryS (blockify b) i (blockify h)) ts
    | .p .braceOp :: ts => (stmts c n sc ts).need fun b ts => expect .braceCl ts fun ts => .yes (.block b) ts
    | ts => exprStmt c n ts

/-- `do_accept_statement_opt`, statement_sequence.cpp:1444-1528, with `do_accept_defer_statement_opt` (676-697) and
`do_accept_null_statement_opt` (405-415). -/
def stmt (c : Cfg) (sc : Scope) : Nat → List Tok → P S
  | 0, _ => .fuel
  | n + 1, ts =>
    (definition c n ts).orElse (fun s ts => .yes s ts)
      (match ts with
      | .k .func :: ts => function c n ts
      | .k .defer :: ts => (expr c n ts).need fun us ts => expect .semicol ts fun ts => .yes (.deferS us) ts
      | .p .semicol :: ts => .yes (.block []) ts
      | ts => nondecl c sc n ts)

/-- `while(auto qstmt = do_accept_statement_opt(tstrm, scope)) body.emplace_back(move(*qstmt))`, for example
statement_sequence.cpp:1430-1432. -/
def stmts (c : Cfg) : Nat → Scope → List Tok → P (List S)
  | 0, _, _ => .fuel
  | n + 1, sc, ts =>
    (stmt c sc n ts).orElse (fun s ts => (stmts c n sc ts).need fun ss ts => .yes (s :: ss) ts) (.yes [] ts)

end

/-- `Statement_Sequence::reload`, statement_sequence.cpp:2748-2772. -/
def reload (c : Cfg) (n : Nat) (ts : List Tok) : P (List S) :=
  (stmts c n plain ts).need fun b ts => if ts.isEmpty then .yes (b ++ [.returnS true []]) [] else .throw

/-- `Statement_Sequence::reload_oneline`, statement_sequence.cpp:2774-2801. -/
def reloadOneline (c : Cfg) (n : Nat) (ts : List Tok) : P (List S) :=
  (expr c n ts).need fun us ts => if ts.isEmpty then .yes [.returnS true us] [] else .throw

end Asteria.Syntax
