/-
Model of the expression parser: `do_accept_expression` and the functions below it.
Sources: /repo/asteria/src/compiler/statement_sequence.cpp and /repo/asteria/src/compiler/infix_element.cpp.
-/
namespace Asteria.Parser

/-- The punctuators (asteria/compiler/enums.hpp:10-74). -/
inductive Punct where
  | add | addEq | sub | subEq | mul | mulEq | div | divEq | mod | modEq | inc | dec | sll | sllEq | srl | srlEq
  | sla | slaEq | sra | sraEq | andb | andbEq | andl | andlEq | orb | orbEq | orl | orlEq | xorb | xorbEq | notb | notl
  | cmpEq | cmpNe | cmpLt | cmpGt | cmpLte | cmpGte | dot | quest | questEq | assign | parOp | parCl | brackOp | brackCl
  | braceOp | braceCl | comma | colon | semicol | cmp3way | coales | coalesEq | ellipsis | head | tail | arrow | scope
  | random | cmpUn | hash
deriving DecidableEq, Repr

/-- The keywords that matter within expressions (asteria/compiler/enums.hpp:76-137).  All other keywords are `other`. -/
inductive Kw where
  | unset | countof | typeof | not | abs | sign | sqrt | isnan | isinf | isvoid | round | floor | ceil | trunc
  | iround | ifloor | iceil | itrunc | lzcnt | tzcnt | popcnt
  | and | or | ref | this | extern | catch | fma | addm | subm | mulm | adds | subs | muls
  | other
deriving DecidableEq, Repr

/-- The operators of RPN units (asteria/runtime/enums.hpp:17-77). -/
inductive Xop where
  | inc | dec | index | pos | neg | notb | notl | unset | countof | typeof | sqrt | isnan | isinf | abs | sign
  | round | floor | ceil | trunc | iround | ifloor | iceil | itrunc
  | cmpEq | cmpNe | cmpLt | cmpGt | cmpLte | cmpGte | cmp3way | cmpUn | add | sub | mul | div | mod
  | sll | srl | sla | sra | andb | orb | xorb | assign | fma | head | tail | lzcnt | tzcnt | popcnt
  | addm | subm | mulm | adds | subs | muls | random | isvoid
deriving DecidableEq, Repr

/-- Tokens (asteria/compiler/token.hpp).  Identifiers and literals are numbered.  `phrase void n` stands for a whole
closure, array, object, `__vcall` or `import` phrase, whose insides are not modelled; `void` says whether the unit it
gives may be void. -/
inductive Tok where
  | ident (n : Nat)
  | lit (n : Nat)
  | p (x : Punct)
  | k (x : Kw)
  | phrase (void : Bool) (n : Nat)
deriving DecidableEq, Repr

/-- The kind of a branch (asteria/compiler/expression_unit.hpp, `branch_type`). -/
inductive BKind where
  | true | false | null
deriving DecidableEq, Repr

/-- Expression units (asteria/compiler/expression_unit.hpp).  Source locations are left out; a branch unit with one
branch is `branch1`, one with a TRUE and a FALSE branch is `branch2`. -/
inductive EUnit where
  | literal (n : Nat)
  | name (n : Nat)
  | localRef (n : Nat)
  | thisRef
  | globalRef (n : Nat)
  | op (x : Xop) (assign : Bool)
  | branch1 (b : BKind) (us : List EUnit) (assign : Bool)
  | branch2 (t f : List EUnit) (assign : Bool)
  | call (args : List (List EUnit))
  | check (byRef : Bool)
  | catch_ (us : List EUnit)
  | phrase (void : Bool) (n : Nat)

mutual

/-- `Expression_Unit::may_be_void` (asteria/src/compiler/expression_unit.cpp:51-83). -/
def EUnit.mayBeVoid : EUnit → Bool
  | .localRef _ | .thisRef | .globalRef _ | .call _ => true
  | .branch1 _ us _ => lastVoid us
  | .branch2 t f _ => lastVoid t || lastVoid f
  | .phrase v _ => v
  | _ => false

/-- `units.size() && units.back().may_be_void()` (expression_unit.cpp:77). -/
def lastVoid : List EUnit → Bool
  | [] => false
  | [u] => u.mayBeVoid
  | _ :: v :: us => lastVoid (v :: us)

end

/-- The part of `do_accept_expression_and_check` after the expression (statement_sequence.cpp:359-374). -/
def addCheck (byRef : Bool) (us : List EUnit) : List EUnit :=
  if lastVoid us then us ++ [.check byRef] else us

/-- Outcomes of an accepting function: it accepts and leaves the remaining tokens, returns `false`/`nullopt` having
consumed nothing, throws a `Compiler_Error`, or the model's own recursion bound ran out. -/
inductive P (α : Type) where
  | yes (a : α) (rest : List Tok)
  | no
  | throw
  | fuel

/-- Continue after an acceptor which must succeed: `if(!do_accept_x(..)) throw Compiler_Error(..)`. -/
def P.need {α β : Type} (x : P α) (f : α → List Tok → P β) : P β :=
  match x with
  | .yes a ts => f a ts
  | .no => .throw
  | .throw => .throw
  | .fuel => .fuel

/-- Continue after an acceptor which may fail: `if(do_accept_x(..)) ... else ...`. -/
def P.orElse {α β : Type} (x : P α) (f : α → List Tok → P β) (g : P β) : P β :=
  match x with
  | .yes a ts => f a ts
  | .no => g
  | .throw => .throw
  | .fuel => .fuel

/-- `do_accept_punctuator_opt(tstrm, { x })` followed by a throw if it fails. -/
def expect {β : Type} (x : Punct) (ts : List Tok) (f : List Tok → P β) : P β :=
  match ts with
  | t :: ts => if t = .p x then f ts else .throw
  | [] => .throw

/-- `s_prefix_keyword_xop` and `s_prefix_punctuator_xop` (statement_sequence.cpp:1601-1655). -/
def prefixOp : Tok → Option Xop
  | .k .unset => some .unset
  | .k .countof => some .countof
  | .k .typeof => some .typeof
  | .k .not => some .notl
  | .k .abs => some .abs
  | .k .sign => some .sign
  | .k .sqrt => some .sqrt
  | .k .isnan => some .isnan
  | .k .isinf => some .isinf
  | .k .isvoid => some .isvoid
  | .k .round => some .round
  | .k .floor => some .floor
  | .k .ceil => some .ceil
  | .k .trunc => some .trunc
  | .k .iround => some .iround
  | .k .ifloor => some .ifloor
  | .k .iceil => some .iceil
  | .k .itrunc => some .itrunc
  | .k .lzcnt => some .lzcnt
  | .k .tzcnt => some .tzcnt
  | .k .popcnt => some .popcnt
  | .p .add => some .pos
  | .p .sub => some .neg
  | .p .notb => some .notb
  | .p .notl => some .notl
  | .p .inc => some .inc
  | .p .dec => some .dec
  | .p .hash => some .countof
  | _ => none

/-- The loop which collects prefixes (statement_sequence.cpp:2454-2458) with `do_accept_prefix_operator` (1664-1697). -/
def prefixes : List Tok → List EUnit × List Tok
  | [] => ([], [])
  | t :: ts =>
    match prefixOp t with
    | some x => ((.op x false) :: (prefixes ts).1, (prefixes ts).2)
    | none => ([], t :: ts)

/-- `s_postfix_punctuator_xop` (statement_sequence.cpp:2295-2308). -/
def postfixOp : Tok → Option Xop
  | .p .inc => some .inc
  | .p .dec => some .dec
  | .p .head => some .head
  | .p .tail => some .tail
  | .p .random => some .random
  | _ => none

/-- The alternatives of the suffix loop (statement_sequence.cpp:2472-2476). -/
inductive Suffix where
  | op (x : Xop) | call | index | member | none

/-- Which alternative of the suffix loop takes a token. -/
def suffix (t : Tok) : Suffix :=
  match postfixOp t with
  | some x => .op x
  | none =>
    if t = .p .parOp then .call else if t = .p .brackOp then .index else if t = .p .dot then .member else .none

/-- `do_accept_identifier_opt`. -/
def acceptIdent : List Tok → P Nat
  | .ident i :: ts => .yes i ts
  | _ => .no

/-- The alternatives of `do_accept_primary_expression`. -/
inductive Start where
  | one (u : EUnit) | extern | paren | fma | catch | paired (x : Xop) | none

/-- Which alternative of `do_accept_primary_expression` (statement_sequence.cpp:2236-2288) takes a token, with
`s_prefix_keyword_binary_xop` (2039-2047).  The alternatives start with different tokens, so their order is
irrelevant. -/
def start : Tok → Start
  | .ident i => .one (.localRef i)
  | .lit i => .one (.literal i)
  | .phrase v i => .one (.phrase v i)
  | .k .this => .one .thisRef
  | .k .extern => .extern
  | .p .parOp => .paren
  | .k .fma => .fma
  | .k .catch => .catch
  | .k .addm => .paired .addm
  | .k .subm => .paired .subm
  | .k .mulm => .paired .mulm
  | .k .adds => .paired .adds
  | .k .subs => .paired .subs
  | .k .muls => .paired .muls
  | _ => .none

/-- `s_infix_punctuator_xop` (statement_sequence.cpp:2586-2627). -/
def infixGeneral : Punct → Option (Xop × Bool)
  | .add => some (.add, false)
  | .sub => some (.sub, false)
  | .mul => some (.mul, false)
  | .div => some (.div, false)
  | .mod => some (.mod, false)
  | .andb => some (.andb, false)
  | .orb => some (.orb, false)
  | .xorb => some (.xorb, false)
  | .sla => some (.sla, false)
  | .sra => some (.sra, false)
  | .sll => some (.sll, false)
  | .srl => some (.srl, false)
  | .addEq => some (.add, true)
  | .subEq => some (.sub, true)
  | .mulEq => some (.mul, true)
  | .divEq => some (.div, true)
  | .modEq => some (.mod, true)
  | .andbEq => some (.andb, true)
  | .orbEq => some (.orb, true)
  | .xorbEq => some (.xorb, true)
  | .slaEq => some (.sla, true)
  | .sraEq => some (.sra, true)
  | .sllEq => some (.sll, true)
  | .srlEq => some (.srl, true)
  | .assign => some (.assign, true)
  | .cmpEq => some (.cmpEq, false)
  | .cmpNe => some (.cmpNe, false)
  | .cmpLt => some (.cmpLt, false)
  | .cmpGt => some (.cmpGt, false)
  | .cmpLte => some (.cmpLte, false)
  | .cmpGte => some (.cmpGte, false)
  | .cmp3way => some (.cmp3way, false)
  | .cmpUn => some (.cmpUn, false)
  | _ => none

/-- `Infix_Element` (asteria/compiler/infix_element.hpp:11-62). -/
inductive El where
  | head (us : List EUnit)
  | ternary (assign : Bool) (t f : List EUnit)
  | andl (assign : Bool) (t : List EUnit)
  | orl (assign : Bool) (f : List EUnit)
  | coales (assign : Bool) (n : List EUnit)
  | general (x : Xop) (assign : Bool) (rhs : List EUnit)

/-- The precedence of an operator without assignment (asteria/src/compiler/infix_element.cpp:59-97, values at
asteria/compiler/enums.hpp:147-162).  `none` is the `ASTERIA_TERMINATE` of the default case. -/
def precXop : Xop → Option Nat
  | .mul | .div | .mod => some 2
  | .add | .sub => some 3
  | .sla | .sra | .sll | .srl => some 4
  | .cmpLt | .cmpLte | .cmpGt | .cmpGte => some 7
  | .cmpEq | .cmpNe | .cmp3way | .cmpUn => some 8
  | .andb => some 5
  | .xorb | .orb => some 6
  | .assign => some 11
  | _ => none

/-- `Infix_Element::tell_precedence` (infix_element.cpp:13-105).  The `ASTERIA_TERMINATE` of line 95 is made 0; it
cannot happen, because the elements built by the parser only hold operators of `s_infix_punctuator_xop`. -/
def El.prec : El → Nat
  | .head _ => 99
  | .ternary .. => 11
  | .andl a _ => if a then 11 else 9
  | .orl a _ => if a then 11 else 10
  | .coales a _ => if a then 11 else 1
  | .general x a _ => if a then 11 else (precXop x).getD 0

/-- `Infix_Element::extract` (infix_element.cpp:107-205): the units of the left operand are given, the result is
those units with the element's own appended. -/
def El.extract (lhs : List EUnit) : El → List EUnit
  | .head us => lhs ++ us
  | .ternary a t f => lhs ++ [.branch2 t f a]
  | .andl a t => lhs ++ [.branch1 .true t a]
  | .orl a f => lhs ++ [.branch1 .false f a]
  | .coales a n => lhs ++ [.branch1 .null n a]
  | .general x a rhs => lhs ++ rhs ++ [.op x a]

/-- What `Infix_Element::mut_junction` refers to (infix_element.cpp:207-236). -/
def El.junction : El → List EUnit
  | .head us => us
  | .ternary _ _ f => f
  | .andl _ t => t
  | .orl _ f => f
  | .coales _ n => n
  | .general _ _ rhs => rhs

/-- Writing through `Infix_Element::mut_junction` (infix_element.cpp:207-236). -/
def El.setJunction (us : List EUnit) : El → El
  | .head _ => .head us
  | .ternary a t _ => .ternary a t us
  | .andl a _ => .andl a us
  | .orl a _ => .orl a us
  | .coales a _ => .coales a us
  | .general x a _ => .general x a us

/-- The stack of `do_accept_expression`, topmost element first.  Pop the topmost element and extract it into the
junction of the one below (statement_sequence.cpp:2716-2720). -/
def popOne : List El → List El
  | e :: d :: s => d.setJunction (e.extract d.junction) :: s
  | s => s

/-- `while((stack.size() >= 2) && (stack.back().tell_precedence() <= next_precedence))` (statement_sequence.cpp:
2714-2720).  The bound is the number of elements. -/
def collapse (next : Nat) : Nat → List El → List El
  | 0, s => s
  | n + 1, s =>
    match s with
    | e :: _ :: _ => if e.prec ≤ next then collapse next n (popOne s) else s
    | _ => s

/-- `while(stack.size() >= 2)` and the final extraction (statement_sequence.cpp:2724-2731). -/
def collapseAll : Nat → List El → List EUnit
  | 0, _ => []
  | n + 1, s =>
    match s with
    | _ :: _ :: _ => collapseAll n (popOne s)
    | [e] => e.extract []
    | [] => []

/-- The precedence used to collapse before pushing an element (statement_sequence.cpp:2708-2712). -/
def nextPrec (e : El) : Nat := if e.prec = 11 then 10 else e.prec

/-- `do_accept_infix_logical_and_opt`, `.._or_opt`, `.._coalescence_opt` and `do_accept_infix_operator_general_opt`
(statement_sequence.cpp:2524-2656): the elements made from one token. -/
def infixOne : Tok → Option El
  | .p .andl => some (.andl false [])
  | .p .andlEq => some (.andl true [])
  | .k .and => some (.andl false [])
  | .p .orl => some (.orl false [])
  | .p .orlEq => some (.orl true [])
  | .k .or => some (.orl false [])
  | .p .coales => some (.coales false [])
  | .p .coalesEq => some (.coales true [])
  | .p x => (infixGeneral x).map fun y => .general y.1 y.2 []
  | _ => none

/-- `?` and `?=` (statement_sequence.cpp:2503-2508). -/
def questTok : Tok → Option Bool
  | .p .quest => some false
  | .p .questEq => some true
  | _ => none

/-- `do_accept_reference_specifier_opt` (statement_sequence.cpp:1287-1301). -/
def refSpec : List Tok → Bool × List Tok
  | .k .ref :: ts => (true, ts)
  | .p .arrow :: ts => (true, ts)
  | ts => (false, ts)

mutual

/-- `do_accept_expression` (statement_sequence.cpp:2685-2733).  The recursion sentry (2689), which throws when the
native stack is nearly exhausted, is replaced by the bound of the model. -/
def expr : Nat → List Tok → P (List EUnit)
  | 0, _ => .fuel
  | n + 1, ts => (elem n ts).orElse (fun us ts => infixLoop n [.head us] ts) .no

/-- The `for(;;)` loop and what follows it (statement_sequence.cpp:2699-2732). -/
def infixLoop : Nat → List El → List Tok → P (List EUnit)
  | 0, _, _ => .fuel
  | n + 1, s, ts =>
    (infixOp n ts).orElse
      (fun e ts => (elem n ts).need fun us ts =>
        infixLoop n (e.setJunction us :: collapse (nextPrec e) s.length s) ts)
      (.yes (collapseAll s.length s) ts)

/-- `do_accept_infix_operator_opt` (statement_sequence.cpp:2658-2683) with `do_accept_infix_ternary_opt`
(2497-2522). -/
def infixOp : Nat → List Tok → P El
  | 0, _ => .fuel
  | _ + 1, [] => .no
  | n + 1, t :: ts =>
    match questTok t with
    | some a => (expr n ts).need fun us ts => expect .colon ts fun ts => .yes (.ternary a us []) ts
    | none =>
      match infixOne t with
      | some e => .yes e ts
      | none => .no

/-- `do_accept_infix_element` (statement_sequence.cpp:2440-2484). -/
def elem : Nat → List Tok → P (List EUnit)
  | 0, _ => .fuel
  | n + 1, ts =>
    (primary n (prefixes ts).2).orElse
      (fun us rest => (postfix_ n us rest).need fun us rest => .yes (us ++ (prefixes ts).1.reverse) rest)
      (if (prefixes ts).1 = [] then .no else .throw)

/-- `do_accept_primary_expression` (statement_sequence.cpp:2236-2288) and what it calls: identifiers and literals
(1699-1772), `this` (1757-1769), `extern` (1726-1742), nested expressions (1969-1990), `__fma` (1992-2037), the
binary keyword operators (2049-2106) and `catch` (2108-2134).  Names replaced like macros (`__file`, `__line` ..)
count as identifiers. -/
def primary : Nat → List Tok → P (List EUnit)
  | 0, _ => .fuel
  | _ + 1, [] => .no
  | n + 1, t :: ts =>
    match start t with
    | .one u => .yes [u] ts
    | .extern => (acceptIdent ts).need fun i ts => .yes [.globalRef i] ts
    | .paren => (expr n ts).need fun us ts => expect .parCl ts fun ts => .yes us ts
    | .fma =>
      expect .parOp ts fun ts => (expr n ts).need fun a ts =>
        expect .comma ts fun ts => (expr n ts).need fun b ts =>
          expect .comma ts fun ts => (expr n ts).need fun c ts =>
            expect .parCl ts fun ts => .yes (a ++ b ++ c ++ [.op .fma false]) ts
    | .catch =>
      expect .parOp ts fun ts => (expr n ts).need fun us ts => expect .parCl ts fun ts => .yes [.catch_ us] ts
    | .paired x =>
      expect .parOp ts fun ts => (expr n ts).need fun a ts =>
        expect .comma ts fun ts => (expr n ts).need fun b ts =>
          expect .parCl ts fun ts => .yes (a ++ b ++ [.op x false]) ts
    | .none => .no

/-- The loop which collects suffixes (statement_sequence.cpp:2471-2477): `do_accept_postfix_operator` (2318-2338),
`.._function_call` (2340-2391), `.._subscript` (2393-2415) and `.._member_access` (2417-2438, where the key is taken to
be an identifier). -/
def postfix_ : Nat → List EUnit → List Tok → P (List EUnit)
  | 0, _, _ => .fuel
  | _ + 1, us, [] => .yes us []
  | n + 1, us, t :: ts =>
    match suffix t with
    | .op x => postfix_ n (us ++ [.op x true]) ts
    | .call => (args n ts).need fun as ts => expect .parCl ts fun ts => postfix_ n (us ++ [.call as]) ts
    | .index =>
      (expr n ts).need fun is ts => expect .brackCl ts fun ts => postfix_ n (us ++ is ++ [.op .index false]) ts
    | .member => (acceptIdent ts).need fun i ts => postfix_ n (us ++ [.name i, .op .index false]) ts
    | .none => .yes us (t :: ts)

/-- The argument loop of `do_accept_postfix_function_call` (statement_sequence.cpp:2352-2380). -/
def args : Nat → List Tok → P (List (List EUnit))
  | 0, _ => .fuel
  | n + 1, ts =>
    (expr n (refSpec ts).2).orElse
      (fun us rest =>
        match rest with
        | .p .comma :: rest => (args n rest).need fun as rest => .yes (addCheck (refSpec ts).1 us :: as) rest
        | rest => .yes [addCheck (refSpec ts).1 us] rest)
      (if (refSpec ts).1 then .throw else .yes [] ts)

end

end Asteria.Parser
