import Verif.Spec.Syntax

/-!
# The grammar of scripts

/repo/doc/grammar.md, with the units and statements that each phrase stands for, the precedence table of its lines
357-383, and the restrictions which the grammar does not mention: names that occur twice, reserved names, jumps, and
what belongs to what where the grammar is ambiguous.  It is independent of the parser in Verif/Model/Syntax.lean: only
the types of tokens, units and statements, and the numbers of names are shared.

`Phrase c k ts o r`: a phrase of kind `k` is at the beginning of the tokens `ts`, the tokens `r` follow it, and it stands
for `o`.
-/

namespace Asteria.Script

open Syntax Compile
open _root_.Asteria.Parser (Punct Xop)
open Exec (Name ClauseKind)

/-- An operator in reverse Polish notation: left operand, right operand, operator. -/
def rpn (x : Xop) (a : Bool) (l r : List U) : List U := l ++ r ++ [.op x a]

/-- A short-circuit operator: left operand, then a branch on it. -/
def short (b : BranchKind) (a : Bool) (l r : List U) : List U := l ++ [.branch [.mk b r] a]

/-- The left-associative operators, from the tightest level 1 to the loosest level 10. -/
inductive Binary : Nat → Tok → (List U → List U → List U) → Prop
  | coales : Binary 1 (.p .coales) (short .null false)
  | mul : Binary 2 (.p .mul) (rpn .mul false)
  | div : Binary 2 (.p .div) (rpn .div false)
  | mod : Binary 2 (.p .mod) (rpn .mod false)
  | add : Binary 3 (.p .add) (rpn .add false)
  | sub : Binary 3 (.p .sub) (rpn .sub false)
  | sll : Binary 4 (.p .sll) (rpn .sll false)
  | srl : Binary 4 (.p .srl) (rpn .srl false)
  | sla : Binary 4 (.p .sla) (rpn .sla false)
  | sra : Binary 4 (.p .sra) (rpn .sra false)
  | andb : Binary 5 (.p .andb) (rpn .andb false)
  | orb : Binary 6 (.p .orb) (rpn .orb false)
  | xorb : Binary 6 (.p .xorb) (rpn .xorb false)
  | lt : Binary 7 (.p .cmpLt) (rpn .cmpLt false)
  | gt : Binary 7 (.p .cmpGt) (rpn .cmpGt false)
  | lte : Binary 7 (.p .cmpLte) (rpn .cmpLte false)
  | gte : Binary 7 (.p .cmpGte) (rpn .cmpGte false)
  | eq : Binary 8 (.p .cmpEq) (rpn .cmpEq false)
  | ne : Binary 8 (.p .cmpNe) (rpn .cmpNe false)
  | spaceship : Binary 8 (.p .cmp3way) (rpn .cmp3way false)
  | unordered : Binary 8 (.p .cmpUn) (rpn .cmpUn false)
  | andl : Binary 9 (.p .andl) (short .true false)
  | and : Binary 9 (.k .and) (short .true false)
  | orl : Binary 10 (.p .orl) (short .false false)
  | or : Binary 10 (.k .or) (short .false false)

/-- The assignment operators; right-associative. -/
inductive Assign : Tok → (List U → List U → List U) → Prop
  | assign : Assign (.p .assign) (rpn .assign true)
  | add : Assign (.p .addEq) (rpn .add true)
  | sub : Assign (.p .subEq) (rpn .sub true)
  | mul : Assign (.p .mulEq) (rpn .mul true)
  | div : Assign (.p .divEq) (rpn .div true)
  | mod : Assign (.p .modEq) (rpn .mod true)
  | andb : Assign (.p .andbEq) (rpn .andb true)
  | orb : Assign (.p .orbEq) (rpn .orb true)
  | xorb : Assign (.p .xorbEq) (rpn .xorb true)
  | sll : Assign (.p .sllEq) (rpn .sll true)
  | srl : Assign (.p .srlEq) (rpn .srl true)
  | sla : Assign (.p .slaEq) (rpn .sla true)
  | sra : Assign (.p .sraEq) (rpn .sra true)
  | andl : Assign (.p .andlEq) (short .true true)
  | orl : Assign (.p .orlEq) (short .false true)
  | coales : Assign (.p .coalesEq) (short .null true)

/-- `?` and `?=`, which belong to a `:`; right-associative, same level as assignments. -/
inductive Quest : Tok → Bool → Prop
  | plain : Quest (.p .quest) false
  | assign : Quest (.p .questEq) true

/-- The prefix operators. -/
inductive Prefix : Tok → Xop → Prop
  | pos : Prefix (.p .add) .pos
  | neg : Prefix (.p .sub) .neg
  | notb : Prefix (.p .notb) .notb
  | notl : Prefix (.p .notl) .notl
  | inc : Prefix (.p .inc) .inc
  | dec : Prefix (.p .dec) .dec
  | hash : Prefix (.p .hash) .countof
  | unset : Prefix (.k .unset) .unset
  | countof : Prefix (.k .countof) .countof
  | typeof : Prefix (.k .typeof) .typeof
  | not : Prefix (.k .not) .notl
  | abs : Prefix (.k .abs) .abs
  | sign : Prefix (.k .sign) .sign
  | sqrt : Prefix (.k .sqrt) .sqrt
  | isnan : Prefix (.k .isnan) .isnan
  | isinf : Prefix (.k .isinf) .isinf
  | isvoid : Prefix (.k .isvoid) .isvoid
  | round : Prefix (.k .round) .round
  | floor : Prefix (.k .floor) .floor
  | ceil : Prefix (.k .ceil) .ceil
  | trunc : Prefix (.k .trunc) .trunc
  | iround : Prefix (.k .iround) .iround
  | ifloor : Prefix (.k .ifloor) .ifloor
  | iceil : Prefix (.k .iceil) .iceil
  | itrunc : Prefix (.k .itrunc) .itrunc
  | lzcnt : Prefix (.k .lzcnt) .lzcnt
  | tzcnt : Prefix (.k .tzcnt) .tzcnt
  | popcnt : Prefix (.k .popcnt) .popcnt

/-- The postfix operators. -/
inductive Postfix : Tok → Xop → Prop
  | inc : Postfix (.p .inc) .inc
  | dec : Postfix (.p .dec) .dec
  | head : Postfix (.p .head) .head
  | tail : Postfix (.p .tail) .tail
  | random : Postfix (.p .random) .random

/-- The keyword operators of two operands. -/
inductive Paired : Kw → Xop → Prop
  | addm : Paired .addm .addm
  | subm : Paired .subm .subm
  | mulm : Paired .mulm .mulm
  | adds : Paired .adds .adds
  | subs : Paired .subs .subs
  | muls : Paired .muls .muls

/-- Tokens which continue an expression once an operand has been read. -/
inductive Continues : Tok → Prop
  | suffix {t x} : Postfix t x → Continues t
  | call : Continues (.p .parOp)
  | index : Continues (.p .brackOp)
  | member : Continues (.p .dot)
  | binary {p t f} : Binary p t f → Continues t
  | assign {t f} : Assign t f → Continues t
  | quest {t a} : Quest t a → Continues t

/-- The next token, if any, is none of these. -/
def NotNext (p : Tok → Prop) (r : List Tok) : Prop := ∀ t q, r = t :: q → ¬ p t

/-- Units whose result may be void: references and calls, and branches that may end in one. -/
inductive MayVoid : List U → Prop
  | localRef (us i) : MayVoid (us ++ [.localRef i])
  | globalRef (us i) : MayVoid (us ++ [.globalRef i])
  | call (us l) : MayVoid (us ++ [.call l])
  | branch (us) {bs : List (Branch Xop)} {k b} (a) : .mk k b ∈ bs → MayVoid b → MayVoid (us ++ [.branch bs a])

/-- A check is added if the result may be void. -/
inductive Checked (byRef : Bool) (us : List U) : List U → Prop
  | plain : ¬ MayVoid us → Checked byRef us us
  | check : MayVoid us → Checked byRef us (us ++ [.checkArg byRef])

/-- How an argument is announced. -/
inductive RefSpec : List Tok → Bool → List Tok → Prop
  | none (r) : RefSpec r false r
  | ref (r) : RefSpec (.k .ref :: r) true r
  | arrow (r) : RefSpec (.p .arrow :: r) true r

/-- Whether a condition is negated. -/
inductive Negation : List Tok → Bool → List Tok → Prop
  | none (r) : Negation r false r
  | notl (r) : Negation (.p .notl :: r) true r
  | not (r) : Negation (.k .not :: r) true r

/-- A name that can be declared: it does not begin with two underscores. -/
inductive Declared (c : Cfg) : Tok → Name → Prop
  | mk (s) : (¬ ∃ q, s = 0x5F :: 0x5F :: q) → Declared c (.ident s) (c.num s)

/-- _json5-key_; keywords are also allowed. -/
inductive Key : Tok → Bytes → Prop
  | kw (w : Kw) : Key (.k w) w.text
  | ident (s) : Key (.ident s) s
  | str (s) : Key (.str s) s

/-- One or more string literals; they are concatenated. -/
inductive Strings : List Tok → Bytes → List Tok → Prop
  | last (s r) : NotNext (fun t => ∃ s, t = .str s) r → Strings (.str s :: r) s r
  | more (s) {ts v r} : Strings ts v r → Strings (.str s :: ts) (s ++ v) r

/-- _literal_. -/
inductive Literal : List Tok → Value → List Tok → Prop
  | null (r) : Literal (.k .null :: r) .null r
  | false (r) : Literal (.k .false :: r) (.bool false) r
  | true (r) : Literal (.k .true :: r) (.bool true) r
  | int (v r) : Literal (.int v :: r) (.int v) r
  | real (d r) : Literal (.real d :: r) (.real d) r
  | str {ts v r} : Strings ts v r → Literal ts (.str v) r

/-- _identifier-list_, or nothing. -/
inductive Names (c : Cfg) : List Tok → List Name → List Tok → Prop
  | none (r) : Names c r [] r
  | last {t n} (r) : Declared c t n → Names c (t :: r) [n] r
  | more {t n ts ns r} : Declared c t n → Names c ts ns r → Names c (t :: .p .comma :: ts) (n :: ns) r

/-- _parameter-list_, or nothing; whether there is an ellipsis. -/
inductive Params (c : Cfg) : List Tok → List Name → Bool → List Tok → Prop
  | none (r) : Params c r [] false r
  | dots (r) : Params c (.p .ellipsis :: r) [] true r
  | last {t n} (r) : Declared c t n → Params c (t :: r) [n] false r
  | more {t n ts ns v r} : Declared c t n → Params c ts ns v r → Params c (t :: .p .comma :: ts) (n :: ns) v r

/-- _variable-declarator_, as a function of the initializer. -/
inductive Declarator (c : Cfg) : List Tok → (List U → Decl Xop) → List Tok → Prop
  | scalar {t n} (r) : Declared c t n → Declarator c (t :: r) (.scalar n) r
  | array {ts ns r} : Names c ts ns (.p .brackCl :: r) → ns ≠ [] → ns.Nodup →
      Declarator c (.p .brackOp :: ts) (.array ns) r
  | object {ts ns r} : Names c ts ns (.p .braceCl :: r) → ns ≠ [] → ns.Nodup →
      Declarator c (.p .braceOp :: ts) (.object ns) r

/-- What a `break` statement refers to. -/
inductive BreakTarget : List Tok → Target → List Tok → Prop
  | none (r) : BreakTarget r .none r
  | switch (r) : BreakTarget (.k .switch :: r) .switch r
  | while (r) : BreakTarget (.k .while_ :: r) .while r
  | for (r) : BreakTarget (.k .for_ :: r) .for r

/-- What a `continue` statement refers to. -/
inductive ContTarget : List Tok → Target → List Tok → Prop
  | none (r) : ContTarget r .none r
  | while (r) : ContTarget (.k .while_ :: r) .while r
  | for (r) : ContTarget (.k .for_ :: r) .for r

/-- The message of an `assert` statement. -/
inductive Message : List Tok → List Tok → Prop
  | none (r) : Message r r
  | some (s r) : Message (.p .colon :: .str s :: r) r

/-- The names in a ranged `for` statement. -/
inductive EachNames (c : Cfg) : List Tok → Option Name → Name → List Tok → Prop
  | one {t n} (r) : Declared c t n → EachNames c (t :: r) none n r
  | comma {t n u m} (r) : Declared c t n → Declared c u m → EachNames c (t :: .p .comma :: u :: r) (some n) m r
  | colon {t n u m} (r) : Declared c t n → Declared c u m → EachNames c (t :: .p .colon :: u :: r) (some n) m r
  | equal {t n u m} (r) : Declared c t n → Declared c u m → EachNames c (t :: .p .assign :: u :: r) (some n) m r

/-- A statement in the place of a block: blocks are not put into others. -/
inductive Block : S → List S → Prop
  | block (b) : Block (.block b) b
  | other {s} : (∀ b, s ≠ .block b) → Block s [s]

/-- Separators of elements and members. -/
inductive Sep : Tok → Prop
  | comma : Sep (.p .comma)
  | semicol : Sep (.p .semicol)

/-- Separators of keys and values. -/
inductive KeySep : Tok → Prop
  | assign : KeySep (.p .assign)
  | colon : KeySep (.p .colon)

/-- `default` clauses. -/
def isDefault : SClause Xop → Bool
  | .mk .default _ _ _ => true
  | _ => false

/-- The phrases.  `level 0` are the operands of infix operators, `level 1` to `level 10` those with infix operators up
to that level, `level 11` any expressions.  `nondecl`, `body`, `complete`, `stmt`, `stmts` and `clauses` are within some
statements, see `CanBreak`. -/
inductive Cat where
  | primary | suffixed | unary | level (p : Nat) | expr | args | elems | members | cond | decls (imm : Bool) | refDecls
  | defn | clauses (l : List Around) | exprStmt | forInit | opt | nondecl (l : List Around) | body (l : List Around)
  | complete (l : List Around) | stmt (l : List Around) | stmts (l : List Around)

/-- What phrases stand for. -/
abbrev Cat.Out : Cat → Type
  | .primary | .suffixed | .unary | .level _ | .expr | .cond | .opt => List U
  | .args => List (Arg Xop)
  | .elems => List (List U)
  | .members => List (Bytes × List U)
  | .decls _ => List (Decl Xop)
  | .refDecls => List (RefDecl Xop)
  | .defn | .exprStmt | .forInit | .nondecl _ | .stmt _ => S
  | .clauses _ => List (SClause Xop)
  | .body _ | .complete _ | .stmts _ => List S

/-- The phrases of the grammar. -/
inductive Phrase (c : Cfg) : (k : Cat) → List Tok → k.Out → List Tok → Prop
  /- _primary-expression_ -/
  | literal {ts v r} : Literal ts v r → Phrase c .primary ts [.literal v] r
  | file (r) : Phrase c .primary (.ident [0x5F, 0x5F, 0x66, 0x69, 0x6C, 0x65] :: r) [.literal (.str c.file)] r
  | line (r) : Phrase c .primary (.ident [0x5F, 0x5F, 0x6C, 0x69, 0x6E, 0x65] :: r)
      [.literal (.int (c.line (.ident [0x5F, 0x5F, 0x6C, 0x69, 0x6E, 0x65] :: r)))] r
  | ident {s} (r) : s ≠ [0x5F, 0x5F, 0x66, 0x69, 0x6C, 0x65] → s ≠ [0x5F, 0x5F, 0x6C, 0x69, 0x6E, 0x65] →
      Phrase c .primary (.ident s :: r) [.localRef (c.num s)] r
  | extern (s r) : Phrase c .primary (.k .extern_ :: .ident s :: r) [.globalRef (c.num s)] r
  | this (r) : Phrase c .primary (.k .this :: r) [.localRef (c.num [0x5F, 0x5F, 0x74, 0x68, 0x69, 0x73])] r
  | closure {ts ps v q b r} : Params c ts ps v (.p .parCl :: .p .braceOp :: q) → ps.Nodup →
      Phrase c (.stmts []) q b (.p .braceCl :: r) →
      Phrase c .primary (.k .func :: .p .parOp :: ts) [.closure ps v b] r
  | closureEqual {ts ps v q us r} : Params c ts ps v (.p .parCl :: .p .assign :: q) → ps.Nodup → Phrase c .expr q us r →
      Phrase c .primary (.k .func :: .p .parOp :: ts) [.closure ps v [.returnS false us]] r
  | closureArrow {ts ps v q us r} : Params c ts ps v (.p .parCl :: .p .arrow :: q) → ps.Nodup → Phrase c .expr q us r →
      Phrase c .primary (.k .func :: .p .parOp :: ts) [.closure ps v [.returnS true us]] r
  | array {ts es r} : Phrase c .elems ts es (.p .brackCl :: r) → es.length ≤ 0xFFFFF →
      Phrase c .primary (.p .brackOp :: ts) (es.flatten ++ [.array es.length]) r
  | object {ts ms r} : Phrase c .members ts ms (.p .braceCl :: r) → (ms.map Prod.fst).Nodup →
      Phrase c .primary (.p .braceOp :: ts) ((ms.map Prod.snd).flatten ++ [.object (ms.map Prod.fst)]) r
  | paren {ts us r} : Phrase c .expr ts us (.p .parCl :: r) → Phrase c .primary (.p .parOp :: ts) us r
  | fma {ta a tb b td d r} : Phrase c .expr ta a (.p .comma :: tb) → Phrase c .expr tb b (.p .comma :: td) →
      Phrase c .expr td d (.p .parCl :: r) →
      Phrase c .primary (.k .fma :: .p .parOp :: ta) (a ++ b ++ d ++ [.op .fma false]) r
  | paired {w x ta a tb b r} : Paired w x → Phrase c .expr ta a (.p .comma :: tb) → Phrase c .expr tb b (.p .parCl :: r) →
      Phrase c .primary (.k w :: .p .parOp :: ta) (a ++ b ++ [.op x false]) r
  | catching {ts us r} : Phrase c .expr ts us (.p .parCl :: r) →
      Phrase c .primary (.k .catch_ :: .p .parOp :: ts) [.catchE us] r
  /- the elements of _unnamed-array_, the members of _unnamed-object_, _argument-list_ -/
  | noElems (r) : Phrase c .elems r [] r
  | lastElem {ts us vs r} : Phrase c .expr ts us r → Checked false us vs → Phrase c .elems ts [vs] r
  | moreElems {ts us vs t q es r} : Phrase c .expr ts us (t :: q) → Checked false us vs → Sep t →
      Phrase c .elems q es r → Phrase c .elems ts (vs :: es) r
  | noMembers (r) : Phrase c .members r [] r
  | lastMember {x s t ts us vs r} : Key x s → KeySep t → Phrase c .expr ts us r → Checked false us vs →
      Phrase c .members (x :: t :: ts) [(s, vs)] r
  | moreMembers {x s t ts us vs u q ms r} : Key x s → KeySep t → Phrase c .expr ts us (u :: q) → Checked false us vs →
      Sep u → Phrase c .members q ms r → Phrase c .members (x :: t :: ts) ((s, vs) :: ms) r
  | noArgs (r) : Phrase c .args r [] r
  | lastArg {ts b q us vs r} : RefSpec ts b q → Phrase c .expr q us r → Checked b us vs → Phrase c .args ts [.mk vs] r
  | moreArgs {ts b q us vs m l r} : RefSpec ts b q → Phrase c .expr q us (.p .comma :: m) → Checked b us vs →
      Phrase c .args m l r → Phrase c .args ts (.mk vs :: l) r
  /- _infix-element_ -/
  | bare {ts us r} : Phrase c .primary ts us r → Phrase c .suffixed ts us r
  | postop {ts us t x r} : Phrase c .suffixed ts us (t :: r) → Postfix t x → Phrase c .suffixed ts (us ++ [.op x true]) r
  | call {ts us q l r} : Phrase c .suffixed ts us (.p .parOp :: q) → Phrase c .args q l (.p .parCl :: r) →
      Phrase c .suffixed ts (us ++ [.call l]) r
  | index {ts us q is r} : Phrase c .suffixed ts us (.p .brackOp :: q) → Phrase c .expr q is (.p .brackCl :: r) →
      Phrase c .suffixed ts (us ++ is ++ [.op .index false]) r
  | member {ts us t s r} : Phrase c .suffixed ts us (.p .dot :: t :: r) → Key t s →
      Phrase c .suffixed ts (us ++ [.literal (.str s), .op .index false]) r
  | noPrefix {ts us r} : Phrase c .suffixed ts us r → Phrase c .unary ts us r
  | prefixed {t x ts us r} : Prefix t x → Phrase c .unary ts us r → Phrase c .unary (t :: ts) (us ++ [.op x false]) r
  /- _expression_ -/
  | operand {ts us r} : Phrase c .unary ts us r → Phrase c (.level 0) ts us r
  | loosen {p ts us r} : p < 11 → Phrase c (.level p) ts us r → Phrase c (.level (p + 1)) ts us r
  | binary {p t f ts a q b r} : Binary (p + 1) t f → Phrase c (.level (p + 1)) ts a (t :: q) → Phrase c (.level p) q b r →
      Phrase c (.level (p + 1)) ts (f a b) r
  | assign {t f ts a q b r} : Assign t f → Phrase c (.level 10) ts a (t :: q) → Phrase c (.level 11) q b r →
      Phrase c (.level 11) ts (f a b) r
  | ternary {t x ts a q m u b r} : Quest t x → Phrase c (.level 10) ts a (t :: q) → Phrase c .expr q m (.p .colon :: u) →
      Phrase c (.level 11) u b r → Phrase c (.level 11) ts (a ++ [.branch [.mk .true m, .mk .false b] x]) r
  /- as much as possible belongs to an expression -/
  | expr {ts us r} : Phrase c (.level 11) ts us r → NotNext Continues r → Phrase c .expr ts us r
  | cond {ts us vs r} : Phrase c .expr ts us (.p .parCl :: r) → Checked false us vs → Phrase c .cond (.p .parOp :: ts) vs r
  | noOpt (r) : Phrase c .opt r [] r
  | opt {ts us r} : Phrase c .expr ts us r → Phrase c .opt ts us r
  /- declarators with initializers -/
  | lastDecl {imm ts d q us r} : Declarator c ts d (.p .assign :: q) → Phrase c .expr q us r → Phrase c (.decls imm) ts [d us] r
  | moreDecls {imm ts d q us m ds r} : Declarator c ts d (.p .assign :: q) → Phrase c .expr q us (.p .comma :: m) →
      Phrase c (.decls imm) m ds r → Phrase c (.decls imm) ts (d us :: ds) r
  | lastUninit {ts d r} : Declarator c ts d r → Phrase c (.decls false) ts [d []] r
  | moreUninit {ts d m ds r} : Declarator c ts d (.p .comma :: m) → Phrase c (.decls false) m ds r →
      Phrase c (.decls false) ts (d [] :: ds) r
  | lastRef {t n ts us r} : Declared c t n → Phrase c .expr ts us r → Phrase c .refDecls (t :: .p .arrow :: ts) [.mk n us] r
  | moreRefs {t n ts us m ds r} : Declared c t n → Phrase c .expr ts us (.p .comma :: m) → Phrase c .refDecls m ds r →
      Phrase c .refDecls (t :: .p .arrow :: ts) (.mk n us :: ds) r
  /- _variable-definition_, _immutable-variable-definition_, _reference-definition_ -/
  | var {ts ds r} : Phrase c (.decls false) ts ds (.p .semicol :: r) → Phrase c .defn (.k .var :: ts) (.vars false ds) r
  | const {ts ds r} : Phrase c (.decls true) ts ds (.p .semicol :: r) → Phrase c .defn (.k .const :: ts) (.vars true ds) r
  | ref {ts ds r} : Phrase c .refDecls ts ds (.p .semicol :: r) → Phrase c .defn (.k .ref :: ts) (.refs ds) r
  /- _switch-clause_ -/
  | noClauses (l r) : Phrase c (.clauses l) r [] r
  | default {l ts b q cs r} : Phrase c (.stmts (.switch :: l)) ts b q → Phrase c (.clauses l) q cs r →
      Phrase c (.clauses l) (.k .default :: .p .colon :: ts) (.mk .default [] [] b :: cs) r
  | case {l ts us vs m b q cs r} : Phrase c .expr ts us (.p .colon :: m) → Checked false us vs →
      Phrase c (.stmts (.switch :: l)) m b q → Phrase c (.clauses l) q cs r →
      Phrase c (.clauses l) (.k .case :: ts) (.mk .case vs [] b :: cs) r
  | each {l ts x xs tb y ys m b q cs r} (lo up : Bool) : Phrase c .expr ts x (.p .comma :: tb) → Checked false x xs →
      Phrase c .expr tb y ((if up then .p .brackCl else .p .parCl) :: .p .colon :: m) → Checked false y ys →
      Phrase c (.stmts (.switch :: l)) m b q → Phrase c (.clauses l) q cs r →
      Phrase c (.clauses l) (.k .each :: (if lo then .p .brackOp else .p .parOp) :: ts) (.mk (.each lo up) xs ys b :: cs) r
  /- _expression-statement_ and _for-initializer_ -/
  | exprStmt {ts us r} : Phrase c .expr ts us (.p .semicol :: r) → Phrase c .exprStmt ts (.expr us) r
  | initDef {ts s r} : Phrase c .defn ts s r → Phrase c .forInit ts s r
  | initNull (r) : Phrase c .forInit (.p .semicol :: r) (.block []) r
  | initExpr {ts s r} : Phrase c .exprStmt ts s r → Phrase c .forInit ts s r
  /- _nondeclarative-statement_ -/
  | body {l ts s b r} : Phrase c (.nondecl l) ts s r → Block s b → Phrase c (.body l) ts b r
  /- `else` and `__ifcomplete` belong to the nearest statement -/
  | ifOnly {l ts n q us m t r} : Negation ts n q → Phrase c .cond q us m → Phrase c (.body l) m t r →
      NotNext (· = .k .else_) r → Phrase c (.nondecl l) (.k .if_ :: ts) (.ifS n us t []) r
  | ifElse {l ts n q us m t e f r} : Negation ts n q → Phrase c .cond q us m → Phrase c (.body l) m t (.k .else_ :: e) →
      Phrase c (.body l) e f r → Phrase c (.nondecl l) (.k .if_ :: ts) (.ifS n us t f) r
  | noComplete (l r) : NotNext (· = .k .ifcomplete) r → Phrase c (.complete l) r [] r
  | complete {l ts b r} : Phrase c (.body l) ts b r → Phrase c (.complete l) (.k .ifcomplete :: ts) b r
  | switch {l ts us q cs r} : Phrase c .cond ts us (.p .braceOp :: q) → Phrase c (.clauses l) q cs (.p .braceCl :: r) →
      (cs.filter isDefault).length ≤ 1 → Phrase c (.nondecl l) (.k .switch :: ts) (.switchS us cs) r
  | doWhile {l ts b q n m us r} : Phrase c (.body (.while :: l)) ts b (.k .while_ :: q) → Negation q n m →
      Phrase c .cond m us (.p .semicol :: r) → Phrase c (.nondecl l) (.k .do_ :: ts) (.doWhile b n us []) r
  | doComplete {l ts b q n m us e k r} : Phrase c (.body (.while :: l)) ts b (.k .while_ :: q) → Negation q n m →
      Phrase c .cond m us (.k .ifcomplete :: e) → Phrase c (.body l) e k r →
      Phrase c (.nondecl l) (.k .do_ :: ts) (.doWhile b n us k) r
  | while {l ts n q us m b e k r} : Negation ts n q → Phrase c .cond q us m → Phrase c (.body (.while :: l)) m b e →
      Phrase c (.complete l) e k r → Phrase c (.nondecl l) (.k .while_ :: ts) (.whileS n us b k) r
  | forEach {l ts i j q us m b e k r} : EachNames c ts i j (.p .arrow :: q) → Phrase c .expr q us (.p .parCl :: m) →
      Phrase c (.body (.for :: l)) m b e → Phrase c (.complete l) e k r →
      Phrase c (.nondecl l) (.k .for_ :: .p .parOp :: .k .each :: ts) (.forEach i j us b k) r
  | forTriplet {l ts i q us vs m ws x b e k r} : Phrase c .forInit ts i q → Phrase c .opt q us (.p .semicol :: m) →
      Checked false us vs → Phrase c .opt m ws (.p .parCl :: x) → Phrase c (.body (.for :: l)) x b e →
      Phrase c (.complete l) e k r → Phrase c (.nondecl l) (.k .for_ :: .p .parOp :: ts) (.forS [i] vs ws b k) r
  | break {l ts t r} : BreakTarget ts t (.p .semicol :: r) → CanBreak l t →
      Phrase c (.nondecl l) (.k .break_ :: ts) (.breakS t) r
  | continue {l ts t r} : ContTarget ts t (.p .semicol :: r) → CanContinue l t →
      Phrase c (.nondecl l) (.k .continue_ :: ts) (.contS t) r
  | throw {l ts us vs r} : Phrase c .expr ts us (.p .semicol :: r) → Checked false us vs →
      Phrase c (.nondecl l) (.k .throw_ :: ts) (.throwS vs) r
  | returnVoid {l} (r) : Phrase c (.nondecl l) (.k .return_ :: .p .semicol :: r) (.returnS false []) r
  | return {l ts b q us r} : RefSpec ts b q → Phrase c .expr q us (.p .semicol :: r) →
      Phrase c (.nondecl l) (.k .return_ :: ts) (.returnS b us) r
  | assert {l ts us vs q r} : Phrase c .expr ts us q → Checked false us vs → Message q (.p .semicol :: r) →
      Phrase c (.nondecl l) (.k .assert :: ts) (.assertS vs) r
  | try {l ts b t n q h r} : Phrase c (.body l) ts b (.k .catch_ :: .p .parOp :: t :: .p .parCl :: q) → Declared c t n →
      Phrase c (.body l) q h r → Phrase c (.nondecl l) (.k .try_ :: ts) (.tryS b n h) r
  | block {l ts b r} : Phrase c (.stmts l) ts b (.p .braceCl :: r) → Phrase c (.nondecl l) (.p .braceOp :: ts) (.block b) r
  /- a statement that begins with a brace is a block -/
  | expression {l ts s r} : Phrase c .exprStmt ts s r → NotNext (· = .p .braceOp) ts → Phrase c (.nondecl l) ts s r
  /- _statement_ -/
  | define {l ts s r} : Phrase c .defn ts s r → Phrase c (.stmt l) ts s r
  | function {l t n ts ps v q b r} : Declared c t n → Params c ts ps v (.p .parCl :: .p .braceOp :: q) → ps.Nodup →
      Phrase c (.stmts []) q b (.p .braceCl :: r) →
      Phrase c (.stmt l) (.k .func :: t :: .p .parOp :: ts) (.func n ps v (b ++ [.returnS true []])) r
  | defer {l ts us r} : Phrase c .expr ts us (.p .semicol :: r) → Phrase c (.stmt l) (.k .defer :: ts) (.deferS us) r
  | null {l} (r) : Phrase c (.stmt l) (.p .semicol :: r) (.block []) r
  /- a statement that begins with `func` is a definition -/
  | nondecl {l ts s r} : Phrase c (.nondecl l) ts s r → NotNext (· = .k .func) ts → Phrase c (.stmt l) ts s r
  | done (l r) : Phrase c (.stmts l) r [] r
  | next {l ts s q ss r} : Phrase c (.stmt l) ts s q → Phrase c (.stmts l) q ss r → Phrase c (.stmts l) ts (s :: ss) r

/-- _document_: statements, and nothing after them.  A script returns nothing at its end. -/
def Document (c : Cfg) (ts : List Tok) (b : List S) : Prop :=
  ∃ ss, Phrase c (.stmts []) ts ss [] ∧ b = ss ++ [.returnS true []]

/-- A snippet that is a single expression; a script returns its result by reference. -/
def Oneline (c : Cfg) (ts : List Tok) (b : List S) : Prop :=
  ∃ us, Phrase c .expr ts us [] ∧ b = [.returnS true us]

end Asteria.Script
