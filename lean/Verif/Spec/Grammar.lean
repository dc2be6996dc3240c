import Verif.Model.Parser
/-
The grammar of expressions, as documented in /repo/doc/grammar.md (sections on expressions and "Operator Precedence",
lines 357-383), with the units each phrase stands for.  It is independent of the parser in Verif/Model/Parser.lean:
only the types of tokens and units are shared.
-/
namespace Asteria.Grammar
open Asteria.Parser (Tok EUnit Xop Punct Kw BKind)

/-- An operator in reverse Polish notation: left operand, right operand, operator. -/
def rpn (x : Xop) (a : Bool) (l r : List EUnit) : List EUnit := l ++ r ++ [.op x a]

/-- A short-circuit operator: left operand, then a branch on it. -/
def short (b : BKind) (a : Bool) (l r : List EUnit) : List EUnit := l ++ [.branch1 b r a]

/-- The left-associative operators, from the tightest level 1 to the loosest level 10. -/
inductive Binary : Nat → Tok → (List EUnit → List EUnit → List EUnit) → Prop
  | coales : Binary 1 (.p .coales) (short .null false)
  | mul : Binary 2 (.p .mul) (rpn .mul false)
  | div : Binary 2 (.p .div) (rpn .div false)
  | mod : Binary 2 (.p .mod) (rpn .mod false)
  | add : Binary 3 (.p .add) (rpn .add false)
  | sub : Binary 3 (.p .sub) (rpn .sub false)
  | sll : Binary 4 (.p .sll) (rpn .sll false)
  | srl : Binary 4 (.p .srl) (rpn .srl false)
  | sla : Binary 4 (.p .sla) (rpn .sla false)
  | sra : Binary 4 (.p .sra) (rpn .sra false)
  | andb : Binary 5 (.p .andb) (rpn .andb false)
  | orb : Binary 6 (.p .orb) (rpn .orb false)
  | xorb : Binary 6 (.p .xorb) (rpn .xorb false)
  | lt : Binary 7 (.p .cmpLt) (rpn .cmpLt false)
  | gt : Binary 7 (.p .cmpGt) (rpn .cmpGt false)
  | lte : Binary 7 (.p .cmpLte) (rpn .cmpLte false)
  | gte : Binary 7 (.p .cmpGte) (rpn .cmpGte false)
  | eq : Binary 8 (.p .cmpEq) (rpn .cmpEq false)
  | ne : Binary 8 (.p .cmpNe) (rpn .cmpNe false)
  | spaceship : Binary 8 (.p .cmp3way) (rpn .cmp3way false)
  | unordered : Binary 8 (.p .cmpUn) (rpn .cmpUn false)
  | andl : Binary 9 (.p .andl) (short .true false)
  | and : Binary 9 (.k .and) (short .true false)
  | orl : Binary 10 (.p .orl) (short .false false)
  | or : Binary 10 (.k .or) (short .false false)

/-- The assignment operators; right-associative. -/
inductive Assign : Tok → (List EUnit → List EUnit → List EUnit) → Prop
  | assign : Assign (.p .assign) (rpn .assign true)
  | add : Assign (.p .addEq) (rpn .add true)
  | sub : Assign (.p .subEq) (rpn .sub true)
  | mul : Assign (.p .mulEq) (rpn .mul true)
  | div : Assign (.p .divEq) (rpn .div true)
  | mod : Assign (.p .modEq) (rpn .mod true)
  | andb : Assign (.p .andbEq) (rpn .andb true)
  | orb : Assign (.p .orbEq) (rpn .orb true)
  | xorb : Assign (.p .xorbEq) (rpn .xorb true)
  | sll : Assign (.p .sllEq) (rpn .sll true)
  | srl : Assign (.p .srlEq) (rpn .srl true)
  | sla : Assign (.p .slaEq) (rpn .sla true)
  | sra : Assign (.p .sraEq) (rpn .sra true)
  | andl : Assign (.p .andlEq) (short .true true)
  | orl : Assign (.p .orlEq) (short .false true)
  | coales : Assign (.p .coalesEq) (short .null true)

/-- `?` and `?=`, which belong to a `:`; right-associative, same level as assignments. -/
inductive Quest : Tok → Bool → Prop
  | plain : Quest (.p .quest) false
  | assign : Quest (.p .questEq) true

/-- The prefix operators. -/
inductive Prefix : Tok → Xop → Prop
  | pos : Prefix (.p .add) .pos
  | neg : Prefix (.p .sub) .neg
  | notb : Prefix (.p .notb) .notb
  | notl : Prefix (.p .notl) .notl
  | inc : Prefix (.p .inc) .inc
  | dec : Prefix (.p .dec) .dec
  | hash : Prefix (.p .hash) .countof
  | unset : Prefix (.k .unset) .unset
  | countof : Prefix (.k .countof) .countof
  | typeof : Prefix (.k .typeof) .typeof
  | not : Prefix (.k .not) .notl
  | abs : Prefix (.k .abs) .abs
  | sign : Prefix (.k .sign) .sign
  | sqrt : Prefix (.k .sqrt) .sqrt
  | isnan : Prefix (.k .isnan) .isnan
  | isinf : Prefix (.k .isinf) .isinf
  | isvoid : Prefix (.k .isvoid) .isvoid
  | round : Prefix (.k .round) .round
  | floor : Prefix (.k .floor) .floor
  | ceil : Prefix (.k .ceil) .ceil
  | trunc : Prefix (.k .trunc) .trunc
  | iround : Prefix (.k .iround) .iround
  | ifloor : Prefix (.k .ifloor) .ifloor
  | iceil : Prefix (.k .iceil) .iceil
  | itrunc : Prefix (.k .itrunc) .itrunc
  | lzcnt : Prefix (.k .lzcnt) .lzcnt
  | tzcnt : Prefix (.k .tzcnt) .tzcnt
  | popcnt : Prefix (.k .popcnt) .popcnt

/-- The postfix operators. -/
inductive Postfix : Tok → Xop → Prop
  | inc : Postfix (.p .inc) .inc
  | dec : Postfix (.p .dec) .dec
  | head : Postfix (.p .head) .head
  | tail : Postfix (.p .tail) .tail
  | random : Postfix (.p .random) .random

/-- The keyword operators of two operands. -/
inductive Paired : Kw → Xop → Prop
  | addm : Paired .addm .addm
  | subm : Paired .subm .subm
  | mulm : Paired .mulm .mulm
  | adds : Paired .adds .adds
  | subs : Paired .subs .subs
  | muls : Paired .muls .muls

/-- Units whose result may be void: references and calls, and branches that may end in one. -/
inductive MayVoid : List EUnit → Prop
  | localRef (us i) : MayVoid (us ++ [.localRef i])
  | thisRef (us) : MayVoid (us ++ [.thisRef])
  | globalRef (us i) : MayVoid (us ++ [.globalRef i])
  | call (us l) : MayVoid (us ++ [.call l])
  | phrase (us i) : MayVoid (us ++ [.phrase true i])
  | branch1 (us k a) {b} : MayVoid b → MayVoid (us ++ [.branch1 k b a])
  | branchT (us f a) {t} : MayVoid t → MayVoid (us ++ [.branch2 t f a])
  | branchF (us t a) {f} : MayVoid f → MayVoid (us ++ [.branch2 t f a])

/-- The units of an argument: a check is added if it may be void. -/
inductive Checked (byRef : Bool) (us : List EUnit) : List EUnit → Prop
  | plain : ¬ MayVoid us → Checked byRef us us
  | check : MayVoid us → Checked byRef us (us ++ [.check byRef])

/-- How an argument is announced. -/
inductive RefSpec : List Tok → Bool → Prop
  | none : RefSpec [] false
  | ref : RefSpec [.k .ref] true
  | arrow : RefSpec [.p .arrow] true

/-- The phrases.  `level 0` are the operands of infix operators, `level 1` to `level 10` those with infix operators up
to that level, `level 11` any expressions. -/
inductive Cat where
  | primary | suffixed | unary | level (p : Nat) | args

/-- `Phrase c ts us`: the tokens `ts` are a phrase of kind `c`, and `us` are its units.  (An argument list stands for
the one unit of a call.) -/
inductive Phrase : Cat → List Tok → List EUnit → Prop
  | ident (i) : Phrase .primary [.ident i] [.localRef i]
  | lit (i) : Phrase .primary [.lit i] [.literal i]
  | phrase (v i) : Phrase .primary [.phrase v i] [.phrase v i]
  | this : Phrase .primary [.k .this] [.thisRef]
  | extern (i) : Phrase .primary [.k .extern, .ident i] [.globalRef i]
  | paren {ts us} : Phrase (.level 11) ts us → Phrase .primary (.p .parOp :: ts ++ [.p .parCl]) us
  | fma {ta a tb b tc c} : Phrase (.level 11) ta a → Phrase (.level 11) tb b → Phrase (.level 11) tc c →
      Phrase .primary (.k .fma :: .p .parOp :: ta ++ .p .comma :: tb ++ .p .comma :: tc ++ [.p .parCl])
        (a ++ b ++ c ++ [.op .fma false])
  | paired {k x ta a tb b} : Paired k x → Phrase (.level 11) ta a → Phrase (.level 11) tb b →
      Phrase .primary (.k k :: .p .parOp :: ta ++ .p .comma :: tb ++ [.p .parCl]) (a ++ b ++ [.op x false])
  | catching {ts us} : Phrase (.level 11) ts us →
      Phrase .primary (.k .catch :: .p .parOp :: ts ++ [.p .parCl]) [.catch_ us]
  | bare {ts us} : Phrase .primary ts us → Phrase .suffixed ts us
  | postop {ts us t x} : Phrase .suffixed ts us → Postfix t x → Phrase .suffixed (ts ++ [t]) (us ++ [.op x true])
  | call {ts us ta l} : Phrase .suffixed ts us → Phrase .args ta [.call l] →
      Phrase .suffixed (ts ++ .p .parOp :: ta ++ [.p .parCl]) (us ++ [.call l])
  | index {ts us ti is} : Phrase .suffixed ts us → Phrase (.level 11) ti is →
      Phrase .suffixed (ts ++ .p .brackOp :: ti ++ [.p .brackCl]) (us ++ is ++ [.op .index false])
  | member {ts us} (i) : Phrase .suffixed ts us →
      Phrase .suffixed (ts ++ [.p .dot, .ident i]) (us ++ [.name i, .op .index false])
  | noPrefix {ts us} : Phrase .suffixed ts us → Phrase .unary ts us
  | prefixed {t x ts us} : Prefix t x → Phrase .unary ts us → Phrase .unary (t :: ts) (us ++ [.op x false])
  | operand {ts us} : Phrase .unary ts us → Phrase (.level 0) ts us
  | loosen {p ts us} : p < 11 → Phrase (.level p) ts us → Phrase (.level (p + 1)) ts us
  | binary {p t f tl l tr r} : Binary (p + 1) t f → Phrase (.level (p + 1)) tl l → Phrase (.level p) tr r →
      Phrase (.level (p + 1)) (tl ++ t :: tr) (f l r)
  | assign {t f tl l tr r} : Assign t f → Phrase (.level 10) tl l → Phrase (.level 11) tr r →
      Phrase (.level 11) (tl ++ t :: tr) (f l r)
  | cond {t a tl l tm m tr r} : Quest t a → Phrase (.level 10) tl l → Phrase (.level 11) tm m →
      Phrase (.level 11) tr r → Phrase (.level 11) (tl ++ t :: tm ++ .p .colon :: tr) (l ++ [.branch2 m r a])
  | noArgs : Phrase .args [] [.call []]
  | lastArg {ta b ts us vs} : RefSpec ta b → Phrase (.level 11) ts us → Checked b us vs →
      Phrase .args (ta ++ ts) [.call [vs]]
  | moreArgs {ta b ts us vs tm l} : RefSpec ta b → Phrase (.level 11) ts us → Checked b us vs →
      Phrase .args tm [.call l] → Phrase .args (ta ++ ts ++ .p .comma :: tm) [.call (vs :: l)]

/-- Tokens which continue an expression once an operand has been read. -/
inductive Continues : Tok → Prop
  | suffix {t x} : Postfix t x → Continues t
  | call : Continues (.p .parOp)
  | index : Continues (.p .brackOp)
  | member : Continues (.p .dot)
  | binary {p t f} : Binary p t f → Continues t
  | assign {t f} : Assign t f → Continues t
  | quest {t a} : Quest t a → Continues t

/-- The remaining tokens do not continue the expression. -/
def Stops (rest : List Tok) : Prop := ∀ t ts, rest = t :: ts → ¬ Continues t

end Asteria.Grammar
