import Verif.Model.Utf
import Verif.Model.NumText
import Verif.Model.Parser

/-!
# Model of the lexer

`Token_Stream::reload` and the functions above it in /repo/asteria/src/compiler/token_stream.cpp, the table of
character classes in /repo/asteria/utils.hpp, `c_quote` in /repo/asteria/src/utils.cpp and `getline` in
/repo/asteria/rocket/cow_string.hpp.

A `Text_Reader` (token_stream.cpp:15-133) is the rest of the current line; `peek(n)` past the end of the line gives a
zero byte.  Line numbers, columns and the interning of strings are left out, and so is the class of a
`Compiler_Error`, which is `throw`.  The conversion of a real literal by `cast_D` is a parameter: `none` stands for
overflow or underflow.
-/

namespace Asteria.Lexer

open NumText (NumGet parseD castI)
open Parser (Punct)

/-! ### Character classes -/

/-- `cmask_table`, utils.hpp:111-129. -/
def cmaskTable : List UInt8 :=
  [0x40, 0x40, 0x40, 0x40, 0x40, 0x40, 0x40, 0x40,
   0x40, 0x21, 0x61, 0x41, 0x41, 0x41, 0x40, 0x40,
   0x40, 0x40, 0x40, 0x40, 0x40, 0x40, 0x40, 0x40,
   0x40, 0x40, 0x40, 0x40, 0x40, 0x40, 0x40, 0x40,
   0x21, 0x00, 0x00, 0x00, 0x00, 0x00, 0x00, 0x00,
   0x00, 0x00, 0x00, 0x00, 0x00, 0x00, 0x00, 0x00,
   0x0C, 0x0C, 0x0C, 0x0C, 0x0C, 0x0C, 0x0C, 0x0C,
   0x0C, 0x0C, 0x00, 0x00, 0x00, 0x00, 0x00, 0x00,
   0x00, 0x1A, 0x1A, 0x1A, 0x1A, 0x1A, 0x1A, 0x12,
   0x12, 0x12, 0x12, 0x12, 0x12, 0x12, 0x12, 0x12,
   0x12, 0x12, 0x12, 0x12, 0x12, 0x12, 0x12, 0x12,
   0x12, 0x12, 0x12, 0x00, 0x00, 0x00, 0x00, 0x10,
   0x00, 0x1A, 0x1A, 0x1A, 0x1A, 0x1A, 0x1A, 0x12,
   0x12, 0x12, 0x12, 0x12, 0x12, 0x12, 0x12, 0x12,
   0x12, 0x12, 0x12, 0x12, 0x12, 0x12, 0x12, 0x12,
   0x12, 0x12, 0x12, 0x00, 0x00, 0x00, 0x00, 0x40]

/-- `is_cmask`, utils.hpp:131-145. -/
def isCmask (mask c : UInt8) : Bool := (if c < 128 then cmaskTable.getD c.toNat 0 else 0) &&& mask != 0

/-! ### Tokens -/

/-- Tokens, /repo/asteria/compiler/token.hpp.  A keyword is represented by its text.  Real literals other than NaNs
and infinities have the values of an arbitrary type. -/
inductive Tok (R : Type) where
  | punct (p : Punct)
  | kw (name : Bytes)
  | ident (name : Bytes)
  | str (val : Bytes)
  | int (v : Int)
  | real (r : R)
  | nan (neg : Bool)
  | inf (neg : Bool)
deriving DecidableEq

/-- `do_may_infix_operators_follow`, token_stream.cpp:144-165; the argument is `tokens.back()`, if any. -/
def mayInfixFollow {R : Type} : Option (Tok R) → Bool
  | none => false
  | some (.kw w) =>
    w = [110, 117, 108, 108] || w = [116, 114, 117, 101] || w = [102, 97, 108, 115, 101] || w = [116, 104, 105, 115]
  | some (.punct p) =>
    p = .inc || p = .dec || p = .head || p = .tail || p = .parCl || p = .brackCl || p = .braceCl
  | some _ => true

/-! ### Numeric literals -/

/-- `do_collect_digits`, token_stream.cpp:178-198: the digits without separators, and the rest. -/
def collect (mask : UInt8) : Bytes → Bytes × Bytes
  | [] => ([], [])
  | c :: s =>
    if c = 96 then collect mask s
    else if isCmask mask c then (c :: (collect mask s).1, (collect mask s).2)
    else ([], c :: s)

/-- The explicit sign, token_stream.cpp:220-232: its text, and the rest. -/
def sign : Bytes → Bytes × Bytes
  | 43 :: s => ([43], s)
  | 45 :: s => ([45], s)
  | s => ([], s)

/-- The radix identifier, token_stream.cpp:274-286: the text, the class of digits, the letter of the exponent and the
rest. -/
def radix : Bytes → Bytes × UInt8 × UInt8 × Bytes
  | 48 :: c :: s => if (c ||| 0x20) = 98 ∨ (c ||| 0x20) = 120 then ([48, c], 0x08, 112, s) else ([48], 0x04, 101, c :: s)
  | 48 :: [] => ([48], 0x04, 101, [])
  | s => ([], 0x04, 101, s)

/-- The radix point and the fractional part, token_stream.cpp:307-315: the text, whether there is a point, and the
rest. -/
def fraction (mask : UInt8) : Bytes → Bytes × Bool × Bytes
  | 46 :: s => (46 :: (collect mask s).1, true, (collect mask s).2)
  | s => ([], false, s)

/-- The exponent, token_stream.cpp:317-330. -/
def exponent (expch : UInt8) : Bytes → Bytes × Bytes
  | c :: s =>
    if (c ||| 0x20) = expch then
      let g := sign s
      (c :: (g.1 ++ (collect 0x04 g.2).1), (collect 0x04 g.2).2)
    else ([], c :: s)
  | [] => ([], [])

/-- The whole literal but for the sign, token_stream.cpp:274-335: `tstr`, `has_point` and the rest. -/
def numericText (s : Bytes) : Bytes × Bool × Bytes :=
  let r := radix s
  let a := collect r.2.1 r.2.2.2
  let f := fraction r.2.1 a.2
  let e := exponent r.2.2.1 f.2.2
  let x := collect 0x06 e.2
  (r.1 ++ (a.1 ++ (f.1 ++ (e.1 ++ x.1))), f.2.1, x.2)

/-- The conversion to a literal, token_stream.cpp:337-375. -/
def convert {R : Type} (castD : NumGet → Option R) (hasPoint : Bool) (tstr : Bytes) : Res (Tok R) :=
  match parseD tstr with
  | some (g, []) =>
    if hasPoint then
      match castD g with
      | some r => .ok (.real r)
      | none => .throw
    else (castI g).bind fun r => if r.ovfl || r.inxct then .throw else .ok (.int r.value)
  | _ => .throw

/-- `nan` and `NaN`, token_stream.cpp:242-256. -/
def acceptNan {R : Type} (neg : Bool) (s : Bytes) : Option (Tok R × Bytes) :=
  match s.takeWhile (isCmask 0x14) with
  | [x, y, z] => if y ≠ 97 ∨ z ≠ x then none else some (.nan neg, s.drop 3)
  | _ => none

/-- `infinity` and `Infinity`, token_stream.cpp:258-272. -/
def acceptInf {R : Type} (neg : Bool) (s : Bytes) : Option (Tok R × Bytes) :=
  match s.takeWhile (isCmask 0x14) with
  | _ :: w => if w = [110, 102, 105, 110, 105, 116, 121] then some (.inf neg, s.drop 8) else none
  | [] => none

/-- `do_accept_numeric_literal`, token_stream.cpp:200-376: `none` is a return value of `false`; otherwise the token and
the rest of the line after it. -/
def acceptNumeric {R : Type} (castD : NumGet → Option R) (prev : Option (Tok R)) (s : Bytes) :
    Res (Option (Tok R × Bytes)) :=
  let g := sign s
  if g.1 ≠ [] ∧ mayInfixFollow prev then .ok none
  else
    match g.2 with
    | [] => .ok none
    | c :: _ =>
      if c = 110 ∨ c = 78 then .ok (acceptNan (g.1 = [45]) g.2)
      else if c = 105 ∨ c = 73 then .ok (acceptInf (g.1 = [45]) g.2)
      else if 48 ≤ c ∧ c ≤ 57 then
        let t := numericText g.2
        (convert castD t.2.1 (g.1 ++ t.1)).map fun x => some (x, t.2.2)
      else .ok none

/-! ### Punctuators -/

/-- `s_punctuators`, token_stream.cpp:410-479. -/
def puncts : List (Bytes × Punct) :=
  [([33], .notl), ([33, 61], .cmpNe), ([35], .hash), ([37], .mod), ([37, 61], .modEq), ([38], .andb),
   ([38, 38], .andl), ([38, 38, 61], .andlEq), ([38, 61], .andbEq), ([40], .parOp), ([41], .parCl),
   ([42], .mul), ([42, 61], .mulEq), ([43], .add), ([43, 43], .inc), ([43, 61], .addEq), ([44], .comma),
   ([45], .sub), ([45, 45], .dec), ([45, 61], .subEq), ([45, 62], .arrow), ([46], .dot),
   ([46, 46, 46], .ellipsis), ([47], .div), ([47, 61], .divEq), ([58], .colon), ([58, 58], .scope),
   ([59], .semicol), ([60], .cmpLt), ([60, 47, 62], .cmpUn), ([60, 60], .sla), ([60, 60, 60], .sll),
   ([60, 60, 60, 61], .sllEq), ([60, 60, 61], .slaEq), ([60, 61], .cmpLte), ([60, 61, 62], .cmp3way),
   ([61], .assign), ([61, 61], .cmpEq), ([62], .cmpGt), ([62, 61], .cmpGte), ([62, 62], .sra),
   ([62, 62, 61], .sraEq), ([62, 62, 62], .srl), ([62, 62, 62, 61], .srlEq), ([63], .quest),
   ([63, 61], .questEq), ([63, 63], .coales), ([63, 63, 61], .coalesEq), ([91], .brackOp),
   ([91, 36, 93], .tail), ([91, 63, 93], .random), ([91, 94, 93], .head), ([93], .brackCl), ([94], .xorb),
   ([94, 61], .xorbEq), ([123], .braceOp), ([124], .orb), ([124, 61], .orbEq), ([124, 124], .orl),
   ([124, 124, 61], .orlEq), ([125], .braceCl), ([126], .notb)]

/-- `do_accept_punctuator`, token_stream.cpp:481-504.  `do_prefix_range` (399-409), a binary search in a sorted table,
gives the entries with the first byte of the text; they are tried from the last one on. -/
def acceptPunct (s : Bytes) : Option (Punct × Bytes) :=
  ((puncts.filter fun e => e.1.headD 0 = s.headD 0).reverse.find? fun e => e.1.isPrefixOf s).map fun e =>
    (e.2, s.drop e.1.length)

/-! ### String literals -/

/-- The value of a hexadecimal digit, token_stream.cpp:626-630. -/
def hexVal (c : UInt8) : Nat :=
  let d := (c ||| 0x20).toNat
  if d ≤ 57 then d - 48 else d - 97 + 10

/-- The digits of an escape sequence, token_stream.cpp:611-631. -/
def hexDigits : Nat → Nat → Bytes → Res (Nat × Bytes)
  | 0, cp, s => .ok (cp, s)
  | _ + 1, _, [] => .throw
  | n + 1, cp, c :: s => if isCmask 0x08 c then hexDigits n (cp * 16 + hexVal c) s else .throw

/-- An escape sequence after the backslash, token_stream.cpp:542-648: what it stands for, and the rest. -/
def escape : Bytes → Res (Bytes × Bytes)
  | [] => .throw
  | c :: s =>
    if c = 39 ∨ c = 34 ∨ c = 92 ∨ c = 63 ∨ c = 47 then .ok ([c], s)
    else if c = 97 then .ok ([7], s)
    else if c = 98 then .ok ([8], s)
    else if c = 102 then .ok ([12], s)
    else if c = 110 then .ok ([10], s)
    else if c = 114 then .ok ([13], s)
    else if c = 116 then .ok ([9], s)
    else if c = 118 then .ok ([11], s)
    else if c = 48 then .ok ([0], s)
    else if c = 90 then .ok ([0x1A], s)
    else if c = 101 then .ok ([0x1B], s)
    else if c = 120 then (hexDigits 2 0 s).map fun r => ([UInt8.ofNat r.1], r.2)
    else if c = 117 ∨ c = 85 then
      (hexDigits (if c = 117 then 4 else 6) 0 s).bind fun r =>
        match Utf.utf8Encode r.1 with
        | some bs => .ok (bs, r.2)
        | none => .throw
    else .throw

/-- The loop of `do_accept_string_literal`, token_stream.cpp:522-649, after the opening quotation mark.  The first
argument bounds the number of iterations and is the length of the text; `Verif.Props.Lexer` shows that it is never
exhausted. -/
def strLoop (head : UInt8) : Nat → Bytes → Bytes → Res (Bytes × Bytes)
  | 0, _, _ => .throw
  | _ + 1, _, [] => .throw
  | n + 1, val, c :: s =>
    if c = 0 then .throw
    else if c = head then .ok (val, s)
    else if head ≠ 34 ∨ c ≠ 92 then strLoop head n (val ++ [c]) s
    else (escape s).bind fun r => strLoop head n (val ++ r.1) r.2

/-- `do_accept_string_literal`, token_stream.cpp:506-653. -/
def acceptString {R : Type} (head : UInt8) : Bytes → Res (Option (Tok R × Bytes))
  | [] => .ok none
  | c :: s => if c ≠ head then .ok none else (strLoop head (s.length + 1) [] s).map fun r => some (.str r.1, r.2)

/-! ### Identifiers and keywords -/

/-- `s_keywords`, token_stream.cpp:655-721. -/
def keywords : List Bytes :=
  [[95, 95, 97, 98, 115], [95, 95, 97, 100, 100, 109], [95, 95, 97, 100, 100, 115],
   [95, 95, 99, 101, 105, 108], [95, 95, 102, 108, 111, 111, 114], [95, 95, 102, 109, 97],
   [95, 95, 105, 99, 101, 105, 108], [95, 95, 105, 102, 99, 111, 109, 112, 108, 101, 116, 101],
   [95, 95, 105, 102, 108, 111, 111, 114], [95, 95, 105, 114, 111, 117, 110, 100],
   [95, 95, 105, 115, 105, 110, 102], [95, 95, 105, 115, 110, 97, 110],
   [95, 95, 105, 115, 118, 111, 105, 100], [95, 95, 105, 116, 114, 117, 110, 99],
   [95, 95, 108, 122, 99, 110, 116], [95, 95, 109, 117, 108, 109], [95, 95, 109, 117, 108, 115],
   [95, 95, 112, 111, 112, 99, 110, 116], [95, 95, 114, 111, 117, 110, 100], [95, 95, 115, 105, 103, 110],
   [95, 95, 115, 113, 114, 116], [95, 95, 115, 117, 98, 109], [95, 95, 115, 117, 98, 115],
   [95, 95, 116, 114, 117, 110, 99], [95, 95, 116, 122, 99, 110, 116], [95, 95, 118, 99, 97, 108, 108],
   [97, 110, 100], [97, 115, 115, 101, 114, 116], [98, 114, 101, 97, 107], [99, 97, 115, 101],
   [99, 97, 116, 99, 104], [99, 111, 110, 115, 116], [99, 111, 110, 116, 105, 110, 117, 101],
   [99, 111, 117, 110, 116, 111, 102], [100, 101, 102, 97, 117, 108, 116], [100, 101, 102, 101, 114],
   [100, 111], [101, 97, 99, 104], [101, 108, 115, 101], [101, 120, 116, 101, 114, 110],
   [102, 97, 108, 115, 101], [102, 111, 114], [102, 117, 110, 99], [105, 102],
   [105, 109, 112, 111, 114, 116], [110, 111, 116], [110, 117, 108, 108], [111, 114], [114, 101, 102],
   [114, 101, 116, 117, 114, 110], [115, 119, 105, 116, 99, 104], [116, 104, 105, 115],
   [116, 104, 114, 111, 119], [116, 114, 117, 101], [116, 114, 121], [116, 121, 112, 101, 111, 102],
   [117, 110, 115, 101, 116], [118, 97, 114], [119, 104, 105, 108, 101]]

/-- `do_accept_identifier_or_keyword`, token_stream.cpp:723-755. -/
def acceptName {R : Type} (s : Bytes) : Option (Tok R × Bytes) :=
  if ¬ isCmask 0x10 (s.headD 0) then none
  else
    let w := s.takeWhile (isCmask 0x14)
    match (keywords.filter fun k => k.headD 0 = s.headD 0).find? fun k => k.length = w.length ∧ k.isPrefixOf s with
    | some k => some (.kw k, s.drop w.length)
    | none => some (.ident w, s.drop w.length)

/-! ### The main loop -/

/-- `Text_Reader::consume`, token_stream.cpp:106-120: `n` bytes remain to be skipped.  Both assertions count, as a
failing one is undefined behaviour.  The first argument bounds the number of iterations. -/
def consumeLoop : Nat → Nat → Bytes → Res Bytes
  | _, 0, s => .ok s
  | 0, _ + 1, _ => .ub
  | k + 1, n + 1, s =>
    match Utf.utf8Decode s s.length with
    | .ok (some (_, len)) => if len ≤ n + 1 then consumeLoop k (n + 1 - len) (s.drop len) else .ub
    | _ => .ub

/-- `Text_Reader::consume`, token_stream.cpp:106-120.  Every iteration skips one byte or more. -/
def consume (n : Nat) (s : Bytes) : Res Bytes := consumeLoop n n s

/-- The end of a block comment, token_stream.cpp:806-816: the number of bytes up to the end of the `*/`, if the first
asterisk is followed by a slash. -/
def closeAt (s : Bytes) : Option Nat :=
  match s.dropWhile (· ≠ 42) with
  | 42 :: 47 :: _ => some ((s.takeWhile (· ≠ 42)).length + 2)
  | _ => none

/-- The alternatives for a token, token_stream.cpp:838-842. -/
def token {R : Type} (castD : NumGet → Option R) (prev : Option (Tok R)) (s : Bytes) : Res (Option (Tok R × Bytes)) :=
  (acceptNumeric castD prev s).bind fun
    | some r => .ok (some r)
    | none =>
      match acceptPunct s with
      | some r => .ok (some (.punct r.1, r.2))
      | none =>
        (acceptString 34 s).bind fun
          | some r => .ok (some r)
          | none =>
            (acceptString 39 s).bind fun
              | some r => .ok (some r)
              | none => .ok (acceptName s)

/-- The loop over one line, token_stream.cpp:805-846.  `bcomm` says whether a block comment is open; the last token
comes first in `toks`.  The first argument bounds the number of iterations and is the length of the line. -/
def loop {R : Type} (castD : NumGet → Option R) : Nat → Bool → List (Tok R) → Bytes → Res (Bool × List (Tok R))
  | 0, bcomm, toks, s => if s = [] then .ok (bcomm, toks) else .ub
  | n + 1, bcomm, toks, s =>
    if s = [] then .ok (bcomm, toks)
    else if bcomm then
      match closeAt s with
      | none => .ok (true, toks)
      | some k => (consume k s).bind fun s' => loop castD n false toks s'
    else if isCmask 0x01 (s.headD 0) then (consume 1 s).bind fun s' => loop castD n false toks s'
    else if [47, 47].isPrefixOf s then .ok (false, toks)
    else if [47, 42].isPrefixOf s then (consume 2 s).bind fun s' => loop castD n true toks s'
    else
      (token castD toks.head? s).bind fun
        | none => .throw
        | some r => (consume (s.length - r.2.length) s).bind fun s' => loop castD n false (r.1 :: toks) s'

/-- The checks before the loop and the loop, token_stream.cpp:792-846. -/
def checked {R : Type} (castD : NumGet → Option R) (bcomm : Bool) (toks : List (Tok R)) (s : Bytes) :
    Res (Bool × List (Tok R)) :=
  (Utf.utf8Validate s).bind fun valid =>
    if ¬ valid then .throw
    else if 0 ∈ s then .throw
    else if [60, 62, 61, 124].any fun c => (List.replicate 7 c).isPrefixOf s then .throw
    else loop castD s.length bcomm toks s

/-- One line, token_stream.cpp:781-847. -/
def line {R : Type} (castD : NumGet → Option R) (first bcomm : Bool) (toks : List (Tok R)) (s : Bytes) :
    Res (Bool × List (Tok R)) :=
  if first then
    (if [0xEF, 0xBB, 0xBF].isPrefixOf s then consume 3 s else .ok s).bind fun s' =>
      if [35, 33].isPrefixOf s' then .ok (bcomm, toks) else checked castD bcomm toks s'
  else checked castD bcomm toks s

/-- All lines, token_stream.cpp:779-847. -/
def allLines {R : Type} (castD : NumGet → Option R) : Bool → Bool → List (Tok R) → List Bytes → Res (Bool × List (Tok R))
  | _, bcomm, toks, [] => .ok (bcomm, toks)
  | first, bcomm, toks, l :: ls =>
    (line castD first bcomm toks l).bind fun r => allLines castD false r.1 r.2 ls

/-- The lines that `getline` gives, cow_string.hpp:2505-2519: a last line without a line feed counts unless it is
empty.  The first argument is the current line. -/
def getlines : Bytes → Bytes → List Bytes
  | cur, [] => if cur = [] then [] else [cur]
  | cur, c :: s => if c = 10 then cur :: getlines [] s else getlines (cur ++ [c]) s

/-- `Token_Stream::reload`, token_stream.cpp:764-861: the tokens in the order of the text. -/
def reload {R : Type} (castD : NumGet → Option R) (text : Bytes) : Res (List (Tok R)) :=
  (allLines castD true false [] (getlines [] text)).bind fun r => if r.1 then .throw else .ok r.2.reverse

/-! ### Quoting -/

/-- `s_char_escapes`, utils.cpp:12-46. -/
def charEscapes : List Bytes :=
  [[92, 48], [92, 120, 48, 49], [92, 120, 48, 50], [92, 120, 48, 51], [92, 120, 48, 52], [92, 120, 48, 53],
   [92, 120, 48, 54], [92, 97], [92, 98], [92, 116], [92, 110], [92, 118], [92, 102], [92, 114],
   [92, 120, 48, 69], [92, 120, 48, 70], [92, 120, 49, 48], [92, 120, 49, 49], [92, 120, 49, 50],
   [92, 120, 49, 51], [92, 120, 49, 52], [92, 120, 49, 53], [92, 120, 49, 54], [92, 120, 49, 55],
   [92, 120, 49, 56], [92, 120, 49, 57], [92, 90], [92, 101], [92, 120, 49, 67], [92, 120, 49, 68],
   [92, 120, 49, 69], [92, 120, 49, 70], [32], [33], [92, 34], [35], [36], [37], [38], [92, 39], [40], [41],
   [42], [43], [44], [45], [46], [47], [48], [49], [50], [51], [52], [53], [54], [55], [56], [57], [58],
   [59], [60], [61], [62], [63], [64], [65], [66], [67], [68], [69], [70], [71], [72], [73], [74], [75],
   [76], [77], [78], [79], [80], [81], [82], [83], [84], [85], [86], [87], [88], [89], [90], [91], [92, 92],
   [93], [94], [95], [96], [97], [98], [99], [100], [101], [102], [103], [104], [105], [106], [107], [108],
   [109], [110], [111], [112], [113], [114], [115], [116], [117], [118], [119], [120], [121], [122], [123],
   [124], [125], [126], [92, 120, 55, 70], [92, 120, 56, 48], [92, 120, 56, 49], [92, 120, 56, 50],
   [92, 120, 56, 51], [92, 120, 56, 52], [92, 120, 56, 53], [92, 120, 56, 54], [92, 120, 56, 55],
   [92, 120, 56, 56], [92, 120, 56, 57], [92, 120, 56, 65], [92, 120, 56, 66], [92, 120, 56, 67],
   [92, 120, 56, 68], [92, 120, 56, 69], [92, 120, 56, 70], [92, 120, 57, 48], [92, 120, 57, 49],
   [92, 120, 57, 50], [92, 120, 57, 51], [92, 120, 57, 52], [92, 120, 57, 53], [92, 120, 57, 54],
   [92, 120, 57, 55], [92, 120, 57, 56], [92, 120, 57, 57], [92, 120, 57, 65], [92, 120, 57, 66],
   [92, 120, 57, 67], [92, 120, 57, 68], [92, 120, 57, 69], [92, 120, 57, 70], [92, 120, 65, 48],
   [92, 120, 65, 49], [92, 120, 65, 50], [92, 120, 65, 51], [92, 120, 65, 52], [92, 120, 65, 53],
   [92, 120, 65, 54], [92, 120, 65, 55], [92, 120, 65, 56], [92, 120, 65, 57], [92, 120, 65, 65],
   [92, 120, 65, 66], [92, 120, 65, 67], [92, 120, 65, 68], [92, 120, 65, 69], [92, 120, 65, 70],
   [92, 120, 66, 48], [92, 120, 66, 49], [92, 120, 66, 50], [92, 120, 66, 51], [92, 120, 66, 52],
   [92, 120, 66, 53], [92, 120, 66, 54], [92, 120, 66, 55], [92, 120, 66, 56], [92, 120, 66, 57],
   [92, 120, 66, 65], [92, 120, 66, 66], [92, 120, 66, 67], [92, 120, 66, 68], [92, 120, 66, 69],
   [92, 120, 66, 70], [92, 120, 67, 48], [92, 120, 67, 49], [92, 120, 67, 50], [92, 120, 67, 51],
   [92, 120, 67, 52], [92, 120, 67, 53], [92, 120, 67, 54], [92, 120, 67, 55], [92, 120, 67, 56],
   [92, 120, 67, 57], [92, 120, 67, 65], [92, 120, 67, 66], [92, 120, 67, 67], [92, 120, 67, 68],
   [92, 120, 67, 69], [92, 120, 67, 70], [92, 120, 68, 48], [92, 120, 68, 49], [92, 120, 68, 50],
   [92, 120, 68, 51], [92, 120, 68, 52], [92, 120, 68, 53], [92, 120, 68, 54], [92, 120, 68, 55],
   [92, 120, 68, 56], [92, 120, 68, 57], [92, 120, 68, 65], [92, 120, 68, 66], [92, 120, 68, 67],
   [92, 120, 68, 68], [92, 120, 68, 69], [92, 120, 68, 70], [92, 120, 69, 48], [92, 120, 69, 49],
   [92, 120, 69, 50], [92, 120, 69, 51], [92, 120, 69, 52], [92, 120, 69, 53], [92, 120, 69, 54],
   [92, 120, 69, 55], [92, 120, 69, 56], [92, 120, 69, 57], [92, 120, 69, 65], [92, 120, 69, 66],
   [92, 120, 69, 67], [92, 120, 69, 68], [92, 120, 69, 69], [92, 120, 69, 70], [92, 120, 70, 48],
   [92, 120, 70, 49], [92, 120, 70, 50], [92, 120, 70, 51], [92, 120, 70, 52], [92, 120, 70, 53],
   [92, 120, 70, 54], [92, 120, 70, 55], [92, 120, 70, 56], [92, 120, 70, 57], [92, 120, 70, 65],
   [92, 120, 70, 66], [92, 120, 70, 67], [92, 120, 70, 68], [92, 120, 70, 69], [92, 120, 70, 70]]

/-- `c_quote`, utils.cpp:418-454. -/
def cQuote (s : Bytes) : Bytes := s.flatMap fun c => charEscapes.getD c.toNat []

end Asteria.Lexer
