import Verif.Model.Json
import Verif.Model.RealText
import Verif.Model.JsonReal

/-!
# Model of the reader of configuration files

`std.system.load_conf`, /repo/asteria/src/library/system.cpp:474-1086.

The file is the sequence of its bytes; that it can't be opened, and errors when it is read, are left out.  A parsing error
is `throw`; messages are left out, and so are lines and columns, which are for messages only (but for the byte order mark).
A failed assertion is undefined, as in a build without `ASTERIA_DEBUG`.
-/

namespace Asteria.Conf

open NumText (NumGet getSign skipPrefix prefixBase collectDigits castI parseD)

/-! ### Characters -/

/-- What comes after the characters that can be decoded: the end of the file, an error, or undefined behaviour. -/
inductive End where
  | eof
  | bad
  | undef
deriving DecidableEq

/-- The characters that successive calls of `do_load_next` give, system.cpp:492-532, and what the first call that does not
give one does.  Up to the update of `next_ln` and `next_col`, it is the same as `do_load_next` in json.cpp:222-258.  The
first argument bounds the number of characters. -/
def decode : Nat → Bytes → List Nat × End
  | 0, _ => ([], .undef)
  | n + 1, s =>
    match Json.load s with
    | .ok none => ([], .eof)
    | .ok (some x) => (x.1 :: (decode n x.2).1, (decode n x.2).2)
    | .throw => ([], .bad)
    | .ub => ([], .undef)

/-- Looking at `ch` when there is no more character: `k` is what happens if it is negative. -/
def End.at {α : Type} (e : End) (k : Res α) : Res α :=
  match e with
  | .eof => k
  | .bad => .throw
  | .undef => .ub

/-! ### Tokens

`ch` and the position in the file together are the list of the characters from `ch` on, or, if `ch` is negative, of those
that have not been loaded.  A character is loaded right before it is looked at, or before the token ends; whether the one
that comes next has been loaded already does not matter to `do_token` then. -/

/-- The blanks of system.cpp:556. -/
def isBlank (c : Nat) : Bool := c = 0x20 || c = 0x09 || c = 0x0D || c = 0x0A || c = 0x0B || c = 0x0C

/-- The states of the loop over blanks and comments. -/
inductive Mode where
  | gap
  | line
  | block
deriving DecidableEq

/-- Blanks and comments, system.cpp:556-598: what is left. -/
def skip (e : End) : Mode → List Nat → Res (List Nat)
  | .gap, [] => e.at (.ok [])
  | .line, [] => e.at (.ok [])
  | .block, [] => e.at .throw
  | .gap, c :: s =>
    if c = 0x2F then
      match s with
      | [] => e.at .throw
      | d :: s => if d = 0x2F then skip e .line s else if d = 0x2A then skip e .block s else .throw
    else if isBlank c then skip e .gap s
    else .ok (c :: s)
  | .line, c :: s => if c = 0x0A then skip e .gap s else skip e .line s
  | .block, c :: s =>
    if c = 0x2A then
      match s with
      | [] => e.at .throw
      | d :: s => if d = 0x2F then skip e .gap s else skip e .block s
    else skip e .block s

/-- The tokens of one character, system.cpp:602-609. -/
def isPunct (c : Nat) : Bool :=
  c = 0x5B || c = 0x5D || c = 0x7B || c = 0x7D || c = 0x3A || c = 0x3D || c = 0x2C || c = 0x3B

/-- The first characters of identifiers, system.cpp:618-621. -/
def isIdent1 (c : Nat) : Bool := c = 0x5F || c = 0x24 || (0x41 ≤ c && c ≤ 0x5A) || (0x61 ≤ c && c ≤ 0x7A)

/-- Decimal digits, system.cpp:640, 675-676, 712, 720. -/
def isDigit (c : Nat) : Bool := 0x30 ≤ c && c ≤ 0x39

/-- The other characters of identifiers, system.cpp:627-628. -/
def isIdent (c : Nat) : Bool := isIdent1 c || isDigit c

/-- The rest of an identifier, system.cpp:623-628. -/
def ident (e : End) : List Nat → Res (Bytes × List Nat)
  | [] => e.at (.ok ([], []))
  | c :: s => if isIdent c then (ident e s).map fun r => (UInt8.ofNat c :: r.1, r.2) else .ok ([], c :: s)

/-- `valid_digits` of binary numbers, system.cpp:656-657. -/
def isBin (c : Nat) : Bool := 0x30 ≤ c && c ≤ 0x31

/-- `valid_digits` of hexadecimal numbers, system.cpp:665-670. -/
def isHex (c : Nat) : Bool := isDigit c || (0x61 ≤ c && c ≤ 0x66) || (0x41 ≤ c && c ≤ 0x46)

/-- `while(valid_digits[ch])`, system.cpp:680-686, 695-700: the digits and what is left.  After each digit there may be a backtick.  The
subscript is out of range, which is undefined, if `ch` is negative or above 255. -/
def digits (e : End) (p : Nat → Bool) : List Nat → Res (Bytes × List Nat)
  | [] => e.at .ub
  | c :: s =>
    if c ≥ 256 then .ub
    else if p c then
      match s with
      | [] => (digits e p []).map fun r => (UInt8.ofNat c :: r.1, r.2)
      | d :: s =>
        if d = 0x60 then (digits e p s).map fun r => (UInt8.ofNat c :: r.1, r.2)
        else (digits e p (d :: s)).map fun r => (UInt8.ofNat c :: r.1, r.2)
    else .ok ([], c :: s)

/-- `while((ch >= '0') && (ch <= '9'))`, system.cpp:715-720. -/
def exponentDigits (e : End) : List Nat → Res (Bytes × List Nat)
  | [] => e.at (.ok ([], []))
  | c :: s =>
    if isDigit c then
      match s with
      | [] => (exponentDigits e []).map fun r => (UInt8.ofNat c :: r.1, r.2)
      | d :: s =>
        if d = 0x60 then (exponentDigits e s).map fun r => (UInt8.ofNat c :: r.1, r.2)
        else (exponentDigits e (d :: s)).map fun r => (UInt8.ofNat c :: r.1, r.2)
    else .ok ([], c :: s)

/-- The digits of an exponent, of which there has to be one, system.cpp:712-720. -/
def exponentDigits1 (e : End) (s : List Nat) : Res (Bytes × List Nat) :=
  match s with
  | [] => e.at .throw
  | c :: s => if isDigit c then exponentDigits e (c :: s) else .throw

/-- The exponent, system.cpp:703-721. -/
def exponent (e : End) (expCh : Nat) (s : List Nat) : Res (Bytes × List Nat) :=
  match s with
  | [] => e.at (.ok ([], []))
  | c :: s =>
    if c ||| 0x20 = expCh then
      match s with
      | [] => e.at .throw
      | d :: s =>
        if d = 0x2B ∨ d = 0x2D then
          (exponentDigits1 e s).map fun r => (UInt8.ofNat c :: UInt8.ofNat d :: r.1, r.2)
        else (exponentDigits1 e (d :: s)).map fun r => (UInt8.ofNat c :: r.1, r.2)
    else .ok ([], c :: s)

/-- The fraction, system.cpp:688-701. -/
def fraction (e : End) (p : Nat → Bool) (s : List Nat) : Res (Bytes × List Nat) :=
  match s with
  | [] => e.at (.ok ([], []))
  | c :: s =>
    if c = 0x2E then
      match s with
      | [] => e.at .ub
      | d :: s =>
        if d ≥ 256 then .ub
        else if p d then (digits e p (d :: s)).map fun r => (0x2E :: r.1, r.2)
        else .throw
    else .ok ([], c :: s)

/-- The digits, the fraction and the exponent, system.cpp:680-721. -/
def mantissa (e : End) (p : Nat → Bool) (expCh : Nat) (s : List Nat) : Res (Bytes × List Nat) :=
  (digits e p s).bind fun d => (fraction e p d.2).bind fun f => (exponent e expCh f.2).map fun x => (d.1 ++ (f.1 ++ x.1), x.2)

/-- The base, which depends on what comes after the first digit `c`, and the rest of a number, system.cpp:650-721. -/
def based (e : End) (c : Nat) (s : List Nat) : Res (Bytes × List Nat) :=
  match s with
  | [] => e.at ((mantissa e isDigit 0x65 []).map fun r => (UInt8.ofNat c :: r.1, r.2))
  | d :: s =>
    if c = 0x30 ∧ d ||| 0x20 = 0x62 then (mantissa e isBin 0x70 s).map fun r => (UInt8.ofNat c :: 0x62 :: r.1, r.2)
    else if c = 0x30 ∧ d ||| 0x20 = 0x78 then (mantissa e isHex 0x70 s).map fun r => (UInt8.ofNat c :: 0x78 :: r.1, r.2)
    else (mantissa e isDigit 0x65 (d :: s)).map fun r => (UInt8.ofNat c :: r.1, r.2)

/-- A number from the first digit on, system.cpp:644-725; there may be a backtick after the first digit as well. -/
def unsigned (e : End) (c : Nat) (s : List Nat) : Res (Bytes × List Nat) :=
  match s with
  | [] => based e c []
  | d :: s => if d = 0x60 then based e c s else based e c (d :: s)

/-- A number, system.cpp:634-725. -/
def number (e : End) (c : Nat) (s : List Nat) : Res (Bytes × List Nat) :=
  if c = 0x2B ∨ c = 0x2D then
    match s with
    | [] => e.at .throw
    | d :: s => if isDigit d then (unsigned e d s).map fun r => (UInt8.ofNat c :: r.1, r.2) else .throw
  else unsigned e c s

/-- A string in single quotation marks, system.cpp:727-750, after the first of them.  Each character is converted to `char`. -/
def single (e : End) : List Nat → Res (Bytes × List Nat)
  | [] => e.at .throw
  | c :: s =>
    if c ≤ 0x1F ∨ c = 0x7F then .throw
    else if c = 0x27 then .ok ([], s)
    else (single e s).map fun r => (UInt8.ofNat c :: r.1, r.2)

/-- The value of a hexadecimal digit, system.cpp:811-820, 847-856, 880-889. -/
def hexDigit (c : Nat) : Option Nat :=
  if 0x30 ≤ c ∧ c ≤ 0x39 then some (c - 0x30)
  else if 0x41 ≤ c ∧ c ≤ 0x46 then some (c - 0x41 + 10)
  else if 0x61 ≤ c ∧ c ≤ 0x66 then some (c - 0x61 + 10)
  else none

/-- The loops over hexadecimal digits, system.cpp:804-821, 840-857, 873-890: `n` digits are left and `v` is the value so far. -/
def hexLoop (e : End) : Nat → Nat → List Nat → Res (Nat × List Nat)
  | 0, v, s => .ok (v, s)
  | _ + 1, _, [] => e.at .throw
  | n + 1, v, c :: s =>
    match hexDigit c with
    | some d => hexLoop e n (v * 16 + d) s
    | none => .throw

/-- `do_load_next()` when the character has to be `x`, system.cpp:830-838. -/
def expect (e : End) (x : Nat) : List Nat → Res (List Nat)
  | [] => e.at .throw
  | c :: s => if c = x then .ok s else .throw

/-- An escape sequence after the backslash, system.cpp:770-906: the character and what is left. -/
def escape (e : End) : List Nat → Res (Nat × List Nat)
  | [] => e.at .throw
  | c :: s =>
    if c = 0x5C ∨ c = 0x22 ∨ c = 0x2F then .ok (c, s)
    else if c = 0x62 then .ok (8, s)
    else if c = 0x66 then .ok (12, s)
    else if c = 0x6E then .ok (10, s)
    else if c = 0x72 then .ok (13, s)
    else if c = 0x74 then .ok (9, s)
    else if c = 0x75 then
      (hexLoop e 4 0 s).bind fun x =>
        if 0xDC00 ≤ x.1 ∧ x.1 ≤ 0xDFFF then .throw
        else if 0xD800 ≤ x.1 ∧ x.1 ≤ 0xDBFF then
          (expect e 0x5C x.2).bind fun s => (expect e 0x75 s).bind fun s => (hexLoop e 4 0 s).bind fun y =>
            if y.1 < 0xDC00 ∨ y.1 > 0xDFFF then .throw
            else .ok (0x10000 + (x.1 - 0xD800) * 1024 + (y.1 - 0xDC00), y.2)
        else .ok x
    else if c = 0x55 then
      (hexLoop e 6 0 s).bind fun x =>
        if x.1 ≥ 0x10FFFF then .throw
        else if 0xD800 ≤ x.1 ∧ x.1 ≤ 0xDFFF then .throw
        else .ok x
    else .throw

/-- A string in double quotation marks, system.cpp:752-923, after the first of them.  The first argument bounds the number
of iterations. -/
def double (e : End) : Nat → List Nat → Res (Bytes × List Nat)
  | 0, _ => .ub
  | _ + 1, [] => e.at .throw
  | n + 1, c :: s =>
    if c ≤ 0x1F ∨ c = 0x7F then .throw
    else if c = 0x22 then .ok ([], s)
    else if c = 0x5C then
      (escape e s).bind fun x => (double e n x.2).map fun r => (Json.put x.1 ++ r.1, r.2)
    else (double e n s).map fun r => (Json.put c ++ r.1, r.2)

/-- The `switch` of `do_token`, system.cpp:600-927. -/
def body (e : End) (c : Nat) (s : List Nat) : Res (Bytes × List Nat) :=
  if isPunct c then .ok ([UInt8.ofNat c], s)
  else if isIdent1 c then (ident e s).map fun r => (UInt8.ofNat c :: r.1, r.2)
  else if c = 0x2B ∨ c = 0x2D ∨ isDigit c then number e c s
  else if c = 0x27 then (single e s).map fun r => (0x22 :: r.1, r.2)
  else if c = 0x22 then (double e (s.length + 1) s).map fun r => (0x22 :: r.1, r.2)
  else .throw

/-- `do_token`, system.cpp:534-928, without the byte order mark: the token, which is empty at the end of the file, and what
is left. -/
def token (e : End) (s : List Nat) : Res (Bytes × List Nat) :=
  (skip e .gap s).bind fun
    | [] => .ok ([], [])
    | c :: s => body e c s

/-- The byte order mark, system.cpp:546-553.  It is looked for if the line and the column are 1; as every token has at least
one column, that is the case before the first token only. -/
def dropMark : List Nat → List Nat
  | [] => []
  | c :: s => if c = 0xFEFF then s else c :: s

/-! ### Values -/

/-- `parse_BI`, `parse_XI` and `parse_DI`, /repo/asteria/src/rocket/ascii_numget.cpp:1043-1120. -/
def parseBaseI (base : Nat) (s : Bytes) : Option (NumGet × Bytes) :=
  let g := getSign s
  let t := if base = 2 then skipPrefix 98 g.2 else if base = 16 then skipPrefix 120 g.2 else g.2
  let r := collectDigits base none t
  if r.1.valid then some (⟨false, g.1, if base = 10 then 10 else 2, r.1.exp, r.1.mant, r.1.more⟩, r.2)
  else none

/-- `parse_I`, ascii_numget.cpp:1235-1260. -/
def parseI (s : Bytes) : Option (NumGet × Bytes) :=
  match prefixBase s with
  | some b => parseBaseI b s
  | none =>
    match s with
    | c :: s' =>
      if c = 43 ∨ c = 45 then
        match prefixBase s' with
        | some b => parseBaseI b s
        | none => parseBaseI 10 s
      else parseBaseI 10 s
    | [] => parseBaseI 10 s

/-- A number, system.cpp:1017-1035: the text has a radix point or not.  Of the flags of `cast_I` and `cast_D`, only that of
overflow is looked at.  That the whole token is consumed is an assertion. -/
def numeric (tok : Bytes) : Res Value :=
  if 0x2E ∉ tok then
    match parseI tok with
    | some (g, []) => (castI g).bind fun r => if r.ovfl then .throw else .ok (.int r.value)
    | _ => .ub
  else
    match parseD tok with
    | some (g, []) =>
      match Json.castReal g with
      | some d => .ok (.real d)
      | none => .throw
    | _ => .ub

/-- `xFrame`, system.cpp:931-936: a container that has been left for one of its elements, with the other elements and, in an
object, the key of that one. -/
inductive Frame where
  | arr (items : List Value)
  | obj (entries : List (Bytes × Value)) (key : Bytes)

/-- `psa` or `pso`, system.cpp:939-940: the current container. -/
inductive Cur where
  | arr (items : List Value)
  | obj (entries : List (Bytes × Value))

/-- What `pstor` points to, system.cpp:941: the container in which the value is to be put is given as a frame. -/
def Frame.fill (v : Value) : Frame → Cur
  | .arr items => .arr (items ++ [v])
  | .obj entries key => .obj (entries ++ [(key, v)])

/-- The value of a container. -/
def Cur.value : Cur → Value
  | .arr items => .arr items
  | .obj entries => .obj entries

/-- The token that ends a container, system.cpp:1055-1062. -/
def Cur.last : Cur → UInt8
  | .arr _ => 0x5D
  | .obj _ => 0x7D

/-- The state of the parser, system.cpp:938-1085: at the label `do_pack_value_loop_`, or at the loop at 1053. -/
inductive State where
  | pack (tok : Bytes) (s : List Nat) (cur : Cur) (stack : List Frame)
  | close (tok : Bytes) (s : List Nat) (cur : Cur) (stack : List Frame)

/-- `token[0]`: a zero byte if the token is empty. -/
def at0 (tok : Bytes) : UInt8 := tok.headD 0

/-- `do_token()`, and once more if the token is one of two, system.cpp:968-970, 1049-1051, 1072-1074. -/
def tokenSep (e : End) (a b : UInt8) (s : List Nat) : Res (Bytes × List Nat) :=
  (token e s).bind fun t => if at0 t.1 = a ∨ at0 t.1 = b then token e t.2 else .ok t

/-- The key, system.cpp:959-966. -/
def key (tok : Bytes) : Option Bytes :=
  if at0 tok = 0x22 then some (tok.drop 1)
  else if isIdent1 (at0 tok).toNat then some tok
  else none

/-- A value is put in place, and the next token is read, system.cpp:1049-1051, 1072-1074. -/
def put (e : End) (v : Value) (s : List Nat) (f : Frame) (stack : List Frame) : Res (State ⊕ Value) :=
  (tokenSep e 0x2C 0x3B s).map fun t => .inl (.close t.1 t.2 (f.fill v) stack)

/-- The value which a token begins, system.cpp:979-1048. -/
def value (e : End) (tok : Bytes) (s : List Nat) (f : Frame) (stack : List Frame) : Res (State ⊕ Value) :=
  if at0 tok = 0x5B then
    (token e s).bind fun t =>
      if t.1 = [] then .throw
      else if at0 t.1 ≠ 0x5D then .ok (.inl (.pack t.1 t.2 (.arr []) (f :: stack)))
      else put e (.arr []) t.2 f stack
  else if at0 tok = 0x7B then
    (token e s).bind fun t =>
      if t.1 = [] then .throw
      else if at0 t.1 ≠ 0x7D then .ok (.inl (.pack t.1 t.2 (.obj []) (f :: stack)))
      else put e (.obj []) t.2 f stack
  else if at0 tok = 0x2B ∨ at0 tok = 0x2D ∨ isDigit (at0 tok).toNat then
    (numeric tok).bind fun v => put e v s f stack
  else if at0 tok = 0x22 then put e (.str (tok.drop 1)) s f stack
  else if tok = [0x6E, 0x75, 0x6C, 0x6C] then put e .null s f stack
  else if tok = [0x74, 0x72, 0x75, 0x65] then put e (.bool true) s f stack
  else if tok = [0x66, 0x61, 0x6C, 0x73, 0x65] then put e (.bool false) s f stack
  else .throw

/-- One step of the parser, system.cpp:949-1085: another state, or the value of the file. -/
def step (e : End) : State → Res (State ⊕ Value)
  | .pack tok s cur stack =>
    if stack.length > 32 then .throw
    else
      match cur with
      | .arr items => value e tok s (.arr items) stack
      | .obj entries =>
        match key tok with
        | none => .throw
        | some k =>
          (tokenSep e 0x3A 0x3D s).bind fun t =>
            if k ∈ entries.map (·.1) then .throw else value e t.1 t.2 (.obj entries k) stack
  | .close tok s cur stack =>
    if tok = [] then
      match cur, stack with
      | .obj entries, [] => .ok (.inr (.obj entries))
      | _, _ => .throw
    else if at0 tok ≠ cur.last then .ok (.inl (.pack tok s cur stack))
    else
      match stack with
      | [] => .throw
      | f :: fs => put e cur.value s f fs

/-- The loops of the parser.  The first argument bounds the number of steps. -/
def steps (e : End) : Nat → State → Res Value
  | 0, _ => .ub
  | n + 1, st =>
    (step e st).bind fun
      | .inl st => steps e n st
      | .inr v => .ok v

/-- The whole parser, system.cpp:938-1085, on the characters of the file. -/
def run (cs : List Nat) (e : End) : Res Value :=
  (token e (dropMark cs)).bind fun t =>
    if t.1 = [] then .ok (.obj []) else steps e (2 * cs.length + 4) (.pack t.1 t.2 (.obj []) [])

/-- `std_system_load_conf`, system.cpp:474-1086, of a file with the given contents. -/
def loadConf (file : Bytes) : Res Value :=
  run (decode (file.length + 1) file).1 (decode (file.length + 1) file).2

end Asteria.Conf
