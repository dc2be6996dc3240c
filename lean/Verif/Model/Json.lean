import Verif.Model.Utf
import Verif.Model.NumText
import Verif.Model.Value

/-!
# Model of the JSON library

/repo/asteria/src/library/json.cpp: `std.json.parse` and `std.json.format`.

The source is a `Memory_Source` and the sink is a string.  A parsing error is `throw`; messages and offsets are left
out.  Two conversions of real numbers are parameters: `castD`, which is `ascii_numget::cast_D` (`none` stands for
overflow), and `putD`, which is `ascii_numput::put_DD`.  Objects are lists of pairs in the order of insertion.
-/

namespace Asteria.Json

open NumText (NumGet parseBase)

/-! ### Characters -/

/-- `Parser_Context`, json.cpp:16-22, and the rest of the `Memory_Source`, json.cpp:55-97: `c` is `none` if it is
negative.  The offsets, which are for messages only but for the byte order mark, are left out. -/
structure Ctx where
  c : Option Nat
  eof : Bool
  rest : Bytes
deriving DecidableEq

/-- `lzcnt32((uint32_t) c << 24 ^ UINT32_MAX)` of a byte above 0xBF, json.cpp:235: the number of leading ones. -/
def u8len (c : Nat) : Nat :=
  if c < 0xE0 then 2 else if c < 0xF0 then 3 else if c < 0xF8 then 4 else if c < 0xFC then 5
  else if c < 0xFE then 6 else if c < 0xFF then 7 else 8

/-- The loop over trailing bytes, json.cpp:244-250. -/
def trail : Nat → Bytes → Option Nat
  | cp, [] => some cp
  | cp, b :: s => if 0x80 ≤ b.toNat ∧ b.toNat ≤ 0xBF then trail (cp * 64 + b.toNat % 64) s else none

/-- `do_load_next`, json.cpp:222-258: the character and the rest, or `none` at the end of the input.  A shift by a
negative number (236) and more than four bytes in `tbytes` (238-239) are undefined. -/
def load : Bytes → Res (Option (Nat × Bytes))
  | [] => .ok none
  | b :: t =>
    let c := b.toNat
    if 0x80 ≤ c ∧ c ≤ 0xBF then .throw
    else if c > 0x7F then
      let n := u8len c
      if n > 7 then .ub
      else if min t.length (n - 1) > 4 then .ub
      else if t.length < n - 1 then .throw
      else
        match trail (c % 2 ^ (7 - n)) (t.take (n - 1)) with
        | none => .throw
        | some cp =>
          if cp < 0x80 ∨ cp < 2 ^ (n * 5 - 4) ∨ (0xD800 ≤ cp ∧ cp ≤ 0xDFFF) ∨ cp > 0x10FFFF then .throw
          else .ok (some (cp, t.drop (n - 1)))
    else .ok (some (c, t))

/-! ### Tokens -/

/-- `is_any(c, ' ', '\t', '\r', '\n')`, json.cpp:282, 286. -/
def isWs (c : Nat) : Bool := c = 0x20 || c = 0x09 || c = 0x0D || c = 0x0A

/-- `is_within(c, '0', '9')`. -/
def isDigit (c : Nat) : Bool := 0x30 ≤ c && c ≤ 0x39

/-- The first characters of identifiers, json.cpp:319-322. -/
def isIdent1 (c : Nat) : Bool := c = 0x5F || c = 0x24 || (0x41 ≤ c && c ≤ 0x5A) || (0x61 ≤ c && c ≤ 0x7A)

/-- The other characters of identifiers, json.cpp:329-330. -/
def isIdent (c : Nat) : Bool := isIdent1 c || isDigit c

/-- `do { token.push_back(c); do_load_next(); } while(p(c))` from the second character on, json.cpp:325-330, 350-353,
362-365, 380-383: the characters that are appended, the next one (`none` at the end of the input) and the rest.  All
characters that satisfy `p` are single bytes. -/
def run (p : Nat → Bool) : Bytes → Res (Bytes × Option Nat × Bytes)
  | [] => .ok ([], none, [])
  | b :: s =>
    if p b.toNat then (run p s).map fun r => (b :: r.1, r.2)
    else
      (load (b :: s)).map fun
        | none => ([], none, [])
        | some x => ([], some x.1, x.2)

/-- A character is loaded, has to be a digit, and is followed by more digits, json.cpp:343-353, 357-365, 377-383. -/
def digits (s : Bytes) : Res (Bytes × Option Nat × Bytes) :=
  (load s).bind fun
    | none => .throw
    | some x => if isDigit x.1 then (run isDigit x.2).map fun r => (UInt8.ofNat x.1 :: r.1, r.2) else .throw

/-- The exponent, json.cpp:368-384, given what has been read: the text, the next character and the rest. -/
def exponent (t : Bytes) (c : Option Nat) (s : Bytes) : Res (Bytes × Option Nat × Bytes) :=
  match c with
  | none => .ok (t, none, s)
  | some c =>
    if c = 0x65 ∨ c = 0x45 then
      (load s).bind fun
        | none => .throw
        | some x =>
          if x.1 = 0x2B ∨ x.1 = 0x2D then
            (digits x.2).map fun r => (t ++ UInt8.ofNat c :: UInt8.ofNat x.1 :: r.1, r.2)
          else (digits s).map fun r => (t ++ UInt8.ofNat c :: r.1, r.2)
    else .ok (t, some c, s)

/-- The fraction and the exponent, json.cpp:355-384. -/
def fraction (t : Bytes) (c : Option Nat) (s : Bytes) : Res (Bytes × Option Nat × Bytes) :=
  match c with
  | none => .ok (t, none, s)
  | some c =>
    if c = 0x2E then (digits s).bind fun r => exponent (t ++ UInt8.ofNat c :: r.1) r.2.1 r.2.2
    else exponent t (some c) s

/-- A number, json.cpp:338-390, of which the first character has been read. -/
def number (c : Nat) (s : Bytes) : Res (Bytes × Option Nat × Bytes) :=
  if c = 0x2B ∨ c = 0x2D then (digits s).bind fun r => fraction (UInt8.ofNat c :: r.1) r.2.1 r.2.2
  else (run isDigit s).bind fun r => fraction (UInt8.ofNat c :: r.1) r.2.1 r.2.2

/-- The value of a hexadecimal digit, json.cpp:474-482, 500-508. -/
def hexDigit (b : UInt8) : Option Nat :=
  let c := b.toNat
  if 0x30 ≤ c ∧ c ≤ 0x39 then some (c - 0x30)
  else if 0x41 ≤ c ∧ c ≤ 0x46 then some (c - 0x41 + 10)
  else if 0x61 ≤ c ∧ c ≤ 0x66 then some (c - 0x61 + 10)
  else none

/-- The loops over four hexadecimal digits, json.cpp:468-483, 498-509. -/
def hex4 : Bytes → Option (Nat × Bytes)
  | a :: b :: c :: d :: s =>
    match hexDigit a, hexDigit b, hexDigit c, hexDigit d with
    | some a, some b, some c, some d => some (((a * 16 + b) * 16 + c) * 16 + d, s)
    | _, _, _, _ => none
  | _ => none

/-- An escape sequence after the backslash, json.cpp:430-521: the character and the rest.  If there are not enough
bytes it is an error, so what `getn` reads then does not matter. -/
def escape : Bytes → Res (Nat × Bytes)
  | [] => .throw
  | b :: s =>
    if b = 0x5C ∨ b = 0x22 ∨ b = 0x2F then .ok (b.toNat, s)
    else if b = 0x62 then .ok (8, s)
    else if b = 0x66 then .ok (12, s)
    else if b = 0x6E then .ok (10, s)
    else if b = 0x72 then .ok (13, s)
    else if b = 0x74 then .ok (9, s)
    else if b = 0x75 then
      match hex4 s with
      | none => .throw
      | some (c, s) =>
        if 0xDC00 ≤ c ∧ c ≤ 0xDFFF then .throw
        else if 0xD800 ≤ c ∧ c ≤ 0xDBFF then
          match s with
          | 0x5C :: 0x75 :: s =>
            match hex4 s with
            | none => .throw
            | some (d, s) =>
              if 0xDC00 ≤ d ∧ d ≤ 0xDFFF then .ok (0x10000 + (c - 0xD800) * 1024 + (d - 0xDC00), s) else .throw
          | _ => .throw
        else .ok (c, s)
    else .throw

/-- The bytes that are copied in one go, json.cpp:398-409. -/
def plain (b : UInt8) : Bool := b ≠ 0x5C && b ≠ 0x22 && 0x20 ≤ b.toNat && b.toNat ≤ 0x7E

/-- `token.push_back` or `utf8_encode`, json.cpp:525-532. -/
def put (c : Nat) : Bytes := if c ≤ 0x7F then [UInt8.ofNat c] else (Utf.utf8Encode c).getD []

/-- The loop of a string, json.cpp:397-533, after the opening quotation mark: the rest of the token and of the text.
The first argument bounds the number of iterations. -/
def strLoop : Nat → Bytes → Bytes → Res (Bytes × Bytes)
  | 0, _, _ => .ub
  | n + 1, tok, s =>
    (load (s.dropWhile plain)).bind fun
      | none => .throw
      | some x =>
        if x.1 ≤ 0x1F ∨ x.1 = 0x7F then .throw
        else if x.1 = 0x22 then .ok (tok ++ s.takeWhile plain, x.2)
        else if x.1 = 0x5C then
          (escape x.2).bind fun y => strLoop n (tok ++ s.takeWhile plain ++ put y.1) y.2
        else strLoop n (tok ++ s.takeWhile plain ++ put x.1) x.2

/-- The `switch` of `do_token`, json.cpp:303-544. -/
def body (eof : Bool) (c : Nat) (s : Bytes) : Res (Bytes × Ctx) :=
  if c = 0x5B ∨ c = 0x5D ∨ c = 0x7B ∨ c = 0x7D ∨ c = 0x3A ∨ c = 0x2C then .ok ([UInt8.ofNat c], ⟨none, eof, s⟩)
  else if isIdent1 c then (run isIdent s).map fun r => (UInt8.ofNat c :: r.1, ⟨r.2.1, false, r.2.2⟩)
  else if c = 0x2B ∨ c = 0x2D ∨ isDigit c then (number c s).map fun r => (r.1, ⟨r.2.1, false, r.2.2⟩)
  else if c = 0x22 then (strLoop (s.length + 1) [0x22] s).map fun r => (r.1, ⟨none, eof, r.2⟩)
  else .throw

/-- The blanks and the `switch` of `do_token`, json.cpp:282-544.  The loop ends after one turn, as all blanks that come
next are skipped at once. -/
def skipWs (eof : Bool) (c : Nat) (s : Bytes) : Res (Bytes × Ctx) :=
  if isWs c then
    (load (s.dropWhile fun b => isWs b.toNat)).bind fun
      | none => .ok ([], ⟨none, true, []⟩)
      | some x => body eof x.1 x.2
  else body eof c s

/-- `do_token`, json.cpp:260-545; `total` is the length of the whole input, so that `tell()` is zero if the rest is that
long.  The result is the token, which is empty at the end of the input. -/
def token (total : Nat) (ctx : Ctx) : Res (Bytes × Ctx) :=
  match ctx.c with
  | some c => skipWs ctx.eof c ctx.rest
  | none =>
    (load ctx.rest).bind fun
      | none => .ok ([], ⟨none, true, []⟩)
      | some x =>
        if ctx.rest.length = total ∧ x.1 = 0xFEFF then
          (load x.2).bind fun
            | none => .ok ([], ⟨none, true, []⟩)
            | some x => skipWs ctx.eof x.1 x.2
        else skipWs ctx.eof x.1 x.2

/-! ### The parser -/

/-- `xFrame`, json.cpp:554-559: the elements before the current one and, in an object, the key of the current one. -/
inductive Frame where
  | arr (items : List Value)
  | obj (entries : List (Bytes × Value)) (key : Bytes)

/-- The state of `do_parse_from`, json.cpp:547-721: at the label `do_pack_value_loop_`, or at the loop that follows when
a value is complete.  A value that is being filled through a pointer is put in place when it is complete. -/
inductive State where
  | pack (tok : Bytes) (ctx : Ctx) (stack : List Frame)
  | close (v : Value) (ctx : Ctx) (stack : List Frame)

/-- `token[0]`: a zero byte if the token is empty. -/
def at0 (tok : Bytes) : UInt8 := tok.headD 0

/-- The colon and the value after a key, json.cpp:614-620, 698-704. -/
def colon (total : Nat) (ctx : Ctx) (k : Bytes → Ctx → Res (State ⊕ Value)) : Res (State ⊕ Value) :=
  (token total ctx).bind fun t =>
    if at0 t.1 ≠ 0x3A then .throw
    else (token total t.2).bind fun t => if t.2.eof then .throw else k t.1 t.2

/-- One step of `do_parse_from`, json.cpp:570-717: another state, or the value of the whole text. -/
def step (castD : NumGet → Option Dbl) (total : Nat) : State → Res (State ⊕ Value)
  | .pack tok ctx stack =>
    if stack.length > 32 then .throw
    else if at0 tok = 0x5B then
      (token total ctx).bind fun t =>
        if t.2.eof then .throw
        else if at0 t.1 ≠ 0x5D then .ok (.inl (.pack t.1 t.2 (.arr [] :: stack)))
        else .ok (.inl (.close (.arr []) t.2 stack))
    else if at0 tok = 0x7B then
      (token total ctx).bind fun t =>
        if t.2.eof then .throw
        else if at0 t.1 ≠ 0x7D then
          if at0 t.1 ≠ 0x22 then .throw
          else colon total t.2 fun tok ctx => .ok (.inl (.pack tok ctx (.obj [] (t.1.drop 1) :: stack)))
        else .ok (.inl (.close (.obj []) t.2 stack))
    else if at0 tok = 0x2B ∨ at0 tok = 0x2D ∨ isDigit (at0 tok).toNat then
      match parseBase 10 tok with
      | some (g, []) =>
        match castD g with
        | some d => .ok (.inl (.close (.real d) ctx stack))
        | none => .throw
      | _ => .ub
    else if at0 tok = 0x22 then .ok (.inl (.close (.str (tok.drop 1)) ctx stack))
    else if tok = [0x6E, 0x75, 0x6C, 0x6C] then .ok (.inl (.close .null ctx stack))
    else if tok = [0x74, 0x72, 0x75, 0x65] then .ok (.inl (.close (.bool true) ctx stack))
    else if tok = [0x66, 0x61, 0x6C, 0x73, 0x65] then .ok (.inl (.close (.bool false) ctx stack))
    else .throw
  | .close v ctx [] =>
    (token total ctx).bind fun t => if t.1 ≠ [] then .throw else .ok (.inr v)
  | .close v ctx (.arr items :: fs) =>
    (token total ctx).bind fun t =>
      if t.2.eof then .throw
      else if at0 t.1 ≠ 0x5D then
        if at0 t.1 ≠ 0x2C then .throw
        else
          (token total t.2).bind fun t =>
            if t.2.eof then .throw
            else if at0 t.1 ≠ 0x5D then .ok (.inl (.pack t.1 t.2 (.arr (items ++ [v]) :: fs)))
            else .ok (.inl (.close (.arr (items ++ [v])) t.2 fs))
      else .ok (.inl (.close (.arr (items ++ [v])) t.2 fs))
  | .close v ctx (.obj entries key :: fs) =>
    (token total ctx).bind fun t =>
      if t.2.eof then .throw
      else if at0 t.1 ≠ 0x7D then
        if at0 t.1 ≠ 0x2C then .throw
        else
          (token total t.2).bind fun t =>
            if t.2.eof then .throw
            else if at0 t.1 ≠ 0x7D then
              if at0 t.1 ≠ 0x22 then .throw
              else if t.1.drop 1 ∈ (entries ++ [(key, v)]).map (·.1) then .throw
              else
                let k := t.1.drop 1
                colon total t.2 fun tok ctx => .ok (.inl (.pack tok ctx (.obj (entries ++ [(key, v)]) k :: fs)))
            else .ok (.inl (.close (.obj (entries ++ [(key, v)])) t.2 fs))
      else .ok (.inl (.close (.obj (entries ++ [(key, v)])) t.2 fs))

/-- The loops of `do_parse_from`.  The first argument bounds the number of steps. -/
def steps (castD : NumGet → Option Dbl) (total : Nat) : Nat → State → Res Value
  | 0, _ => .ub
  | n + 1, st =>
    (step castD total st).bind fun
      | .inl st => steps castD total n st
      | .inr v => .ok v

/-- `std_json_parse`, json.cpp:1006-1013, with `do_parse_from`, json.cpp:547-721. -/
def parse (castD : NumGet → Option Dbl) (text : Bytes) : Res Value :=
  (token text.length ⟨none, false, text⟩).bind fun t =>
    if t.1 = [] then .throw else steps castD text.length (2 * text.length + 4) (.pack t.1 t.2 [])

/-! ### The formatter -/

/-- A digit of `\uXXXX`, json.cpp:799-802, 811-814. -/
def hexChar (c : Nat) : UInt8 := if c < 10 then UInt8.ofNat (c + 0x30) else UInt8.ofNat (c - 10 + 0x41)

/-- `\uXXXX`, json.cpp:794-815. -/
def u4 (c : Nat) : Bytes :=
  [0x5C, 0x75, hexChar (c / 4096 % 16), hexChar (c / 256 % 16), hexChar (c / 16 % 16), hexChar (c % 16)]

/-- `do_escape_string_utf16`, json.cpp:723-824.  The first argument bounds the number of iterations. -/
def esc : Nat → Bytes → Res Bytes
  | _, [] => .ok []
  | 0, _ :: _ => .ub
  | n + 1, b :: s =>
    if b = 0x5C ∨ b = 0x22 ∨ b = 0x2F then (esc n s).map fun r => 0x5C :: b :: r
    else if 0x20 ≤ b.toNat ∧ b.toNat ≤ 0x7E then (esc n s).map fun r => b :: r
    else if b = 8 then (esc n s).map fun r => 0x5C :: 0x62 :: r
    else if b = 12 then (esc n s).map fun r => 0x5C :: 0x66 :: r
    else if b = 10 then (esc n s).map fun r => 0x5C :: 0x6E :: r
    else if b = 13 then (esc n s).map fun r => 0x5C :: 0x72 :: r
    else if b = 9 then (esc n s).map fun r => 0x5C :: 0x74 :: r
    else
      (Utf.utf8Decode (b :: s) (s.length + 1)).bind fun
        | none => (esc n s).map fun r => [0x5C, 0x75, 0x46, 0x46, 0x46, 0x44] ++ r
        | some x =>
          match Utf.utf16Encode x.1 with
          | some [c] => (esc n ((b :: s).drop x.2)).map fun r => u4 c ++ r
          | some [c, d] => (esc n ((b :: s).drop x.2)).map fun r => u4 c ++ (u4 d ++ r)
          | _ => .ub

/-- A string between quotation marks, json.cpp:876-878, 911-913, 946-948. -/
def quote (s : Bytes) : Res Bytes := (esc s.length s).map fun r => 0x22 :: (r ++ [0x22])

/-- `xFrame`, json.cpp:830-836: the elements after the current one. -/
inductive PFrame where
  | arr (more : List Value)
  | obj (more : List (Bytes × Value))

/-- The state of `do_print_to`, json.cpp:826-962: the value at the label `do_unpack_loop_`, or `none` in the loop that
closes; the stack; `indent.cur`; and what has been written. -/
structure PState where
  cur : Option Value
  stack : List PFrame
  ind : Bytes
  out : Bytes

/-- `usink.putn("\": ", indent.cur.empty() ? 2U : 3U)` without the quotation mark, json.cpp:878, 948. -/
def sep (ind : Bytes) : Bytes := if ind = [] then [0x3A] else [0x3A, 0x20]

/-- `indent.cur.pop_back(indent.add.size())`, json.cpp:935, 954, of which the precondition is an assertion. -/
def outdent (add ind : Bytes) : Res Bytes := if add.length ≤ ind.length then .ok (ind.take (ind.length - add.length)) else .ub

/-- The text of a real number, json.cpp:897-907. -/
def realText (putD : Dbl → Bytes) : Dbl → Bytes
  | .fin q => putD (.fin q)
  | _ => [0x6E, 0x75, 0x6C, 0x6C]

/-- One step of `do_print_to`, json.cpp:842-962: another state, or the whole text.  `ofInt` is the conversion of an
integer to `V_real`. -/
def pstep (putD : Dbl → Bytes) (ofInt : Int → Dbl) (add : Bytes) (p : PState) : Res (PState ⊕ Bytes) :=
  match p.cur with
  | some (.arr (x :: xs)) =>
    .ok (.inl ⟨some x, .arr xs :: p.stack, p.ind ++ add, p.out ++ ([0x5B] ++ (p.ind ++ add))⟩)
  | some (.obj ((k, x) :: xs)) =>
    (quote k).map fun q =>
      .inl ⟨some x, .obj xs :: p.stack, p.ind ++ add, p.out ++ ([0x7B] ++ (p.ind ++ add) ++ (q ++ sep (p.ind ++ add)))⟩
  | some (.arr []) => .ok (.inl { p with cur := none, out := p.out ++ [0x5B, 0x5D] })
  | some (.obj []) => .ok (.inl { p with cur := none, out := p.out ++ [0x7B, 0x7D] })
  | some (.bool b) =>
    .ok (.inl { p with cur := none, out := p.out ++ (if b then [0x74, 0x72, 0x75, 0x65] else [0x66, 0x61, 0x6C, 0x73, 0x65]) })
  | some (.int i) => .ok (.inl { p with cur := none, out := p.out ++ putD (ofInt i) })
  | some (.real d) => .ok (.inl { p with cur := none, out := p.out ++ realText putD d })
  | some (.str s) => (quote s).map fun q => .inl { p with cur := none, out := p.out ++ q }
  | some .null | some (.opaque _) | some (.func _) =>
    .ok (.inl { p with cur := none, out := p.out ++ [0x6E, 0x75, 0x6C, 0x6C] })
  | none =>
    match p.stack with
    | [] => .ok (.inr p.out)
    | .arr (x :: xs) :: fs => .ok (.inl ⟨some x, .arr xs :: fs, p.ind, p.out ++ ([0x2C] ++ p.ind)⟩)
    | .arr [] :: fs => (outdent add p.ind).map fun ind => .inl ⟨none, fs, ind, p.out ++ (ind ++ [0x5D])⟩
    | .obj ((k, x) :: xs) :: fs =>
      (quote k).map fun q => .inl ⟨some x, .obj xs :: fs, p.ind, p.out ++ ([0x2C] ++ p.ind ++ (q ++ sep p.ind))⟩
    | .obj [] :: fs => (outdent add p.ind).map fun ind => .inl ⟨none, fs, ind, p.out ++ (ind ++ [0x7D])⟩

/-- The loops of `do_print_to`.  The first argument bounds the number of steps. -/
def psteps (putD : Dbl → Bytes) (ofInt : Int → Dbl) (add : Bytes) : Nat → PState → Res Bytes
  | 0, _ => .ub
  | n + 1, p =>
    (pstep putD ofInt add p).bind fun
      | .inl p => psteps putD ofInt add n p
      | .inr out => .ok out

mutual

/-- The number of steps that `do_print_to` takes for a value. -/
def cost : Value → Nat
  | .arr l => 1 + costList l
  | .obj l => 1 + costFields l
  | _ => 1

/-- The same for the elements of an array and its end. -/
def costList : List Value → Nat
  | [] => 0
  | x :: xs => 1 + cost x + costList xs

/-- The same for an object. -/
def costFields : List (Bytes × Value) → Nat
  | [] => 0
  | x :: xs => 1 + cost x.2 + costFields xs

end

/-- `Indent`, json.cpp:203-210, and `std_json_format`, json.cpp:972-978: `add` is the string of one level.  The overload
for integers, json.cpp:212-219, 980-986, is this one with up to forty spaces. -/
def format (putD : Dbl → Bytes) (ofInt : Int → Dbl) (add : Bytes) (v : Value) : Res Bytes :=
  psteps putD ofInt add (cost v + 1) ⟨some v, [], if add = [] then [] else [0x0A], []⟩

/-- The indentation of the overload for integers, json.cpp:212-219. -/
def spaces (n : Int) : Bytes := if n ≤ 0 then [] else List.replicate (min n 40).toNat 0x20

end Asteria.Json
