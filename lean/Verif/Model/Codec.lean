import Verif.Model.Basic

/-!
# Model of the text codecs in /repo/asteria/src/library/string.cpp

`uint32_t`/`uint64_t` registers are natural numbers; every left shift of a register is truncated
to the register's width, exactly as in C++.
-/

namespace Asteria.Codec

/-- `s_base16_table`, /repo/asteria/src/library/string.cpp:257
("00112233445566778899AaBbCcDdEeFf", without the terminating null). -/
def base16Table : List UInt8 :=
  [48, 48, 49, 49, 50, 50, 51, 51, 52, 52, 53, 53, 54, 54, 55, 55, 56, 56, 57, 57, 65, 97, 66, 98, 67, 99, 68, 100, 69, 101, 70, 102]

/-- `s_base32_table`, /repo/asteria/src/library/string.cpp:258
("AaBb...Zz223344556677==", without the terminating null). -/
def base32Table : List UInt8 :=
  [65, 97, 66, 98, 67, 99, 68, 100, 69, 101, 70, 102, 71, 103, 72, 104, 73, 105, 74, 106, 75, 107, 76, 108, 77, 109, 78, 110, 79, 111, 80, 112, 81, 113, 82, 114, 83, 115, 84, 116, 85, 117, 86, 118, 87, 119, 88, 120, 89, 121, 90, 122, 50, 50, 51, 51, 52, 52, 53, 53, 54, 54, 55, 55, 61, 61]

/-- `s_base64_table`, /repo/asteria/src/library/string.cpp:259
("ABC...xyz0123456789+/==", without the terminating null). -/
def base64Table : List UInt8 :=
  [65, 66, 67, 68, 69, 70, 71, 72, 73, 74, 75, 76, 77, 78, 79, 80, 81, 82, 83, 84, 85, 86, 87, 88, 89, 90, 97, 98, 99, 100, 101, 102, 103, 104, 105, 106, 107, 108, 109, 110, 111, 112, 113, 114, 115, 116, 117, 118, 119, 120, 121, 122, 48, 49, 50, 51, 52, 53, 54, 55, 56, 57, 43, 47, 61, 61]

/-- `s_spaces`, /repo/asteria/src/library/string.cpp:260 (" \f\n\r\t\v"). -/
def spaces : List UInt8 := [32, 12, 10, 13, 9, 11]

/-- `do_xstrchr`, /repo/asteria/src/library/string.cpp:262-272: offset of the first occurrence of
`c`, `none` for the null pointer.  The tables hold no null byte, so `c == 0` is never found. -/
def xstrchr : List UInt8 → UInt8 → Option Nat
  | [], _ => none
  | x :: xs, c => if x = c then some 0 else (xstrchr xs c).map (· + 1)

/-- Table access `s_xxx_table[b]` (string.cpp:1139, 1212, 1232, 1333, 1353).  An index beyond the
table would be an out-of-bounds read: the result is `none`. -/
def tableAt (t : List UInt8) (b : Nat) : Option UInt8 := t[b]?

/-- `reg <<= k` on a `w`-bit unsigned register (string.cpp:1133, 1138, 1166, 1203, ...). -/
def shl (w reg k : Nat) : Nat := (reg <<< k) % 2 ^ w

/-- Conversion of a possibly out-of-bounds table read (string.cpp:1139, 1212, 1333, 1450) to an
outcome. -/
def need (o : Option α) : Res α :=
  match o with
  | some a => .ok a
  | none => .ub

/-! ## hex -/

/-- The `for(i < 2)` loop body repeated `n` times: string.cpp:1136-1140. -/
def hexEmit : Nat → Nat → Res Bytes
  | 0, _ => .ok []
  | n + 1, reg => do
    let b := (reg >>> 27) &&& 0xFE
    let c ← need (tableAt base16Table b)
    let rest ← hexEmit n (shl 32 reg 4)
    pure (c :: rest)

/-- Main loop of `std_string_hex_encode`, string.cpp:1126-1141.  `first` is `text.empty()`. -/
def hexEncodeLoop (delim : Bytes) : Bool → Bytes → Res Bytes
  | _, [] => .ok []
  | first, x :: xs => do
    let reg := shl 32 (x.toNat &&& 0xFF) 24
    let e ← hexEmit 2 reg
    let rest ← hexEncodeLoop delim false xs
    pure ((if first then [] else delim) ++ e ++ rest)

/-- `std_string_hex_encode`, string.cpp:1112-1143.  `delim = none` is an absent argument. -/
def hexEncode (data : Bytes) (delim : Option Bytes) : Res Bytes :=
  hexEncodeLoop (delim.getD []) true data

/-- Main loop of `std_string_hex_decode`, string.cpp:1155-1181, with the final check 1182-1183. -/
def hexDecodeLoop : Nat → Bytes → Res Bytes
  | reg, [] => if reg ≠ 1 then .throw else .ok []
  | reg, c :: cs =>
    if (xstrchr spaces c).isSome then
      if reg ≠ 1 then .throw else hexDecodeLoop reg cs
    else
      match xstrchr base16Table c with
      | none => .throw
      | some pos =>
        let reg := shl 32 reg 4 ||| (pos / 2)
        if reg &&& 0x100 = 0 then hexDecodeLoop reg cs
        else do
          let rest ← hexDecodeLoop 1 cs
          pure (UInt8.ofNat reg :: rest)

/-- `std_string_hex_decode`, string.cpp:1145-1186. -/
def hexDecode (text : Bytes) : Res Bytes := hexDecodeLoop 1 text

/-! ## base32 -/

/-- Reads the bytes of a group into the register: string.cpp:1201-1205, 1221-1225 (base32), 1322-1326, 1342-1346 (base64). -/
def readBytes (w : Nat) : Nat → Bytes → Nat
  | reg, [] => reg
  | reg, x :: xs => readBytes w (shl w reg 8 ||| (x.toNat &&& 0xFF)) xs

/-- Emits `n` base32 digits: string.cpp:1209-1213 and 1229-1233. -/
def b32Emit : Nat → Nat → Res Bytes
  | 0, _ => .ok []
  | n + 1, reg => do
    let b := (reg >>> 58) &&& 0xFE
    let c ← need (tableAt base32Table b)
    let rest ← b32Emit n (shl 64 reg 5)
    pure (c :: rest)

/-- Main loop of `std_string_base32_encode`, string.cpp:1199-1238.  The register starts at zero
and is carried over from group to group as in the code: after a group has been emitted only
zero bits remain. -/
def b32EncodeLoop : Nat → Bytes → Res Bytes
  | reg, x0 :: x1 :: x2 :: x3 :: x4 :: xs => do
    let reg := shl 64 (readBytes 64 reg [x0, x1, x2, x3, x4]) 24
    let e ← b32Emit 8 reg
    -- the register after eight `reg <<= 5`
    let rest ← b32EncodeLoop (Nat.repeat (fun r => shl 64 r 5) 8 reg) xs
    pure (e ++ rest)
  | _, [] => .ok []
  | reg, xs => do
    let m := xs.length
    let p := (m * 8 + 4) / 5
    let reg := shl 64 (readBytes 64 reg xs) (64 - m * 8)
    let e ← b32Emit p reg
    let pad ← need (tableAt base32Table 64)
    pure (e ++ List.replicate (8 - p) pad)

/-- `std_string_base32_encode`, string.cpp:1188-1240. -/
def b32Encode (data : Bytes) : Res Bytes := b32EncodeLoop 0 data

/-- Output loop of a complete group: string.cpp:1296-1299 (base32, `w = 64`, `s = 40`) and
1418-1421 (base64, `w = 32`, `s = 24`). -/
def emitBytes (w s : Nat) : Nat → Nat → Bytes
  | 0, _ => []
  | n + 1, reg => let reg := shl w reg 8; UInt8.ofNat (reg >>> s) :: emitBytes w s n reg

/-- Main loop of `std_string_base32_decode`, string.cpp:1253-1304. -/
def b32DecodeLoop : Nat → Nat → Bytes → Res Bytes
  | reg, _, [] => if reg ≠ 1 then .throw else .ok []
  | reg, npad, c :: cs =>
    if (xstrchr spaces c).isSome then
      if reg ≠ 1 then .throw else b32DecodeLoop reg npad cs
    else
      let reg := shl 64 reg 5
      let st : Res (Nat × Nat) :=
        if some c = tableAt base32Table 64 then
          if reg < 0x100 then .throw else .ok (reg, npad + 1)
        else
          match xstrchr base32Table c with
          | none => .throw
          | some pos => if npad ≠ 0 then .throw else .ok (reg ||| (pos / 2), npad)
      match st with
      | .throw => .throw
      | .ub => .ub
      | .ok (reg, npad) =>
        if reg &&& 0x10000000000 = 0 then b32DecodeLoop reg npad cs
        else
          let m := (40 - npad * 5) / 8
          let p := (m * 8 + 4) / 5
          if p + npad ≠ 8 then .throw
          else do
            let rest ← b32DecodeLoop 1 0 cs
            pure (emitBytes 64 40 m reg ++ rest)

/-- `std_string_base32_decode`, string.cpp:1242-1307. -/
def b32Decode (text : Bytes) : Res Bytes := b32DecodeLoop 1 0 text

/-! ## base64 -/

/-- Emits `n` base64 digits: string.cpp:1330-1334 and 1350-1354. -/
def b64Emit : Nat → Nat → Res Bytes
  | 0, _ => .ok []
  | n + 1, reg => do
    let b := (reg >>> 26) &&& 0xFF
    let c ← need (tableAt base64Table b)
    let rest ← b64Emit n (shl 32 reg 6)
    pure (c :: rest)

/-- Main loop of `std_string_base64_encode`, string.cpp:1320-1359. -/
def b64EncodeLoop : Nat → Bytes → Res Bytes
  | reg, x0 :: x1 :: x2 :: xs => do
    let reg := shl 32 (readBytes 32 reg [x0, x1, x2]) 8
    let e ← b64Emit 4 reg
    -- the register after four `reg <<= 6`
    let rest ← b64EncodeLoop (Nat.repeat (fun r => shl 32 r 6) 4 reg) xs
    pure (e ++ rest)
  | _, [] => .ok []
  | reg, xs => do
    let m := xs.length
    let p := (m * 8 + 5) / 6
    let reg := shl 32 (readBytes 32 reg xs) (32 - m * 8)
    let e ← b64Emit p reg
    let pad ← need (tableAt base64Table 64)
    pure (e ++ List.replicate (4 - p) pad)

/-- `std_string_base64_encode`, string.cpp:1309-1361. -/
def b64Encode (data : Bytes) : Res Bytes := b64EncodeLoop 0 data

/-- Main loop of `std_string_base64_decode`, string.cpp:1374-1426. -/
def b64DecodeLoop : Nat → Nat → Bytes → Res Bytes
  | reg, _, [] => if reg ≠ 1 then .throw else .ok []
  | reg, npad, c :: cs =>
    if (xstrchr spaces c).isSome then
      if reg ≠ 1 then .throw else b64DecodeLoop reg npad cs
    else
      let reg := shl 32 reg 6
      let st : Res (Nat × Nat) :=
        if some c = tableAt base64Table 64 then
          if reg < 0x100 then .throw else .ok (reg, npad + 1)
        else
          match xstrchr base64Table c with
          | none => .throw
          | some pos => if npad ≠ 0 then .throw else .ok (reg ||| pos, npad)
      match st with
      | .throw => .throw
      | .ub => .ub
      | .ok (reg, npad) =>
        if reg &&& 0x1000000 = 0 then b64DecodeLoop reg npad cs
        else
          let m := (24 - npad * 6) / 8
          let p := (m * 8 + 5) / 6
          if p + npad ≠ 4 then .throw
          else do
            let rest ← b64DecodeLoop 1 0 cs
            pure (emitBytes 32 24 m reg ++ rest)

/-- `std_string_base64_decode`, string.cpp:1363-1429. -/
def b64Decode (text : Bytes) : Res Bytes := b64DecodeLoop 1 0 text

/-! ## URL -/

/-- Characters `url_encode` leaves alone: string.cpp:1441-1445. -/
def urlPlain (c : UInt8) : Bool :=
  (48 ≤ c && c ≤ 57) || (65 ≤ c && c ≤ 90) || (97 ≤ c && c ≤ 122) ||
  c == 45 || c == 95 || c == 126 || c == 46

/-- Characters `url_query_encode` leaves alone: string.cpp:1511-1515. -/
def urlQueryPlain (c : UInt8) : Bool :=
  (48 ≤ c && c ≤ 57) || (65 ≤ c && c ≤ 90) || (97 ≤ c && c ≤ 122) ||
  c == 45 || c == 95 || c == 46

/-- The escape sequence written for `c`: string.cpp:1448-1450 and 1524-1526.  `c & 0xF0` is
computed on the promoted (possibly negative) `char`; the mask makes the result non-negative. -/
def urlEscape (c : UInt8) : Res Bytes := do
  let hi ← need (tableAt base16Table ((c.toNat &&& 0xF0) >>> 3))
  let lo ← need (tableAt base16Table ((c.toNat &&& 0x0F) <<< 1))
  pure [37, hi, lo]

/-- `std_string_url_encode`, string.cpp:1431-1455.  Simplified: the code edits the string in
place at the cursor; the model produces the output of the part behind the cursor. -/
def urlEncode : Bytes → Res Bytes
  | [] => .ok []
  | c :: cs =>
    if urlPlain c then do
      let rest ← urlEncode cs
      pure (c :: rest)
    else do
      let e ← urlEscape c
      let rest ← urlEncode cs
      pure (e ++ rest)

/-- Characters rejected by the URL decoders: string.cpp:1467 and 1543 (`char` is signed, so
`c >= 0` means the byte is below 128). -/
def urlBad (c : UInt8) : Bool := c ≤ 32 || c == 127 || c == 255

/-- `std_string_url_decode`, string.cpp:1457-1499 (in-place edits as in `urlEncode`). -/
def urlDecode : Bytes → Res Bytes
  | [] => .ok []
  | c :: cs =>
    if urlBad c then .throw
    else if c ≠ 37 then do
      let rest ← urlDecode cs
      pure (c :: rest)
    else
      match cs with
      | h :: l :: cs' =>
        match xstrchr base16Table h with
        | none => .throw
        | some ph =>
          match xstrchr base16Table l with
          | none => .throw
          | some pl => do
            let rest ← urlDecode cs'
            pure (UInt8.ofNat (ph / 2 * 16 + pl / 2) :: rest)
      | _ => .throw

/-- `std_string_url_query_encode`, string.cpp:1501-1531. -/
def urlQueryEncode : Bytes → Res Bytes
  | [] => .ok []
  | c :: cs =>
    if urlQueryPlain c then do
      let rest ← urlQueryEncode cs
      pure (c :: rest)
    else if c = 32 then do
      let rest ← urlQueryEncode cs
      pure (43 :: rest)
    else do
      let e ← urlEscape c
      let rest ← urlQueryEncode cs
      pure (e ++ rest)

/-- `std_string_url_query_decode`, string.cpp:1533-1582. -/
def urlQueryDecode : Bytes → Res Bytes
  | [] => .ok []
  | c :: cs =>
    if urlBad c then .throw
    else if c = 43 then do
      let rest ← urlQueryDecode cs
      pure (32 :: rest)
    else if c ≠ 37 then do
      let rest ← urlQueryDecode cs
      pure (c :: rest)
    else
      match cs with
      | h :: l :: cs' =>
        match xstrchr base16Table h with
        | none => .throw
        | some ph =>
          match xstrchr base16Table l with
          | none => .throw
          | some pl => do
            let rest ← urlQueryDecode cs'
            pure (UInt8.ofNat (ph / 2 * 16 + pl / 2) :: rest)
      | _ => .throw

end Asteria.Codec
