import Verif.Model.Basic

/-!
# Wide characters and files: `xfgetn`, `xfputn` and `putmbn`
-/

namespace Asteria.Uchar

/-- What the C library finds if it looks at some bytes from the beginning of a character: a character, the beginning of one, or
neither. -/
inductive Look where
  | char (c : Nat)
  | more
  | bad
deriving DecidableEq

/-- The conversion of multibyte characters in the present locale, which is a parameter; Verif.Spec.Uchar says what it is
for UTF-8. -/
abbrev Lib := Bytes → Look

/-- `mbstate_t` for input: the bytes of a character that is not complete, or a trailing surrogate that has yet to be
delivered. -/
inductive MbSt where
  | seq (bs : Bytes)
  | trail (u : Nat)
deriving DecidableEq

/-- `mbsinit`. -/
def MbSt.initial : MbSt → Bool
  | .seq [] => true
  | _ => false

/-- The result of `mbrtowc` etc.: -3, -2, -1, 0, or a positive number, and what has been stored. -/
inductive Ret where
  | again (u : Nat)
  | more
  | bad
  | nul
  | done (u : Nat)

/-- `mbrtowc` and `mbrtoc32` on one byte (C11 7.29.6.3.2, 7.28.1.3). -/
def mbrtoc32 (L : Lib) : MbSt → UInt8 → Ret × MbSt
  | .seq bs, b =>
    match L (bs ++ [b]) with
    | .char 0 => (.nul, .seq [])
    | .char (c + 1) => (.done (c + 1), .seq [])
    | .more => (.more, .seq (bs ++ [b]))
    | .bad => (.bad, .seq (bs ++ [b]))
  | .trail u, _ => (.again u, .seq [])

/-- `mbrtoc16` on one byte (C11 7.28.1.1): of characters outside of the basic plane, the leading surrogate is stored first; the
trailing one is stored by the next call, which does not look at its input. -/
def mbrtoc16 (L : Lib) : MbSt → UInt8 → Ret × MbSt
  | .seq bs, b =>
    match L (bs ++ [b]) with
    | .char 0 => (.nul, .seq [])
    | .char (c + 1) =>
      if c + 1 < 0x10000 then (.done (c + 1), .seq [])
      else (.done (0xD800 + (c + 1 - 0x10000) / 0x400), .trail (0xDC00 + (c + 1 - 0x10000) % 0x400))
    | .more => (.more, .seq (bs ++ [b]))
    | .bad => (.bad, .seq (bs ++ [b]))
  | .trail u, _ => (.again u, .seq [])

/-- One of these functions. -/
abbrev Mbr := MbSt → UInt8 → Ret × MbSt

/-- The loop of `do_xfgetn_common`, /repo/asteria/src/rocket/xuchar.cpp:33-78: `st` is `mbst`, `file` what is yet to be read, `n` the
number of characters that are wanted.  The result is what has been stored, `mbst` and the rest of the file.

Simplification: reading does not fail. -/
def getLoop (f : Mbr) (st : MbSt) (file : Bytes) (wants : Bool) (n : Nat) : List Nat × MbSt × Bytes :=
  match n with
  | 0 => ([], st, file)
  | n + 1 =>
    match wants, file with
    | true, [] => ([], st, [])
    | true, b :: file =>
      match f st b with
      | (.again u, st) => let r := getLoop f st file st.initial n; (u :: r.1, r.2)
      | (.more, st) => getLoop f st file true (n + 1)
      | (.bad, _) => let r := getLoop f (.seq []) file true n; (b.toNat :: r.1, r.2)
      | (.nul, st) => let r := getLoop f st file true n; (0 :: r.1, r.2)
      | (.done u, st) => let r := getLoop f st file true n; (u :: r.1, r.2)
    | false, file =>
      match f st 0 with
      | (.again u, st) => let r := getLoop f st file st.initial n; (u :: r.1, r.2)
      | (.more, st) => getLoop f st file true (n + 1)
      | (.bad, _) => let r := getLoop f (.seq []) file true n; (0 :: r.1, r.2)
      | (.nul, st) => let r := getLoop f st file true n; (0 :: r.1, r.2)
      | (.done u, st) => let r := getLoop f st file true n; (u :: r.1, r.2)
termination_by (file.length + n) * 2 + (if wants then 0 else 1)
decreasing_by all_goals (simp_all; try split) <;> omega

/-- `do_xfgetn_common`, xuchar.cpp:24-80; `xfgetn` for wide characters is 152-184. -/
def getn (f : Mbr) (st : MbSt) (file : Bytes) (n : Nat) : List Nat × MbSt × Bytes := getLoop f st file st.initial n

/-- `xfgetc` for wide characters, xuchar.cpp:199-232: -1 is `none`. -/
def getc (f : Mbr) (st : MbSt) (file : Bytes) : Option Nat × MbSt × Bytes :=
  let r := getn f st file 1
  (r.1.head?, r.2)

/-- `xfgetn` for bytes, xuchar.cpp:125-150. -/
def getBytes : Bytes → Nat → Bytes × Bytes
  | file, 0 => ([], file)
  | [], _ + 1 => ([], [])
  | b :: file, n + 1 => if b = 10 then ([b], file) else let r := getBytes file n; (b :: r.1, r.2)

/-- The other way round: a character is encoded, or cannot be. -/
abbrev Enc := Nat → Option Bytes

/-- `wcrtomb` and `c32rtomb` (C11 7.29.6.3.3, 7.28.1.4); the state, a leading surrogate, is not used.  -1 is `none`. -/
def c32rtomb (E : Enc) (_ : Option Nat) (u : Nat) : Option Bytes × Option Nat := (E u, none)

/-- `c16rtomb` (C11 7.28.1.2): leading surrogates are stored in the state, and nothing is written. -/
def c16rtomb (E : Enc) (st : Option Nat) (u : Nat) : Option Bytes × Option Nat :=
  match st with
  | none =>
    if 0xD800 ≤ u ∧ u < 0xDC00 then (some [], some u)
    else if 0xDC00 ≤ u ∧ u < 0xE000 then (none, none)
    else (E u, none)
  | some h =>
    if 0xDC00 ≤ u ∧ u < 0xE000 then (E (0x10000 + (h - 0xD800) * 0x400 + (u - 0xDC00)), none)
    else (none, none)

/-- `do_xfputn_common`, xuchar.cpp:82-121: the bytes that are written, `mbst`, and the result.

Simplification: writing does not fail. -/
def putn (g : Option Nat → Nat → Option Bytes × Option Nat) (st : Option Nat) : List Nat → Bytes × Option Nat × Nat
  | [] => ([], st, 0)
  | u :: us =>
    match g st u with
    | (none, _) => let r := putn g none us; (0x3F :: r.1, r.2.1, 1 + r.2.2)
    | (some bs, st) => let r := putn g st us; (bs ++ r.1, r.2.1, bs.length + r.2.2)

/-- `xmbrtowc(&wc, sptr, MB_LEN_MAX, &mbst)`, /repo/asteria/src/rocket/tinyfmt.cpp:30: bytes are looked at until they are a
character, at most `k` of them; the result has the number of bytes that were used.  The string is followed by a zero. -/
def mbrLong (f : Mbr) (st : MbSt) : Bytes → Nat → Ret × MbSt × Nat
  | _, 0 => (.more, st, 0)
  | s, k + 1 =>
    match f st (s.headD 0) with
    | (.more, st) => let r := mbrLong f st s.tail k; (r.1, r.2.1, r.2.2 + 1)
    | (r, st) => (r, st, 1)

/-- A round of the loop of `do_putmbn_common`, tinyfmt.cpp:27-58: `wtemp`, `mbst` and the rest of the string afterwards. -/
def putmbRound (f : Mbr) (st : MbSt) (b : UInt8) (s : Bytes) (wtemp : List Nat) : List Nat × MbSt × Bytes :=
  match mbrLong f st (b :: s) 16 with
  | (.again u, st, _) => (wtemp ++ [u], st, b :: s)
  | (.more, _, _) => (wtemp ++ [b.toNat], .seq [], s)
  | (.bad, _, _) => (wtemp ++ [b.toNat], .seq [], s)
  | (.nul, st, _) => (wtemp ++ [0], st, s)
  | (.done u, st, k) => (wtemp ++ [u], st, (b :: s).drop k)

/-- The loop of `do_putmbn_common`, tinyfmt.cpp:27-67: `wtemp` is passed to `putn` when it is full, and in the end.  The result
is the arguments of the calls of `putn`.  `fuel` bounds the number of rounds; it does not run out (each round but those that
deliver a trailing surrogate goes on in the string). -/
def putmbLoop (f : Mbr) : Nat → MbSt → Bytes → List Nat → List (List Nat)
  | 0, _, _, _ => []
  | fuel + 1, st, s, wtemp =>
    match s with
    | [] => if wtemp.length ≠ 0 then [wtemp] else []
    | b :: s =>
      let r := putmbRound f st b s wtemp
      if r.1.length ≠ 128 then putmbLoop f fuel r.2.1 r.2.2 r.1
      else r.1 :: putmbLoop f fuel r.2.1 r.2.2 []

/-- `do_putmbn_common`, tinyfmt.cpp:14-68, for strings that exist. -/
def putmbn (f : Mbr) (s : Bytes) : List (List Nat) := putmbLoop f (2 * s.length + 1) (.seq []) s []

end Asteria.Uchar
