import Verif.Model.Uchar

/-!
# UTF-8, UTF-16 and UTF-32, and what the C library does in a UTF-8 locale
-/

namespace Asteria.Uchar

/-- The characters: code points that are not surrogates. -/
def Scalar (c : Nat) : Prop := c < 0xD800 ∨ 0xE000 ≤ c ∧ c < 0x110000

instance (c : Nat) : Decidable (Scalar c) := inferInstanceAs (Decidable (_ ∨ _))

/-- UTF-8, RFC 3629, section 3. -/
def utf8 (c : Nat) : Bytes :=
  if c < 0x80 then [UInt8.ofNat c]
  else if c < 0x800 then [UInt8.ofNat (0xC0 + c / 0x40), UInt8.ofNat (0x80 + c % 0x40)]
  else if c < 0x10000 then
    [UInt8.ofNat (0xE0 + c / 0x1000), UInt8.ofNat (0x80 + c / 0x40 % 0x40), UInt8.ofNat (0x80 + c % 0x40)]
  else
    [UInt8.ofNat (0xF0 + c / 0x40000), UInt8.ofNat (0x80 + c / 0x1000 % 0x40), UInt8.ofNat (0x80 + c / 0x40 % 0x40),
      UInt8.ofNat (0x80 + c % 0x40)]

/-- The leading surrogate of a character outside of the basic plane, RFC 2781, section 2.1. -/
def leading (c : Nat) : Nat := 0xD800 + (c - 0x10000) / 0x400

/-- The trailing surrogate. -/
def trailing (c : Nat) : Nat := 0xDC00 + (c - 0x10000) % 0x400

/-- UTF-16. -/
def utf16 (c : Nat) : List Nat := if c < 0x10000 then [c] else [leading c, trailing c]

/-- What the C library does with multibyte characters in a UTF-8 locale: it knows characters and beginnings of characters.
(Nothing is said about other bytes.) -/
structure Reads8 (L : Lib) : Prop where
  whole : ∀ c, Scalar c → L (utf8 c) = .char c
  part : ∀ c, Scalar c → ∀ a b, utf8 c = a ++ b → a ≠ [] → b ≠ [] → L a = .more

/-- What it does with wide characters. -/
def Writes8 (E : Enc) : Prop := ∀ c, E c = if Scalar c then some (utf8 c) else none

/-- Calling `xfgetc` until the end of the file, at most `k` times. -/
def getcs (f : Mbr) : Nat → MbSt → Bytes → List Nat
  | 0, _, _ => []
  | k + 1, st, file =>
    match getc f st file with
    | (none, _) => []
    | (some u, st, file) => u :: getcs f k st file

end Asteria.Uchar
