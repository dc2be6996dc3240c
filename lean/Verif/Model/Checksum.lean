import Verif.Model.Basic

/-!
# Model of the checksum library

/repo/asteria/src/library/checksum.cpp.  The checksums of zlib are modelled byte by byte.  Those of OpenSSL are parameters:
a state, how it begins, how it takes in bytes, and the digest that it ends with.  An object of a script that holds a hasher is
modelled as the hasher in it; that the hasher is cloned when it is shared is not modelled.
-/

namespace Asteria.Checksum

/-- A hasher class, for example checksum.cpp:22-81: the register and its member functions. -/
structure Hasher where
  Reg : Type
  Out : Type
  /-- `clear`, for example checksum.cpp:59-64. -/
  init : Reg
  /-- `update`, for example checksum.cpp:66-71. -/
  update : Reg → Bytes → Reg
  /-- The value that `finish` returns, for example checksum.cpp:73-80. -/
  out : Reg → Out

/-- `finish`, checksum.cpp:73-80, 210-217, 350-357 and so on: the register is cleared. -/
def Hasher.finish (h : Hasher) (r : h.Reg) : h.Out × h.Reg := (h.out r, h.init)

/-- `do_hash_bytes`, checksum.cpp:1274-1281. -/
def Hasher.bytes (h : Hasher) (data : Bytes) : h.Out := (h.finish (h.update h.init data)).1

/-- What `::read` returns, checksum.cpp:1310: some bytes, the end of the file, or an error. -/
inductive Event where
  | data (b : UInt8) (rest : Bytes)
  | eof
  | error

/-- The loop of `do_hash_file`, checksum.cpp:1309-1322.  The list is what `::read` returns; a list that ends before the end of
the file stands for an error. -/
def Hasher.readLoop (h : Hasher) : h.Reg → List Event → Res h.Reg
  | r, .data b s :: es => h.readLoop (h.update r (b :: s)) es
  | r, .eof :: _ => .ok r
  | _, .error :: _ => .throw
  | _, [] => .throw

/-- `do_hash_file`, checksum.cpp:1283-1324; opening the file is not modelled. -/
def Hasher.file (h : Hasher) (es : List Event) : Res h.Out := (h.readLoop h.init es).map fun r => (h.finish r).1

/-! ### FNV-1a -/

/-- `FNV1a32_Hasher::update`, checksum.cpp:340-348. -/
def fnvUpdate : UInt32 → Bytes → UInt32
  | r, [] => r
  | r, b :: s => fnvUpdate ((r ^^^ b.toUInt32) * 16777619) s

/-- `FNV1a32_Hasher`, checksum.cpp:296-358. -/
def fnv : Hasher where
  Reg := UInt32
  Out := Int
  init := 2166136261
  update := fnvUpdate
  out r := r.toNat

/-! ### CRC-32 -/

/-- A bit of the CRC-32 of zlib.  Not in /repo; part of the model of `::crc32_z`, called at checksum.cpp:70. -/
def crcBit (c : UInt32) : UInt32 := if c &&& 1 = 1 then (c >>> 1) ^^^ 0xEDB88320 else c >>> 1

/-- A byte of the CRC-32 of zlib.  Not in /repo; part of the model of `::crc32_z`, called at checksum.cpp:70. -/
def crcByte (c : UInt32) (b : UInt8) : UInt32 :=
  crcBit (crcBit (crcBit (crcBit (crcBit (crcBit (crcBit (crcBit (c ^^^ b.toUInt32))))))))

/-- `::crc32_z`, called at checksum.cpp:70. -/
def crcUpdate (r : UInt32) (s : Bytes) : UInt32 := ~~~ (s.foldl crcByte (~~~ r))

/-- `CRC32_Hasher`, checksum.cpp:22-81. -/
def crc : Hasher where
  Reg := UInt32
  Out := Int
  init := 0
  update := crcUpdate
  out r := r.toNat

/-! ### Adler-32 -/

/-- `::adler32_z`, called at checksum.cpp:207.  Not in /repo: two sums modulo 65521. -/
def adlerUpdate (r : Nat) (s : Bytes) : Nat :=
  let p := s.foldl (fun p b => let a := (p.1 + b.toNat) % 65521; (a, (p.2 + a) % 65521)) (r % 65536, r / 65536)
  p.2 * 65536 + p.1

/-- `Adler32_Hasher`, checksum.cpp:159-218. -/
def adler : Hasher where
  Reg := Nat
  Out := Int
  init := 1
  update := adlerUpdate
  out r := ((r % 2 ^ 32 : Nat) : Int)

/-! ### Digests of OpenSSL -/

/-- A digit of `do_copy_SHA_result`, checksum.cpp:443-447; arithmetic is on 32-bit integers. -/
def hexDigit (ch : UInt32) : UInt8 := ((48 : UInt32) + ch + ((9 - ch) >>> 29)).toUInt8

/-- `do_copy_SHA_result`, checksum.cpp:436-450. -/
def hexText : Bytes → Bytes
  | [] => []
  | b :: s => hexDigit ((b.toUInt32 >>> 4) &&& 0x0F) :: hexDigit (b.toUInt32 &&& 0x0F) :: hexText s

/-- `MD5_Hasher`, checksum.cpp:452-512, and the classes for SHA-1, SHA-224, SHA-256, SHA-384 and SHA-512: `init`, `update` and
`final` are functions of OpenSSL. -/
def openssl {Ctx : Type} (init : Ctx) (update : Ctx → Bytes → Ctx) (final : Ctx → Bytes) : Hasher where
  Reg := Ctx
  Out := Bytes
  init := init
  update := update
  out r := hexText (final r)

end Asteria.Checksum
