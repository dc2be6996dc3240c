import Verif.Model.Basic

/-!
# Compression and decompression

/repo/asteria/src/library/zlib.cpp: the loops around `::deflate()` and `::inflate()`, and the functions made of them.  The library zlib itself is a
parameter; what its manual says about it is in `Verif.Spec.Zlib`.  Simplified: `deflateInit2()`, `inflateInit2()` and the `Copy` functions do not
fail, and memory does not run out.
-/

namespace Asteria.Zlib

/-- The third argument of `deflate()` and `inflate()`: `Z_NO_FLUSH`, `Z_SYNC_FLUSH` or `Z_FINISH`, zlib.cpp:117, 130, 145, 346, 361, 376. -/
inductive Flush where
  | no
  | sync
  | finish
deriving DecidableEq

/-- What they return: `Z_OK`, `Z_STREAM_END`, `Z_BUF_ERROR`, or another code, zlib.cpp:118, 131, 146, 347, 362, 377. -/
inductive Code where
  | ok
  | streamEnd
  | bufError
  | other
deriving DecidableEq

/-- The outcome of a call of `deflate()` or `inflate()`: the new state of the stream, by how much `next_in` has advanced, what has been stored from
`next_out` on, and the code that is returned. -/
structure Answer (σ : Type) where
  next : σ
  consumed : Nat
  produced : Bytes
  code : Code

/-- A library as zlib: the state after initialization or reset (zlib.cpp:39, 101, 268, 330), and what a call does given the bytes at
`next_in`, the value of `avail_out` and the flush argument.  Not in /repo. -/
structure Lib (σ : Type) where
  init : σ
  call : σ → Bytes → Nat → Flush → Answer σ

/-- A `Deflator` or an `Inflator` together with the string that receives its output: the opaque member and the member `output` of the object, zlib.cpp:157-159,
388-390. -/
structure Obj (σ : Type) where
  strm : σ
  output : Bytes

/-- The `INT_MAX` of zlib.cpp:112 and 341. -/
def intMax : Nat := 2147483647

/-- `do_output_deflate`, `do_output_inflate`, zlib.cpp:60-72, 289-301: 4096 asterisks are appended to the output, the library overwrites some of them, and
those that it has not overwritten are removed.  The outcome is the new object, how much input was consumed, and the code. -/
def doOutput (L : Lib σ) (o : Obj σ) (inp : Bytes) (flush : Flush) : Obj σ × Nat × Code :=
  let sizeAdd := 4096
  let out := o.output ++ List.replicate sizeAdd 0x2A
  let a := L.call o.strm inp sizeAdd flush
  let out := o.output ++ a.produced ++ out.drop (o.output.length + a.produced.length)
  let out := out.take (o.output.length + a.produced.length)
  (⟨a.next, out⟩, a.consumed, a.code)

/-- `Deflator::update`, zlib.cpp:104-121.  The first argument bounds the number of iterations; `none` is that they were not enough.  The outcome tells
whether the function returns or throws, and the object. -/
def deflUpdate (L : Lib σ) : Nat → Obj σ → Bytes → Option (Res Unit × Obj σ)
  | 0, _, _ => none
  | n + 1, o, rest =>
    let inp := rest.take intMax
    if inp.length = 0 then
      some (.ok (), o)
    else
      let (o, consumed, err) := doOutput L o inp .no
      if err ≠ .ok then
        some (.throw, o)
      else
        deflUpdate L n o (rest.drop consumed)

/-- `Deflator::flush`, zlib.cpp:123-136. -/
def deflFlush (L : Lib σ) : Nat → Obj σ → Option (Res Unit × Obj σ)
  | 0, _ => none
  | n + 1, o =>
    let (o, _, err) := doOutput L o [] .sync
    if err = .bufError then
      some (.ok (), o)
    else if err ≠ .ok then
      some (.throw, o)
    else
      deflFlush L n o

/-- `Deflator::finish`, zlib.cpp:138-151. -/
def deflFinish (L : Lib σ) : Nat → Obj σ → Option (Res Unit × Obj σ)
  | 0, _ => none
  | n + 1, o =>
    let (o, _, err) := doOutput L o [] .finish
    if err = .streamEnd then
      some (.ok (), o)
    else if err ≠ .ok then
      some (.throw, o)
    else
      deflFinish L n o

/-- `Inflator::update`, zlib.cpp:333-352. -/
def inflUpdate (L : Lib σ) : Nat → Obj σ → Bytes → Option (Res Unit × Obj σ)
  | 0, _, _ => none
  | n + 1, o, rest =>
    let inp := rest.take intMax
    if inp.length = 0 then
      some (.ok (), o)
    else
      let (o, consumed, err) := doOutput L o inp .no
      if err = .streamEnd then
        some (.ok (), o)
      else if err ≠ .ok then
        some (.throw, o)
      else
        inflUpdate L n o (rest.drop consumed)

/-- `Inflator::flush`, zlib.cpp:354-367. -/
def inflFlush (L : Lib σ) : Nat → Obj σ → Option (Res Unit × Obj σ)
  | 0, _ => none
  | n + 1, o =>
    let (o, _, err) := doOutput L o [] .sync
    if err = .bufError ∨ err = .streamEnd then
      some (.ok (), o)
    else if err ≠ .ok then
      some (.throw, o)
    else
      inflFlush L n o

/-- `Inflator::finish`, zlib.cpp:369-382. -/
def inflFinish (L : Lib σ) : Nat → Obj σ → Option (Res Unit × Obj σ)
  | 0, _ => none
  | n + 1, o =>
    let (o, _, err) := doOutput L o [] .finish
    if err = .streamEnd then
      some (.ok (), o)
    else if err ≠ .ok then
      some (.throw, o)
    else
      inflFinish L n o

/-- `Deflator::clear` and `Inflator::clear` as the member function `clear` calls them, zlib.cpp:97-102, 235-255, 326-331, 466-486, 549-553, 608-612: only the opaque object is passed. -/
def clear (L : Lib σ) (o : Obj σ) : Obj σ := { o with strm := L.init }

/-- A call of a member function of the object that `std.zlib.Deflator` or `std.zlib.Inflator` has returned, zlib.cpp:161-255, 392-486, or an
assignment of the empty string to its `output`. -/
inductive Op where
  | update (data : Bytes)
  | flush
  | finish
  | clear
  | empty
deriving DecidableEq

/-- A call on the object of a `Deflator`, zlib.cpp:161-255, 530-553. -/
def deflOp (L : Lib σ) (n : Nat) (o : Obj σ) : Op → Option (Res Unit × Obj σ)
  | .update data => deflUpdate L n o data
  | .flush => deflFlush L n o
  | .finish => deflFinish L n o
  | .clear => some (.ok (), clear L o)
  | .empty => some (.ok (), { o with output := [] })

/-- A call on the object of an `Inflator`, zlib.cpp:392-486, 589-612. -/
def inflOp (L : Lib σ) (n : Nat) (o : Obj σ) : Op → Option (Res Unit × Obj σ)
  | .update data => inflUpdate L n o data
  | .flush => inflFlush L n o
  | .finish => inflFinish L n o
  | .clear => some (.ok (), clear L o)
  | .empty => some (.ok (), { o with output := [] })

/-- Calls one after another, up to one that throws. -/
def runOps (f : Obj σ → Op → Option (Res Unit × Obj σ)) : Obj σ → List Op → Option (Res Unit × Obj σ)
  | o, [] => some (.ok (), o)
  | o, op :: ops =>
    match f o op with
    | none => none
    | some (.ok (), o) => runOps f o ops
    | some (e, o) => some (e, o)

/-- The string `"gzip"`, zlib.cpp:492, 568, 627. -/
def sGzip : Bytes := [0x67, 0x7A, 0x69, 0x70]

/-- The string `"deflate"`, zlib.cpp:494, 558, 617. -/
def sDeflate : Bytes := [0x64, 0x65, 0x66, 0x6C, 0x61, 0x74, 0x65]

/-- The string `"raw"`, zlib.cpp:496. -/
def sRaw : Bytes := [0x72, 0x61, 0x77]

/-- `do_wbits`, zlib.cpp:489-500. -/
def doWbits (format : Bytes) : Res Int :=
  if format = sGzip then .ok 31
  else if format = sDeflate then .ok 15
  else if format = sRaw then .ok (-15)
  else .throw

/-- `do_level`, zlib.cpp:502-512; `Z_DEFAULT_COMPRESSION` is −1, `Z_NO_COMPRESSION` is 0 and `Z_BEST_COMPRESSION` is 9. -/
def doLevel (level : Option Int) : Res Int :=
  match level with
  | none => .ok (-1)
  | some l => if l < 0 then .throw else .ok (if l < 0 then 0 else if 9 < l then 9 else l)

/-- What follows from how the last call ended: the string, or the exception. -/
def answer : Option (Res Unit × Obj σ) → Option (Res Bytes)
  | none => none
  | some (.ok (), o) => some (.ok o.output)
  | some (.throw, _) => some .throw
  | some (.ub, _) => some .ub

/-- `std_zlib_Deflator`, zlib.cpp:516-528; `D wbits level` is what `deflateInit2()` sets up. -/
def stdDeflator (D : Int → Int → Lib σ) (format : Bytes) (level : Option Int) : Res (Lib σ × Obj σ) :=
  (doWbits format).bind fun w => (doLevel level).bind fun l => .ok (D w l, ⟨(D w l).init, []⟩)

/-- `std_zlib_Inflator`, zlib.cpp:575-587; `I wbits` is what `inflateInit2()` sets up. -/
def stdInflator (I : Int → Lib σ) (format : Bytes) : Res (Lib σ × Obj σ) :=
  (doWbits format).bind fun w => .ok (I w, ⟨(I w).init, []⟩)

/-- `std_zlib_deflate` and `std_zlib_gzip`, zlib.cpp:555-573, which differ in the format. -/
def stdDeflate (D : Int → Int → Lib σ) (n : Nat) (format : Bytes) (data : Bytes) (level : Option Int) : Option (Res Bytes) :=
  match stdDeflator D format level with
  | .throw => some .throw
  | .ub => some .ub
  | .ok (L, o) => answer (runOps (deflOp L n) o [.update data, .finish])

/-- `std_zlib_inflate` and `std_zlib_gunzip`, zlib.cpp:614-632, which differ in the format. -/
def stdInflate (I : Int → Lib σ) (n : Nat) (format : Bytes) (data : Bytes) : Option (Res Bytes) :=
  match stdInflator I format with
  | .throw => some .throw
  | .ub => some .ub
  | .ok (L, o) => answer (runOps (inflOp L n) o [.update data, .finish])

end Asteria.Zlib
