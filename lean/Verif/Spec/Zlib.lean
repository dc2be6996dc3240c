import Verif.Model.Zlib

/-!
# What zlib promises

What /usr/include/zlib.h says of `deflate()` and `inflate()`, as far as zlib.cpp depends on it.
-/

namespace Asteria.Zlib

/-- A format of compressed data: which byte strings are complete streams, and what a byte string that begins a stream stands for. -/
structure Format where
  ends : Bytes → Prop
  shown : Bytes → Bytes
  /-- A complete stream does not begin another one. -/
  prefixFree : ∀ z z', ends z → ends z' → z <+: z' → z = z'

/-- `d` compressed is `z`. -/
def Format.Stream (F : Format) (z d : Bytes) : Prop := F.ends z ∧ F.shown z = d

/-- What both functions do: `took` and `gave` are all of the input and the output since the stream was reset, which zlib counts in `total_in` and `total_out`. -/
structure Counts (L : Lib σ) (took gave : σ → Bytes) : Prop where
  took_init : took L.init = []
  gave_init : gave L.init = []
  consumed_le : ∀ s inp n f, (L.call s inp n f).consumed ≤ inp.length
  produced_le : ∀ s inp n f, (L.call s inp n f).produced.length ≤ n
  took_call : ∀ s inp n f, took (L.call s inp n f).next = took s ++ inp.take (L.call s inp n f).consumed
  gave_call : ∀ s inp n f, gave (L.call s inp n f).next = gave s ++ (L.call s inp n f).produced

/-- `deflate()` for the format `F`, zlib.h:250-362.  `closed` is that `Z_FINISH` has been passed; `todo` is how often it can be called to no effect but more
output. -/
structure Deflates (F : Format) (L : Lib σ) (took gave : σ → Bytes) (closed done : σ → Prop) (todo : σ → Flush → Nat) : Prop where
  counts : Counts L took gave
  open_init : ¬ closed L.init
  /-- "returns Z_OK if some progress has been made" -/
  no_ok : ∀ s inp n, ¬ closed s → inp ≠ [] → 0 < n → (L.call s inp n .no).code = .ok ∧ ¬ closed (L.call s inp n .no).next ∧
    ((L.call s inp n .no).consumed = 0 → todo (L.call s inp n .no).next .no < todo s .no)
  /-- "Z_BUF_ERROR if no progress is possible" -/
  sync_ok : ∀ s n, ¬ closed s → 0 < n → ¬ closed (L.call s [] n .sync).next ∧
    ((L.call s [] n .sync).code = .ok ∧ todo (L.call s [] n .sync).next .sync < todo s .sync ∨ (L.call s [] n .sync).code = .bufError)
  /-- "so that the decompressor can get all input data available so far" -/
  sync_all : ∀ s n, ¬ closed s → 0 < n → (L.call s [] n .sync).code = .bufError →
    F.shown (gave (L.call s [] n .sync).next) = took (L.call s [] n .sync).next
  /-- "If deflate returns with Z_OK […], this function must be called again with Z_FINISH and more output space" -/
  finish_ok : ∀ s n, 0 < n →
    ((L.call s [] n .finish).code = .ok ∧ todo (L.call s [] n .finish).next .finish < todo s .finish ∨ (L.call s [] n .finish).code = .streamEnd)
  /-- "Z_STREAM_END if all input has been consumed and all output has been produced" -/
  finish_end : ∀ s n, 0 < n → (L.call s [] n .finish).code = .streamEnd → done (L.call s [] n .finish).next
  done_stream : ∀ s, done s → closed s ∧ F.Stream (gave s) (took s)
  /-- "After deflate has returned Z_STREAM_END, the only possible operations on the stream are deflateReset or deflateEnd."  This is what deflate.c
  does with others. -/
  done_finish : ∀ s n, done s → 0 < n → (L.call s [] n .finish).code = .streamEnd ∧ (L.call s [] n .finish).produced = []
  done_other : ∀ s inp n f, done s → f ≠ .finish → (L.call s inp n f).code = .other ∨ (inp ≠ [] ∧ (L.call s inp n f).code = .bufError)

/-- `inflate()` for the format `F`, zlib.h:401-520.  `done` is that `Z_STREAM_END` has been returned; `todo` is how often it can be called to no effect but
more output. -/
structure Inflates (F : Format) (L : Lib σ) (took gave : σ → Bytes) (done : σ → Prop) (todo : σ → Nat) : Prop where
  counts : Counts L took gave
  /-- "Z_OK if some progress has been made" -/
  progress : ∀ s inp n f, 0 < n → (L.call s inp n f).code = .ok → (L.call s inp n f).consumed = 0 → todo (L.call s inp n f).next < todo s
  /-- "Z_STREAM_END if the end of the compressed data has been reached and all uncompressed output has been produced" -/
  stream_end : ∀ s inp n f, 0 < n → (L.call s inp n f).code = .streamEnd → done (L.call s inp n f).next
  done_stream : ∀ s, done s → F.Stream (took s) (gave s)
  done_stays : ∀ s inp n f, done s → (L.call s inp n f).code = .streamEnd ∧ (L.call s inp n f).consumed = 0 ∧ (L.call s inp n f).produced = []
  /-- There is no error as long as the input goes on as a stream; and it is not read past its end. -/
  no_ok : ∀ s inp n z, 0 < n → inp ≠ [] → F.ends z → took s <+: z → (took s ++ inp <+: z ∨ z <+: took s ++ inp) →
    ((L.call s inp n .no).code = .ok ∨ (L.call s inp n .no).code = .streamEnd) ∧ took (L.call s inp n .no).next <+: z
  sync_ok : ∀ s n z, 0 < n → F.ends z → took s <+: z → (L.call s [] n .sync).code ≠ .other
  /-- "Z_SYNC_FLUSH requests that inflate() flush as much output as possible to the output buffer." -/
  sync_all : ∀ s n z, 0 < n → F.ends z → took s <+: z → (L.call s [] n .sync).code = .bufError →
    gave (L.call s [] n .sync).next = F.shown (took (L.call s [] n .sync).next)
  /-- "Z_BUF_ERROR […] if there was not enough room in the output buffer when Z_FINISH is used" -/
  finish_ok : ∀ s n, 0 < n → F.ends (took s) →
    (L.call s [] n .finish).code = if (F.shown (took s)).length ≤ (gave s).length + n then .streamEnd else .bufError
  finish_less : ∀ s n, 0 < n → (L.call s [] n .finish).code ≠ .ok

/-- This is **not** in zlib.h: when `inflate()` has read the last byte of a stream, it has at most as much more to output as zlib.cpp makes room for.  inflate.c, when it is short of
room for output, holds back less than eight bits of input, which give no more than some matches of 258 bytes. -/
def Prompt (F : Format) (took gave : σ → Bytes) : Prop := ∀ s, F.ends (took s) → (F.shown (took s)).length ≤ (gave s).length + 4096

/-- A loop ends with `r`: when it may iterate often enough, that is the outcome. -/
def Ends (f : Nat → Option α) (r : α) : Prop := ∃ n, ∀ m, n ≤ m → f m = some r

/-- All that `update` is called with. -/
def fed : List Op → Bytes
  | [] => []
  | .update data :: ops => data ++ fed ops
  | _ :: ops => fed ops

/-- Only `update` and `flush` are called. -/
def Feeds (ops : List Op) : Prop := ∀ op ∈ ops, op = .flush ∨ ∃ data, op = .update data

end Asteria.Zlib
