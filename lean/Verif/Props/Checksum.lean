import Verif.Model.Checksum

/-!
# Properties of the checksum library
-/

namespace Asteria.Checksum

/-! ### Calls of a hasher object -/

/-- What a script does with a hasher. -/
inductive Op where
  | update (data : Bytes)
  | finish
  | clear

/-- A call: the result of `finish`, if any, and the register. -/
def Op.run (h : Hasher) (r : h.Reg) : Op → Option h.Out × h.Reg
  | .update data => (none, h.update r data)
  | .finish => let p := h.finish r; (some p.1, p.2)
  | .clear => (none, h.init)

/-- Calls in sequence: the results of `finish`. -/
def runAll (h : Hasher) : h.Reg → List Op → List h.Out
  | _, [] => []
  | r, op :: ops => let p := op.run h r; p.1.toList ++ runAll h p.2 ops

/-- What calls are meant to do: bytes are collected, and `finish` gives the digest of all of them, and begins anew. -/
def specAll {Out : Type} (digest : Bytes → Out) : Bytes → List Op → List Out
  | _, [] => []
  | buf, .update data :: ops => specAll digest (buf ++ data) ops
  | buf, .finish :: ops => digest buf :: specAll digest [] ops
  | _, .clear :: ops => specAll digest [] ops

/-- Taking in bytes in pieces is taking in all of them. -/
structure Lawful (h : Hasher) (Good : h.Reg → Prop) : Prop where
  init : Good h.init
  update : ∀ r s, Good r → Good (h.update r s)
  nil : ∀ r, Good r → h.update r [] = r
  append : ∀ r s t, Good r → h.update (h.update r s) t = h.update r (s ++ t)

theorem runAll_spec {h : Hasher} {Good : h.Reg → Prop} (hl : Lawful h Good) : ∀ (ops : List Op) (buf : Bytes),
    runAll h (h.update h.init buf) ops = specAll h.bytes buf ops
  | [], _ => rfl
  | .update data :: ops, buf => by
    rw [runAll, specAll]
    simp only [Op.run, Option.toList, List.nil_append]
    rw [hl.append _ _ _ hl.init, runAll_spec hl ops]
  | .finish :: ops, buf => by
    rw [runAll, specAll]
    simp only [Op.run, Option.toList, Hasher.finish, List.cons_append, List.nil_append]
    rw [← runAll_spec hl ops [], hl.nil _ hl.init]
    rfl
  | .clear :: ops, buf => by
    rw [runAll, specAll]
    simp only [Op.run, Option.toList, List.nil_append]
    rw [← runAll_spec hl ops [], hl.nil _ hl.init]

/-- The bytes of a file, up to its end; `none` if it cannot be read. -/
def contents : List Event → Option Bytes
  | .data b s :: es => (contents es).map fun t => b :: s ++ t
  | .eof :: _ => some []
  | _ => none

theorem readLoop_spec {h : Hasher} {Good : h.Reg → Prop} (hl : Lawful h Good) : ∀ (es : List Event) (r : h.Reg), Good r →
    h.readLoop r es = (match contents es with | some t => .ok (h.update r t) | none => .throw)
  | .data b s :: es, r, hr => by
    rw [Hasher.readLoop, readLoop_spec hl es _ (hl.update _ _ hr), contents]
    cases contents es with
    | none => rfl
    | some t => simp only [Option.map_some]; rw [hl.append _ _ _ hr]
  | .eof :: _, r, hr => by rw [Hasher.readLoop, contents]; simp only; rw [hl.nil _ hr]
  | .error :: _, r, _ => rfl
  | [], r, _ => rfl

theorem file_spec {h : Hasher} {Good : h.Reg → Prop} (hl : Lawful h Good) (es : List Event) :
    h.file es = (match contents es with | some t => .ok (h.bytes t) | none => .throw) := by
  unfold Hasher.file
  rw [readLoop_spec hl es _ hl.init]
  cases contents es <;> rfl

/-! ### Each of the checksums is lawful -/

theorem fnv_append : ∀ (s t : Bytes) (r : UInt32), fnvUpdate (fnvUpdate r s) t = fnvUpdate r (s ++ t)
  | [], _, _ => rfl
  | b :: s, t, r => by rw [fnvUpdate, fnv_append s t, List.cons_append, fnvUpdate]

theorem fnv_lawful : Lawful fnv fun _ => True :=
  ⟨trivial, fun _ _ _ => trivial, fun _ _ => rfl, fun r s t _ => fnv_append s t r⟩

theorem crc_nil (r : UInt32) : crcUpdate r [] = r := by
  unfold crcUpdate
  simp

theorem crc_append (r : UInt32) (s t : Bytes) : crcUpdate (crcUpdate r s) t = crcUpdate r (s ++ t) := by
  unfold crcUpdate
  rw [UInt32.not_not, List.foldl_append]

theorem crc_lawful : Lawful crc fun _ => True :=
  ⟨trivial, fun _ _ _ => trivial, fun r _ => crc_nil r, fun r s t _ => crc_append r s t⟩

/-- A step of Adler-32. -/
def adlerStep (p : Nat × Nat) (b : UInt8) : Nat × Nat := ((p.1 + b.toNat) % 65521, (p.2 + (p.1 + b.toNat) % 65521) % 65521)

theorem adler_bounds : ∀ (s : Bytes) (p : Nat × Nat), p.1 < 65536 ∧ p.2 < 65536 →
    (s.foldl adlerStep p).1 < 65536 ∧ (s.foldl adlerStep p).2 < 65536
  | [], _, h => h
  | b :: s, p, _ => adler_bounds s _ ⟨by simp only [adlerStep]; omega, by simp only [adlerStep]; omega⟩

theorem adlerUpdate_eq (r : Nat) (s : Bytes) :
    adlerUpdate r s = (s.foldl adlerStep (r % 65536, r / 65536)).2 * 65536 + (s.foldl adlerStep (r % 65536, r / 65536)).1 := rfl

theorem adler_lt {r : Nat} (s : Bytes) (hr : r < 2 ^ 32) : adlerUpdate r s < 2 ^ 32 := by
  rw [adlerUpdate_eq]
  have := adler_bounds s (r % 65536, r / 65536) ⟨by simp only; omega, by simp only; omega⟩
  omega

theorem adler_nil (r : Nat) : adlerUpdate r [] = r := by
  rw [adlerUpdate_eq]
  simp only [List.foldl_nil]
  omega

theorem adler_append {r : Nat} (s t : Bytes) (hr : r < 2 ^ 32) : adlerUpdate (adlerUpdate r s) t = adlerUpdate r (s ++ t) := by
  have hb := adler_bounds s (r % 65536, r / 65536) ⟨by simp only; omega, by simp only; omega⟩
  rw [adlerUpdate_eq (adlerUpdate r s), adlerUpdate_eq r s, adlerUpdate_eq r (s ++ t), List.foldl_append]
  generalize s.foldl adlerStep (r % 65536, r / 65536) = p at hb ⊢
  have e : ((p.2 * 65536 + p.1) % 65536, (p.2 * 65536 + p.1) / 65536) = p := by
    rw [Prod.ext_iff]
    exact ⟨by simp only; omega, by simp only; omega⟩
  rw [e]

/-- The register of Adler-32 fits in 32 bits. -/
def adlerGood (r : adler.Reg) : Prop := Nat.lt (show Nat from r) (2 ^ 32)

theorem adler_lawful : Lawful adler adlerGood :=
  ⟨show 1 < 2 ^ 32 by decide, fun _ s hr => adler_lt s hr, fun r _ => adler_nil r, fun _ s t hr => adler_append s t hr⟩

/-! ### The properties -/

/-- **C65**: whatever pieces data comes in, and whatever has been done with the object before, `finish` gives the checksum of
all bytes since the object was created, cleared or finished. -/
theorem C65_history (ops : List Op) : runAll fnv fnv.init ops = specAll fnv.bytes [] ops ∧
    runAll crc crc.init ops = specAll crc.bytes [] ops ∧ runAll adler adler.init ops = specAll adler.bytes [] ops := by
  refine ⟨?_, ?_, ?_⟩
  · rw [← runAll_spec fnv_lawful ops [], fnv_lawful.nil _ trivial]
  · rw [← runAll_spec crc_lawful ops [], crc_lawful.nil _ trivial]
  · rw [← runAll_spec adler_lawful ops [], adler_lawful.nil _ adler_lawful.init]

/-- **C65** for digests of OpenSSL, provided that OpenSSL itself takes in bytes in pieces as it takes in all of them. -/
theorem C65_openssl {Ctx : Type} (init : Ctx) (update : Ctx → Bytes → Ctx) (final : Ctx → Bytes)
    (hnil : ∀ c, update c [] = c) (happ : ∀ c s t, update (update c s) t = update c (s ++ t)) (ops : List Op) :
    runAll (openssl init update final) init ops = specAll (openssl init update final).bytes [] ops := by
  have hl : Lawful (openssl init update final) fun _ => True :=
    ⟨trivial, fun _ _ _ => trivial, fun r _ => hnil r, fun r s t _ => happ r s t⟩
  have := runAll_spec hl ops []
  rw [hl.nil _ trivial] at this
  exact this

/-- A context that keeps all bytes meets the hypotheses. -/
example (ops : List Op) : runAll (openssl ([] : Bytes) (· ++ ·) id) [] ops = specAll (openssl ([] : Bytes) (· ++ ·) id).bytes [] ops :=
  C65_openssl _ _ _ (fun c => List.append_nil c) (fun c s t => List.append_assoc c s t) ops

/-- **C65** for files: however many bytes `::read` returns each time, the checksum is that of the contents of the file. -/
theorem C65_file (es : List Event) :
    fnv.file es = (match contents es with | some t => .ok (fnv.bytes t) | none => .throw) ∧
    crc.file es = (match contents es with | some t => .ok (crc.bytes t) | none => .throw) ∧
    adler.file es = (match contents es with | some t => .ok (adler.bytes t) | none => .throw) :=
  ⟨file_spec fnv_lawful es, file_spec crc_lawful es, file_spec adler_lawful es⟩

/-- FNV-1a as published: the offset basis; for each byte, exclusive or, then multiplication with the prime, modulo 2^32. -/
def fnvSpec (s : Bytes) : Nat := s.foldl (fun h b => (Nat.xor h b.toNat) * 0x01000193 % 2 ^ 32) 0x811c9dc5

theorem fnvUpdate_spec : ∀ (s : Bytes) (r : UInt32),
    (fnvUpdate r s).toNat = s.foldl (fun h b => (Nat.xor h b.toNat) * 0x01000193 % 2 ^ 32) r.toNat
  | [], _ => rfl
  | b :: s, r => by
    rw [fnvUpdate, fnvUpdate_spec s, List.foldl_cons, UInt32.toNat_mul, UInt32.toNat_xor, UInt8.toNat_toUInt32]
    rfl

/-- **C65**, the value of FNV-1a; it is never negative. -/
theorem C65_fnv (s : Bytes) : fnv.bytes s = (fnvSpec s : Int) ∧ fnvSpec s < 2 ^ 32 := by
  have h : (fnvUpdate 2166136261 s).toNat = fnvSpec s := fnvUpdate_spec s _
  refine ⟨?_, by rw [← h]; exact UInt32.toNat_lt _⟩
  change ((fnvUpdate 2166136261 s).toNat : Int) = _
  rw [h]

/-- Hexadecimal digits, in uppercase. -/
def hexDigits : Bytes := "0123456789ABCDEF".toUTF8.toList

/-- **C65**, the text of a digest: two uppercase hexadecimal digits for each byte, the higher one first. -/
theorem C65_hex (s : Bytes) : hexText s = s.flatMap fun b =>
    [hexDigits.getD (b.toNat / 16) 0, hexDigits.getD (b.toNat % 16) 0] := by
  have hb : ∀ b : Fin 256, (hexDigit (((UInt8.ofNat b.val).toUInt32 >>> 4) &&& 0x0F) = hexDigits.getD ((UInt8.ofNat b.val).toNat / 16) 0) ∧
      (hexDigit ((UInt8.ofNat b.val).toUInt32 &&& 0x0F) = hexDigits.getD ((UInt8.ofNat b.val).toNat % 16) 0) := by decide +kernel
  induction s with
  | nil => rfl
  | cons b s ih =>
    have := hb ⟨b.toNat, b.toNat_lt⟩
    simp only [UInt8.ofNat_toNat] at this
    rw [hexText, ih, List.flatMap_cons, this.1, this.2]
    rfl

example : runAll crc crc.init [.update "1234".toUTF8.toList, .update "56789".toUTF8.toList, .finish, .update [0], .clear, .finish] =
    [0xCBF43926, (0 : Int)] := by
  change ([_, _] : List Int) = [_, _]
  decide +kernel
example : adler.bytes "Wikipedia".toUTF8.toList = (0x11E60398 : Int) := by
  change ((_ : Nat) : Int) = _
  decide +kernel
example : fnv.bytes "foobar".toUTF8.toList = (0xbf9cf968 : Int) := by
  change ((_ : Nat) : Int) = _
  decide +kernel
example : hexText [0x0A, 0xF9] = "0AF9".toUTF8.toList := by decide +kernel

end Asteria.Checksum
