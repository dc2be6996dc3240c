import Verif.Proof.Uchar

/-!
# C156: wide characters that are read from, and written to, files

`xfgetn`, `xfgetc` and `xfputn` are the wide-character streams of `tinyfmt_file`; `putmbn` puts a string of bytes into a wide
formatter.  The C library is a parameter: `Reads8` and `Writes8` say what it does in a UTF-8 locale.
-/

namespace Asteria.Uchar

/-- **C156, reading UTF-32.** A file of UTF-8 is read as the characters in it, wherever reading stops: `n` characters are
taken, nothing is left in the state, and the rest of the file is the other characters. -/
theorem C156_read32 {L : Lib} (hL : Reads8 L) (cs : List Nat) (hc : ∀ c ∈ cs, Scalar c) (n : Nat) :
    getn (mbrtoc32 L) (.seq []) (cs.flatMap utf8) n = (cs.take n, .seq [], (cs.drop n).flatMap utf8) := by
  show getLoop _ _ _ true _ = _
  induction cs generalizing n with
  | nil => simp [getLoop_end]
  | cons c cs ih =>
    cases n with
    | zero => simp [getLoop_zero]
    | succ n =>
      rw [List.flatMap_cons, getLoop32 hL (hc c (by simp)), ih (fun c h => hc c (by simp [h]))]
      simp

/-- **C156, reading UTF-16, part.** The same if all characters are in the basic plane.  Missing: the others, for which
`xfgetn` is wrong (`C156_read16_false`). -/
theorem C156_read16_partial {L : Lib} (hL : Reads8 L) (cs : List Nat) (hc : ∀ c ∈ cs, Scalar c ∧ c < 0x10000) (n : Nat) :
    getn (mbrtoc16 L) (.seq []) (cs.flatMap utf8) n = ((cs.flatMap utf16).take n, .seq [], (cs.drop n).flatMap utf8) := by
  show getLoop _ _ _ true _ = _
  induction cs generalizing n with
  | nil => simp [getLoop_end]
  | cons c cs ih =>
    cases n with
    | zero => simp [getLoop_zero]
    | succ n =>
      have h := hc c (by simp)
      rw [List.flatMap_cons, getLoop16 hL h.1 h.2, ih (fun c h => hc c (by simp [h]))]
      simp [utf16, h.2]

/-- **C156, reading UTF-16, one at a time.** `xfgetc`, called again and again, delivers the UTF-16 of all characters, also of those
outside of the basic plane. -/
theorem C156_read16_single {L : Lib} (hL : Reads8 L) (cs : List Nat) (hc : ∀ c ∈ cs, Scalar c) (k : Nat) :
    getcs (mbrtoc16 L) k (.seq []) (cs.flatMap utf8) = (cs.flatMap utf16).take k := by
  induction cs generalizing k with
  | nil =>
    cases k with
    | zero => simp [getcs]
    | succ k =>
      have h : getn (mbrtoc16 L) (.seq []) [] 1 = ([], .seq [], []) := getLoop_end _ _ _
      simp [getcs, getc, h]
  | cons c cs ih =>
    have hs := hc c (by simp)
    have ih := fun k => ih (fun c h => hc c (by simp [h])) k
    cases k with
    | zero => simp [getcs]
    | succ k =>
      rw [List.flatMap_cons, List.flatMap_cons]
      by_cases hb : c < 0x10000
      · have h : getn (mbrtoc16 L) (.seq []) (utf8 c ++ cs.flatMap utf8) 1 = ([c], .seq [], cs.flatMap utf8) := by
          show getLoop _ _ _ true _ = _
          rw [getLoop16 hL hs hb, getLoop_zero]
        simp [getcs, getc, h, utf16, hb, ih]
      · have h : getn (mbrtoc16 L) (.seq []) (utf8 c ++ cs.flatMap utf8) 1
            = ([leading c], .trail (trailing c), cs.flatMap utf8) := by
          show getLoop _ _ _ true _ = _
          rw [getLoop16_high hL hs hb, getLoop_zero]
        cases k with
        | zero => simp [getcs, getc, h, utf16, hb]
        | succ k =>
          have h' : getn (mbrtoc16 L) (.trail (trailing c)) (cs.flatMap utf8) 1
              = ([trailing c], .seq [], cs.flatMap utf8) := by
            show getLoop _ _ _ false _ = _
            unfold getLoop
            simp [mbrtoc16, getLoop_zero]
          simp [getcs, getc, h, h', utf16, hb, ih]

/-- **C156, reading UTF-16, the fault.** After a character outside of the basic plane, `xfgetn` drops the byte that follows: it is read
and thrown away when the trailing surrogate is delivered.  If there is no byte, the trailing surrogate is not delivered. -/
theorem C156_read16_false {L : Lib} (hL : Reads8 L) (c : Nat) (hc : Scalar c) (hb : 0x10000 ≤ c) (n : Nat) :
    (∀ b file, getn (mbrtoc16 L) (.seq []) (utf8 c ++ b :: file) (n + 2) =
      (leading c :: trailing c :: (getn (mbrtoc16 L) (.seq []) file n).1, (getn (mbrtoc16 L) (.seq []) file n).2))
    ∧ getn (mbrtoc16 L) (.seq []) (utf8 c) (n + 1) = ([leading c], .trail (trailing c), []) := by
  constructor
  · intro b file
    show getLoop _ _ _ true _ = _
    rw [getLoop16_high hL hc (by omega), getLoop]
    rfl
  · show getLoop _ _ _ true _ = _
    have := getLoop16_high hL hc (by omega) [] n
    rw [List.append_nil] at this
    rw [this, getLoop_end]

/-- **C156, the end of the file, the fault.** If a file ends in the middle of a character, `xfgetc` says so once; the next call, which
should say the same, delivers a null character that is not in the file.  (`hz`: a null byte is not part of a longer character.) -/
theorem C156_eof_false {L : Lib} (hL : Reads8 L) (c : Nat) (hc : Scalar c) (a b : Bytes) (h : utf8 c = a ++ b) (ha : a ≠ [])
    (hb : b ≠ []) (hz : L (a ++ [0]) = .bad) :
    (getc (mbrtoc32 L) (.seq []) a = (none, .seq a, []) ∧ getc (mbrtoc32 L) (.seq a) [] = (some 0, .seq [], []))
    ∧ (getc (mbrtoc16 L) (.seq []) a = (none, .seq a, []) ∧ getc (mbrtoc16 L) (.seq a) [] = (some 0, .seq [], [])) := by
  have hi : MbSt.initial (.seq a) = false := by
    cases a with
    | nil => exact absurd rfl ha
    | cons x a => rfl
  have h32 : getn (mbrtoc32 L) (.seq []) a 1 = ([], .seq a, []) := getLoop_part hL (gathers32 L) hc 0 hb a [] h
  have h16 : getn (mbrtoc16 L) (.seq []) a 1 = ([], .seq a, []) := getLoop_part hL (gathers16 L) hc 0 hb a [] h
  have g32 : getn (mbrtoc32 L) (.seq a) [] 1 = ([0], .seq [], []) := by
    unfold getn
    rw [hi, getLoop]
    simp [mbrtoc32, hz, getLoop_zero]
  have g16 : getn (mbrtoc16 L) (.seq a) [] 1 = ([0], .seq [], []) := by
    unfold getn
    rw [hi, getLoop]
    simp [mbrtoc16, hz, getLoop_zero]
  unfold getc
  rw [h32, h16, g32, g16]
  exact ⟨⟨rfl, rfl⟩, rfl, rfl⟩

/-- **C156, reading bytes.** `xfgetn` for bytes stops after the first newline and after `n` bytes, and loses nothing. -/
theorem C156_bytes (file : Bytes) (n : Nat) :
    (getBytes file n).1 ++ (getBytes file n).2 = file ∧ (getBytes file n).1.length ≤ n
    ∧ (10 : UInt8) ∉ (getBytes file n).1.dropLast
    ∧ ((getBytes file n).1.length < n → (getBytes file n).2 = [] ∨ (getBytes file n).1.getLast? = some 10) := by
  induction file generalizing n with
  | nil => cases n <;> simp [getBytes]
  | cons b file ih =>
    cases n with
    | zero => simp [getBytes]
    | succ n =>
      obtain ⟨h1, h2, h3, h4⟩ := ih n
      by_cases hb : b = 10
      · simp [getBytes, hb]
      · simp only [getBytes, if_neg hb]
        refine ⟨by simp [h1], by simp; omega, ?_, ?_⟩
        · generalize (getBytes file n).1 = r at *
          cases r with
          | nil => simp
          | cons x r => simpa [Ne.symm hb] using h3
        · intro h
          rcases h4 (by simpa using h) with h | h
          · exact .inl h
          · refine .inr ?_
            generalize (getBytes file n).1 = r at *
            cases r with
            | nil => simp at h
            | cons x r => simpa using h

/-- **C156, writing UTF-16.** Characters are written as UTF-8, also if a pair of surrogates is in two calls: the units may be
cut anywhere.  The results are the numbers of bytes. -/
theorem C156_write16 {E : Enc} (hE : Writes8 E) (cs us vs : List Nat) (hc : ∀ c ∈ cs, Scalar c)
    (h : us ++ vs = cs.flatMap utf16) :
    (putn (c16rtomb E) none us).1 ++ (putn (c16rtomb E) (putn (c16rtomb E) none us).2.1 vs).1 = cs.flatMap utf8
    ∧ (putn (c16rtomb E) (putn (c16rtomb E) none us).2.1 vs).2.1 = none
    ∧ (putn (c16rtomb E) none us).2.2 + (putn (c16rtomb E) (putn (c16rtomb E) none us).2.1 vs).2.2
      = (cs.flatMap utf8).length := by
  have key := putn_append (c16rtomb E) us vs none
  rw [h, putn16 hE cs hc] at key
  simp only [Prod.mk.injEq] at key
  exact ⟨key.1.symm, key.2.1.symm, key.2.2.symm⟩

/-- **C156, writing UTF-32.** Characters are written as UTF-8, and everything else as question marks. -/
theorem C156_write32 {E : Enc} (hE : Writes8 E) (us : List Nat) :
    putn (c32rtomb E) none us
      = (us.flatMap fun u => if Scalar u then utf8 u else [0x3F], none,
          (us.flatMap fun u => if Scalar u then utf8 u else [0x3F]).length) := by
  induction us with
  | nil => rfl
  | cons u us ih =>
    simp only [putn, c32rtomb, hE u]
    by_cases h : Scalar u
    · simp only [if_pos h, ih, List.flatMap_cons, List.length_append]
    · simp only [if_neg h, ih, List.flatMap_cons, List.length_append]
      simp

/-- **C156, round trip.** What is written is read again. -/
theorem C156_round {L : Lib} (hL : Reads8 L) {E : Enc} (hE : Writes8 E) (cs : List Nat) (hc : ∀ c ∈ cs, Scalar c) :
    (getn (mbrtoc32 L) (.seq []) (putn (c32rtomb E) none cs).1 cs.length).1 = cs
    ∧ getcs (mbrtoc16 L) (cs.flatMap utf16).length (.seq []) (putn (c16rtomb E) none (cs.flatMap utf16)).1
      = cs.flatMap utf16 := by
  constructor
  · have h : (cs.flatMap fun u => if Scalar u then utf8 u else [0x3F]) = cs.flatMap utf8 := by
      show (cs.map _).flatten = (cs.map _).flatten
      rw [List.map_congr_left fun c h => if_pos (hc c h)]
    rw [C156_write32 hE, h, C156_read32 hL cs hc]
    simp
  · rw [putn16 hE cs hc, C156_read16_single hL cs hc, List.take_length]

/-- **C156, `putmbn` into a UTF-32 formatter.** A string of UTF-8 arrives as its characters. -/
theorem C156_putmb32 {L : Lib} (hL : Reads8 L) (cs : List Nat) (hc : ∀ c ∈ cs, Scalar c ∧ c ≠ 0) :
    (putmbn (mbrtoc32 L) (cs.flatMap utf8)).flatten = cs := by
  have := putmb32 hL cs hc (2 * (cs.flatMap utf8).length + 1) [] (by omega)
  rwa [List.nil_append] at this

/-- **C156, `putmbn` into a UTF-16 formatter, part.** A string of UTF-8 arrives as its characters if the last one is in the basic
plane.  Missing: others, for which it is wrong (`C156_putmb16_false`). -/
theorem C156_putmb16_partial {L : Lib} (hL : Reads8 L) (cs : List Nat) (c : Nat) (hb : c < 0x10000)
    (hc : ∀ d ∈ cs ++ [c], Scalar d ∧ d ≠ 0) :
    (putmbn (mbrtoc16 L) ((cs ++ [c]).flatMap utf8)).flatten = (cs ++ [c]).flatMap utf16 := by
  have := putmb16 hL _ hc (2 * ((cs ++ [c]).flatMap utf8).length + 1) [] (by omega)
  rw [shown_low cs c hb] at this
  exact this

/-- **C156, `putmbn` into a UTF-16 formatter, the fault.** Of a last character outside of the basic plane, the trailing surrogate is not put. -/
theorem C156_putmb16_false {L : Lib} (hL : Reads8 L) (cs : List Nat) (c : Nat) (hb : 0x10000 ≤ c)
    (hc : ∀ d ∈ cs ++ [c], Scalar d ∧ d ≠ 0) :
    (putmbn (mbrtoc16 L) ((cs ++ [c]).flatMap utf8)).flatten = cs.flatMap utf16 ++ [leading c] := by
  have := putmb16 hL _ hc (2 * ((cs ++ [c]).flatMap utf8).length + 1) [] (by omega)
  rw [shown_high cs c (by omega)] at this
  exact this

/-- **C156, the buffer of `putmbn`.** No call of `putn` has more than 128 characters, whatever the string and the library. -/
theorem C156_putmb_short (f : Mbr) (s : Bytes) : ∀ x ∈ putmbn f s, x.length ≤ 128 :=
  putmb_short _ _ _ _ (by simp)

/-! ## Cases -/

/-- An encoder. -/
def enc8 : Enc := fun c => if Scalar c then some (utf8 c) else none

example : Reads8 look8 := look8_reads
example : Writes8 enc8 := fun _ => rfl
example : ∀ c ∈ [0x61, 0xE9, 0x20AC, 0x1F600], Scalar c := by decide
example : utf8 0x1F600 = [0xF0, 0x9F, 0x98, 0x80] := by decide
example : [0x61, 0xE9, 0x20AC, 0x1F600].flatMap utf16 = [0x61, 0xE9, 0x20AC, 0xD83D, 0xDE00] := by decide
example : (putn (c16rtomb enc8) none [0x61, 0xD83D]).1 = [0x61] ∧ (putn (c16rtomb enc8) none [0x61, 0xD83D]).2.1 = some 0xD83D := by
  decide
example : getn (mbrtoc16 look8) (.seq []) ([0x1F600, 0x61, 0x62].flatMap utf8) 9 = ([0xD83D, 0xDE00, 0x62], .seq [], []) := by
  have := (C156_read16_false look8_reads 0x1F600 (by decide) (by decide) 7).1 0x61 (utf8 0x62)
  have h2 := C156_read16_partial look8_reads [0x62] (by decide) 7
  simp only [List.flatMap_cons, List.flatMap_nil, List.append_nil] at h2
  rw [h2] at this
  exact this
example : utf8 0x20AC = [0xE2] ++ [0x82, 0xAC] ∧ look8 ([0xE2] ++ [0]) = .bad := by decide
example : getBytes [0x61, 10, 0x62] 8 = ([0x61, 10], [0x62]) := by decide

end Asteria.Uchar
