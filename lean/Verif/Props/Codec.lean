import Verif.Proof.CodecUrl

/-!
# Properties C01–C06: text codecs

The specifications below (`IsSpace`, `hexVal`, `HexText`, `Unreserved`, `UrlText`) do not mention
the tables or loops of the model.
-/

namespace Asteria.Codec

/-! ## Specification vocabulary -/

/-- Whitespace as documented: blank, `\t`, `\n`, `\v`, `\f`, `\r`. -/
def IsSpace (c : UInt8) : Prop := c = 32 ∨ (9 ≤ c ∧ c ≤ 13)

/-- Value of a hexadecimal digit. -/
def hexVal (c : UInt8) : Option Nat :=
  if 48 ≤ c ∧ c ≤ 57 then some (c.toNat - 48)
  else if 65 ≤ c ∧ c ≤ 70 then some (c.toNat - 55)
  else if 97 ≤ c ∧ c ≤ 102 then some (c.toNat - 87)
  else none

/-- `HexText t d`: the text `t` denotes the bytes `d`. -/
inductive HexText : Bytes → Bytes → Prop
  | nil : HexText [] []
  | space {c t d} : IsSpace c → HexText t d → HexText (c :: t) d
  | pair {h l a b t d} : hexVal h = some a → hexVal l = some b → HexText t d →
      HexText (h :: l :: t) (UInt8.ofNat (16 * a + b) :: d)

/-- Unreserved characters of RFC 3986. -/
def Unreserved (c : UInt8) : Prop :=
  (48 ≤ c ∧ c ≤ 57) ∨ (65 ≤ c ∧ c ≤ 90) ∨ (97 ≤ c ∧ c ≤ 122) ∨
  c = 45 ∨ c = 46 ∨ c = 95 ∨ c = 126

/-- `UrlText t d`: `t` consists of unreserved characters and `%XX` escapes and denotes `d`. -/
inductive UrlText : Bytes → Bytes → Prop
  | nil : UrlText [] []
  | plain {c t d} : Unreserved c → UrlText t d → UrlText (c :: t) (c :: d)
  | esc {h l a b t d} : hexVal h = some a → hexVal l = some b → UrlText t d →
      UrlText (37 :: h :: l :: t) (UInt8.ofNat (16 * a + b) :: d)

instance (c : UInt8) : Decidable (IsSpace c) := by unfold IsSpace; infer_instance
instance (c : UInt8) : Decidable (Unreserved c) := by unfold Unreserved; infer_instance

theorem mem_spaces_iff : ∀ c : UInt8, c ∈ spaces ↔ IsSpace c := by decide +kernel

theorem hexVal_eq : ∀ c : UInt8, (xstrchr base16Table c).map (· / 2) = hexVal c := by
  decide +kernel

/-! ## C01 -/

/-- **C01.** Decoding what `hex_encode` wrote, with any whitespace delimiter, gives the data back;
neither call fails. -/
theorem C01_hex_round_trip (s : Bytes) (delim : Option Bytes)
    (h : ∀ d, delim = some d → ∀ c ∈ d, IsSpace c) :
    ∃ t, hexEncode s delim = .ok t ∧ hexDecode t = .ok s := by
  refine hexEncodeLoop_ok _ ?_ true s
  intro c hc
  cases delim with
  | none => simp at hc
  | some d => exact (mem_spaces_iff c).mpr (h d rfl c (by simpa using hc))

/-- The hypotheses of C01 are met by a blank-tab delimiter. -/
example : (∀ d, some [32, 9] = some d → ∀ c ∈ d, IsSpace c) ∧
    hexEncode [0, 255, 171] (some [32, 9]) = .ok [48, 48, 32, 9, 70, 70, 32, 9, 65, 66] := by
  constructor
  · intro d hd c hc; cases hd
    simp only [List.mem_cons, List.not_mem_nil, or_false] at hc
    rcases hc with rfl | rfl <;> decide
  · decide

/-! ## C02, C03 -/

/-- **C02.** base32 round trip, with the exact length of the encoding. -/
theorem C02_base32_round_trip (s : Bytes) :
    ∃ t, b32Encode s = .ok t ∧ t.length = 8 * ((s.length + 4) / 5) ∧ b32Decode t = .ok s :=
  b32Encode_ok s

/-- ASCII lower-casing of one character. -/
def asciiLower (c : UInt8) : UInt8 := if 65 ≤ c ∧ c ≤ 90 then c + 32 else c

theorem lower_facts : ∀ c : UInt8, (xstrchr spaces (asciiLower c)).isSome = (xstrchr spaces c).isSome ∧
    ((some (asciiLower c) = tableAt base32Table 64) ↔ (some c = tableAt base32Table 64)) ∧
    (xstrchr base32Table (asciiLower c)).map (· / 2) = (xstrchr base32Table c).map (· / 2) := by
  decide +kernel

/-- **C02, letter case.** Lower-casing the text does not change what is decoded. -/
theorem C02_base32_case_insensitive (t : Bytes) :
    b32Decode (t.map asciiLower) = b32Decode t := by
  have key : ∀ (t : Bytes) (reg n : Nat),
      b32DecodeLoop reg n (t.map asciiLower) = b32DecodeLoop reg n t := by
    intro t
    induction t with
    | nil => intros; rfl
    | cons c cs ih =>
      intro reg n
      obtain ⟨h1, h2, h3⟩ := lower_facts c
      rw [List.map_cons, b32DecodeLoop, b32DecodeLoop, h1, ih]
      simp only [h2, ih]
      cases hx : xstrchr base32Table c <;> cases hy : xstrchr base32Table (asciiLower c) <;>
        simp only [hx, hy, Option.map_none, Option.map_some, reduceCtorEq, Option.some.injEq] at h3
      · rfl
      · simp only [h3]
  exact key t 1 0

example : b32Encode [102, 111, 111] = .ok [77, 90, 88, 87, 54, 61, 61, 61] := by decide

/-- **C03.** base64 round trip, with the exact length of the encoding. -/
theorem C03_base64_round_trip (s : Bytes) :
    ∃ t, b64Encode s = .ok t ∧ t.length = 4 * ((s.length + 2) / 3) ∧ b64Decode t = .ok s :=
  b64Encode_ok s

example : b64Encode [102, 111, 111, 98] = .ok [90, 109, 57, 118, 89, 103, 61, 61] := by decide

/-! ## C04, C05 -/

/-- **C04, round trip.** -/
theorem C04_url_round_trip (s : Bytes) : ∃ t, urlEncode s = .ok t ∧ urlDecode t = .ok s :=
  urlEncode_ok s

theorem urlPlain_iff : ∀ c : UInt8, urlPlain c = true ↔ Unreserved c := by decide +kernel

theorem esc_hexVal : ∀ c : UInt8, ((hexVal (escHi c)).bind fun a => (hexVal (escLo c)).map
    fun b => UInt8.ofNat (16 * a + b)) = some c := by decide +kernel

theorem esc_hexVal' (c : UInt8) : ∃ a b, hexVal (escHi c) = some a ∧ hexVal (escLo c) = some b ∧
    UInt8.ofNat (16 * a + b) = c := by
  have h := esc_hexVal c
  cases ha : hexVal (escHi c) with
  | none => simp [ha] at h
  | some a =>
    cases hb : hexVal (escLo c) with
    | none => simp [ha, hb] at h
    | some b => exact ⟨a, b, rfl, rfl, by simpa [ha, hb] using h⟩

/-- **C04, safety.** The text written consists of unreserved characters and `%XX` escapes, and it
denotes the data. -/
theorem C04_url_encode_safe (s : Bytes) : ∃ t, urlEncode s = .ok t ∧ UrlText t s := by
  induction s with
  | nil => exact ⟨[], rfl, .nil⟩
  | cons c cs ih =>
    obtain ⟨t, h1, h2⟩ := ih
    by_cases hc : urlPlain c = true
    · exact ⟨c :: t, by rw [urlEncode]; simp [hc, h1], .plain ((urlPlain_iff c).mp hc) h2⟩
    · obtain ⟨a, b, ha, hb, hab⟩ := esc_hexVal' c
      refine ⟨37 :: escHi c :: escLo c :: t, ?_, ?_⟩
      · rw [urlEncode]; simp [hc, (urlEscape_facts' c).1, h1]
      · have := UrlText.esc ha hb h2
        rwa [hab] at this

example : urlEncode [97, 32, 37, 255] = .ok [97, 37, 50, 48, 37, 50, 53, 37, 70, 70] := by decide

/-- **C05.** Query-component round trip. -/
theorem C05_url_query_round_trip (s : Bytes) :
    ∃ t, urlQueryEncode s = .ok t ∧ urlQueryDecode t = .ok s :=
  urlQueryEncode_ok s

example : urlQueryEncode [97, 32, 43, 126] = .ok [97, 43, 37, 50, 66, 37, 55, 69] := by decide

/-! ## C06 -/

theorem hexDecode_first {c : UInt8} (cs : Bytes) (hs : xstrchr spaces c = none) :
    hexDecodeLoop 1 (c :: cs) =
      match hexVal c with
      | none => .throw
      | some a => hexDecodeLoop (16 + a) cs := by
  have hv := hexVal_eq c
  have hlt : ∀ c : UInt8, ∀ a ∈ hexVal c, a < 16 := by decide +kernel
  cases hx : xstrchr base16Table c with
  | none =>
    simp only [hx, Option.map_none] at hv
    rw [hexDecodeLoop]; simp [hs, hx, ← hv]
  | some p =>
    simp only [hx, Option.map_some] at hv
    have := hlt c _ hv.symm
    rw [hexDecode_digit cs (by omega) hs hx (by omega), ← hv]
    rw [if_pos (and_pow_of_lt (k := 8) (by omega))]

theorem hexDecode_second {c : UInt8} (a : Nat) (ha : a < 16) (cs : Bytes) :
    hexDecodeLoop (16 + a) (c :: cs) =
      match hexVal c with
      | none => .throw
      | some b => (hexDecodeLoop 1 cs).map (UInt8.ofNat (16 * a + b) :: ·) := by
  have hv := hexVal_eq c
  have hlt : ∀ c : UInt8, ∀ a ∈ hexVal c, a < 16 := by decide +kernel
  have hsp : ∀ c : UInt8, (xstrchr spaces c).isSome → hexVal c = none := by decide +kernel
  cases hs : xstrchr spaces c with
  | some q =>
    rw [hexDecodeLoop, hsp c (by simp [hs])]
    simp [hs]; omega
  | none =>
    cases hx : xstrchr base16Table c with
    | none =>
      simp only [hx, Option.map_none] at hv
      rw [hexDecodeLoop]; simp [hs, hx, ← hv]
    | some p =>
      simp only [hx, Option.map_some] at hv
      have := hlt c _ hv.symm
      rw [hexDecode_digit cs (by omega) hs hx (by omega), ← hv]
      rw [if_neg (and_pow_ne (k := 8) (by omega) (by omega))]
      have e : UInt8.ofNat ((16 + a) * 16 + p / 2) = UInt8.ofNat (16 * a + p / 2) := by
        apply UInt8.toNat_inj.mp
        simp [UInt8.toNat_ofNat']; omega
      simp only [e]

theorem hexVal_lt {c : UInt8} {a : Nat} (h : hexVal c = some a) : a < 16 := by
  have hlt : ∀ c : UInt8, ∀ a ∈ hexVal c, a < 16 := by decide +kernel
  exact hlt c a h

theorem hexVal_not_space {c : UInt8} {a : Nat} (h : hexVal c = some a) :
    xstrchr spaces c = none := by
  have hsp : ∀ c : UInt8, (xstrchr spaces c).isSome → hexVal c = none := by decide +kernel
  cases hs : xstrchr spaces c with
  | none => rfl
  | some q => simp [hsp c (by simp [hs])] at h

/-- **C06, completeness.** -/
theorem C06_hex_decode_complete {t d : Bytes} (h : HexText t d) : hexDecode t = .ok d := by
  induction h with
  | nil => rfl
  | @space c t d hc _ ih =>
    have := hexDecode_spaces [c] t (by simpa using (mem_spaces_iff _).mpr hc)
    simp only [List.cons_append, List.nil_append] at this
    rw [hexDecode, this]; exact ih
  | pair ha hb _ ih =>
    rw [hexDecode, hexDecode_first _ (hexVal_not_space ha), ha]
    simp only
    rw [hexDecode_second _ (hexVal_lt ha), hb]
    simp only [hexDecode] at ih
    simp [ih]

/-- **C06, soundness.** -/
theorem C06_hex_decode_sound : ∀ (t d : Bytes), hexDecode t = .ok d → HexText t d
  | [], d, h => by simp [hexDecode, hexDecodeLoop] at h; subst h; exact .nil
  | c :: cs, d, h => by
    by_cases hs : c ∈ spaces
    · have e := hexDecode_spaces [c] cs (by simpa using hs)
      simp only [List.cons_append, List.nil_append] at e
      rw [hexDecode, e] at h
      exact .space ((mem_spaces_iff c).mp hs) (C06_hex_decode_sound cs d h)
    · have hs' : xstrchr spaces c = none := by
        cases hx : xstrchr spaces c with
        | none => rfl
        | some q => exact absurd (xstrchr_isSome.mp (by simp [hx])) hs
      rw [hexDecode, hexDecode_first _ hs'] at h
      cases ha : hexVal c with
      | none => simp [ha] at h
      | some a =>
        simp only [ha] at h
        match cs with
        | [] =>
          rw [hexDecodeLoop, if_pos (by omega)] at h
          simp at h
        | c2 :: cs =>
          rw [hexDecode_second _ (hexVal_lt ha)] at h
          cases hb : hexVal c2 with
          | none => simp [hb] at h
          | some b =>
            simp only [hb] at h
            cases hr : hexDecodeLoop 1 cs with
            | throw => simp [hr] at h
            | ub => simp [hr] at h
            | ok d' =>
              simp only [hr, Res.map, Res.ok.injEq] at h
              subst h
              exact .pair ha hb (C06_hex_decode_sound cs d' hr)

theorem hexDecodeLoop_no_ub (t : Bytes) : ∀ reg, hexDecodeLoop reg t ≠ .ub := by
  induction t with
  | nil => intro reg; rw [hexDecodeLoop]; split <;> simp
  | cons c cs ih =>
    intro reg
    rw [hexDecodeLoop]
    split
    · split
      · simp
      · exact ih _
    · cases xstrchr base16Table c with
      | none => simp
      | some p =>
        simp only
        split
        · exact ih _
        · have := ih 1
          cases hr : hexDecodeLoop 1 cs <;> simp_all

/-- **C06.** `hex_decode` returns `d` exactly when `t` denotes `d`, and throws on every text that
denotes nothing. -/
theorem C06_hex_decode_iff (t : Bytes) :
    (∀ d, hexDecode t = .ok d ↔ HexText t d) ∧ ((¬ ∃ d, HexText t d) → hexDecode t = .throw) := by
  refine ⟨fun d => ⟨C06_hex_decode_sound t d, C06_hex_decode_complete⟩, fun h => ?_⟩
  cases hr : hexDecode t with
  | ok d => exact absurd ⟨d, C06_hex_decode_sound t d hr⟩ h
  | throw => rfl
  | ub => exact absurd hr (hexDecodeLoop_no_ub t 1)

/-- A text in the language, with mixed case and whitespace; and one outside. -/
example : HexText [32, 52, 102, 10, 65, 48] [79, 160] ∧ hexDecode [52, 32, 102] = .throw := by
  refine ⟨.space (by decide) (.pair (a := 4) (b := 15) rfl rfl (.space (by decide)
    (.pair (a := 10) (b := 0) rfl rfl .nil))), by decide⟩

end Asteria.Codec
