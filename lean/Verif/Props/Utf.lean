import Verif.Proof.Utf
import Verif.Proof.CodecUrl
import Mathlib.Tactic.NormNum

/-!
# Properties of the Unicode conversions (C07, C08, C09)
-/

namespace Asteria.Utf

/-- Unicode scalar values. -/
def Scalar (cp : Nat) : Prop := cp ≤ 0x10FFFF ∧ ¬ (0xD800 ≤ cp ∧ cp ≤ 0xDFFF)

/-- `lo ≤ b ≤ hi` for a byte. -/
def inR (b : UInt8) (lo hi : Nat) : Prop := lo ≤ b.toNat ∧ b.toNat ≤ hi

instance (b lo hi) : Decidable (inR b lo hi) := inferInstanceAs (Decidable (_ ∧ _))

/-- The well-formed byte sequences of one character: Unicode Standard, table 3-7. -/
inductive WfChar : Bytes → Prop
  | r1 (a) : inR a 0x00 0x7F → WfChar [a]
  | r2 (a b) : inR a 0xC2 0xDF → inR b 0x80 0xBF → WfChar [a, b]
  | r3 (a b c) : inR a 0xE0 0xE0 → inR b 0xA0 0xBF → inR c 0x80 0xBF → WfChar [a, b, c]
  | r4 (a b c) : inR a 0xE1 0xEC → inR b 0x80 0xBF → inR c 0x80 0xBF → WfChar [a, b, c]
  | r5 (a b c) : inR a 0xED 0xED → inR b 0x80 0x9F → inR c 0x80 0xBF → WfChar [a, b, c]
  | r6 (a b c) : inR a 0xEE 0xEF → inR b 0x80 0xBF → inR c 0x80 0xBF → WfChar [a, b, c]
  | r7 (a b c d) : inR a 0xF0 0xF0 → inR b 0x90 0xBF → inR c 0x80 0xBF → inR d 0x80 0xBF →
      WfChar [a, b, c, d]
  | r8 (a b c d) : inR a 0xF1 0xF3 → inR b 0x80 0xBF → inR c 0x80 0xBF → inR d 0x80 0xBF →
      WfChar [a, b, c, d]
  | r9 (a b c d) : inR a 0xF4 0xF4 → inR b 0x80 0x8F → inR c 0x80 0xBF → inR d 0x80 0xBF →
      WfChar [a, b, c, d]

/-- Well-formed UTF-8 text: a concatenation of well-formed characters. -/
inductive WellFormed : Bytes → Prop
  | nil : WellFormed []
  | cons (c rest) : WfChar c → WellFormed rest → WellFormed (c ++ rest)

/-! ## C07 -/

/-- C07: `utf8_encode` fails exactly on non-scalar values. -/
theorem C07_encode_domain (cp : Nat) : (∃ bs, utf8Encode cp = some bs) ↔ Scalar cp := by
  unfold utf8Encode Scalar
  by_cases h1 : cp < 0x80
  · rw [if_pos h1]; simp; omega
  rw [if_neg h1]
  by_cases h2 : notScalar cp = true
  · rw [if_pos h2]
    simp [notScalar] at h2; simp; omega
  · rw [if_neg h2]
    have := notScalar_false.1 (by simpa using h2)
    constructor
    · intro _; omega
    · intro _; repeat' split
      all_goals exact ⟨_, rfl⟩

/-- C07: the encoder's output is well-formed UTF-8. -/
theorem C07_encode_well_formed (cp : Nat) (bs : Bytes) (h : utf8Encode cp = some bs) : WfChar bs := by
  have hs := (C07_encode_domain cp).1 ⟨bs, h⟩
  unfold Scalar at hs
  unfold utf8Encode at h
  by_cases h1 : cp < 0x80
  · rw [if_pos h1] at h; cases h
    exact .r1 _ (by unfold inR; rw [ofNat_toNat]; omega)
  rw [if_neg h1, if_neg (by rw [Bool.not_eq_true, notScalar_false]; omega)] at h
  by_cases h2 : cp < 0x800
  · rw [if_pos h2] at h; cases h
    exact .r2 _ _ (by unfold inR; rw [encOne_1F]; omega) (by unfold inR; rw [encOne_3F]; omega)
  rw [if_neg h2] at h
  by_cases h3 : cp < 0x10000
  · rw [if_pos h3] at h; cases h
    by_cases a1 : cp < 0x1000
    · refine .r3 _ _ _ ?_ ?_ ?_ <;> unfold inR <;> simp only [encOne_0F, encOne_3F] <;> omega
    by_cases a2 : cp < 0xD000
    · refine .r4 _ _ _ ?_ ?_ ?_ <;> unfold inR <;> simp only [encOne_0F, encOne_3F] <;> omega
    by_cases a3 : cp < 0xD800
    · refine .r5 _ _ _ ?_ ?_ ?_ <;> unfold inR <;> simp only [encOne_0F, encOne_3F] <;> omega
    · refine .r6 _ _ _ ?_ ?_ ?_ <;> unfold inR <;> simp only [encOne_0F, encOne_3F] <;> omega
  rw [if_neg h3] at h; cases h
  by_cases a1 : cp < 0x40000
  · refine .r7 _ _ _ _ ?_ ?_ ?_ ?_ <;> unfold inR <;> simp only [encOne_07, encOne_3F] <;> omega
  by_cases a2 : cp < 0x100000
  · refine .r8 _ _ _ _ ?_ ?_ ?_ ?_ <;> unfold inR <;> simp only [encOne_07, encOne_3F] <;> omega
  · refine .r9 _ _ _ _ ?_ ?_ ?_ ?_ <;> unfold inR <;> simp only [encOne_07, encOne_3F] <;> omega

/-- C07: decoding the encoder's output, whatever follows it in memory and however many bytes are
declared available (at least those written), returns the code point and consumes exactly it. -/
theorem C07_round_trip (cp : Nat) (bs rest : Bytes) (avail : Nat) (h : utf8Encode cp = some bs)
    (ha : bs.length ≤ avail) : utf8Decode (bs ++ rest) avail = .ok (some (cp, bs.length)) := by
  have hs := (C07_encode_domain cp).1 ⟨bs, h⟩
  unfold Scalar at hs
  unfold utf8Encode at h
  by_cases h1 : cp < 0x80
  · rw [if_pos h1] at h; cases h
    have e : (UInt8.ofNat cp).toNat = cp := by rw [ofNat_toNat]; omega
    have := decode1 (UInt8.ofNat cp) rest avail ha (by omega)
    rw [e] at this; exact this
  rw [if_neg h1, if_neg (by rw [Bool.not_eq_true, notScalar_false]; omega)] at h
  by_cases h2 : cp < 0x800
  · rw [if_pos h2] at h; cases h
    have := decode2 (encOne cp 6 0x1F) (encOne cp 0 0x3F) rest avail (by simpa using ha)
      (by rw [encOne_1F]; omega)
    rw [encOne_1F, encOne_3F] at this
    have e : (192 + cp / 2 ^ 6 % 32 - 192) * 64 + (128 + cp / 2 ^ 0 % 64) % 64 = cp := by omega
    rw [e, accept_ok (by omega) (by rw [if_neg h1, if_pos h2])] at this
    exact this
  rw [if_neg h2] at h
  by_cases h3 : cp < 0x10000
  · rw [if_pos h3] at h; cases h
    have := decode3 (encOne cp 12 0x0F) (encOne cp 6 0x3F) (encOne cp 0 0x3F) rest avail
      (by simpa using ha) (by rw [encOne_0F]; omega)
    rw [encOne_0F, encOne_3F, encOne_3F] at this
    have e : ((224 + cp / 2 ^ 12 % 16 - 224) * 64 + (128 + cp / 2 ^ 6 % 64) % 64) * 64
      + (128 + cp / 2 ^ 0 % 64) % 64 = cp := by omega
    rw [e, accept_ok (by omega) (by rw [if_neg h1, if_neg h2, if_pos h3])] at this
    exact this
  rw [if_neg h3] at h; cases h
  have := decode4 (encOne cp 18 0x07) (encOne cp 12 0x3F) (encOne cp 6 0x3F) (encOne cp 0 0x3F) rest
    avail (by simpa using ha) (by rw [encOne_07]; omega)
  rw [encOne_07, encOne_3F, encOne_3F, encOne_3F] at this
  have e : (((240 + cp / 2 ^ 18 % 8 - 240) * 64 + (128 + cp / 2 ^ 12 % 64) % 64) * 64
      + (128 + cp / 2 ^ 6 % 64) % 64) * 64 + (128 + cp / 2 ^ 0 % 64) % 64 = cp := by omega
  rw [e, accept_ok (by omega) (by rw [if_neg h1, if_neg h2, if_neg h3])] at this
  exact this

example : utf8Encode 0x20AC = some [0xE2, 0x82, 0xAC] ∧ utf8Encode 0xD800 = none ∧
    utf8Encode 0x10FFFF = some [0xF4, 0x8F, 0xBF, 0xBF] ∧
    utf8Decode ([0xE2, 0x82, 0xAC] ++ [0x41]) 4 = .ok (some (0x20AC, 3)) := by decide

theorem clamp_scalar (v : Int) (h0 : 0 ≤ v) (h : Scalar v.toNat) : clampCodePoint v = v.toNat := by
  unfold clampCodePoint Scalar at *
  rw [if_neg (by omega), if_neg (by omega)]; omega

/-- C07: `std.string.utf8_encode` of any list of scalar values succeeds, and
`std.string.utf8_decode` of the result returns the list, in either mode. -/
theorem C07_string_round_trip (p q : Bool) (cps : List Int)
    (h : ∀ v ∈ cps, 0 ≤ v ∧ Scalar v.toNat) :
    ∃ text, utf8EncodeAll p cps = .ok text ∧ utf8DecodeAll q text = .ok cps := by
  induction cps with
  | nil => exact ⟨[], rfl, by rw [utf8DecodeAll]⟩
  | cons v vs ih =>
    obtain ⟨text, he, hd⟩ := ih (fun w hw => h w (List.mem_cons_of_mem _ hw))
    obtain ⟨h0, hsc⟩ := h v (List.mem_cons_self ..)
    obtain ⟨bs, hbs⟩ := (C07_encode_domain v.toNat).2 hsc
    refine ⟨bs ++ text, ?_, ?_⟩
    · rw [utf8EncodeAll, utf8EncodeOne, clamp_scalar v h0 hsc, hbs, he]; rfl
    · have hrt := C07_round_trip v.toNat bs text (bs ++ text).length hbs (by simp)
      have hwf := C07_encode_well_formed _ _ hbs
      have hne : 0 < bs.length := by cases hwf <;> simp
      have hdrop : (bs ++ text).drop bs.length = text := by simp
      revert hrt hdrop
      generalize bs ++ text = t
      intro hrt hdrop
      cases t with
      | nil => simp [utf8Decode] at hrt
      | cons b tl =>
        rw [utf8DecodeAll]
        rw [List.length_cons] at hrt
        rw [hrt]
        simp only [hne, if_true]
        rw [hdrop, hd]
        simp [Int.toNat_of_nonneg h0]

/-- C07: a non-scalar value throws, or encodes as U+FFFD when `permissive` is `true`. -/
theorem C07_encode_invalid (v : Int) (h : v < 0 ∨ ¬ Scalar v.toNat) :
    utf8EncodeOne false v = .throw ∧ utf8EncodeOne true v = .ok [0xEF, 0xBF, 0xBD] := by
  have : utf8Encode (clampCodePoint v) = none := by
    cases hc : utf8Encode (clampCodePoint v) with
    | none => rfl
    | some bs =>
      exfalso
      have := (C07_encode_domain _).1 ⟨bs, hc⟩
      unfold clampCodePoint Scalar at *
      split at this
      · omega
      · split at this
        · omega
        · omega
  unfold utf8EncodeOne
  rw [this]
  constructor
  · rfl
  · decide

example : ∀ v ∈ ([0x41, 0x20AC, 0x1F600] : List Int), 0 ≤ v ∧ Scalar v.toNat := by
  unfold Scalar; decide
example : (-5 : Int) < 0 ∨ ¬ Scalar (-5 : Int).toNat := Or.inl (by decide)

/-! ## C08 -/

/-- The full claim: `utf8_validate` accepts a byte string exactly if it is well-formed UTF-8. -/
def C08_claim : Prop := ∀ bs : Bytes, utf8Validate bs = .ok true ↔ WellFormed bs

/-- Whatever the input, `utf8_decode` reads only the bytes declared available, if they exist. -/
theorem C08_decode_total (mem : Bytes) (avail : Nat) (h : avail ≤ mem.length) :
    ∃ r, utf8Decode mem avail = .ok r ∧ ∀ cp n, r = some (cp, n) → 0 < n ∧ n ≤ avail := by
  by_cases h0 : avail = 0
  · exact ⟨none, by simp [utf8Decode, h0], by simp⟩
  cases mem with
  | nil => simp at h; omega
  | cons b tl =>
    have hb := b.toNat_lt
    by_cases h1 : b.toNat < 128
    · exact ⟨_, decode1 b tl avail (by omega) h1, by rintro _ _ ⟨⟩; omega⟩
    by_cases h2 : b.toNat < 192 ∨ 248 ≤ b.toNat
    · exact ⟨_, decode_bad b tl avail ⟨by omega, h2⟩, by simp⟩
    by_cases h3 : avail < leadLen b
    · exact ⟨_, decode_short b tl avail (by omega) h3, by simp⟩
    have key : ∀ cp len, len ≤ avail → 0 < len →
        ∀ cp' n, accept cp len = some (cp', n) → 0 < n ∧ n ≤ avail := by
      intro cp len hl hp cp' n ha
      have := (accept_some ha).1
      cases this; exact ⟨hp, hl⟩
    unfold leadLen at h3
    by_cases h4 : b.toNat < 224
    · rw [if_pos h4] at h3
      match tl, h with
      | c :: tl, h => exact ⟨_, decode2 b c tl avail (by omega) (by omega), key _ _ (by omega) (by omega)⟩
      | [], h => simp at h; omega
    rw [if_neg h4] at h3
    by_cases h5 : b.toNat < 240
    · rw [if_pos h5] at h3
      match tl, h with
      | c :: d :: tl, h =>
        exact ⟨_, decode3 b c d tl avail (by omega) (by omega), key _ _ (by omega) (by omega)⟩
      | [], h => simp at h; omega
      | [_], h => simp at h; omega
    · rw [if_neg h5] at h3
      match tl, h with
      | c :: d :: f :: tl, h =>
        exact ⟨_, decode4 b c d f tl avail (by omega) (by omega), key _ _ (by omega) (by omega)⟩
      | [], h => simp at h; omega
      | [_], h => simp at h; omega
      | [_, _], h => simp at h; omega

/-- A well-formed character is accepted and consumed whole. -/
theorem decode_wf (c rest : Bytes) (h : WfChar c) :
    ∃ cp, utf8Decode (c ++ rest) (c ++ rest).length = .ok (some (cp, c.length)) := by
  cases h with
  | r1 a h => exact ⟨_, decode1 a rest _ (by simp) (by unfold inR at h; omega)⟩
  | r2 a b h1 h2 =>
    unfold inR at *
    exact ⟨_, (decode2 a b rest _ (by simp) (by omega)).trans
      (by rw [accept_ok (by omega) (by rw [if_neg (by omega), if_pos (by omega)])]; rfl)⟩
  | r3 a b c h1 h2 h3 | r4 a b c h1 h2 h3 | r5 a b c h1 h2 h3 | r6 a b c h1 h2 h3 =>
    unfold inR at *
    exact ⟨_, (decode3 a b c rest _ (by simp) (by omega)).trans
      (by rw [accept_ok (by omega) (by rw [if_neg (by omega), if_neg (by omega), if_pos (by omega)])]; rfl)⟩
  | r7 a b c d h1 h2 h3 h4 | r8 a b c d h1 h2 h3 h4 | r9 a b c d h1 h2 h3 h4 =>
    unfold inR at *
    exact ⟨_, (decode4 a b c d rest _ (by simp) (by omega)).trans
      (by rw [accept_ok (by omega) (by rw [if_neg (by omega), if_neg (by omega), if_neg (by omega)])]; rfl)⟩

/-- C08 (completeness, holds in full): every well-formed text is accepted. -/
theorem C08_accepts_well_formed (bs : Bytes) (h : WellFormed bs) : utf8Validate bs = .ok true := by
  induction h with
  | nil => rw [utf8Validate]; simp
  | cons c rest hc _ ih =>
    obtain ⟨cp, hd⟩ := decode_wf c rest hc
    have hne : 0 < c.length := by cases hc <;> simp
    rw [utf8Validate, if_neg (by rw [List.length_append]; omega), hd]
    simp only [hne, if_true]
    rw [List.drop_left, ih]

/-- A continuation byte. -/
def isCont (b : UInt8) : Prop := inR b 0x80 0xBF

/-- Every byte announced by a lead byte, as far as present, is a continuation byte. -/
def TrailOk (bs : Bytes) : Prop :=
  ∀ (i : Nat) (b : UInt8), bs[i]? = some b → 0xC0 ≤ b.toNat →
    ∀ (j : Nat) (c : UInt8), 1 ≤ j → j < leadLen b → bs[i + j]? = some c → isCont c

theorem TrailOk.drop {bs : Bytes} (h : TrailOk bs) (n : Nat) : TrailOk (bs.drop n) := by
  intro i b hb hl j c hj hj' hc
  rw [List.getElem?_drop] at hb hc
  exact h (n + i) b hb hl j c hj hj' (by rw [Nat.add_assoc]; exact hc)

theorem decode_sound (bs : Bytes) (ht : TrailOk bs) (cp n : Nat)
    (h : utf8Decode bs bs.length = .ok (some (cp, n))) : WfChar (bs.take n) := by
  cases bs with
  | nil => simp [utf8Decode] at h
  | cons b tl =>
    have hb := b.toNat_lt
    by_cases h1 : b.toNat < 128
    · rw [decode1 b tl _ (by simp) h1] at h
      simp at h; obtain ⟨_, rfl⟩ := h
      exact .r1 b ⟨by omega, by omega⟩
    by_cases h2 : b.toNat < 192 ∨ 248 ≤ b.toNat
    · rw [decode_bad b tl _ ⟨by omega, h2⟩] at h; simp at h
    by_cases h3 : (b :: tl).length < leadLen b
    · rw [decode_short b tl _ (by omega) h3] at h; simp at h
    have hc := fun j c h1 h2 h3 => ht 0 b (by simp) (by omega) j c h1 h2 h3
    unfold leadLen at h3 hc
    by_cases h4 : b.toNat < 224
    · rw [if_pos h4] at h3 hc
      match tl with
      | [] => simp at h3
      | c :: tl =>
        have c1 := hc 1 c (by omega) (by omega) (by simp)
        rw [decode2 b c tl _ (by simp) (by omega)] at h
        obtain ⟨e, s, l⟩ := accept_some (Res.ok.inj h)
        cases e
        unfold isCont inR at c1
        refine .r2 b c ⟨?_, by omega⟩ c1
        by_cases hx : 0x80 ≤ (b.toNat - 192) * 64 + c.toNat % 64
        · omega
        · rw [if_neg (by omega), if_neg (by omega), if_neg (by omega)] at l; omega
    rw [if_neg h4] at h3 hc
    by_cases h5 : b.toNat < 240
    · rw [if_pos h5] at h3 hc
      match tl with
      | [] => simp at h3
      | [_] => simp at h3
      | c :: d :: tl =>
        have c1 := hc 1 c (by omega) (by omega) (by simp)
        have c2 := hc 2 d (by omega) (by omega) (by simp)
        rw [decode3 b c d tl _ (by simp) (by omega)] at h
        obtain ⟨e, s, l⟩ := accept_some (Res.ok.inj h)
        cases e
        rw [notScalar_false] at s
        unfold isCont inR at c1 c2
        by_cases hx : 0x800 ≤ ((b.toNat - 224) * 64 + c.toNat % 64) * 64 + d.toNat % 64
        · by_cases e1 : b.toNat = 0xE0
          · exact .r3 b c d ⟨by omega, by omega⟩ ⟨by omega, by omega⟩ c2
          by_cases e2 : b.toNat ≤ 0xEC
          · exact .r4 b c d ⟨by omega, by omega⟩ c1 c2
          by_cases e3 : b.toNat = 0xED
          · exact .r5 b c d ⟨by omega, by omega⟩ ⟨by omega, by omega⟩ c2
          · exact .r6 b c d ⟨by omega, by omega⟩ c1 c2
        · rw [if_neg hx, if_neg (show ¬ ((b.toNat - 224) * 64 + c.toNat % 64) * 64 + d.toNat % 64 ≥ 0x10000 by omega)] at l
          split at l <;> omega
    · rw [if_neg h5] at h3 hc
      match tl with
      | [] => simp at h3
      | [_] => simp at h3
      | [_, _] => simp at h3
      | c :: d :: f :: tl =>
        have c1 := hc 1 c (by omega) (by omega) (by simp)
        have c2 := hc 2 d (by omega) (by omega) (by simp)
        have c3 := hc 3 f (by omega) (by omega) (by simp)
        rw [decode4 b c d f tl _ (by simp) (by omega)] at h
        obtain ⟨e, s, l⟩ := accept_some (Res.ok.inj h)
        cases e
        rw [notScalar_false] at s
        unfold isCont inR at c1 c2 c3
        by_cases hx : 0x10000 ≤ (((b.toNat - 240) * 64 + c.toNat % 64) * 64 + d.toNat % 64) * 64
            + f.toNat % 64
        · by_cases e1 : b.toNat = 0xF0
          · exact .r7 b c d f ⟨by omega, by omega⟩ ⟨by omega, by omega⟩ c2 c3
          by_cases e2 : b.toNat ≤ 0xF3
          · exact .r8 b c d f ⟨by omega, by omega⟩ c1 c2 c3
          · exact .r9 b c d f ⟨by omega, by omega⟩ ⟨by omega, by omega⟩ c2 c3
        · rw [if_neg hx] at l
          split at l <;> split at l <;> omega

/-- C08, partial: the claim holds for texts in which every byte announced by a lead byte is a
continuation byte.  Missing: texts in which a lead byte is followed by something else; those are
accepted although they are ill-formed (`C08_counterexample`). -/
theorem C08_validate_partial (bs : Bytes) (ht : TrailOk bs) :
    utf8Validate bs = .ok true ↔ WellFormed bs := by
  constructor
  · intro h
    induction hn : bs.length using Nat.strongRecOn generalizing bs with
    | _ m ih =>
      cases bs with
      | nil => exact .nil
      | cons b tl =>
        obtain ⟨r, hr, hr'⟩ := C08_decode_total (b :: tl) (b :: tl).length (Nat.le_refl _)
        rw [utf8Validate, if_neg (by simp), hr] at h
        match r, hr, hr', h with
        | some (cp, n), hr, hr', h =>
          obtain ⟨hp, hle⟩ := hr' cp n rfl
          simp only [hp, if_true] at h
          have := ih _ (by rw [List.length_drop]; omega) _ (ht.drop n) h rfl
          have hw := decode_sound _ ht cp n hr
          rw [← List.take_append_drop n (b :: tl)]
          exact .cons _ _ hw this
        | none, hr, hr', h => simp at h
  · exact C08_accepts_well_formed bs

/-- C08: validation never runs out of bounds. -/
theorem C08_validate_total (bs : Bytes) : ∃ b, utf8Validate bs = .ok b := by
  induction hn : bs.length using Nat.strongRecOn generalizing bs with
  | _ m ih =>
    by_cases h0 : bs.length = 0
    · exact ⟨true, by rw [utf8Validate, if_pos h0]⟩
    obtain ⟨r, hr, hr'⟩ := C08_decode_total bs bs.length (Nat.le_refl _)
    match r, hr, hr' with
    | none, hr, hr' => exact ⟨false, by rw [utf8Validate, if_neg h0, hr]⟩
    | some (cp, n), hr, hr' =>
      obtain ⟨hp, hle⟩ := hr' cp n rfl
      obtain ⟨b, hb⟩ := ih _ (by rw [List.length_drop]; omega) (bs.drop n) rfl
      exact ⟨b, by rw [utf8Validate, if_neg h0, hr]; simp only [hp, if_true]; exact hb⟩

theorem not_wf : ¬ WellFormed [0xC3, 0x41] := by
  intro h
  generalize hb : ([0xC3, 0x41] : Bytes) = bs at h
  cases h with
  | nil => simp at hb
  | cons c rest hc hr =>
    clear hr
    cases hc with
    | r1 a h => simp at hb; obtain ⟨rfl, _⟩ := hb; revert h; decide
    | r2 a b h1 h2 => simp at hb; obtain ⟨rfl, rfl, _⟩ := hb; revert h2; decide
    | r3 | r4 | r5 | r6 => simp at hb
    | r7 | r8 | r9 => simp at hb

/-- C08, negation: the claim is false of the code; the trailing bytes are not checked
(utils.cpp:273). -/
theorem C08_counterexample : ¬ C08_claim := by
  intro h
  have h1 : utf8Validate [0xC3, 0x41] = .ok true := by
    rw [utf8Validate]
    simp only [List.length_cons, List.length_nil]
    rw [show utf8Decode [0xC3, 0x41] (0 + 1 + 1) = .ok (some (193, 2)) by decide]
    simp [utf8Validate]
  exact not_wf ((h _).1 h1)

example : TrailOk [0x41, 0xE2, 0x82, 0xAC, 0xC3] := by
  intro i b hb hl j c hj hj' hc
  have hi : i < 5 := (List.getElem?_eq_some_iff.1 hb).1
  have hij : i + j < 5 := (List.getElem?_eq_some_iff.1 hc).1
  revert b c
  have : (i = 0 ∨ i = 1 ∨ i = 2 ∨ i = 3) ∧ (j = 1 ∨ j = 2 ∨ j = 3 ∨ j = 4) := by omega
  obtain ⟨h1, h2⟩ := this
  rcases h1 with rfl | rfl | rfl | rfl <;> rcases h2 with rfl | rfl | rfl | rfl <;>
    simp <;> first | decide | (unfold isCont; decide)

/-! ## C09 -/

/-- C09: `utf16_encode` fails exactly on non-scalar values. -/
theorem C09_encode_domain (cp : Nat) : (∃ us, utf16Encode cp = some us) ↔ Scalar cp := by
  unfold utf16Encode Scalar
  by_cases h2 : notScalar cp = true
  · rw [if_pos h2]
    simp [notScalar] at h2; simp; omega
  · rw [if_neg h2]
    have := notScalar_false.1 (by simpa using h2)
    constructor
    · intro _; omega
    · intro _; split
      all_goals exact ⟨_, rfl⟩

/-- Well-formed UTF-16: surrogates occur only as high/low pairs. -/
inductive WellFormed16 : List Nat → Prop
  | nil : WellFormed16 []
  | bmp (u us) : ¬ (0xD800 ≤ u ∧ u ≤ 0xDFFF) → WellFormed16 us → WellFormed16 (u :: us)
  | pair (h l us) : 0xD800 ≤ h → h ≤ 0xDBFF → 0xDC00 ≤ l → l ≤ 0xDFFF → WellFormed16 us →
      WellFormed16 (h :: l :: us)

/-- C09: decoding the encoder's output returns the code point and consumes exactly the units
written; every unit fits 16 bits. -/
theorem C09_round_trip (cp : Nat) (us rest : List Nat) (avail : Nat) (h : utf16Encode cp = some us)
    (ha : us.length ≤ avail) :
    utf16Decode (us ++ rest) avail = .ok (some (cp, us.length)) ∧ ∀ u ∈ us, u < 2 ^ 16 := by
  have hs := (C09_encode_domain cp).1 ⟨us, h⟩
  unfold Scalar at hs
  unfold utf16Encode at h
  rw [if_neg (by rw [Bool.not_eq_true, notScalar_false]; omega)] at h
  split at h
  · next h1 =>
    cases h
    simp only [List.length_cons, List.length_nil] at ha
    refine ⟨?_, by simp; omega⟩
    simp only [List.cons_append, List.nil_append, utf16Decode]
    rw [if_neg (by omega), if_pos (by omega)]; rfl
  · next h1 =>
    cases h
    simp only [List.length_cons, List.length_nil] at ha
    refine ⟨?_, by simp; omega⟩
    simp only [List.cons_append, List.nil_append, utf16Decode, and_3FF, Nat.shiftRight_eq_div_pow,
      Nat.shiftLeft_eq]
    rw [if_neg (by omega), if_neg (by omega), if_neg (by omega), if_neg (by omega), if_neg (by omega)]
    congr 3
    omega

/-- C09: `utf16_validate` accepts exactly the well-formed sequences, and never runs out of bounds. -/
theorem C09_validate (us : List Nat) :
    (utf16Validate us = .ok true ∧ WellFormed16 us) ∨ (utf16Validate us = .ok false ∧ ¬ WellFormed16 us) := by
  induction hn : us.length using Nat.strongRecOn generalizing us with
  | _ m ih =>
    cases us with
    | nil => left; exact ⟨by rw [utf16Validate]; rfl, .nil⟩
    | cons u tl =>
      rw [utf16Validate, if_neg (by simp)]
      simp only [utf16Decode, List.length_cons]
      rw [if_neg (by omega)]
      by_cases h1 : u < 0xD800 ∨ u ≥ 0xE000
      · rw [if_pos h1]
        simp only [Nat.zero_lt_one, if_true, List.drop_one, List.tail_cons]
        rcases ih tl.length (by simp at hn; omega) tl rfl with ⟨h, hw⟩ | ⟨h, hw⟩
        · left; exact ⟨h, .bmp u tl (by omega) hw⟩
        · right; refine ⟨h, fun hc => ?_⟩
          cases hc with
          | bmp _ _ _ hx => exact hw hx
          | pair => omega
      rw [if_neg h1]
      by_cases h2 : u ≥ 0xDC00
      · rw [if_pos h2]; right
        refine ⟨rfl, fun hc => ?_⟩
        cases hc <;> omega
      rw [if_neg h2]
      cases tl with
      | nil =>
        right
        refine ⟨by simp, fun hc => ?_⟩
        cases hc; omega
      | cons l tl =>
        simp only [List.length_cons]
        rw [if_neg (by omega)]
        by_cases h3 : l < 0xDC00 ∨ l ≥ 0xE000
        · rw [if_pos h3]; right
          refine ⟨rfl, fun hc => ?_⟩
          cases hc <;> omega
        · rw [if_neg h3]
          simp only [Nat.zero_lt_two, if_true, List.drop_succ_cons, List.drop_zero]
          rcases ih tl.length (by simp at hn; omega) tl rfl with ⟨h, hw⟩ | ⟨h, hw⟩
          · left; exact ⟨h, .pair u l tl (by omega) (by omega) (by omega) (by omega) hw⟩
          · right; refine ⟨h, fun hc => ?_⟩
            cases hc with
            | bmp => omega
            | pair _ _ _ _ _ _ _ hx => exact hw hx

example : utf16Encode 0x1F600 = some [0xD83D, 0xDE00] ∧ utf16Encode 0xDC00 = none := by decide
example : WellFormed16 [0x41, 0xD83D, 0xDE00] :=
  .bmp _ _ (by decide) (.pair _ _ _ (by decide) (by decide) (by decide) (by decide) .nil)

end Asteria.Utf
