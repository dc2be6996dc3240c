import Verif.Proof.Codec

namespace Asteria.Codec

theorem forall_u8 {P : UInt8 → Prop} (h : ∀ i : Fin 256, P (UInt8.ofNat i.val)) : ∀ c, P c := by
  intro c
  have := h ⟨c.toNat, c.toNat_lt⟩
  simpa using this

instance {P : UInt8 → Prop} [DecidablePred P] : Decidable (∀ c, P c) :=
  decidable_of_iff (∀ i : Fin 256, P (UInt8.ofNat i.val)) ⟨forall_u8, fun h _ => h _⟩

theorem urlPlain_facts : ∀ c : UInt8, urlPlain c = true → urlBad c = false ∧ c ≠ 37 := by
  decide +kernel

theorem urlQueryPlain_facts : ∀ c : UInt8, urlQueryPlain c = true →
    urlBad c = false ∧ c ≠ 43 ∧ c ≠ 37 := by
  decide +kernel

/-- The two digits `urlEscape` writes. -/
def escHi (c : UInt8) : UInt8 := (tableAt base16Table ((c.toNat &&& 0xF0) >>> 3)).getD 0
def escLo (c : UInt8) : UInt8 := (tableAt base16Table ((c.toNat &&& 0x0F) <<< 1)).getD 0

theorem urlEscape_facts : ∀ c : UInt8, urlEscape c = .ok [37, escHi c, escLo c] ∧
    ((xstrchr base16Table (escHi c)).map fun ph => (xstrchr base16Table (escLo c)).map
      fun pl => UInt8.ofNat (ph / 2 * 16 + pl / 2)) = some (some c) := by
  decide +kernel

theorem urlEscape_facts' (c : UInt8) : urlEscape c = .ok [37, escHi c, escLo c] ∧
    ∃ ph pl, xstrchr base16Table (escHi c) = some ph ∧ xstrchr base16Table (escLo c) = some pl ∧
      UInt8.ofNat (ph / 2 * 16 + pl / 2) = c := by
  obtain ⟨h1, h2⟩ := urlEscape_facts c
  refine ⟨h1, ?_⟩
  cases ha : xstrchr base16Table (escHi c) with
  | none => simp [ha] at h2
  | some ph =>
    cases hb : xstrchr base16Table (escLo c) with
    | none => simp [ha, hb] at h2
    | some pl => exact ⟨ph, pl, rfl, rfl, by simpa [ha, hb] using h2⟩

theorem urlDecode_plain (c : UInt8) (t : Bytes) (h1 : urlBad c = false) (h2 : c ≠ 37) :
    urlDecode (c :: t) = (urlDecode t).map (c :: ·) := by
  match t with
  | [] => simp [urlDecode, h1, h2]
  | [x] => rw [urlDecode] <;> simp [h1, h2]
  | x :: y :: t => rw [urlDecode]; simp [h1, h2]

theorem urlQueryDecode_plain (c : UInt8) (t : Bytes) (h1 : urlBad c = false) (h2 : c ≠ 37) :
    urlQueryDecode (c :: t) = (urlQueryDecode t).map ((if c = 43 then 32 else c) :: ·) := by
  match t with
  | [] => simp [urlQueryDecode, h1, h2]; split <;> rfl
  | [x] =>
    rw [urlQueryDecode] <;> simp [h1, h2]
    split <;> (cases urlQueryDecode [x] <;> rfl)
  | x :: y :: t =>
    rw [urlQueryDecode]; simp [h1, h2]
    split <;> (cases urlQueryDecode (x :: y :: t) <;> rfl)

theorem urlEncode_ok (s : Bytes) : ∃ t, urlEncode s = .ok t ∧ urlDecode t = .ok s := by
  induction s with
  | nil => exact ⟨[], rfl, rfl⟩
  | cons c cs ih =>
    obtain ⟨t, h1, h2⟩ := ih
    by_cases hc : urlPlain c = true
    · obtain ⟨g1, g2⟩ := urlPlain_facts c hc
      refine ⟨c :: t, ?_, ?_⟩
      · rw [urlEncode]; simp [hc, h1]
      · rw [urlDecode_plain _ _ g1 g2, h2]; rfl
    · obtain ⟨e, ph, pl, e1, e2, e3⟩ := urlEscape_facts' c
      refine ⟨37 :: escHi c :: escLo c :: t, ?_, ?_⟩
      · rw [urlEncode]; simp [hc, e, h1]
      · rw [urlDecode]; simp [show urlBad 37 = false by decide, e1, e2, e3, h2]

theorem urlQueryEncode_ok (s : Bytes) :
    ∃ t, urlQueryEncode s = .ok t ∧ urlQueryDecode t = .ok s := by
  induction s with
  | nil => exact ⟨[], rfl, rfl⟩
  | cons c cs ih =>
    obtain ⟨t, h1, h2⟩ := ih
    by_cases hc : urlQueryPlain c = true
    · obtain ⟨g1, g2, g3⟩ := urlQueryPlain_facts c hc
      refine ⟨c :: t, ?_, ?_⟩
      · rw [urlQueryEncode]; simp [hc, h1]
      · rw [urlQueryDecode_plain _ _ g1 g3, h2]; simp [g2]
    · by_cases h32 : c = 32
      · subst h32
        refine ⟨43 :: t, ?_, ?_⟩
        · rw [urlQueryEncode]; simp [hc, h1]
        · rw [urlQueryDecode_plain _ _ (by decide) (by decide), h2]; rfl
      · obtain ⟨e, ph, pl, e1, e2, e3⟩ := urlEscape_facts' c
        refine ⟨37 :: escHi c :: escLo c :: t, ?_, ?_⟩
        · rw [urlQueryEncode]; simp [hc, h32, e, h1]
        · rw [urlQueryDecode]; simp [show urlBad 37 = false by decide, e1, e2, e3, h2]

end Asteria.Codec
