import Verif.Proof.JsonShape
import Verif.Proof.JsonRead
import Verif.Proof.JsonWrite

/-!
# Properties of the JSON library
-/

namespace Asteria.Json

open JsonSpec
open NumText (NumGet parseBase)

variable (putD : Dbl → Bytes) (ofInt : Int → Dbl) (castD : NumGet → Option Dbl)

/-! ### A concrete case

Numbers below ten, and an object with an array and a string that needs escape sequences. -/

def demoPut : Dbl → Bytes
  | .fin q => [UInt8.ofNat (0x30 + q.num.toNat % 10)]
  | _ => []

def demoCast (g : NumGet) : Option Dbl := if g.exp = 0 then some (.fin g.mant) else none

def demoInt (i : Int) : Dbl := .fin i

theorem demo_survives : Survives demoPut demoCast (.fin 7) :=
  ⟨⟨[], [0x37], [], [], .inl rfl, ⟨by simp, by simp⟩, .inl rfl, .inl rfl, by decide +kernel⟩,
    ⟨false, false, 10, 0, 7, false⟩, by decide +kernel, by decide +kernel⟩

/-- `{"a": [7, 7.0, null, true], "€\n\"": {}}` -/
def demo : Value :=
  .obj [([0x61], .arr [.int 7, .real (.fin 7), .null, .bool true]), ([0xE2, 0x82, 0xAC, 0x0A, 0x22], .obj [])]

theorem demo_good : Good demoInt (Survives demoPut demoCast) demo := by
  have h : Survives demoPut demoCast (demoInt 7) := demo_survives
  have w1 : Utf.WellFormed [0x61] := wf_char (.r1 _ (by unfold Utf.inR; decide))
  have w2 : Utf.WellFormed ([0xE2, 0x82, 0xAC] ++ ([0x0A] ++ ([0x22] ++ []))) :=
    .cons _ _ (.r4 _ _ _ (by unfold Utf.inR; decide) (by unfold Utf.inR; decide) (by unfold Utf.inR; decide))
      (.cons _ _ (.r1 _ (by unfold Utf.inR; decide)) (.cons _ _ (.r1 _ (by unfold Utf.inR; decide)) .nil))
  simp only [demo, Good, GoodList, GoodFields]
  exact ⟨by decide, w1, ⟨h, demo_survives, trivial, trivial, trivial⟩, w2, by simp, trivial⟩

theorem demo_height : height demo = 2 := by simp [demo, height, heightList, heightFields]

/-! ### C56 -/

/-- **C56.** The formatter succeeds on every value with UTF-8 text and distinct keys, and what it writes is the JSON text
of the value, with the indentation that was asked for. -/
theorem C56_text (P : Dbl → Prop) (add : Bytes) (v : Value) (h : Good ofInt P v) :
    ∃ t, format putD ofInt add v = .ok t ∧ Writes putD ofInt add (if add = [] then [] else [0x0A]) (.val v) t := by
  obtain ⟨t, ht⟩ := writes_val (putD := putD) (add := add) P v (if add = [] then [] else [0x0A]) h
  exact ⟨t, format_ok ht, ht⟩

theorem blank_indent {add : Bytes} : Blank (if add = [] then [] else [0x0A]) := by
  split <;> simp [Blank]

/-- **C56.** What the formatter writes, with an indentation of blanks and with blanks around it, is read back as the value,
where integers have become real numbers and what has no JSON equivalent has become null. -/
theorem C56_round_trip (add : Bytes) (ha : Blank add) (v : Value) (h : Good ofInt (Survives putD castD) v)
    (hh : height v ≤ 32) :
    ∃ t, format putD ofInt add v = .ok t ∧
      ∀ w₁ w₂, Blank w₁ → Blank w₂ → parse castD (w₁ ++ (t ++ w₂)) = .ok (norm ofInt v) := by
  obtain ⟨t, h1, h2⟩ := C56_text putD ofInt _ add v h
  exact ⟨t, h1, fun w₁ w₂ hw₁ hw₂ => parse_ok h2 h hh blank_indent ha hw₁ hw₂⟩

/-- **C56.** The same for the overload that takes the number of spaces. -/
theorem C56_round_trip_spaces (n : Int) (v : Value) (h : Good ofInt (Survives putD castD) v) (hh : height v ≤ 32) :
    ∃ t, format putD ofInt (spaces n) v = .ok t ∧ parse castD t = .ok (norm ofInt v) := by
  have ha : Blank (spaces n) := by
    unfold spaces
    split
    · simp [Blank]
    · intro b hb; exact .inl (List.eq_of_mem_replicate hb)
  obtain ⟨t, h1, h2⟩ := C56_round_trip putD ofInt castD _ ha v h hh
  exact ⟨t, h1, by simpa using h2 [] [] (by simp [Blank]) (by simp [Blank])⟩

/-- **C56.** All numbers that can be read survive being written: then every value that has been read is read back
unchanged. -/
theorem C56_reparse (hc : ∀ g d, castD g = some d → (∃ q, d = .fin q) ∧ Survives putD castD d) (add : Bytes)
    (ha : Blank add) (text : Bytes) (v : Value) (h : parse castD text = .ok v) :
    ∃ t, format putD ofInt add v = .ok t ∧ parse castD t = .ok v := by
  obtain ⟨hg, hn, hh⟩ := parse_fit ofInt _ castD hc text v h
  obtain ⟨t, h1, h2⟩ := C56_round_trip putD ofInt castD add ha v hg (by omega)
  refine ⟨t, h1, ?_⟩
  have := h2 [] [] (by simp [Blank]) (by simp [Blank])
  rw [hn] at this
  simpa using this

/-- The concrete case, with tabs. -/
example : ∃ t, format demoPut demoInt [0x09] demo = .ok t ∧
    ∀ w₁ w₂, Blank w₁ → Blank w₂ → parse demoCast (w₁ ++ (t ++ w₂)) = .ok (norm demoInt demo) :=
  C56_round_trip demoPut demoInt demoCast [0x09] (by simp [Blank]) demo demo_good (by rw [demo_height]; decide)

/-- What is written for it. -/
example : format demoPut demoInt [0x09] (.arr [.int 7, .str [0xE2, 0x82, 0xAC, 0x0A, 0x22]]) =
    .ok "[\n\t7,\n\t\"\\u20AC\\n\\\"\"\n]".toUTF8.toList := by decide +kernel

/-! ### C57 -/

/-- **C57** as stated: no input is undefined. -/
def C57_claim : Prop := ∀ text : Bytes, parse castD text ≠ .ub

/-- **C57.** False of the code: after a lead byte of 0xFC, five bytes are copied to a buffer of four. -/
theorem C57_false : ¬ C57_claim castD := fun h => h [0xFC, 0x80, 0x80, 0x80, 0x80, 0x80] rfl

/-- **C57.** The same inside of a string, whatever precedes and follows the five bytes. -/
theorem C57_false_string (a b c d e : UInt8) (r : Bytes) : parse castD (0x22 :: 0xFC :: a :: b :: c :: d :: e :: r) = .ub := by
  have hl : load (0xFC :: a :: b :: c :: d :: e :: r) = .ub := by
    unfold load
    simp only
    rw [if_neg (by decide), if_pos (by decide), if_neg (by decide), if_pos]
    rw [show u8len (0xFC : UInt8).toNat = 6 by decide]
    simp only [List.length_cons]
    omega
  unfold parse token
  simp only
  rw [load_ascii _ (show (0x22 : UInt8).toNat < 128 by decide)]
  simp only [Res.bind]
  rw [if_neg (show ¬ (_ ∧ (0x22 : UInt8).toNat = 0xFEFF) from fun h => absurd h.2 (by decide +kernel))]
  unfold skipWs body
  rw [if_neg (by decide), if_neg (by decide), if_neg (by decide), if_neg (by decide), if_pos (by decide), strLoop,
    List.dropWhile_cons_of_neg (by decide), hl]
  rfl

/-- **C57, partial.** If there is no byte from 0xFC on, then reading is defined, whatever the input.  What is missing is
inputs with such bytes, for some of which the claim is false. -/
theorem C57_partial (text : Bytes) (h : ∀ b ∈ text, b.toNat < 0xFC) : parse castD text ≠ .ub := parse_sat castD h

example : parse castD [0x5B, 0xFB, 0x80] ≠ .ub := C57_partial castD _ (by decide +kernel)

/-! ### C60 -/

/-- **C60.** Whatever the input, there are never more than thirty-three open containers. -/
theorem C60_stack (text : Bytes) (st : State) (h : Reach castD text st) : st.depth ≤ 33 := reach_depth castD text h

/-- **C60.** The elements of a value that is read are nested no deeper than thirty-two levels. -/
theorem C60_height (hc : ∀ g d, castD g = some d → ∃ q, d = .fin q) (text : Bytes) (v : Value) (h : parse castD text = .ok v) :
    height v ≤ 32 := by
  have := parse_fit (fun _ => .nan) (fun _ => True) castD (fun g d h => ⟨hc g d h, trivial⟩) text v h
  have := this.2.2
  omega

/-- **C60.** An input that opens thirty-four arrays is an error, whatever follows. -/
theorem C60_throws (rest : Bytes) : parse castD (List.replicate 34 0x5B ++ rest) = .throw := too_deep castD rest

/-- An array in an array can be read. -/
example : parse demoCast [0x5B, 0x5B, 0x37, 0x5D, 0x5D] = .ok (.arr [.arr [.real (.fin 7)]]) := by
  have h : Good demoInt (Survives demoPut demoCast) (.arr [.arr [.real (.fin 7)]]) := by
    simp [Good, GoodList, demo_survives]
  have hw : Writes demoPut demoInt [] [] (.val (.arr [.arr [.real (.fin 7)]])) [0x5B, 0x5B, 0x37, 0x5D, 0x5D] :=
    .arr (t := [0x5B, 0x37, 0x5D]) (.elem (.arr (t := [0x37]) (.elem .fin)))
  have := parse_ok (w₁ := []) (w₂ := []) hw h (by decide +kernel) (by simp [Blank]) (by simp [Blank]) (by simp [Blank])
    (by simp [Blank])
  simpa [norm, normList] using this

/-! ### C87 -/

/-- **C87.** Whatever the input, all text in a value that is read is UTF-8 and the keys of each object are distinct. -/
theorem C87_good (hc : ∀ g d, castD g = some d → ∃ q, d = .fin q) (text : Bytes) (v : Value) (h : parse castD text = .ok v) :
    Good ofInt (fun _ => True) v :=
  (parse_fit ofInt (fun _ => True) castD (fun g d h => ⟨hc g d h, trivial⟩) text v h).1

/-- **C87.** A value that is read consists of null, booleans, finite real numbers, strings, arrays and objects. -/
theorem C87_norm (hc : ∀ g d, castD g = some d → ∃ q, d = .fin q) (text : Bytes) (v : Value) (h : parse castD text = .ok v) :
    norm ofInt v = v :=
  (parse_fit ofInt (fun _ => True) castD (fun g d h => ⟨hc g d h, trivial⟩) text v h).2.1

/-- The concrete case meets the hypothesis. -/
example : ∀ g d, demoCast g = some d → ∃ q, d = .fin q := by
  intro g d h
  unfold demoCast at h
  split at h
  · cases h; exact ⟨_, rfl⟩
  · cases h

end Asteria.Json
