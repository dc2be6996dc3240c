import Verif.Proof.JsonReal
import Verif.Proof.ValueSame
import Verif.Props.Json

/-!
# Which texts are JSON, and what they mean
-/

namespace Asteria.Json

open JsonSpec (Text Number Rounds RfcText RfcStr)
open Lexer.Spec (IsSign Numeral)
open RealText (value maximum Nearly)
open NumText (NumGet)

/-! ### C113 -/

section

variable (castD : NumGet → Option Dbl)

/-- **C113.** `std.json.parse` succeeds exactly on the texts of the grammar, and gives exactly the value which the grammar
says. -/
theorem C113_exact (text : Bytes) (v : Value) : parse castD text = .ok v ↔ Text (NumVal castD) text v :=
  ⟨parse_sound, parse_complete⟩

/-- **C113.** Every other text is rejected with an exception, if it has no byte from 0xFC on (see C57). -/
theorem C113_rejects (text : Bytes) (hb : ∀ b ∈ text, b.toNat < 0xFC) (h : ∀ v, ¬ Text (NumVal castD) text v) :
    parse castD text = .throw := by
  cases hp : parse castD text with
  | ok v => exact absurd (parse_sound hp) (h v)
  | throw => rfl
  | ub => exact absurd hp (C57_partial castD text hb)

/-- **C113.** A text has at most one value in the grammar. -/
theorem C113_unambiguous (text : Bytes) (v v' : Value) (h : Text (NumVal castD) text v) (h' : Text (NumVal castD) text v') : v = v' := by
  have a := parse_complete h
  rw [parse_complete h'] at a
  cases a
  rfl

end

/-- **C113.** With the actual conversion of numbers, every number in the value is within 0.51 units of what its text says. -/
theorem C113_value (text : Bytes) (hl : text.length ≤ 2 ^ 57) (v : Value) (h : parse castReal text = .ok v) : Text Rounds text v :=
  text_mono (fun _ _ hn hle hx => number_rounds hn (Nat.le_trans hle hl) hx) (parse_sound h)

/-- **C113.** No number is rejected unless its text says a number that is out of range. -/
theorem C113_range (t : Bytes) (h : Number t) (hl : t.length ≤ 2 ^ 57) :
    ∃ sgn neg u p, t = sgn ++ u ∧ IsSign sgn neg ∧ Numeral u p ∧ p.base = 10 ∧
      (p.exact ≤ maximum → ∃ x, parse castReal t = .ok (.real x) ∧ Rounds t x) := by
  obtain ⟨sgn, neg, u, p, h1, h2, h3, h4, h5, h6⟩ := number_numeral h
  refine ⟨sgn, neg, u, p, h1, h2, h3, h4, fun hm => ?_⟩
  obtain ⟨x, hx⟩ := number_range h hl h1 h2 h3 h4 h5 hm
  refine ⟨x, parse_complete ?_, number_rounds h hl hx⟩
  have := Text.mk (num := NumVal castReal) (.plain blank_nil) (.number (by omega) h hx) blank_nil
  simpa using this

/-! ### C114 -/

/-- **C114** as stated: what RFC 8259 says is a JSON text with distinct names that is not nested too deep is accepted. -/
def C114_claim : Prop := ∀ castD text v, RfcText (NumVal castD) text v → parse castD text = .ok v

/-- **C114, partial.** It is, if it has no character U+007F. -/
theorem C114_partial (castD : NumGet → Option Dbl) (text : Bytes) (v : Value) (hd : 0x7F ∉ text) (h : RfcText (NumVal castD) text v) :
    parse castD text = .ok v :=
  parse_complete (rfc_text h hd)

/-- Turns a computation into an equation. -/
theorem gives {castD : NumGet → Option Dbl} {text : Bytes} {v : Value}
    (h : (match parse castD text with | .ok w => same w v | _ => false) = true) : parse castD text = .ok v := by
  cases h1 : parse castD text with
  | ok w => rw [h1] at h; rw [eq_of_same w v h]
  | throw => rw [h1] at h; cases h
  | ub => rw [h1] at h; cases h

theorem fails {castD : NumGet → Option Dbl} {text : Bytes}
    (h : (match parse castD text with | .throw => true | _ => false) = true) : parse castD text = .throw := by
  cases h1 : parse castD text with
  | ok w => rw [h1] at h; cases h
  | throw => rfl
  | ub => rw [h1] at h; cases h

/-- The string of the character U+007F is a JSON text. -/
theorem rfc_delete (num : Bytes → Dbl → Prop) : RfcText num [0x22, 0x7F, 0x22] (.str [0x7F]) := by
  have h : RfcStr [0x22, 0x7F, 0x22] [0x7F] := by
    have := RfcStr.mk (.cons (.plain (c := 0x7F) (u := [0x7F]) (by decide +kernel) (by omega) (by omega) (by omega)) .nil)
    rw [show JsonSpec.utf8 [0x7F] = [0x7F] by decide +kernel] at this
    exact this
  simpa using RfcText.mk (num := num) blank_nil (.string (by omega) h) blank_nil

/-- **C114.** False of the code: a string with the character U+007F is rejected. -/
theorem C114_false : ¬ C114_claim := fun h => by
  have h1 := h demoCast _ _ (rfc_delete _)
  rw [fails (by decide +kernel)] at h1
  cases h1

/-- **C114.** Conversely, `parse` accepts more than RFC 8259 and trailing commas: a number with a plus sign or leading zeroes. -/
theorem C114_number_false : parse castReal "[+1, 007]".toUTF8.toList = .ok (.arr [.real (.fin 1), .real (.fin 7)]) ∧
    ¬ RfcNumber.Number "+1".toUTF8.toList ∧ ¬ RfcNumber.Number "007".toUTF8.toList := by
  refine ⟨gives (by decide +kernel), ?_, ?_⟩
  · rw [show "+1".toUTF8.toList = [0x2B, 0x31] by decide +kernel]
    rintro ⟨m, i, f, e, rfl | rfl, hi, hf, he, h⟩
    · rcases hi with rfl | ⟨d, ds, rfl, h1, h2, h3⟩
      · cases h
      · have := (List.cons.inj h).1; subst this; exact absurd h1 (by decide)
    · cases h
  · rw [show "007".toUTF8.toList = [0x30, 0x30, 0x37] by decide +kernel]
    rintro ⟨m, i, f, e, rfl | rfl, hi, hf, he, h⟩
    · rcases hi with rfl | ⟨d, ds, rfl, h1, h2, h3⟩
      · rcases hf with rfl | ⟨ds, h1, h2, rfl⟩
        · rcases he with rfl | ⟨e, s, ds, h1, h2, h3, h4, rfl⟩
          · cases h
          · have := (List.cons.inj (List.cons.inj h).2).1; subst this; exact absurd h1 (by decide)
        · cases h
      · have := (List.cons.inj h).1; subst this; exact absurd h1 (by decide)
    · cases h

/-! ### Concrete cases -/

example : parse castReal "{\"a\": [1, -2.5e-1,], \"\\u00e9\\ud83d\\ude00\": 1e-400,}".toUTF8.toList =
    .ok (.obj [([0x61], .arr [.real (.fin 1), .real (.fin (-1 / 4))]), ([0xC3, 0xA9, 0xF0, 0x9F, 0x98, 0x80], .real (.fin 0))]) :=
  gives (by decide +kernel)

example : parse castReal ([0xEF, 0xBB, 0xBF] ++ "true".toUTF8.toList) = .ok (.bool true) := gives (by decide +kernel)

example : parse castReal "1e400".toUTF8.toList = .throw := fails (by decide +kernel)

example : parse castReal "{\"a\":1,\"\\u0061\":1}".toUTF8.toList = .throw := fails (by decide +kernel)

end Asteria.Json
