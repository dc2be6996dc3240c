import Verif.Model.Basic

/-!
# Numbers in JSON

RFC 8259, section 6, without reference to the model.
-/

namespace Asteria.RfcNumber

/-- `*DIGIT` -/
def Digits (t : Bytes) : Prop := ∀ b ∈ t, 0x30 ≤ b.toNat ∧ b.toNat ≤ 0x39

/-- `int = zero / ( digit1-9 *DIGIT )` -/
def Int (t : Bytes) : Prop := t = [0x30] ∨ ∃ d ds, t = d :: ds ∧ 0x31 ≤ d.toNat ∧ d.toNat ≤ 0x39 ∧ Digits ds

/-- `[ frac ]`, where `frac = decimal-point 1*DIGIT` -/
def Frac (t : Bytes) : Prop := t = [] ∨ ∃ ds, ds ≠ [] ∧ Digits ds ∧ t = 0x2E :: ds

/-- `[ exp ]`, where `exp = e [ minus / plus ] 1*DIGIT` -/
def Exp (t : Bytes) : Prop :=
  t = [] ∨ ∃ e s ds, (e = 0x65 ∨ e = 0x45) ∧ (s = [] ∨ s = [0x2D] ∨ s = [0x2B]) ∧ ds ≠ [] ∧ Digits ds ∧ t = e :: (s ++ ds)

/-- `number = [ minus ] int [ frac ] [ exp ]` -/
def Number (t : Bytes) : Prop :=
  ∃ m i f e, (m = [] ∨ m = [0x2D]) ∧ Int i ∧ Frac f ∧ Exp e ∧ t = m ++ (i ++ (f ++ e))

end Asteria.RfcNumber
