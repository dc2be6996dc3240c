import Verif.Model.NumText

/-!
# Signed arithmetic in the parser of numbers

/repo/asteria/src/rocket/ascii_numget.cpp.  `NumText.collectDigits` models what the parser computes; here is the same function,
where signed arithmetic that overflows has the outcome `ub`.
-/

namespace Asteria.NumText

/-- Whether a mathematical integer is an `int64_t`. -/
def fits64 (x : Int) : Bool := decide (-2 ^ 63 ≤ x ∧ x < 2 ^ 63)

/-- The loop that collects the digits of the exponent, ascii_numget.cpp:170-183.  `xu.exp - exp_orig` and
`(digit ^ exp_sign) - exp_sign + exp_orig` are signed expressions; `mulm` and `addm` wrap around. -/
def exponentLoopC (neg : Bool) (orig : Int) : Bytes → Int → Bool → Res (Int × Bool × Bytes)
  | [], exp, ovfl => .ok (exp, ovfl, [])
  | c :: cs, exp, ovfl =>
    let digit := digitValue c
    if digit ≥ 10 then .ok (exp, ovfl, c :: cs)
    else if ¬ fits64 (exp - orig) then .ub
    else
      let x := (exp - orig) * 10
      let x' := Int.bmod x (2 ^ 64)
      let z := (if neg then -(digit : Int) else digit) + orig
      if ¬ fits64 z then .ub
      else
        let y := x' + z
        let y' := Int.bmod y (2 ^ 64)
        exponentLoopC neg orig cs y' (ovfl || decide (x ≠ x') || decide (y ≠ y'))

/-- `do_collect_digits`, ascii_numget.cpp:101-189.  Increments of `xu.exp` at lines 139 and 143 overflow only if there are 2^63
digits, which are left out. -/
def collectDigitsC (base : Nat) (rdxp : Option UInt8) (s : Bytes) : Res (XUInt × Bytes) :=
  let r := collectLoop base rdxp s ⟨0, 0, false, false, false, false⟩
  let xu := if base = 16 then { r.1 with exp := r.1.exp * 4 } else r.1
  let delim : UInt8 := if base = 10 then 101 else 112
  let go (neg : Bool) (rest : Bytes) : Res (XUInt × Bytes) :=
    (exponentLoopC neg xu.exp rest xu.exp false).map fun e =>
      ({ xu with exp := if e.2.1 then (if neg then -2 ^ 63 else 2 ^ 63 - 1) else e.1 }, e.2.2)
  match r.2 with
  | c₀ :: c₁ :: rest =>
    if (c₀ ||| 0x20) = delim ∧ isDec c₁ then go false (c₁ :: rest)
    else
      match rest with
      | c₂ :: _ =>
        if (c₀ ||| 0x20) = delim ∧ (c₁ = 43 ∨ c₁ = 45) ∧ isDec c₂ then go (c₁ = 45) rest
        else .ok (xu, r.2)
      | [] => .ok (xu, r.2)
  | _ => .ok (xu, r.2)

/-- `parse_DD`, ascii_numget.cpp:1185-1212, on which `parse_D` relies for decimal numbers. -/
def parseDecC (s : Bytes) : Res (Option (NumGet × Bytes)) :=
  let g := getSign s
  match getSpecial g.2 with
  | some rest => .ok (some (⟨true, g.1, 0, 0, 0, false⟩, rest))
  | none => (collectDigitsC 10 (some 46) g.2).map fun r =>
    if r.1.valid then some (⟨false, g.1, 10, r.1.exp, r.1.mant, r.1.more⟩, r.2) else none

end Asteria.NumText
