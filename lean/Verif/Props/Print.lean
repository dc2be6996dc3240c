import Verif.Proof.Print

/-!
# C158: what values look like in messages and dumps
-/

namespace Asteria.Print

open Backtrace (numeral integer)

/-- **C158, `print_to`.** Whatever a value is made of, and however deep, its text is written in one line, elements in order. -/
theorem C158_print (T : Texts) (v : Value) (h : Fits v) : print T v = .ok (text T v) := by
  unfold print
  rw [run_all, whole_text T 0 v h]

/-- **C158, `dump`.** It is written with types and sizes, with a line for each element, indented as deep as it is. -/
theorem C158_dump (T : Texts) (indent hanging : Nat) (v : Value) (h : Fits v) :
    dump T indent hanging v = .ok (details T indent hanging 0 v) := by
  unfold dump
  rw [run_all, whole_details T indent hanging 0 v h]

/-- **C158, `std.debug.dump`.** The indention is 2 unless given, and clamped to 0 and 40. -/
theorem C158_debug (T : Texts) (v : Value) (h : Fits v) :
    debugDump T v none = .ok (details T 2 0 0 v)
    ∧ (∀ n : Int, n ≤ 0 → debugDump T v (some n) = .ok (details T 0 0 0 v))
    ∧ (∀ n : Nat, n ≤ 40 → debugDump T v (some n) = .ok (details T n 0 0 v))
    ∧ (∀ n : Int, 40 ≤ n → debugDump T v (some n) = .ok (details T 40 0 0 v)) := by
  unfold debugDump
  refine ⟨C158_dump T 2 0 v h, fun n hn => ?_, fun n hn => ?_, fun n hn => ?_⟩
  · rw [C158_dump T _ 0 v h, show (max 0 (min ((some n).getD 2) 40)).toNat = 0 by simp only [Option.getD_some]; omega]
  · rw [C158_dump T _ 0 v h, show (max 0 (min ((some (n : Int)).getD 2) 40)).toNat = n by simp only [Option.getD_some]; omega]
  · rw [C158_dump T _ 0 v h, show (max 0 (min ((some n).getD 2) 40)).toNat = 40 by simp only [Option.getD_some]; omega]

/-- **C158, one line.** What `print_to` writes has printable characters only, whatever is in strings and keys (if so do reals, opaque
values and functions). -/
theorem C158_printable (T : Texts) (h1 : ∀ d, Printable (T.real d)) (h2 : ∀ k, Printable (T.opq k)) (h3 : ∀ k, Printable (T.func k))
    (v : Value) (h : Fits v) : ∃ s, print T v = .ok s ∧ Printable s :=
  ⟨_, C158_print T v h, text_printable T h1 h2 h3 v⟩

/-! ## Cases -/

/-- Some texts. -/
def someTexts : Texts := ⟨fun _ => lit "1.5", fun _ => lit "native", fun _ => lit "f() at 'a:1:1'"⟩

/-- `[ 1, { "a\n": null, "b": [ ] }, [ "x" ] ]` -/
def someValue : Value := .arr [.int 1, .obj [([0x61, 10], .null), ([0x62], .arr [])], .arr [.str [0x78]]]

example : Fits someValue := by simp [someValue, Fits, FitsList, FitsFields]

example : print someTexts someValue = .ok (lit "[ 1, { \"a\\n\": null, \"b\": [ ] }, [ \"x\" ] ]") := by decide +kernel

example : dump someTexts 2 0 someValue
    = .ok (lit "array(3) [\n  0 = integer 1;\n  1 = object(2) {\n    \"a\\n\" = null;\n    \"b\" = array(0) [ ];\n  };\n  2 = array(1) [\n    0 = string(1) \"x\";\n  ];\n];") := by
  decide +kernel

example : dump someTexts 0 5 (.arr [.bool true]) = .ok (lit "array(1) [ 0 = boolean true; ];") := by decide +kernel

example : Printable (someTexts.func 3) := Printable.of_all (by decide +kernel)

end Asteria.Print
