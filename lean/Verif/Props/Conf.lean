import Verif.Proof.ConfSafe
import Verif.Proof.ValueSame

/-!
# Configuration files
-/

namespace Asteria.Conf

open ConfSpec
open JsonSpec (utf8)
open Utf (Scalar)

/-- Turns a computation into an equation. -/
theorem reads {file : Bytes} {v : Value} (h : (match loadConf file with | .ok w => same w v | _ => false) = true) : loadConf file = .ok v := by
  cases h1 : loadConf file with
  | ok w => rw [h1] at h; rw [eq_of_same w v h]
  | throw => rw [h1] at h; cases h
  | ub => rw [h1] at h; cases h

theorem rejects {file : Bytes} (h : (match loadConf file with | .throw => true | _ => false) = true) : loadConf file = .throw := by
  cases h1 : loadConf file with
  | ok w => rw [h1] at h; cases h
  | throw => rfl
  | ub => rw [h1] at h; cases h

theorem undef {file : Bytes} (h : (match loadConf file with | .ub => true | _ => false) = true) : loadConf file = .ub := by
  cases h1 : loadConf file with
  | ok w => rw [h1] at h; cases h
  | throw => rw [h1] at h; cases h
  | ub => rfl

instance (c : Nat) : Decidable (Scalar c) := by unfold Scalar; infer_instance

/-! ### C118 -/

/-- **C118** as stated: every configuration file is read, and gives what it describes, where real numbers are within 0.51 units
of what is written. -/
def C118_claim : Prop := ∀ file v, file.length ≤ 2 ^ 57 → File .meant NumVal file v →
  ∃ w, loadConf file = .ok w ∧ File .meant NumVal file w

/-- **C118.** False of the code: a block comment that has two stars at its end does not end there. -/
theorem C118_false : ¬ C118_claim := by
  intro h
  have hf : File .meant NumVal [0x2F, 0x2A, 0x2A, 0x2A, 0x2F] (.obj []) := by
    have hg : Gap .meant [0x2F, 0x2A, 0x2A, 0x2A, 0x2F] :=
      Gap.block (t := [0x2A]) (s := []) (by decide) (by decide) (by simp) .nil
    exact File.mk (m := []) (cs := [0x2F, 0x2A, 0x2A, 0x2A, 0x2F]) (.inl rfl) (by decide +kernel) (.nil (.gap hg)) .fieldsNil
  obtain ⟨w, h1, _⟩ := h _ _ (by decide) hf
  rw [rejects (by decide +kernel)] at h1
  cases h1

/-- **C118.** The sample, /repo/doc/sample.conf, is rejected, because of `infinity` and `nan`. -/
theorem C118_false_sample : loadConf
    ("// This is a sample configuration file.\n// It can be parsed with `std.system.load_conf()`.\n\n/* Block comments are also supported.\n   Note that top-level braces are unnecessary, unlike JSON.  */\n\nkey: \"value\"  // no comma\n\"keys may be quoted\" = \"equals signs are allowed\"\n\n\"values\": { may: \"be\" objects: 42 }\n\"and\": [ \"can\" \"also\" \"be\" \"arrays\" ]\nor: null\n\nlong_integers: 0x123456789ABCDEF   // 64-bit signed integer\nbinary_integers: 0b10010010\n\ninfinities: infinity               // floating-point infinity\nnans: nan                          // floating-point NaN\nhexadecimal_float: 0x1.23p-62\nbinary_float: 0b100.0110p3\n").toUTF8.toList =
    .throw := rejects (by decide +kernel)

/-- **C118.** The greatest code point can't be written as an escape sequence. -/
theorem C118_false_escape : loadConf "a='b' c=\"\\U10FFFF\"\n".toUTF8.toList = .throw ∧
    loadConf "a='b' c=\"\\U10FFFE\"\n".toUTF8.toList = .ok (.obj [([0x61], .str [0x62]), ([0x63], .str [0xF4, 0x8F, 0xBF, 0xBE])]) :=
  ⟨rejects (by decide +kernel), reads (by decide +kernel)⟩

/-- **C118, partial.** Every configuration file in which no block comment has two stars in a row, nothing but ASCII is between
single quotation marks, U+10FFFF is not written as an escape sequence, and the last number is followed by something, is read,
and gives what it describes.  What is missing is the others, where the claim is false. -/
theorem C118_partial (file : Bytes) (v : Value) (hl : file.length ≤ 2 ^ 57) (h : File .sure NumVal file v) :
    ∃ w, loadConf file = .ok w ∧ File .sure NumVal file w := loadConf_file hl h

/-- **C118, partial.** If furthermore no number has a radix point, there is only one such value. -/
theorem C118_exact_partial (file : Bytes) (v : Value) (hl : file.length ≤ 2 ^ 57) (h : File .sure IntVal file v) : loadConf file = .ok v :=
  loadConf_int hl h

/-- **C118.** So files without radix points are not ambiguous. -/
theorem C118_unambiguous (file : Bytes) (v v' : Value) (hl : file.length ≤ 2 ^ 57) (h : File .sure IntVal file v) (h' : File .sure IntVal file v') :
    v = v' := by
  have a := loadConf_int hl h
  rw [loadConf_int hl h'] at a
  cases a
  rfl

open Lexer.Spec (IsSign Numeral Denotes) in
/-- The number 0x1F. -/
theorem int_example : IntVal [0x30, 0x78, 0x31, 0x46] (.int 31) := by
  have hn : Numeral (0x30 :: [0x78, 0x31, 0x46]) ⟨16, [1, 15], none, none⟩ :=
    Numeral.mk (pre := [0x30, 0x78]) (w := [0x31, 0x46]) (f := []) (e := []) ⟨.inr (.inr ⟨rfl, .inl rfl⟩)⟩
      ⟨by decide, by decide⟩ .none .none (by decide)
  exact IntVal.int (sgn := []) ⟨.inl ⟨rfl, rfl⟩⟩ hn (by decide) rfl
    ⟨⟨[1, 15], 0, rfl, by decide⟩, by decide, by unfold Lexer.Spec.InRange; decide⟩

/-- A file that meets the hypotheses: `a:[0x1F 'b'],/*c*/"d"{}` and a line feed. -/
theorem file_example : File .sure IntVal "a:[0x1F 'b'],/*c*/\"d\"{}\n".toUTF8.toList
    (.obj [([0x61], .arr [.int 31, .str [0x62]]), ([0x64], .obj [])]) := by
  have sp : Spells .sure [0x61, 0x3A, 0x5B, 0x30, 0x78, 0x31, 0x46, 0x20, 0x27, 0x62, 0x27, 0x5D, 0x2C, 0x2F, 0x2A, 0x63, 0x2A, 0x2F, 0x22, 0x64,
      0x22, 0x7B, 0x7D, 0x0A] [.word [0x61], .punct 0x3A, .punct 0x5B, .num [0x30, 0x78, 0x31, 0x46], .str [0x62], .punct 0x5D, .punct 0x2C,
      .str [0x64], .punct 0x7B, .punct 0x7D] := by
    refine Spells.cons (g := []) (u := [0x61]) .nil (Lexeme.word (c := 0x61) (s := []) (by simp [Letter]) (by simp) ?_) ?_
    · rintro d t h; cases h; simp [Letter, Digit]
    refine Spells.cons (g := []) (u := [0x3A]) .nil (.punct (by simp [Punct])) ?_
    refine Spells.cons (g := []) (u := [0x5B]) .nil (.punct (by simp [Punct])) ?_
    refine Spells.cons (g := []) (u := [0x30, 0x78, 0x31, 0x46]) .nil (.num ?_ (by simp) ?_) ?_
    · exact Num.mk (g := []) (g' := []) (p := [0x30, 0x78]) (p' := [0x30, 0x78]) (s := [0x31, 0x46]) (s' := [0x31, 0x46]) (f := []) (f' := [])
        (x := []) (x' := []) .none (.hex (.inl rfl)) (.cons (by simp [DigitOf, Digit]) (.cons (by simp [DigitOf]) .nil)) .none .none (by simp)
        (by simp)
    · rintro _ d u h; cases h; simp [Delim, Blank]
    refine Spells.cons (g := [0x20]) (u := [0x27, 0x62, 0x27]) (.blank (by simp [Blank]) .nil) ?_ ?_
    · have := Lexeme.single (lv := .sure) (s := [0x62]) (r := [0x5D, 0x2C, 0x2F, 0x2A, 0x63, 0x2A, 0x2F, 0x22, 0x64, 0x22, 0x7B, 0x7D, 0x0A])
        (by decide) (by simp) (by simp)
      exact this
    refine Spells.cons (g := []) (u := [0x5D]) .nil (.punct (by simp [Punct])) ?_
    refine Spells.cons (g := []) (u := [0x2C]) .nil (.punct (by simp [Punct])) ?_
    refine Spells.cons (g := [0x2F, 0x2A, 0x63, 0x2A, 0x2F]) (u := [0x22, 0x64, 0x22]) ?_ ?_ ?_
    · exact Gap.block (t := [0x63]) (s := []) (by decide) (by decide) (by decide) .nil
    · have := Lexeme.double (lv := .sure) (u := [0x64]) (cs := [0x64]) (r := [0x7B, 0x7D, 0x0A])
        (.cons (u := [0x64]) (.plain (by simp) (by simp) (by simp) (by simp)) .nil)
      exact this
    refine Spells.cons (g := []) (u := [0x7B]) .nil (.punct (by simp [Punct])) ?_
    refine Spells.cons (g := []) (u := [0x7D]) .nil (.punct (by simp [Punct])) ?_
    exact .nil (.gap (.blank (by simp [Blank]) .nil))
  have hd : Derives IntVal 32 (.fields [([0x61], .arr [.int 31, .str [0x62]]), ([0x64], .obj [])]) [.word [0x61], .punct 0x3A, .punct 0x5B,
      .num [0x30, 0x78, 0x31, 0x46], .str [0x62], .punct 0x5D, .punct 0x2C, .str [0x64], .punct 0x7B, .punct 0x7D] := by
    have el : Derives IntVal 31 (.elems [.int 31, .str [0x62]]) [.num [0x30, 0x78, 0x31, 0x46], .str [0x62]] :=
      .elemsCons (.number int_example) (.inl rfl) (.elemsCons .string (.inl rfl) .elemsNil)
    exact .fieldsCons .word (by decide) (.inr (.inl rfl)) (.array el) (.inr (.inl rfl))
      (.fieldsCons .str (by simp) (.inl rfl) .noMembers (.inl rfl) .fieldsNil)
  have := File.mk (m := []) (.inl rfl) (by decide +kernel) sp hd
  rw [show utf8 _ = "a:[0x1F 'b'],/*c*/\"d\"{}\n".toUTF8.toList by decide +kernel] at this
  exact this

example : loadConf "a:[0x1F 'b'],/*c*/\"d\"{}\n".toUTF8.toList = .ok (.obj [([0x61], .arr [.int 31, .str [0x62]]), ([0x64], .obj [])]) :=
  C118_exact_partial _ _ (by decide +kernel) file_example

example : loadConf "x 1.5 y=-0b1p3\n".toUTF8.toList = .ok (.obj [([0x78], .real (.fin (3 / 2))), ([0x79], .int (-8))]) := reads (by decide +kernel)

/-! ### C119 -/

/-- **C119** as stated: what is read is a configuration file, and the result is what it describes. -/
def C119_claim : Prop := ∀ file v, loadConf file = .ok v → File .meant NumVal file v

/-- **C119.** False of the code: characters between single quotation marks are truncated to bytes. -/
theorem C119_false : ¬ C119_claim := by
  intro h
  have h := h "a='é'\n".toUTF8.toList (.obj [([0x61], .str [0xE9])]) (reads (by decide +kernel))
  generalize "a='é'\n".toUTF8.toList = file at h
  cases h with
  | @mk m cs ts _ _ _ hsp hd =>
    cases hd with
    | fieldsCons _ _ _ hv _ _ =>
      cases hv with
      | string =>
        obtain ⟨c, hc⟩ := spells_str (by decide) hsp [0xE9] (by simp)
        exact utf8_ne c hc.symm
      | number hn => cases hn

/-- **C119.** A number without a radix point that is not an integer is truncated. -/
theorem C119_false_truncated : loadConf "a=5e-1 b=-15e-1 c=0x1p-1\n".toUTF8.toList =
    .ok (.obj [([0x61], .int 0), ([0x62], .int (-1)), ([0x63], .int 0)]) := reads (by decide +kernel)

/-- **C119.** A number need not be delimited from what follows. -/
theorem C119_false_delimited : loadConf "a:5b:6\n".toUTF8.toList = .ok (.obj [([0x61], .int 5), ([0x62], .int 6)]) := reads (by decide +kernel)

/-- **C119, partial.** Whatever is read is what the grammar says, with the changes that the level `code` makes to it: in block
comments a star is taken together with what follows, characters between single quotation marks become bytes, numbers need
not be delimited and those that are not integers may be truncated.  Keys are distinct, and there are no more than thirty-two
levels of containers. -/
theorem C119_partial (file : Bytes) (v : Value) (hl : file.length ≤ 2 ^ 57) (h : loadConf file = .ok v) : File .code NumRead file v :=
  loadConf_read hl h

example : File .code NumRead "a=5e-1 b=-15e-1 c=0x1p-1\n".toUTF8.toList (.obj [([0x61], .int 0), ([0x62], .int (-1)), ([0x63], .int 0)]) :=
  C119_partial _ _ (by decide +kernel) C119_false_truncated

/-! ### C120 -/

/-- **C120** as stated: no file is undefined. -/
def C120_claim : Prop := ∀ file, loadConf file ≠ .ub

/-- **C120.** False of the code: a number at the end of a file. -/
theorem C120_false : ¬ C120_claim := fun h => h "a=5".toUTF8.toList (undef (by decide +kernel))

/-- **C120.** A number that is followed by a character from U+0100 on. -/
theorem C120_false_wide : loadConf "a=5第\n".toUTF8.toList = .ub := undef (by decide +kernel)

/-- **C120.** A prefix without digits. -/
theorem C120_false_prefix : loadConf "a=0x\n".toUTF8.toList = .ub ∧ loadConf "a=0x`FF\n".toUTF8.toList = .ub :=
  ⟨undef (by decide +kernel), undef (by decide +kernel)⟩

/-- **C120.** A byte that begins a sequence of six bytes. -/
theorem C120_false_utf8 : loadConf [0xFC, 0x80, 0x80, 0x80, 0x80, 0x80] = .ub := undef (by decide +kernel)

/-- **C120, partial.** A file of UTF-8 text in which nothing like a number is at the end of the file or before a character from U+0100
on, and in which there are digits after each prefix, is not undefined, whatever else it contains. -/
theorem C120_partial (cs : List Nat) (hs : ∀ c ∈ cs, Scalar c) (hl : (utf8 cs).length ≤ 2 ^ 57) (hc : ¬ Cut cs) (hh : ¬ Hollow cs) :
    loadConf (utf8 cs) ≠ .ub :=
  loadConf_valid hs hl hc hh

/-- **C120, partial.** The same if the file ends with something that is not UTF-8, but has no byte from 0xFC on: `cs` is what comes
before that. -/
theorem C120_invalid_partial (file : Bytes) (cs : List Nat) (rest : Bytes) (hl : file.length ≤ 2 ^ 57) (hb : ∀ b ∈ file, b.toNat < 0xFC)
    (hf : file = utf8 cs ++ rest) (hs : ∀ c ∈ cs, Scalar c) (hr : ∀ c u r, Utf.utf8Encode c = some u → rest ≠ u ++ r) (hc : ¬ Cut cs) (hh : ¬ Hollow cs) :
    loadConf file ≠ .ub :=
  loadConf_invalid hl hb hf hs hr hc hh

/-- The hypotheses can be decided if there is no digit. -/
theorem fine_example : ¬ Cut [0x61, 0x3D, 0x7B, 0x5B] ∧ ¬ Hollow [0x61, 0x3D, 0x7B, 0x5B] := by
  refine ⟨?_, ?_⟩
  · rintro ⟨z, d, n, q, h, hd, _⟩
    have : d ∈ [0x61, 0x3D, 0x7B, 0x5B] := by rw [h]; simp
    unfold Digit at hd
    simp at this
    omega
  · rintro ⟨z, base, p, p', q, h, hp, hb, _⟩
    have : 0x30 ∈ p := by cases hp <;> simp at hb ⊢
    have : 0x30 ∈ [0x61, 0x3D, 0x7B, 0x5B] := by rw [h]; simp [this]
    simp at this

example : loadConf (utf8 [0x61, 0x3D, 0x7B, 0x5B]) ≠ .ub := C120_partial _ (by decide +kernel) (by decide +kernel) fine_example.1 fine_example.2

end Asteria.Conf
