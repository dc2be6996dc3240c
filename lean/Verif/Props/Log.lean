import Verif.Proof.Log

/-!
# C164 and C165: messages on standard error and of exceptions
-/

namespace Asteria.Log
open Asteria.Print (lit)
open Asteria.Backtrace (numeral writeDigits_numeral numeral_ne)

theorem lit_next : lit "\x1B\x45\t" = [0x1B, 0x45, 0x09] := by decide +kernel
theorem lit_end : lit "\x1B\x45\n" = [0x1B, 0x45, 0x0A] := by decide +kernel
theorem lit_open : lit "(" = text "(" := rfl
theorem lit_at : lit ") @ " = text ") @ " := rfl

/-- The first part of a message. -/
def head (t : Time) (file func : Bytes) (line : Nat) : Bytes :=
  dateText t ++ text " (" ++ func ++ text ") @ " ++ file ++ text ":" ++ numeral line ++ [0x1B, 0x45]

theorem header_eq (t : Time) (h : t.Valid) (file func : Bytes) (line : Nat) (hl : line < 2 ^ 64) :
    header t file func line = head t file func line ++ [0x09] := by
  have e : text " (" = [0x20] ++ text "(" := by decide +kernel
  unfold header head
  rw [stamp_text t h, writeDigits_numeral line hl, lit_next, e]
  simp only [List.append_assoc, List.cons_append, List.nil_append]
  rfl

theorem dateText_plain (t : Time) : ∀ c ∈ dateText t, Plain c := by
  intro c hc
  unfold dateText at hc
  simp only [List.mem_append, List.mem_singleton] at hc
  rcases hc with (((((((((((h | h) | h) | h) | h) | h) | h) | h) | h) | h) | h) | h) | h
  all_goals first
    | exact (dec_plain _ _ c h).1
    | (subst h; decide)

theorem head_tame (t : Time) (file func : Bytes) (line : Nat) (hf : ∀ c ∈ file, Plain c) (hg : ∀ c ∈ func, Plain c) : Tame (head t file func line) := by
  unfold head
  have k1 : ∀ c ∈ text " (", Plain c := by decide +kernel
  have k2 : ∀ c ∈ text ") @ ", Plain c := by decide +kernel
  have k3 : ∀ c ∈ text ":", Plain c := by decide +kernel
  exact ((((((Tame.of_plain (dateText_plain t)).append (.of_plain k1)).append (.of_plain hg)).append (.of_plain k2)).append (.of_plain hf)).append
    (.of_plain k3)).append (.of_plain (numeral_plain line)) |>.append (.next .nil)

/-! ### C164: messages on standard error -/

/-- **C164, no forgery.** Whatever a script passes to `std.debug.logf`, what is written is one line, which ends with the only line feed in it;
the rest has no control characters except tabs and `ESC E`.  The names of functions and files of the library are plain. -/
theorem C164_safe (t : Time) (ht : t.Valid) (file func : Bytes) (line : Nat) (hl : line < 2 ^ 64) (hf : ∀ c ∈ file, Plain c) (hg : ∀ c ∈ func, Plain c)
    (msg : Bytes) : ∃ r, message t file func line msg = r ++ [0x0A] ∧ 0x0A ∉ r ∧ Tame r := by
  have hlf : ¬ Plain 0x0A := by decide
  have h1 : Tame (header t file func line ++ msg.flatMap neutral) := by
    rw [header_eq t ht file func line hl]
    exact ((head_tame t file func line hf hg).append (.tab .nil)).append (flatMap_tame msg)
  have h2 : Tame (trim (header t file func line ++ msg.flatMap neutral) ++ [0x1B, 0x45]) := h1.trim.append (.next .nil)
  refine ⟨_, ?_, fun hm => ?_, h2⟩
  · unfold message
    rw [lit_end, List.append_assoc]
    rfl
  · rcases h2.mem _ hm with h | h | h
    · exact hlf h
    · exact absurd h (by decide)
    · exact absurd h (by decide)

/-- The half second after midnight of the first day of 2024. -/
def sampleTime : Time := ⟨124, 0, 1, 0, 0, 0, 500000000⟩

theorem sampleTime_valid : sampleTime.Valid := ⟨by decide, by decide, by decide, by decide, by decide, by decide, by decide⟩

example : ∃ r, message sampleTime (text "debug.cpp") (text "f") 31 [0x61, 0x0A, 0x1B, 0x5B, 0x20] = r ++ [0x0A] ∧ 0x0A ∉ r ∧ Tame r :=
  C164_safe sampleTime sampleTime_valid _ _ 31 (by decide) (by decide +kernel) (by decide +kernel) _

/-- **C164, contents.** A message of plain lines, of which the last one does not end with a space, is written line by line, each after `ESC E` and a
tab, after the date and time with all digits, the function, the file and the line. -/
theorem C164_contents (t : Time) (ht : t.Valid) (file func : Bytes) (line : Nat) (hl : line < 2 ^ 64) (lines : List Bytes) (last : Bytes) (c : UInt8)
    (hp : ∀ l ∈ lines ++ [last ++ [c]], ∀ d ∈ l, Plain d) (hc : c ≠ 0x20) :
    message t file func line (joined [0x0A] (lines ++ [last ++ [c]])) =
      dateText t ++ text " (" ++ func ++ text ") @ " ++ file ++ text ":" ++ numeral line ++ [0x1B, 0x45, 0x09]
        ++ joined [0x1B, 0x45, 0x09] (lines ++ [last ++ [c]]) ++ [0x1B, 0x45, 0x0A] := by
  have hsp : isSpace c = false := by
    have : ∀ c, Plain c → c ≠ 0x20 → isSpace c = false := Lexer.forall_byte (by decide +kernel)
    exact this c (hp (last ++ [c]) (by simp) c (by simp)) hc
  have hn : neutral 0x0A = [0x1B, 0x45, 0x09] := by decide +kernel
  have hj : ∀ ls : List Bytes, (∀ l ∈ ls, ∀ d ∈ l, Plain d) → (joined [0x0A] ls).flatMap neutral = joined [0x1B, 0x45, 0x09] ls := by
    intro ls
    induction ls with
    | nil => intro _; rfl
    | cons l ls ih =>
      intro h
      cases ls with
      | nil => exact flatMap_plain (h l (by simp))
      | cons k ks =>
        simp only [joined]
        rw [List.flatMap_append, List.flatMap_append, flatMap_plain (h l (by simp)), ih fun l' hl' => h l' (List.mem_cons_of_mem _ hl')]
        rw [List.flatMap_cons, hn]
        rfl
  have hlast : ∀ ls : List Bytes, ∃ x, joined [0x1B, 0x45, 0x09] (ls ++ [last ++ [c]]) = x ++ [c] := by
    intro ls
    induction ls with
    | nil => exact ⟨last, rfl⟩
    | cons l ls ih =>
      obtain ⟨x, hx⟩ := ih
      cases ls with
      | nil => exact ⟨l ++ [0x1B, 0x45, 0x09] ++ last, by simp [joined]⟩
      | cons k ks =>
        refine ⟨l ++ [0x1B, 0x45, 0x09] ++ x, ?_⟩
        simp only [List.cons_append, joined] at hx ⊢
        rw [hx]
        simp
  obtain ⟨x, hx⟩ := hlast lines
  unfold message
  rw [hj _ hp, hx, ← List.append_assoc, trim_of_last _ _ hsp, header_eq t ht file func line hl, lit_end]
  unfold head
  simp only [List.append_assoc, List.cons_append, List.nil_append]

example : message sampleTime (text "debug.cpp") (text "f") 31 (joined [0x0A] ([text "one"] ++ [text "tw" ++ [0x6F]])) =
    text "2024-01-01 00:00:00.500000000 (f) @ debug.cpp:31\x1BE\tone\x1BE\ttwo\x1BE\n" := by
  rw [C164_contents sampleTime sampleTime_valid _ _ 31 (by decide) [text "one"] (text "tw") 0x6F (by decide +kernel) (by decide)]
  decide +kernel

/-- **C164, control characters.** Control characters other than tabs, line feeds and carriage returns are written as names in brackets, with which they
can be told apart; carriage returns are dropped. -/
theorem C164_controls (c d : UInt8) (hc : ¬ Plain c ∧ c ≠ 0x09 ∧ c ≠ 0x0A ∧ c ≠ 0x0D) (hd : ¬ Plain d ∧ d ≠ 0x09 ∧ d ≠ 0x0A ∧ d ≠ 0x0D) :
    (neutral c).head? = some 0x5B ∧ (neutral c).getLast? = some 0x5D ∧ (neutral c = neutral d → c = d) ∧ neutral 0x0D = [] := by
  have h1 : ∀ c, ¬ Plain c ∧ c ≠ 0x09 ∧ c ≠ 0x0A ∧ c ≠ 0x0D → (neutral c).head? = some 0x5B ∧ (neutral c).getLast? = some 0x5D :=
    Lexer.forall_byte (by decide +kernel)
  have h2 : ∀ c, ¬ Plain c → c.toNat < 32 ∨ c = 0x7F := Lexer.forall_byte (by decide +kernel)
  have h3 : ∀ i : Fin 33, ∀ j : Fin 33, neutral (if i.val = 32 then 0x7F else UInt8.ofNat i.val) = neutral (if j.val = 32 then 0x7F else UInt8.ofNat j.val) → i = j := by
    decide +kernel
  have h4 : ∀ c, ¬ Plain c → ∃ i : Fin 33, c = if i.val = 32 then 0x7F else UInt8.ofNat i.val := by
    intro c hc
    rcases h2 c hc with h | h
    · refine ⟨⟨c.toNat, by omega⟩, ?_⟩
      rw [if_neg (by dsimp only; omega)]
      simp
    · exact ⟨⟨32, by omega⟩, by rw [if_pos rfl, h]⟩
  refine ⟨(h1 c hc).1, (h1 c hc).2, fun e => ?_, by decide +kernel⟩
  obtain ⟨i, rfl⟩ := h4 c hc.1
  obtain ⟨j, rfl⟩ := h4 d hd.1
  rw [h3 i j e]

example : neutral 0x1B = text "[ESC]" ∧ neutral 0x7F = text "[DEL]" ∧ neutral 0x07 = text "[BEL]" := by decide +kernel

/-! ### C165: messages of exceptions -/

/-- **C165, in full**: the text of an exception from native code is the message without blanks at the end, followed by where it has been thrown. -/
def C165_claim : Prop := ∀ (file func : Bytes) (line : Nat) (last : Bytes) (c : UInt8) (blanks : Bytes), line < 2 ^ 64 → (∀ d ∈ file, Plain d) →
  (∀ d ∈ func, Plain d) → ¬ Blank c → (∀ d ∈ blanks, Blank d) →
  exceptionText file func line (last ++ [c] ++ blanks) =
    last ++ [c] ++ text "\n[thrown from `" ++ func ++ text "(...)` at '" ++ file ++ text ":" ++ numeral line ++ text "']"

/-- **C165 is false**: the text ends at the first null byte of the message. -/
theorem C165_false : ¬ C165_claim := by
  intro h
  have := congrArg List.length (h [] [] 1 [0x61, 0x00] 0x62 [] (by decide) (by simp) (by simp) (by decide) (by simp))
  rw [← writeDigits_numeral 1 (by decide)] at this
  exact absurd this (by decide +kernel)

theorem isSpace_blank : ∀ c, isSpace c = decide (Blank c) := Lexer.forall_byte (by decide +kernel)

theorem trim_blanks (a s : Bytes) (h : ∀ c ∈ s, Blank c) : trim (a ++ s) = trim a := by
  have hd : ∀ s r : Bytes, (∀ c ∈ s, Blank c) → (s ++ r).dropWhile isSpace = r.dropWhile isSpace := by
    intro s r h
    induction s with
    | nil => rfl
    | cons c s ih =>
      rw [List.cons_append, List.dropWhile_cons, if_pos (by rw [isSpace_blank]; simpa using h c (by simp)), ih fun d hd => h d (by simp [hd])]
  unfold trim
  rw [List.reverse_append, hd _ _ fun c hc => h c (List.mem_reverse.1 hc)]

theorem takeWhile_all {a : Bytes} (h : ∀ c ∈ a, c ≠ 0) : a.takeWhile (· ≠ 0) = a := by
  induction a with
  | nil => rfl
  | cons c a ih =>
    rw [List.takeWhile_cons, if_pos (by simpa using h c (by simp)), ih fun d hd => h d (by simp [hd])]

/-- **C165 (partial).** The claim for messages without null bytes.  What is missing: those with null bytes, see `C165_false`. -/
theorem C165_partial (file func : Bytes) (line : Nat) (last : Bytes) (c : UInt8) (blanks : Bytes) (hl : line < 2 ^ 64) (hf : ∀ d ∈ file, Plain d)
    (hg : ∀ d ∈ func, Plain d) (hc : ¬ Blank c) (hb : ∀ d ∈ blanks, Blank d) (h0 : 0 ∉ last ++ [c]) :
    exceptionText file func line (last ++ [c] ++ blanks) =
      last ++ [c] ++ text "\n[thrown from `" ++ func ++ text "(...)` at '" ++ file ++ text ":" ++ numeral line ++ text "']" := by
  have hp : ∀ d, Plain d → d ≠ 0 := Lexer.forall_byte (by decide +kernel)
  have k1 : ∀ d ∈ text "\n[thrown from `", d ≠ 0 := by decide +kernel
  have k2 : ∀ d ∈ text "(...)` at '", d ≠ 0 := by decide +kernel
  have k3 : ∀ d ∈ text ":", d ≠ 0 := by decide +kernel
  have k4 : ∀ d ∈ text "']", d ≠ 0 := by decide +kernel
  unfold exceptionText
  rw [writeDigits_numeral line hl, trim_blanks _ _ hb, trim_of_last _ _ (by rw [isSpace_blank]; simpa using hc)]
  refine takeWhile_all fun d hd => ?_
  rw [List.mem_append, List.mem_append, List.mem_append, List.mem_append, List.mem_append, List.mem_append, List.mem_append] at hd
  rcases hd with ((((((h | h) | h) | h) | h) | h) | h) | h
  · rintro rfl
    exact h0 h
  · exact k1 d h
  · exact hp d (hg d h)
  · exact k2 d h
  · exact hp d (hf d h)
  · exact k3 d h
  · exact numeral_ne line d h
  · exact k4 d h

example : exceptionText (text "json.cpp") (text "f") 7 (text "bad" ++ [0x21] ++ [0x0A, 0x20]) = text "bad" ++ [0x21] ++ text "\n[thrown from `" ++ text "f"
    ++ text "(...)` at '" ++ text "json.cpp" ++ text ":" ++ numeral 7 ++ text "']" :=
  C165_partial _ _ 7 (text "bad") 0x21 [0x0A, 0x20] (by decide) (by decide +kernel) (by decide +kernel) (by decide +kernel) (by decide +kernel) (by decide +kernel)

end Asteria.Log
