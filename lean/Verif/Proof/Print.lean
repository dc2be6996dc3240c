import Verif.Proof.Backtrace
import Verif.Proof.LexerReload
import Verif.Spec.Print

/-!
# Lemmas about `print_to` and `dump`
-/

namespace Asteria.Print

open Backtrace (numeral integer writeDigits_numeral)
open NumText (putDI absValue writeDigits)

mutual

/-- What is written for a value when `stack.size()` is `d`. -/
def whole (Y : Style) (d : Nat) : Value → Bytes
  | .arr (x :: xs) => Y.arrOpen (xs.length + 1) d ++ (whole Y (d + 1) x ++ wholeList Y (d + 1) 1 xs)
  | .obj (x :: xs) => Y.objOpen (xs.length + 1) x.1 d ++ (whole Y (d + 1) x.2 ++ wholeFields Y (d + 1) xs)
  | v => Y.leaf v

/-- The same for the other elements of an array, and its end. -/
def wholeList (Y : Style) (d k : Nat) : List Value → Bytes
  | [] => Y.arrClose d
  | x :: xs => Y.arrNext k d ++ (whole Y d x ++ wholeList Y d (k + 1) xs)

/-- The same for the other members of an object, and its end. -/
def wholeFields (Y : Style) (d : Nat) : List (Bytes × Value) → Bytes
  | [] => Y.objClose d
  | x :: xs => Y.objNext x.1 d ++ (whole Y d x.2 ++ wholeFields Y d xs)

end

mutual

theorem run_value (Y : Style) : ∀ (v : Value) (n : Nat) (st : List Elem) (out : Bytes),
    run Y (cost v + n) (some v) st out = run Y n none st (out ++ whole Y st.length v)
  | .arr [], n, st, out => by
    have h : cost (.arr []) = 1 := by simp [cost]
    have h2 : whole Y st.length (.arr []) = Y.leaf (.arr []) := by simp [whole]
    rw [h, Nat.add_comm, h2, run]
    rfl
  | .arr (x :: xs), n, st, out => by
    rw [cost, show 1 + cost x + costList xs + n = (cost x + (costList xs + n)) + 1 by omega, run]
    simp only [List.getElem?_cons_zero]
    rw [run_value Y x, run_list Y xs (x :: xs) 0 rfl]
    simp only [whole, List.length_cons, List.append_assoc]
  | .obj [], n, st, out => by
    have h : cost (.obj []) = 1 := by simp [cost]
    have h2 : whole Y st.length (.obj []) = Y.leaf (.obj []) := by simp [whole]
    rw [h, Nat.add_comm, h2, run]
    rfl
  | .obj (x :: xs), n, st, out => by
    rw [cost, show 1 + cost x.2 + costFields xs + n = (cost x.2 + (costFields xs + n)) + 1 by omega, run]
    simp only [List.getElem?_cons_zero]
    rw [run_value Y x.2, run_fields Y xs (x :: xs) 0 rfl]
    simp only [whole, List.length_cons, List.append_assoc]
  | .null, n, st, out => by simp only [cost, whole, Nat.add_comm 1 n, run]
  | .bool _, n, st, out => by simp only [cost, whole, Nat.add_comm 1 n, run]
  | .int _, n, st, out => by simp only [cost, whole, Nat.add_comm 1 n, run]
  | .real _, n, st, out => by simp only [cost, whole, Nat.add_comm 1 n, run]
  | .str _, n, st, out => by simp only [cost, whole, Nat.add_comm 1 n, run]
  | .opaque _, n, st, out => by simp only [cost, whole, Nat.add_comm 1 n, run]
  | .func _, n, st, out => by simp only [cost, whole, Nat.add_comm 1 n, run]

theorem run_list (Y : Style) : ∀ (xs l : List Value) (i : Nat) (hl : l.drop (i + 1) = xs) (n : Nat) (st : List Elem) (out : Bytes),
    run Y (costList xs + n) none (.arr l i :: st) out = run Y n none st (out ++ wholeList Y (st.length + 1) (i + 1) xs)
  | [], l, i, hl, n, st, out => by
    have h : l[i + 1]? = none := by rw [← List.head?_drop, hl]; rfl
    rw [costList, Nat.add_comm, run, h]
    rfl
  | x :: xs, l, i, hl, n, st, out => by
    have h : l[i + 1]? = some x := by rw [← List.head?_drop, hl]; rfl
    have h2 : l.drop (i + 1 + 1) = xs := by rw [← List.tail_drop, hl]; rfl
    rw [costList, show 1 + cost x + costList xs + n = (cost x + (costList xs + n)) + 1 by omega, run, h]
    dsimp only
    rw [run_value Y x, run_list Y xs l (i + 1) h2]
    simp only [wholeList, List.length_cons, List.append_assoc]

theorem run_fields (Y : Style) : ∀ (xs l : List (Bytes × Value)) (i : Nat) (hl : l.drop (i + 1) = xs) (n : Nat) (st : List Elem) (out : Bytes),
    run Y (costFields xs + n) none (.obj l i :: st) out = run Y n none st (out ++ wholeFields Y (st.length + 1) xs)
  | [], l, i, hl, n, st, out => by
    have h : l[i + 1]? = none := by rw [← List.head?_drop, hl]; rfl
    rw [costFields, Nat.add_comm, run, h]
    rfl
  | x :: xs, l, i, hl, n, st, out => by
    have h : l[i + 1]? = some x := by rw [← List.head?_drop, hl]; rfl
    have h2 : l.drop (i + 1 + 1) = xs := by rw [← List.tail_drop, hl]; rfl
    rw [costFields, show 1 + cost x.2 + costFields xs + n = (cost x.2 + (costFields xs + n)) + 1 by omega, run, h]
    dsimp only
    rw [run_value Y x.2, run_fields Y xs l (i + 1) h2]
    simp only [wholeFields, List.length_cons, List.append_assoc]

end

theorem run_all (Y : Style) (v : Value) : run Y (cost v + 1) (some v) [] [] = .ok (whole Y 0 v) := by
  rw [run_value]; rfl

theorem putDI_eq (n : Int) (h1 : -2 ^ 63 ≤ n) (h2 : n < 2 ^ 63) : putDI n 1 = integer n := by
  unfold putDI integer
  have ha : absValue n = n.natAbs := by unfold absValue; omega
  rw [ha]
  show _ ++ writeDigits 10 n.natAbs 1 = _
  rw [writeDigits_numeral _ (by omega)]

theorem putDI_nat (n : Nat) (h : n < 2 ^ 63) : putDI n 1 = numeral n := by
  rw [putDI_eq _ (by omega) (by omega)]
  unfold integer
  rw [if_neg (by omega)]
  rfl

theorem intercalate_cons (sep a : Bytes) (l : List Bytes) : sep.intercalate (a :: l) = a ++ l.flatMap fun x => sep ++ x := by
  induction l generalizing a with
  | nil => simp [List.intercalate]
  | cons b l ih =>
    have : sep.intercalate (a :: b :: l) = a ++ (sep ++ sep.intercalate (b :: l)) := by
      simp [List.intercalate, List.intersperse]
    rw [this, ih]
    simp

theorem spaces_eq (n : Nat) : spaces n = List.replicate n 0x20 := by
  induction n using Nat.strongRecOn with
  | _ n ih =>
    unfold spaces
    split
    · next h => subst h; rfl
    · next h =>
      rw [ih _ (by omega), List.replicate_append_replicate]
      congr 1
      omega

theorem breakLine_eq (indent hanging d : Nat) : breakLine indent (hanging + indent * d) = newLine indent hanging d := by
  unfold breakLine newLine
  split
  · decide +kernel
  · rw [spaces_eq]
    have : lit "\n" = [0x0A] := by decide +kernel
    rw [this]; rfl

mutual

theorem whole_text (T : Texts) (d : Nat) : ∀ v : Value, Fits v → whole (printStyle T) d v = text T v
  | .null, _ => rfl
  | .bool _, _ => rfl
  | .int i, h => by
    unfold Fits at h
    simp only [whole, printStyle, text]
    exact putDI_eq i h.1 h.2
  | .real _, _ => rfl
  | .str _, _ => by simp only [whole, printStyle, text, List.append_assoc]; rfl
  | .opaque _, _ => by simp only [whole, printStyle, text, List.append_assoc]; rfl
  | .func _, _ => by simp only [whole, printStyle, text, List.append_assoc]; rfl
  | .arr [], _ => rfl
  | .obj [], _ => rfl
  | .arr (x :: xs), h => by
    simp only [Fits, FitsList] at h
    rw [whole, whole_text T (d + 1) x h.2.1, whole_texts T (d + 1) 1 xs h.2.2, text, intercalate_cons]
    simp only [List.append_assoc]
    rfl
  | .obj (x :: xs), h => by
    simp only [Fits, FitsFields] at h
    rw [whole, whole_text T (d + 1) x.2 h.2.1, whole_members T (d + 1) xs h.2.2, text, intercalate_cons]
    have e : (printStyle T).objOpen (xs.length + 1) x.1 d = str "{ " ++ (str "\"" ++ (Lexer.cQuote x.1 ++ str "\": ")) := by
      have : str "{ " ++ str "\"" = lit "{ \"" := by decide +kernel
      rw [← List.append_assoc, this]
      simp only [printStyle, List.append_assoc]; rfl
    rw [e]
    simp only [List.append_assoc]

theorem whole_texts (T : Texts) (d k : Nat) : ∀ xs : List Value, FitsList xs →
    wholeList (printStyle T) d k xs = ((texts T xs).flatMap fun x => str ", " ++ x) ++ str " ]"
  | [], _ => rfl
  | x :: xs, h => by
    simp only [FitsList] at h
    rw [wholeList, whole_text T d x h.1, whole_texts T d (k + 1) xs h.2, texts, List.flatMap_cons]
    simp only [List.append_assoc]
    rfl

theorem whole_members (T : Texts) (d : Nat) : ∀ xs : List (Bytes × Value), FitsFields xs →
    wholeFields (printStyle T) d xs = ((members T xs).flatMap fun x => str ", " ++ x) ++ str " }"
  | [], _ => rfl
  | x :: xs, h => by
    simp only [FitsFields] at h
    rw [wholeFields, whole_text T d x.2 h.1, whole_members T d xs h.2, members, List.flatMap_cons]
    have e : (printStyle T).objNext x.1 d = str ", " ++ (str "\"" ++ (Lexer.cQuote x.1 ++ str "\": ")) := by
      have : str ", " ++ str "\"" = lit ", \"" := by decide +kernel
      rw [← List.append_assoc, this]
      simp only [printStyle, List.append_assoc]; rfl
    rw [e]
    simp only [List.append_assoc]

end

mutual

theorem whole_details (T : Texts) (ind hang d : Nat) : ∀ v : Value, Fits v → whole (dumpStyle T ind hang) d v = details T ind hang d v
  | .null, _ => rfl
  | .bool _, _ => by simp only [whole, dumpStyle, details, List.append_assoc]; rfl
  | .int i, h => by
    unfold Fits at h
    simp only [whole, dumpStyle, details, List.append_assoc, putDI_eq i h.1 h.2]
    rfl
  | .real _, _ => by simp only [whole, dumpStyle, details, List.append_assoc]; rfl
  | .str s, h => by
    unfold Fits at h
    simp only [whole, dumpStyle, details, List.append_assoc, writeDigits_numeral s.length (by omega)]
    rfl
  | .opaque _, _ => by simp only [whole, dumpStyle, details, List.append_assoc]; rfl
  | .func _, _ => by simp only [whole, dumpStyle, details, List.append_assoc]; rfl
  | .arr [], _ => rfl
  | .obj [], _ => rfl
  | .arr (x :: xs), h => by
    simp only [Fits, FitsList, List.length_cons] at h
    rw [whole, whole_details T ind hang (d + 1) x h.2.1, whole_elements T ind hang d 1 xs (by omega) h.2.2, details, elements]
    have h0 : putDI 0 1 = numeral 0 := putDI_nat 0 (by omega)
    simp only [dumpStyle, breakLine_eq, writeDigits_numeral (xs.length + 1) (by omega), h0, List.append_assoc]
    rfl
  | .obj (x :: xs), h => by
    simp only [Fits, FitsFields, List.length_cons] at h
    rw [whole, whole_details T ind hang (d + 1) x.2 h.2.1, whole_fields T ind hang d xs h.2.2, details, fields]
    simp only [dumpStyle, breakLine_eq, writeDigits_numeral (xs.length + 1) (by omega), List.append_assoc]
    rfl

theorem whole_elements (T : Texts) (ind hang d k : Nat) : ∀ xs : List Value, k + xs.length < 2 ^ 63 → FitsList xs →
    wholeList (dumpStyle T ind hang) (d + 1) k xs = elements T ind hang (d + 1) k xs ++ (newLine ind hang d ++ str "];")
  | [], _, _ => by
    simp only [wholeList, dumpStyle, breakLine_eq, elements, Nat.add_sub_cancel]; rfl
  | x :: xs, hk, h => by
    simp only [FitsList] at h
    simp only [List.length_cons] at hk
    rw [wholeList, whole_details T ind hang (d + 1) x h.1, whole_elements T ind hang d (k + 1) xs (by omega) h.2, elements]
    simp only [dumpStyle, breakLine_eq, putDI_nat k (by omega), List.append_assoc]
    rfl

theorem whole_fields (T : Texts) (ind hang d : Nat) : ∀ xs : List (Bytes × Value), FitsFields xs →
    wholeFields (dumpStyle T ind hang) (d + 1) xs = fields T ind hang (d + 1) xs ++ (newLine ind hang d ++ str "};")
  | [], _ => by
    simp only [wholeFields, dumpStyle, breakLine_eq, fields, Nat.add_sub_cancel]; rfl
  | x :: xs, h => by
    simp only [FitsFields] at h
    rw [wholeFields, whole_details T ind hang (d + 1) x.2 h.1, whole_fields T ind hang d xs h.2, fields]
    simp only [dumpStyle, breakLine_eq, List.append_assoc]
    rfl

end

theorem Printable.append {a b : Bytes} (ha : Printable a) (hb : Printable b) : Printable (a ++ b) := by
  intro c hc
  rcases List.mem_append.mp hc with h | h
  · exact ha c h
  · exact hb c h

theorem Printable.of_all {a : Bytes} (h : a.all (fun c => 0x20 ≤ c.toNat && c.toNat ≤ 0x7E) = true) : Printable a := by
  intro c hc
  have := List.all_eq_true.mp h c hc
  simpa using this

theorem numeral_printable (n : Nat) : Printable (numeral n) := by
  unfold numeral
  split
  · exact Printable.of_all (by decide)
  · intro c hc
    obtain ⟨d, hd, rfl⟩ := List.mem_map.mp hc
    have hd : d < 10 := Nat.digits_lt_base (by omega) (List.mem_reverse.mp hd)
    have : (UInt8.ofNat (0x30 + d)).toNat = 0x30 + d := by simp; omega
    rw [this]; omega

theorem integer_printable (n : Int) : Printable (integer n) := by
  unfold integer
  refine Printable.append ?_ (numeral_printable _)
  split
  · exact Printable.of_all (by decide)
  · exact Printable.of_all (by decide)

theorem intercalate_printable {sep : Bytes} (hs : Printable sep) {l : List Bytes} (h : ∀ x ∈ l, Printable x) :
    Printable (sep.intercalate l) := by
  cases l with
  | nil => intro c hc; simp [List.intercalate] at hc
  | cons a l =>
    rw [intercalate_cons]
    refine Printable.append (h a (by simp)) ?_
    intro c hc
    obtain ⟨x, hx, hc⟩ := List.mem_flatMap.mp hc
    exact Printable.append hs (h x (by simp [hx])) c hc

mutual

theorem text_printable (T : Texts) (h1 : ∀ d, Printable (T.real d)) (h2 : ∀ k, Printable (T.opq k)) (h3 : ∀ k, Printable (T.func k)) :
    ∀ v : Value, Printable (text T v)
  | .null => by unfold text; exact Printable.of_all (by decide +kernel)
  | .bool b => by cases b <;> (unfold text; exact Printable.of_all (by decide +kernel))
  | .int i => by unfold text; exact integer_printable i
  | .real d => by unfold text; exact h1 d
  | .str s => by
    unfold text
    exact (Printable.of_all (by decide +kernel)).append (Printable.append (Lexer.cQuote_printable s) (Printable.of_all (by decide +kernel)))
  | .opaque k => by
    unfold text
    exact (Printable.of_all (by decide +kernel)).append ((h2 k).append (Printable.of_all (by decide +kernel)))
  | .func k => by
    unfold text
    exact (Printable.of_all (by decide +kernel)).append ((h3 k).append (Printable.of_all (by decide +kernel)))
  | .arr [] => by unfold text; exact Printable.of_all (by decide +kernel)
  | .obj [] => by unfold text; exact Printable.of_all (by decide +kernel)
  | .arr (x :: xs) => by
    unfold text
    refine (Printable.of_all (by decide +kernel)).append (Printable.append (intercalate_printable (Printable.of_all (by decide +kernel)) ?_)
      (Printable.of_all (by decide +kernel)))
    intro y hy
    rcases List.mem_cons.mp hy with rfl | hy
    · exact text_printable T h1 h2 h3 x
    · exact texts_printable T h1 h2 h3 xs y hy
  | .obj (x :: xs) => by
    unfold text
    refine (Printable.of_all (by decide +kernel)).append (Printable.append (intercalate_printable (Printable.of_all (by decide +kernel)) ?_)
      (Printable.of_all (by decide +kernel)))
    intro y hy
    rcases List.mem_cons.mp hy with rfl | hy
    · exact (Printable.of_all (by decide +kernel)).append (Printable.append (Lexer.cQuote_printable x.1)
        ((Printable.of_all (by decide +kernel)).append (text_printable T h1 h2 h3 x.2)))
    · exact members_printable T h1 h2 h3 xs y hy

theorem texts_printable (T : Texts) (h1 : ∀ d, Printable (T.real d)) (h2 : ∀ k, Printable (T.opq k)) (h3 : ∀ k, Printable (T.func k)) :
    ∀ (xs : List Value), ∀ y ∈ texts T xs, Printable y
  | [], y, hy => by simp [texts] at hy
  | x :: xs, y, hy => by
    unfold texts at hy
    rcases List.mem_cons.mp hy with rfl | hy
    · exact text_printable T h1 h2 h3 x
    · exact texts_printable T h1 h2 h3 xs y hy

theorem members_printable (T : Texts) (h1 : ∀ d, Printable (T.real d)) (h2 : ∀ k, Printable (T.opq k)) (h3 : ∀ k, Printable (T.func k)) :
    ∀ (xs : List (Bytes × Value)), ∀ y ∈ members T xs, Printable y
  | [], y, hy => by simp [members] at hy
  | x :: xs, y, hy => by
    unfold members at hy
    rcases List.mem_cons.mp hy with rfl | hy
    · exact (Printable.of_all (by decide +kernel)).append (Printable.append (Lexer.cQuote_printable x.1)
        ((Printable.of_all (by decide +kernel)).append (text_printable T h1 h2 h3 x.2)))
    · exact members_printable T h1 h2 h3 xs y hy

end

end Asteria.Print
