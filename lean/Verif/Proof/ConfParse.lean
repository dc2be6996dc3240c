import Verif.Model.Conf
import Verif.Spec.Conf

/-!
# The parser of configuration files, given the tokens
-/

namespace Asteria.Conf

open ConfSpec
open JsonSpec (Item)

/-- What `token` holds. -/
def code : Tok → Bytes
  | .punct c => [UInt8.ofNat c]
  | .word w => w
  | .num t => t
  | .str s => 0x22 :: s

/-- How the tokens begin. -/
def Shape : Tok → Prop
  | .punct c => Punct c
  | .word w => isIdent1 (at0 w).toNat = true
  | .num t => at0 t = 0x2B ∨ at0 t = 0x2D ∨ isDigit (at0 t).toNat = true
  | .str _ => True

/-- The tokens of the rest of a file. -/
inductive Toks : List Nat → List Tok → Prop
  | nil {s} : token .eof s = .ok ([], []) → Toks s []
  | cons {s t r ts} : token .eof s = .ok (code t, r) → Shape t → Toks r ts → Toks s (t :: ts)

/-- `tok` is the current token, `s` is the rest of the file and `ts` are the tokens from the current one on. -/
inductive At : Bytes → List Nat → List Tok → Prop
  | nil : At [] [] []
  | cons {t s ts} : Shape t → Toks s ts → At (code t) s (t :: ts)

theorem toks_at {s : List Nat} {ts : List Tok} (h : Toks s ts) : ∃ tok s', token .eof s = .ok (tok, s') ∧ At tok s' ts := by
  cases h with
  | nil h => exact ⟨_, _, h, .nil⟩
  | cons h hs ht => exact ⟨_, _, h, .cons hs ht⟩

theorem punct_cases {c : Nat} (h : Punct c) : c = 0x5B ∨ c = 0x5D ∨ c = 0x7B ∨ c = 0x7D ∨ c = 0x3A ∨ c = 0x3D ∨ c = 0x2C ∨ c = 0x3B := by
  simpa [Punct] using h

theorem ident1_iff {c : Nat} : isIdent1 c = true ↔ Letter c := by
  unfold isIdent1 Letter
  simp only [Bool.or_eq_true, decide_eq_true_eq, Bool.and_eq_true, or_assoc]

theorem digit_iff {c : Nat} : isDigit c = true ↔ Digit c := by
  unfold isDigit Digit
  simp

theorem code_ne {t : Tok} (h : Shape t) : code t ≠ [] := by
  cases t with
  | punct c => simp [code]
  | word w => intro e; simp only [code] at e; subst e; simp [Shape, at0, isIdent1] at h
  | num w => intro e; simp only [code] at e; subst e; simp [Shape, at0, isDigit] at h
  | str s => simp [code]

/-- The first byte of a token, as a number. -/
theorem at0_cases {t : Tok} (h : Shape t) :
    (∃ c, t = .punct c ∧ at0 (code t) = UInt8.ofNat c) ∨ (∃ w, t = .word w ∧ Letter (at0 (code t)).toNat) ∨
    (∃ w, t = .num w ∧ (at0 (code t) = 0x2B ∨ at0 (code t) = 0x2D ∨ Digit (at0 (code t)).toNat)) ∨
    (∃ s, t = .str s ∧ at0 (code t) = 0x22) := by
  cases t with
  | punct c => exact .inl ⟨c, rfl, rfl⟩
  | word w => exact .inr (.inl ⟨w, rfl, ident1_iff.1 h⟩)
  | num w =>
    refine .inr (.inr (.inl ⟨w, rfl, ?_⟩))
    rcases h with h | h | h
    · exact .inl h
    · exact .inr (.inl h)
    · exact .inr (.inr (digit_iff.1 h))
  | str s => exact .inr (.inr (.inr ⟨s, rfl, rfl⟩))

/-- A token that is not the punctuator `c` does not begin like it. -/
theorem at0_ne {t : Tok} {c : Nat} (h : Shape t) (hc : Punct c) (hn : t ≠ .punct c) : at0 (code t) ≠ UInt8.ofNat c := by
  rcases at0_cases h with ⟨d, rfl, he⟩ | ⟨w, rfl, he⟩ | ⟨w, rfl, he⟩ | ⟨s, rfl, he⟩
  · rw [he]
    have hd : Punct d := h
    intro e
    have hcd : c ≠ d := fun e => hn (by rw [e])
    have e := congrArg UInt8.toNat e
    rcases punct_cases hc with rfl | rfl | rfl | rfl | rfl | rfl | rfl | rfl <;>
      rcases punct_cases hd with rfl | rfl | rfl | rfl | rfl | rfl | rfl | rfl <;>
      first | exact hcd rfl | exact absurd e (by decide)
  · intro e
    rw [e] at he
    rcases punct_cases hc with rfl | rfl | rfl | rfl | rfl | rfl | rfl | rfl <;> revert he <;> unfold Letter <;> decide
  · intro e
    rw [e] at he
    rcases punct_cases hc with rfl | rfl | rfl | rfl | rfl | rfl | rfl | rfl <;> revert he <;> unfold Digit <;> decide
  · rw [he]
    rcases punct_cases hc with rfl | rfl | rfl | rfl | rfl | rfl | rfl | rfl <;> decide

/-- The next token, after a separator perhaps. -/
theorem tokenSep_at {s : List Nat} {a b : Nat} {sep ts : List Tok} (ha : Punct a) (hb : Punct b)
    (hs : sep = [] ∨ sep = [.punct a] ∨ sep = [.punct b]) (hn : ∀ t u, ts = t :: u → t ≠ .punct a ∧ t ≠ .punct b)
    (h : Toks s (sep ++ ts)) : ∃ tok s', tokenSep .eof (UInt8.ofNat a) (UInt8.ofNat b) s = .ok (tok, s') ∧ At tok s' ts := by
  unfold tokenSep
  have hsep : ∀ c, (c = a ∨ c = b) → Toks s (.punct c :: ts) → ∃ tok s', ((token .eof s).bind fun t =>
      if at0 t.1 = UInt8.ofNat a ∨ at0 t.1 = UInt8.ofNat b then token .eof t.2 else .ok t) = .ok (tok, s') ∧ At tok s' ts := by
    intro c hc h
    cases h with
    | cons h hsh ht =>
      rw [h, Res.ok_bind]
      dsimp only
      rw [if_pos (by rcases hc with rfl | rfl <;> simp [code, at0])]
      exact toks_at ht
  rcases hs with rfl | rfl | rfl
  · rw [List.nil_append] at h
    obtain ⟨tok, s', h1, h2⟩ := toks_at h
    rw [h1, Res.ok_bind]
    refine ⟨tok, s', if_neg ?_, h2⟩
    cases h2 with
    | nil =>
      rintro (e | e)
      · have e := congrArg UInt8.toNat e
        rcases punct_cases ha with rfl | rfl | rfl | rfl | rfl | rfl | rfl | rfl <;> exact absurd e (by decide)
      · have e := congrArg UInt8.toNat e
        rcases punct_cases hb with rfl | rfl | rfl | rfl | rfl | rfl | rfl | rfl <;> exact absurd e (by decide)
    | cons hsh ht =>
      obtain ⟨h3, h4⟩ := hn _ _ rfl
      rintro (e | e)
      · exact at0_ne hsh ha h3 e
      · exact at0_ne hsh hb h4 e
  · exact hsep a (.inl rfl) h
  · exact hsep b (.inr rfl) h

/-! ### Steps -/

/-- The loop goes on with the result of a step. -/
def resume (n : Nat) (r : Res (State ⊕ Value)) : Res Value :=
  r.bind fun
    | .inl st => steps .eof n st
    | .inr v => .ok v

theorem steps_succ (n : Nat) (st : State) : steps .eof (n + 1) st = resume n (step .eof st) := rfl

/-- The first token of a value. -/
def Starts (t : Tok) : Prop := ∀ c, t = .punct c → c = 0x5B ∨ c = 0x7B

/-- No separator comes first. -/
def NoSep (ts : List Tok) : Prop := ∀ t u, ts = t :: u → t ≠ .punct 0x2C ∧ t ≠ .punct 0x3B

/-- A value is complete. -/
theorem put_at {s : List Nat} {sep ts : List Tok} (v : Value) (f : Frame) (stack : List Frame) (hs : Sep sep) (hn : NoSep ts)
    (h : Toks s (sep ++ ts)) : ∃ tok s', At tok s' ts ∧ ∀ n, resume n (put .eof v s f stack) = steps .eof n (.close tok s' (f.fill v) stack) := by
  obtain ⟨tok, s', h1, h2⟩ := tokenSep_at (a := 0x2C) (b := 0x3B) (by simp [Punct]) (by simp [Punct]) hs hn h
  refine ⟨tok, s', h2, fun n => ?_⟩
  unfold put
  rw [show (0x2C : UInt8) = UInt8.ofNat 0x2C from rfl, show (0x3B : UInt8) = UInt8.ofNat 0x3B from rfl, h1]
  rfl

theorem value_other {tok : Bytes} {s : List Nat} {f : Frame} {stack : List Frame} (h1 : at0 tok ≠ 0x5B) (h2 : at0 tok ≠ 0x7B)
    (h3 : ¬ (at0 tok = 0x2B ∨ at0 tok = 0x2D ∨ isDigit (at0 tok).toNat)) (h4 : at0 tok ≠ 0x22) :
    value .eof tok s f stack = (if tok = [0x6E, 0x75, 0x6C, 0x6C] then put .eof .null s f stack
      else if tok = [0x74, 0x72, 0x75, 0x65] then put .eof (.bool true) s f stack
      else if tok = [0x66, 0x61, 0x6C, 0x73, 0x65] then put .eof (.bool false) s f stack
      else .throw) := by
  unfold value
  rw [if_neg h1, if_neg h2, if_neg h3, if_neg h4]

/-- A token which is not the one that ends the container begins an element. -/
theorem close_pack {tok : Bytes} {s : List Nat} {cur : Cur} {stack : List Frame} (h1 : tok ≠ [])
    (h2 : at0 tok ≠ cur.last) (n : Nat) :
    steps .eof (n + 1) (.close tok s cur stack) = steps .eof n (.pack tok s cur stack) := by
  rw [steps_succ]
  unfold step
  dsimp only
  rw [if_neg h1, if_pos h2]
  rfl

/-- The end of a container. -/
theorem close_end {tok : Bytes} {s : List Nat} {cur : Cur} {f : Frame} {stack : List Frame} (h1 : tok ≠ [])
    (h2 : at0 tok = cur.last) (n : Nat) :
    steps .eof (n + 1) (.close tok s cur (f :: stack)) = resume n (put .eof cur.value s f stack) := by
  rw [steps_succ]
  unfold step
  dsimp only
  rw [if_neg h1, if_neg (not_not_intro h2)]

theorem starts_of {num : Bytes → Value → Prop} {d : Nat} {v : Value} {ts : List Tok} (h : Derives num d (.val v) ts) :
    ∃ t u, ts = t :: u ∧ Starts t := by
  cases h <;> exact ⟨_, _, rfl, by simp [Starts]⟩

theorem starts_ne {t : Tok} (h : Starts t) {c : Nat} (h1 : c ≠ 0x5B) (h2 : c ≠ 0x7B) : t ≠ .punct c := by
  rintro rfl
  rcases h c rfl with e | e
  · exact h1 e
  · exact h2 e

/-- What comes after the elements or members: the token that ends the container, or the end of the file. -/
def EndTok (c : Nat) (ts : List Tok) : Prop := ∀ t u, ts = t :: u → t = .punct c

theorem elems_noSep {num : Bytes → Value → Prop} {d : Nat} {l : List Value} {ts rest : List Tok} (h : Derives num d (.elems l) ts)
    (hr : EndTok 0x5D rest) : NoSep (ts ++ rest) := by
  intro t u e
  cases h with
  | elemsNil =>
    rw [List.nil_append] at e
    rw [hr _ _ e]
    simp
  | elemsCons h _ _ =>
    obtain ⟨t', u', rfl, hs⟩ := starts_of h
    rw [List.cons_append, List.cons_append] at e
    cases e
    exact ⟨starts_ne hs (by decide) (by decide), starts_ne hs (by decide) (by decide)⟩

theorem key_starts {t : Tok} {k : Bytes} (h : Key t k) (c : Nat) : t ≠ .punct c := by cases h <;> simp

theorem fields_noSep {num : Bytes → Value → Prop} {d : Nat} {l : List (Bytes × Value)} {ts rest : List Tok}
    (h : Derives num d (.fields l) ts) (hr : EndTok 0x7D rest) : NoSep (ts ++ rest) := by
  intro t u e
  cases h with
  | fieldsNil =>
    rw [List.nil_append] at e
    rw [hr _ _ e]
    simp
  | fieldsCons hk _ _ _ _ _ =>
    rw [List.cons_append] at e
    cases e
    exact ⟨key_starts hk _, key_starts hk _⟩

/-- The key of a token. -/
theorem key_of {t : Tok} {k : Bytes} (h : Key t k) (hs : Shape t) : key (code t) = some k := by
  cases h with
  | word =>
    unfold key
    have hl := ident1_iff.1 hs
    rw [if_neg, if_pos]
    · rfl
    · exact hs
    · intro e
      simp only [code] at e
      rw [e] at hl
      revert hl
      unfold Letter
      decide
  | str => rfl

/-- What the steps do, for all kinds of items. -/
def Goal : Nat → Item → List Tok → Prop
  | d, .val v, ts => ∀ (tok : Bytes) (s : List Nat) (f : Frame) (stack : List Frame) (sep rest : List Tok), Sep sep → NoSep rest →
      At tok s (ts ++ (sep ++ rest)) → stack.length + d ≤ 32 →
      ∃ k tok' s', k + 2 ≤ 2 * ts.length ∧ At tok' s' rest ∧
        ∀ n, resume (n + k) (value .eof tok s f stack) = steps .eof n (.close tok' s' (f.fill v) stack)
  | d, .elems l, ts => ∀ (tok : Bytes) (s : List Nat) (items : List Value) (stack : List Frame) (rest : List Tok), EndTok 0x5D rest →
      At tok s (ts ++ rest) → stack.length + d ≤ 32 →
      ∃ k tok' s', k ≤ 2 * ts.length ∧ At tok' s' rest ∧
        ∀ n, steps .eof (n + k) (.close tok s (.arr items) stack) = steps .eof n (.close tok' s' (.arr (items ++ l)) stack)
  | d, .fields l, ts => ∀ (tok : Bytes) (s : List Nat) (entries : List (Bytes × Value)) (stack : List Frame) (rest : List Tok), EndTok 0x7D rest →
      At tok s (ts ++ rest) → stack.length + d ≤ 32 → (∀ k ∈ l.map (·.1), k ∉ entries.map (·.1)) →
      ∃ k tok' s', k ≤ 2 * ts.length ∧ At tok' s' rest ∧
        ∀ n, steps .eof (n + k) (.close tok s (.obj entries) stack) = steps .eof n (.close tok' s' (.obj (entries ++ l)) stack)

theorem ascii_word : "null".toUTF8.toList = [0x6E, 0x75, 0x6C, 0x6C] ∧ "true".toUTF8.toList = [0x74, 0x72, 0x75, 0x65] ∧
    "false".toUTF8.toList = [0x66, 0x61, 0x6C, 0x73, 0x65] := by decide +kernel

theorem goal_of {d : Nat} {i : Item} {ts : List Tok} (h : Derives (fun t v => numeric t = .ok v) d i ts) : Goal d i ts := by
  induction h with
  | null =>
    intro tok s f stack sep rest hs hn ha hd
    rw [ascii_word.1] at ha
    cases ha with
    | cons hsh ht =>
      obtain ⟨tok', s', h1, h2⟩ := put_at .null f stack hs hn ht
      refine ⟨0, tok', s', by simp, h1, fun n => ?_⟩
      rw [← h2]
      rfl
  | true =>
    intro tok s f stack sep rest hs hn ha hd
    rw [ascii_word.2.1] at ha
    cases ha with
    | cons hsh ht =>
      obtain ⟨tok', s', h1, h2⟩ := put_at (.bool true) f stack hs hn ht
      refine ⟨0, tok', s', by simp, h1, fun n => ?_⟩
      rw [← h2]
      rfl
  | false =>
    intro tok s f stack sep rest hs hn ha hd
    rw [ascii_word.2.2] at ha
    cases ha with
    | cons hsh ht =>
      obtain ⟨tok', s', h1, h2⟩ := put_at (.bool false) f stack hs hn ht
      refine ⟨0, tok', s', by simp, h1, fun n => ?_⟩
      rw [← h2]
      rfl
  | number hv =>
    rename_i t v
    intro tok s f stack sep rest hs hn ha hd
    cases ha with
    | cons hsh ht =>
      obtain ⟨tok', s', h1, h2⟩ := put_at v f stack hs hn ht
      refine ⟨0, tok', s', by simp, h1, fun n => ?_⟩
      rw [← h2]
      have hsh' : at0 t = 0x2B ∨ at0 t = 0x2D ∨ isDigit (at0 t).toNat = Bool.true := hsh
      show resume (n + 0) (value .eof t s f stack) = _
      unfold value
      rw [if_neg, if_neg, if_pos hsh', hv, Res.ok_bind]
      · rfl
      · intro e
        rw [e] at hsh'
        exact absurd hsh' (by decide)
      · intro e
        rw [e] at hsh'
        exact absurd hsh' (by decide)
  | string =>
    rename_i d u
    intro tok s f stack sep rest hs hn ha hd
    cases ha with
    | cons hsh ht =>
      obtain ⟨tok', s', h1, h2⟩ := put_at (.str u) f stack hs hn ht
      refine ⟨0, tok', s', by simp, h1, fun n => ?_⟩
      rw [← h2]
      rfl
  | noElems =>
    intro tok s f stack sep rest hs hn ha hd
    cases ha with
    | cons hsh ht =>
      cases ht with
      | cons hk hsh' ht =>
        obtain ⟨tok', s', h1, h2⟩ := put_at (.arr []) f stack hs hn ht
        refine ⟨0, tok', s', by simp, h1, fun n => ?_⟩
        rw [← h2]
        unfold value
        rw [if_pos (by rfl), hk, Res.ok_bind]
        rfl
  | noMembers =>
    intro tok s f stack sep rest hs hn ha hd
    cases ha with
    | cons hsh ht =>
      cases ht with
      | cons hk hsh' ht =>
        obtain ⟨tok', s', h1, h2⟩ := put_at (.obj []) f stack hs hn ht
        refine ⟨0, tok', s', by simp, h1, fun n => ?_⟩
        rw [← h2]
        unfold value
        rw [if_neg (by simp [code, at0]), if_pos (by rfl), hk, Res.ok_bind]
        rfl
  | array hd ih =>
    rename_i d x xs ts
    intro tok s f stack sep rest hs hn ha hdep
    rw [List.cons_append, List.append_assoc] at ha
    cases ha with
    | cons hsh ht =>
      obtain ⟨tok1, s1, hk, ha1⟩ := toks_at ht
      obtain ⟨t, u, ht0, hst⟩ : ∃ t u, ts = t :: u ∧ Starts t := by
        cases hd with
        | elemsCons h _ _ =>
          obtain ⟨t, u, rfl, hs⟩ := starts_of h
          exact ⟨t, _, rfl, hs⟩
      obtain ⟨k, tok2, s2, hk2, ha2, hn2⟩ := ih tok1 s1 [] (f :: stack) ([.punct 0x5D] ++ (sep ++ rest))
        (fun t u e => by cases e; rfl) ha1 (by simp only [List.length_cons]; omega)
      cases ha2 with
      | cons hsh2 ht2 =>
        obtain ⟨tok3, s3, h3, h4⟩ := put_at (.arr (x :: xs)) f stack hs hn ht2
        have hc : tok1 ≠ [] ∧ at0 tok1 ≠ 0x5D := by
          rw [ht0] at ha1
          cases ha1 with
          | cons hsh1 _ => exact ⟨code_ne hsh1, at0_ne hsh1 (by simp [Punct]) (starts_ne hst (by decide) (by decide))⟩
        have h1 : value .eof (code (.punct 0x5B)) s f stack = .ok (.inl (.pack tok1 s1 (.arr []) (f :: stack))) := by
          unfold value
          rw [if_pos (by rfl), hk, Res.ok_bind]
          dsimp only
          rw [if_neg hc.1, if_pos hc.2]
        rw [h1]
        have h5 : ∀ n, steps .eof n (.pack tok1 s1 (.arr []) (f :: stack)) = steps .eof (n + 1) (.close tok1 s1 (.arr []) (f :: stack)) :=
          fun n => (close_pack (cur := .arr []) hc.1 hc.2 n).symm
        refine ⟨k + 1 - 1, tok3, s3, by simp only [List.length_cons, List.length_append]; omega, h3, fun n => ?_⟩
        show steps .eof (n + (k + 1 - 1)) _ = _
        rw [h5, show n + (k + 1 - 1) + 1 = (n + 1) + k by omega, hn2, ← h4]
        exact close_end (by simp [code]) (by rfl) n
  | object hd ih =>
    rename_i d x xs ts
    intro tok s f stack sep rest hs hn ha hdep
    rw [List.cons_append, List.append_assoc] at ha
    cases ha with
    | cons hsh ht =>
      obtain ⟨tok1, s1, hk, ha1⟩ := toks_at ht
      obtain ⟨t, u, ht0, hst⟩ : ∃ t u, ts = t :: u ∧ t ≠ .punct 0x7D := by
        cases hd with
        | fieldsCons h _ _ _ _ _ => exact ⟨_, _, rfl, key_starts h _⟩
      obtain ⟨k, tok2, s2, hk2, ha2, hn2⟩ := ih tok1 s1 [] (f :: stack) ([.punct 0x7D] ++ (sep ++ rest))
        (fun t u e => by cases e; rfl) ha1 (by simp only [List.length_cons]; omega) (by simp)
      cases ha2 with
      | cons hsh2 ht2 =>
        obtain ⟨tok3, s3, h3, h4⟩ := put_at (.obj (x :: xs)) f stack hs hn ht2
        have hc : tok1 ≠ [] ∧ at0 tok1 ≠ 0x7D := by
          rw [ht0] at ha1
          cases ha1 with
          | cons hsh1 _ => exact ⟨code_ne hsh1, at0_ne hsh1 (by simp [Punct]) hst⟩
        have h1 : value .eof (code (.punct 0x7B)) s f stack = .ok (.inl (.pack tok1 s1 (.obj []) (f :: stack))) := by
          unfold value
          rw [if_neg (by simp [code, at0]), if_pos (by rfl), hk, Res.ok_bind]
          dsimp only
          rw [if_neg hc.1, if_pos hc.2]
        rw [h1]
        have h5 : ∀ n, steps .eof n (.pack tok1 s1 (.obj []) (f :: stack)) = steps .eof (n + 1) (.close tok1 s1 (.obj []) (f :: stack)) :=
          fun n => (close_pack (cur := .obj []) hc.1 hc.2 n).symm
        refine ⟨k + 1 - 1, tok3, s3, by simp only [List.length_cons, List.length_append]; omega, h3, fun n => ?_⟩
        show steps .eof (n + (k + 1 - 1)) _ = _
        rw [h5, show n + (k + 1 - 1) + 1 = (n + 1) + k by omega, hn2, ← h4]
        exact close_end (by simp [code]) (by rfl) n
  | elemsNil =>
    intro tok s items stack rest hr ha hd
    exact ⟨0, tok, s, by simp, ha, fun n => by rw [List.append_nil]; rfl⟩
  | elemsCons hv hs hx ihv ihx =>
    rename_i d x xs ts sep us
    intro tok s items stack rest hr ha hd
    rw [List.append_assoc, List.append_assoc] at ha
    obtain ⟨k1, tok1, s1, hk1, ha1, hn1⟩ := ihv tok s (.arr items) stack sep (us ++ rest) hs (elems_noSep hx hr) ha hd
    obtain ⟨k2, tok2, s2, hk2, ha2, hn2⟩ := ihx tok1 s1 (items ++ [x]) stack rest hr ha1 hd
    refine ⟨k1 + k2 + 2, tok2, s2, ?_, ha2, fun n => ?_⟩
    · simp only [List.length_append]
      omega
    · obtain ⟨t, u, e, hst⟩ := starts_of hv
      have hc : tok ≠ [] ∧ at0 tok ≠ 0x5D := by
        rw [e] at ha
        cases ha with
        | cons hsh1 _ => exact ⟨code_ne hsh1, at0_ne hsh1 (by simp [Punct]) (starts_ne hst (by decide) (by decide))⟩
      rw [show n + (k1 + k2 + 2) = (n + k2 + k1 + 1) + 1 by omega, close_pack (cur := .arr items) hc.1 hc.2, steps_succ]
      unfold step
      dsimp only
      rw [if_neg (by omega), hn1]
      show steps .eof (n + k2) (.close tok1 s1 (.arr (items ++ [x])) stack) = _
      rw [hn2, List.append_assoc]
      rfl
  | fieldsNil =>
    intro tok s items stack rest hr ha hd hk
    exact ⟨0, tok, s, by simp, ha, fun n => by rw [List.append_nil]; rfl⟩
  | fieldsCons hkey hkn hcol hv hs hx ihv ihx =>
    rename_i d t k x xs col ts sep us
    intro tok s entries stack rest hr ha hd hk
    rw [List.cons_append, List.append_assoc, List.append_assoc, List.append_assoc] at ha
    cases ha with
    | cons hsh ht =>
      obtain ⟨t0, u0, e0, hst⟩ := starts_of hv
      obtain ⟨tok1, s1, hk1, ha1⟩ := tokenSep_at (a := 0x3A) (b := 0x3D) (by simp [Punct]) (by simp [Punct]) hcol
        (fun t u e => by
          rw [e0, List.cons_append] at e
          cases e
          exact ⟨starts_ne hst (by decide) (by decide), starts_ne hst (by decide) (by decide)⟩) ht
      obtain ⟨k2, tok2, s2, hk2, ha2, hn2⟩ := ihv tok1 s1 (.obj entries k) stack sep (us ++ rest) hs (fields_noSep hx hr) ha1 hd
      obtain ⟨k3, tok3, s3, hk3, ha3, hn3⟩ := ihx tok2 s2 (entries ++ [(k, x)]) stack rest hr ha2 hd (by
        intro k' hk'
        rw [List.map_append, List.mem_append]
        rintro (h | h)
        · exact hk k' (List.mem_cons_of_mem _ hk') h
        · have : k' = k := by simpa using h
          exact hkn (this ▸ hk'))
      refine ⟨k2 + k3 + 2, tok3, s3, ?_, ha3, fun n => ?_⟩
      · simp only [List.length_append, List.length_cons]
        omega
      · rw [show n + (k2 + k3 + 2) = (n + k3 + k2 + 1) + 1 by omega,
          close_pack (cur := .obj entries) (code_ne hsh) (at0_ne hsh (c := 0x7D) (by simp [Punct]) (key_starts hkey _)), steps_succ]
        unfold step
        dsimp only
        rw [if_neg (by omega), key_of hkey hsh]
        dsimp only
        rw [show (0x3A : UInt8) = UInt8.ofNat 0x3A from rfl, show (0x3D : UInt8) = UInt8.ofNat 0x3D from rfl, hk1, Res.ok_bind]
        dsimp only
        rw [if_neg (hk k (by simp)), hn2]
        show steps .eof (n + k3) (.close tok2 s2 (.obj (entries ++ [(k, x)])) stack) = _
        rw [hn3, List.append_assoc]
        rfl

/-- The whole parser. -/
theorem run_of {cs : List Nat} {ts : List Tok} {l : List (Bytes × Value)} (ht : Toks (dropMark cs) ts) (hl : ts.length ≤ cs.length)
    (h : Derives (fun t v => numeric t = .ok v) 32 (.fields l) ts) : run cs .eof = .ok (.obj l) := by
  unfold run
  obtain ⟨tok, s, hk, ha⟩ := toks_at ht
  rw [hk, Res.ok_bind]
  dsimp only
  obtain ⟨k, tok', s', hk', ha', hn⟩ := goal_of h tok s [] [] [] (fun t u e => by cases e) (by rwa [List.append_nil]) (by simp) (by simp)
  cases ha with
  | nil =>
    cases h
    rfl
  | cons hsh ht' =>
    rename_i t ts
    rw [if_neg (code_ne hsh)]
    have hne : t ≠ .punct 0x7D := by
      cases h with
      | fieldsCons h _ _ _ _ _ => exact key_starts h _
    rw [← close_pack (cur := .obj []) (code_ne hsh) (at0_ne hsh (c := 0x7D) (by simp [Punct]) hne),
      show 2 * cs.length + 4 + 1 = (2 * cs.length + 4 - k) + 1 + k by omega, hn, steps_succ]
    cases ha'
    rfl

end Asteria.Conf
