import Verif.Model.Format
import Verif.Spec.Format

/-!
# Lemmas about `formatv`
-/

namespace Asteria.Format

open FormatSpec

theorem loop_nil (env : Env) (t : Bytes) (args : List Bytes) (f : Nat) (out : Bytes) :
    loop env t args (f + 1) out [] = .ok out := by
  rw [loop]; simp

theorem loop_char (env : Env) (t : Bytes) (args : List Bytes) (f : Nat) (out : Bytes) (c : UInt8) (s : Bytes) (h : c ≠ 0x24) :
    loop env t args (f + 1) out (c :: s) = loop env t args (f + 1) (out ++ [c]) s := by
  rw [loop, loop]
  simp [h]

/-- What is done when the next byte is `$`. -/
def after (env : Env) (t : Bytes) (args : List Bytes) (f : Nat) (out : Bytes) : Bytes → Res Bytes
  | [] => .throw
  | c :: next =>
        if c = 0x24 then loop env t args f (out ++ [0x24]) next
        else if 0x30 ≤ c ∧ c ≤ 0x39 then
          loop env t args f (out ++ insert t args (c - 0x30).toNat) next
        else if c = 0x7B then
          match next.dropWhile (· ≠ 0x7D) with
          | [] => .throw
          | _ :: rest => loop env t args f (out ++ composite env t args (next.takeWhile (· ≠ 0x7D))) rest
        else .throw

theorem loop_dollar (env : Env) (t : Bytes) (args : List Bytes) (f : Nat) (out : Bytes) (s : Bytes) :
    loop env t args (f + 1) out (0x24 :: s) = after env t args f out s := by
  have h1 : (0x24 :: s : Bytes).takeWhile (· ≠ 0x24) = [] := List.takeWhile_cons_of_neg (by simp)
  have h2 : (0x24 :: s : Bytes).dropWhile (· ≠ 0x24) = 0x24 :: s := List.dropWhile_cons_of_neg (by simp)
  rw [loop, h1, h2, List.append_nil]
  cases s <;> rfl

theorem digit_byte : ∀ n : Fin 10, (0x30 : UInt8) ≤ UInt8.ofNat (0x30 + n.val) ∧ UInt8.ofNat (0x30 + n.val) ≤ 0x39 ∧
    UInt8.ofNat (0x30 + n.val) ≠ 0x24 ∧ (UInt8.ofNat (0x30 + n.val) - 0x30).toNat = n.val := by decide +kernel

theorem byte_digit {c : UInt8} (h1 : 0x30 ≤ c) (h2 : c ≤ 0x39) : c = UInt8.ofNat (0x30 + (c - 0x30).toNat) ∧ (c - 0x30).toNat < 10 := by
  have : ∀ n : Fin 256, 0x30 ≤ UInt8.ofNat n.val → UInt8.ofNat n.val ≤ 0x39 →
    UInt8.ofNat n.val = UInt8.ofNat (0x30 + (UInt8.ofNat n.val - 0x30).toNat) ∧ (UInt8.ofNat n.val - 0x30).toNat < 10 := by
    decide +kernel
  have := this ⟨c.toNat, c.toNat_lt⟩
  simp only [UInt8.ofNat_toNat] at this
  exact this h1 h2

theorem after_digit (env : Env) (t : Bytes) (args : List Bytes) (f : Nat) (out : Bytes) (s : Bytes) (n : Nat) (h : n < 10) :
    after env t args f out (UInt8.ofNat (0x30 + n) :: s) = loop env t args f (out ++ insert t args n) s := by
  have := digit_byte ⟨n, h⟩
  simp only at this
  rw [after, if_neg this.2.2.1, if_pos ⟨this.1, this.2.1⟩, this.2.2.2]

theorem takeWhile_until {b : Bytes} {c : UInt8} (h : c ∉ b) (s : Bytes) :
    (b ++ c :: s).takeWhile (· ≠ c) = b ∧ (b ++ c :: s).dropWhile (· ≠ c) = c :: s := by
  induction b with
  | nil => simp
  | cons x b ih =>
    have hx : x ≠ c := fun e => h (by simp [e])
    have := ih (fun e => h (by simp [e]))
    constructor
    · rw [List.cons_append, List.takeWhile_cons_of_pos (by simpa using hx), this.1]
    · rw [List.cons_append, List.dropWhile_cons_of_pos (by simpa using hx), this.2]

theorem until_split {b : Bytes} {c : UInt8} {x : UInt8} {r : Bytes} (h : b.dropWhile (· ≠ c) = x :: r) :
    b = b.takeWhile (· ≠ c) ++ c :: r ∧ c ∉ b.takeWhile (· ≠ c) := by
  induction b with
  | nil => cases h
  | cons y b ih =>
    by_cases hy : y = c
    · subst hy
      rw [List.dropWhile_cons_of_neg (by simp)] at h
      rw [List.takeWhile_cons_of_neg (by simp)]
      cases h
      simp
    · rw [List.dropWhile_cons_of_pos (by simpa using hy)] at h
      rw [List.takeWhile_cons_of_pos (by simpa using hy)]
      obtain ⟨h1, h2⟩ := ih h
      refine ⟨by rw [List.cons_append, ← h1], ?_⟩
      intro hm
      rcases List.mem_cons.1 hm with e | e
      · exact hy e.symm
      · exact h2 e

theorem after_braced (env : Env) (t : Bytes) (args : List Bytes) (f : Nat) (out : Bytes) (b s : Bytes) (h : (0x7D : UInt8) ∉ b) :
    after env t args f out (0x7B :: (b ++ 0x7D :: s)) = loop env t args f (out ++ composite env t args b) s := by
  have := takeWhile_until h s
  rw [after, if_neg (by decide), if_neg (by decide), if_pos rfl, this.1, this.2]

/-! ### Argument numbers -/

theorem noArg_eq : noArg = "(no arg)".toUTF8.toList := by decide +kernel

theorem insert_iff (t : Bytes) (args : List Bytes) (n : Nat) (out : Bytes) : Nth t args n out ↔ insert t args n = out := by
  unfold Nth insert
  rw [← noArg_eq]
  by_cases h0 : n = 0
  · simp [h0, eq_comm]
  · by_cases hn : n ≤ args.length
    · have : n - 1 < args.length := by omega
      simp only [h0, hn, false_and, false_or, if_false, if_true, List.getD_eq_getElem?_getD, List.getElem?_eq_getElem this,
        Option.getD_some, Option.some.injEq]
      constructor
      · rintro (h | h)
        · exact h.2
        · omega
      · exact fun h => .inl ⟨by omega, h⟩
    · have : args[n - 1]? = none := List.getElem?_eq_none (by omega)
      simp only [h0, hn, false_and, false_or, if_false, this]
      constructor
      · rintro (h | h)
        · cases h.2
        · exact h.2.symm
      · exact fun h => .inr ⟨by omega, h.symm⟩

theorem foldl_ge (ds : List Nat) (n : Nat) : n ≤ ds.foldl (fun n d => n * 10 + d) n := by
  induction ds generalizing n with
  | nil => exact Nat.le_refl _
  | cons d ds ih => exact Nat.le_trans (by omega) (ih (n * 10 + d))

/-- Scanning numerals, from some value. -/
theorem scan_numerals (n : Nat) (ds : List Nat) (hd : ∀ d ∈ ds, d < 10) :
    scanNumber n (numerals ds) = if ds = [] then n else
      if ds.foldl (fun n d => n * 10 + d) n < 655350 then ds.foldl (fun n d => n * 10 + d) n else 0xFFFFFFFF := by
  induction ds generalizing n with
  | nil => rfl
  | cons d ds ih =>
    have h := digit_byte ⟨d, hd d (by simp)⟩
    have hd10 := hd d (by simp)
    simp only at h
    rw [numerals, List.map_cons, scanNumber, if_neg (by simp only [not_or, UInt8.not_lt, gt_iff_lt]; exact ⟨h.1, h.2.1⟩)]
    have hge := foldl_ge ds (n * 10 + d)
    rw [if_neg (List.cons_ne_nil d ds), show (d :: ds).foldl (fun n d => n * 10 + d) n = ds.foldl (fun n d => n * 10 + d) (n * 10 + d) from rfl]
    by_cases hn : n ≥ 0xFFFF
    · rw [if_pos hn, if_neg (by omega)]
    · rw [if_neg hn, h.2.2.2, Nat.mod_eq_of_lt (by omega)]
      have := ih (n * 10 + d) (fun x hx => hd x (by simp [hx]))
      rw [numerals] at this
      rw [this]
      by_cases he : ds = []
      · subst he
        rw [if_pos rfl, show ([] : List Nat).foldl (fun n d => n * 10 + d) (n * 10 + d) = n * 10 + d from rfl, if_pos (by omega)]
      · rw [if_neg he]

/-- Anything that is not numerals is invalid. -/
theorem scan_other (n : Nat) (b : Bytes) (h : ¬ ∃ ds, (∀ d ∈ ds, d < 10) ∧ b = numerals ds) : scanNumber n b = 0xFFFFFFFF := by
  induction b generalizing n with
  | nil => exact absurd ⟨[], by simp, rfl⟩ h
  | cons c b ih =>
    rw [scanNumber]
    by_cases hc : c < 0x30 ∨ c > 0x39
    · rw [if_pos hc]
    · rw [if_neg hc]
      simp only [not_or, UInt8.not_lt, gt_iff_lt] at hc
      obtain ⟨e, hd⟩ := byte_digit hc.1 hc.2
      by_cases hn : n ≥ 0xFFFF
      · rw [if_pos hn]
      · rw [if_neg hn]
        apply ih
        rintro ⟨ds, h1, h2⟩
        refine h ⟨(c - 0x30).toNat :: ds, ?_, ?_⟩
        · intro d hd'
          rcases List.mem_cons.1 hd' with rfl | hd'
          · exact hd
          · exact h1 d hd'
        · rw [numerals, List.map_cons, ← e, h2, numerals]

/-- `errno` and others are not numerals. -/
theorem numerals_first {ds : List Nat} (hd : ∀ d ∈ ds, d < 10) {c : UInt8} {b : Bytes} (h : numerals ds = c :: b) :
    c ≤ 0x39 := by
  cases ds with
  | nil => cases h
  | cons d ds =>
    rw [numerals, List.map_cons] at h
    cases h
    exact (digit_byte ⟨d, hd d (by simp)⟩).2.1

theorem composite_iff (env : Env) (t : Bytes) (args : List Bytes) (ha : args.length < 0xFFFFFFFF) (b out : Bytes) :
    Braced env.errno env.strerror env.localTime env.utcTime t args b out ↔ composite env t args b = out := by
  have e1 : "errno".toUTF8.toList = [0x65, 0x72, 0x72, 0x6E, 0x6F] := by decide +kernel
  have e2 : "errno:str".toUTF8.toList = [0x65, 0x72, 0x72, 0x6E, 0x6F, 0x3A, 0x73, 0x74, 0x72] := by decide +kernel
  have e3 : "errno:full".toUTF8.toList = [0x65, 0x72, 0x72, 0x6E, 0x6F, 0x3A, 0x66, 0x75, 0x6C, 0x6C] := by decide +kernel
  have e4 : "time".toUTF8.toList = [0x74, 0x69, 0x6D, 0x65] := by decide +kernel
  have e5 : "time:utc".toUTF8.toList = [0x74, 0x69, 0x6D, 0x65, 0x3A, 0x75, 0x74, 0x63] := by decide +kernel
  have e6 : " (errno ".toUTF8.toList = [0x20, 0x28, 0x65, 0x72, 0x72, 0x6E, 0x6F, 0x20] := by decide +kernel
  have e7 : ")".toUTF8.toList = [0x29] := by decide +kernel
  have hno : insert t args 0xFFFFFFFF = noArg := by
    unfold insert
    rw [if_neg (by decide), if_neg (by omega)]
  constructor
  · intro h
    cases h with
    | nothing => rfl
    | errno => rw [e1]; rfl
    | errnoStr => rw [e2]; rfl
    | errnoFull =>
      rw [e3, e6, e7]
      simp [composite]
    | time => rw [e4]; rfl
    | timeUtc => rw [e5]; rfl
    | num h hd hn hout =>
      rename_i ds
      have hs := scan_numerals 0 ds hd
      rw [if_neg h] at hs
      change _ = if number ds < 655350 then number ds else _ at hs
      rw [if_pos hn] at hs
      have hne : ∀ c b', numerals ds = c :: b' → c ≤ 0x39 := fun c b' e => numerals_first hd e
      have h0 : numerals ds ≠ [] := by simpa [numerals] using h
      unfold composite
      rw [if_neg (fun e => absurd (hne _ _ e) (by decide)), if_neg (fun e => absurd (hne _ _ e) (by decide)),
        if_neg (fun e => absurd (hne _ _ e) (by decide)), if_neg (fun e => absurd (hne _ _ e) (by decide)),
        if_neg (fun e => absurd (hne _ _ e) (by decide)), if_neg h0, hs]
      exact (insert_iff t args _ _).1 hout
    | other h0 h1 h2 =>
      simp only [List.map_cons, List.map_nil, e1, e2, e3, e4, e5, List.mem_cons, List.not_mem_nil, or_false, not_or] at h1
      unfold composite
      rw [if_neg h1.1, if_neg h1.2.1, if_neg h1.2.2.1, if_neg h1.2.2.2.1, if_neg h1.2.2.2.2, if_neg h0, ← noArg_eq, ← hno]
      congr 1
      by_cases hds : ∃ ds, (∀ d ∈ ds, d < 10) ∧ b = numerals ds
      · obtain ⟨ds, hd, rfl⟩ := hds
        have hne : ds ≠ [] := fun e => h0 (by simp [e, numerals])
        have hs := scan_numerals 0 ds hd
        rw [if_neg hne] at hs
        change _ = if number ds < 655350 then number ds else _ at hs
        rw [if_neg (fun hlt => h2 ⟨ds, hne, hd, hlt, rfl⟩)] at hs
        exact hs
      · exact scan_other 0 b hds
  · intro h
    subst h
    by_cases c1 : b = [0x65, 0x72, 0x72, 0x6E, 0x6F]
    · subst c1; rw [← e1]
      have : composite env t args "errno".toUTF8.toList = env.errno := by rw [e1]; rfl
      rw [this]; exact .errno
    by_cases c2 : b = [0x65, 0x72, 0x72, 0x6E, 0x6F, 0x3A, 0x73, 0x74, 0x72]
    · subst c2; rw [← e2]
      have : composite env t args "errno:str".toUTF8.toList = env.strerror := by rw [e2]; rfl
      rw [this]; exact .errnoStr
    by_cases c3 : b = [0x65, 0x72, 0x72, 0x6E, 0x6F, 0x3A, 0x66, 0x75, 0x6C, 0x6C]
    · subst c3; rw [← e3]
      have : composite env t args "errno:full".toUTF8.toList =
        env.strerror ++ " (errno ".toUTF8.toList ++ env.errno ++ ")".toUTF8.toList := by rw [e3, e6, e7]; simp [composite]
      rw [this]; exact .errnoFull
    by_cases c4 : b = [0x74, 0x69, 0x6D, 0x65]
    · subst c4; rw [← e4]
      have : composite env t args "time".toUTF8.toList = env.localTime := by rw [e4]; rfl
      rw [this]; exact .time
    by_cases c5 : b = [0x74, 0x69, 0x6D, 0x65, 0x3A, 0x75, 0x74, 0x63]
    · subst c5; rw [← e5]
      have : composite env t args "time:utc".toUTF8.toList = env.utcTime := by rw [e5]; rfl
      rw [this]; exact .timeUtc
    by_cases c6 : b = []
    · subst c6; exact .nothing
    have hc : composite env t args b = insert t args (scanNumber 0 b) := by
      unfold composite; rw [if_neg c1, if_neg c2, if_neg c3, if_neg c4, if_neg c5, if_neg c6]
    rw [hc]
    by_cases hds : ∃ ds, ds ≠ [] ∧ (∀ d ∈ ds, d < 10) ∧ number ds < 655350 ∧ b = numerals ds
    · obtain ⟨ds, hne, hd, hn, rfl⟩ := hds
      have hs := scan_numerals 0 ds hd
      rw [if_neg hne] at hs
      change _ = if number ds < 655350 then number ds else _ at hs
      rw [if_pos hn] at hs
      rw [hs]
      exact .num hne hd hn ((insert_iff t args _ _).2 rfl)
    · have hs : scanNumber 0 b = 0xFFFFFFFF := by
        by_cases hds' : ∃ ds, (∀ d ∈ ds, d < 10) ∧ b = numerals ds
        · obtain ⟨ds, hd, rfl⟩ := hds'
          have hne : ds ≠ [] := fun e => c6 (by simp [e, numerals])
          have hs := scan_numerals 0 ds hd
          rw [if_neg hne] at hs
          change _ = if number ds < 655350 then number ds else _ at hs
          rw [if_neg (fun hlt => hds ⟨ds, hne, hd, hlt, rfl⟩)] at hs
          exact hs
        · exact scan_other 0 b hds'
      rw [hs, hno, noArg_eq]
      refine .other c6 ?_ hds
      simp only [List.map_cons, List.map_nil, e1, e2, e3, e4, e5, List.mem_cons, List.not_mem_nil, or_false, not_or]
      exact ⟨c1, c2, c3, c4, c5⟩

/-! ### The loop -/

theorem braced_text (b r : Bytes) : (Piece.braced b).text ++ r = 0x24 :: 0x7B :: (b ++ 0x7D :: r) := by simp [Piece.text]

theorem loop_complete (env : Env) (t : Bytes) (args : List Bytes) (ha : args.length < 0xFFFFFFFF) {ps : List Piece} {o : Bytes}
    (hos : Outs env.errno env.strerror env.localTime env.utcTime t args ps o) (hok : ∀ p ∈ ps, p.Ok) (f : Nat)
    (hf : (text ps).length < f) (out : Bytes) : loop env t args f out (text ps) = .ok (out ++ o) := by
  induction hos generalizing f out with
  | nil =>
    obtain ⟨f, rfl⟩ : ∃ g, f = g + 1 := ⟨f - 1, by omega⟩
    rw [text, List.flatMap_nil, loop_nil, List.append_nil]
  | cons h hs ih =>
    rename_i p ps a b
    obtain ⟨f, rfl⟩ : ∃ g, f = g + 1 := ⟨f - 1, by omega⟩
    have hp := hok p (by simp)
    have ih := ih (fun p hp => hok p (by simp [hp]))
    rw [text, List.flatMap_cons] at hf ⊢
    rw [text] at ih
    rw [List.length_append] at hf
    rw [← List.append_assoc]
    cases h with
    | char =>
      rw [Piece.text] at hf ⊢
      rw [List.cons_append, List.nil_append, loop_char _ _ _ _ _ _ _ hp]
      exact ih _ (by simp only [List.length_cons] at hf; omega) _
    | dollar =>
      rw [Piece.text] at hf ⊢
      rw [List.cons_append, List.cons_append, List.nil_append, loop_dollar, after, if_pos rfl]
      exact ih _ (by simp only [List.length_cons] at hf; omega) _
    | digit hn =>
      rw [Piece.text] at hf ⊢
      rw [List.cons_append, List.cons_append, List.nil_append, loop_dollar, after_digit _ _ _ _ _ _ _ hp,
        (insert_iff t args _ _).1 hn]
      exact ih _ (by simp only [List.length_cons] at hf; omega) _
    | braced hb =>
      rw [Piece.text] at hf
      rw [braced_text, loop_dollar, after_braced _ _ _ _ _ _ _ hp, (composite_iff env t args ha _ _).1 hb]
      exact ih _ (by simp only [List.length_cons, List.length_append] at hf; omega) _

theorem loop_sound (env : Env) (t : Bytes) (args : List Bytes) (ha : args.length < 0xFFFFFFFF) (n : Nat) : ∀ (s : Bytes), s.length = n →
    ∀ (f : Nat), s.length < f → ∀ out, loop env t args f out s = .throw ∨ ∃ ps o,
      (∀ p ∈ ps, p.Ok) ∧ text ps = s ∧ Outs env.errno env.strerror env.localTime env.utcTime t args ps o ∧
      loop env t args f out s = .ok (out ++ o) := by
  induction n using Nat.strongRecOn with
  | _ n ih =>
    intro s hn f hf out
    obtain ⟨f, rfl⟩ : ∃ g, f = g + 1 := ⟨f - 1, by omega⟩
    -- one piece, then the rest
    have step : ∀ (p : Piece) (a r : Bytes) (g : Nat), p.Ok → s = p.text ++ r → r.length < s.length →
        Out env.errno env.strerror env.localTime env.utcTime t args p a → r.length < g →
        loop env t args (f + 1) out s = loop env t args g (out ++ a) r →
        loop env t args (f + 1) out s = .throw ∨ ∃ ps o,
          (∀ p ∈ ps, p.Ok) ∧ text ps = s ∧ Outs env.errno env.strerror env.localTime env.utcTime t args ps o ∧
          loop env t args (f + 1) out s = .ok (out ++ o) := by
      intro p a r g hp hs hr hout hg he
      rw [he]
      rcases ih r.length (by omega) r rfl g hg (out ++ a) with h | ⟨ps, o, h1, h2, h3, h4⟩
      · exact .inl h
      · refine .inr ⟨p :: ps, a ++ o, ?_, ?_, .cons hout h3, ?_⟩
        · intro q hq
          rcases List.mem_cons.1 hq with rfl | hq
          · exact hp
          · exact h1 q hq
        · rw [text, List.flatMap_cons, hs]
          rw [text] at h2
          rw [h2]
        · rw [h4, List.append_assoc]
    cases s with
    | nil => exact .inr ⟨[], [], by simp, rfl, .nil, by rw [loop_nil, List.append_nil]⟩
    | cons c s =>
      simp only [List.length_cons] at hf
      by_cases hc : c = 0x24
      · subst hc
        cases s with
        | nil => exact .inl (by rw [loop_dollar, after])
        | cons d s =>
          simp only [List.length_cons] at hf
          by_cases h1 : d = 0x24
          · subst h1
            exact step .dollar [0x24] s f trivial rfl (by simp only [List.length_cons]; omega) .dollar (by omega) (by rw [loop_dollar, after, if_pos rfl])
          · by_cases h2 : 0x30 ≤ d ∧ d ≤ 0x39
            · obtain ⟨e, hd⟩ := byte_digit h2.1 h2.2
              refine step (.digit (d - 0x30).toNat) _ s f hd (by rw [Piece.text, ← e]; rfl) (by simp only [List.length_cons]; omega)
                (.digit ((insert_iff _ _ _ _).2 rfl)) (by omega) (by rw [loop_dollar, after, if_neg h1, if_pos h2])
            · by_cases h3 : d = 0x7B
              · subst h3
                cases hw : s.dropWhile (· ≠ 0x7D) with
                | nil => exact .inl (by rw [loop_dollar, after, if_neg h1, if_neg h2, if_pos rfl, hw])
                | cons x r =>
                  obtain ⟨e1, e2⟩ := until_split hw
                  have hl := congrArg List.length e1
                  simp only [List.length_append, List.length_cons] at hl
                  refine step (.braced (s.takeWhile (· ≠ 0x7D))) _ r f e2 ?_ (by simp only [List.length_cons]; omega)
                    (.braced ((composite_iff env t args ha _ _).2 rfl)) (by omega) ?_
                  · rw [braced_text, ← e1]
                  · rw [loop_dollar, after, if_neg h1, if_neg h2, if_pos rfl, hw]
              · exact .inl (by rw [loop_dollar, after, if_neg h1, if_neg h2, if_neg h3])
      · exact step (.char c) [c] s (f + 1) hc rfl (by simp) .char (by omega) (loop_char _ _ _ _ _ _ _ hc)

end Asteria.Format
