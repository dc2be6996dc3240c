import Verif.Proof.ConfNum

/-!
# Everything that is read as a configuration file is one
-/

namespace Asteria.Conf

open ConfSpec
open JsonSpec (Item utf8)
open Utf (Scalar utf8Encode)
open NumText

theorem bind_inv {α β : Type} {x : Res α} {f : α → Res β} {b : β} (h : x.bind f = .ok b) : ∃ a, x = .ok a ∧ f a = .ok b := by
  cases x with
  | ok a => exact ⟨a, rfl, h⟩
  | throw => cases h
  | ub => cases h

theorem map_inv {α β : Type} {x : Res α} {f : α → β} {b : β} (h : x.map f = .ok b) : ∃ a, x = .ok a ∧ f a = b := by
  cases x with
  | ok a => exact ⟨a, rfl, Res.ok.inj h⟩
  | throw => cases h
  | ub => cases h

theorem at_inv {α : Type} {e : End} {k : Res α} {a : α} (h : e.at k = .ok a) : e = .eof ∧ k = .ok a := by
  cases e with
  | eof => exact ⟨rfl, h⟩
  | bad => cases h
  | undef => cases h

theorem at_throw {α : Type} {e : End} {a : α} (h : e.at .throw = .ok a) : False := by
  have := (at_inv h).2
  cases this

theorem at_ub {α : Type} {e : End} {a : α} (h : e.at .ub = .ok a) : False := by
  have := (at_inv h).2
  cases this

/-! ### Blanks and comments -/

/-- What `skip` found. -/
def Found (e : End) (s r : List Nat) : Prop :=
  (r = [] ∧ e = .eof ∧ Last .code s) ∨ ∃ g c r', r = c :: r' ∧ s = g ++ r ∧ Gap .code g

theorem Found.add {e : End} {g s r : List Nat} (hg : ∀ x, Gap .code x → Gap .code (g ++ x)) (h : Found e s r) : Found e (g ++ s) r := by
  rcases h with ⟨h1, h2, h3⟩ | ⟨x, c, r', h1, h2, h3⟩
  · refine .inl ⟨h1, h2, ?_⟩
    cases h3 with
    | gap h => exact .gap (hg _ h)
    | line h k =>
      rw [← List.append_assoc]
      exact .line (hg _ h) k
  · exact .inr ⟨g ++ x, c, r', h1, by rw [h2, List.append_assoc], hg _ h3⟩

theorem skip_inv (e : End) : ∀ (n : Nat) (s : List Nat), s.length ≤ n →
    (∀ r, skip e .gap s = .ok r → Found e s r) ∧
    (∀ r, skip e .line s = .ok r → (0x0A ∉ s ∧ r = [] ∧ e = .eof) ∨ ∃ t s', s = t ++ 0x0A :: s' ∧ 0x0A ∉ t ∧ Found e s' r) ∧
    (∀ r, skip e .block s = .ok r → ∃ t s', s = t ++ 0x2A :: 0x2F :: s' ∧ Paired t ∧ Found e s' r) := by
  intro n
  induction n with
  | zero =>
    intro s hs
    have : s = [] := List.eq_nil_of_length_eq_zero (by omega)
    subst this
    refine ⟨?_, ?_, ?_⟩
    · intro r h
      obtain ⟨h1, h2⟩ := at_inv (show e.at (.ok []) = .ok r by simpa [skip] using h)
      cases h2
      exact .inl ⟨rfl, h1, .gap .nil⟩
    · intro r h
      obtain ⟨h1, h2⟩ := at_inv (show e.at (.ok []) = .ok r by simpa [skip] using h)
      cases h2
      exact .inl ⟨by simp, rfl, h1⟩
    · intro r h
      exact (at_throw (show e.at .throw = .ok r by simpa [skip] using h)).elim
  | succ n ih =>
    intro s hs
    cases s with
    | nil => exact ih [] (by simp)
    | cons c s =>
      simp only [List.length_cons] at hs
      obtain ⟨ih1, ih2, ih3⟩ := ih s (by omega)
      refine ⟨?_, ?_, ?_⟩
      · intro r h
        rw [skip.eq_def] at h
        dsimp only at h
        by_cases hc : c = 0x2F
        · rw [if_pos hc] at h
          subst hc
          cases s with
          | nil => exact (at_throw h).elim
          | cons d s =>
            simp only [List.length_cons] at hs
            obtain ⟨jh1, jh2, jh3⟩ := ih s (by omega)
            dsimp only at h
            by_cases hd : d = 0x2F
            · rw [if_pos hd] at h
              subst hd
              rcases jh2 r h with ⟨k1, k2, k3⟩ | ⟨t, s', rfl, k2, k3⟩
              · exact .inl ⟨k2, k3, .line .nil k1⟩
              · have := Found.add (g := 0x2F :: 0x2F :: (t ++ [0x0A])) (fun x hx => by
                  simpa using Gap.line (lv := .code) k2 hx) k3
                simpa using this
            · rw [if_neg hd] at h
              by_cases hd' : d = 0x2A
              · rw [if_pos hd'] at h
                subst hd'
                obtain ⟨t, s', rfl, k2, k3⟩ := jh3 r h
                have := Found.add (g := 0x2F :: 0x2A :: (t ++ [0x2A, 0x2F])) (fun x hx => by
                  simpa using Gap.paired (lv := .code) rfl k2 hx) k3
                simpa using this
              · rw [if_neg hd'] at h
                cases h
        · rw [if_neg hc] at h
          by_cases hb : isBlank c = true
          · rw [if_pos hb] at h
            exact Found.add (g := [c]) (fun x hx => .blank (blank_iff.1 hb) hx) (ih1 r h)
          · rw [if_neg hb] at h
            cases h
            exact .inr ⟨[], c, s, rfl, rfl, .nil⟩
      · intro r h
        rw [skip.eq_def] at h
        dsimp only at h
        by_cases hc : c = 0x0A
        · rw [if_pos hc] at h
          subst hc
          exact .inr ⟨[], s, rfl, by simp, ih1 r h⟩
        · rw [if_neg hc] at h
          rcases ih2 r h with ⟨k1, k2, k3⟩ | ⟨t, s', rfl, k2, k3⟩
          · exact .inl ⟨by simp [k1, Ne.symm hc], k2, k3⟩
          · exact .inr ⟨c :: t, s', rfl, by simp [k2, Ne.symm hc], k3⟩
      · intro r h
        rw [skip.eq_def] at h
        dsimp only at h
        by_cases hc : c = 0x2A
        · rw [if_pos hc] at h
          subst hc
          cases s with
          | nil => exact (at_throw h).elim
          | cons d s =>
            simp only [List.length_cons] at hs
            obtain ⟨jh1, jh2, jh3⟩ := ih s (by omega)
            dsimp only at h
            by_cases hd : d = 0x2F
            · rw [if_pos hd] at h
              subst hd
              exact ⟨[], s, rfl, .nil, jh1 r h⟩
            · rw [if_neg hd] at h
              obtain ⟨t, s', rfl, k2, k3⟩ := jh3 r h
              exact ⟨0x2A :: d :: t, s', rfl, .star hd k2, k3⟩
        · rw [if_neg hc] at h
          obtain ⟨t, s', rfl, k2, k3⟩ := ih3 r h
          exact ⟨c :: t, s', rfl, .cons hc k2, k3⟩

/-! ### Words and strings -/

theorem ident_inv {e : End} (s : List Nat) : ∀ {w : Bytes} {r : List Nat}, ident e s = .ok (w, r) →
    ∃ u, s = u ++ r ∧ w = u.map UInt8.ofNat ∧ (∀ d ∈ u, Letter d ∨ Digit d) ∧ ∀ d t, r = d :: t → ¬ Letter d ∧ ¬ Digit d := by
  induction s with
  | nil =>
    intro w r h
    obtain ⟨_, h⟩ := at_inv h
    cases h
    exact ⟨[], rfl, rfl, by simp, by simp⟩
  | cons c s ih =>
    intro w r h
    rw [ident] at h
    by_cases hc : isIdent c = true
    · rw [if_pos hc] at h
      obtain ⟨⟨w', r'⟩, h1, h2⟩ := map_inv h
      cases h2
      obtain ⟨u, rfl, rfl, k3, k4⟩ := ih h1
      refine ⟨c :: u, rfl, rfl, ?_, k4⟩
      intro d hd
      rcases List.mem_cons.1 hd with rfl | hd
      · exact ident_iff.1 hc
      · exact k3 d hd
    · rw [if_neg hc] at h
      cases h
      refine ⟨[], rfl, rfl, by simp, ?_⟩
      intro d t e
      cases e
      rw [ident_iff, not_or] at hc
      exact hc

theorem single_inv {e : End} (s : List Nat) : ∀ {w : Bytes} {r : List Nat}, single e s = .ok (w, r) →
    ∃ u, s = u ++ 0x27 :: r ∧ w = u.map UInt8.ofNat ∧ ∀ c ∈ u, 0x20 ≤ c ∧ c ≠ 0x7F ∧ c ≠ 0x27 := by
  induction s with
  | nil => intro w r h; exact (at_throw h).elim
  | cons c s ih =>
    intro w r h
    rw [single] at h
    split at h
    · cases h
    · rename_i h1
      split at h
      · rename_i h2
        cases h
        exact ⟨[], by rw [h2]; rfl, rfl, by simp⟩
      · rename_i h2
        obtain ⟨⟨w', r'⟩, h3, h4⟩ := map_inv h
        cases h4
        obtain ⟨u, rfl, rfl, k3⟩ := ih h3
        refine ⟨c :: u, rfl, rfl, ?_⟩
        intro d hd
        rcases List.mem_cons.1 hd with rfl | hd
        · exact ⟨by omega, by omega, h2⟩
        · exact k3 d hd

theorem hexDigit_inv {c d : Nat} (h : hexDigit c = some d) : HexDigit c d := by
  unfold hexDigit at h
  split at h
  · cases h
    have := HexDigit.dec (n := c - 0x30) (by omega)
    rwa [show 0x30 + (c - 0x30) = c by omega] at this
  · split at h
    · cases h
      have := HexDigit.upper (n := c - 0x41) (by omega)
      rwa [show 0x41 + (c - 0x41) = c by omega, show 10 + (c - 0x41) = c - 0x41 + 10 by omega] at this
    · split at h
      · cases h
        have := HexDigit.lower (n := c - 0x61) (by omega)
        rwa [show 0x61 + (c - 0x61) = c by omega, show 10 + (c - 0x61) = c - 0x61 + 10 by omega] at this
      · cases h

theorem hexLoop_inv {e : End} : ∀ (n : Nat) {v x : Nat} {s r g : List Nat}, Hexes g v → hexLoop e n v s = .ok (x, r) →
    ∃ h, s = h ++ r ∧ h.length = n ∧ Hexes (g ++ h) x := by
  intro n
  induction n with
  | zero =>
    intro v x s r g hg h
    simp only [hexLoop] at h
    cases h
    exact ⟨[], rfl, rfl, by simpa using hg⟩
  | succ n ih =>
    intro v x s r g hg h
    cases s with
    | nil => exact (at_throw (show e.at .throw = .ok (x, r) by simpa [hexLoop] using h)).elim
    | cons c s =>
      rw [hexLoop] at h
      cases hd : hexDigit c with
      | none => rw [hd] at h; cases h
      | some d =>
        rw [hd] at h
        dsimp only at h
        have := Hexes.snoc hg (hexDigit_inv hd)
        rw [Nat.mul_comm] at this
        obtain ⟨u, rfl, k2, k3⟩ := ih this h
        exact ⟨c :: u, rfl, by rw [List.length_cons, k2], by simpa using k3⟩

theorem hex_of_loop {e : End} {n x : Nat} {s r : List Nat} (h : hexLoop e n 0 s = .ok (x, r)) : ∃ h, s = h ++ r ∧ h.length = n ∧ Hexes h x := by
  simpa using hexLoop_inv n (g := []) .nil h

theorem hexes_lt {h : List Nat} {v : Nat} (k : Hexes h v) : v < 16 ^ h.length := by
  induction k with
  | nil => simp
  | @snoc s v c d _ hd ih =>
    rw [List.length_append, List.length_singleton, Nat.pow_succ]
    have : d < 16 := by cases hd <;> omega
    omega

theorem expect_inv {e : End} {x : Nat} {s r : List Nat} (h : expect e x s = .ok r) : s = x :: r := by
  cases s with
  | nil => exact (at_throw h).elim
  | cons c s =>
    rw [expect] at h
    split at h
    · rename_i hc; cases h; rw [hc]
    · cases h

theorem escape_inv {e : End} {s r : List Nat} {c : Nat} (h : escape e s = .ok (c, r)) : ∃ u, s = u ++ r ∧ Elem .code (0x5C :: u) c := by
  cases s with
  | nil => exact (at_throw h).elim
  | cons a s =>
    rw [escape] at h
    split at h
    · rename_i ha
      cases h
      rcases ha with rfl | rfl | rfl
      · exact ⟨[_], rfl, .backslash⟩
      · exact ⟨[_], rfl, .quote⟩
      · exact ⟨[_], rfl, .slash⟩
    split at h
    · rename_i ha; cases h; subst ha; exact ⟨[_], rfl, .b⟩
    split at h
    · rename_i ha; cases h; subst ha; exact ⟨[_], rfl, .f⟩
    split at h
    · rename_i ha; cases h; subst ha; exact ⟨[_], rfl, .n⟩
    split at h
    · rename_i ha; cases h; subst ha; exact ⟨[_], rfl, .r⟩
    split at h
    · rename_i ha; cases h; subst ha; exact ⟨[_], rfl, .t⟩
    split at h
    · rename_i ha
      subst ha
      obtain ⟨⟨x, s1⟩, h1, h2⟩ := bind_inv h
      obtain ⟨u, rfl, k2, k3⟩ := hex_of_loop h1
      dsimp only at h2
      split at h2
      · cases h2
      rename_i n1
      split at h2
      · rename_i n2
        obtain ⟨s2, h3, h4⟩ := bind_inv h2
        obtain ⟨s3, h5, h6⟩ := bind_inv h4
        obtain ⟨⟨y, s4⟩, h7, h8⟩ := bind_inv h6
        have e1 := expect_inv h3
        have e2 := expect_inv h5
        subst e1 e2
        obtain ⟨w, rfl, l2, l3⟩ := hex_of_loop h7
        dsimp only at h8
        split at h8
        · cases h8
        rename_i n3
        obtain ⟨e1, e2⟩ := Prod.mk.inj (Res.ok.inj h8)
        subst e1 e2
        exact ⟨0x75 :: (u ++ 0x5C :: 0x75 :: w), by simp, .pair k3 k2 l3 l2 n2.1 n2.2 (by omega) (by omega)⟩
      · rename_i n2
        cases h2
        have := hexes_lt k3
        rw [k2, show 16 ^ 4 = 65536 from rfl] at this
        exact ⟨0x75 :: u, rfl, .u k3 k2 (by unfold Scalar; omega)⟩
    split at h
    · rename_i ha
      subst ha
      obtain ⟨⟨x, s1⟩, h1, h2⟩ := bind_inv h
      obtain ⟨u, rfl, k2, k3⟩ := hex_of_loop h1
      dsimp only at h2
      split at h2
      · cases h2
      rename_i n1
      split at h2
      · cases h2
      rename_i n2
      cases h2
      exact ⟨0x55 :: u, rfl, .long k3 k2 (by unfold Scalar; omega) (fun _ => by omega)⟩
    · cases h

theorem double_inv {e : End} : ∀ (n : Nat) {s r : List Nat} {w : Bytes}, double e n s = .ok (w, r) →
    ∃ u cs, s = u ++ 0x22 :: r ∧ w = utf8 cs ∧ Elems .code u cs := by
  intro n
  induction n with
  | zero => intro s r w h; cases h
  | succ n ih =>
    intro s r w h
    cases s with
    | nil => exact (at_throw h).elim
    | cons c s =>
      rw [double] at h
      split at h
      · cases h
      rename_i n1
      split at h
      · rename_i n2
        cases h
        exact ⟨[], [], by rw [n2]; rfl, rfl, .nil⟩
      rename_i n2
      split at h
      · rename_i n3
        subst n3
        obtain ⟨⟨x, s1⟩, h1, h2⟩ := bind_inv h
        obtain ⟨⟨w', r'⟩, h3, h4⟩ := map_inv h2
        cases h4
        obtain ⟨u, rfl, k2⟩ := escape_inv h1
        obtain ⟨v, cs, e1, e2, k3⟩ := ih h3
        dsimp only at e1 e2
        subst e1 e2
        exact ⟨(0x5C :: u) ++ v, x :: cs, by simp, by rw [Json.utf8_cons], .cons k2 k3⟩
      · rename_i n3
        obtain ⟨⟨w', r'⟩, h3, h4⟩ := map_inv h
        cases h4
        obtain ⟨v, cs, rfl, rfl, k3⟩ := ih h3
        exact ⟨[c] ++ v, c :: cs, by simp, by rw [Json.utf8_cons], .cons (.plain (by omega) (by omega) n2 n3) k3⟩

/-! ### Numbers -/

theorem digits_inv {e : End} {base : Nat} : ∀ (n : Nat) {s r : List Nat} {t : Bytes}, s.length ≤ n → digits e (digitPred base) s = .ok (t, r) →
    ∃ u, s = u ++ r ∧ Ticked base u t ∧ r ≠ [] := by
  intro n
  induction n with
  | zero =>
    intro s r t hs h
    have : s = [] := List.eq_nil_of_length_eq_zero (by omega)
    subst this
    exact (at_ub (show e.at .ub = .ok (t, r) by simpa [digits] using h)).elim
  | succ n ih =>
    intro s r t hs h
    cases s with
    | nil => exact (at_ub (show e.at .ub = .ok (t, r) by simpa [digits] using h)).elim
    | cons c s =>
      simp only [List.length_cons] at hs
      rw [digits.eq_def] at h
      dsimp only at h
      split at h
      · cases h
      split at h
      · rename_i hp
        have hp := digitPred_iff.1 hp
        cases s with
        | nil =>
          obtain ⟨x, h1, _⟩ := map_inv h
          exact (at_ub (show e.at .ub = .ok x by simpa [digits] using h1)).elim
        | cons d s =>
          simp only [List.length_cons] at hs
          dsimp only at h
          split at h
          · rename_i hd
            obtain ⟨⟨t', r'⟩, h1, h2⟩ := map_inv h
            cases h2
            obtain ⟨u, rfl, k2, k3⟩ := ih (by omega) h1
            exact ⟨c :: 0x60 :: u, by rw [hd]; rfl, .tick hp k2, k3⟩
          · obtain ⟨⟨t', r'⟩, h1, h2⟩ := map_inv h
            cases h2
            obtain ⟨u, e1, k2, k3⟩ := ih (by simp only [List.length_cons]; omega) h1
            exact ⟨c :: u, by rw [e1]; rfl, .cons hp k2, k3⟩
      · cases h
        exact ⟨[], rfl, .nil, by simp⟩

theorem exponentDigits_inv {e : End} : ∀ (n : Nat) {s r : List Nat} {t : Bytes}, s.length ≤ n → exponentDigits e s = .ok (t, r) →
    ∃ u, s = u ++ r ∧ Ticked 10 u t := by
  have nil : ∀ {r : List Nat} {t : Bytes}, exponentDigits e [] = .ok (t, r) → t = [] ∧ r = [] := by
    intro r t h
    obtain ⟨_, h⟩ := at_inv (show e.at (.ok ([], [])) = .ok (t, r) by simpa [exponentDigits] using h)
    cases h
    exact ⟨rfl, rfl⟩
  intro n
  induction n with
  | zero =>
    intro s r t hs h
    have : s = [] := List.eq_nil_of_length_eq_zero (by omega)
    subst this
    obtain ⟨rfl, rfl⟩ := nil h
    exact ⟨[], rfl, .nil⟩
  | succ n ih =>
    intro s r t hs h
    cases s with
    | nil =>
      obtain ⟨rfl, rfl⟩ := nil h
      exact ⟨[], rfl, .nil⟩
    | cons c s =>
      simp only [List.length_cons] at hs
      rw [exponentDigits.eq_def] at h
      dsimp only at h
      split at h
      · rename_i hp
        have hp : DigitOf 10 c := digitPred_iff.1 hp
        cases s with
        | nil =>
          obtain ⟨⟨t', r'⟩, h1, h2⟩ := map_inv h
          cases h2
          obtain ⟨rfl, rfl⟩ := nil h1
          exact ⟨[c], rfl, .cons hp .nil⟩
        | cons d s =>
          simp only [List.length_cons] at hs
          dsimp only at h
          split at h
          · rename_i hd
            obtain ⟨⟨t', r'⟩, h1, h2⟩ := map_inv h
            cases h2
            obtain ⟨u, rfl, k2⟩ := ih (by omega) h1
            exact ⟨c :: 0x60 :: u, by rw [hd]; rfl, .tick hp k2⟩
          · obtain ⟨⟨t', r'⟩, h1, h2⟩ := map_inv h
            cases h2
            obtain ⟨u, e1, k2⟩ := ih (by simp only [List.length_cons]; omega) h1
            exact ⟨c :: u, by rw [e1]; rfl, .cons hp k2⟩
      · cases h
        exact ⟨[], rfl, .nil⟩

theorem exponentDigits1_inv {e : End} {s r : List Nat} {t : Bytes} (h : exponentDigits1 e s = .ok (t, r)) :
    ∃ u, s = u ++ r ∧ Ticked 10 u t ∧ t ≠ [] := by
  cases s with
  | nil => exact (at_throw h).elim
  | cons c s =>
    rw [exponentDigits1] at h
    split at h
    · rename_i hp
      obtain ⟨u, h1, h2⟩ := exponentDigits_inv _ (Nat.le_refl _) h
      refine ⟨u, h1, h2, ?_⟩
      rintro rfl
      cases h2
      rw [List.nil_append] at h1
      subst h1
      -- the first character is a digit, so it is taken
      rw [exponentDigits.eq_def] at h
      dsimp only at h
      rw [if_pos hp] at h
      cases s with
      | nil => obtain ⟨x, _, h2⟩ := map_inv h; cases h2
      | cons d s =>
        dsimp only at h
        split at h
        · obtain ⟨x, _, h2⟩ := map_inv h; cases h2
        · obtain ⟨x, _, h2⟩ := map_inv h; cases h2
    · cases h

theorem or_letter {base c : Nat} (h : c ||| 0x20 = expoChar base) : ExpoLetter base c := by
  have hc : c < 128 := by
    have : c ≤ c ||| 0x20 := Nat.left_le_or
    unfold expoChar at h
    split at h <;> omega
  have key : ∀ c < 128, (c ||| 0x20 = 0x65 → c = 0x65 ∨ c = 0x45) ∧ (c ||| 0x20 = 0x70 → c = 0x70 ∨ c = 0x50) := by decide +kernel
  unfold expoChar at h
  unfold ExpoLetter
  split
  · rename_i hb; rw [if_pos hb] at h; exact (key c hc).1 h
  · rename_i hb; rw [if_neg hb] at h; exact (key c hc).2 h

theorem exponent_inv {e : End} {base : Nat} {s r : List Nat} {t : Bytes} (h : exponent e (expoChar base) s = .ok (t, r)) :
    ∃ u, s = u ++ r ∧ Expo base u t := by
  cases s with
  | nil =>
    obtain ⟨_, h⟩ := at_inv h
    cases h
    exact ⟨[], rfl, .none⟩
  | cons c s =>
    unfold exponent at h
    dsimp only at h
    split at h
    · rename_i hc
      have hc := or_letter hc
      cases s with
      | nil => exact (at_throw h).elim
      | cons d s =>
        dsimp only at h
        split at h
        · rename_i hd
          obtain ⟨⟨t', r'⟩, h1, h2⟩ := map_inv h
          cases h2
          obtain ⟨u, rfl, k2, k3⟩ := exponentDigits1_inv h1
          rcases hd with rfl | rfl
          · exact ⟨c :: ([0x2B] ++ u), rfl, .some hc .plus k2 k3⟩
          · exact ⟨c :: ([0x2D] ++ u), rfl, .some hc .minus k2 k3⟩
        · obtain ⟨⟨t', r'⟩, h1, h2⟩ := map_inv h
          cases h2
          obtain ⟨u, e1, k2, k3⟩ := exponentDigits1_inv h1
          exact ⟨c :: ([] ++ u), by rw [e1]; rfl, .some hc .none k2 k3⟩
    · cases h
      exact ⟨[], rfl, .none⟩

theorem digits_none {e : End} {p : Nat → Bool} {d : Nat} {s r : List Nat} (h : digits e p (d :: s) = .ok ([], r)) (hp : p d = true) : False := by
  rw [digits.eq_def] at h
  dsimp only at h
  split at h
  · cases h
  cases s with
  | nil => obtain ⟨x, _, h2⟩ := map_inv h; cases h2
  | cons d s =>
    dsimp only at h
    split at h
    · obtain ⟨x, _, h2⟩ := map_inv h; cases h2
    · obtain ⟨x, _, h2⟩ := map_inv h; cases h2

theorem fraction_none {e : End} {p : Nat → Bool} {s r : List Nat} (h : fraction e p (0x2E :: s) = .ok ([], r)) : False := by
  unfold fraction at h
  dsimp only at h
  rw [if_pos rfl] at h
  cases s with
  | nil => exact at_ub h
  | cons d s =>
    dsimp only at h
    split at h
    · cases h
    split at h
    · obtain ⟨x, _, h2⟩ := map_inv h; cases h2
    · cases h

theorem fraction_inv {e : End} {base : Nat} {s r : List Nat} {t : Bytes} (h : fraction e (digitPred base) s = .ok (t, r)) :
    ∃ u, s = u ++ r ∧ Frac base u t := by
  cases s with
  | nil =>
    obtain ⟨_, h⟩ := at_inv h
    cases h
    exact ⟨[], rfl, .none⟩
  | cons c s =>
    unfold fraction at h
    dsimp only at h
    split at h
    · rename_i hc
      subst hc
      cases s with
      | nil => exact (at_ub h).elim
      | cons d s =>
        dsimp only at h
        split at h
        · cases h
        rename_i h256
        split at h
        · rename_i hp
          obtain ⟨⟨t', r'⟩, h1, h2⟩ := map_inv h
          cases h2
          obtain ⟨u, e1, k2, k3⟩ := digits_inv _ (Nat.le_refl _) h1
          refine ⟨0x2E :: u, by rw [e1]; rfl, .some k2 ?_⟩
          rintro rfl
          exact digits_none h1 hp
        · cases h
    · cases h
      exact ⟨[], rfl, .none⟩

theorem mantissa_inv {e : End} {base : Nat} {s r : List Nat} {t : Bytes} (h : mantissa e (digitPred base) (expoChar base) s = .ok (t, r)) :
    ∃ a f x a' f' x', s = a ++ (f ++ (x ++ r)) ∧ t = a' ++ (f' ++ x') ∧ Ticked base a a' ∧ Frac base f f' ∧ Expo base x x' ∧
      (a' ++ f' = [] → ∀ d q, s = d :: q → ¬ DigitOf base d ∧ d ≠ 0x2E) := by
  obtain ⟨⟨a', s1⟩, h1, h2⟩ := bind_inv h
  obtain ⟨⟨f', s2⟩, h3, h4⟩ := bind_inv h2
  obtain ⟨⟨x', s3⟩, h5, h6⟩ := map_inv h4
  cases h6
  have hn : a' ++ f' = [] → ∀ d q, s = d :: q → ¬ DigitOf base d ∧ d ≠ 0x2E := by
    intro hn d q hs
    rw [List.append_eq_nil_iff] at hn
    obtain ⟨rfl, rfl⟩ := hn
    subst hs
    refine ⟨fun hd => digits_none h1 (digitPred_iff.2 hd), ?_⟩
    rintro rfl
    obtain ⟨a, e1, k1, _⟩ := digits_inv _ (Nat.le_refl _) h1
    cases k1
    rw [List.nil_append] at e1
    dsimp only at h3
    rw [← e1] at h3
    exact fraction_none h3
  obtain ⟨a, rfl, k1, _⟩ := digits_inv _ (Nat.le_refl _) h1
  obtain ⟨f, e1, k2⟩ := fraction_inv h3
  obtain ⟨x, e2, k3⟩ := exponent_inv h5
  dsimp only at e1 e2
  subst e1 e2
  exact ⟨a, f, x, a', f', x', rfl, rfl, k1, k2, k3, hn⟩

/-! ### Whole numbers -/

/-- A text that has no digits after the prefix. -/
def Empty (t : Bytes) : Prop := ∃ g g' b x x', Sign g g' ∧ (b = 98 ∨ b = 120) ∧ Expo 16 x x' ∧ t = g' ++ 48 :: b :: x'

theorem expo_2_16 {x : List Nat} {x' : Bytes} (h : Expo 2 x x') : Expo 16 x x' := by
  cases h with
  | none => exact .none
  | some hc hg hs hn => exact .some hc hg hs hn

theorem collectLoop_stop {base : Nat} (hb : base ≤ 16) {x : List Nat} {x' : Bytes} (h : Expo 16 x x') (rdxp : Option UInt8) (hr : rdxp = none) (xu : XUInt) :
    collectLoop base rdxp x' xu = (xu, x') := by
  subst hr
  cases h with
  | none => rfl
  | @some c _ _ _ _ hc _ _ _ =>
    have hd : 16 ≤ digitValue (UInt8.ofNat c) := by
      rcases hc with rfl | rfl
      · exact show 16 ≤ digitValue (UInt8.ofNat 0x70) by decide
      · exact show 16 ≤ digitValue (UInt8.ofNat 0x50) by decide
    unfold collectLoop
    rw [if_neg (show ¬ (¬ xu.hasPoint = true ∧ some (UInt8.ofNat c) = none) by simp)]
    dsimp only
    rw [if_pos (show digitValue (UInt8.ofNat c) ≥ base from le_trans hb hd)]

theorem collectDigits_empty {base : Nat} (hb : base ≤ 16) {x : List Nat} {x' : Bytes} (h : Expo 16 x x') :
    (collectDigits base none x').1.valid = false := by
  unfold collectDigits
  rw [collectLoop_stop hb h none rfl]
  dsimp only
  have e : ∀ X : XUInt, X.valid = false → (if base = 16 then { X with exp := X.exp * 4 } else X).valid = false := by
    intro X h; split <;> exact h
  have e' := e ⟨0, 0, false, false, false, false⟩ rfl
  generalize (if base = 16 then { (⟨0, 0, false, false, false, false⟩ : XUInt) with exp := 0 * 4 } else ⟨0, 0, false, false, false, false⟩) = Y at *
  generalize (if base = 10 then (101 : UInt8) else 112) = delim
  split
  · split
    · exact e'
    · split
      · split
        · exact e'
        · exact e'
      · exact e'
  · exact e'

theorem expo_no_point {base : Nat} {x : List Nat} {x' : Bytes} (h : Expo base x x') : 46 ∉ x' := by
  have dig : ∀ {s : List Nat} {t : Bytes}, Ticked 10 s t → 46 ∉ t := by
    intro s t h
    have key : ∀ c < 58, 48 ≤ c → UInt8.ofNat c ≠ 46 := by decide +kernel
    induction h with
    | nil => simp
    | cons hc _ ih => simp [ih, (key _ (by have := hc.2; omega) hc.1).symm]
    | tick hc _ ih => simp [ih, (key _ (by have := hc.2; omega) hc.1).symm]
  cases h with
  | none => simp
  | some hc hg hs _ =>
    simp only [List.mem_cons, List.mem_append, not_or]
    refine ⟨?_, ?_, dig hs⟩
    · unfold ExpoLetter at hc
      split at hc <;> rcases hc with rfl | rfl <;> decide
    · cases hg <;> decide

theorem numeric_empty {t : Bytes} (h : Empty t) (v : Value) : numeric t ≠ .ok v := by
  obtain ⟨g, g', b, x, x', hg, hb, hx, rfl⟩ := h
  have h46 : 46 ∉ g' ++ 48 :: b :: x' := by
    simp only [List.mem_cons, List.mem_append, not_or]
    refine ⟨?_, by decide, ?_, expo_no_point hx⟩
    · cases hg <;> decide
    · rcases hb with rfl | rfl <;> decide
  have key : parseI (g' ++ 48 :: b :: x') = none := by
    rcases hb with rfl | rfl
    · have h1 := collectDigits_empty (base := 2) (by decide) hx
      cases hg <;> (show parseBaseI 2 _ = none) <;> unfold parseBaseI <;> exact if_neg (by rw [Bool.not_eq_true]; exact h1)
    · have h1 := collectDigits_empty (base := 16) (by decide) hx
      cases hg <;> (show parseBaseI 16 _ = none) <;> unfold parseBaseI <;> exact if_neg (by rw [Bool.not_eq_true]; exact h1)
  unfold numeric
  rw [if_pos h46, key]
  simp

theorem _root_.Asteria.ConfSpec.Hollow.append {z w : List Nat} (h : Hollow w) : Hollow (z ++ w) := by
  obtain ⟨y, base, p, p', q, rfl, h2, h3, h4⟩ := h
  exact ⟨z ++ y, base, p, p', q, by simp, h2, h3, h4⟩

/-- A number or something without digits, and what follows. -/
def Numlike (s : List Nat) (t : Bytes) (r : List Nat) : Prop := Num s t ∨ (Empty t ∧ Hollow (s ++ r))

theorem or_base {c b : Nat} (hb : b = 0x62 ∨ b = 0x78) (h : c ||| 0x20 = b) : c = b ∨ c = b - 0x20 := by
  have hc : c < 128 := by
    have : c ≤ c ||| 0x20 := Nat.left_le_or
    omega
  have key : ∀ c < 128, (c ||| 0x20 = 0x62 → c = 0x62 ∨ c = 0x42) ∧ (c ||| 0x20 = 0x78 → c = 0x78 ∨ c = 0x58) := by decide +kernel
  rcases hb with rfl | rfl
  · exact (key c hc).1 h
  · exact (key c hc).2 h

/-- What is left after the first digit, and a backtick perhaps. -/
theorem based_inv {e : End} {c : Nat} {s r : List Nat} {t : Bytes} (hc : Digit c) (h : based e c s = .ok (t, r)) {g : List Nat} {g' : Bytes} (hg : Sign g g') :
    ∃ u, s = u ++ r ∧ Numlike (g ++ c :: u) (g' ++ t) r ∧ Numlike (g ++ c :: 0x60 :: u) (g' ++ t) r := by
  have dec : ∀ {s : List Nat}, (mantissa e isDigit 0x65 s).map (fun r => (UInt8.ofNat c :: r.1, r.2)) = .ok (t, r) →
      ∃ u, s = u ++ r ∧ Numlike (g ++ c :: u) (g' ++ t) r ∧ Numlike (g ++ c :: 0x60 :: u) (g' ++ t) r := by
    intro s h
    obtain ⟨⟨t', r'⟩, h1, h2⟩ := map_inv h
    cases h2
    obtain ⟨a, f, x, a', f', x', rfl, rfl, k1, k2, k3, _⟩ := mantissa_inv (base := 10) h1
    refine ⟨a ++ (f ++ x), by simp, .inl ?_, .inl ?_⟩
    · exact Num.mk (s := c :: a) (s' := UInt8.ofNat c :: a') hg .dec (.cons hc k1) k2 k3 (by simp) (by simp)
    · exact Num.mk (s := c :: 0x60 :: a) (s' := UInt8.ofNat c :: a') hg .dec (.tick hc k1) k2 k3 (by simp) (by simp)
  cases s with
  | nil =>
    obtain ⟨_, h⟩ := at_inv h
    exact dec h
  | cons d s =>
    unfold based at h
    dsimp only at h
    split at h
    · rename_i hd
      obtain ⟨rfl, hd⟩ := hd
      obtain ⟨⟨t', r'⟩, h1, h2⟩ := map_inv h
      cases h2
      obtain ⟨a, f, x, a', f', x', e1, rfl, k1, k2, k3, k4⟩ := mantissa_inv (base := 2) h1
      have hp := or_base (.inl rfl) hd
      refine ⟨d :: (a ++ (f ++ x)), by simp [e1], ?_, ?_⟩
      · by_cases hn : a' ++ f' = []
        · have k5 := k4 hn
          rw [List.append_eq_nil_iff] at hn
          right
          rw [hn.1, hn.2]
          refine ⟨⟨g, g', 98, x, x', hg, .inl rfl, expo_2_16 k3, rfl⟩, g, 2, [0x30, d], _, s, by rw [e1]; simp, .bin hp, by simp, k5⟩
        · left
          exact Num.mk (p := [0x30, d]) hg (.bin hp) k1 k2 k3 hn (by simp)
      · by_cases hn : a' ++ f' = []
        · have k5 := k4 hn
          rw [List.append_eq_nil_iff] at hn
          right
          rw [hn.1, hn.2]
          refine ⟨⟨g, g', 98, x, x', hg, .inl rfl, expo_2_16 k3, rfl⟩, g, 2, [0x30, 0x60, d], _, s, by rw [e1]; simp, .binTick hp, by simp, k5⟩
        · left
          exact Num.mk (p := [0x30, 0x60, d]) hg (.binTick hp) k1 k2 k3 hn (by simp)
    split at h
    · rename_i _ hd
      obtain ⟨rfl, hd⟩ := hd
      obtain ⟨⟨t', r'⟩, h1, h2⟩ := map_inv h
      cases h2
      obtain ⟨a, f, x, a', f', x', e1, rfl, k1, k2, k3, k4⟩ := mantissa_inv (base := 16) h1
      have hp := or_base (.inr rfl) hd
      refine ⟨d :: (a ++ (f ++ x)), by simp [e1], ?_, ?_⟩
      · by_cases hn : a' ++ f' = []
        · have k5 := k4 hn
          rw [List.append_eq_nil_iff] at hn
          right
          rw [hn.1, hn.2]
          refine ⟨⟨g, g', 120, x, x', hg, .inr rfl, k3, rfl⟩, g, 16, [0x30, d], _, s, by rw [e1]; simp, .hex hp, by simp, k5⟩
        · left
          exact Num.mk (p := [0x30, d]) hg (.hex hp) k1 k2 k3 hn (by simp)
      · by_cases hn : a' ++ f' = []
        · have k5 := k4 hn
          rw [List.append_eq_nil_iff] at hn
          right
          rw [hn.1, hn.2]
          refine ⟨⟨g, g', 120, x, x', hg, .inr rfl, k3, rfl⟩, g, 16, [0x30, 0x60, d], _, s, by rw [e1]; simp, .hexTick hp, by simp, k5⟩
        · left
          exact Num.mk (p := [0x30, 0x60, d]) hg (.hexTick hp) k1 k2 k3 hn (by simp)
    · exact dec h

theorem unsigned_inv {e : End} {c : Nat} {s r : List Nat} {t : Bytes} (hc : Digit c) (h : unsigned e c s = .ok (t, r)) {g : List Nat} {g' : Bytes} (hg : Sign g g') :
    ∃ u, c :: s = u ++ r ∧ Numlike (g ++ u) (g' ++ t) r := by
  cases s with
  | nil =>
    have h : based e c [] = .ok (t, r) := h
    obtain ⟨u, h1, h2, _⟩ := based_inv hc h hg
    exact ⟨c :: u, by rw [h1]; rfl, h2⟩
  | cons d s =>
    unfold unsigned at h
    dsimp only at h
    split at h
    · rename_i hd
      obtain ⟨u, rfl, _, h3⟩ := based_inv hc h hg
      exact ⟨c :: 0x60 :: u, by rw [hd]; rfl, h3⟩
    · obtain ⟨u, h1, h2, _⟩ := based_inv hc h hg
      exact ⟨c :: u, by rw [h1]; rfl, h2⟩

theorem number_inv {e : End} {c : Nat} {s r : List Nat} {t : Bytes} (hc : c = 0x2B ∨ c = 0x2D ∨ isDigit c = true) (h : number e c s = .ok (t, r)) :
    ∃ u, c :: s = u ++ r ∧ Numlike u t r := by
  unfold number at h
  split at h
  · rename_i hsg
    cases s with
    | nil => exact (at_throw h).elim
    | cons d s =>
      dsimp only at h
      split at h
      · rename_i hd
        obtain ⟨⟨t', r'⟩, h1, h2⟩ := map_inv h
        cases h2
        rcases hsg with rfl | rfl
        · obtain ⟨u, k1, k2⟩ := unsigned_inv (digit_iff.1 hd) h1 .plus
          exact ⟨0x2B :: u, by rw [k1]; rfl, k2⟩
        · obtain ⟨u, k1, k2⟩ := unsigned_inv (digit_iff.1 hd) h1 .minus
          exact ⟨0x2D :: u, by rw [k1]; rfl, k2⟩
      · cases h
  · rename_i hsg
    rw [not_or] at hsg
    have hd : isDigit c = true := (hc.resolve_left hsg.1).resolve_left hsg.2
    obtain ⟨u, k1, k2⟩ := unsigned_inv (digit_iff.1 hd) h .none
    exact ⟨u, k1, k2⟩

theorem numlike_shape {s r : List Nat} {t : Bytes} (h : Numlike s t r) : Shape (.num t) := by
  show at0 t = 0x2B ∨ at0 t = 0x2D ∨ isDigit (at0 t).toNat = true
  have sg : ∀ {g : List Nat} {g' : Bytes} {c : UInt8} {u : Bytes}, Sign g g' → isDigit c.toNat = true →
      at0 (g' ++ c :: u) = 0x2B ∨ at0 (g' ++ c :: u) = 0x2D ∨ isDigit (at0 (g' ++ c :: u)).toNat = true := by
    intro g g' c u hg hc
    cases hg
    · exact .inr (.inr hc)
    · exact .inl rfl
    · exact .inr (.inl rfl)
  rcases h with h | h
  · cases h with
    | mk hg hp hs _ _ _ h10 =>
      have dig : ∀ c, Digit c → isDigit (UInt8.ofNat c).toNat = true := by
        intro c hc
        rw [digit_iff, UInt8.toNat_ofNat', Nat.mod_eq_of_lt (by have := hc.2; omega)]
        exact hc
      cases hp with
      | dec =>
        cases hs with
        | nil => exact absurd rfl (h10 rfl)
        | cons hc => exact sg hg (dig _ hc)
        | tick hc => exact sg hg (dig _ hc)
      | bin _ => exact sg hg (by decide)
      | binTick _ => exact sg hg (by decide)
      | hex _ => exact sg hg (by decide)
      | hexTick _ => exact sg hg (by decide)
  · obtain ⟨⟨g, g', b, x, x', hg, hb, hx, rfl⟩, _⟩ := h
    exact sg hg (by decide)

/-! ### Tokens -/

/-- The text of a token, or a number without digits. -/
def Lexlike (t : Tok) (u r : List Nat) : Prop := Lexeme .code t u r ∨ ∃ b, t = .num b ∧ Empty b ∧ Hollow (u ++ r)

theorem punct_iff {c : Nat} : isPunct c = true ↔ Punct c := by
  unfold isPunct Punct
  simp only [Bool.or_eq_true, decide_eq_true_eq, List.mem_cons, List.not_mem_nil, or_false, or_assoc]

theorem token_inv {e : End} {s r : List Nat} {tok : Bytes} (h : token e s = .ok (tok, r)) :
    (tok = [] ∧ r = [] ∧ e = .eof ∧ Last .code s) ∨
      ∃ g t u, s = g ++ (u ++ r) ∧ Gap .code g ∧ tok = code t ∧ Shape t ∧ Lexlike t u r := by
  obtain ⟨s1, h1, h2⟩ := bind_inv h
  rcases (skip_inv e _ s (Nat.le_refl _)).1 s1 h1 with ⟨rfl, k2, k3⟩ | ⟨g, c, s2, rfl, rfl, k3⟩
  · cases h2
    exact .inl ⟨rfl, rfl, k2, k3⟩
  · right
    dsimp only at h2
    unfold body at h2
    split at h2
    · rename_i hc
      cases h2
      exact ⟨g, .punct c, [c], rfl, k3, rfl, punct_iff.1 hc, .inl (.punct (punct_iff.1 hc))⟩
    split at h2
    · rename_i _ hc
      obtain ⟨⟨w, r'⟩, h3, h4⟩ := map_inv h2
      cases h4
      obtain ⟨u, rfl, rfl, l3, l4⟩ := ident_inv _ h3
      have hl := ident1_iff.1 hc
      refine ⟨g, .word ((c :: u).map UInt8.ofNat), c :: u, rfl, k3, rfl, ?_, .inl (.word hl l3 l4)⟩
      show isIdent1 (UInt8.ofNat c).toNat = true
      rw [UInt8.toNat_ofNat', Nat.mod_eq_of_lt (by have := (letter_lt hl).1; omega)]
      exact hc
    split at h2
    · rename_i hc
      obtain ⟨u, e1, l2⟩ := number_inv hc h2
      refine ⟨g, .num tok, u, by rw [e1], k3, rfl, numlike_shape l2, ?_⟩
      rcases l2 with l2 | l2
      · exact .inl (.num l2 (by simp) (by simp))
      · exact .inr ⟨tok, rfl, l2⟩
    split at h2
    · rename_i hc
      subst hc
      obtain ⟨⟨w, r'⟩, h3, h4⟩ := map_inv h2
      cases h4
      obtain ⟨u, rfl, rfl, l3⟩ := single_inv _ h3
      exact ⟨g, .str (u.map UInt8.ofNat), 0x27 :: (u ++ [0x27]), by simp, k3, rfl, trivial, .inl (.narrow rfl l3)⟩
    split at h2
    · rename_i hc
      subst hc
      obtain ⟨⟨w, r'⟩, h3, h4⟩ := map_inv h2
      cases h4
      obtain ⟨u, cs, rfl, rfl, l3⟩ := double_inv _ h3
      exact ⟨g, .str (utf8 cs), 0x22 :: (u ++ [0x22]), by simp, k3, rfl, trivial, .inl (.double l3)⟩
    · cases h2

end Asteria.Conf
