import Verif.Proof.Chrono

/-!
# Properties of the chrono library
-/

namespace Asteria.Chrono

open Calendar (digits zone stamp date)

/-- `::gmtime_r` of the model gives the date of the Gregorian calendar, counted day by day. -/
theorem C66_calendar (tp : Int) (h : -719528 * 86400 ≤ tp) :
    let D := date (tp / 86400 + 719528).toNat
    gmtime tp = ⟨D.y, D.m, D.d, tp % 86400 / 3600, tp % 86400 / 60 % 60, tp % 86400 % 60⟩ := by
  intro D
  have hD := date_number (tp / 86400 + 719528).toNat
  change D.Valid ∧ number D = _ at hD
  generalize hn : tp / 86400 + 719528 = n at hD
  have h0 : 0 ≤ n := by omega
  obtain ⟨⟨h1, h2, h3, h4⟩, h5⟩ := hD
  have hg := monthLens_get D.y h1 h2
  have hc := civil_eq (n := n) (d := (D.d : Int) - 1) hg (by omega) (by omega) (by
    unfold number at h5
    rw [h5]
    omega)
  unfold gmtime
  simp only
  rw [hn, hc.1, hc.2]
  congr 1 <;> simp only <;> omega

example : gmtime 951782399 = ⟨2000, 2, 28, 23, 59, 59⟩ := by decide +kernel
example : gmtime 951782400 = ⟨2000, 2, 29, 0, 0, 0⟩ := by decide +kernel

/-! ### The text -/

theorem two_digits {n : Nat} (h : n < 100) : two (n : Int) = .ok (digits 2 n) := by
  have : ∀ k : Fin 100, two (k.val : Int) = .ok (digits 2 k.val) := by decide +kernel
  exact this ⟨n, h⟩

theorem digits_four (n : Nat) : digits 4 n = digits 2 (n / 100) ++ digits 2 (n % 100) := by
  simp only [digits, List.nil_append, List.cons_append]
  have e1 : n / 10 / 10 / 10 % 10 = n / 100 / 10 % 10 := by omega
  have e2 : n / 10 / 10 % 10 = n / 100 % 10 := by omega
  have e3 : n / 10 % 10 = n % 100 / 10 % 10 := by omega
  have e4 : n % 10 = n % 100 % 10 := by omega
  rw [e1, e2, e3, e4]

theorem ms_digits {n : Nat} (h : n < 1000) : msText (n : Int) = .ok (0x2E :: digits 3 n) := by
  have : ∀ k : Fin 1000, msText (k.val : Int) = .ok (0x2E :: digits 3 k.val) := by decide +kernel
  exact this ⟨n, h⟩

theorem offset_digits {o : Int} (h1 : -1440 < o) (h2 : o < 1440) : offsetText (o < 0) (o.natAbs : Int) = .ok (0x20 :: zone o) := by
  unfold offsetText zone
  by_cases h : o = 0
  · subst h; decide +kernel
  · rw [if_neg (by omega), if_neg h]
    have e1 : (o.natAbs : Int) / 60 = ((o.natAbs / 60 : Nat) : Int) := by omega
    have e2 : (o.natAbs : Int) % 60 = ((o.natAbs % 60 : Nat) : Int) := by omega
    rw [e1, e2, two_digits (by omega), two_digits (by omega)]
    simp only [Res.bind, Res.map]
    have e3 : (if decide (o < 0) = true then 0x2D else 0x2B) :: (digits 2 (o.natAbs / 60) ++ digits 2 (o.natAbs % 60)) =
        (if o < 0 then "-" else "+").toUTF8.toList ++ (digits 2 (o.natAbs / 60) ++ digits 2 (o.natAbs % 60)) := by
      by_cases hn : o < 0
      · simp only [hn, decide_true, if_true]; rw [show "-".toUTF8.toList = [(0x2D : UInt8)] by decide +kernel]; rfl
      · simp only [hn, decide_false, if_false]; rw [show "+".toUTF8.toList = [(0x2B : UInt8)] by decide +kernel]; rfl
    rw [e3]

/-- **C66**, the text: a time point is written as its date and time in the Gregorian calendar, as many minutes ahead of UTC as
requested, followed by that offset. -/
theorem C66_text (loc : Int → Tm × Int) (t : Int) (h0 : 0 ≤ t) (h1 : t < 253370764800000) (o : Int) (h2 : -1440 < o) (h3 : o < 1440)
    (withMs : Bool) : format loc t (some o) withMs =
      .ok (stamp (t / 1000 + o * 60 + 719528 * 86400).toNat (if withMs then some (t % 1000).toNat else none) o) := by
  unfold format
  rw [if_neg (by omega), if_neg (by omega)]
  simp only
  rw [if_neg (by omega)]
  generalize htp : t / 1000 + o * 60 = tp
  have hr : -86400 ≤ tp ∧ tp < 253370851200 := by omega
  have hy := gmtime_year hr.1 hr.2
  have hs := gmtime_spec tp
  simp only at hs
  have hc := C66_calendar tp (by omega)
  simp only at hc
  have hN : (tp + 719528 * 86400).toNat / 86400 = (tp / 86400 + 719528).toNat := by omega
  have hM : (tp + 719528 * 86400).toNat % 86400 = (tp % 86400).toNat := by omega
  unfold stamp
  simp only [hN, hM]
  generalize date (tp / 86400 + 719528).toNat = D at hc ⊢
  rw [hc] at hy hs ⊢
  simp only at hy hs
  unfold text
  simp only
  have e1 : (D.y : Int) / 100 = ((D.y / 100 : Nat) : Int) := by omega
  have e2 : (D.y : Int) % 100 = ((D.y % 100 : Nat) : Int) := by omega
  have e3 : tp % 86400 / 3600 = (((tp % 86400).toNat / 3600 : Nat) : Int) := by omega
  have e4 : tp % 86400 / 60 % 60 = (((tp % 86400).toNat / 60 % 60 : Nat) : Int) := by omega
  have e5 : tp % 86400 % 60 = (((tp % 86400).toNat % 60 : Nat) : Int) := by omega
  have e6 : t % 1000 = ((t % 1000).toNat : Int) := by omega
  rw [e1, e2, e3, e4, e5, e6, two_digits (by omega), two_digits (by omega), two_digits (by omega), two_digits (by omega),
    two_digits (by omega), two_digits (by omega), two_digits (by omega), offset_digits h2 h3, digits_four]
  have hc1 : "-".toUTF8.toList = [(0x2D : UInt8)] := by decide +kernel
  have hc2 : " ".toUTF8.toList = [(0x20 : UInt8)] := by decide +kernel
  have hc3 : ":".toUTF8.toList = [(0x3A : UInt8)] := by decide +kernel
  have hc4 : ".".toUTF8.toList = [(0x2E : UInt8)] := by decide +kernel
  cases withMs with
  | true =>
    simp only [if_true, Int.toNat_natCast]
    rw [ms_digits (by omega)]
    simp only [Res.bind, Res.map, hc1, hc2, hc3, hc4, List.append_assoc, List.cons_append, List.nil_append]
  | false =>
    simp only [Bool.false_eq_true, if_false, Res.bind, Res.map, hc1, hc2, hc3, List.append_assoc, List.cons_append, List.nil_append]

/-- **C66**: whatever offset it is formatted with, a time point is read back, without milliseconds rounded down to a whole
second; time points before 1970 become the least integer, and those from 9999 on become the greatest. -/
theorem C66 (loc : Int → Tm × Int) (mk : Tm → Int) (t : Int) (o : Int) (h1 : -1440 < o) (h2 : o < 1440) (withMs : Bool) :
    (format loc t (some o) withMs).bind (parse mk) =
      .ok (if t < 0 then -2 ^ 63 else if t ≥ 253370764800000 then 2 ^ 63 - 1 else if withMs then t else t - t % 1000) := by
  unfold format
  by_cases hlo : t < 0
  · rw [if_pos hlo, if_pos hlo]
    have h1 : ∃ s, text ⟨0, 1, 1, 0, 0, 0⟩ 0 withMs false 0 = .ok s ∧ parse mk s = _ :=
      parse_text mk ⟨0, 1, 1, 0, 0, 0⟩ 0 withMs false 0 (by simp) (by simp) (by simp) (by simp) (by simp) (by simp) (by simp) (by simp)
    obtain ⟨s, e1, e2⟩ := h1
    rw [e1]
    simp only [Res.bind]
    rw [e2]
    have : assemble mk ⟨0, 1, 1, 0, 0, 0⟩ 0 1 0 = -2 ^ 63 := by
      have e : timegm ⟨0, 1, 1, 0, 0, 0⟩ = -62167219200 := by decide +kernel
      simp [assemble, e]
    simpa using this
  by_cases hhi : t ≥ 253370764800000
  · rw [if_neg hlo, if_neg hlo, if_pos hhi, if_pos hhi]
    have h1 : ∃ s, text ⟨9999, 1, 1, 0, 0, 0⟩ 0 withMs false 0 = .ok s ∧ parse mk s = _ :=
      parse_text mk ⟨9999, 1, 1, 0, 0, 0⟩ 0 withMs false 0 (by simp) (by simp) (by simp) (by simp) (by simp) (by simp) (by simp) (by simp)
    obtain ⟨s, e1, e2⟩ := h1
    rw [e1]
    simp only [Res.bind]
    rw [e2]
    have : assemble mk ⟨9999, 1, 1, 0, 0, 0⟩ 0 1 0 = 2 ^ 63 - 1 := by
      have e : timegm ⟨9999, 1, 1, 0, 0, 0⟩ = 253370764800 := by decide +kernel
      simp [assemble, e]
    simpa using this
  rw [if_neg hlo, if_neg hlo, if_neg hhi, if_neg hhi]
  simp only
  rw [if_neg (by omega)]
  generalize htp : t / 1000 + o * 60 = tp
  have hr : -86400 ≤ tp ∧ tp < 253370851200 := by omega
  have hy := gmtime_year hr.1 hr.2
  have hs := gmtime_spec tp
  simp only at hs
  obtain ⟨s, e1, e2⟩ := parse_text mk (gmtime tp) (t % 1000) withMs (o < 0) o.natAbs hy (by omega) (by omega) (by omega) (by omega)
    (by omega) (by omega) (by omega)
  rw [e1]
  simp only [Res.bind]
  rw [e2]
  congr 1
  unfold assemble
  have hsign : ∀ ms : Int, (ms + timegm (gmtime tp) * 1000 -
      (if decide (o < 0) = true ∧ (o.natAbs : Int) ≠ 0 then -1 else 1) * (o.natAbs : Int) * 60000) = ms + tp * 1000 - o * 60000 := by
    intro ms
    rw [timegm_gmtime]
    by_cases hn : o < 0
    · rw [if_pos ⟨by simpa using hn, by omega⟩]; omega
    · rw [if_neg (by simp [hn])]; omega
  have hne : ¬ (if decide (o < 0) = true ∧ (o.natAbs : Int) ≠ 0 then (-1 : Int) else 1) = 0 := by split <;> decide
  simp only
  rw [if_neg hne, hsign]
  cases withMs with
  | true =>
    simp only [if_true]
    rw [if_neg (by omega), if_neg (by omega)]
    omega
  | false =>
    simp only [Bool.false_eq_true, if_false]
    rw [if_neg (by omega), if_neg (by omega)]
    omega

/-- **C66**, offsets that are out of range are rejected. -/
theorem C66_range (loc : Int → Tm × Int) (t : Int) (h0 : 0 ≤ t) (h1 : t < 253370764800000) (o : Int) (h2 : o ≤ -1440 ∨ o ≥ 1440)
    (withMs : Bool) : format loc t (some o) withMs = .throw := by
  unfold format
  rw [if_neg (by omega), if_neg (by omega)]
  simp only
  rw [if_pos h2]

/-- No time zone, for the examples. -/
def noLoc : Int → Tm × Int := fun tp => (gmtime tp, 0)

example : format noLoc 1234567890123 (some (-90)) true = .ok "2009-02-13 22:01:30.123 -0130".toUTF8.toList := by decide +kernel
example : parse timegm "2009-02-13 22:01:30.123 -0130".toUTF8.toList = .ok 1234567890123 := by decide +kernel
example : format noLoc 1234567890123 (some 0) false = .ok "2009-02-13 23:31:30 UTC".toUTF8.toList := by decide +kernel

/-! ### Local time -/

/-- The time zone of a system, as `::localtime_r` knows it: the offset in seconds at a time point. -/
def locOf (off : Int → Int) : Int → Tm × Int := fun tp => (gmtime (tp + off tp), off tp)

/-- **C66** for local time, as stated. -/
def C66_local_claim : Prop :=
  ∀ (off : Int → Int), (∀ tp, -86400 < off tp ∧ off tp < 86400) → ∀ (mk : Tm → Int) (t : Int), 0 ≤ t → t < 253370764800000 →
    (format (locOf off) t none true).bind (parse mk) = .ok t

/-- **C66** for local time, partial: time points are read back if the offset is a whole number of minutes.  Missing: other
offsets (`C66_local_false`). -/
theorem C66_local_partial (off : Int → Int) (mk : Tm → Int) (t : Int) (h0 : 0 ≤ t) (h1 : t < 253370764800000)
    (h2 : -86400 < off (t / 1000) ∧ off (t / 1000) < 86400) (h3 : off (t / 1000) % 60 = 0) (withMs : Bool) :
    (format (locOf off) t none withMs).bind (parse mk) = .ok (if withMs then t else t - t % 1000) := by
  have h := C66 noLoc mk t (off (t / 1000) / 60) (by omega) (by omega) withMs
  rw [if_neg (by omega), if_neg (by omega)] at h
  rw [← h]
  congr 1
  unfold format
  rw [if_neg (by omega), if_neg (by omega), if_neg (by omega), if_neg (by omega)]
  simp only
  rw [if_neg (by omega)]
  unfold locOf
  simp only
  have e1 : off (t / 1000) / 60 * 60 = off (t / 1000) := by omega
  have e2 : ((off (t / 1000)).natAbs : Int) / 60 = ((off (t / 1000) / 60).natAbs : Int) := by omega
  have e3 : decide (off (t / 1000) < 0) = decide (off (t / 1000) / 60 < 0) := by
    rw [decide_eq_decide]; omega
  rw [e1, e2, e3]

/-- **C66** for local time is false: in Liberia the offset was 44 minutes and 30 seconds until 1972.  The offset is written
without seconds, and the time point that is read back is off by as many. -/
theorem C66_local_false : ¬ C66_local_claim := by
  intro h
  have := h (fun _ => -2670) (fun _ => by decide) (fun _ => 0) 60000000 (by decide) (by decide)
  revert this
  decide +kernel

/-! ### Reading beyond the end -/

/-- **C92** as stated: the reader never has undefined behaviour. -/
def C92_claim : Prop := ∀ (mk : Tm → Int) (s : Bytes), parse mk s ≠ .ub

/-- **C92** is false: at the end of a string that stops before two digits, two characters are compared although only the null
character is left. -/
theorem C92_false : ¬ C92_claim := fun h => h (fun _ => 0) "2009-".toUTF8.toList (by decide +kernel)

/-- The last byte of what is left. -/
def Left (c : UInt8) (r : Option Bytes) : Prop := ∀ s, r = some s → s.getLast? = some c

/-- Bytes of numbers and what is between them. -/
def Part (c : UInt8) : Prop := (48 ≤ c ∧ c ≤ 57) ∨ c = 0x2D ∨ c = 0x20 ∨ c = 0x3A ∨ c = 0x2B

theorem left_tail {c x : UInt8} {s : Bytes} (hc : ¬ Part c) (hx : Part x) (h : (x :: s).getLast? = some c) : s.getLast? = some c := by
  cases s with
  | nil => simp at h; subst h; exact absurd hx hc
  | cons y t => simpa using h

theorem match1_left {c d : UInt8} {r : Option Bytes} (hc : ¬ Part c) (hd : Part d) (h : Left c r) : Left c (match1 d r) := by
  intro s hs
  cases r with
  | none => cases hs
  | some t =>
    cases t with
    | nil => cases hs
    | cons x t =>
      rw [match1] at hs
      split at hs
      · rename_i e
        cases hs
        subst e
        exact left_tail hc hd (h _ rfl)
      · cases hs

theorem two_bytes {k : Nat} {x y : UInt8} (h : two (k : Int) = .ok [x, y]) : Part x ∧ Part y := by
  unfold two at h
  split at h
  · rename_i hk
    obtain ⟨a, b, e, h1, h2, h3, h4, _⟩ := two_match (k : Int) hk.1 hk.2
    unfold two at e
    rw [if_pos hk] at e
    rw [h] at e
    cases e
    exact ⟨.inl ⟨h1, h2⟩, .inl ⟨h3, h4⟩⟩
  · cases h

theorem match2_left {c : UInt8} {r : Option Bytes} (hc : ¬ Part c) (h : Left c r) : ∃ n r', match2 r = .ok (n, r') ∧ Left c r' := by
  cases r with
  | none => exact ⟨0, none, rfl, fun _ h => by cases h⟩
  | some t =>
    match t, h with
    | [], h => have := h [] rfl; cases this
    | [x], _ => exact ⟨0, none, rfl, fun _ h => by cases h⟩
    | x :: y :: s, h =>
      rw [match2]
      split
      · rename_i k hk
        have h2 := List.find?_some hk
        have hb := two_bytes (of_decide_eq_true h2)
        refine ⟨_, _, rfl, ?_⟩
        intro s' hs'
        cases hs'
        exact left_tail hc hb.2 (left_tail hc hb.1 (h _ rfl))
      · exact ⟨0, none, rfl, fun _ h => by cases h⟩

theorem fraction_left {c : UInt8} (hc : ¬ Part c) : ∀ (s : Bytes) (ms w : Int), s.getLast? = some c → (fraction ms w s).2.getLast? = some c
  | [], _, _, h => by cases h
  | x :: s, ms, w, h => by
    rw [fraction]
    split
    · rename_i hx
      exact fraction_left hc s _ _ (left_tail hc (.inl hx) h)
    · exact h

/-- **C92**, partial: there is no undefined behaviour if the string is not empty, and ends with something other than a digit,
a space, a colon, or a plus or minus sign; so there is none if it ends with `UTC`.  Missing: strings that end otherwise, of
which some are cut short (`C92_false`). -/
theorem C92_partial (mk : Tm → Int) (s : Bytes) (c : UInt8) (hs : s.getLast? = some c) (hc : ¬ Part c) (hc' : c ≠ 0x2E) :
    parse mk s ≠ .ub := by
  have hsp : ∀ s : Bytes, s.getLast? = some c → (s.dropWhile fun x => decide (x = 0x20)).getLast? = some c := by
    intro s
    induction s with
    | nil => intro h; cases h
    | cons x s ih =>
      intro h
      rw [List.dropWhile_cons]
      split
      · rename_i hx
        have : x = 0x20 := of_decide_eq_true hx
        exact ih (left_tail hc (.inr (.inr (.inl this))) h)
      · exact h
  have h0 : Left c (some (s.dropWhile fun x => decide (x = 0x20))) := by
    intro s' h; cases h; exact hsp s hs
  unfold parse
  simp only
  obtain ⟨n1, r1, e1, l1⟩ := match2_left hc h0
  obtain ⟨n2, r2, e2, l2⟩ := match2_left hc l1
  obtain ⟨n3, r3, e3, l3⟩ := match2_left hc (match1_left (d := 0x2D) hc (.inr (.inl rfl)) l2)
  obtain ⟨n4, r4, e4, l4⟩ := match2_left hc (match1_left (d := 0x2D) hc (.inr (.inl rfl)) l3)
  obtain ⟨n5, r5, e5, l5⟩ := match2_left hc (match1_left (d := 0x20) hc (.inr (.inr (.inl rfl))) l4)
  obtain ⟨n6, r6, e6, l6⟩ := match2_left hc (match1_left (d := 0x3A) hc (.inr (.inr (.inr (.inl rfl)))) l5)
  obtain ⟨n7, r7, e7, l7⟩ := match2_left hc (match1_left (d := 0x3A) hc (.inr (.inr (.inr (.inl rfl)))) l6)
  have lm : Left c (readMs r7).2 := by
    intro s' h
    unfold readMs at h
    split at h
    · rename_i s1
      cases h
      apply fraction_left hc
      have := l7 _ rfl
      cases s1 with
      | nil => simp at this; exact absurd this.symm hc'
      | cons y t => simpa using this
    · exact l7 s' h
  have ho : ∃ o, readOffset (readMs r7).2 = .ok o := by
    generalize (readMs r7).2 = r at lm
    unfold readOffset
    split
    · rename_i s1
      split
      · exact ⟨_, rfl⟩
      · split
        · rename_i x s2 _
          split
          · rename_i hx
            have l8 : Left c (some s2) := by
              intro s' h
              cases h
              have h1 := left_tail hc (.inr (.inr (.inl rfl))) (lm _ rfl)
              refine left_tail hc ?_ h1
              rcases hx with rfl | rfl
              · exact .inr (.inr (.inr (.inr rfl)))
              · exact .inr (.inl rfl)
            obtain ⟨n8, r8, e8, l8⟩ := match2_left hc l8
            obtain ⟨n9, r9, e9, l9⟩ := match2_left hc l8
            rw [e8]
            simp only [Res.bind, e9, Res.map]
            exact ⟨_, rfl⟩
          · exact ⟨_, rfl⟩
        · exact ⟨_, rfl⟩
    · exact ⟨_, rfl⟩
  obtain ⟨o, eo⟩ := ho
  simp only [e1, e2, e3, e4, e5, e6, e7, eo, Res.bind]
  split <;> (intro h; cases h)

example : "2009-02-13 22:01:30.123 UTC".toUTF8.toList.getLast? = some 0x43 ∧ ¬ Part 0x43 := by
  refine ⟨by decide +kernel, ?_⟩
  unfold Part
  decide

end Asteria.Chrono
