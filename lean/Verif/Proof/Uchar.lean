import Verif.Spec.Uchar

/-!
# Lemmas about wide characters
-/

namespace Asteria.Uchar

theorem utf8_ne (c : Nat) : utf8 c ≠ [] := by
  unfold utf8; repeat' split
  all_goals simp

theorem utf8_len (c : Nat) : (utf8 c).length ≤ 4 := by
  unfold utf8; repeat' split
  all_goals simp

/-- What a conversion function does while a character is incomplete. -/
def Gathers (L : Lib) (f : Mbr) : Prop := ∀ bs b, L (bs ++ [b]) = .more → f (.seq bs) b = (.more, .seq (bs ++ [b]))

theorem gathers32 (L : Lib) : Gathers L (mbrtoc32 L) := by
  intro bs b h; simp [mbrtoc32, h]

theorem gathers16 (L : Lib) : Gathers L (mbrtoc16 L) := by
  intro bs b h; simp [mbrtoc16, h]

/-- The last byte of a character is reached, and nothing has been stored. -/
theorem getLoop_feed {L : Lib} (hL : Reads8 L) {f : Mbr} (hf : Gathers L f) {c : Nat} (hc : Scalar c) (file : Bytes) (n : Nat) :
    ∀ (rest bs : Bytes), utf8 c = bs ++ rest → rest ≠ [] → ∃ a b, utf8 c = a ++ [b] ∧
      getLoop f (.seq bs) (rest ++ file) true (n + 1) = getLoop f (.seq a) (b :: file) true (n + 1)
  | [], _, _, h => absurd rfl h
  | [b], bs, h, _ => ⟨bs, b, h, rfl⟩
  | b :: b' :: rest, bs, h, _ => by
    obtain ⟨a, x, e, e'⟩ := getLoop_feed hL hf hc file n (b' :: rest) (bs ++ [b]) (by simpa using h) (by simp)
    refine ⟨a, x, e, ?_⟩
    rw [← e']
    have hm : L (bs ++ [b]) = .more := hL.part c hc (bs ++ [b]) (b' :: rest) (by simpa using h) (by simp) (by simp)
    conv => lhs; unfold getLoop
    simp only [List.cons_append]
    rw [hf bs b hm]

theorem getLoop32 {L : Lib} (hL : Reads8 L) {c : Nat} (hc : Scalar c) (file : Bytes) (n : Nat) :
    getLoop (mbrtoc32 L) (.seq []) (utf8 c ++ file) true (n + 1)
      = (c :: (getLoop (mbrtoc32 L) (.seq []) file true n).1, (getLoop (mbrtoc32 L) (.seq []) file true n).2) := by
  obtain ⟨a, b, e, e'⟩ := getLoop_feed hL (gathers32 L) hc file n (utf8 c) [] rfl (utf8_ne c)
  rw [e']
  have hw := hL.whole c hc
  rw [e] at hw
  conv => lhs; unfold getLoop
  cases c <;> simp [mbrtoc32, hw]

theorem getLoop16 {L : Lib} (hL : Reads8 L) {c : Nat} (hc : Scalar c) (hb : c < 0x10000) (file : Bytes) (n : Nat) :
    getLoop (mbrtoc16 L) (.seq []) (utf8 c ++ file) true (n + 1)
      = (c :: (getLoop (mbrtoc16 L) (.seq []) file true n).1, (getLoop (mbrtoc16 L) (.seq []) file true n).2) := by
  obtain ⟨a, b, e, e'⟩ := getLoop_feed hL (gathers16 L) hc file n (utf8 c) [] rfl (utf8_ne c)
  rw [e']
  have hw := hL.whole c hc
  rw [e] at hw
  conv => lhs; unfold getLoop
  cases c <;> simp [mbrtoc16, hw, hb]

theorem getLoop16_high {L : Lib} (hL : Reads8 L) {c : Nat} (hc : Scalar c) (hb : ¬ c < 0x10000) (file : Bytes) (n : Nat) :
    getLoop (mbrtoc16 L) (.seq []) (utf8 c ++ file) true (n + 1)
      = (leading c :: (getLoop (mbrtoc16 L) (.trail (trailing c)) file true n).1,
          (getLoop (mbrtoc16 L) (.trail (trailing c)) file true n).2) := by
  obtain ⟨a, b, e, e'⟩ := getLoop_feed hL (gathers16 L) hc file n (utf8 c) [] rfl (utf8_ne c)
  rw [e']
  have hw := hL.whole c hc
  rw [e] at hw
  conv => lhs; unfold getLoop
  cases c with
  | zero => omega
  | succ c => simp [mbrtoc16, hw, hb, leading, trailing]

theorem getLoop_zero (f : Mbr) (st : MbSt) (file : Bytes) (w : Bool) : getLoop f st file w 0 = ([], st, file) := by
  unfold getLoop; rfl

theorem getLoop_end (f : Mbr) (st : MbSt) (n : Nat) : getLoop f st [] true n = ([], st, []) := by
  cases n <;> unfold getLoop <;> rfl

/-- `xmbrtowc` on a whole character. -/
theorem mbrLong_feed {L : Lib} (hL : Reads8 L) {f : Mbr} (hf : Gathers L f) {c : Nat} (hc : Scalar c) (s : Bytes) :
    ∀ (rest bs : Bytes) (k : Nat), utf8 c = bs ++ rest → rest ≠ [] → rest.length ≤ k →
      (∀ a b, utf8 c = a ++ [b] → ∀ st, f (.seq a) b ≠ (.more, st)) →
      ∃ a b, utf8 c = a ++ [b] ∧ mbrLong f (.seq bs) (rest ++ s) k = ((f (.seq a) b).1, (f (.seq a) b).2, rest.length)
  | [], _, _, _, h, _, _ => absurd rfl h
  | _, _, 0, _, h, hk, _ => absurd (List.length_eq_zero_iff.mp (Nat.le_zero.mp hk)) h
  | [b], bs, k + 1, h, _, _, hd => by
    refine ⟨bs, b, h, ?_⟩
    unfold mbrLong
    simp only [List.singleton_append, List.headD_cons]
    have := hd bs b h
    generalize f (.seq bs) b = r at this ⊢
    obtain ⟨r, st⟩ := r
    cases r with
    | more => exact absurd rfl (this st)
    | _ => rfl
  | b :: b' :: rest, bs, k + 1, h, _, hk, hd => by
    obtain ⟨a, x, e, e'⟩ := mbrLong_feed hL hf hc s (b' :: rest) (bs ++ [b]) k (by simpa using h) (by simp)
      (by simpa using hk) hd
    refine ⟨a, x, e, ?_⟩
    have hm : L (bs ++ [b]) = .more := hL.part c hc (bs ++ [b]) (b' :: rest) (by simpa using h) (by simp) (by simp)
    unfold mbrLong
    simp only [List.cons_append, List.headD_cons, List.tail_cons]
    rw [hf bs b hm]
    simp only [List.cons_append] at e'
    simp only [e', List.length_cons]

theorem mbrLong32 {L : Lib} (hL : Reads8 L) {c : Nat} (hc : Scalar c) (h0 : c ≠ 0) (s : Bytes) :
    mbrLong (mbrtoc32 L) (.seq []) (utf8 c ++ s) 16 = (.done c, .seq [], (utf8 c).length) := by
  have key : ∀ a b, utf8 c = a ++ [b] → mbrtoc32 L (.seq a) b = (.done c, .seq []) := by
    intro a b e
    have hw := hL.whole c hc
    rw [e] at hw
    cases c with
    | zero => omega
    | succ c => simp [mbrtoc32, hw]
  obtain ⟨a, b, e, e'⟩ := mbrLong_feed hL (gathers32 L) hc s (utf8 c) [] 16 rfl (utf8_ne c)
    (by have := utf8_len c; omega) (fun a b e st => by rw [key a b e]; simp)
  rw [e', key a b e]

theorem mbrLong16 {L : Lib} (hL : Reads8 L) {c : Nat} (hc : Scalar c) (h0 : c ≠ 0) (hb : c < 0x10000) (s : Bytes) :
    mbrLong (mbrtoc16 L) (.seq []) (utf8 c ++ s) 16 = (.done c, .seq [], (utf8 c).length) := by
  have key : ∀ a b, utf8 c = a ++ [b] → mbrtoc16 L (.seq a) b = (.done c, .seq []) := by
    intro a b e
    have hw := hL.whole c hc
    rw [e] at hw
    cases c with
    | zero => omega
    | succ c => simp [mbrtoc16, hw, hb]
  obtain ⟨a, b, e, e'⟩ := mbrLong_feed hL (gathers16 L) hc s (utf8 c) [] 16 rfl (utf8_ne c)
    (by have := utf8_len c; omega) (fun a b e st => by rw [key a b e]; simp)
  rw [e', key a b e]

theorem mbrLong16_high {L : Lib} (hL : Reads8 L) {c : Nat} (hc : Scalar c) (hb : ¬ c < 0x10000) (s : Bytes) :
    mbrLong (mbrtoc16 L) (.seq []) (utf8 c ++ s) 16 = (.done (leading c), .trail (trailing c), (utf8 c).length) := by
  have key : ∀ a b, utf8 c = a ++ [b] → mbrtoc16 L (.seq a) b = (.done (leading c), .trail (trailing c)) := by
    intro a b e
    have hw := hL.whole c hc
    rw [e] at hw
    cases c with
    | zero => omega
    | succ c => simp [mbrtoc16, hw, hb, leading, trailing]
  obtain ⟨a, b, e, e'⟩ := mbrLong_feed hL (gathers16 L) hc s (utf8 c) [] 16 rfl (utf8_ne c)
    (by have := utf8_len c; omega) (fun a b e st => by rw [key a b e]; simp)
  rw [e', key a b e]

/-- One round of the loop of `do_putmbn_common` that stores `u`. -/
theorem putmb_round {f : Mbr} {fuel : Nat} {st st' : MbSt} {s : Bytes} {w : List Nat} {u k : Nat} (hs : s ≠ [])
    (h : mbrLong f st s 16 = (.done u, st', k)) (X : List Nat)
    (hX : ∀ w, (putmbLoop f fuel st' (s.drop k) w).flatten = w ++ X) :
    (putmbLoop f (fuel + 1) st s w).flatten = w ++ u :: X := by
  cases s with
  | nil => exact absurd rfl hs
  | cons b s =>
    unfold putmbLoop
    simp only [putmbRound, h]
    split
    · rw [hX]; simp
    · rw [List.flatten_cons, hX]; simp

theorem putmb_again {L : Lib} {fuel : Nat} {s : Bytes} {w : List Nat} {u : Nat} (hs : s ≠ []) (X : List Nat)
    (hX : ∀ w, (putmbLoop (mbrtoc16 L) fuel (.seq []) s w).flatten = w ++ X) :
    (putmbLoop (mbrtoc16 L) (fuel + 1) (.trail u) s w).flatten = w ++ u :: X := by
  cases s with
  | nil => exact absurd rfl hs
  | cons b s =>
    unfold putmbLoop
    have h : mbrLong (mbrtoc16 L) (.trail u) (b :: s) 16 = (.again u, .seq [], 1) := rfl
    simp only [putmbRound, h]
    split
    · rw [hX]; simp
    · rw [List.flatten_cons, hX]; simp

theorem putmb_end {f : Mbr} {fuel : Nat} {st : MbSt} {w : List Nat} : (putmbLoop f (fuel + 1) st [] w).flatten = w := by
  unfold putmbLoop
  cases w <;> simp

theorem putmb32 {L : Lib} (hL : Reads8 L) : ∀ (cs : List Nat), (∀ c ∈ cs, Scalar c ∧ c ≠ 0) → ∀ (fuel : Nat) (w : List Nat),
    2 * (cs.flatMap utf8).length < fuel → (putmbLoop (mbrtoc32 L) fuel (.seq []) (cs.flatMap utf8) w).flatten = w ++ cs
  | [], _, fuel + 1, w, _ => by simp [putmb_end]
  | [], _, 0, w, h => by omega
  | c :: cs, hc, 0, w, h => by omega
  | c :: cs, hc, fuel + 1, w, h => by
    have h1 := hc c (by simp)
    have hne := utf8_ne c
    have hl : 0 < (utf8 c).length := List.length_pos_iff.mpr hne
    simp only [List.flatMap_cons, List.length_append] at h ⊢
    refine putmb_round (by simp [hne]) (mbrLong32 hL h1.1 h1.2 _) cs fun w => ?_
    rw [List.drop_left]
    exact putmb32 hL cs (fun c h => hc c (by simp [h])) fuel w (by omega)

/-- What `do_putmbn_common` makes of a string for UTF-16. -/
def shown : List Nat → List Nat
  | [] => []
  | [c] => [if c < 0x10000 then c else leading c]
  | c :: d :: cs => utf16 c ++ shown (d :: cs)

theorem shown_low : ∀ (cs : List Nat) (c : Nat), c < 0x10000 → shown (cs ++ [c]) = (cs ++ [c]).flatMap utf16
  | [], c, h => by simp [shown, utf16, h]
  | [d], c, h => by simp [shown, utf16, h]
  | d :: e :: cs, c, h => by
    have := shown_low (e :: cs) c h
    simp only [List.cons_append] at this ⊢
    rw [shown, this]
    simp

theorem shown_high : ∀ (cs : List Nat) (c : Nat), ¬ c < 0x10000 → shown (cs ++ [c]) = cs.flatMap utf16 ++ [leading c]
  | [], c, h => by simp [shown, h]
  | [d], c, h => by simp [shown, h]
  | d :: e :: cs, c, h => by
    have := shown_high (e :: cs) c h
    simp only [List.cons_append] at this ⊢
    rw [shown, this]
    simp

theorem putmb16 {L : Lib} (hL : Reads8 L) : ∀ (cs : List Nat), (∀ c ∈ cs, Scalar c ∧ c ≠ 0) → ∀ (fuel : Nat) (w : List Nat),
    2 * (cs.flatMap utf8).length < fuel →
    (putmbLoop (mbrtoc16 L) fuel (.seq []) (cs.flatMap utf8) w).flatten = w ++ shown cs
  | [], _, fuel + 1, w, _ => by simp [putmb_end, shown]
  | [], _, 0, w, h => by omega
  | c :: cs, hc, 0, w, h => by omega
  | [c], hc, fuel + 1, w, h => by
    have h1 := hc c (by simp)
    have hne := utf8_ne c
    have hl : 0 < (utf8 c).length := List.length_pos_iff.mpr hne
    have hf : ∃ g, fuel = g + 1 := ⟨fuel - 1, by simp at h; omega⟩
    obtain ⟨fuel, rfl⟩ := hf
    simp only [List.flatMap_cons, List.flatMap_nil]
    by_cases hb : c < 0x10000
    · rw [putmb_round (by simp [hne]) (mbrLong16 hL h1.1 h1.2 hb _) [] (fun w => by
        rw [List.drop_left, putmb_end, List.append_nil])]
      simp [shown, hb]
    · rw [putmb_round (by simp [hne]) (mbrLong16_high hL h1.1 hb _) [] (fun w => by
        rw [List.drop_left, putmb_end, List.append_nil])]
      simp [shown, hb]
  | c :: d :: cs, hc, fuel + 1, w, h => by
    have h1 := hc c (by simp)
    have hne := utf8_ne c
    have hl : 0 < (utf8 c).length := List.length_pos_iff.mpr hne
    have hs : (d :: cs).flatMap utf8 ≠ [] := by simp [utf8_ne d]
    rw [List.flatMap_cons, List.length_append] at h
    rw [List.flatMap_cons]
    by_cases hb : c < 0x10000
    · rw [putmb_round (by simp [hne]) (mbrLong16 hL h1.1 h1.2 hb _) (shown (d :: cs)) (fun w => by
        rw [List.drop_left]
        exact putmb16 hL (d :: cs) (fun c h => hc c (by simp [h])) fuel w (by omega))]
      simp [shown, utf16, hb]
    · obtain ⟨fuel, rfl⟩ : ∃ g, fuel = g + 1 := ⟨fuel - 1, by omega⟩
      rw [putmb_round (by simp [hne]) (mbrLong16_high hL h1.1 hb _) (trailing c :: shown (d :: cs)) (fun w => by
        rw [List.drop_left]
        exact putmb_again hs _ fun w => putmb16 hL (d :: cs) (fun c h => hc c (by simp [h])) fuel w (by omega))]
      simp [shown, utf16, hb]

/-- Every call of `putn` has at most 128 characters. -/
theorem putmb_short {f : Mbr} : ∀ (fuel : Nat) (st : MbSt) (s : Bytes) (w : List Nat), w.length < 128 →
    ∀ x ∈ putmbLoop f fuel st s w, x.length ≤ 128
  | 0, _, _, _, _ => by simp [putmbLoop]
  | fuel + 1, st, [], w, h => by
    unfold putmbLoop
    dsimp only
    split <;> simp
    omega
  | fuel + 1, st, b :: s, w, h => by
    intro x hx
    unfold putmbLoop at hx
    have hl : (putmbRound f st b s w).1.length = w.length + 1 := by
      unfold putmbRound; split <;> simp
    dsimp only at hx
    split at hx
    · exact putmb_short fuel _ _ _ (by omega) x hx
    · rcases List.mem_cons.mp hx with rfl | hx
      · omega
      · exact putmb_short fuel _ _ [] (by simp) x hx

theorem putn_append (g : Option Nat → Nat → Option Bytes × Option Nat) : ∀ (us vs : List Nat) (st : Option Nat),
    putn g st (us ++ vs) = ((putn g st us).1 ++ (putn g (putn g st us).2.1 vs).1, (putn g (putn g st us).2.1 vs).2.1,
      (putn g st us).2.2 + (putn g (putn g st us).2.1 vs).2.2)
  | [], vs, st => by simp [putn]
  | u :: us, vs, st => by
    simp only [List.cons_append, putn]
    split
    · rw [putn_append g us vs]; simp; omega
    · rw [putn_append g us vs]; simp; omega

theorem putn16_low {E : Enc} {c : Nat} {bs : Bytes} (hb : c < 0xD800 ∨ 0xE000 ≤ c) (he : E c = some bs) :
    putn (c16rtomb E) none [c] = (bs, none, bs.length) := by
  have h1 : ¬ (0xD800 ≤ c ∧ c < 0xDC00) := by omega
  have h2 : ¬ (0xDC00 ≤ c ∧ c < 0xE000) := by omega
  simp only [putn, c16rtomb, if_neg h1, if_neg h2, he]
  simp

theorem putn16_pair {E : Enc} {h u : Nat} {bs : Bytes} (h1 : 0xD800 ≤ h ∧ h < 0xDC00) (h2 : 0xDC00 ≤ u ∧ u < 0xE000)
    (he : E (0x10000 + (h - 0xD800) * 0x400 + (u - 0xDC00)) = some bs) :
    putn (c16rtomb E) none [h, u] = (bs, none, bs.length) := by
  simp only [putn, c16rtomb, if_pos h1, if_pos h2, he]
  simp

theorem putn16_one {E : Enc} (hE : Writes8 E) {c : Nat} (hc : Scalar c) :
    putn (c16rtomb E) none (utf16 c) = (utf8 c, none, (utf8 c).length) := by
  have he := hE c
  rw [if_pos hc] at he
  unfold Scalar at hc
  unfold utf16
  split
  · exact putn16_low (by omega) he
  · refine putn16_pair (by unfold leading; omega) (by unfold trailing; omega) ?_
    have h3 : 0x10000 + (leading c - 0xD800) * 0x400 + (trailing c - 0xDC00) = c := by
      unfold leading trailing; omega
    rw [h3, he]

theorem putn16 {E : Enc} (hE : Writes8 E) (cs : List Nat) (h : ∀ c ∈ cs, Scalar c) :
    putn (c16rtomb E) none (cs.flatMap utf16) = (cs.flatMap utf8, none, (cs.flatMap utf8).length) := by
  induction cs with
  | nil => rfl
  | cons c cs ih =>
    rw [List.flatMap_cons, putn_append, putn16_one hE (h c (by simp)), ih (fun c h' => h c (by simp [h']))]
    simp

/-- A decoder of UTF-8 for whole characters, to show that there is one. -/
def look8 : Lib
  | [a] => if a.toNat < 0x80 then .char a.toNat else if 0xC2 ≤ a.toNat ∧ a.toNat < 0xF5 then .more else .bad
  | [a, b] =>
    if b.toNat < 0x80 then .bad
    else if a.toNat < 0xE0 then .char ((a.toNat - 0xC0) * 0x40 + (b.toNat - 0x80)) else .more
  | [a, b, c] =>
    if a.toNat < 0xF0 then .char ((a.toNat - 0xE0) * 0x1000 + (b.toNat - 0x80) * 0x40 + (c.toNat - 0x80)) else .more
  | [a, b, c, d] =>
    .char ((a.toNat - 0xF0) * 0x40000 + (b.toNat - 0x80) * 0x1000 + (c.toNat - 0x80) * 0x40 + (d.toNat - 0x80))
  | _ => .bad

theorem look8_reads : Reads8 look8 where
  whole c hc := by
    have hr : c < 0xD800 ∨ 0xE000 ≤ c ∧ c < 0x110000 := hc
    unfold utf8
    split
    · have h : (UInt8.ofNat c).toNat = c := by simp; omega
      simp only [look8, h]
      rw [if_pos (by omega)]
    · split
      · have h1 : (UInt8.ofNat (0xC0 + c / 0x40)).toNat = 0xC0 + c / 0x40 := by simp; omega
        have h2 : (UInt8.ofNat (0x80 + c % 0x40)).toNat = 0x80 + c % 0x40 := by simp; omega
        simp only [look8, h1, h2]
        rw [if_neg (by omega), if_pos (by omega)]
        exact congrArg Look.char (by omega)
      · split
        · have h1 : (UInt8.ofNat (0xE0 + c / 0x1000)).toNat = 0xE0 + c / 0x1000 := by simp; omega
          have h2 : (UInt8.ofNat (0x80 + c / 0x40 % 0x40)).toNat = 0x80 + c / 0x40 % 0x40 := by simp; omega
          have h3 : (UInt8.ofNat (0x80 + c % 0x40)).toNat = 0x80 + c % 0x40 := by simp; omega
          simp only [look8, h1, h2, h3]
          rw [if_pos (by omega)]
          exact congrArg Look.char (by omega)
        · have h1 : (UInt8.ofNat (0xF0 + c / 0x40000)).toNat = 0xF0 + c / 0x40000 := by simp; omega
          have h2 : (UInt8.ofNat (0x80 + c / 0x1000 % 0x40)).toNat = 0x80 + c / 0x1000 % 0x40 := by simp; omega
          have h3 : (UInt8.ofNat (0x80 + c / 0x40 % 0x40)).toNat = 0x80 + c / 0x40 % 0x40 := by simp; omega
          have h4 : (UInt8.ofNat (0x80 + c % 0x40)).toNat = 0x80 + c % 0x40 := by simp; omega
          simp only [look8, h1, h2, h3, h4]
          exact congrArg Look.char (by omega)
  part c hc a b := by
    have hr : c < 0xD800 ∨ 0xE000 ≤ c ∧ c < 0x110000 := hc
    intro e ha hb
    unfold utf8 at e
    split at e
    · match a, b, e with
      | [_], _ :: _, e => simp at e
      | _ :: _ :: _, _, e => simp at e
    · split at e
      · have h1 : (UInt8.ofNat (0xC0 + c / 0x40)).toNat = 0xC0 + c / 0x40 := by simp; omega
        match a, b, e with
        | [x], _ :: _, e =>
          simp only [List.cons_append, List.cons.injEq] at e
          rw [← e.1]
          simp only [look8, h1]
          rw [if_neg (by omega), if_pos (by omega)]
        | [_, _], _ :: _, e => simp at e
        | _ :: _ :: _ :: _, _, e => simp at e
      · split at e
        · have h2 : (UInt8.ofNat (0x80 + c / 0x40 % 0x40)).toNat = 0x80 + c / 0x40 % 0x40 := by simp; omega
          have h1 : (UInt8.ofNat (0xE0 + c / 0x1000)).toNat = 0xE0 + c / 0x1000 := by simp; omega
          match a, b, e with
          | [x], _ :: _, e =>
            simp only [List.cons_append, List.cons.injEq] at e
            rw [← e.1]
            simp only [look8, h1]
            rw [if_neg (by omega), if_pos (by omega)]
          | [x, y], _ :: _, e =>
            simp only [List.cons_append, List.cons.injEq] at e
            rw [← e.1, ← e.2.1]
            simp only [look8, h1, h2]
            rw [if_neg (by omega), if_neg (by omega)]
          | [_, _, _], _ :: _, e => simp at e
          | _ :: _ :: _ :: _ :: _, _, e => simp at e
        · have h2 : (UInt8.ofNat (0x80 + c / 0x1000 % 0x40)).toNat = 0x80 + c / 0x1000 % 0x40 := by simp; omega
          have h1 : (UInt8.ofNat (0xF0 + c / 0x40000)).toNat = 0xF0 + c / 0x40000 := by simp; omega
          match a, b, e with
          | [x], _ :: _, e =>
            simp only [List.cons_append, List.cons.injEq] at e
            rw [← e.1]
            simp only [look8, h1]
            rw [if_neg (by omega), if_pos (by omega)]
          | [x, y], _ :: _, e =>
            simp only [List.cons_append, List.cons.injEq] at e
            rw [← e.1, ← e.2.1]
            simp only [look8, h1, h2]
            rw [if_neg (by omega), if_neg (by omega)]
          | [x, y, z], _ :: _, e =>
            simp only [List.cons_append, List.cons.injEq] at e
            rw [← e.1]
            simp only [look8, h1]
            rw [if_neg (by omega)]
          | [_, _, _, _], _ :: _, e => simp at e
          | _ :: _ :: _ :: _ :: _ :: _, _, e => simp at e

/-- Reading the beginning of a character. -/
theorem getLoop_part {L : Lib} (hL : Reads8 L) {f : Mbr} (hf : Gathers L f) {c : Nat} (hc : Scalar c) (n : Nat) {tl : Bytes}
    (ht : tl ≠ []) : ∀ (rest bs : Bytes), utf8 c = bs ++ rest ++ tl →
      getLoop f (.seq bs) rest true (n + 1) = ([], .seq (bs ++ rest), [])
  | [], bs, _ => by rw [getLoop_end, List.append_nil]
  | b :: rest, bs, h => by
    have hm : L (bs ++ [b]) = .more :=
      hL.part c hc (bs ++ [b]) (rest ++ tl) (by rw [h]; simp) (by simp) (by simp [ht])
    rw [getLoop]
    rw [hf bs b hm]
    dsimp only
    rw [getLoop_part hL hf hc n ht rest (bs ++ [b]) (by rw [h]; simp)]
    simp

end Asteria.Uchar
