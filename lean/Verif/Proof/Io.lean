import Verif.Spec.Io

/-!
# Lemmas about standard streams
-/

namespace Asteria.Io

open Utf (utf8Encode utf8Decode Scalar WfChar WellFormed TrailOk)

/-! ### Characters -/

theorem text_append (a b : List Nat) : text (a ++ b) = text a ++ text b := by
  induction a with
  | nil => rfl
  | cons c a ih => rw [List.cons_append, text, text, ih, List.append_assoc]

theorem enc_some {c : Nat} (h : Scalar c) : ∃ bs, utf8Encode c = some bs ∧ 0 < bs.length := by
  obtain ⟨bs, hb⟩ := (Utf.C07_encode_domain c).2 h
  refine ⟨bs, hb, ?_⟩
  have := Utf.C07_encode_well_formed c bs hb
  cases this <;> simp

theorem next_enc {c : Nat} {bs : Bytes} (h : utf8Encode c = some bs) (rest : Bytes) : next (bs ++ rest) = some (c, bs.length) := by
  unfold next
  rw [Utf.C07_round_trip c bs rest _ h (by simp)]
  dsimp only
  rw [if_pos (by rw [List.take_left]; exact h)]

theorem text_length (cs : List Nat) (h : ∀ c ∈ cs, Scalar c) : cs.length ≤ (text cs).length := by
  induction cs with
  | nil => exact Nat.le_refl _
  | cons c cs ih =>
    obtain ⟨bs, hb, hp⟩ := enc_some (h c (by simp))
    have := ih fun x hx => h x (by simp [hx])
    rw [text, hb, Option.getD_some, List.length_append, List.length_cons]
    omega

theorem byte_ext {a b : UInt8} (h : a.toNat = b.toNat) : a = b := UInt8.toNat_inj.1 h

/-- Every well-formed character is the encoding of one. -/
theorem wf_enc {c : Bytes} (h : WfChar c) : ∃ cp, utf8Encode cp = some c := by
  have hns : ∀ cp, cp < 0xD800 ∨ 0xE000 ≤ cp ∧ cp < 0x110000 → ¬ (Utf.notScalar cp = true) := by
    intro cp h
    rw [Bool.not_eq_true, Utf.notScalar_false]
    exact h
  cases h with
  | r1 a h =>
    unfold Utf.inR at h
    refine ⟨a.toNat, ?_⟩
    unfold utf8Encode
    rw [if_pos (by omega)]
    simp
  | r2 a b h1 h2 =>
    unfold Utf.inR at *
    refine ⟨(a.toNat - 192) * 64 + (b.toNat - 128), ?_⟩
    unfold utf8Encode
    rw [if_neg (by omega), if_neg (hns _ (by omega)), if_pos (by omega)]
    congr 2
    · exact byte_ext (by rw [Utf.encOne_1F]; omega)
    · congr 1; exact byte_ext (by rw [Utf.encOne_3F]; omega)
  | r3 a b c h1 h2 h3 | r4 a b c h1 h2 h3 | r5 a b c h1 h2 h3 | r6 a b c h1 h2 h3 =>
    unfold Utf.inR at *
    refine ⟨((a.toNat - 224) * 64 + (b.toNat - 128)) * 64 + (c.toNat - 128), ?_⟩
    unfold utf8Encode
    rw [if_neg (by omega), if_neg (hns _ (by omega)), if_neg (by omega), if_pos (by omega)]
    congr 2
    · exact byte_ext (by rw [Utf.encOne_0F]; omega)
    · congr 1
      · exact byte_ext (by rw [Utf.encOne_3F]; omega)
      · congr 1; exact byte_ext (by rw [Utf.encOne_3F]; omega)
  | r7 a b c d h1 h2 h3 h4 | r8 a b c d h1 h2 h3 h4 | r9 a b c d h1 h2 h3 h4 =>
    unfold Utf.inR at *
    refine ⟨(((a.toNat - 240) * 64 + (b.toNat - 128)) * 64 + (c.toNat - 128)) * 64 + (d.toNat - 128), ?_⟩
    unfold utf8Encode
    rw [if_neg (by omega), if_neg (hns _ (by omega)), if_neg (by omega), if_neg (by omega)]
    congr 2
    · exact byte_ext (by rw [Utf.encOne_07]; omega)
    · congr 1
      · exact byte_ext (by rw [Utf.encOne_3F]; omega)
      · congr 1
        · exact byte_ext (by rw [Utf.encOne_3F]; omega)
        · congr 1; exact byte_ext (by rw [Utf.encOne_3F]; omega)

/-- Every well-formed text consists of characters. -/
theorem wf_text {s : Bytes} (h : WellFormed s) : ∃ cs, (∀ c ∈ cs, Scalar c) ∧ text cs = s := by
  induction h with
  | nil => exact ⟨[], by simp, rfl⟩
  | cons c rest hc _ ih =>
    obtain ⟨cs, h1, h2⟩ := ih
    obtain ⟨cp, hcp⟩ := wf_enc hc
    refine ⟨cp :: cs, ?_, ?_⟩
    · intro x hx
      rcases List.mem_cons.1 hx with rfl | hx
      · exact (Utf.C07_encode_domain _).1 ⟨c, hcp⟩
      · exact h1 x hx
    · rw [text, hcp, h2]; rfl

/-- In a well-formed text lead bytes are followed by continuation bytes. -/
theorem wf_trailOk {s : Bytes} (h : WellFormed s) : TrailOk s := by
  induction h with
  | nil => intro i b hb; simp at hb
  | cons c rest hc _ ih =>
    intro i b hb hl j x hj hj' hx
    by_cases hi : c.length ≤ i
    · rw [List.getElem?_append_right hi] at hb
      rw [List.getElem?_append_right (by omega), show i + j - c.length = i - c.length + j by omega] at hx
      exact ih (i - c.length) b hb hl j x hj hj' hx
    · unfold Utf.isCont Utf.inR
      unfold Utf.leadLen at hj'
      cases hc <;> unfold Utf.inR at * <;> simp only [List.length_cons, List.length_nil] at hi
      all_goals
        rcases (by omega : i = 0 ∨ i = 1 ∨ i = 2 ∨ i = 3) with rfl | rfl | rfl | rfl <;> first | omega | skip
        all_goals
          simp at hb
          subst hb
          first
          | omega
          | (rcases (by split at hj' <;> (try split at hj') <;> omega : j = 1 ∨ j = 2 ∨ j = 3) with rfl | rfl | rfl <;>
              first
              | (simp at hx; subst hx; omega)
              | (split at hj' <;> (try split at hj') <;> omega))

/-! ### Entering -/

theorem enter_ready {L : Lib} {output wide : Bool} {s : Stream} (h : Ready wide s) :
    enter L output wide s = (true, { s with locks := s.locks + 1, wide := some wide }) := by
  unfold enter
  dsimp only
  rw [if_neg h.wide, h.err]
  rfl

theorem guarded_ready {L : Lib} {output wide : Bool} {body : Stream → Res α × Stream} {s : Stream} (h : Ready wide s) :
    guarded L output wide body s = ((body { s with locks := s.locks + 1, wide := some wide }).1,
      leave (body { s with locks := s.locks + 1, wide := some wide }).2) := by
  unfold guarded
  rw [enter_ready h]

/-- Reading keeps the orientation and the lock. -/
structure Reads (s s' : Stream) : Prop where
  regular : s'.regular = s.regular
  data : s'.data = s.data
  locks : s'.locks = s.locks
  wide : s'.wide = s.wide

theorem Reads.refl (s : Stream) : Reads s s := ⟨rfl, rfl, rfl, rfl⟩

theorem Reads.trans {a b c : Stream} (h : Reads a b) (h' : Reads b c) : Reads a c :=
  ⟨h'.regular.trans h.regular, h'.data.trans h.data, h'.locks.trans h.locks, h'.wide.trans h.wide⟩

theorem reads_leave {s s' : Stream} {wide : Bool} (h : Reads { s with locks := s.locks + 1, wide := some wide } s') :
    Same s (leave s') ∧ (leave s').wide = some wide :=
  ⟨⟨h.regular, h.data, by have := h.locks; unfold leave; dsimp only at *; omega⟩, h.wide⟩

/-! ### Reading characters -/

theorem fgetwc_reads (L : Lib) (s : Stream) : Reads s (fgetwc L s).2 := by
  unfold fgetwc
  dsimp only
  split
  · exact ⟨rfl, rfl, rfl, rfl⟩
  split
  · exact ⟨rfl, rfl, rfl, rfl⟩
  split <;> exact ⟨rfl, rfl, rfl, rfl⟩

theorem fgetwc_char {L : Lib} (hL : L.Calm) {s : Stream} {c : Nat} {bs rest : Bytes} (hb : utf8Encode c = some bs) (hp : 0 < bs.length)
    (h : s.unread = bs ++ rest) : ∃ s', fgetwc L s = (some c, s') ∧ s'.unread = rest ∧ s'.err = s.err := by
  have hu : Stream.unread { s with calls := s.calls + 1 } = bs ++ rest := h
  have he : ¬ (bs ++ rest = []) := by
    intro e
    have := congrArg List.length e
    simp only [List.length_append, List.length_nil] at this
    omega
  unfold fgetwc
  simp only [hL s.calls, Bool.false_eq_true, if_false, hu, he, next_enc hb]
  refine ⟨_, rfl, ?_, rfl⟩
  unfold Stream.unread at h ⊢
  dsimp only
  rw [← List.drop_drop, h, List.drop_left]

theorem fgetwc_end {L : Lib} (hL : L.Calm) {s : Stream} (h : s.unread = []) : ∃ s', fgetwc L s = (none, s') ∧ s'.unread = [] ∧ s'.err = s.err := by
  have hu : Stream.unread { s with calls := s.calls + 1 } = [] := h
  unfold fgetwc
  simp only [hL s.calls, Bool.false_eq_true, if_false, hu, if_true]
  exact ⟨_, rfl, h, rfl⟩

/-- The loop of `getln` on a text. -/
theorem getlnLoop_spec {L : Lib} (hL : L.Calm) : ∀ (line : List Nat) (fuel : Nat) (acc : Bytes) (s : Stream) (more : List Nat) (lf : Bool),
    (∀ c ∈ line, Scalar c ∧ c ≠ 10) → s.err = false → line.length < fuel → s.unread = text line ++ (if lf then text (10 :: more) else []) →
    ∃ s', getlnLoop L fuel acc s = (.ok (acc ++ text line, lf), s') ∧ s'.unread = (if lf then text more else []) ∧ s'.err = false ∧ Reads s s' := by
  intro line
  induction line with
  | nil =>
    intro fuel acc s more lf _ he hf hu
    obtain ⟨fuel, rfl⟩ : ∃ k, fuel = k + 1 := ⟨fuel - 1, by simp at hf; omega⟩
    have hr := fgetwc_reads L s
    rw [getlnLoop]
    cases lf with
    | false =>
      obtain ⟨s', h1, h2, h3⟩ := fgetwc_end hL (s := s) (by simpa [text] using hu)
      rw [h1] at hr ⊢
      dsimp only
      rw [h3, he]
      exact ⟨s', by simp [text], by simpa using h2, by rw [h3, he], hr⟩
    | true =>
      obtain ⟨s', h1, h2, h3⟩ := fgetwc_char hL (s := s) (c := 10) (bs := [10]) (rest := text more) (by decide) (by simp) (by rw [hu]; rfl)
      rw [h1] at hr ⊢
      dsimp only
      rw [if_pos rfl]
      exact ⟨s', by simp [text], by simpa using h2, by rw [h3, he], hr⟩
  | cons c line ih =>
    intro fuel acc s more lf hl he hf hu
    obtain ⟨fuel, rfl⟩ : ∃ k, fuel = k + 1 := ⟨fuel - 1, by simp at hf; omega⟩
    obtain ⟨bs, hb, hp⟩ := enc_some (hl c (by simp)).1
    have hr := fgetwc_reads L s
    rw [text, hb, Option.getD_some, List.append_assoc] at hu
    obtain ⟨s', h1, h2, h3⟩ := fgetwc_char hL hb hp hu
    rw [h1] at hr
    rw [getlnLoop, h1]
    dsimp only
    rw [if_neg (hl c (by simp)).2, hb]
    dsimp only
    obtain ⟨s'', h4, h5, h6, h7⟩ := ih fuel (acc ++ bs) s' more lf (fun x hx => hl x (by simp [hx])) (by rw [h3, he]) (by simp at hf; omega) h2
    refine ⟨s'', ?_, h5, h6, hr.trans h7⟩
    rw [h4, text, hb, Option.getD_some, List.append_assoc]

theorem lines_lf (line more : List Nat) (h : 10 ∉ line) : lines (line ++ 10 :: more) = line :: lines more := by
  induction line with
  | nil => rfl
  | cons c line ih =>
    rw [List.cons_append, lines, if_neg (fun e => h (by simp [e])), ih fun hm => h (by simp [hm])]

theorem lines_last (line : List Nat) (hne : line ≠ []) (h : 10 ∉ line) : lines line = [line] := by
  induction line with
  | nil => exact absurd rfl hne
  | cons c line ih =>
    rw [lines, if_neg (fun e => h (by simp [e]))]
    by_cases hl : line = []
    · subst hl; rfl
    · rw [ih hl fun hm => h (by simp [hm])]

/-- A text has no line, or a first line that is ended by a line feed or by the end of the text. -/
theorem split_line (cs : List Nat) : cs = [] ∨ (cs ≠ [] ∧ 10 ∉ cs) ∨ ∃ line more, cs = line ++ 10 :: more ∧ 10 ∉ line := by
  induction cs with
  | nil => exact .inl rfl
  | cons c cs ih =>
    right
    by_cases hc : c = 10
    · exact .inr ⟨[], cs, by simp [hc], by simp⟩
    · rcases ih with rfl | ⟨_, h⟩ | ⟨line, more, rfl, h⟩
      · exact .inl ⟨by simp, by simp; exact fun e => hc e.symm⟩
      · exact .inl ⟨by simp, by simp only [List.mem_cons, not_or]; exact ⟨fun e => hc e.symm, h⟩⟩
      · exact .inr ⟨c :: line, more, rfl, by simp only [List.mem_cons, not_or]; exact ⟨fun e => hc e.symm, h⟩⟩

/-! ### Reading bytes -/

theorem fread_reads (L : Lib) (n : Nat) (s : Stream) : Reads s (fread L n s).2 := ⟨rfl, rfl, rfl, rfl⟩

theorem fread_calm {L : Lib} (hL : L.Calm) (n : Nat) (s : Stream) :
    (fread L n s).1 = s.unread.take n ∧ (fread L n s).2.unread = s.unread.drop n ∧ (fread L n s).2.err = s.err := by
  unfold fread
  simp only [hL s.calls, Bool.false_eq_true, if_false, Bool.or_false]
  refine ⟨rfl, ?_, trivial⟩
  unfold Stream.unread
  dsimp only
  rw [← List.drop_drop]
  by_cases h : n ≤ (s.data.drop s.pos).length
  · rw [List.length_take, Nat.min_eq_left h]
  · rw [List.drop_of_length_le (i := n) (by omega), List.drop_of_length_le (by rw [List.length_take]; omega)]

theorem readLoop_spec {L : Lib} (hL : L.Calm) (ntotal : Nat) : ∀ (fuel : Nat) (data : Bytes) (s : Stream), s.err = false → data.length ≤ ntotal →
    s.unread.length < fuel →
    ∃ n s', readLoop L ntotal fuel data s = (.ok (data ++ s.unread.take (ntotal - data.length), n), s') ∧
      s'.unread = s.unread.drop (ntotal - data.length) ∧ s'.err = false ∧ Reads s s' ∧
      (s.unread.length < ntotal - data.length → n ≠ 0) ∧ (ntotal - data.length = 0 → n = 0 ∧ s' = s) := by
  intro fuel
  induction fuel with
  | zero => intro data s _ _ h; omega
  | succ fuel ih =>
    intro data s he hd hf
    rw [readLoop, if_neg (by omega)]
    dsimp only
    by_cases h0 : min (ntotal - data.length) (data.length / 2 + 127) = 0
    · rw [if_pos h0]
      have : ntotal - data.length = 0 := by omega
      refine ⟨_, s, ?_, ?_, he, Reads.refl s, ?_, fun _ => ⟨h0, rfl⟩⟩
      · rw [this, List.take_zero, List.append_nil]
      · rw [this]; rfl
      · omega
    rw [if_neg h0]
    obtain ⟨h1, h2, h3⟩ := fread_calm hL (min (ntotal - data.length) (data.length / 2 + 127)) s
    have hr := fread_reads L (min (ntotal - data.length) (data.length / 2 + 127)) s
    generalize hn : min (ntotal - data.length) (data.length / 2 + 127) = n at *
    rw [h3, he, h1]
    rw [if_neg (by simp)]
    by_cases hs : (s.unread.take n).length ≠ n
    · rw [if_pos hs]
      rw [List.length_take] at hs
      refine ⟨n, _, ?_, ?_, by rw [h3, he], hr, fun _ => h0, fun h => by omega⟩
      · rw [List.take_of_length_le (i := n) (by omega), List.take_of_length_le (by omega)]
      · rw [h2, List.drop_of_length_le (by omega), List.drop_of_length_le (by omega)]
    rw [if_neg hs]
    have hs' : n ≤ s.unread.length := by rw [List.length_take] at hs; omega
    have hl : (data ++ s.unread.take n).length = data.length + n := by rw [List.length_append, List.length_take]; omega
    have hu : (s.unread.drop n).length = s.unread.length - n := List.length_drop ..
    obtain ⟨m, s', h4, h5, h6, h7, h8, h9⟩ := ih (data ++ s.unread.take n) (fread L n s).2 (by rw [h3, he]) (by omega) (by rw [h2]; omega)
    rw [hl, h2] at h4 h5 h8
    rw [hl] at h9
    refine ⟨m, s', ?_, ?_, h6, hr.trans h7, fun h => h8 (by omega), fun h => by omega⟩
    · rw [h4, List.append_assoc, ← List.take_add, show n + (ntotal - (data.length + n)) = ntotal - data.length by omega]
    · rw [h5, List.drop_drop, show n + (ntotal - (data.length + n)) = ntotal - data.length by omega]

/-! ### Writing -/

/-- Writing keeps the orientation and the lock. -/
structure Writes (s s' : Stream) (bs : Bytes) : Prop where
  regular : s'.regular = s.regular
  data : s'.data = s.data ++ bs
  locks : s'.locks = s.locks
  wide : s'.wide = s.wide

theorem Writes.trans {a b c : Stream} {x y : Bytes} (h : Writes a b x) (h' : Writes b c y) : Writes a c (x ++ y) :=
  ⟨h'.regular.trans h.regular, by rw [h'.data, h.data, List.append_assoc], h'.locks.trans h.locks, h'.wide.trans h.wide⟩

theorem Writes.refl (s : Stream) : Writes s s [] := ⟨rfl, by simp, rfl, rfl⟩

theorem writes_leave {s s' : Stream} {wide : Bool} {bs : Bytes} (h : Writes { s with locks := s.locks + 1, wide := some wide } s' bs) :
    Adds s (leave s') bs ∧ (leave s').wide = some wide :=
  ⟨⟨h.regular, h.data, by have := h.locks; unfold leave; dsimp only at *; omega⟩, h.wide⟩

theorem fputwc_ok {L : Lib} {s s' : Stream} {c : Nat} {bs : Bytes} (hb : utf8Encode c = some bs) (h : fputwc L c s = (true, s')) :
    Writes s s' bs ∧ s'.err = s.err := by
  unfold fputwc at h
  dsimp only at h
  split at h
  · cases h
  · rw [hb] at h
    cases h
    exact ⟨⟨rfl, rfl, rfl, rfl⟩, rfl⟩

theorem fputwc_fail {L : Lib} {s s' : Stream} {c : Nat} (h : fputwc L c s = (false, s')) : Writes s s' [] := by
  unfold fputwc at h
  dsimp only at h
  split at h
  · cases h; exact ⟨rfl, by simp, rfl, rfl⟩
  · split at h
    · cases h; exact ⟨rfl, by simp, rfl, rfl⟩
    · cases h

theorem fputwc_calm {L : Lib} (hL : L.Calm) {s : Stream} {c : Nat} {bs : Bytes} (hb : utf8Encode c = some bs) :
    ∃ s', fputwc L c s = (true, s') := by
  unfold fputwc
  simp only [hL s.calls, Bool.false_eq_true, if_false, hb]
  exact ⟨_, rfl⟩

theorem decode_enc {s : Bytes} (ht : TrailOk s) {cp n : Nat} (h : utf8Decode s s.length = .ok (some (cp, n))) :
    utf8Encode cp = some (s.take n) ∧ 0 < n := by
  have hw := Utf.decode_sound s ht cp n h
  obtain ⟨cp', hc⟩ := wf_enc hw
  have hl : (s.take n).length ≤ s.length := by rw [List.length_take]; omega
  have := Utf.C07_round_trip cp' (s.take n) (s.drop n) s.length hc hl
  rw [List.take_append_drop, h] at this
  have e : (cp, n) = (cp', (s.take n).length) := Option.some.inj (Res.ok.inj this)
  have e1 : cp = cp' := congrArg Prod.fst e
  have e2 : n = (s.take n).length := congrArg Prod.snd e
  obtain ⟨o, ho, hp⟩ := Utf.C08_decode_total s s.length (Nat.le_refl _)
  rw [h] at ho
  exact ⟨e1 ▸ hc, (hp cp n (Res.ok.inj ho).symm).1⟩

/-- Writing a text in which lead bytes are followed by continuation bytes. -/
theorem writeUtf8_spec (L : Lib) : ∀ (fuel : Nat) (t : Bytes) (k : Nat) (s : Stream), TrailOk t → t.length < fuel →
    (∃ m s', writeUtf8 L fuel t k s = (.ok (k + m), s') ∧ Writes s s' t ∧ s'.err = s.err ∧ ∃ cs, (∀ c ∈ cs, Scalar c) ∧ text cs = t ∧ cs.length = m) ∨
    (∃ p s', writeUtf8 L fuel t k s = (.throw, s') ∧ p <+: t ∧ Writes s s' p ∧ (¬ WellFormed t ∨ ¬ L.Calm)) := by
  intro fuel
  induction fuel with
  | zero => intro t k s _ h; omega
  | succ fuel ih =>
    intro t k s ht hf
    rw [writeUtf8]
    by_cases h0 : t = []
    · subst h0
      rw [if_pos rfl]
      exact .inl ⟨0, s, rfl, Writes.refl s, rfl, [], by simp, rfl, rfl⟩
    rw [if_neg h0]
    obtain ⟨o, ho, _⟩ := Utf.C08_decode_total t t.length (Nat.le_refl _)
    rw [ho]
    cases o with
    | none =>
      dsimp only
      refine .inr ⟨[], s, rfl, by simp, Writes.refl s, .inl fun hw => ?_⟩
      cases hw with
      | nil => exact h0 rfl
      | cons c rest hc _ =>
        obtain ⟨cp, h⟩ := Utf.decode_wf c rest hc
        rw [h] at ho
        cases ho
    | some x =>
      obtain ⟨cp, n⟩ := x
      dsimp only
      obtain ⟨he, hn⟩ := decode_enc ht ho
      have hsc : Scalar cp := (Utf.C07_encode_domain cp).1 ⟨_, he⟩
      rcases hp : fputwc L cp s with ⟨b, s1⟩
      cases b with
      | false =>
        refine .inr ⟨[], s1, rfl, by simp, fputwc_fail hp, .inr fun hL => ?_⟩
        obtain ⟨s2, h2⟩ := fputwc_calm hL (s := s) he
        rw [hp] at h2
        cases h2
      | true =>
        dsimp only
        obtain ⟨hw, hee⟩ := fputwc_ok he hp
        have hlt : 0 < t.length := List.length_pos_iff.2 h0
        have hdl : (t.drop n).length = t.length - n := List.length_drop ..
        rcases ih (t.drop n) (k + 1) s1 (ht.drop n) (by omega) with ⟨m, s', h1, h2, h3, cs, h4, h5, h6⟩ | ⟨p, s', h1, h2, h3, h4⟩
        · refine .inl ⟨m + 1, s', by rw [h1]; congr 2; omega, ?_, by rw [h3, hee], cp :: cs, ?_, ?_, by simp [h6]⟩
          · have := hw.trans h2
            rwa [List.take_append_drop] at this
          · intro c hc
            rcases List.mem_cons.1 hc with rfl | hc
            · exact hsc
            · exact h4 c hc
          · rw [text, he, h5, Option.getD_some, List.take_append_drop]
        · refine .inr ⟨t.take n ++ p, s', h1, ?_, hw.trans h3, ?_⟩
          · obtain ⟨u, hu⟩ := h2
            exact ⟨u, by rw [List.append_assoc, hu, List.take_append_drop]⟩
          · rcases h4 with h4 | h4
            · refine .inl fun hwf => h4 ?_
              cases hwf with
              | nil => exact absurd rfl h0
              | cons c rest hc hr =>
                obtain ⟨cp', h⟩ := Utf.decode_wf c rest hc
                rw [h] at ho
                have e : (cp', c.length) = (cp, n) := Option.some.inj (Res.ok.inj ho)
                cases e
                rw [List.drop_left]
                exact hr
            · exact .inr h4

/-! ### Locks -/

theorem getlnLoop_reads (L : Lib) : ∀ (fuel : Nat) (acc : Bytes) (s : Stream), Reads s (getlnLoop L fuel acc s).2 := by
  intro fuel
  induction fuel with
  | zero => intro acc s; exact Reads.refl s
  | succ fuel ih =>
    intro acc s
    have hr := fgetwc_reads L s
    rw [getlnLoop]
    rcases h : fgetwc L s with ⟨_ | cp, s'⟩
    · rw [h] at hr
      dsimp only
      split <;> exact hr
    · rw [h] at hr
      dsimp only
      split
      · exact hr
      · split
        · exact hr
        · exact hr.trans (ih _ _)

theorem readLoop_reads (L : Lib) (n : Nat) : ∀ (fuel : Nat) (data : Bytes) (s : Stream), Reads s (readLoop L n fuel data s).2 := by
  intro fuel
  induction fuel with
  | zero => intro data s; exact Reads.refl s
  | succ fuel ih =>
    intro data s
    rw [readLoop]
    dsimp only
    split
    · exact Reads.refl s
    split
    · exact Reads.refl s
    split
    · exact fread_reads ..
    split
    · exact fread_reads ..
    · exact (fread_reads ..).trans (ih _ _)

theorem fputwc_locks (L : Lib) (c : Nat) (s : Stream) : (fputwc L c s).2.locks = s.locks := by
  unfold fputwc
  dsimp only
  split
  · rfl
  · split <;> rfl

theorem writeUtf8_locks (L : Lib) : ∀ (fuel : Nat) (t : Bytes) (k : Nat) (s : Stream), (writeUtf8 L fuel t k s).2.locks = s.locks := by
  intro fuel
  induction fuel with
  | zero => intro t k s; rfl
  | succ fuel ih =>
    intro t k s
    rw [writeUtf8]
    split
    · rfl
    · split
      · rename_i cp n _
        have hl := fputwc_locks L cp s
        rcases h : fputwc L cp s with ⟨_ | _, s'⟩
        · rw [h] at hl; exact hl
        · rw [h] at hl; exact (ih _ _ _).trans hl
      all_goals rfl

/-- When the functions leave a stream as they found it. -/
theorem guarded_locks {L : Lib} {output wide : Bool} {body : Stream → Res α × Stream} (hb : ∀ s, (body s).2.locks = s.locks) (s : Stream) :
    (guarded L output wide body s).2.locks = s.locks + (if (if s.wide = some (!wide) then L.fails s.calls else s.err) then 1 else 0) := by
  unfold guarded enter
  dsimp only
  by_cases hw : s.wide = some (!wide)
  · rw [if_pos hw, if_pos hw]
    cases hf : L.fails s.calls
    · rw [if_neg (by simp)]
      dsimp only [leave]
      rw [hb]
      simp [reopen]
    · rfl
  · rw [if_neg hw, if_neg hw]
    cases he : s.err
    · show (leave (body _).2).locks = _
      dsimp only [leave]
      rw [hb]
      simp
    · rfl

/-- A function does not begin on a stream on which an error has occurred. -/
theorem guarded_err {L : Lib} {output wide : Bool} {body : Stream → Res α × Stream} {s : Stream} (hw : s.wide ≠ some (!wide)) (he : s.err = true) :
    guarded L output wide body s = (.throw, { s with locks := s.locks + 1, wide := some wide }) := by
  unfold guarded enter
  dsimp only
  rw [if_neg hw, he]
  rfl

end Asteria.Io
