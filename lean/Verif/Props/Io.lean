import Verif.Proof.Io

/-!
# C127–C129: standard input and output
-/

namespace Asteria.Io

open Utf (utf8Encode Scalar WellFormed TrailOk)

/-! ### C127: locks -/

/-- **C127** as one would like it: a call leaves the lock of a standard stream as it has found it. -/
def C127_claim : Prop := ∀ (L : Lib) (c : Call) (s : Stream), (c.run L s).2.locks = s.locks

/-- **C127** does not hold: the destructor that unlocks a stream does not run when the constructor, after locking it, throws an exception. -/
theorem C127_false : ¬ C127_claim := fun h => by
  have := h ⟨fun _ => false, fun _ => 0, fun _ => 0⟩ (.puts [0x41]) { regular := false, data := [], wide := some true, err := true }
  revert this
  decide

/-- **C127**, when it is true: a call leaves the lock as it has found it if no error has occurred on the stream before; if the stream has to be
opened again because the call is about characters and an earlier one was about bytes or the other way around, it is so if that succeeds.
Otherwise the stream is locked once more, for ever. -/
theorem C127_partial (L : Lib) (c : Call) (s : Stream) :
    (c.run L s).2.locks = s.locks + (if (if s.wide = some (!c.wide) then L.fails s.calls else s.err) then 1 else 0) := by
  cases c with
  | getc =>
    refine guarded_locks (fun s => ?_) s
    have hr := fgetwc_reads L s
    rcases h : fgetwc L s with ⟨_ | cp, s'⟩
    · rw [h] at hr
      dsimp only
      split <;> exact hr.locks
    · rw [h] at hr; exact hr.locks
  | getln =>
    refine guarded_locks (fun s => ?_) s
    have hr := getlnLoop_reads L (s.unread.length + 1) [] s
    rcases h : getlnLoop L (s.unread.length + 1) [] s with ⟨_ | _ | _, s'⟩ <;> (rw [h] at hr; exact hr.locks)
  | read limit =>
    refine guarded_locks (fun s => ?_) s
    have hr := readLoop_reads L (total limit) (s.unread.length + 1) [] s
    rcases h : readLoop L (total limit) (s.unread.length + 1) [] s with ⟨_ | _ | _, s'⟩ <;> (rw [h] at hr; exact hr.locks)
  | putc value =>
    refine guarded_locks (fun s => ?_) s
    have hl := fputwc_locks L value.toNat s
    split
    · rfl
    split
    · rfl
    rcases h : fputwc L value.toNat s with ⟨_ | _, s'⟩ <;> (rw [h] at hl; exact hl)
  | puts t => exact guarded_locks (fun s => writeUtf8_locks L _ _ _ s) s
  | putln t =>
    refine guarded_locks (fun s => ?_) s
    have hl := writeUtf8_locks L (t.length + 1) t 0 s
    rcases h : writeUtf8 L (t.length + 1) t 0 s with ⟨n | _ | _, s'⟩
    · rw [h] at hl
      have hl' := fputwc_locks L 10 s'
      rcases h' : fputwc L 10 s' with ⟨_ | _, s''⟩ <;> (rw [h'] at hl'; simp only [h']; exact hl'.trans hl)
    all_goals (rw [h] at hl; exact hl)
  | write data =>
    refine guarded_locks (fun s => ?_) s
    dsimp only
    split <;> rfl

/-- **C127**, what comes of it: after an error, all calls throw exceptions, and each one locks the stream once more. -/
theorem C127_stuck (L : Lib) (wide : Bool) (cs : List Call) (hc : ∀ c ∈ cs, c.wide = wide) (s : Stream) (hw : s.wide ≠ some (!wide)) (he : s.err = true) :
    (∀ c : Call, c.wide = wide → ((c.run L (runs L cs s)).1 = true)) ∧ (runs L cs s).locks = s.locks + cs.length ∧ (runs L cs s).data = s.data := by
  have step : ∀ (c : Call) (s : Stream), c.wide = wide → s.wide ≠ some (!wide) → s.err = true →
      c.run L s = (true, { s with locks := s.locks + 1, wide := some wide }) := by
    intro c s hc hw he
    cases c with
    | getc => subst hc; show (thrown (getc L s).1, (getc L s).2) = _; unfold getc; rw [guarded_err (wide := true) hw he]; rfl
    | getln => subst hc; show (thrown (getln L s).1, (getln L s).2) = _; unfold getln; rw [guarded_err (wide := true) hw he]; rfl
    | read l => subst hc; show (thrown (read L l s).1, (read L l s).2) = _; unfold read; rw [guarded_err (wide := false) hw he]; rfl
    | putc v => subst hc; show (thrown (putc L v s).1, (putc L v s).2) = _; unfold putc; rw [guarded_err (wide := true) hw he]; rfl
    | puts t => subst hc; show (thrown (puts L t s).1, (puts L t s).2) = _; unfold puts; rw [guarded_err (wide := true) hw he]; rfl
    | putln t => subst hc; show (thrown (putln L t s).1, (putln L t s).2) = _; unfold putln; rw [guarded_err (wide := true) hw he]; rfl
    | write d => subst hc; show (thrown (write L d s).1, (write L d s).2) = _; unfold write; rw [guarded_err (wide := false) hw he]; rfl
  induction cs generalizing s with
  | nil =>
    refine ⟨fun c hc => ?_, rfl, rfl⟩
    rw [runs, step c s hc hw he]
  | cons c cs ih =>
    rw [runs, step c s (hc c (by simp)) hw he]
    obtain ⟨h1, h2, h3⟩ := ih (fun c hc' => hc c (by simp [hc'])) { s with locks := s.locks + 1, wide := some wide } (by show some wide ≠ _; cases wide <;> decide) he
    exact ⟨h1, by rw [h2, List.length_cons]; show s.locks + 1 + _ = _; omega, h3⟩

/-- A case of C127: three calls of `std.io.putln` after `std.io.putc` has failed. -/
example : runs ⟨fun i => i == 0, fun _ => 0, fun _ => 0⟩ [.putc 0x41, .putln [], .putln [], .putln []] { regular := false, data := [] } =
    { regular := false, data := [], wide := some true, err := true, locks := 3, calls := 1 } := by decide

/-! ### C128: input -/

/-- **C128** as one would like it: what `std.io.getc` has not read is read by `std.io.read`. -/
def C128_claim : Prop := ∀ (L : Lib) (s s' : Stream) (c : Nat), L.Calm → getc L s = (.ok (some c), s') → s'.unread ≠ [] →
  (read L (some 1) s').1 = .ok (some (s'.unread.take 1))

/-- **C128** does not hold: when an input is switched from characters to bytes, what has been read ahead from a pipe or a terminal is lost. -/
theorem C128_false : ¬ C128_claim := fun h => by
  have := h ⟨fun _ => false, fun _ => 0, fun _ => 4096⟩ { regular := false, data := [0x41, 0x42, 0x43] }
    { regular := false, data := [0x41, 0x42, 0x43], pos := 1, ahead := 2, wide := some true, calls := 1 } 0x41 (fun _ => rfl) (by decide) (by decide)
  revert this
  decide

/-- **C128** does not hold for regular files either: reading restarts from the beginning. -/
theorem C128_false_regular : ¬ C128_claim := fun h => by
  have := h ⟨fun _ => false, fun _ => 0, fun _ => 0⟩ { regular := true, data := [0x41, 0x42, 0x43] }
    { regular := true, data := [0x41, 0x42, 0x43], pos := 1, wide := some true, calls := 1 } 0x41 (fun _ => rfl) (by decide) (by decide)
  revert this
  decide

/-- **C128**, the part about `std.io.getc` that is true: it gives the next character, and leaves the rest. -/
theorem C128_getc_partial (L : Lib) (hL : L.Calm) (s : Stream) (hs : Ready true s) (cs : List Nat) (hc : ∀ c ∈ cs, Scalar c) (h : s.unread = text cs) :
    ∃ s', getc L s = (.ok cs.head?, s') ∧ s'.unread = text cs.tail ∧ Ready true s' ∧ Same s s' := by
  let t : Stream := { s with locks := s.locks + 1, wide := some true }
  have ht : t.unread = text cs := h
  have hr := fgetwc_reads L t
  unfold getc
  rw [guarded_ready hs]
  cases cs with
  | nil =>
    obtain ⟨s', h1, h2, h3⟩ := fgetwc_end hL ht
    rw [h1] at hr
    obtain ⟨h4, h5⟩ := reads_leave hr
    have he : s'.err = false := h3.trans hs.err
    refine ⟨leave s', ?_, h2, ⟨by rw [h5]; decide, he⟩, h4⟩
    rw [h1]
    dsimp only
    rw [he]
    rfl
  | cons c cs =>
    obtain ⟨bs, hb, hp⟩ := enc_some (hc c (by simp))
    rw [text, hb, Option.getD_some] at ht
    obtain ⟨s', h1, h2, h3⟩ := fgetwc_char hL hb hp ht
    rw [h1] at hr
    obtain ⟨h4, h5⟩ := reads_leave hr
    refine ⟨leave s', ?_, h2, ⟨by rw [h5]; decide, h3.trans hs.err⟩, h4⟩
    rw [h1]
    rfl

/-- **C128**, the part about `std.io.getln` that is true: it gives the next line without its line feed, and leaves the lines after it. -/
theorem C128_getln_partial (L : Lib) (hL : L.Calm) (s : Stream) (hs : Ready true s) (cs : List Nat) (hc : ∀ c ∈ cs, Scalar c) (h : s.unread = text cs) :
    ∃ s' rest, getln L s = (.ok ((lines cs).head?.map text), s') ∧ (∀ c ∈ rest, Scalar c) ∧ s'.unread = text rest ∧ lines rest = (lines cs).tail ∧
      Ready true s' ∧ Same s s' := by
  let t : Stream := { s with locks := s.locks + 1, wide := some true }
  have ht : t.unread = text cs := h
  have hlen := text_length cs hc
  have key : ∀ (line more : List Nat) (lf : Bool), (∀ c ∈ line, Scalar c ∧ c ≠ 10) → line.length ≤ (text cs).length →
      text cs = text line ++ (if lf then text (10 :: more) else []) →
      ∃ s', getln L s = (.ok (if !lf && text line = [] then none else some (text line)), s') ∧ s'.unread = (if lf then text more else []) ∧ Ready true s' ∧ Same s s' := by
    intro line more lf hl hle htx
    obtain ⟨s', h1, h2, h3, h4⟩ := getlnLoop_spec hL line (t.unread.length + 1) [] t more lf hl hs.err (by rw [ht]; omega) (by rw [ht, htx])
    obtain ⟨h5, h6⟩ := reads_leave h4
    refine ⟨leave s', ?_, h2, ⟨by rw [h6]; decide, h3⟩, h5⟩
    unfold getln
    rw [guarded_ready hs, h1]
    rfl
  have tne : ∀ {c : Nat} {l : List Nat}, Scalar c → text (c :: l) ≠ [] := by
    intro c l h e
    obtain ⟨bs, hb, hp⟩ := enc_some h
    rw [text, hb, Option.getD_some] at e
    have := congrArg List.length e
    simp only [List.length_append, List.length_nil] at this
    omega
  rcases split_line cs with rfl | ⟨hne, hn⟩ | ⟨line, more, rfl, hn⟩
  · obtain ⟨s', h1, h2, h3, h4⟩ := key [] [] false (by simp) (by simp) rfl
    exact ⟨s', [], h1, by simp, h2, rfl, h3, h4⟩
  · obtain ⟨s', h1, h2, h3, h4⟩ := key cs [] false (fun c hm => ⟨hc c hm, fun e => hn (e ▸ hm)⟩) hlen (by simp)
    refine ⟨s', [], ?_, by simp, h2, by rw [lines_last cs hne hn]; rfl, h3, h4⟩
    rw [h1, lines_last cs hne hn]
    cases cs with
    | nil => exact absurd rfl hne
    | cons c cs => simp [tne (hc c (by simp))]
  · obtain ⟨s', h1, h2, h3, h4⟩ := key line more true (fun c hm => ⟨hc c (by simp [hm]), fun e => hn (e ▸ hm)⟩)
      (by rw [List.length_append] at hlen; omega) (by rw [text_append]; rfl)
    refine ⟨s', more, ?_, fun c hm => hc c (by simp [hm]), h2, by rw [lines_lf line more hn]; rfl, h3, h4⟩
    rw [h1, lines_lf line more hn]
    simp

/-- **C128**: calls of `std.io.getln` give all lines in order, and null after them. -/
theorem C128_lines_partial (L : Lib) (hL : L.Calm) (n : Nat) (s : Stream) (hs : Ready true s) (cs : List Nat) (hc : ∀ c ∈ cs, Scalar c)
    (h : s.unread = text cs) : getlns L n s = (List.range n).map fun i => .ok ((lines cs)[i]?.map text) := by
  induction n generalizing s cs with
  | zero => rfl
  | succ n ih =>
    obtain ⟨s', rest, h1, h2, h3, h4, h5, _⟩ := C128_getln_partial L hL s hs cs hc h
    rw [getlns, h1, ih s' h5 rest h2 h3, List.range_succ_eq_map, List.map_cons, List.map_map, h4]
    congr 1
    · rw [List.head?_eq_getElem?]
    · congr 1
      funext i
      simp

/-- **C128**, the part about `std.io.read` that is true: it gives as many of the next bytes as it may, and null if there are none, or if it may give none
and the end of the input has been seen. -/
theorem C128_read_partial (L : Lib) (hL : L.Calm) (limit : Option Int) (s : Stream) (hs : Ready false s) :
    let n := (max 0 (min (limit.getD 2147483647) 2147483647)).toNat
    ∃ s', read L limit s = (.ok (if 0 < n ∧ s.unread = [] ∨ n = 0 ∧ s.eof = true then none else some (s.unread.take n)), s') ∧
      s'.unread = s.unread.drop n ∧ Ready false s' ∧ Same s s' := by
  intro n
  have hn : total limit = n := by
    show total limit = (max 0 (min (limit.getD 2147483647) 2147483647)).toNat
    unfold total
    dsimp only
    rw [show (2 ^ 31 - 1 : Int) = 2147483647 from rfl]
    split
    · omega
    · split <;> omega
  let t : Stream := { s with locks := s.locks + 1, wide := some false }
  have hu : t.unread = s.unread := rfl
  obtain ⟨m, s', h1, h2, h3, h4, h5, h6⟩ := readLoop_spec hL n (t.unread.length + 1) [] t hs.err (by simp) (by omega)
  obtain ⟨h7, h8⟩ := reads_leave h4
  simp only [List.nil_append, List.length_nil, Nat.sub_zero, hu] at h1 h2 h5 h6
  refine ⟨leave s', ?_, h2, ⟨by rw [h8]; decide, h3⟩, h7⟩
  unfold read
  rw [guarded_ready hs, hn]
  rw [show (s.unread.length + 1) = t.unread.length + 1 from rfl] at h1
  show (_, leave _) = _
  rw [show ({ s with locks := s.locks + 1, wide := some false } : Stream) = t from rfl, h1]
  dsimp only
  congr 2
  by_cases h0 : n = 0
  · obtain ⟨rfl, rfl⟩ := h6 h0
    have : t.eof = s.eof := rfl
    simp only [h0, List.take_zero, this]
    cases s.eof <;> simp
  · by_cases he : s.unread = []
    · have hm := h5 (by rw [he]; simp; omega)
      simp [he, hm, Nat.pos_of_ne_zero h0]
    · have : ¬ (s.unread.take n = []) := by
        rw [List.take_eq_nil_iff]; simp [h0, he]
      simp [he, h0, this]

/-- A case of C128: a text of three lines, the last of which has no line feed. -/
example : getlns ⟨fun _ => false, fun _ => 0, fun _ => 0⟩ 5 { regular := false, data := [0xC3, 0xA9, 10, 10, 0x42] } =
    [.ok (some [0xC3, 0xA9]), .ok (some []), .ok (some [0x42]), .ok none, .ok none] := by
  rw [C128_lines_partial _ (fun _ => rfl) 5 _ ⟨by decide, rfl⟩ [0xE9, 10, 10, 0x42] (by unfold Utf.Scalar; decide) (by decide)]
  decide

/-! ### C129: output -/

/-- **C129** as one would like it: `std.io.putc` of a string writes the string. -/
def C129_claim : Prop := ∀ (L : Lib) (s s' : Stream) (t : Bytes) (n : Nat), Ready true s → puts L t s = (.ok n, s') → s'.data = s.data ++ t

/-- **C129** does not hold: a string that is not UTF-8 need not be rejected, and then something else is written. -/
theorem C129_false : ¬ C129_claim := fun h => by
  have := h ⟨fun _ => false, fun _ => 0, fun _ => 0⟩ { regular := false, data := [] }
    { regular := false, data := [0xC3, 0x81], wide := some true, calls := 1 } [0xC3, 0x41] 1 ⟨by decide, rfl⟩ (by decide)
  revert this
  decide

/-- **C129** as one would like it for bytes: `std.io.write` adds to what has been written before. -/
def C129_claim_mixed : Prop := ∀ (L : Lib) (s s' : Stream) (d : Bytes), s.err = false → write L d s = (.ok (), s') → s'.data = s.data ++ d

/-- **C129** does not hold if characters have been written before: a regular file is truncated. -/
theorem C129_false_mixed : ¬ C129_claim_mixed := fun h => by
  have := h ⟨fun _ => false, fun _ => 0, fun _ => 0⟩ { regular := true, data := [0x41], wide := some true, calls := 1 }
    { regular := true, data := [0x42], wide := some false, calls := 3 } [0x42] rfl (by decide)
  revert this
  decide

/-- **C129**, the part that is true: if lead bytes of a string are followed by continuation bytes only, then either all of it is written, and it is
UTF-8, and the number of its characters is returned; or an exception is thrown, because it is not UTF-8 or because the C library fails, and a
part of it from its beginning has been written. -/
theorem C129_puts_partial (L : Lib) (s : Stream) (hs : Ready true s) (t : Bytes) (ht : TrailOk t) :
    (∃ cs s', puts L t s = (.ok cs.length, s') ∧ (∀ c ∈ cs, Scalar c) ∧ text cs = t ∧ Adds s s' t ∧ Ready true s') ∨
    (∃ p s', puts L t s = (.throw, s') ∧ p <+: t ∧ Adds s s' p ∧ (¬ WellFormed t ∨ ¬ L.Calm)) := by
  unfold puts
  rw [guarded_ready hs]
  rcases writeUtf8_spec L (t.length + 1) t 0 { s with locks := s.locks + 1, wide := some true } ht (Nat.lt_succ_self _) with
    ⟨m, s', h1, h2, h3, cs, h4, h5, h6⟩ | ⟨p, s', h1, h2, h3, h4⟩
  · obtain ⟨h7, h8⟩ := writes_leave h2
    refine .inl ⟨cs, leave s', ?_, h4, h5, h7, ⟨by rw [h8]; decide, h3.trans hs.err⟩⟩
    rw [h1, h6, Nat.zero_add]
  · refine .inr ⟨p, leave s', ?_, h2, (writes_leave h3).1, h4⟩
    rw [h1]

/-- **C129**, likewise for `std.io.putln`, which adds a line feed, and counts it. -/
theorem C129_putln_partial (L : Lib) (s : Stream) (hs : Ready true s) (t : Bytes) (ht : TrailOk t) :
    (∃ cs s', putln L t s = (.ok (cs.length + 1), s') ∧ (∀ c ∈ cs, Scalar c) ∧ text cs = t ∧ Adds s s' (t ++ [10]) ∧ Ready true s') ∨
    (∃ p s', putln L t s = (.throw, s') ∧ p <+: t ∧ Adds s s' p ∧ (¬ WellFormed t ∨ ¬ L.Calm)) := by
  unfold putln
  rw [guarded_ready hs]
  rcases writeUtf8_spec L (t.length + 1) t 0 { s with locks := s.locks + 1, wide := some true } ht (Nat.lt_succ_self _) with
    ⟨m, s', h1, h2, h3, cs, h4, h5, h6⟩ | ⟨p, s', h1, h2, h3, h4⟩
  · rw [h1]
    dsimp only
    rcases h : fputwc L 10 s' with ⟨_ | _, s''⟩
    · have h2' := h2.trans (fputwc_fail h)
      rw [List.append_nil] at h2'
      refine .inr ⟨t, leave s'', rfl, List.prefix_refl t, (writes_leave h2').1, .inr fun hL => ?_⟩
      obtain ⟨x, hx⟩ := fputwc_calm hL (s := s') (c := 10) (bs := [10]) (by decide)
      rw [h] at hx
      cases hx
    · obtain ⟨h9, h10⟩ := fputwc_ok (bs := [10]) (by decide) h
      obtain ⟨h7, h8⟩ := writes_leave (h2.trans h9)
      refine .inl ⟨cs, leave s'', ?_, h4, h5, h7, ⟨by rw [h8]; decide, (h10.trans h3).trans hs.err⟩⟩
      rw [h6, Nat.zero_add]
  · refine .inr ⟨p, leave s', ?_, h2, (writes_leave h3).1, h4⟩
    rw [h1]

/-- **C129**, for `std.io.putc` of an integer: the character is written if there is one, and nothing otherwise. -/
theorem C129_putc (L : Lib) (s : Stream) (hs : Ready true s) (v : Int) :
    (∃ (c : Nat) (bs : Bytes) (s' : Stream), v = (c : Int) ∧ utf8Encode c = some bs ∧ putc L v s = (.ok 1, s') ∧ Adds s s' bs ∧ Ready true s') ∨
    (∃ s', putc L v s = (.throw, s') ∧ Adds s s' [] ∧ ((¬ ∃ c : Nat, Scalar c ∧ v = (c : Int)) ∨ ¬ L.Calm)) := by
  let t : Stream := { s with locks := s.locks + 1, wide := some true }
  unfold putc
  rw [guarded_ready hs]
  by_cases hv : v < 0 ∨ 0x10FFFF < v
  · refine .inr ⟨leave t, ?_, (writes_leave (Writes.refl t)).1, .inl ?_⟩
    · rw [if_pos hv]
    · rintro ⟨c, hc, rfl⟩
      unfold Utf.Scalar at hc
      omega
  rw [if_neg hv]
  have hvn : v = (v.toNat : Int) := by omega
  cases he : utf8Encode v.toNat with
  | none =>
    refine .inr ⟨leave t, rfl, (writes_leave (Writes.refl t)).1, .inl ?_⟩
    rintro ⟨c, hc, h⟩
    have : v.toNat = c := by omega
    rw [this] at he
    obtain ⟨bs, hb⟩ := (Utf.C07_encode_domain c).2 hc
    rw [hb] at he
    cases he
  | some bs =>
    dsimp only
    rcases h : fputwc L v.toNat t with ⟨_ | _, s'⟩
    · refine .inr ⟨leave s', rfl, (writes_leave (fputwc_fail h)).1, .inr fun hL => ?_⟩
      obtain ⟨x, hx⟩ := fputwc_calm hL (s := t) he
      rw [h] at hx
      cases hx
    · obtain ⟨h9, h10⟩ := fputwc_ok he h
      obtain ⟨h7, h8⟩ := writes_leave h9
      exact .inl ⟨v.toNat, bs, leave s', hvn, he, rfl, h7, ⟨by rw [h8]; decide, h10.trans hs.err⟩⟩

/-- **C129**, for `std.io.write`: all bytes are written, or an exception is thrown and some of them, but not all, from the beginning. -/
theorem C129_write_partial (L : Lib) (s : Stream) (hs : Ready false s) (d : Bytes) :
    (∃ s', write L d s = (.ok (), s') ∧ Adds s s' d ∧ Ready false s') ∨
    (∃ p s', write L d s = (.throw, s') ∧ p <+: d ∧ p ≠ d ∧ Adds s s' p ∧ ¬ L.Calm) := by
  unfold write
  rw [guarded_ready hs]
  dsimp only
  by_cases h : L.fails s.calls = true ∧ d ≠ []
  · rw [if_pos h]
    refine .inr ⟨_, _, rfl, List.take_prefix _ d, ?_, ⟨rfl, rfl, by simp [leave]⟩, fun hL => ?_⟩
    · intro e
      have hl := congrArg List.length e
      have := List.length_pos_iff.2 h.2
      rw [List.length_take] at hl
      omega
    · have := h.1
      rw [hL] at this
      cases this
  · rw [if_neg h]
    exact .inl ⟨_, rfl, ⟨rfl, rfl, by simp [leave]⟩, ⟨by simp [leave], hs.err⟩⟩

/-- **C129** and **C128** together: lines that are written by `std.io.putln` are read by `std.io.getln`. -/
theorem C129_round_trip_partial (L L' : Lib) (hL : L.Calm) (hL' : L'.Calm) (ls : List (List Nat)) (hl : ∀ l ∈ ls, ∀ c ∈ l, Scalar c ∧ c ≠ 10)
    (out : Stream) (ho : Ready true out) (he : out.data = []) (inp : Stream) (hi : Ready true inp)
    (hd : inp.unread = (putlns L (ls.map text) out).data) (n : Nat) :
    getlns L' n inp = (List.range n).map fun i => .ok (ls[i]?.map text) := by
  have wf : ∀ l : List Nat, (∀ c ∈ l, Scalar c) → WellFormed (text l) := by
    intro l
    induction l with
    | nil => intro _; exact .nil
    | cons c l ih =>
      intro h
      obtain ⟨bs, hb, _⟩ := enc_some (h c (by simp))
      rw [text, hb]
      exact .cons bs _ (Utf.C07_encode_well_formed c bs hb) (ih fun x hx => h x (by simp [hx]))
  have key : ∀ (ls : List (List Nat)) (out : Stream), (∀ l ∈ ls, ∀ c ∈ l, Scalar c ∧ c ≠ 10) → Ready true out →
      (putlns L (ls.map text) out).data = out.data ++ text (ls.flatMap fun l => l ++ [10]) := by
    intro ls
    induction ls with
    | nil => intro out _ _; simp [putlns, text]
    | cons l ls ih =>
      intro out hl ho
      have hw := wf l fun c hc => (hl l (by simp) c hc).1
      rcases C129_putln_partial L out ho (text l) (wf_trailOk hw) with ⟨cs, s', h1, _, _, h4, h5⟩ | ⟨p, s', _, _, _, h4⟩
      · rw [List.map_cons, putlns, h1, ih s' (fun x hx => hl x (by simp [hx])) h5, h4.data, List.flatMap_cons, text_append, text_append]
        simp [text, utf8Encode]
      · rcases h4 with h4 | h4
        · exact absurd hw h4
        · exact absurd hL h4
  have hlines : ∀ ls : List (List Nat), (∀ l ∈ ls, ∀ c ∈ l, Scalar c ∧ c ≠ 10) → lines (ls.flatMap fun l => l ++ [10]) = ls := by
    intro ls
    induction ls with
    | nil => intro _; rfl
    | cons l ls ih =>
      intro h
      rw [List.flatMap_cons, List.append_assoc, List.singleton_append, lines_lf l _ fun hm => (h l (by simp) 10 hm).2 rfl, ih fun x hx => h x (by simp [hx])]
  rw [key ls out hl ho, he, List.nil_append] at hd
  rw [C128_lines_partial L' hL' n inp hi _ ?_ hd, hlines ls hl]
  intro c hc
  obtain ⟨l, h1, h2⟩ := List.mem_flatMap.1 hc
  rcases List.mem_append.1 h2 with h2 | h2
  · exact (hl l h1 c h2).1
  · rw [List.mem_singleton.1 h2]; unfold Utf.Scalar; decide

/-- A case of C129: `é` and a line feed. -/
example : putln ⟨fun _ => false, fun _ => 0, fun _ => 0⟩ [0xC3, 0xA9] { regular := false, data := [0x41] } =
    (.ok 2, { regular := false, data := [0x41, 0xC3, 0xA9, 10], wide := some true, calls := 2 }) := by decide

/-- A case of the round trip: two lines, one of which is empty. -/
example : getlns ⟨fun _ => false, fun _ => 0, fun _ => 0⟩ 3 { regular := true, data := [0xC3, 0xA9, 10, 10] } = [.ok (some [0xC3, 0xA9]), .ok (some []), .ok none] := by
  rw [C129_round_trip_partial ⟨fun _ => false, fun _ => 0, fun _ => 0⟩ _ (fun _ => rfl) (fun _ => rfl) [[0xE9], []] (by unfold Utf.Scalar; decide) { regular := false, data := [] }
    ⟨by decide, rfl⟩ rfl { regular := true, data := [0xC3, 0xA9, 10, 10] } ⟨by decide, rfl⟩ (by decide) 3]
  decide

end Asteria.Io
