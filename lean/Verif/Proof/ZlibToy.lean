import Verif.Spec.Zlib

/-!
# Libraries that keep the promises

A simple format, a compressor and a decompressor for it, which do all that `Verif.Spec.Zlib` asks for: each byte of the data is preceded by 1, and 0 is at
the end.  And a decompressor of another format, which does all that zlib.h asks for, but is not `Prompt`.
-/

namespace Asteria.Zlib.Toy

/-- `d` in this format but without the end. -/
def enc : Bytes → Bytes
  | [] => []
  | b :: d => 1 :: b :: enc d

/-- What the beginning of a stream stands for. -/
def shown : Bytes → Bytes
  | 1 :: b :: r => b :: shown r
  | _ => []

theorem shown_enc (d t : Bytes) (ht : ∀ b r, t ≠ 1 :: b :: r) : shown (enc d ++ t) = d := by
  induction d with
  | nil =>
    show shown t = []
    unfold shown
    split
    · exact absurd rfl (ht _ _)
    · rfl
  | cons b d ih =>
    show b :: shown (enc d ++ t) = _
    rw [ih]

theorem enc_append (a b : Bytes) : enc (a ++ b) = enc a ++ enc b := by
  induction a with
  | nil => rfl
  | cons x a ih => show 1 :: x :: enc (a ++ b) = _; rw [ih]; rfl

theorem enc_prefix_end : ∀ (d e t : Bytes), enc d ++ [0] <+: enc e ++ t → ∃ r, t = 0 :: r ∧ d = e ∨ ∃ b r, t = 1 :: b :: r
  | [], [], t, h => by
    cases t with
    | nil => simp [enc] at h
    | cons x t =>
      have : (0 : UInt8) = x := by have := h; simp [enc] at this; exact this
      exact ⟨t, .inl ⟨by rw [this], rfl⟩⟩
  | [], e :: es, t, h => by simp [enc] at h
  | d :: ds, [], t, h => by
    obtain ⟨r, h⟩ := h
    exact ⟨[], .inr ⟨d, enc ds ++ [0] ++ r, by simpa [enc] using h.symm⟩⟩
  | d :: ds, e :: es, t, h => by
    have h1 : d = e ∧ enc ds ++ [0] <+: enc es ++ t := by simpa [enc] using h
    obtain ⟨r, h2⟩ := enc_prefix_end ds es t h1.2
    refine ⟨r, ?_⟩
    rcases h2 with ⟨h2, h3⟩ | h2
    · exact .inl ⟨h2, by rw [h1.1, h3]⟩
    · exact .inr h2

/-- The format. -/
def format : Format where
  ends z := ∃ d, z = enc d ++ [0]
  shown := shown
  prefixFree := by
    rintro z z' ⟨d, rfl⟩ ⟨e, rfl⟩ h
    obtain ⟨r, h | h⟩ := enc_prefix_end d e [0] h
    · rw [h.2]
    · obtain ⟨b, r, h⟩ := h
      cases h

theorem shown_end (d : Bytes) : shown (enc d ++ [0]) = d := shown_enc d [0] (fun _ _ h => by cases h)

/-! ### The compressor -/

/-- What has been compressed, what has not been output yet, and whether the end has been marked. -/
structure DState where
  took : Bytes
  gave : Bytes
  queue : Bytes
  closed : Bool
  inv : gave ++ queue = enc took ++ (if closed then [0] else [])

/-- More input. -/
def DState.feed (s : DState) (inp : Bytes) (h : s.closed = false) : DState :=
  ⟨s.took ++ inp, s.gave, s.queue ++ enc inp, false, by have := s.inv; rw [h] at this; simp at this; rw [← List.append_assoc, this, enc_append]; simp⟩

/-- No more input. -/
def DState.close (s : DState) (h : s.closed = false) : DState :=
  ⟨s.took, s.gave, s.queue ++ [0], true, by have := s.inv; rw [h] at this; simp at this; rw [← List.append_assoc, this]; simp⟩

/-- Output. -/
def DState.put (s : DState) (n : Nat) : DState :=
  ⟨s.took, s.gave ++ s.queue.take n, s.queue.drop n, s.closed, by rw [List.append_assoc, List.take_append_drop]; exact s.inv⟩

/-- The compressor. -/
def deflateCall (s : DState) (inp : Bytes) (n : Nat) (f : Flush) : Answer DState :=
  if h : s.closed = false then
    let s := s.feed inp h
    match f with
    | .no => ⟨s.put n, inp.length, s.queue.take n, .ok⟩
    | .sync => ⟨s.put n, inp.length, s.queue.take n, if s.queue = [] then .bufError else .ok⟩
    | .finish => ⟨(s.close rfl).put n, inp.length, (s.close rfl).queue.take n, if (s.close rfl).queue.length ≤ n then .streamEnd else .ok⟩
  else
    match f with
    | .finish => ⟨s.put n, 0, s.queue.take n, if s.queue.length ≤ n then .streamEnd else .ok⟩
    | _ => ⟨s, 0, [], .other⟩

/-- The library. -/
def deflater : Lib DState := ⟨⟨[], [], [], false, rfl⟩, deflateCall⟩

/-- How often there may be nothing but output. -/
def dTodo (s : DState) (_ : Flush) : Nat := if s.closed then s.queue.length else s.queue.length + 2

theorem deflater_counts : Counts deflater DState.took DState.gave where
  took_init := rfl
  gave_init := rfl
  consumed_le s inp n f := by
    show (deflateCall s inp n f).consumed ≤ _
    unfold deflateCall
    split <;> cases f <;> simp
  produced_le s inp n f := by
    show (deflateCall s inp n f).produced.length ≤ _
    unfold deflateCall
    split <;> cases f <;> simp <;> omega
  took_call s inp n f := by
    show (deflateCall s inp n f).next.took = _ ++ inp.take (deflateCall s inp n f).consumed
    unfold deflateCall
    split <;> cases f <;> simp [DState.put, DState.feed, DState.close]
  gave_call s inp n f := by
    show (deflateCall s inp n f).next.gave = _ ++ (deflateCall s inp n f).produced
    unfold deflateCall
    split <;> cases f <;> simp [DState.put, DState.feed, DState.close]

/-- The compressor does what zlib.h promises. -/
theorem deflater_ok : Deflates format deflater DState.took DState.gave (fun s => s.closed = true) (fun s => s.closed = true ∧ s.queue = []) dTodo where
  counts := deflater_counts
  open_init h := by cases h
  no_ok s inp n h hi hn := by
    have h' : s.closed = false := by simpa using h
    show (deflateCall s inp n .no).code = .ok ∧ ¬ (deflateCall s inp n .no).next.closed = true ∧ ((deflateCall s inp n .no).consumed = 0 → _)
    unfold deflateCall
    rw [dif_pos h']
    exact ⟨rfl, by simp [DState.put, DState.feed], fun h0 => absurd (List.length_eq_zero_iff.1 h0) hi⟩
  sync_ok s n h hn := by
    have h' : s.closed = false := by simpa using h
    show ¬ (deflateCall s [] n .sync).next.closed = true ∧ ((deflateCall s [] n .sync).code = .ok ∧ dTodo (deflateCall s [] n .sync).next .sync < _ ∨
      (deflateCall s [] n .sync).code = .bufError)
    unfold deflateCall
    rw [dif_pos h']
    refine ⟨by simp [DState.put, DState.feed], ?_⟩
    by_cases hq : s.queue = []
    · exact .inr (by simp [DState.feed, enc, hq])
    · refine .inl ⟨by simp [DState.feed, enc, hq], ?_⟩
      have := List.length_pos_iff.2 hq
      simp [dTodo, DState.put, DState.feed, enc, h']
      omega
  sync_all s n h hn hb := by
    have h' : s.closed = false := by simpa using h
    revert hb
    show (deflateCall s [] n .sync).code = .bufError → format.shown (deflateCall s [] n .sync).next.gave = (deflateCall s [] n .sync).next.took
    unfold deflateCall
    rw [dif_pos h']
    intro hb
    have hq : s.queue = [] := by
      simp [DState.feed, enc] at hb
      exact hb
    have hi := s.inv
    rw [hq, h'] at hi
    simp at hi
    show shown (s.gave ++ (s.queue ++ enc []).take n) = s.took ++ []
    rw [hq, hi]
    simpa [enc] using shown_enc s.took [] (fun _ _ h => by cases h)
  finish_ok s n hn := by
    show (deflateCall s [] n .finish).code = .ok ∧ dTodo (deflateCall s [] n .finish).next .finish < _ ∨ (deflateCall s [] n .finish).code = .streamEnd
    unfold deflateCall
    by_cases h' : s.closed = false
    · rw [dif_pos h']
      by_cases hl : s.queue.length + 1 ≤ n
      · exact .inr (by simp [DState.feed, DState.close, enc, hl])
      · refine .inl ⟨by simp [DState.feed, DState.close, enc, hl], ?_⟩
        simp [dTodo, DState.put, DState.feed, DState.close, enc, h']
        omega
    · rw [dif_neg h']
      have h'' : s.closed = true := by simpa using h'
      by_cases hl : s.queue.length ≤ n
      · exact .inr (by simp [hl])
      · refine .inl ⟨by simp [hl], ?_⟩
        simp [dTodo, DState.put, h'']
        omega
  finish_end s n hn hb := by
    revert hb
    show (deflateCall s [] n .finish).code = .streamEnd → (deflateCall s [] n .finish).next.closed = true ∧ (deflateCall s [] n .finish).next.queue = []
    unfold deflateCall
    by_cases h' : s.closed = false
    · rw [dif_pos h']
      intro hb
      simp [DState.feed, DState.close, enc] at hb
      exact ⟨rfl, List.drop_eq_nil_iff.2 (by simp [DState.feed, DState.close, enc]; exact hb)⟩
    · rw [dif_neg h']
      intro hb
      simp at hb
      exact ⟨by simpa [DState.put] using h', List.drop_eq_nil_iff.2 hb⟩
  done_stream s h := by
    have hi := s.inv
    rw [h.1, h.2] at hi
    simp at hi
    exact ⟨h.1, ⟨s.took, hi⟩, by rw [hi]; exact shown_end _⟩
  done_finish s n h hn := by
    show (deflateCall s [] n .finish).code = .streamEnd ∧ (deflateCall s [] n .finish).produced = []
    unfold deflateCall
    rw [dif_neg (by rw [h.1]; decide)]
    simp [h.2]
  done_other s inp n f h hf := by
    show (deflateCall s inp n f).code = .other ∨ _
    unfold deflateCall
    rw [dif_neg (by rw [h.1]; decide)]
    cases f with
    | finish => exact absurd rfl hf
    | no => exact .inl rfl
    | sync => exact .inl rfl

/-! ### The decompressor -/

/-- Where the decompressor is in the input. -/
inductive At where
  | mark
  | byte
  | over
deriving DecidableEq

/-- What has been read since the last byte of data. -/
def At.tail : At → Bytes
  | mark => []
  | byte => [1]
  | over => [0]

/-- The data so far, and where the decompressor is. -/
structure IState where
  data : Bytes
  pos : At

/-- All that has been read. -/
def IState.took (s : IState) : Bytes := enc s.data ++ s.pos.tail

/-- The decompressor, which reads one byte at a time. -/
def inflateCall (s : IState) (inp : Bytes) (n : Nat) (f : Flush) : Answer IState :=
  match s.pos, inp with
  | .over, _ => ⟨s, 0, [], .streamEnd⟩
  | _, [] => ⟨s, 0, [], .bufError⟩
  | .mark, b :: _ =>
    if b = 0 then ⟨⟨s.data, .over⟩, 1, [], .streamEnd⟩
    else if b = 1 then ⟨⟨s.data, .byte⟩, 1, [], if f = .finish then .bufError else .ok⟩
    else ⟨s, 0, [], .other⟩
  | .byte, b :: _ =>
    if n = 0 then ⟨s, 0, [], .bufError⟩
    else ⟨⟨s.data ++ [b], .mark⟩, 1, [b], if f = .finish then .bufError else .ok⟩

/-- The library. -/
def inflater : Lib IState := ⟨⟨[], .mark⟩, inflateCall⟩

theorem inflater_counts : Counts inflater IState.took IState.data where
  took_init := rfl
  gave_init := rfl
  consumed_le s inp n f := by
    show (inflateCall s inp n f).consumed ≤ _
    unfold inflateCall
    split
    · simp
    · simp
    · split <;> try split
      all_goals simp
    · split <;> simp
  produced_le s inp n f := by
    show (inflateCall s inp n f).produced.length ≤ _
    unfold inflateCall
    split
    · simp
    · simp
    · split <;> try split
      all_goals simp
    · split
      · simp
      · simp; omega
  took_call s inp n f := by
    show (inflateCall s inp n f).next.took = _ ++ inp.take (inflateCall s inp n f).consumed
    unfold inflateCall
    split
    · simp
    · simp
    · next hp =>
      split
      · next h => simp [IState.took, hp, At.tail, h]
      · split
        · next h => simp [IState.took, hp, At.tail, h]
        · simp
    · next hp =>
      split
      · simp
      · simp [IState.took, hp, At.tail, enc_append, enc]
  gave_call s inp n f := by
    show (inflateCall s inp n f).next.data = _ ++ (inflateCall s inp n f).produced
    unfold inflateCall
    split
    · simp
    · simp
    · split <;> try split
      all_goals simp
    · split <;> simp

theorem ends_over (s : IState) (h : format.ends s.took) : s.pos = .over := by
  obtain ⟨d, h⟩ := h
  have h1 : enc d ++ [0] <+: enc s.data ++ s.pos.tail := by rw [← h]; exact List.prefix_refl _
  obtain ⟨r, h2 | ⟨b, r, h2⟩⟩ := enc_prefix_end _ _ _ h1
  · cases hp : s.pos <;> rw [hp] at h2 <;> first | rfl | (cases h2.1)
  · cases hp : s.pos <;> rw [hp] at h2 <;> cases h2

theorem shown_took (s : IState) : shown s.took = s.data := shown_enc _ _ (fun b r h => by cases hp : s.pos <;> rw [hp] at h <;> cases h)

theorem enc_inj : ∀ (d e t u : Bytes) (x : UInt8), x ≠ 1 → enc d ++ x :: t <+: enc e ++ [0] → x = 0 ∧ d = e
  | [], [], t, u, x, hx, h => by simp [enc] at h; exact ⟨h.1, rfl⟩
  | [], e :: es, t, u, x, hx, h => by simp [enc] at h; exact absurd h.1 hx
  | d :: ds, [], t, u, x, hx, h => by simp [enc] at h
  | d :: ds, e :: es, t, u, x, hx, h => by
    have h1 : d = e ∧ enc ds ++ x :: t <+: enc es ++ [0] := by simpa [enc] using h
    obtain ⟨h2, h3⟩ := enc_inj ds es t u x hx h1.2
    exact ⟨h2, by rw [h1.1, h3]⟩

/-- The decompressor does what zlib.h promises. -/
theorem inflater_ok : Inflates format inflater IState.took IState.data (fun s => s.pos = .over) (fun _ => 0) where
  counts := inflater_counts
  progress s inp n f hn := by
    show (inflateCall s inp n f).code = .ok → (inflateCall s inp n f).consumed = 0 → _
    unfold inflateCall
    split
    · intro h; cases h
    · intro h; cases h
    · split
      · intro h; cases h
      · split
        · intro _ h; cases h
        · intro h; cases h
    · split
      · intro h; cases h
      · intro _ h; cases h
  stream_end s inp n f hn := by
    show (inflateCall s inp n f).code = .streamEnd → (inflateCall s inp n f).next.pos = .over
    unfold inflateCall
    split
    · next h => exact fun _ => h
    · intro h; cases h
    · split
      · exact fun _ => rfl
      · split
        · dsimp only; split <;> intro h <;> cases h
        · intro h; cases h
    · split
      · intro h; cases h
      · dsimp only; split <;> intro h <;> cases h
  done_stream s h := ⟨⟨s.data, by unfold IState.took; rw [h]; rfl⟩, shown_took s⟩
  done_stays s inp n f h := by
    show (inflateCall s inp n f).code = .streamEnd ∧ (inflateCall s inp n f).consumed = 0 ∧ (inflateCall s inp n f).produced = []
    unfold inflateCall
    rw [h]
    exact ⟨rfl, rfl, rfl⟩
  no_ok s inp n z hn hi hz hp hc := by
    cases inp with
    | nil => exact absurd rfl hi
    | cons b r =>
      show ((inflateCall s (b :: r) n .no).code = .ok ∨ (inflateCall s (b :: r) n .no).code = .streamEnd) ∧ (inflateCall s (b :: r) n .no).next.took <+: z
      obtain ⟨d, rfl⟩ := hz
      cases hpos : s.pos with
      | over =>
        unfold inflateCall
        rw [hpos]
        exact ⟨.inr rfl, hp⟩
      | mark =>
        have hs : s.took = enc s.data := by unfold IState.took; rw [hpos]; simp [At.tail]
        rw [hs] at hp hc
        have hb : b = 0 ∧ s.data = d ∨ b = 1 ∧ enc s.data ++ [1] <+: enc d ++ [0] := by
          by_cases h1 : b = 1
          · refine .inr ⟨h1, ?_⟩
            subst h1
            rcases hc with hc | hc
            · exact (List.prefix_append (enc s.data ++ [1]) r).trans (by simpa using hc)
            · have h2 : enc s.data ++ [1] <+: enc s.data ++ 1 :: r := ⟨r, by simp⟩
              rcases List.prefix_or_prefix_of_prefix h2 hc with h3 | h3
              · exact h3
              · obtain ⟨_, h4 | ⟨_, _, h4⟩⟩ := enc_prefix_end _ _ _ h3
                · cases h4.1
                · cases h4
          · refine .inl ?_
            rcases hc with hc | hc
            · exact enc_inj _ _ r [] b h1 hc
            · obtain ⟨_, h4 | ⟨_, _, h4⟩⟩ := enc_prefix_end _ _ _ hc
              · cases h4.1; exact ⟨rfl, h4.2.symm⟩
              · cases h4; exact absurd rfl h1
        unfold inflateCall
        rw [hpos]
        dsimp only
        rcases hb with ⟨rfl, h2⟩ | ⟨rfl, h2⟩
        · rw [if_pos rfl]
          exact ⟨.inr rfl, by show enc s.data ++ [0] <+: _; rw [h2]; exact List.prefix_refl _⟩
        · rw [if_neg (by decide), if_pos rfl]
          exact ⟨.inl rfl, h2⟩
      | byte =>
        have hs : s.took = enc s.data ++ [1] := by unfold IState.took; rw [hpos]; simp [At.tail]
        rw [hs] at hp hc
        unfold inflateCall
        rw [hpos]
        dsimp only
        rw [if_neg (by omega)]
        refine ⟨.inl rfl, ?_⟩
        show enc (s.data ++ [b]) ++ [] <+: _
        rw [enc_append, List.append_nil]
        have e1 : enc s.data ++ enc [b] = enc s.data ++ [1] ++ [b] := by simp [enc]
        rw [e1]
        rcases hc with hc | hc
        · exact (List.prefix_append (enc s.data ++ [1] ++ [b]) r).trans (by simpa using hc)
        · have h2 : enc s.data ++ [1] ++ [b] <+: enc s.data ++ [1] ++ b :: r := ⟨r, by simp⟩
          rcases List.prefix_or_prefix_of_prefix h2 hc with h3 | h3
          · exact h3
          · rw [← e1, ← enc_append] at h3
            obtain ⟨_, h4 | ⟨_, _, h4⟩⟩ := enc_prefix_end d (s.data ++ [b]) [] (by simpa using h3)
            · cases h4.1
            · cases h4
  sync_ok s n z hn hz hp := by
    show (inflateCall s [] n .sync).code ≠ .other
    unfold inflateCall
    cases s.pos <;> exact fun h => by cases h
  sync_all s n z hn hz hp hb := by
    show (inflateCall s [] n .sync).next.data = shown (inflateCall s [] n .sync).next.took
    exact (shown_took _).symm
  finish_ok s n hn h := by
    have h1 := ends_over s h
    show (inflateCall s [] n .finish).code = if (shown s.took).length ≤ s.data.length + n then _ else _
    rw [shown_took, if_pos (by omega)]
    unfold inflateCall
    rw [h1]
  finish_less s n hn := by
    show (inflateCall s [] n .finish).code ≠ .ok
    unfold inflateCall
    cases s.pos <;> exact fun h => by cases h

theorem inflater_prompt : Prompt format IState.took IState.data := fun s _ => by
  show (shown s.took).length ≤ _
  rw [shown_took]
  omega

/-! ### A decompressor that is not prompt -/

/-- A format in which one byte stands for a hundred times as many zeros. -/
def runs : Format where
  ends z := z.length = 1
  shown z := match z with
    | [k] => List.replicate (100 * k.toNat) 0
    | _ => []
  prefixFree z z' h h' hp := hp.eq_of_length (by rw [h, h'])

/-- The byte, once it has been read, and how many zeros there have been. -/
inductive RState where
  | fresh
  | got (k : UInt8) (j : Nat)

/-- All that has been read. -/
def RState.took : RState → Bytes
  | fresh => []
  | got k _ => [k]

/-- All that has been output. -/
def RState.gave : RState → Bytes
  | fresh => []
  | got k j => List.replicate (min j (100 * k.toNat)) 0

/-- All zeros have been output. -/
def RState.done : RState → Prop
  | fresh => False
  | got k j => 100 * k.toNat ≤ j

/-- The zeros that have not been output. -/
def RState.todo : RState → Nat
  | fresh => 0
  | got k j => 100 * k.toNat - j

/-- The decompressor, which outputs as much as possible. -/
def runCall (s : RState) (inp : Bytes) (n : Nat) (f : Flush) : Answer RState :=
  match s, inp with
  | .fresh, [] => ⟨.fresh, 0, [], .bufError⟩
  | .fresh, k :: _ => ⟨.got k (min n (100 * k.toNat)), 1, List.replicate (min n (100 * k.toNat)) 0,
      if 100 * k.toNat ≤ n then .streamEnd else if f = .finish then .bufError else .ok⟩
  | .got k j, _ => ⟨.got k (j + min n (100 * k.toNat - j)), 0, List.replicate (min n (100 * k.toNat - j)) 0,
      if 100 * k.toNat - j ≤ n then .streamEnd else if f = .finish then .bufError else .ok⟩

/-- The library. -/
def runner : Lib RState := ⟨.fresh, runCall⟩

/-- The decompressor does what zlib.h promises. -/
theorem runner_ok : Inflates runs runner RState.took RState.gave RState.done RState.todo where
  counts := {
    took_init := rfl
    gave_init := rfl
    consumed_le := fun s inp n f => by cases s <;> cases inp <;> simp [runner, runCall]
    produced_le := fun s inp n f => by cases s <;> cases inp <;> simp [runner, runCall] <;> omega
    took_call := fun s inp n f => by cases s <;> cases inp <;> simp [runner, runCall, RState.took]
    gave_call := fun s inp n f => by
      cases s <;> cases inp <;> simp [runner, runCall, RState.gave] <;> omega }
  progress s inp n f hn := by
    cases s with
    | fresh => cases inp <;> simp [runner, runCall]
    | got k j =>
      show (if 100 * k.toNat - j ≤ n then Code.streamEnd else if f = .finish then .bufError else .ok) = .ok → _ → 100 * k.toNat - (j + min n (100 * k.toNat - j)) < 100 * k.toNat - j
      split
      · intro h; cases h
      · intros; omega
  stream_end s inp n f hn := by
    cases s with
    | fresh =>
      cases inp with
      | nil => intro h; cases h
      | cons k r =>
        show (if 100 * k.toNat ≤ n then Code.streamEnd else if f = .finish then .bufError else .ok) = .streamEnd → 100 * k.toNat ≤ min n (100 * k.toNat)
        split
        · intro _; omega
        · split <;> intro h <;> cases h
    | got k j =>
      show (if 100 * k.toNat - j ≤ n then Code.streamEnd else if f = .finish then .bufError else .ok) = .streamEnd → 100 * k.toNat ≤ j + min n (100 * k.toNat - j)
      split
      · intro _; omega
      · split <;> intro h <;> cases h
  done_stream s h := by
    cases s with
    | fresh => exact h.elim
    | got k j => exact ⟨rfl, by show List.replicate (100 * k.toNat) 0 = List.replicate (min j (100 * k.toNat)) 0; rw [Nat.min_eq_right h]⟩
  done_stays s inp n f h := by
    cases s with
    | fresh => exact h.elim
    | got k j =>
      have h' : 100 * k.toNat - j = 0 := Nat.sub_eq_zero_of_le h
      simp [runner, runCall, h']
  no_ok s inp n z hn hi hz hp hc := by
    obtain ⟨x, rfl⟩ := List.length_eq_one_iff.1 hz
    cases s with
    | fresh =>
      cases inp with
      | nil => exact absurd rfl hi
      | cons k r =>
        refine ⟨?_, ?_⟩
        · show (if 100 * k.toNat ≤ n then Code.streamEnd else if Flush.no = .finish then .bufError else .ok) = _ ∨ (if 100 * k.toNat ≤ n then Code.streamEnd else if Flush.no = .finish then .bufError else .ok) = _
          split
          · exact .inr rfl
          · exact .inl rfl
        · show [k] <+: [x]
          rcases hc with hc | hc
          · have : k = x ∧ r = [] := by simpa [RState.took] using hc
            rw [this.1]; exact List.prefix_refl _
          · have : x = k := by simpa [RState.took] using hc
            rw [this]; exact List.prefix_refl _
    | got k j =>
      refine ⟨?_, hp⟩
      show (if 100 * k.toNat - j ≤ n then Code.streamEnd else if Flush.no = .finish then .bufError else .ok) = _ ∨ (if 100 * k.toNat - j ≤ n then Code.streamEnd else if Flush.no = .finish then .bufError else .ok) = _
      split
      · exact .inr rfl
      · exact .inl rfl
  sync_ok s n z hn hz hp := by
    cases s with
    | fresh => simp [runner, runCall]
    | got k j =>
      show (if 100 * k.toNat - j ≤ n then Code.streamEnd else if Flush.sync = .finish then .bufError else .ok) ≠ _
      split <;> decide
  sync_all s n z hn hz hp hb := by
    cases s with
    | fresh => rfl
    | got k j =>
      revert hb
      show (if 100 * k.toNat - j ≤ n then Code.streamEnd else if Flush.sync = .finish then .bufError else .ok) = _ → _
      split <;> intro h <;> cases h
  finish_ok s n hn h := by
    cases s with
    | fresh => cases h
    | got k j =>
      show (if 100 * k.toNat - j ≤ n then Code.streamEnd else if Flush.finish = .finish then .bufError else .ok) =
        if (List.replicate (100 * k.toNat) (0 : UInt8)).length ≤ (List.replicate (min j (100 * k.toNat)) (0 : UInt8)).length + n then _ else _
      rw [List.length_replicate, List.length_replicate]
      by_cases h1 : 100 * k.toNat - j ≤ n
      · rw [if_pos h1, if_pos (by omega)]
      · rw [if_neg h1, if_pos rfl, if_neg (by omega)]
  finish_less s n hn := by
    cases s with
    | fresh => simp [runner, runCall]
    | got k j =>
      show (if 100 * k.toNat - j ≤ n then Code.streamEnd else if Flush.finish = .finish then .bufError else .ok) ≠ _
      split <;> decide

end Asteria.Zlib.Toy
