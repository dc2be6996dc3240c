import Verif.Proof.Zlib
import Verif.Proof.ZlibToy

/-!
# C134 to C138: `std.zlib`
-/

namespace Asteria.Zlib

variable {σ τ : Type}

/-- A library that compresses to the format `F`. -/
def IsDeflater (F : Format) (L : Lib σ) : Prop := ∃ took gave closed done todo, Deflates F L took gave closed done todo

/-- A library that decompresses the format `F`. -/
def IsInflater (F : Format) (L : Lib σ) : Prop := ∃ took gave done todo, Inflates F L took gave done todo

/-- The same, and the library does not hold back more than zlib.cpp makes room for. -/
def IsPromptInflater (F : Format) (L : Lib σ) : Prop := ∃ took gave done todo, Inflates F L took gave done todo ∧ Prompt F took gave

/-- An object that has just been returned by `std.zlib.Deflator` or `std.zlib.Inflator`. -/
def fresh (L : Lib σ) : Obj σ := ⟨L.init, []⟩

/-! ### C134: what has been compressed can be decompressed -/

/-- **C134**, the first half: any calls of `update` and `flush` and then `finish` return, and the output is a stream of all of the data in the order in which it was
passed. -/
theorem C134_compressed (F : Format) (L : Lib σ) (h : IsDeflater F L) (ops : List Op) (hops : Feeds ops) :
    ∃ o, Ends (fun n => runOps (deflOp L n) (fresh L) (ops ++ [.finish])) (.ok (), o) ∧ F.Stream o.output (fed ops) := by
  obtain ⟨took, gave, closed, done, todo, D⟩ := h
  have g : Goes gave closed [] (fresh L) := ⟨by simp [fresh, D.counts.gave_init], D.open_init⟩
  obtain ⟨o, h1, g1, t1⟩ := deflOps_end D [] ops _ hops g
  obtain ⟨o', h2, g2, t2, _, d2⟩ := deflFinish_ends D [] _ o rfl g1.out
  refine ⟨o', Ends.append h1 (Ends.one (f := fun n => deflOp L n) (op := .finish) h2), ?_⟩
  have := (D.done_stream _ d2).2
  rw [g2, List.nil_append]
  rw [t2, t1] at this
  simpa [fresh, D.counts.took_init] using this

/-- **C134**, the second half: any calls of `update` and `flush` that pass a stream, however it is cut, and then `finish` return, and the output is the data. -/
theorem C134_decompressed (F : Format) (L : Lib σ) (h : IsPromptInflater F L) (z d : Bytes) (hz : F.Stream z d) (ops : List Op) (hops : Feeds ops) (hf : fed ops = z) :
    ∃ o, Ends (fun n => runOps (inflOp L n) (fresh L) (ops ++ [.finish])) (.ok (), o) ∧ o.output = d := by
  obtain ⟨took, gave, done, todo, I, P⟩ := h
  have g : (fresh L).output = [] ++ gave (fresh L).strm := by simp [fresh, I.counts.gave_init]
  have t0 : took (fresh L).strm = [] := I.counts.took_init
  obtain ⟨e, o, h1, g1, p1, d1, r1, v1⟩ := inflOps_end I [] ops _ hops g
  obtain ⟨rfl, hp⟩ := v1 z hz.1 (by rw [t0]; exact List.nil_prefix) (.inl (by rw [t0, hf]; exact List.prefix_refl _))
  obtain ⟨e', o', h2, g2, t2, r2, dn2, f2⟩ := inflFinish_ends I [] o g1
  have ht : took o.strm = z := by
    rcases r1 with ⟨_, r1⟩ | r1
    · rcases r1 with ⟨r1, _⟩ | r1
      · exact F.prefixFree _ _ (I.done_stream _ r1).1 hz.1 hp
      · rw [r1, t0, hf]; rfl
    · cases r1
  have he : e' = .ok () := (f2 (by rw [ht]; exact hz.1)).2 (.inr (P _ (by rw [ht]; exact hz.1)))
  subst he
  refine ⟨o', Ends.append h1 (Ends.one (f := fun n => inflOp L n) (op := .finish) h2), ?_⟩
  rcases r2 with ⟨_, r2⟩ | r2
  · rw [g2, List.nil_append, ← (I.done_stream _ r2).2, t2, ht]
    exact hz.2
  · cases r2

/-- What `deflateInit2()` and `inflateInit2()` set up: for each of the three window sizes that zlib.cpp passes there is a format, in which the compressor, whatever the level
is, and the decompressor agree. -/
structure Codec (D : Int → Int → Lib σ) (I : Int → Lib τ) (F : Int → Format) : Prop where
  deflates : ∀ w l, w ∈ [31, 15, -15] → -1 ≤ l → l ≤ 9 → IsDeflater (F w) (D w l)
  inflates : ∀ w, w ∈ [31, 15, -15] → IsPromptInflater (F w) (I w)

theorem answer_ends {f : Nat → Option (Res Unit × Obj σ)} {o : Obj σ} (h : Ends f (.ok (), o)) : Ends (fun n => answer (f n)) (.ok o.output) := by
  obtain ⟨n, hn⟩ := h
  exact ⟨n, fun m hm => by dsimp only; rw [hn m hm]; rfl⟩

theorem answer_throws {f : Nat → Option (Res Unit × Obj σ)} {o : Obj σ} (h : Ends f (.throw, o)) : Ends (fun n => answer (f n)) .throw := by
  obtain ⟨n, hn⟩ := h
  exact ⟨n, fun m hm => by dsimp only; rw [hn m hm]; rfl⟩

theorem feeds_one (data : Bytes) : Feeds [.update data] := fun op h => .inr ⟨data, by simpa using h⟩

theorem doWbits_mem {format : Bytes} {w : Int} (h : doWbits format = .ok w) : w ∈ [31, 15, -15] := by
  unfold doWbits at h
  split at h
  · cases h; decide
  · split at h
    · cases h; decide
    · split at h
      · cases h; decide
      · cases h

theorem doLevel_range {level : Option Int} {l : Int} (h : doLevel level = .ok l) : -1 ≤ l ∧ l ≤ 9 := by
  unfold doLevel at h
  cases level with
  | none => cases h; decide
  | some x =>
    dsimp only at h
    split at h
    · cases h
    · cases h
      split <;> try split
      all_goals omega

/-- **C134** `std.zlib.inflate(std.zlib.deflate(data, level))` and `std.zlib.gunzip(std.zlib.gzip(data, level))` return `data` if `level` is not negative. -/
theorem C134_round_trip (D : Int → Int → Lib σ) (I : Int → Lib τ) (F : Int → Format) (C : Codec D I F) (format : Bytes) (hf : format ∈ [sDeflate, sGzip])
    (data : Bytes) (level : Option Int) (hl : ∀ l, level = some l → 0 ≤ l) :
    ∃ z, Ends (fun n => stdDeflate D n format data level) (.ok z) ∧ Ends (fun n => stdInflate I n format z) (.ok data) := by
  obtain ⟨w, hw⟩ : ∃ w, doWbits format = .ok w := by
    rcases List.mem_cons.1 hf with rfl | hf
    · exact ⟨15, by decide⟩
    · rcases List.mem_cons.1 hf with rfl | hf
      · exact ⟨31, by decide⟩
      · cases hf
  obtain ⟨l, hl'⟩ : ∃ l, doLevel level = .ok l := by
    cases level with
    | none => exact ⟨_, rfl⟩
    | some l =>
      refine ⟨if l < 0 then 0 else if 9 < l then 9 else l, ?_⟩
      unfold doLevel
      dsimp only
      rw [if_neg (by have := hl l rfl; omega)]
  have hr := doLevel_range hl'
  have hm := doWbits_mem hw
  obtain ⟨o, h1, h2⟩ := C134_compressed (F w) (D w l) (C.deflates w l hm hr.1 hr.2) [.update data] (feeds_one data)
  obtain ⟨o', h3, h4⟩ := C134_decompressed (F w) (I w) (C.inflates w hm) o.output _ h2 [.update o.output] (feeds_one _) (by simp [fed])
  refine ⟨o.output, ?_, ?_⟩
  · have e : ∀ n, stdDeflate D n format data level = answer (runOps (deflOp (D w l) n) (fresh (D w l)) [.update data, .finish]) := by
      intro n
      unfold stdDeflate stdDeflator
      rw [hw, hl']
      rfl
    simp only [e]
    exact answer_ends h1
  · have e : ∀ n, stdInflate I n format o.output = answer (runOps (inflOp (I w) n) (fresh (I w)) [.update o.output, .finish]) := by
      intro n
      unfold stdInflate stdInflator
      rw [hw]
      rfl
    simp only [e]
    have := answer_ends h3
    rw [h4] at this
    simpa [fed] using this

/-- What zlib.h says is not enough: `Inflator::finish` calls `inflate()` with `Z_FINISH` and room for 4096 bytes, and takes `Z_BUF_ERROR`, which is what zlib.h says is returned
if that is not enough room, for an error.  There is a decompressor that does all that zlib.h says, and a complete stream for which
`std.zlib.inflate` throws. -/
theorem C134_needs_prompt : IsInflater Toy.runs Toy.runner ∧ Toy.runs.ends [100] ∧
    Ends (fun n => answer (runOps (inflOp Toy.runner n) (fresh Toy.runner) [.update [100], .finish])) .throw := by
  refine ⟨⟨_, _, _, _, Toy.runner_ok⟩, rfl, ?_⟩
  have h1 : Ends (fun n => inflOp Toy.runner n (fresh Toy.runner) (.update [100])) (.ok (), ⟨.got 100 4096, List.replicate 4096 0⟩) := by
    refine ⟨2, fun m hm => ?_⟩
    obtain ⟨m, rfl⟩ : ∃ j, m = j + 2 := ⟨m - 2, by omega⟩
    dsimp only [inflOp]
    unfold inflUpdate
    dsimp only
    rw [if_neg (by simp [intMax]), doOutput_eq]
    have e : Toy.runner.call (fresh Toy.runner).strm (List.take intMax [100]) 4096 .no = ⟨.got 100 4096, 1, List.replicate 4096 0, .ok⟩ := by
      have e1 : List.take intMax [(100 : UInt8)] = [100] := rfl
      have e2 : min 4096 (100 * (100 : UInt8).toNat) = 4096 := by decide
      rw [e1]
      show (⟨.got 100 (min 4096 (100 * (100 : UInt8).toNat)), 1, List.replicate (min 4096 (100 * (100 : UInt8).toNat)) 0,
        if 100 * (100 : UInt8).toNat ≤ 4096 then .streamEnd else if Flush.no = .finish then .bufError else .ok⟩ : Answer Toy.RState) = _
      rw [e2, if_neg (by decide), if_neg (by decide)]
    rw [e]
    dsimp only
    rw [if_neg (by decide), if_neg (by decide)]
    unfold inflUpdate
    rfl
  have h2 : Ends (fun n => inflOp Toy.runner n ⟨.got 100 4096, List.replicate 4096 0⟩ .finish) (.throw, ⟨.got 100 8192, List.replicate 4096 0 ++ List.replicate 4096 0⟩) := by
    refine ⟨1, fun m hm => ?_⟩
    obtain ⟨m, rfl⟩ : ∃ j, m = j + 1 := ⟨m - 1, by omega⟩
    dsimp only [inflOp]
    unfold inflFinish
    rw [doOutput_eq]
    have e : Toy.runner.call (.got 100 4096) [] 4096 .finish = ⟨.got 100 8192, 0, List.replicate 4096 0, .bufError⟩ := by
      have e2 : min 4096 (100 * (100 : UInt8).toNat - 4096) = 4096 := by decide
      show (⟨.got 100 (4096 + min 4096 (100 * (100 : UInt8).toNat - 4096)), 0, List.replicate (min 4096 (100 * (100 : UInt8).toNat - 4096)) 0,
        if 100 * (100 : UInt8).toNat - 4096 ≤ 4096 then .streamEnd else if Flush.finish = .finish then .bufError else .ok⟩ : Answer Toy.RState) = _
      rw [e2, if_neg (by decide), if_pos rfl]
    rw [e]
    dsimp only
    rw [if_neg (by decide), if_pos (by decide)]
  exact answer_throws (Ends.append (f := fun n => inflOp Toy.runner n) (Ends.one (f := fun n => inflOp Toy.runner n) h1) (Ends.one (f := fun n => inflOp Toy.runner n) h2))

/-- The libraries of the example are as **C134** asks for. -/
example : Codec (fun _ _ => Toy.deflater) (fun _ => Toy.inflater) (fun _ => Toy.format) :=
  ⟨fun _ _ _ _ _ => ⟨_, _, _, _, _, Toy.deflater_ok⟩, fun _ _ => ⟨_, _, _, _, Toy.inflater_ok, Toy.inflater_prompt⟩⟩

/-- **C134**, a case: `"Hi"` is passed in two parts with a `flush` between them. -/
example : (runOps (deflOp Toy.deflater 9) (fresh Toy.deflater) [.update [0x48], .flush, .update [0x69], .finish]).map (fun r => (r.1, r.2.output)) =
    some (.ok (), [1, 0x48, 1, 0x69, 0]) := by rfl

/-! ### C135: what has been flushed can be decompressed -/

/-- **C135** When `flush` of a compressor has returned, a decompressor that is passed its output so far, however it is cut, has output all of the data when its `flush`
returns. -/
theorem C135_flushed (F : Format) (L : Lib σ) (M : Lib τ) (hL : IsDeflater F L) (hM : IsInflater F M) (ops : List Op) (hops : Feeds ops) :
    ∃ o, Ends (fun n => runOps (deflOp L n) (fresh L) (ops ++ [.flush])) (.ok (), o) ∧ ∀ ops', Feeds ops' → fed ops' = o.output →
      ∃ o', Ends (fun n => runOps (inflOp M n) (fresh M) (ops' ++ [.flush])) (.ok (), o') ∧ o'.output = fed ops := by
  obtain ⟨took, gave, closed, done, todo, D⟩ := hL
  obtain ⟨took', gave', done', todo', I⟩ := hM
  have g : Goes gave closed [] (fresh L) := ⟨by simp [fresh, D.counts.gave_init], D.open_init⟩
  obtain ⟨o, h1, g1, t1⟩ := deflOps_end D [] ops _ hops g
  obtain ⟨o₂, h2, g2, t2, s2⟩ := deflFlush_ends D [] _ o rfl g1
  obtain ⟨o₃, _, _, _, p3, d3⟩ := deflFinish_ends D [] _ o₂ rfl g2.out
  have e2 : o₂.output = gave o₂.strm := by rw [g2.out]; rfl
  refine ⟨o₂, Ends.append h1 (Ends.one (f := fun n => deflOp L n) (op := .flush) h2), fun ops' hops' hf => ?_⟩
  have hz := (D.done_stream _ d3).2.1
  have g' : (fresh M).output = [] ++ gave' (fresh M).strm := by simp [fresh, I.counts.gave_init]
  have t0 : took' (fresh M).strm = [] := I.counts.took_init
  obtain ⟨e, p, h4, g4, p4, d4, r4, v4⟩ := inflOps_end I [] ops' _ hops' g'
  have hpre : took' (fresh M).strm ++ fed ops' <+: gave o₃.strm := by rw [t0, hf, e2]; exact p3
  obtain ⟨rfl, hp⟩ := v4 _ hz (by rw [t0]; exact List.nil_prefix) (.inl hpre)
  have ht : took' p.strm = gave o₂.strm := by
    rcases r4 with ⟨_, r4⟩ | r4
    · rcases r4 with ⟨r4, r5⟩ | r4
      · have e5 := F.prefixFree _ _ (I.done_stream _ r4).1 hz hp
        rw [t0, hf, e2] at r5
        exact r5.eq_of_length_le (by rw [e5]; exact p3.length_le)
      · rw [r4, t0, hf, e2]; rfl
    · cases r4
  obtain ⟨e', q, h6, g6, t6, _, v6, _⟩ := inflFlush_ends I [] _ p rfl g4
  obtain ⟨rfl, v7⟩ := v6 ⟨_, hz, hp⟩
  refine ⟨q, Ends.append h4 (Ends.one (f := fun n => inflOp M n) (op := .flush) h6), ?_⟩
  rw [g6, List.nil_append, v7, t6, ht, s2, t2, t1]
  simp [fresh, D.counts.took_init]

/-- **C135**, a case. -/
example : (runOps (inflOp Toy.inflater 9) (fresh Toy.inflater) [.update [1], .update [0x48, 1, 0x69], .flush]).map (fun r => (r.1, r.2.output)) =
    some (.ok (), [0x48, 0x69]) := by rfl

/-! ### C136: using an object again -/

/-- **C136** as it is documented: `clear` discards both input and output, so that afterwards the object does the same as a new one. -/
def C136_claim : Prop := ∀ (F : Format) (σ : Type) (L : Lib σ), IsDeflater F L → ∀ (ops ops' : List Op) (o r : Obj σ),
  Ends (fun n => runOps (deflOp L n) (fresh L) (ops ++ [.clear])) (.ok (), o) → Ends (fun n => runOps (deflOp L n) (fresh L) ops') (.ok (), r) →
    Ends (fun n => runOps (deflOp L n) o ops') (.ok (), r)

/-- **C136** does not hold: the member `output` is not passed to the function that `clear` calls, and stays.  After `update("A"); flush(); clear()` the function
`finish` returns more than one stream. -/
theorem C136_false : ¬ C136_claim := fun h => by
  have h1 : Ends (fun n => runOps (deflOp Toy.deflater n) (fresh Toy.deflater) ([.update [0x41], .flush] ++ [.clear])) (.ok (), ⟨Toy.deflater.init, [1, 0x41]⟩) := by
    refine ⟨3, fun m hm => ?_⟩
    obtain ⟨m, rfl⟩ : ∃ j, m = j + 3 := ⟨m - 3, by omega⟩
    rfl
  have h2 : Ends (fun n => runOps (deflOp Toy.deflater n) (fresh Toy.deflater) []) (.ok (), fresh Toy.deflater) := ⟨0, fun _ _ => rfl⟩
  obtain ⟨n, h3⟩ := h Toy.format _ Toy.deflater ⟨_, _, _, _, _, Toy.deflater_ok⟩ _ _ _ _ h1 h2
  have h4 := h3 n (Nat.le_refl _)
  have h5 := congrArg (fun r : Option (Res Unit × Obj Toy.DState) => match r with | some (_, o) => o.output | none => []) h4
  exact absurd (show ([1, 0x41] : Bytes) = [] from h5) (by decide)

/-- **C136**, what holds: after `clear`, and if `output` is also set to the empty string, the object is a new one, whatever was called before and even if a call has thrown;
and if it is not, all that is output later comes after what was there.  So are decompressors. -/
theorem C136_clear_partial (L : Lib σ) (o : Obj σ) (n : Nat) (ops : List Op) :
    runOps (deflOp L n) o (.clear :: .empty :: ops) = runOps (deflOp L n) (fresh L) ops ∧
    runOps (inflOp L n) o (.clear :: .empty :: ops) = runOps (inflOp L n) (fresh L) ops ∧
    (clear L o).output = o.output := ⟨rfl, rfl, rfl⟩

/-- **C136**, what is returned if `output` is not set: the output from before `clear`, and then a stream of the data after it. -/
theorem C136_kept (F : Format) (L : Lib σ) (h : IsDeflater F L) (o : Obj σ) (ops : List Op) (hops : Feeds ops) :
    ∃ o' z, Ends (fun n => runOps (deflOp L n) o (.clear :: (ops ++ [.finish]))) (.ok (), o') ∧ o'.output = o.output ++ z ∧ F.Stream z (fed ops) := by
  obtain ⟨took, gave, closed, done, todo, D⟩ := h
  have g : Goes gave closed o.output (clear L o) := ⟨by simp [clear, D.counts.gave_init], D.open_init⟩
  obtain ⟨o₁, h1, g1, t1⟩ := deflOps_end D o.output ops _ hops g
  obtain ⟨o₂, h2, g2, t2, _, d2⟩ := deflFinish_ends D o.output _ o₁ rfl g1.out
  obtain ⟨n, hn⟩ := Ends.append h1 (Ends.one (f := fun n => deflOp L n) (op := .finish) h2)
  refine ⟨o₂, gave o₂.strm, ⟨n, fun m hm => hn m hm⟩, g2, ?_⟩
  have := (D.done_stream _ d2).2
  rw [t2, t1] at this
  simpa [clear, D.counts.took_init] using this

/-- **C136** When `finish` of a compressor has returned and until `clear` is called, `finish` returns the same string again, and `flush`, and `update` with something, throw. -/
theorem C136_finished (F : Format) (L : Lib σ) (h : IsDeflater F L) (ops : List Op) (hops : Feeds ops) :
    ∃ o, Ends (fun n => runOps (deflOp L n) (fresh L) (ops ++ [.finish])) (.ok (), o) ∧
      (∃ s, Ends (fun n => deflFinish L n o) (.ok (), ⟨s, o.output⟩)) ∧ (∃ o', Ends (fun n => deflFlush L n o) (.throw, o')) ∧
      ∀ data, data ≠ [] → ∃ o', Ends (fun n => deflUpdate L n o data) (.throw, o') := by
  obtain ⟨took, gave, closed, done, todo, D⟩ := h
  have g : Goes gave closed [] (fresh L) := ⟨by simp [fresh, D.counts.gave_init], D.open_init⟩
  obtain ⟨o, h1, g1, t1⟩ := deflOps_end D [] ops _ hops g
  obtain ⟨o', h2, g2, t2, _, d2⟩ := deflFinish_ends D [] _ o rfl g1.out
  refine ⟨o', Ends.append h1 (Ends.one (f := fun n => deflOp L n) (op := .finish) h2), ?_, ?_, fun data hd => ?_⟩
  · obtain ⟨h3, h4⟩ := D.done_finish _ 4096 d2 (by decide)
    refine ⟨(L.call o'.strm [] 4096 .finish).next, 1, fun m hm => ?_⟩
    obtain ⟨m, rfl⟩ : ∃ j, m = j + 1 := ⟨m - 1, by omega⟩
    dsimp only
    unfold deflFinish
    rw [doOutput_eq]
    dsimp only
    rw [if_pos h3, h4, List.append_nil]
  · have h3 : (L.call o'.strm [] 4096 .sync).code = .other := by
      rcases D.done_other _ [] 4096 .sync d2 (by decide) with h | h
      · exact h
      · exact absurd rfl h.1
    refine ⟨⟨(L.call o'.strm [] 4096 .sync).next, o'.output ++ (L.call o'.strm [] 4096 .sync).produced⟩, 1, fun m hm => ?_⟩
    obtain ⟨m, rfl⟩ : ∃ j, m = j + 1 := ⟨m - 1, by omega⟩
    dsimp only
    unfold deflFlush
    rw [doOutput_eq]
    dsimp only
    rw [if_neg (by rw [h3]; decide), if_pos (by rw [h3]; decide)]
  · have h3 : (L.call o'.strm (data.take intMax) 4096 .no).code ≠ .ok := by
      rcases D.done_other _ (data.take intMax) 4096 .no d2 (by decide) with h | h
      · rw [h]; decide
      · rw [h.2]; decide
    refine ⟨⟨(L.call o'.strm (data.take intMax) 4096 .no).next, o'.output ++ (L.call o'.strm (data.take intMax) 4096 .no).produced⟩, 1, fun m hm => ?_⟩
    obtain ⟨m, rfl⟩ : ∃ j, m = j + 1 := ⟨m - 1, by omega⟩
    dsimp only
    unfold deflUpdate
    dsimp only
    rw [if_neg (fun h => hd (take_intMax_nil h)), doOutput_eq]
    dsimp only
    rw [if_pos h3]

/-- **C136**, a case: `clear` after an exception. -/
example : (runOps (deflOp Toy.deflater 9) (fresh Toy.deflater) [.update [0x41], .finish, .update [0x42]]).map (fun r => (r.1, r.2.output)) = some (.throw, [1, 0x41, 0]) ∧
    (runOps (deflOp Toy.deflater 9) (fresh Toy.deflater) [.update [0x41], .finish, .clear, .update [0x42], .finish]).map (fun r => (r.1, r.2.output)) =
      some (.ok (), [1, 0x41, 0, 1, 0x42, 0]) := ⟨rfl, rfl⟩

/-! ### C137: the arguments -/

/-- **C137** as it is documented: a compressor is created if and only if the format is one of three and the level is absent or from 0 to 9. -/
def C137_claim : Prop := ∀ (σ : Type) (D : Int → Int → Lib σ) (format : Bytes) (level : Option Int),
  stdDeflator D format level = .throw ↔ ¬ (format ∈ [sDeflate, sGzip, sRaw] ∧ ∀ l, level = some l → 0 ≤ l ∧ l ≤ 9)

/-- **C137** does not hold: a level above 9 is taken for 9. -/
theorem C137_false : ¬ C137_claim := fun h => by
  have := (h Unit (fun _ _ => ⟨(), fun _ _ _ _ => ⟨(), 0, [], .ok⟩⟩) sGzip (some 10)).2 (fun h' => by have := h'.2 10 rfl; omega)
  have e : stdDeflator (fun _ _ => (⟨(), fun _ _ _ _ => ⟨(), 0, [], .ok⟩⟩ : Lib Unit)) sGzip (some 10) ≠ .throw := by
    unfold stdDeflator
    rw [show doWbits sGzip = .ok 31 by decide, show doLevel (some 10) = .ok 9 by decide]
    exact fun h => by cases h
  exact e this

/-- **C137**, what holds: an exception is thrown if and only if the format is not one of three or the level is negative; otherwise the compressor is new, and is set up for the level, or 9 if
it is above. -/
theorem C137_arguments_partial (D : Int → Int → Lib σ) (format : Bytes) (level : Option Int) :
    (stdDeflator D format level = .throw ↔ ¬ (format ∈ [sDeflate, sGzip, sRaw] ∧ ∀ l, level = some l → 0 ≤ l)) ∧
    ∀ L o, stdDeflator D format level = .ok (L, o) → o = fresh L ∧ ∃ w, L = D w (match level with | none => -1 | some l => min l 9) ∧
      (w = 31 ∧ format = sGzip ∨ w = 15 ∧ format = sDeflate ∨ w = -15 ∧ format = sRaw) := by
  have hlev : (∀ l, level = some l → 0 ≤ l) ∧ doLevel level = .ok (match level with | none => -1 | some l => min l 9) ∨
      (¬ ∀ l, level = some l → 0 ≤ l) ∧ doLevel level = .throw := by
    cases level with
    | none => exact .inl ⟨(fun l h => by cases h), rfl⟩
    | some l =>
      by_cases hl : l < 0
      · exact .inr ⟨fun h => by have := h l rfl; omega, by unfold doLevel; dsimp only; rw [if_pos hl]⟩
      · refine .inl ⟨fun l' h => by cases h; omega, ?_⟩
        unfold doLevel
        dsimp only
        rw [if_neg hl, if_neg hl]
        congr 1
        split <;> omega
  have hw : ∀ w, doWbits format = .ok w → format ∈ [sDeflate, sGzip, sRaw] ∧
      (w = 31 ∧ format = sGzip ∨ w = 15 ∧ format = sDeflate ∨ w = -15 ∧ format = sRaw) := by
    intro w h
    unfold doWbits at h
    split at h
    · next e => cases h; exact ⟨by rw [e]; simp, .inl ⟨rfl, e⟩⟩
    · split at h
      · next e => cases h; exact ⟨by rw [e]; simp, .inr (.inl ⟨rfl, e⟩)⟩
      · split at h
        · next e => cases h; exact ⟨by rw [e]; simp, .inr (.inr ⟨rfl, e⟩)⟩
        · cases h
  have hw' : doWbits format = .throw → format ∉ [sDeflate, sGzip, sRaw] := by
    intro h
    unfold doWbits at h
    split at h
    · cases h
    · next n1 =>
      split at h
      · cases h
      · next n2 =>
        split at h
        · cases h
        · next n3 =>
          intro hm
          rcases List.mem_cons.1 hm with e | hm
          · exact n2 e
          · rcases List.mem_cons.1 hm with e | hm
            · exact n1 e
            · rcases List.mem_cons.1 hm with e | hm
              · exact n3 e
              · cases hm
  have hu : doWbits format ≠ .ub := by
    unfold doWbits
    split
    · exact fun h => by cases h
    · split
      · exact fun h => by cases h
      · split
        · exact fun h => by cases h
        · exact fun h => by cases h
  unfold stdDeflator
  cases hd : doWbits format with
  | ub => exact absurd hd hu
  | throw => exact ⟨⟨fun _ h => hw' hd h.1, fun _ => rfl⟩, fun L o h => by cases h⟩
  | ok w =>
    rw [Res.ok_bind]
    rcases hlev with ⟨h1, h2⟩ | ⟨h1, h2⟩
    · rw [h2, Res.ok_bind]
      exact ⟨⟨(fun h => by cases h), fun h => absurd ⟨(hw w hd).1, h1⟩ h⟩, fun L o h => by cases h; exact ⟨rfl, w, rfl, (hw w hd).2⟩⟩
    · rw [h2, Res.throw_bind]
      exact ⟨⟨fun _ h => h1 h.2, fun _ => rfl⟩, fun L o h => by cases h⟩

/-- **C137**, cases. -/
example : doLevel (some 3) = .ok 3 ∧ doLevel (some 12) = .ok 9 ∧ doLevel (some (-1)) = .throw ∧ doLevel none = .ok (-1) := by decide

/-! ### C138: only streams are decompressed -/

/-- **C138** as one would like it: if something is decompressed, it is a complete stream and nothing else. -/
def C138_claim : Prop := ∀ (F : Format) (σ : Type) (L : Lib σ), IsPromptInflater F L → ∀ x r : Bytes,
  Ends (fun n => answer (runOps (inflOp L n) (fresh L) [.update x, .finish])) (.ok r) → F.Stream x r

/-- **C138** does not hold: what comes after a complete stream is ignored, and so is a second member of a file in the format of gzip. -/
theorem C138_false : ¬ C138_claim := fun h => by
  have h1 : Ends (fun n => answer (runOps (inflOp Toy.inflater n) (fresh Toy.inflater) [.update [1, 0x41, 0, 0xFF], .finish])) (.ok [0x41]) := by
    refine ⟨5, fun m hm => ?_⟩
    obtain ⟨m, rfl⟩ : ∃ j, m = j + 5 := ⟨m - 5, by omega⟩
    rfl
  obtain ⟨⟨d, hd⟩, h2⟩ := h Toy.format _ Toy.inflater ⟨_, _, _, _, Toy.inflater_ok, Toy.inflater_prompt⟩ _ _ h1
  have h3 := congrArg List.getLast? hd
  simp at h3

/-- **C138**, what holds: `std.zlib.inflate`, for any bytes at all, ends: either an exception is thrown, or the bytes begin with a complete stream, and its data is returned. -/
theorem C138_decompressed_partial (F : Format) (L : Lib σ) (h : IsInflater F L) (x : Bytes) :
    ∃ r, Ends (fun n => answer (runOps (inflOp L n) (fresh L) [.update x, .finish])) r ∧ (r = .throw ∨ ∃ z d, z <+: x ∧ F.Stream z d ∧ r = .ok d) := by
  obtain ⟨took, gave, done, todo, I⟩ := h
  have g : (fresh L).output = [] ++ gave (fresh L).strm := by simp [fresh, I.counts.gave_init]
  have t0 : took (fresh L).strm = [] := I.counts.took_init
  obtain ⟨e, o, h1, g1, p1, d1, r1, v1⟩ := inflOps_end I [] [.update x] _ (feeds_one x) g
  rcases r1 with ⟨rfl, r1⟩ | rfl
  · obtain ⟨e', o', h2, g2, t2, r2, _⟩ := inflFinish_ends I [] o g1
    have hall := Ends.append h1 (Ends.one (f := fun n => inflOp L n) (op := .finish) h2)
    rcases r2 with ⟨rfl, r2⟩ | rfl
    · refine ⟨_, answer_ends hall, .inr ⟨took o'.strm, gave o'.strm, ?_, I.done_stream _ r2, by rw [g2]; rfl⟩⟩
      rw [t2]
      rw [t0] at r1
      rcases r1 with ⟨_, r1⟩ | r1
      · simpa [fed] using r1
      · rw [r1]; simp [fed]
    · exact ⟨_, answer_throws hall, .inl rfl⟩
  · obtain ⟨n, hn⟩ := h1
    refine ⟨_, answer_throws ⟨n, fun m hm => runOps_throw (inflOp L m) [.update x] [.finish] _ _ (hn m hm)⟩, .inl rfl⟩

/-- **C138**, completeness: exactly what begins with a complete stream is decompressed; so a stream that lacks bytes at its end is refused. -/
theorem C138_exactly (F : Format) (L : Lib σ) (h : IsPromptInflater F L) (x r : Bytes) :
    Ends (fun n => answer (runOps (inflOp L n) (fresh L) [.update x, .finish])) (.ok r) ↔ ∃ z, z <+: x ∧ F.Stream z r := by
  constructor
  · intro hr
    obtain ⟨took, gave, done, todo, I, _⟩ := h
    obtain ⟨r', h1, h2⟩ := C138_decompressed_partial F L ⟨took, gave, done, todo, I⟩ x
    cases Ends.unique hr h1
    rcases h2 with h2 | ⟨z, d, h2, h3, h4⟩
    · cases h2
    · cases h4
      exact ⟨z, h2, h3⟩
  · rintro ⟨z, hzx, hz⟩
    obtain ⟨took, gave, done, todo, I, P⟩ := h
    have g : (fresh L).output = [] ++ gave (fresh L).strm := by simp [fresh, I.counts.gave_init]
    have t0 : took (fresh L).strm = [] := I.counts.took_init
    obtain ⟨e, o, h1, g1, p1, d1, r1, v1⟩ := inflOps_end I [] [.update x] _ (feeds_one x) g
    obtain ⟨rfl, hp⟩ := v1 z hz.1 (by rw [t0]; exact List.nil_prefix) (.inr (by rw [t0]; simpa [fed] using hzx))
    obtain ⟨e', o', h2, g2, t2, r2, dn2, f2⟩ := inflFinish_ends I [] o g1
    have ht : took o.strm = z := by
      rcases r1 with ⟨_, r1⟩ | r1
      · rcases r1 with ⟨r1, _⟩ | r1
        · exact F.prefixFree _ _ (I.done_stream _ r1).1 hz.1 hp
        · have e1 : took o.strm = x := by rw [r1, t0]; simp [fed]
          rw [e1] at hp ⊢
          exact hp.eq_of_length_le hzx.length_le
      · cases r1
    have he : e' = .ok () := (f2 (by rw [ht]; exact hz.1)).2 (.inr (P _ (by rw [ht]; exact hz.1)))
    subst he
    have ho : o'.output = r := by
      rcases r2 with ⟨_, r2⟩ | r2
      · rw [g2, List.nil_append, ← (I.done_stream _ r2).2, t2, ht]
        exact hz.2
      · cases r2
    have := answer_ends (Ends.append h1 (Ends.one (f := fun n => inflOp L n) (op := .finish) h2))
    rw [ho] at this
    exact this

/-- **C138**, cases: a byte is missing, and a byte is wrong. -/
example : answer (runOps (inflOp Toy.inflater 9) (fresh Toy.inflater) [.update [1, 0x41], .finish]) = some .throw ∧
    answer (runOps (inflOp Toy.inflater 9) (fresh Toy.inflater) [.update [1, 0x41, 7, 0], .finish]) = some .throw := ⟨rfl, rfl⟩

end Asteria.Zlib
