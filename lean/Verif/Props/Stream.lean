import Verif.Spec.Stream
import Verif.Props.LinearBuffer

/-!
# Properties C146 to C149: formatting streams
-/

namespace Asteria.Stream

open Spec

variable {α : Type}

/-! ## Helper lemmas -/

theorem Spec.Agrees.map {β γ : Type} {limit : Nat} {o : Option (β × File α)} {x : Res (β × Str α)}
    (h : Agrees limit o x) (g : β → γ) :
    Agrees limit (o.map fun r => (g r.1, r.2)) (x.map fun r => (g r.1, r.2)) := by
  cases o with
  | none =>
    have h : x = .throw := h
    rw [h]; rfl
  | some r =>
    obtain ⟨t, h1, h2⟩ := h
    exact ⟨t, by rw [h1]; rfl, h2⟩

theorem Spec.Agrees.unit {γ : Type} {limit : Nat} {o : Option (File α)} {x : Res (Str α)} {g : γ}
    (h : match o with
      | some f => ∃ t, x = .ok t ∧ Same limit t f
      | none => x = .throw) :
    Agrees limit (o.map fun f => (g, f)) (x.map fun t => (g, t)) := by
  cases o with
  | none => simp only at h; rw [h]; rfl
  | some r =>
    obtain ⟨t, h1, h2⟩ := h
    exact ⟨t, by rw [h1]; rfl, h2⟩

theorem Spec.File.at_eq (f : File α) : f.at = if appends f.mode then f.data.length else f.pos := rfl

theorem Spec.File.write_eq (limit : Nat) (z : α) (f : File α) (s : List α) :
    f.write limit z s =
      if canWrite f.mode = true ∧ (s ≠ [] → f.at + s.length ≤ limit) then
        some { f with data := written z f.data f.at s, pos := f.at + s.length }
      else none := rfl

theorem Spec.File.read_eq (f : File α) (n : Nat) :
    f.read n =
      if canRead f.mode then
        some ((f.data.drop f.pos).take n, { f with pos := f.pos + ((f.data.drop f.pos).take n).length })
      else none := rfl

theorem add64_nat (a b : Nat) (h : a + b < 2 ^ 63) : add64 (a : Int) (b : Int) = .ok ((a + b : Nat) : Int) := by
  have e : (2 : Int) ^ 63 = 9223372036854775808 := by decide
  have e' : (2 : Nat) ^ 63 = 9223372036854775808 := by decide
  rw [e'] at h
  unfold add64
  rw [e, if_pos (by omega), Int.natCast_add]

theorem putn_end (limit : Nat) (z : α) {t : Str α} {f : File α} (h : Same limit t f) (hl : limit < 2 ^ 63)
    (s : List α) (hw : canWrite f.mode = true) (he : appends f.mode = true ∨ f.pos = f.data.length) :
    putn limit z t s =
      if s ≠ [] ∧ f.data.length + s.length > limit then .throw
      else .ok ⟨f.data ++ s, ((f.data ++ s).length : Nat), f.mode⟩ := by
  obtain ⟨str, off, mode⟩ := t
  obtain ⟨h1, h2, h3, h4, h5⟩ := h
  dsimp only at h1 h2 h3
  subst h1 h2 h3
  unfold putn append
  dsimp only
  rw [if_neg (by simp [hw])]
  rw [if_pos (by
    rcases he with he | he
    · exact Or.inl he
    · exact Or.inr (by rw [he]))]
  by_cases hs : s = []
  · subst hs
    simp
  · have : ¬ s.length = 0 := fun e => hs (List.length_eq_zero_iff.1 e)
    rw [if_neg this]
    by_cases hc : f.data.length + s.length > limit
    · rw [if_pos hc, if_pos ⟨hs, hc⟩]; rfl
    · rw [if_neg hc, if_neg (fun e => hc e.2)]; rfl

/-- What `putn` does to a stream that is not at its end. -/
theorem putn_mid (limit : Nat) (z : α) {t : Str α} {f : File α} (h : Same limit t f) (hl : limit < 2 ^ 63)
    (s : List α) (hw : canWrite f.mode = true) (ha : ¬ appends f.mode = true) (he : f.pos ≠ f.data.length) :
    putn limit z t s =
      if f.pos + s.length > limit then .throw
      else .ok ⟨(f.data ++ List.replicate (f.pos - f.data.length) z).take f.pos ++ s,
        ((f.pos + s.length : Nat) : Int), f.mode⟩ := by
  obtain ⟨str, off, mode⟩ := t
  obtain ⟨h1, h2, h3, h4, h5⟩ := h
  dsimp only at h1 h2 h3
  subst h1 h2 h3
  unfold putn
  dsimp only
  rw [if_neg (by simp [hw])]
  rw [if_neg (by
    intro e
    rcases e with e | e
    · exact ha e
    · exact he (by omega))]
  by_cases hp : (f.pos : Int) > limit
  · rw [if_pos hp, if_pos (by omega)]
  rw [if_neg hp]
  have ho : offset (f.pos : Int) = .ok f.pos := by
    unfold offset
    rw [if_pos (by omega)]; simp
  rw [ho, Res.ok_bind]
  by_cases hc : s.length > limit - f.pos
  · rw [if_pos hc, if_pos (by omega)]
  rw [if_neg hc, if_neg (by omega)]
  have hr : resize limit z f.data (f.pos + s.length) =
      .ok ((f.data ++ List.replicate (f.pos + s.length - f.data.length) z).take (f.pos + s.length)) := by
    unfold resize append
    by_cases h1 : f.data.length < f.pos + s.length
    · rw [if_pos h1, if_neg (by simp only [List.length_replicate]; omega),
        if_neg (by simp only [List.length_replicate]; omega)]
      rw [List.take_of_length_le (by simp only [List.length_append, List.length_replicate]; omega)]
    · rw [if_neg h1, List.take_append_of_le_length (by omega)]
  rw [hr, Res.ok_bind]
  have h6 : add64 (f.pos : Int) (s.length : Int) = .ok ((f.pos + s.length : Nat) : Int) := by
    exact add64_nat _ _ (by omega)
  rw [h6, Res.ok_bind]
  unfold overwrite
  rw [if_pos (by simp only [List.length_take, List.length_append, List.length_replicate]; omega)]
  rw [Res.ok_map]
  have e1 : (List.take (f.pos + s.length)
      (f.data ++ List.replicate (f.pos + s.length - f.data.length) z)).drop (f.pos + s.length) = [] := by
    rw [List.drop_of_length_le (by simp only [List.length_take]; omega)]
  have e2 : (List.take (f.pos + s.length)
      (f.data ++ List.replicate (f.pos + s.length - f.data.length) z)).take f.pos =
      (f.data ++ List.replicate (f.pos - f.data.length) z).take f.pos := by
    rw [List.take_take, Nat.min_eq_left (by omega), List.take_append, List.take_append]
    rw [List.take_replicate, List.take_replicate, show min (f.pos - f.data.length) (f.pos + s.length - f.data.length)
      = min (f.pos - f.data.length) (f.pos - f.data.length) by omega]
  rw [e1, e2, List.append_nil]

theorem written_end (z : α) (data s : List α) : written z data data.length s = data ++ s := by
  unfold written
  by_cases h : s = []
  · simp [h]
  · rw [if_neg h, Nat.sub_self, List.drop_of_length_le (by omega)]
    simp

theorem written_reach (z : α) (data s : List α) (pos : Nat) (hs : s ≠ []) (h : data.length ≤ pos + s.length) :
    written z data pos s = (data ++ List.replicate (pos - data.length) z).take pos ++ s := by
  unfold written
  rw [if_neg hs, List.drop_of_length_le h, List.append_nil]

theorem written_length (z : α) (data s : List α) (pos limit : Nat) (h : data.length ≤ limit)
    (h' : s ≠ [] → pos + s.length ≤ limit) : (written z data pos s).length ≤ limit := by
  unfold written
  by_cases hs : s = []
  · rw [if_pos hs]; exact h
  · rw [if_neg hs]
    have := h' hs
    simp only [List.length_append, List.length_take, List.length_replicate, List.length_drop]
    omega

/-- `putn` where the write reaches the end. -/
theorem putn_reaches (limit : Nat) (z : α) {t : Str α} {f : File α} (h : Same limit t f) (hl : limit < 2 ^ 63)
    (s : List α) (hr : Reaches f s) :
    match f.write limit z s with
    | some f' => ∃ t', putn limit z t s = .ok t' ∧ Same limit t' f'
    | none => putn limit z t s = .throw := by
  rw [File.write_eq]
  by_cases hw : canWrite f.mode = true
  rotate_left
  · rw [if_neg (fun e => hw e.1)]
    simp only
    unfold putn
    rw [h.mode, if_pos hw]
  by_cases hc : s ≠ [] → f.at + s.length ≤ limit
  · rw [if_pos ⟨hw, hc⟩]
    simp only
    have hlen := written_length z f.data s f.at limit h.le hc
    by_cases he : appends f.mode = true ∨ f.pos = f.data.length
    · have hat : f.at = f.data.length := by
        rw [File.at_eq]
        rcases he with he | he
        · rw [if_pos he]
        · by_cases ha : appends f.mode = true
          · rw [if_pos ha]
          · rw [if_neg ha, he]
      rw [hat] at hc hlen ⊢
      rw [putn_end limit z h hl s hw he, if_neg (by
        intro e
        have := hc e.1
        omega)]
      refine ⟨_, rfl, ?_, ?_, rfl, hlen, ?_⟩
      · rw [written_end]
      · simp only [List.length_append]
      · rw [written_end, List.length_append] at hlen
        simp only
        omega
    · have ha : ¬ appends f.mode = true := fun e => he (Or.inl e)
      have he' : f.pos ≠ f.data.length := fun e => he (Or.inr e)
      have hat : f.at = f.pos := by rw [File.at_eq]; rw [if_neg ha]
      unfold Reaches at hr
      rw [hat] at hc hlen hr ⊢
      have hs : s ≠ [] := fun e => he' (hr.2 e)
      have := hc hs
      rw [putn_mid limit z h hl s hw ha he', if_neg (by omega)]
      refine ⟨_, rfl, ?_, rfl, rfl, hlen, ?_⟩
      · rw [written_reach z _ _ _ hs hr.1]
      · simp only; omega
  · rw [if_neg (fun e => hc e.2)]
    simp only
    have hs : s ≠ [] := by
      intro e; exact hc (fun e' => absurd e e')
    have hg : f.at + s.length > limit := by
      apply Nat.lt_of_not_le
      intro e; exact hc (fun _ => e)
    by_cases ha : appends f.mode = true
    · have hat : f.at = f.data.length := by rw [File.at_eq]; rw [if_pos ha]
      rw [hat] at hg
      rw [putn_end limit z h hl s hw (Or.inl ha), if_pos ⟨hs, hg⟩]
    · have hat : f.at = f.pos := by rw [File.at_eq]; rw [if_neg ha]
      rw [hat] at hg
      by_cases he : f.pos = f.data.length
      · rw [putn_end limit z h hl s hw (Or.inr he), if_pos ⟨hs, by omega⟩]
      · rw [putn_mid limit z h hl s hw ha he, if_pos hg]

theorem putc_eq (limit : Nat) (z : α) {t : Str α} {f : File α} (h : Same limit t f) (c : α) :
    putc limit z t c = putn limit z t [c] := by
  unfold putc putn
  by_cases hw : ¬ canWrite t.mode = true
  · rw [if_pos hw, if_pos hw]
  rw [if_neg hw, if_neg hw]
  by_cases he : appends t.mode = true ∨ t.off = t.str.length
  · rw [if_pos he, if_pos he]
  rw [if_neg he, if_neg he]
  have ho : offset t.off = .ok f.pos := by
    unfold offset
    rw [h.pos, if_pos (by omega)]; simp
  rw [ho, Res.ok_bind, Res.ok_bind]
  have hp := h.pos
  by_cases h1 : t.off ≥ limit
  · rw [if_pos h1]
    by_cases h2 : t.off > limit
    · rw [if_pos h2]
    · rw [if_neg h2, if_pos (by simp only [List.length_singleton]; omega)]
  · rw [if_neg h1, if_neg (by omega), if_neg (by simp only [List.length_singleton]; omega)]
    rfl

theorem getn_eq (limit : Nat) {t : Str α} {f : File α} (h : Same limit t f) (hl : limit < 2 ^ 63) (n : Nat) :
    Agrees limit (f.read n) (getn t n) := by
  obtain ⟨str, off, mode⟩ := t
  obtain ⟨h1, h2, h3, h4, h5⟩ := h
  dsimp only at h1 h2 h3
  subst h1 h2 h3
  rw [File.read_eq]
  unfold getn
  dsimp only
  by_cases hr : canRead f.mode = true
  rotate_left
  · rw [if_neg hr, if_pos hr]
    rfl
  rw [if_pos hr, if_neg (not_not_intro hr)]
  by_cases hc : (f.pos : Int) ≥ f.data.length
  · rw [if_pos hc]
    have : f.data.drop f.pos = [] := List.drop_of_length_le (by omega)
    rw [this]
    simp only [List.take_nil]
    exact ⟨_, rfl, rfl, rfl, rfl, h4, h5⟩
  · rw [if_neg hc]
    have ho : offset (f.pos : Int) = .ok f.pos := by
      unfold offset
      rw [if_pos (by omega)]; simp
    rw [ho, Res.ok_bind]
    have h6 : add64 (f.pos : Int) ((min n (f.data.length - f.pos) : Nat) : Int)
        = .ok ((f.pos + min n (f.data.length - f.pos) : Nat) : Int) := by
      exact add64_nat _ _ (by omega)
    rw [h6, Res.ok_bind]
    have e1 : (f.data.drop f.pos).take (min n (f.data.length - f.pos)) = (f.data.drop f.pos).take n := by
      rw [List.take_eq_take_iff, List.length_drop]; omega
    rw [e1]
    refine ⟨_, rfl, rfl, ?_, rfl, h4, ?_⟩
    · simp only [List.length_take, List.length_drop]
    · simp only [List.length_take, List.length_drop]; omega

theorem getc_eq (limit : Nat) {t : Str α} {f : File α} (h : Same limit t f) :
    getc t = (getn t 1).map fun r => (r.1.head?, r.2) := by
  obtain ⟨str, off, mode⟩ := t
  obtain ⟨h1, h2, h3, h4, h5⟩ := h
  dsimp only at h1 h2 h3
  subst h1 h2 h3
  unfold getc getn
  dsimp only
  by_cases hr : canRead f.mode = true
  rotate_left
  · rw [if_pos hr, if_pos hr]; rfl
  rw [if_neg (not_not_intro hr), if_neg (not_not_intro hr)]
  by_cases hc : (f.pos : Int) ≥ f.data.length
  · rw [if_pos hc, if_pos hc]; rfl
  rw [if_neg hc, if_neg hc]
  have ho : offset (f.pos : Int) = .ok f.pos := by
    unfold offset
    rw [if_pos (by omega)]; simp
  rw [ho, Res.ok_bind, Res.ok_bind, Nat.min_eq_left (by omega)]
  cases ha : add64 (f.pos : Int) 1 with
  | ok o =>
    rw [Res.ok_bind, Res.ok_bind]
    cases hd : f.data.drop f.pos with
    | nil =>
      have := congrArg List.length hd
      simp only [List.length_drop, List.length_nil] at this
      omega
    | cons c l => simp
  | throw =>
    rfl
  | ub =>
    rfl

theorem seek_eq (limit : Nat) {t : Str α} {f : File α} (h : Same limit t f) (z : α) (off : Int) (dir : Dir) :
    match f.step limit z (.seek off dir) with
    | some r => ∃ t', seek t off dir = .ok t' ∧ r.1 = .done ∧ Same limit t' r.2
    | none => seek t off dir = .throw := by
  obtain ⟨str, o, mode⟩ := t
  obtain ⟨h1, h2, h3, h4, h5⟩ := h
  dsimp only at h1 h2 h3
  subst h1 h2 h3
  have key : ∀ orig : Int,
      match (if 0 ≤ orig + off ∧ orig + off < 2 ^ 63 then
        some ((Out.done : Out α), ({ f with pos := (orig + off).toNat } : File α)) else none) with
      | some r => ∃ t', (if ¬ (-(2 ^ 63 : Int) ≤ orig + off ∧ orig + off < (2 ^ 63 : Int)) then .throw
          else if orig + off < 0 then .throw
          else .ok { (⟨f.data, (f.pos : Int), f.mode⟩ : Str α) with off := orig + off } : Res (Str α)) = .ok t' ∧
          r.1 = .done ∧ Same limit t' r.2
      | none => (if ¬ (-(2 ^ 63 : Int) ≤ orig + off ∧ orig + off < (2 ^ 63 : Int)) then .throw
          else if orig + off < 0 then .throw
          else .ok { (⟨f.data, (f.pos : Int), f.mode⟩ : Str α) with off := orig + off } : Res (Str α)) = .throw := by
    intro orig
    have e : (2 : Int) ^ 63 = 9223372036854775808 := by decide
    have e' : (2 : Nat) ^ 63 = 9223372036854775808 := by decide
    rw [e]
    by_cases hc : 0 ≤ orig + off ∧ orig + off < 9223372036854775808
    · rw [if_pos hc]
      simp only
      rw [if_neg (by omega), if_neg (by omega)]
      refine ⟨_, rfl, trivial, rfl, ?_, rfl, h4, ?_⟩
      · simp only; omega
      · simp only; omega
    · rw [if_neg hc]
      simp only
      by_cases h1 : ¬ (-9223372036854775808 ≤ orig + off ∧ orig + off < 9223372036854775808)
      · rw [if_pos h1]
      · rw [if_neg h1, if_pos (by omega)]
  unfold File.step File.origin seek
  cases dir with
  | set => exact key 0
  | cur => exact key f.pos
  | fin => exact key f.data.length
  | other => rfl

/-! ## C146 -/

/-- One operation whose write, if it is one, reaches the end. -/
theorem C146_step_partial (limit : Nat) (hl : limit < 2 ^ 63) (z : α) (t : Str α) (f : File α)
    (h : Same limit t f) (op : Op α) (hp : op.pre limit) (hr : op.reaches f) :
    Agrees limit (f.step limit z op) (step limit z t op) := by
  cases op with
  | seek off dir =>
    have := seek_eq limit h z off dir
    show Agrees limit (f.step limit z (.seek off dir)) ((seek t off dir).map fun t => (.done, t))
    cases hs : f.step limit z (.seek off dir) with
    | none => rw [hs] at this; simp only at this; rw [this]; rfl
    | some r =>
      rw [hs] at this
      obtain ⟨t', h1, h2, h3⟩ := this
      exact ⟨t', by rw [h1, h2]; rfl, h3⟩
  | tell => exact ⟨t, congrArg (fun i => Res.ok (Out.num i, t)) h.pos, h⟩
  | getn n => exact (getn_eq limit h hl n).map _
  | getc =>
    show Agrees limit ((f.read 1).map fun r => (Out.elem r.1.head?, r.2)) ((getc t).map fun r => (Out.elem r.1, r.2))
    rw [getc_eq limit h]
    have := (getn_eq limit h hl 1).map (fun l => (Out.elem l.head? : Out α))
    revert this
    cases getn t 1 <;> exact id
  | putn s => exact Agrees.unit (putn_reaches limit z h hl s hr)
  | putc c =>
    show Agrees limit ((f.write limit z [c]).map fun f => (Out.done, f)) ((putc limit z t c).map fun t => (Out.done, t))
    rw [putc_eq limit z h]
    exact Agrees.unit (putn_reaches limit z h hl [c] hr)
  | set s m =>
    refine ⟨_, rfl, rfl, rfl, ?_, hp, by simp⟩
    simp only [setString, h.mode]
  | clear => exact ⟨_, rfl, rfl, rfl, h.mode, Nat.zero_le _, by simp⟩
  | extract =>
    refine ⟨_, congrArg (fun d => Res.ok (Out.elems d, (⟨[], 0, t.mode⟩ : Str α))) h.data, rfl, rfl, h.mode,
      Nat.zero_le _, by simp⟩

/-- C146, as far as it is true: in any sequence of operations in which every write reaches the end of what
there is, the stream gives what a file gives, ends with the contents and at the position of the file, and
throws where the file reports an error.

Missing is what happens when a write ends before the end: `C146_false`, `C146_write`. -/
theorem C146_partial (limit : Nat) (hl : limit < 2 ^ 63) (z : α) (ops : List (Op α)) (t : Str α) (f : File α)
    (h : Same limit t f) (hp : ∀ op ∈ ops, op.pre limit) (hr : AllReach limit z f ops) :
    Agrees limit (f.steps limit z ops) (steps limit z t ops) := by
  induction ops generalizing t f with
  | nil => exact ⟨t, rfl, h⟩
  | cons op ops ih =>
    have h1 := C146_step_partial limit hl z t f h op (hp op (List.mem_cons_self ..)) hr.1
    unfold File.steps steps
    cases hs : f.step limit z op with
    | none =>
      rw [hs] at h1
      have h1 : step limit z t op = .throw := h1
      rw [h1]; rfl
    | some r =>
      rw [hs] at h1
      obtain ⟨t1, h2, h3⟩ := h1
      have h4 := ih t1 r.2 h3 (fun o ho => hp o (List.mem_cons_of_mem _ ho)) (hr.2 r hs)
      rw [Option.bind_some, h2, Res.ok_bind]
      exact h4.map _

/-- C146: exactly which writes do what writing to a file does. -/
theorem C146_write (limit : Nat) (hl : limit < 2 ^ 63) (z : α) (t : Str α) (f f' : File α) (h : Same limit t f)
    (s : List α) (hf : f.write limit z s = some f') :
    (∃ t', putn limit z t s = .ok t' ∧ Same limit t' f') ↔ Reaches f s := by
  have hw : canWrite f.mode = true := by
    apply Classical.byContradiction
    intro e
    rw [File.write_eq] at hf
    rw [if_neg (fun e' => e e'.1)] at hf
    cases hf
  constructor
  rotate_left
  · intro hr
    have := putn_reaches limit z h hl s hr
    rw [hf] at this
    exact this
  intro ⟨t', h1, h2⟩
  rw [File.write_eq] at hf
  by_cases hc : canWrite f.mode = true ∧ (s ≠ [] → f.at + s.length ≤ limit)
  rotate_left
  · rw [if_neg hc] at hf; cases hf
  rw [if_pos hc] at hf
  cases hf
  have hd := h2.data
  simp only at hd
  by_cases ha : appends f.mode = true
  · have hat : f.at = f.data.length := by rw [File.at_eq]; rw [if_pos ha]
    unfold Reaches
    rw [hat]
    exact ⟨by omega, fun _ => rfl⟩
  · have hat : f.at = f.pos := by rw [File.at_eq]; rw [if_neg ha]
    unfold Reaches
    rw [hat] at hd ⊢
    by_cases he : f.pos = f.data.length
    · exact ⟨by omega, fun _ => he⟩
    rw [putn_mid limit z h hl s hw ha he] at h1
    by_cases hg : f.pos + s.length > limit
    · rw [if_pos hg] at h1; cases h1
    rw [if_neg hg] at h1
    cases h1
    simp only at hd
    have hlen := congrArg List.length hd
    unfold written at hlen
    by_cases hs : s = []
    · subst hs
      rw [if_pos rfl] at hlen
      simp only [List.length_append, List.length_take, List.length_replicate, List.length_nil] at hlen
      omega
    · rw [if_neg hs] at hlen
      simp only [List.length_append, List.length_take, List.length_replicate, List.length_drop] at hlen
      exact ⟨by omega, fun e => absurd e hs⟩

/-- What every write does: the stream ends where the write ends. -/
theorem C146_truncates (limit : Nat) (hl : limit < 2 ^ 63) (z : α) (t : Str α) (f : File α) (h : Same limit t f)
    (s : List α) (t' : Str α) (ht : putn limit z t s = .ok t') :
    t'.str.length = f.at + s.length ∧ t'.off = t'.str.length ∧
      t'.str = (f.data ++ List.replicate (f.at - f.data.length) z).take f.at ++ s := by
  have hw : canWrite f.mode = true := by
    apply Classical.byContradiction
    intro e
    unfold putn at ht
    rw [h.mode, if_pos e] at ht
    cases ht
  by_cases he : appends f.mode = true ∨ f.pos = f.data.length
  · have hat : f.at = f.data.length := by
      rw [File.at_eq]
      rcases he with he | he
      · rw [if_pos he]
      · by_cases ha : appends f.mode = true
        · rw [if_pos ha]
        · rw [if_neg ha, he]
    rw [putn_end limit z h hl s hw he] at ht
    by_cases hg : s ≠ [] ∧ f.data.length + s.length > limit
    · rw [if_pos hg] at ht; cases ht
    rw [if_neg hg] at ht
    cases ht
    rw [hat]
    simp
  · have ha : ¬ appends f.mode = true := fun e => he (Or.inl e)
    have he' : f.pos ≠ f.data.length := fun e => he (Or.inr e)
    have hat : f.at = f.pos := by rw [File.at_eq]; rw [if_neg ha]
    rw [putn_mid limit z h hl s hw ha he'] at ht
    by_cases hg : f.pos + s.length > limit
    · rw [if_pos hg] at ht; cases ht
    rw [if_neg hg] at ht
    cases ht
    rw [hat]
    refine ⟨?_, ?_, rfl⟩
    · simp only [List.length_append, List.length_take, List.length_replicate]; omega
    · simp only [List.length_append, List.length_take, List.length_replicate]; omega

/-- C146 is false: after `abc` has been written, going to the beginning and writing `x` leaves `x`, and
writing nothing leaves nothing. -/
theorem C146_false :
    (∃ t, steps 100 0 (⟨[], 0, 3⟩ : Str Nat) [.putn [97, 98, 99], .seek 0 .set, .putn [120]]
        = .ok ([.done, .done, .done], t) ∧ t.str = [120]) ∧
    (∃ f, File.steps 100 0 (⟨[], 0, 3⟩ : File Nat) [.putn [97, 98, 99], .seek 0 .set, .putn [120]]
        = some ([.done, .done, .done], f) ∧ f.data = [120, 98, 99]) ∧
    (∃ t, steps 100 0 (⟨[], 0, 3⟩ : Str Nat) [.putn [97, 98, 99], .seek 0 .set, .putn []]
        = .ok ([.done, .done, .done], t) ∧ t.str = []) :=
  ⟨⟨_, rfl, rfl⟩, ⟨_, rfl, rfl⟩, ⟨_, rfl, rfl⟩⟩

/-- C146: no sequence of operations whatever runs into undefined behaviour. -/
theorem C146_defined (limit : Nat) (hl : limit < 2 ^ 63) (z : α) (ops : List (Op α)) (t : Str α) (f : File α)
    (h : Same limit t f) (hp : ∀ op ∈ ops, op.pre limit) : steps limit z t ops ≠ .ub := by
  induction ops generalizing t f with
  | nil => intro e; cases e
  | cons op ops ih =>
    have key : step limit z t op = .throw ∨ ∃ o t' f', step limit z t op = .ok (o, t') ∧ Same limit t' f' := by
      have put : ∀ s, putn limit z t s = .throw ∨ ∃ t' f', putn limit z t s = .ok t' ∧ Same limit t' f' := by
        intro s
        by_cases hw : canWrite f.mode = true
        rotate_left
        · left; unfold putn; rw [h.mode, if_pos hw]
        by_cases he : appends f.mode = true ∨ f.pos = f.data.length
        · rw [putn_end limit z h hl s hw he]
          by_cases hg : s ≠ [] ∧ f.data.length + s.length > limit
          · rw [if_pos hg]; exact Or.inl rfl
          · rw [if_neg hg]
            have := h.le
            have hle : (f.data ++ s).length ≤ limit := by
              rw [List.length_append]
              by_cases hs : s = []
              · subst hs; simpa using this
              · apply Nat.le_of_not_lt
                intro e; exact hg ⟨hs, e⟩
            exact Or.inr ⟨_, ⟨f.data ++ s, (f.data ++ s).length, f.mode⟩, rfl, rfl, rfl, rfl, hle,
              Nat.lt_of_le_of_lt hle hl⟩
        · rw [putn_mid limit z h hl s hw (fun e => he (Or.inl e)) (fun e => he (Or.inr e))]
          by_cases hg : f.pos + s.length > limit
          · rw [if_pos hg]; exact Or.inl rfl
          · rw [if_neg hg]
            refine Or.inr ⟨_, ⟨_, f.pos + s.length, f.mode⟩, rfl, rfl, rfl, rfl, ?_, ?_⟩
            · simp only [List.length_append, List.length_take, List.length_replicate]; omega
            · simp only; omega
      have agree : ∀ o, Agrees limit o (step limit z t op) →
          step limit z t op = .throw ∨ ∃ o t' f', step limit z t op = .ok (o, t') ∧ Same limit t' f' := by
        intro o ho
        cases o with
        | none => exact Or.inl ho
        | some r =>
          obtain ⟨t', h1, h2⟩ := ho
          exact Or.inr ⟨_, t', _, h1, h2⟩
      cases op with
      | putn s =>
        have e : step limit z t (.putn s) = (putn limit z t s).map fun t => (.done, t) := rfl
        rw [e]
        rcases put s with h1 | ⟨t', f', h1, h2⟩
        · rw [h1]; exact Or.inl rfl
        · rw [h1]; exact Or.inr ⟨_, t', f', rfl, h2⟩
      | putc c =>
        have e : step limit z t (.putc c) = (putc limit z t c).map fun t => (.done, t) := rfl
        rw [e, putc_eq limit z h]
        rcases put [c] with h1 | ⟨t', f', h1, h2⟩
        · rw [h1]; exact Or.inl rfl
        · rw [h1]; exact Or.inr ⟨_, t', f', rfl, h2⟩
      | _ =>
        refine agree _ (C146_step_partial limit hl z t f h _ (hp _ (List.mem_cons_self ..)) trivial)
    unfold steps
    rcases key with h1 | ⟨o, t', f', h1, h2⟩
    · rw [h1]; intro e; cases e
    · rw [h1, Res.ok_bind]
      simp only
      have := ih t' f' h2 (fun o ho => hp o (List.mem_cons_of_mem _ ho))
      cases hs : steps limit z t' ops with
      | ok _ => intro e; cases e
      | throw => intro e; cases e
      | ub => exact absurd hs this

/-- C146: a stream that has been moved from can neither be read nor be written, and what was in it is in the
other one. -/
theorem C146_moved (limit : Nat) (z : α) (t : Str α) (n : Nat) (s : List α) :
    (moveFrom t).1 = t ∧ getn (moveFrom t).2 n = .throw ∧ putn limit z (moveFrom t).2 s = .throw ∧
      getc (moveFrom t).2 = .throw ∧ (moveFrom t).2.str = [] := 
  ⟨rfl, by simp [getn, moveFrom, canRead], by simp [putn, moveFrom, canWrite],
    by simp [getc, moveFrom, canRead], rfl⟩

/-- Beside C146: a stream is written to, read from the middle, and written past its end. -/
example : steps 100 0 (⟨[], 0, 3⟩ : Str Nat)
    [.putn [1, 2, 3], .seek 1 .set, .getn 5, .getc, .seek 2 .cur, .tell, .putc 9, .extract]
    = .ok ([.done, .done, .elems [2, 3], .elem none, .done, .num 5, .done, .elems [1, 2, 3, 0, 0, 9]],
        ⟨[], 0, 3⟩) ∧
    AllReach 100 0 (⟨[], 0, 3⟩ : File Nat) [.putn [1, 2, 3], .seek 1 .set, .getn 5, .putc 9] ∧
    Same 100 (⟨[], 0, 3⟩ : Str Nat) ⟨[], 0, 3⟩ := by
  refine ⟨rfl, ?_, ⟨rfl, rfl, rfl, by decide, by decide⟩⟩
  refine ⟨⟨by decide, (fun h => by cases h)⟩, ?_⟩
  intro r h; cases h
  refine ⟨trivial, ?_⟩
  intro r h; cases h
  refine ⟨trivial, ?_⟩
  intro r h; cases h
  exact ⟨⟨by decide, (fun h => by cases h)⟩, fun _ _ => trivial⟩

/-! ## C147 -/

/-- The loop of `putn_latin1` on a stream where writing two pieces is writing both at once. -/
theorem latin1_put {σ : Type} (put : σ → List α → Res σ) (Inv : σ → Prop)
    (hadd : ∀ t a b, Inv t → a ≠ [] → b ≠ [] → put t (a ++ b) = (put t a).bind fun t => put t b)
    (hinv : ∀ t a t', Inv t → put t a = .ok t' → Inv t')
    (ext : UInt8 → α) (M : Nat) (hM : 0 < M) (s : Bytes) (hs : s ≠ []) (t : σ) (ht : Inv t) (x : List α)
    (hx : x.length < M) : latin1 put ext M t x s = put t (x ++ s.map ext) := by
  induction s generalizing t x with
  | nil => exact absurd rfl hs
  | cons c s ih =>
    unfold latin1
    rw [if_neg (by omega)]
    by_cases hc : s ≠ [] ∧ (x ++ [ext c]).length ≠ M
    · rw [if_pos hc, ih hc.1 t ht _ (by
        have := hc.2
        rw [List.length_append, List.length_singleton] at this ⊢
        omega)]
      simp
    · rw [if_neg hc]
      by_cases hn : s = []
      · subst hn
        have : (fun t => latin1 put ext M t [] []) = fun t => Res.ok t := by
          funext t; unfold latin1; rfl
        rw [this, List.map_cons, List.map_nil]
        cases put t (x ++ [ext c]) <;> rfl
      · have e : x ++ List.map ext (c :: s) = (x ++ [ext c]) ++ s.map ext := by simp
        rw [e, hadd t (x ++ [ext c]) (s.map ext) ht (by simp) (by simp [hn])]
        cases hp : put t (x ++ [ext c]) with
        | throw => rfl
        | ub => rfl
        | ok t' =>
          rw [Res.ok_bind, Res.ok_bind, ih hn t' (hinv _ _ _ ht hp) [] (by simpa using hM), List.nil_append]

theorem putn_same (limit : Nat) (hl : limit < 2 ^ 63) (z : α) {t t' : Str α} {f : File α} (h : Same limit t f)
    (s : List α) (ht : putn limit z t s = .ok t') :
    canWrite f.mode = true ∧ f.at + s.length ≤ limit ∧
    Same limit t' ⟨(f.data ++ List.replicate (f.at - f.data.length) z).take f.at ++ s, f.at + s.length, f.mode⟩ := by
  have hw : canWrite f.mode = true := by
    apply Classical.byContradiction
    intro e
    unfold putn at ht
    rw [h.mode, if_pos e] at ht
    cases ht
  obtain ⟨h1, h2, h3⟩ := C146_truncates limit hl z t f h s t' ht
  have hm : t'.mode = f.mode ∧ f.at + s.length ≤ limit := by
    by_cases he : appends f.mode = true ∨ f.pos = f.data.length
    · have hat : f.at = f.data.length := by
        rw [File.at_eq]
        rcases he with he | he
        · rw [if_pos he]
        · by_cases ha : appends f.mode = true
          · rw [if_pos ha]
          · rw [if_neg ha, he]
      rw [putn_end limit z h hl s hw he] at ht
      by_cases hg : s ≠ [] ∧ f.data.length + s.length > limit
      · rw [if_pos hg] at ht; cases ht
      rw [if_neg hg] at ht
      cases ht
      refine ⟨rfl, ?_⟩
      rw [hat]
      by_cases hs : s = []
      · have := h.le
        subst hs; simpa using this
      · apply Nat.le_of_not_lt
        intro e; exact hg ⟨hs, e⟩
    · rw [putn_mid limit z h hl s hw (fun e => he (Or.inl e)) (fun e => he (Or.inr e))] at ht
      have hat : f.at = f.pos := by rw [File.at_eq]; rw [if_neg (fun e => he (Or.inl e))]
      by_cases hg : f.pos + s.length > limit
      · rw [if_pos hg] at ht; cases ht
      rw [if_neg hg] at ht
      cases ht
      exact ⟨rfl, by rw [hat]; omega⟩
  refine ⟨hw, hm.2, h3, ?_, hm.1, ?_, Nat.lt_of_le_of_lt hm.2 hl⟩
  · rw [h2, h1]
  · rw [← h3, h1]; exact hm.2

/-- When a write throws. -/
theorem putn_throws (limit : Nat) (hl : limit < 2 ^ 63) (z : α) {t : Str α} {f : File α} (h : Same limit t f)
    (s : List α) (hs : s ≠ []) :
    (canWrite f.mode = true ∧ f.at + s.length ≤ limit → ∃ t', putn limit z t s = .ok t') ∧
    (¬ (canWrite f.mode = true ∧ f.at + s.length ≤ limit) → putn limit z t s = .throw) := by
  by_cases hw : canWrite f.mode = true
  rotate_left
  · refine ⟨fun e => absurd e.1 hw, fun _ => ?_⟩
    unfold putn
    rw [h.mode, if_pos hw]
  by_cases he : appends f.mode = true ∨ f.pos = f.data.length
  · have hat : f.at = f.data.length := by
      rw [File.at_eq]
      rcases he with he | he
      · rw [if_pos he]
      · by_cases ha : appends f.mode = true
        · rw [if_pos ha]
        · rw [if_neg ha, he]
    rw [putn_end limit z h hl s hw he, hat]
    refine ⟨fun e => ?_, fun e => ?_⟩
    · rw [if_neg (fun e' => absurd e.2 (by omega))]
      exact ⟨_, rfl⟩
    · rw [if_pos ⟨hs, Nat.lt_of_not_le fun e' => e ⟨hw, e'⟩⟩]
  · rw [putn_mid limit z h hl s hw (fun e => he (Or.inl e)) (fun e => he (Or.inr e))]
    have hat : f.at = f.pos := by rw [File.at_eq]; rw [if_neg (fun e => he (Or.inl e))]
    rw [hat]
    refine ⟨fun e => ?_, fun e => ?_⟩
    · rw [if_neg (by omega)]
      exact ⟨_, rfl⟩
    · rw [if_pos (Nat.lt_of_not_le fun e' => e ⟨hw, e'⟩)]

theorem putn_add (limit : Nat) (hl : limit < 2 ^ 63) (z : α) {t : Str α} {f : File α} (h : Same limit t f)
    (a b : List α) (ha : a ≠ []) (hb : b ≠ []) :
    putn limit z t (a ++ b) = (putn limit z t a).bind fun t => putn limit z t b := by
  have hab : a ++ b ≠ [] := by simp [ha]
  have h1 := putn_throws limit hl z h a ha
  have h2 := putn_throws limit hl z h (a ++ b) hab
  by_cases hc : canWrite f.mode = true ∧ f.at + a.length ≤ limit
  rotate_left
  · rw [h1.2 hc, h2.2 (fun e => hc ⟨e.1, by have := e.2; rw [List.length_append] at this; omega⟩)]
    rfl
  obtain ⟨t1, e1⟩ := h1.1 hc
  obtain ⟨_, _, hs⟩ := putn_same limit hl z h a e1
  rw [e1, Res.ok_bind]
  have hlen : ((f.data ++ List.replicate (f.at - f.data.length) z).take f.at ++ a).length = f.at + a.length := by
    simp only [List.length_append, List.length_take, List.length_replicate]; omega
  have h3 := putn_end limit z hs hl b hc.1 (Or.inr hlen.symm)
  rw [h3]
  dsimp only
  rw [hlen]
  by_cases hg : canWrite f.mode = true ∧ f.at + (a ++ b).length ≤ limit
  · obtain ⟨t2, e2⟩ := h2.1 hg
    have hs2 := C146_truncates limit hl z t f h _ t2 e2
    obtain ⟨_, _, hs3⟩ := putn_same limit hl z h _ e2
    rw [e2, if_neg (fun e => by have := hg.2; rw [List.length_append] at this; omega)]
    have hd := hs3.data
    have ho := hs3.pos
    have hm := hs3.mode
    obtain ⟨x, y, w⟩ := t2
    dsimp only at hd ho hm
    subst hd ho hm
    rw [List.append_assoc]
    simp only [List.length_append, List.length_take, List.length_replicate]
    congr 2
    omega
  · have hg' : f.at + a.length + b.length > limit := by
      apply Nat.lt_of_not_le
      intro e
      exact hg ⟨hc.1, by rw [List.length_append]; omega⟩
    rw [h2.2 hg, if_pos ⟨hb, hg'⟩]

/-- C147: writing characters that are extended one by one and written in blocks of at most 32 is writing all
of them at once, also if that throws; writing none does nothing. -/
theorem C147_string (limit : Nat) (hl : limit < 2 ^ 63) (z : α) (ext : UInt8 → α) (t : Str α) (f : File α)
    (h : Same limit t f) (s : Bytes) :
    putnLatin1 (putn limit z) ext t s = if s = [] then .ok t else putn limit z t (s.map ext) := by
  unfold putnLatin1
  by_cases hs : s = []
  · subst hs; unfold latin1; rfl
  · rw [if_neg hs]
    refine (latin1_put (putn limit z) (fun t => ∃ f, Same limit t f) ?_ ?_ ext 32 (by decide) s hs t ⟨f, h⟩ []
      (by simp)).trans (by rw [List.nil_append])
    · rintro t a b ⟨f, h⟩ ha hb
      exact putn_add limit hl z h a b ha hb
    · rintro t a t' ⟨f, h⟩ ht
      exact ⟨_, (putn_same limit hl z h a ht).2.2⟩

/-- Beside C147: forty characters. -/
example : putnLatin1 (putn 100 0) UInt8.toNat (⟨[7], 1, 2⟩ : Str Nat) (List.replicate 40 200) =
    .ok ⟨7 :: List.replicate 40 200, 41, 2⟩ := by
  rw [C147_string 100 (by decide) 0 UInt8.toNat _ ⟨[7], 1, 2⟩ ⟨rfl, rfl, rfl, by decide, by decide⟩]
  rfl

/-! ## C148 -/

/-- The stream holds a queue. -/
structure Holds (t : Ln α) (q : List α) (m : Mode) : Prop where
  repr : LinearBuffer.Repr t.buf q
  mode : t.mode = m

theorem ln_queue (limit : Nat) (t : Ln α) (q : List α) (m : Mode) (h : Holds t q m) :
    (∀ n, if canRead m = true then ∃ t', t.getn n = .ok (q.take n, t') ∧ Holds t' (q.drop n) m
      else t.getn n = .throw) ∧
    (if canRead m = true then ∃ t', t.getc = .ok (q.head?, t') ∧ Holds t' q.tail m else t.getc = .throw) ∧
    (∀ s, if canWrite m = true then
        (q.length + s.length > limit ∧ t.putn limit s = .throw) ∨ ∃ t', t.putn limit s = .ok t' ∧ Holds t' (q ++ s) m
      else t.putn limit s = .throw) ∧
    (∀ c, if canWrite m = true then
        (q.length + 1 > limit ∧ t.putc limit c = .throw) ∨ ∃ t', t.putc limit c = .ok t' ∧ Holds t' (q ++ [c]) m
      else t.putc limit c = .throw) ∧
    Holds t.clear [] m ∧ t.tell = -1 ∧ ∀ off dir, t.seek off dir = .throw := by
  obtain ⟨b, m'⟩ := t
  obtain ⟨r, hm⟩ := h
  dsimp only at r hm
  subst hm
  have hget : ∀ n, ∃ b', LinearBuffer.getn b n = .ok (q.take n, b') ∧ LinearBuffer.Repr b' (q.drop n) :=
    fun n => LinearBuffer.getn_spec r n
  refine ⟨?_, ?_, ?_, ?_, ?_, rfl, fun _ _ => rfl⟩
  · intro n
    by_cases hr : canRead m' = true
    · rw [if_pos hr]
      obtain ⟨b', h1, h2⟩ := hget n
      refine ⟨⟨b', m'⟩, ?_, h2, rfl⟩
      unfold Ln.getn
      rw [if_neg (not_not_intro hr)]
      dsimp only
      rw [h1]; rfl
    · rw [if_neg hr]
      unfold Ln.getn
      rw [if_pos hr]
  · by_cases hr : canRead m' = true
    · rw [if_pos hr]
      rcases LinearBuffer.C36_step limit b q r .getc trivial with ⟨_, h1⟩ | ⟨o, b', q', h1, ⟨h2, h3⟩, h4⟩
      · obtain ⟨b', h3, h4⟩ := hget 1
        simp only [LinearBuffer.Op.run, LinearBuffer.getc] at h1
        rw [h3] at h1
        cases h1
      · subst h2 h3
        refine ⟨⟨b', m'⟩, ?_, h4, rfl⟩
        simp only [LinearBuffer.Op.run] at h1
        unfold Ln.getc
        rw [if_neg (not_not_intro hr)]
        dsimp only
        cases hg : LinearBuffer.getc b with
        | ok p =>
          rw [hg, Res.ok_map] at h1
          injection h1 with h1
          injection h1 with h5 h6
          injection h5 with h5
          rw [Res.ok_map, h5, h6]
        | throw => rw [hg] at h1; cases h1
        | ub => rw [hg] at h1; cases h1
    · rw [if_neg hr]
      unfold Ln.getc
      rw [if_pos hr]
  · intro s
    by_cases hw : canWrite m' = true
    · rw [if_pos hw]
      unfold Ln.putn
      rw [if_neg (not_not_intro hw)]
      dsimp only
      rcases LinearBuffer.C36_step limit b q r (.putn s) trivial with ⟨h1, h2⟩ | ⟨o, b', q', h1, ⟨h2, h3⟩, h4⟩
      · left
        refine ⟨h1, ?_⟩
        simp only [LinearBuffer.Op.run] at h2
        cases hg : LinearBuffer.putn limit b s with
        | ok p => rw [hg] at h2; cases h2
        | throw => rfl
        | ub => rw [hg] at h2; cases h2
      · right
        subst h2 h3
        simp only [LinearBuffer.Op.run] at h1
        cases hg : LinearBuffer.putn limit b s with
        | ok p =>
          rw [hg, Res.ok_map] at h1
          injection h1 with h1
          injection h1 with h5 h6
          subst h6
          exact ⟨⟨p, m'⟩, rfl, h4, rfl⟩
        | throw => rw [hg] at h1; cases h1
        | ub => rw [hg] at h1; cases h1
    · rw [if_neg hw]
      unfold Ln.putn
      rw [if_pos hw]
  · intro c
    by_cases hw : canWrite m' = true
    · rw [if_pos hw]
      unfold Ln.putc
      rw [if_neg (not_not_intro hw)]
      dsimp only
      rcases LinearBuffer.C36_step limit b q r (.putc c) trivial with ⟨h1, h2⟩ | ⟨o, b', q', h1, ⟨h2, h3⟩, h4⟩
      · left
        refine ⟨h1, ?_⟩
        simp only [LinearBuffer.Op.run] at h2
        cases hg : LinearBuffer.putc limit b c with
        | ok p => rw [hg] at h2; cases h2
        | throw => rfl
        | ub => rw [hg] at h2; cases h2
      · right
        subst h2 h3
        simp only [LinearBuffer.Op.run] at h1
        cases hg : LinearBuffer.putc limit b c with
        | ok p =>
          rw [hg, Res.ok_map] at h1
          injection h1 with h1
          injection h1 with h5 h6
          subst h6
          exact ⟨⟨p, m'⟩, rfl, h4, rfl⟩
        | throw => rw [hg] at h1; cases h1
        | ub => rw [hg] at h1; cases h1
    · rw [if_neg hw]
      unfold Ln.putc
      rw [if_pos hw]
  · refine ⟨⟨Nat.le_refl _, Nat.zero_le _, ?_⟩, rfl⟩
    simp [Ln.clear, LinearBuffer.clear]

/-- C148: reading takes from the front, writing puts at the back; reading throws if and only if the stream
is not readable, and writing only if it is not writable or the length limit would be exceeded.  Such a
stream has no position. -/
theorem C148_queue (limit : Nat) (t : Ln α) (q : List α) (m : Mode) (h : Holds t q m) :
    (∀ n, if mayRead m = true then ∃ t', t.getn n = .ok (q.take n, t') ∧ Holds t' (q.drop n) m
      else t.getn n = .throw) ∧
    (if mayRead m = true then ∃ t', t.getc = .ok (q.head?, t') ∧ Holds t' q.tail m else t.getc = .throw) ∧
    (∀ s, if mayWrite m = true then
        (q.length + s.length > limit ∧ t.putn limit s = .throw) ∨ ∃ t', t.putn limit s = .ok t' ∧ Holds t' (q ++ s) m
      else t.putn limit s = .throw) ∧
    (∀ c, if mayWrite m = true then
        (q.length + 1 > limit ∧ t.putc limit c = .throw) ∨ ∃ t', t.putc limit c = .ok t' ∧ Holds t' (q ++ [c]) m
      else t.putc limit c = .throw) ∧
    Holds t.clear [] m ∧ t.tell = -1 ∧ ∀ off dir, t.seek off dir = .throw :=
  ln_queue limit t q m h

/-- C148 and C147: characters put into such a stream one block after another are all put at the back, unless
the length limit would be exceeded. -/
theorem C148_latin1 (limit : Nat) (ext : UInt8 → α) (t : Ln α) (q : List α) (m : Mode) (h : Holds t q m)
    (hw : mayWrite m = true) (s : Bytes) :
    (q.length + s.length > limit ∧ putnLatin1 (Ln.putn limit) ext t s = .throw) ∨
    ∃ t', putnLatin1 (Ln.putn limit) ext t s = .ok t' ∧ Holds t' (q ++ s.map ext) m := by
  have key : ∀ (s : Bytes) (t : Ln α) (q x : List α), Holds t q m → x.length < 32 → (s = [] → x = []) →
      (q.length + x.length + s.length > limit ∧ latin1 (Ln.putn limit) ext 32 t x s = .throw) ∨
      ∃ t', latin1 (Ln.putn limit) ext 32 t x s = .ok t' ∧ Holds t' (q ++ x ++ s.map ext) m := by
    intro s
    induction s with
    | nil =>
      intro t q x h hx hn
      right
      have := hn rfl
      subst this
      exact ⟨t, rfl, by simpa using h⟩
    | cons c s ih =>
      intro t q x h hx _
      unfold latin1
      rw [if_neg (by omega)]
      by_cases hc : s ≠ [] ∧ (x ++ [ext c]).length ≠ 32
      · rw [if_pos hc]
        rcases ih t q (x ++ [ext c]) h (by
          have := hc.2
          rw [List.length_append, List.length_singleton] at this ⊢
          omega) (fun e => absurd e hc.1) with ⟨h1, h2⟩ | ⟨t', h1, h2⟩
        · left
          refine ⟨?_, h2⟩
          rw [List.length_append, List.length_singleton] at h1
          rw [List.length_cons]; omega
        · right
          refine ⟨t', h1, ?_⟩
          simpa using h2
      · rw [if_neg hc]
        have hp := (C148_queue limit t q m h).2.2.1 (x ++ [ext c])
        rw [if_pos hw] at hp
        rcases hp with ⟨h1, h2⟩ | ⟨t1, h1, h2⟩
        · left
          rw [h2]
          refine ⟨?_, rfl⟩
          rw [List.length_append, List.length_singleton] at h1
          rw [List.length_cons]; omega
        · rw [h1, Res.ok_bind]
          rcases ih t1 (q ++ (x ++ [ext c])) [] h2 (by simp) (fun _ => rfl) with ⟨h3, h4⟩ | ⟨t', h3, h4⟩
          · left
            refine ⟨?_, h4⟩
            simp only [List.length_append, List.length_singleton, List.length_nil] at h3
            rw [List.length_cons]; omega
          · right
            refine ⟨t', h3, ?_⟩
            simpa using h4
  have := key s t q [] h (by simp) (fun _ => rfl)
  simpa [putnLatin1] using this

/-- Beside C148: a queue of three elements. -/
example : ∃ t, Ln.putn 100 (⟨LinearBuffer.empty, 3⟩ : Ln Nat) [1, 2, 3] = .ok t ∧ Holds t [1, 2, 3] 3 := by
  have := (C148_queue 100 (⟨LinearBuffer.empty, 3⟩ : Ln Nat) [] 3 ⟨LinearBuffer.repr_empty, rfl⟩).2.2.1 [1, 2, 3]
  rw [if_pos (by decide)] at this
  rcases this with ⟨h, _⟩ | h
  · exact absurd h (by decide)
  · exact h

/-! ## C149 -/

/-- C149: opening a file asks for the access that is named and for nothing else; appending, creating and
truncating are asked for only together with writing; the mode string of the stream is one that POSIX permits
for these flags, it fits its array, it appends if and only if the descriptor does, and the stream can be
read and written exactly as the descriptor can.  Naming neither
reading nor writing is an error. -/
theorem C149_open (m : Mode) :
    if mayRead m = false ∧ mayWrite m = false then openArgs m = .throw
    else ∃ f s, openArgs m = .ok (f, s) ∧ f.rd = mayRead m ∧ f.wr = mayWrite m ∧
      f.append = (mayWrite m && mayAppend m) ∧ f.creat = (mayWrite m && m.testBit 4) ∧
      f.trunc = (mayWrite m && m.testBit 5) ∧ f.excl = m.testBit 6 ∧
      Permits f s ∧ s.length < 8 ∧ (s.head? = some 97 ↔ f.append = true) ∧ reads s = f.rd ∧ writes s = f.wr := by
  unfold openArgs mayRead mayWrite mayAppend
  cases h0 : m.testBit 0 <;> cases h1 : m.testBit 1 <;> cases h2 : m.testBit 2 <;> cases h3 : m.testBit 3 <;>
    cases h4 : m.testBit 4 <;> cases h5 : m.testBit 5 <;> cases h6 : m.testBit 6 <;>
    first
    | exact rfl
    | exact ⟨_, _, rfl, rfl, rfl, rfl, rfl, rfl, rfl, .rw _ (by simp) _ (by simp) rfl rfl, by decide, by decide, by decide, by decide⟩
    | exact ⟨_, _, rfl, rfl, rfl, rfl, rfl, rfl, rfl, .r _ (by simp) rfl, by decide, by decide, by decide, by decide⟩
    | exact ⟨_, _, rfl, rfl, rfl, rfl, rfl, rfl, rfl, .w _ (by simp) _ (by simp) rfl, by decide, by decide, by decide, by decide⟩

/-- Beside C149: reading and appending, in binary mode, creating the file. -/
example : openArgs (1 + 2 + 4 + 8 + 16) = .ok (⟨true, true, true, true, false, false⟩, [97, 43, 98]) := by decide

/-- C149: `O_EXCL` is passed without `O_CREAT`, which POSIX leaves undefined, when an exclusive file is not
also to be created and written. -/
theorem C149_exclusive (m : Mode) (f : Flags) (s : Bytes) (h : openArgs m = .ok (f, s)) :
    (f.excl = true ∧ f.creat = false) ↔ (m.testBit 6 = true ∧ ¬ (mayWrite m = true ∧ m.testBit 4 = true)) := by
  have := C149_open m
  by_cases hc : mayRead m = false ∧ mayWrite m = false
  · rw [if_pos hc, h] at this; cases this
  · rw [if_neg hc] at this
    obtain ⟨f', s', h1, _, _, _, h2, _, h3, _⟩ := this
    rw [h] at h1
    cases h1
    rw [h3, h2]
    cases mayWrite m <;> cases m.testBit 4 <;> cases m.testBit 6 <;> simp

end Asteria.Stream
