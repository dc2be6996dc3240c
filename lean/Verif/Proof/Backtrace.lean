import Mathlib.Data.Nat.Digits.Lemmas
import Verif.Proof.NumText
import Verif.Spec.Backtrace

/-!
# Lemmas about backtraces
-/

namespace Asteria.Backtrace

open NumText (writeDigits writeDigits_eq digitChar putDI absValue)

theorem describe_title (t : FrameType) : describe t = (title t).toUTF8.toList := by cases t <;> rfl

theorem digitChar_eq : ∀ d < 10, digitChar d = UInt8.ofNat (0x30 + d) := by decide +kernel

theorem digit_ne : ∀ d < 10, UInt8.ofNat (0x30 + d) ≠ 0 := by decide +kernel

theorem writeDigits_numeral (n : Nat) (h : n < 2 ^ 64) : writeDigits 10 n 1 = numeral n := by
  rw [writeDigits_eq 10 (by omega) n (by omega)]
  unfold numeral
  split
  · rfl
  · apply List.map_congr_left
    intro d hd
    exact digitChar_eq d (Nat.digits_lt_base (by omega) (List.mem_reverse.mp hd))

theorem numeral_ne (n : Nat) : ∀ b ∈ numeral n, b ≠ 0 := by
  intro b hb
  unfold numeral at hb
  split at hb
  · simp at hb; subst hb; decide
  · obtain ⟨d, hd, rfl⟩ := List.mem_map.mp hb
    exact digit_ne d (Nat.digits_lt_base (by omega) (List.mem_reverse.mp hd))

theorem numeral_mono {m n : Nat} (h0 : 0 < m) (h : m ≤ n) : (numeral m).length ≤ (numeral n).length := by
  unfold numeral
  rw [if_neg (by omega), if_neg (by omega)]
  simpa using Nat.le_digits_len_le 10 m n h

theorem numeral_short {n : Nat} (h : n < 2 ^ 64) : (numeral n).length ≤ 20 := by
  unfold numeral
  split
  · simp
  · simp only [List.length_map, List.length_reverse]
    exact (Nat.digits_length_le_iff (by omega) n).mpr (by omega)

theorem putDI_integer (n : Int) (h1 : -2 ^ 31 ≤ n) (h2 : n < 2 ^ 31) : putDI n 1 = integer n := by
  unfold putDI integer
  have ha : absValue n = n.natAbs := by unfold absValue; omega
  rw [ha]
  show _ ++ writeDigits 10 n.natAbs 1 = _
  rw [writeDigits_numeral _ (by omega)]

theorem clip_eq (t : Bytes) (h : t.length < 2 ^ 64) : clip t = .ok (shortened t) := by
  unfold clip shortened
  by_cases hs : t.length ≤ 80
  · rw [if_neg (by omega), if_pos hs]
  · rw [if_pos (by omega), if_neg hs, writeDigits_numeral _ (by omega)]
    generalize numeral (t.length - 60) = x
    have e2 : Format.formatv ⟨[], [], [], []⟩ (lit " ... ($1 characters omitted)") [x]
        = .ok (" ... (".toUTF8.toList ++ (x ++ " characters omitted)".toUTF8.toList)) := by
      have e0 : lit " ... ($1 characters omitted)" = [0x20, 0x2e, 0x2e, 0x2e, 0x20, 0x28, 0x24, 0x31, 0x20, 0x63, 0x68, 0x61, 0x72, 0x61, 0x63, 0x74, 0x65, 0x72, 0x73, 0x20, 0x6f, 0x6d, 0x69, 0x74, 0x74, 0x65, 0x64, 0x29] := by
        decide +kernel
      have e1 : " ... (".toUTF8.toList = [0x20, 0x2e, 0x2e, 0x2e, 0x20, 0x28] := by decide +kernel
      have e2 : " characters omitted)".toUTF8.toList = [0x20, 0x63, 0x68, 0x61, 0x72, 0x61, 0x63, 0x74, 0x65, 0x72, 0x73, 0x20, 0x6f, 0x6d, 0x69, 0x74, 0x74, 0x65, 0x64, 0x29] := by
        decide +kernel
      rw [e0, e1, e2]
      simp [Format.formatv, Format.loop, List.takeWhile, List.dropWhile, Format.insert]
    rw [e2]
    rfl

theorem template_eq (a b c : Bytes) : Format.formatv ⟨[], [], [], []⟩ (lit "\n  $1) $2 at '$3': ") [a, b, c]
    = .ok ("\n  ".toUTF8.toList ++ (a ++ (") ".toUTF8.toList ++ (b ++ (" at '".toUTF8.toList ++ (c ++ "': ".toUTF8.toList)))))) := by
  have e0 : lit "\n  $1) $2 at '$3': " = [10, 32, 32, 0x24, 0x31, 0x29, 32, 0x24, 0x32, 32, 0x61, 0x74, 32, 0x27, 0x24, 0x33, 0x27, 0x3A, 32] := by
    decide +kernel
  have e1 : "\n  ".toUTF8.toList = [10, 32, 32] := by decide +kernel
  have e2 : ") ".toUTF8.toList = [0x29, 32] := by decide +kernel
  have e3 : " at '".toUTF8.toList = [32, 0x61, 0x74, 32, 0x27] := by decide +kernel
  have e4 : "': ".toUTF8.toList = [0x27, 0x3A, 32] := by decide +kernel
  rw [e0, e1, e2, e3, e4]
  simp [Format.formatv, Format.loop, List.takeWhile, List.dropWhile, Format.insert]

theorem takeWhile_ne {s : Bytes} (h : ∀ b ∈ s, b ≠ 0) : cstr (s ++ [0]) = s := by
  unfold cstr
  induction s with
  | nil => rfl
  | cons b s ih =>
    rw [List.cons_append, List.takeWhile_cons, if_pos (by simpa using h b (by simp)), ih fun b hb => h b (by simp [hb])]

/-- The buffer: spaces and the digits of the last number. -/
def numbered (w k : Nat) : Bytes := List.replicate (w - (numeral k).length) 0x20 ++ numeral k

theorem numbered_ne (w k : Nat) : ∀ b ∈ numbered w k, b ≠ 0 := by
  intro b hb
  rcases List.mem_append.mp hb with hb | hb
  · rw [List.eq_of_mem_replicate hb]; decide
  · exact numeral_ne k b hb

theorem overwrite_eq {w m : Nat} {ds num : Bytes} (h1 : ds.length ≤ num.length) (h2 : num.length ≤ w) (hm : m + ds.length = w) :
    overwrite (List.replicate m 0x20 ++ ds ++ [0]) num = .ok (List.replicate (w - num.length) 0x20 ++ num ++ [0]) := by
  unfold overwrite
  have hl : (List.replicate m (0x20 : UInt8) ++ ds ++ [0]).length = w + 1 := by simp; omega
  rw [hl, if_pos (by omega)]
  have e1 : w + 1 - 1 - num.length = w - num.length := by omega
  have e2 : (List.replicate m (0x20 : UInt8) ++ ds ++ [0]).take (w - num.length) = List.replicate (w - num.length) 0x20 := by
    rw [List.append_assoc, List.take_append_of_le_length (by simp; omega), List.take_replicate]
    congr 1
    omega
  have e3 : (List.replicate m (0x20 : UInt8) ++ ds ++ [0]).drop (w + 1 - 1) = [0] := by
    have : (List.replicate m (0x20 : UInt8) ++ ds).length = w + 1 - 1 := by simp; omega
    rw [← this, List.drop_left]
  rw [e1, e2, e3]

theorem frameLoop_eq {V : Type} (S : Values V) (hS : ∀ v, (S.print v).length < 2 ^ 64) (N : Nat) (hN : N < 2 ^ 64) :
    ∀ (fs : List (Frame V)) (m k : Nat) (ds : Bytes), (∀ f ∈ fs, f.sloc.Fits) → k + fs.length ≤ N →
      ds.length ≤ (numeral (k + 1)).length → m + ds.length = (numeral N).length →
      frameLoop S (List.replicate m 0x20 ++ ds ++ [0]) k fs = .ok (lines S (numeral N).length (k + 1) fs)
  | [], m, k, ds, _, _, _, _ => rfl
  | f :: fs, m, k, ds, hf, hk, hd, hm => by
    simp only [List.length_cons] at hk
    have hw : (numeral (k + 1)).length ≤ (numeral N).length := numeral_mono (by omega) (by omega)
    have hfit := hf f (by simp)
    unfold frameLoop
    rw [writeDigits_numeral _ (by omega), overwrite_eq hd hw hm, Res.ok_bind, template_eq, Res.ok_bind, clip_eq _ (hS _), Res.ok_bind,
      frameLoop_eq S hS N hN fs _ (k + 1) (numeral (k + 1)) (fun f h => hf f (by simp [h])) (by omega)
        (numeral_mono (by omega) (by omega)) (by omega), Res.ok_map]
    have hc := takeWhile_ne (numbered_ne (numeral N).length (k + 1))
    unfold numbered at hc
    rw [hc]
    rw [show lines S (numeral N).length (k + 1) (f :: fs)
      = line S (numeral N).length (k + 1) f ++ lines S (numeral N).length (k + 1 + 1) fs from rfl]
    unfold line Sloc.print
    rw [putDI_integer _ hfit.1 hfit.2.1, putDI_integer _ hfit.2.2.1 hfit.2.2.2, describe_title]
    simp only [List.append_assoc, List.singleton_append, List.cons_append, List.nil_append]

theorem message_eq {V : Type} (S : Values V) (hS : ∀ v, (S.print v).length < 2 ^ 64) (v : V) (fs : List (Frame V))
    (hf : ∀ f ∈ fs, f.sloc.Fits) (hn : fs.length < 2 ^ 64) : message S v fs = .ok (render S v fs) := by
  unfold message
  have hw := numeral_short hn
  rw [writeDigits_numeral _ hn]
  dsimp only
  rw [if_pos (by omega)]
  have := frameLoop_eq S hS fs.length hn fs (numeral fs.length).length 0 [] hf (by omega) (by simp) (by simp)
  rw [List.append_nil] at this
  rw [this, Res.ok_map]
  unfold render
  cases S.asString v <;> simp only [List.append_assoc, Option.getD_none, Option.getD_some] <;> rfl

/-- Of an exception: what it was made of, where frames are inserted, and the message. -/
structure Holds {V : Type} (S : Values V) (e : Err V) (value : V) (own rest : List (Frame V)) : Prop where
  hval : e.value = value
  hframes : e.frames = own ++ rest
  hins : e.ins = own.length
  hmsg : e.msg = render S value e.frames

theorem insertFrame_eq {V : Type} (S : Values V) (hS : ∀ v, (S.print v).length < 2 ^ 64) {e : Err V} {own rest : List (Frame V)}
    (hfr : e.frames = own ++ rest) (hi : e.ins = own.length) (t : FrameType) (l : Option Sloc) (v : V)
    (hl : (l.getD Sloc.unknown).Fits) (hf : ∀ f ∈ e.frames, f.sloc.Fits) (hn : e.frames.length + 1 < 2 ^ 64) :
    ∃ e', insertFrame S e t l v = .ok e' ∧ Holds S e' e.value (own ++ [⟨t, l.getD Sloc.unknown, v⟩]) rest := by
  unfold insertFrame
  have e1 : e.frames.take e.ins = own := by rw [hfr, hi, List.take_left]
  have e2 : e.frames.drop e.ins = rest := by rw [hfr, hi, List.drop_left]
  rw [if_pos (by rw [hfr, hi]; simp)]
  dsimp only
  rw [e1, e2, message_eq S hS]
  · refine ⟨_, rfl, rfl, ?_, ?_, rfl⟩
    · simp
    · simp [hi]
  · intro f h
    rw [hfr] at hf
    simp only [List.mem_append, List.mem_cons] at h
    rcases h with h | rfl | h
    · exact hf f (by simp [h])
    · exact hl
    · exact hf f (by simp [h])
  · rw [hfr] at hn
    simp at hn ⊢
    omega

theorem push_eq {V : Type} (S : Values V) (hS : ∀ v, (S.print v).length < 2 ^ 64) {e : Err V} {value : V} {own rest : List (Frame V)}
    (h : Holds S e value own rest) (ev : Event V) (hl : ev.sloc.Fits) (hf : ∀ f ∈ e.frames, f.sloc.Fits)
    (hn : e.frames.length + 1 < 2 ^ 64) :
    ∃ e', ev.push S e = .ok e' ∧
      if ev.leaves then Holds S e' value (own ++ ev.frame S value :: rest) [] else Holds S e' value (own ++ [ev.frame S value]) rest := by
  have key := fun t v => insertFrame_eq S hS h.hframes h.hins t (some ev.sloc) v hl hf hn
  rw [h.hval] at key
  have last : ∀ {e' : Err V} {o : List (Frame V)} {x : Frame V}, Holds S e' value (o ++ [x]) rest →
      Holds S { e' with ins := e'.frames.length } value (o ++ x :: rest) [] := by
    intro e' o x hh
    refine ⟨hh.hval, ?_, ?_, hh.hmsg⟩
    · show e'.frames = _; rw [hh.hframes]; simp
    · show e'.frames.length = _; rw [hh.hframes]; simp
  cases ev with
  | catchClause l v =>
    obtain ⟨e', h1, h2⟩ := key .catchClause v
    refine ⟨_, ?_, last h2⟩
    show pushCatch S e l v = _
    unfold pushCatch
    rw [show insertFrame S e .catchClause (some l) v = .ok e' from h1]; rfl
  | deferStmt l =>
    obtain ⟨e', h1, h2⟩ := key .deferStmt value
    refine ⟨_, ?_, last h2⟩
    show pushDefer S e l = _
    unfold pushDefer
    rw [h.hval, show insertFrame S e .deferStmt (some l) value = .ok e' from h1]; rfl
  | plain l r => exact key .plain (S.ofString r)
  | func l r => exact key .func (S.ofString r)
  | tryClause l =>
    obtain ⟨e', h1, h2⟩ := key .tryClause value
    refine ⟨e', ?_, h2⟩
    show pushTry S e l = _
    unfold pushTry
    rw [h.hval]; exact h1

theorem chain_end {V : Type} (S : Values V) (value : V) : ∀ evs : List (Event V), chain S value [] evs = evs.map (Event.frame S value)
  | [] => rfl
  | ev :: evs => by
    unfold chain
    split
    · simp
    · rw [chain_end S value evs]; rfl

/-- The frames after some events. -/
theorem pushAll_eq {V : Type} (S : Values V) (hS : ∀ v, (S.print v).length < 2 ^ 64) {value : V} : ∀ (evs : List (Event V)) {e : Err V}
    {own rest : List (Frame V)}, Holds S e value own rest → (∀ ev ∈ evs, ev.sloc.Fits) → (∀ f ∈ e.frames, f.sloc.Fits) →
    e.frames.length + evs.length < 2 ^ 64 →
    ∃ e', pushAll S e evs = .ok e' ∧ e'.value = value ∧ e'.frames = own ++ chain S value rest evs ∧ e'.msg = render S value e'.frames
  | [], e, own, rest, h, _, _, _ => ⟨e, rfl, h.hval, h.hframes, h.hmsg⟩
  | ev :: evs, e, own, rest, h, hl, hf, hn => by
    simp only [List.length_cons] at hn
    obtain ⟨e', h1, h2⟩ := push_eq S hS h ev (hl ev (by simp)) hf (by omega)
    have hfr : ∀ v, (Event.frame S v ev).sloc = ev.sloc := by intro v; cases ev <;> rfl
    have hsl := hl ev (by simp)
    have hfo := h.hframes
    by_cases hb : ev.leaves = true
    · rw [if_pos hb] at h2
      obtain ⟨e2, g1, g2, g3, g4⟩ := pushAll_eq S hS evs h2 (fun ev h => hl ev (by simp [h]))
        (by
          intro f hm
          rw [h2.hframes] at hm
          simp only [List.append_nil, List.mem_append, List.mem_cons] at hm
          rcases hm with hm | rfl | hm
          · exact hf f (by rw [hfo]; simp [hm])
          · rw [hfr]; exact hsl
          · exact hf f (by rw [hfo]; simp [hm]))
        (by rw [h2.hframes]; rw [hfo] at hn; simp at hn ⊢; omega)
      refine ⟨e2, ?_, g2, ?_, g4⟩
      · unfold pushAll; rw [h1]; exact g1
      · rw [g3]
        show _ = own ++ chain S value rest (ev :: evs)
        rw [show chain S value rest (ev :: evs) = _ from if_pos hb, chain_end]
        simp
    · rw [if_neg hb] at h2
      obtain ⟨e2, g1, g2, g3, g4⟩ := pushAll_eq S hS evs h2 (fun ev h => hl ev (by simp [h]))
        (by
          intro f hm
          rw [h2.hframes] at hm
          simp only [List.mem_append, List.mem_singleton] at hm
          rcases hm with (hm | rfl) | hm
          · exact hf f (by rw [hfo]; simp [hm])
          · rw [hfr]; exact hsl
          · exact hf f (by rw [hfo]; simp [hm]))
        (by rw [h2.hframes]; rw [hfo] at hn; simp at hn ⊢; omega)
      refine ⟨e2, ?_, g2, ?_, g4⟩
      · unfold pushAll; rw [h1]; exact g1
      · rw [g3]
        show _ = own ++ chain S value rest (ev :: evs)
        rw [chain, if_neg hb]
        simp

theorem made {V : Type} (S : Values V) (hS : ∀ v, (S.print v).length < 2 ^ 64) (cur : Option (Err V)) (value : V) (t : FrameType)
    (l : Option Sloc) (hl : (l.getD Sloc.unknown).Fits) (hf : ∀ f ∈ handledFrames cur, f.sloc.Fits) (evs : List (Event V))
    (he : ∀ ev ∈ evs, ev.sloc.Fits) (hn : (handledFrames cur).length + 1 + evs.length < 2 ^ 64) :
    ∃ e e', insertFrame S (fresh cur value) t l value = .ok e ∧ pushAll S e evs = .ok e' ∧ e'.value = value ∧
      e'.frames = ⟨t, l.getD Sloc.unknown, value⟩ :: chain S value (handledFrames cur) evs ∧ e'.msg = render S value e'.frames := by
  have hh : (fresh cur value).frames = handledFrames cur := by cases cur <;> rfl
  obtain ⟨e, h1, h2⟩ := insertFrame_eq S hS (e := fresh cur value) (own := []) (rest := handledFrames cur) hh rfl t l value hl
    (by rw [hh]; exact hf) (by rw [hh]; omega)
  obtain ⟨e', g1, g2, g3, g4⟩ := pushAll_eq S hS evs h2 he
    (by
      intro f hm
      rw [h2.hframes] at hm
      simp only [List.nil_append, List.singleton_append, List.mem_cons] at hm
      rcases hm with rfl | hm
      · exact hl
      · exact hf f hm)
    (by rw [h2.hframes]; simp; omega)
  exact ⟨e, e', h1, g1, g2, g3, g4⟩

theorem insertFrame_keeps {V : Type} {S : Values V} {e e' : Err V} {t : FrameType} {l : Option Sloc} {v : V}
    (h : insertFrame S e t l v = .ok e') : e.frames.Sublist e'.frames := by
  unfold insertFrame at h
  split at h
  · dsimp only at h
    generalize message S e.value _ = m at h
    cases m with
    | ok m =>
      cases h
      show e.frames.Sublist (e.frames.take e.ins ++ _ :: e.frames.drop e.ins)
      conv => lhs; rw [← List.take_append_drop e.ins e.frames]
      exact (List.Sublist.refl _).append (List.sublist_cons_self _ _)
    | throw => cases h
    | ub => cases h
  · cases h

theorem push_keeps {V : Type} {S : Values V} {e e' : Err V} {ev : Event V} (h : ev.push S e = .ok e') : e.frames.Sublist e'.frames := by
  have key : ∀ {t : FrameType} {l : Option Sloc} {v : V}, (insertFrame S e t l v).map (fun e => { e with ins := e.frames.length }) = .ok e' →
      e.frames.Sublist e'.frames := by
    intro t l v h
    generalize hi : insertFrame S e t l v = r at h
    cases r with
    | ok r => cases h; exact (insertFrame_keeps hi : e.frames.Sublist r.frames)
    | throw => cases h
    | ub => cases h
  cases ev with
  | catchClause l v => exact key h
  | deferStmt l => exact key h
  | plain l r => exact insertFrame_keeps h
  | func l r => exact insertFrame_keeps h
  | tryClause l => exact insertFrame_keeps h

theorem pushAll_keeps {V : Type} {S : Values V} : ∀ {evs : List (Event V)} {e e' : Err V}, pushAll S e evs = .ok e' →
    e.frames.Sublist e'.frames
  | [], e, e', h => by cases h; exact List.Sublist.refl _
  | ev :: evs, e, e', h => by
    unfold pushAll at h
    generalize hi : ev.push S e = r at h
    cases r with
    | ok r => exact (push_keeps hi).trans (pushAll_keeps h)
    | throw => cases h
    | ub => cases h

theorem thrown_keeps {V : Type} {S : Values V} {cur : Option (Err V)} {e : Err V} (h : Thrown S cur e) :
    (handledFrames cur).Sublist e.frames := by
  have hh : ∀ (cur : Option (Err V)) (value : V), (fresh cur value).frames = handledFrames cur := by
    intro cur value; cases cur <;> rfl
  induction h with
  | byThrow h1 h2 => rw [← hh]; exact (insertFrame_keeps h1).trans (pushAll_keeps h2)
  | byAssert h1 h2 => rw [← hh]; exact (insertFrame_keeps h1).trans (pushAll_keeps h2)
  | byNative h1 h2 => rw [← hh]; exact (insertFrame_keeps h1).trans (pushAll_keeps h2)
  | inner _ _ ih1 ih2 => exact ih1.trans ih2

theorem backtraceLoop_eq {V : Type} (e : Err V) : ∀ (n k : Nat) (acc : List (List (Bytes × Field V))), k + n = e.frames.length →
    backtraceLoop e n k acc = .ok (acc ++ (e.frames.drop k).map element)
  | 0, k, acc, h => by
    rw [List.drop_eq_nil_of_le (by omega)]
    simp [backtraceLoop]
  | n + 1, k, acc, h => by
    have hk : k < e.frames.length := by omega
    unfold backtraceLoop
    rw [List.getElem?_eq_getElem hk]
    dsimp only
    rw [backtraceLoop_eq e n (k + 1) _ (by omega), List.drop_eq_getElem_cons hk,
      List.map_cons, List.append_assoc, List.singleton_append]

theorem element_eq {V : Type} (f : Frame V) : element f = seen f := by
  have h1 : ¬ lit "file" ∈ [lit "frame"] := by decide +kernel
  have h2 : ¬ lit "line" ∈ [lit "frame", lit "file"] := by decide +kernel
  have h3 : ¬ lit "column" ∈ [lit "frame", lit "file", lit "line"] := by decide +kernel
  have h4 : ¬ lit "value" ∈ [lit "frame", lit "file", lit "line", lit "column"] := by decide +kernel
  simp only [element, emplace, List.map_nil, List.not_mem_nil, if_false, List.nil_append, List.map_cons, h1, h2, h3, h4, List.cons_append,
    describe_title]
  rfl

theorem chain_handled {V : Type} (S : Values V) (value : V) (handled : List (Frame V)) : ∀ evs : List (Event V),
    handled.Sublist (chain S value handled evs) ∧ (evs.map (Event.frame S value)).Sublist (chain S value handled evs)
  | [] => ⟨List.Sublist.refl _, List.nil_sublist _⟩
  | ev :: evs => by
    have ih := chain_handled S value handled evs
    unfold chain
    split
    · exact ⟨(List.sublist_append_left _ _).trans (List.sublist_cons_self _ _), (List.sublist_append_right _ _).cons_cons _⟩
    · exact ⟨ih.1.trans (List.sublist_cons_self _ _), ih.2.cons_cons _⟩

theorem scopeExit_quiet {V : Type} {S : Values V} : ∀ {ds : List (Deferred V)} {e e' : Err V},
    (∀ d ∈ ds, ∀ x r, d.2 x = .ok r → r = none) → scopeExit S e ds = .ok e' → e' = e
  | [], e, e', _, h => by cases h; rfl
  | (sloc, run) :: ds, e, e', hq, h => by
    unfold scopeExit at h
    generalize hr : run (some e) = r at h
    cases r with
    | throw => cases h
    | ub => cases h
    | ok r =>
      cases hq (sloc, run) (by simp) _ r hr
      exact scopeExit_quiet (fun d h => hq d (by simp [h])) h

theorem pushDefer_has {V : Type} {S : Values V} {e e' : Err V} {l : Sloc} (h : pushDefer S e l = .ok e') :
    e'.value = e.value ∧ ⟨.deferStmt, l, e.value⟩ ∈ e'.frames := by
  unfold pushDefer insertFrame at h
  split at h
  · dsimp only at h
    generalize message S e.value _ = m at h
    cases m with
    | ok m => cases h; exact ⟨rfl, by simp⟩
    | throw => cases h
    | ub => cases h
  · cases h

end Asteria.Backtrace
