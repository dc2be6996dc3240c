import Verif.Model.Pipe

/-!
# Invariants of `std.system.pipe`
-/

namespace Asteria.Pipe

variable {σ : Type} {S : Setup σ} {c : σ}

/-- What holds in every state. -/
structure Inv (S : Setup σ) (s : State σ) : Prop where
  /-- Nothing that the program has written is lost. -/
  said : s.said = s.output ++ s.out
  /-- The program gets the input from its beginning. -/
  got : s.got ++ s.inp = S.input.take (s.written + s.moved)
  len : s.written + s.moved ≤ S.input.length
  closed : s.outR = false → s.out = [] ∧ s.writer = false
  exited : s.exited ≠ none → s.reader = false ∧ s.writer = false
  moved : s.pc ≠ .write → (∀ o, s.pc ≠ .done o) → s.moved = 0
  open_ : s.inW = true → s.pc ≠ .write → (∀ o, s.pc ≠ .done o) → s.written < S.input.length
  inW : s.pc = .write → s.inW = true ∧ s.written < S.input.length
  poll : s.pc = .poll → s.outR = true ∨ s.inW = true
  rd : ∀ i h o e, s.pc = .rd i h o e → (i || h || o || e) = true ∧ (i = true → s.outR = true ∧ s.out ≠ []) ∧ (h = true → s.outR = true ∧ s.writer = false) ∧
    (i = false → h = true → s.out = []) ∧ (o || e = true → s.inW = true)
  wr : ∀ o e, s.pc = .wr o e → (o || e = true → s.inW = true)
  wait : s.pc = .wait → s.outR = false ∧ s.inW = false
  returned : ∀ r, s.pc = .done (.returned r) → ∃ st, s.exited = some st ∧ s.out = [] ∧ r = if st = some 0 then some s.output else none
  killed : s.pc = .done .killed → S.sigpipe = true ∧ s.reader = false ∧ s.written + s.moved < S.input.length
  thrown : s.pc = .done .thrown → S.sigpipe = false ∧ s.reader = false ∧ s.written + s.moved < S.input.length

theorem inv_start : Inv S (start S.input c) := by
  constructor <;> simp [start]
  all_goals (cases S.input <;> simp)

theorem inv_child {s s' : State σ} (h : Inv S s) (hs : ChildStep S s s') : Inv S s' := by
  obtain ⟨h1, h2, h3, h4, h5, h6, h7, h8, h9, h10, h11, h12, h13, h14, h15⟩ := h
  cases hs with
  | readSome k p rest he ha hr hi hp =>
    exact ⟨h1, by rw [← h2, hi, List.append_assoc], h3, h4, h5, h6, h7, h8, h9, h10, h11, h12, h13, h14, h15⟩
  | readEnd k he ha hr hi hw => exact ⟨h1, h2, h3, h4, h5, h6, h7, h8, h9, h10, h11, h12, h13, h14, h15⟩
  | readBad k he ha hr => exact ⟨h1, h2, h3, h4, h5, h6, h7, h8, h9, h10, h11, h12, h13, h14, h15⟩
  | write b k he ha hw ho hl =>
    refine ⟨by simp [h1], h2, h3, fun h => by simp [ho] at h, h5, h6, h7, h8, h9, ?_, h11, h12, ?_, h14, h15⟩
    · intro i h o e hpc
      obtain ⟨g1, g2, g3, g4, g5⟩ := h10 i h o e hpc
      refine ⟨g1, fun hi => ⟨(g2 hi).1, by simp⟩, g3, fun _ hh => ?_, g5⟩
      exact absurd hw (by simp [(g3 hh).2])
    · intro r hr
      obtain ⟨st, g, _⟩ := h13 r hr
      rw [g] at he; cases he
  | writePipe b k he ha hw ho => exact absurd hw (by simp [(h4 ho).2])
  | writeBad b k he ha hw => exact ⟨h1, h2, h3, h4, h5, h6, h7, h8, h9, h10, h11, h12, h13, h14, h15⟩
  | closeIn k he ha =>
    exact ⟨h1, h2, h3, h4, fun hx => absurd he hx, h6, h7, h8, h9, h10, h11, h12, h13, fun hk => ⟨(h14 hk).1, rfl, (h14 hk).2.2⟩,
      fun hk => ⟨(h15 hk).1, rfl, (h15 hk).2.2⟩⟩
  | closeOut k he ha =>
    refine ⟨h1, h2, h3, fun h => ⟨(h4 h).1, rfl⟩, fun hx => absurd he hx, h6, h7, h8, h9, ?_, h11, h12, h13, h14, h15⟩
    intro i h o e hpc
    obtain ⟨g1, g2, g3, g4, g5⟩ := h10 i h o e hpc
    exact ⟨g1, g2, fun hh => ⟨(g3 hh).1, rfl⟩, g4, g5⟩
  | exit st he ha =>
    refine ⟨h1, h2, h3, fun h => ⟨(h4 h).1, rfl⟩, fun _ => ⟨rfl, rfl⟩, h6, h7, h8, h9, ?_, h11, h12, ?_, fun hk => ⟨(h14 hk).1, rfl, (h14 hk).2.2⟩,
      fun hk => ⟨(h15 hk).1, rfl, (h15 hk).2.2⟩⟩
    · intro i h o e hpc
      obtain ⟨g1, g2, g3, g4, g5⟩ := h10 i h o e hpc
      exact ⟨g1, g2, fun hh => ⟨(g3 hh).1, rfl⟩, g4, g5⟩
    · intro r hr
      obtain ⟨st', g, _⟩ := h13 r hr
      rw [g] at he; cases he

theorem drop_ne {l : Bytes} {n : Nat} (h : l.drop n ≠ []) : n < l.length := by
  by_cases hn : n < l.length
  · exact hn
  · exact absurd (List.drop_of_length_le (by omega)) h

theorem inv_parent {s s' : State σ} (h : Inv S s) (hs : ParentStep S s s') : Inv S s' := by
  obtain ⟨h1, h2, h3, h4, h5, h6, h7, h8, h9, h10, h11, h12, h13, h14, h15⟩ := h
  cases hs with
  | poll pollout hpc hw hw' hev =>
    refine ⟨h1, h2, h3, h4, h5, fun _ _ => h6 (by simp [hpc]) (by simp [hpc]), fun hi _ _ => h7 hi (by simp [hpc]) (by simp [hpc]),
      nofun, nofun, ?_, nofun, nofun, nofun, nofun, nofun⟩
    intro i h o e he
    injection he with e1 e2 e3 e4
    subst e1 e2 e3 e4
    refine ⟨hev, fun hi => ?_, fun hh => ?_, fun hi hh => ?_, fun ho => ?_⟩
    · simp at hi
      exact ⟨hi.1, hi.2⟩
    · simp at hh; exact hh
    · simp at hi hh
      exact hi hh.1
    · cases pollout with
      | true => exact (hw rfl).1
      | false => simp at ho; exact ho.1
  | readSome h o e p rest hpc ho hp hl =>
    obtain ⟨g1, g2, g3, g4, g5⟩ := h10 _ _ _ _ hpc
    refine ⟨by simp [h1, ho], h2, h3, ?_, h5, fun _ _ => h6 (by simp [hpc]) (by simp [hpc]), fun hi _ _ => h7 hi (by simp [hpc]) (by simp [hpc]),
      nofun, nofun, nofun, ?_, nofun, nofun, nofun, nofun⟩
    · intro hh
      exact absurd (g2 rfl).1 (by have hh : s.outR = false := hh; simp [hh])
    · intro o' e' he
      injection he with e1 e2
      subst e1 e2
      exact g5
  | readEnd h o e hpc ho hw =>
    obtain ⟨g1, g2, g3, g4, g5⟩ := h10 _ _ _ _ hpc
    exact absurd ho (g2 rfl).2
  | hup h o e hpc =>
    obtain ⟨g1, g2, g3, g4, g5⟩ := h10 _ _ _ _ hpc
    refine ⟨h1, h2, h3, ?_, h5, fun _ _ => h6 (by simp [hpc]) (by simp [hpc]), fun hi _ _ => h7 hi (by simp [hpc]) (by simp [hpc]),
      nofun, nofun, nofun, ?_, nofun, nofun, nofun, nofun⟩
    · intro hh
      cases h with
      | true => exact ⟨g4 rfl rfl, (g3 rfl).2⟩
      | false => exact h4 (by simpa using hh)
    · intro o' e' he
      injection he with e1 e2
      subst e1 e2
      exact g5
  | writeStart e hpc =>
    have hi := h11 _ _ hpc (by simp)
    refine ⟨h1, h2, h3, h4, h5, fun h => absurd rfl h, fun _ h => absurd rfl h, fun _ => ⟨hi, h7 hi (by simp [hpc]) (by simp [hpc])⟩, nofun, nofun, nofun, nofun, nofun, nofun, nofun⟩
  | err e hpc =>
    exact ⟨h1, h2, h3, h4, h5, fun _ _ => h6 (by simp [hpc]) (by simp [hpc]), fun hi _ _ => h7 (by simp at hi; exact hi.1) (by simp [hpc]) (by simp [hpc]),
      nofun, nofun, nofun, nofun, nofun, nofun, nofun, nofun⟩
  | writeSome p rest hpc hr hd hp hl =>
    have hlen : (S.input.drop (s.written + s.moved)).length = (p ++ rest).length := by rw [hd]
    rw [List.length_drop, List.length_append] at hlen
    have ht : S.input.take (s.written + (s.moved + p.length)) = S.input.take (s.written + s.moved) ++ p := by
      rw [← Nat.add_assoc, List.take_add, hd, List.take_left]
    have hp' := List.length_pos_iff.2 hp
    refine ⟨h1, ?_, ?_, h4, h5, fun h => absurd hpc h, fun _ h => absurd hpc h, fun _ => h8 hpc, ?_, ?_, ?_, ?_, ?_, ?_, ?_⟩
    · rw [← List.append_assoc, h2]; exact ht.symm
    · show s.written + (s.moved + p.length) ≤ _; omega
    all_goals (intros; simp [hpc] at *)
  | writeEnd hpc hd =>
    have hlt : S.input.length ≤ s.written + s.moved := List.drop_eq_nil_iff.1 hd
    refine ⟨h1, h2, h3, h4, h5, fun _ _ => rfl, ?_, nofun, nofun, nofun, nofun, nofun, nofun, nofun, nofun⟩
    intro hi _ _
    simp at hi
    exact hi.2
  | writeKill hpc hr hd hg =>
    exact ⟨h1, h2, h3, h4, h5, fun _ h => absurd rfl (h _), fun _ _ h => absurd rfl (h _), nofun, nofun, nofun, nofun, nofun, nofun, fun _ => ⟨hg, hr, drop_ne hd⟩, nofun⟩
  | writeFail hpc hr hd hg hm =>
    exact ⟨h1, h2, h3, h4, h5, fun _ h => absurd rfl (h _), fun _ _ h => absurd rfl (h _), nofun, nofun, nofun, nofun, nofun, nofun, nofun, fun _ => ⟨hg, hr, drop_ne hd⟩⟩
  | writePart hpc hr hd hg hm =>
    exact ⟨h1, h2, h3, h4, h5, fun _ _ => rfl, fun _ _ _ => drop_ne hd, nofun, nofun, nofun, nofun, nofun, nofun, nofun, nofun⟩
  | check hpc =>
    have hm := h6 (by simp [hpc]) (by simp [hpc])
    have ho := fun hi => h7 hi (by simp [hpc]) (by simp [hpc])
    by_cases hc : (!s.outR && !s.inW) = true
    · simp only [hc, if_true]
      simp at hc
      exact ⟨h1, h2, h3, h4, h5, fun _ _ => hm, fun hi _ _ => ho hi, nofun, nofun, nofun, nofun, fun _ => hc, nofun, nofun, nofun⟩
    · rw [if_neg hc]
      have hc' : s.outR = true ∨ s.inW = true := by
        cases hO : s.outR <;> cases hI : s.inW <;> simp_all
      exact ⟨h1, h2, h3, h4, h5, fun _ _ => hm, fun hi _ _ => ho hi, nofun, fun _ => hc', nofun, nofun, nofun, nofun, nofun, nofun⟩
  | wait st hpc he =>
    refine ⟨h1, h2, h3, h4, h5, fun _ h => absurd rfl (h _), fun _ _ h => absurd rfl (h _), nofun, nofun, nofun, nofun, nofun, ?_, nofun, nofun⟩
    intro r hr
    injection hr with hr
    injection hr with hr
    exact ⟨st, he, (h4 (h12 hpc).1).1, hr.symm⟩

theorem inv_run {n m : Nat} {s : State σ} (h : Run S c n m s) : Inv S s := by
  induction h with
  | start => exact inv_start
  | child _ hs ih => exact inv_child ih hs
  | parent _ hs ih => exact inv_parent ih hs

/-! ### Everything comes to an end -/

/-- What is left to be done by `std.system.pipe`. -/
def left (S : Setup σ) (s : State σ) : Nat :=
  s.out.length + (S.input.length - (s.written + s.moved)) + (if s.outR then 1 else 0) + (if s.inW then 1 else 0)

/-- An upper bound of the number of steps that `std.system.pipe` takes if the program does nothing. -/
def weight (S : Setup σ) (s : State σ) : Nat :=
  match s.pc with
  | .poll => 8 * left S s + 8
  | .rd _ _ _ _ => 8 * left S s + 7
  | .wr o e => if o || e then 8 * left S s + 6 else 8 * left S s + 14
  | .write => if s.moved = 0 then 8 * left S s + 5 else 8 * left S s + 12
  | .check => 8 * left S s + 10
  | .wait => 8 * left S s + 1
  | .done _ => 0

theorem weight_le (s s' : State σ) (k : Nat) (hpc : s'.pc = s.pc) (hm : s'.moved = s.moved) (hl : left S s' ≤ left S s + k) : weight S s' ≤ weight S s + 8 * k := by
  unfold weight
  rw [hpc, hm]
  cases s.pc <;> dsimp only <;> (try split) <;> omega

theorem weight_child {s s' : State σ} (hs : ChildStep S s s') : weight S s' ≤ weight S s + 8 := by
  cases hs with
  | write b k he ha hw ho hl => exact weight_le _ _ 1 rfl rfl (by simp only [left, List.length_append, List.length_singleton]; omega)
  | _ => exact Nat.le_trans (weight_le s _ 0 rfl rfl (Nat.le_refl _)) (Nat.le_add_right (weight S s) 8)

theorem weight_parent {s s' : State σ} (h : Inv S s) (hs : ParentStep S s s') : weight S s' < weight S s := by
  cases hs with
  | poll pollout hpc hw hw' hev => simp [weight, hpc, left]
  | readSome h' o e p rest hpc ho hp hl =>
    have hp' := List.length_pos_iff.2 hp
    simp only [weight, hpc, left, ho, List.length_append]
    split <;> omega
  | readEnd h' o e hpc ho hw => exact absurd ho ((h.rd _ _ _ _ hpc).2.1 rfl).2
  | hup h' o e hpc =>
    obtain ⟨g1, g2, g3, g4, g5⟩ := h.rd _ _ _ _ hpc
    simp only [weight, hpc, left]
    by_cases hoe : (o || e) = true
    · rw [if_pos hoe]
      cases h' <;> simp <;> (try split) <;> omega
    · rw [if_neg hoe]
      have hh : h' = true := by cases h' <;> cases o <;> cases e <;> simp_all
      subst hh
      rw [(g3 rfl).1]
      simp
      omega
  | writeStart e hpc =>
    have hm := h.moved (by simp [hpc]) (by simp [hpc])
    simp [weight, hpc, left, hm]
  | err e hpc =>
    simp only [weight, hpc, left]
    cases e with
    | false => simp
    | true =>
      rw [h.wr _ _ hpc (by simp)]
      simp
      omega
  | writeSome p rest hpc hr hd hp hl =>
    have hlen : (S.input.drop (s.written + s.moved)).length = (p ++ rest).length := by rw [hd]
    rw [List.length_drop, List.length_append] at hlen
    have hp' := List.length_pos_iff.2 hp
    simp only [weight, hpc, left]
    rw [if_neg (by omega)]
    generalize (if s.outR = true then 1 else 0) = x
    generalize (if s.inW = true then 1 else 0) = y
    split <;> omega
  | writeEnd hpc hd =>
    have hlt : S.input.length ≤ s.written + s.moved := List.drop_eq_nil_iff.1 hd
    have := (h.inW hpc).2
    have hm : s.moved ≠ 0 := by omega
    simp only [weight, hpc, left, if_neg hm, (h.inW hpc).1]
    generalize (if s.outR = true then 1 else 0) = x
    simp
    rw [if_neg (by omega)]
    omega
  | writeKill hpc hr hd hg => simp only [weight, hpc]; split <;> omega
  | writeFail hpc hr hd hg hm => simp only [weight, hpc]; split <;> omega
  | writePart hpc hr hd hg hm =>
    simp only [weight, hpc, left]
    rw [if_neg hm]
    omega
  | check hpc =>
    simp only [weight, hpc, left]
    split <;> simp_all <;> split at * <;> simp_all
  | wait st hpc he => simp [weight, hpc]

/-! ### Hanging -/

/-- `::write()` is called once, unless the program does not read. -/
theorem first_write {n m : Nat} {s : State σ} (h : Run S c n m s) : s.inW = true → (∀ o, s.pc ≠ .done o) → s.written = 0 ∨ s.reader = false := by
  induction h with
  | start => exact fun _ _ => .inl rfl
  | child _ hs ih =>
    cases hs <;> first
      | exact ih
      | exact fun _ _ => .inr rfl
  | parent _ hs ih =>
    cases hs with
    | writeEnd hpc hd =>
      intro hi _
      have hlt := List.drop_eq_nil_iff.1 hd
      simp at hi
      omega
    | writePart hpc hr => exact fun _ _ => .inr hr
    | writeKill | writeFail | wait => exact fun _ h => absurd rfl (h _)
    | err e hpc =>
      intro hi _
      simp at hi
      exact ih hi.1 (by simp [hpc])
    | writeSome p rest hpc => exact fun hi _ => ih hi (by simp [hpc])
    | _ => intro hi _; exact ih hi (by simp [*])

/-- Pipes do not hold more than they can. -/
theorem caps {n m : Nat} {s : State σ} (h : Run S c n m s) : s.inp.length ≤ S.cap ∧ s.out.length ≤ S.cap := by
  induction h with
  | start => exact ⟨Nat.zero_le _, Nat.zero_le _⟩
  | child _ hs ih =>
    cases hs with
    | readSome k p rest he ha hr hi hp =>
      have := ih.1
      rw [hi, List.length_append] at this
      exact ⟨by show rest.length ≤ _; omega, ih.2⟩
    | write b k he ha hw ho hl => exact ⟨ih.1, by simp; omega⟩
    | _ => exact ih
  | parent _ hs ih =>
    cases hs with
    | readSome h o e p rest hpc ho hp hl =>
      have := ih.2
      rw [ho, List.length_append] at this
      exact ⟨ih.1, by show rest.length ≤ _; omega⟩
    | writeSome p rest hpc hr hd hp hl => exact ⟨by simp; omega, ih.2⟩
    | _ => exact ih

/-- A program that is not writing to a full pipe, and does not wait for input that has not come, goes on. -/
theorem child_goes {s : State σ} (h : Inv S s) (he : s.exited = none) (hr : s.reader = true → s.inp = [] → s.inW = false) :
    (∃ s', ChildStep S s s') ∨ (S.cap ≤ s.out.length ∧ s.writer = true ∧ ∃ b k, S.ask s.child = .write b k) := by
  cases ha : S.ask s.child with
  | read k =>
    left
    by_cases h1 : s.reader = true
    · by_cases h2 : s.inp = []
      · exact ⟨_, .readEnd s k he ha h1 h2 (hr h1 h2)⟩
      · exact ⟨_, .readSome s k s.inp [] he ha h1 (by simp) h2⟩
    · exact ⟨_, .readBad s k he ha (by simpa using h1)⟩
  | write b k =>
    by_cases h1 : s.writer = true
    · by_cases h2 : s.outR = true
      · by_cases h3 : s.out.length < S.cap
        · exact .inl ⟨_, .write s b k he ha h1 h2 h3⟩
        · exact .inr ⟨by omega, h1, b, k, rfl⟩
      · exact .inl ⟨_, .writePipe s b k he ha h1 (by simpa using h2)⟩
    · exact .inl ⟨_, .writeBad s b k he ha (by simpa using h1)⟩
  | closeIn k => exact .inl ⟨_, .closeIn s k he ha⟩
  | closeOut k => exact .inl ⟨_, .closeOut s k he ha⟩
  | exit st => exact .inl ⟨_, .exit s st he ha⟩

/-- When nothing happens any more. -/
structure Stuck (S : Setup σ) (s : State σ) : Prop where
  child : ∀ s', ¬ ChildStep S s s'
  parent : ∀ s', ¬ ParentStep S s s'

theorem stuck_write {n m : Nat} {s : State σ} (hcap : 0 < S.cap) (hrun : Run S c n m s) (hs : Stuck S s) (hd : ∀ o, s.pc ≠ .done o) :
    s.pc = .write ∧ s.reader = true ∧ s.inp.length = S.cap ∧ S.cap ≤ s.out.length ∧ (∃ b k, S.ask s.child = .write b k) ∧
      s.written + s.moved < S.input.length := by
  have h := inv_run hrun
  have hf := first_write hrun
  cases hpc : s.pc with
  | done o => exact absurd hpc (hd o)
  | check => exact absurd (.check s hpc) (hs.parent _)
  | wait =>
    exfalso
    obtain ⟨w1, w2⟩ := h.wait hpc
    cases he : s.exited with
    | some st => exact hs.parent _ (.wait s st hpc he)
    | none =>
      rcases child_goes h he (fun _ _ => w2) with ⟨s', g⟩ | ⟨_, g, _⟩
      · exact hs.child _ g
      · rw [(h.closed w1).2] at g; cases g
  | wr o e =>
    exfalso
    cases o with
    | true => exact hs.parent _ (.writeStart s e hpc)
    | false => exact hs.parent _ (.err s e hpc)
  | rd i h' o e =>
    exfalso
    cases i with
    | true =>
      have hne := ((h.rd _ _ _ _ hpc).2.1 rfl).2
      refine hs.parent _ (.readSome s h' o e (s.out.take 1) (s.out.drop 1) hpc (List.take_append_drop ..).symm ?_ (by simp; omega))
      simp [hne]
    | false => exact hs.parent _ (.hup s h' o e hpc)
  | poll =>
    exfalso
    have no : ∀ pollout : Bool, (pollout = true → s.inW = true ∧ s.inp.length < S.cap) → (s.inW = true → s.inp = [] → pollout = true) →
        ¬ (((s.outR && !s.out.isEmpty) || (s.outR && !s.writer) || pollout || (s.inW && !s.reader)) = true) :=
      fun pollout g1 g2 g3 => hs.parent _ (.poll s pollout hpc g1 g2 g3)
    have h1 := no (s.inW && s.inp.isEmpty) (by simp; intro a b; exact ⟨a, by rw [b]; exact hcap⟩) (by simp; intro a b; exact ⟨a, b⟩)
    simp only [Bool.or_eq_true, Bool.and_eq_true, Bool.not_eq_true', not_or, not_and, List.isEmpty_iff] at h1
    obtain ⟨⟨⟨a1, a2⟩, a3⟩, a4⟩ := h1
    have hin : s.inW = false := by
      cases hi : s.inW with
      | false => rfl
      | true =>
        exfalso
        rcases hf hi (by simp [hpc]) with h0 | h0
        · have hg := h.got
          rw [h0, h.moved (by simp [hpc]) (by simp [hpc])] at hg
          exact a3 hi (List.append_eq_nil_iff.1 hg).2
        · exact a4 hi h0
    have hout : s.outR = true := by
      rcases h.poll hpc with h0 | h0
      · exact h0
      · rw [hin] at h0; cases h0
    have hw : s.writer = true := by simpa using a2 hout
    have ho : s.out = [] := by
      cases hx : s.out with
      | nil => rfl
      | cons x l => exact absurd (by rw [hx]; rfl) (a1 hout)
    have he : s.exited = none := by
      cases hx : s.exited with
      | none => rfl
      | some st =>
        have := (h.exited (by simp [hx])).2
        rw [this] at hw; cases hw
    rcases child_goes h he (fun _ _ => hin) with ⟨s', g⟩ | ⟨g, _⟩
    · exact hs.child _ g
    · rw [ho] at g; simp at g; omega
  | write =>
    have hne : S.input.drop (s.written + s.moved) ≠ [] := fun hx => hs.parent _ (.writeEnd s hpc hx)
    have hr : s.reader = true := by
      cases hx : s.reader with
      | true => rfl
      | false =>
        exfalso
        cases hg : S.sigpipe with
        | true => exact hs.parent _ (.writeKill s hpc hx hne hg)
        | false =>
          by_cases hm : s.moved = 0
          · exact hs.parent _ (.writeFail s hpc hx hne hg hm)
          · exact hs.parent _ (.writePart s hpc hx hne hg hm)
    have hfull : S.cap ≤ s.inp.length := by
      by_cases hx : S.cap ≤ s.inp.length
      · exact hx
      · exfalso
        refine hs.parent _ (.writeSome s ((S.input.drop (s.written + s.moved)).take 1) _ hpc hr (List.take_append_drop 1 _).symm ?_ ?_)
        · simp only [ne_eq, List.take_eq_nil_iff, not_or]
          exact ⟨by decide, hne⟩
        · rw [List.length_take]; omega
    have he : s.exited = none := by
      cases hx : s.exited with
      | none => rfl
      | some st =>
        have := (h.exited (by simp [hx])).1
        rw [this] at hr; cases hr
    have hcapb : s.inp.length ≤ S.cap := (caps hrun).1
    rcases child_goes h he (fun _ h0 => by rw [h0] at hfull; simp at hfull; omega) with ⟨s', g⟩ | ⟨g1, g2, g3⟩
    · exact absurd g (hs.child _)
    · exact ⟨rfl, hr, by omega, g1, g3, drop_ne hne⟩

end Asteria.Pipe
