import Verif.Proof.Exec
import Verif.Spec.Flow
import Mathlib.Logic.Relation

/-! Loops: the steps of the model against the descriptions in `Spec`. -/

namespace Asteria.Exec

open Spec Relation

variable {P : Type}

/-- The relation of an execution. -/
def rel (rec : Task P → State P → Option (Out P)) (t : Task P) (s : State P) (o : Out P) : Prop := rec t s = some o

theorem andThen_iff {o : Option (Out P)} {k : State P → Option (Out P)} {x : Out P} :
    andThen o k = some x ↔ (∃ s, o = some (.ok s) ∧ k s = some x) ∨ (o = some x ∧ Abrupt x) := by
  unfold andThen onOut
  rcases o with _ | (s | ⟨e, s⟩ | _) <;> cases x <;> simp [Abrupt]

theorem expectNext_iff {s : State P} {k : Option (Out P)} {x : Out P} :
    expectNext s k = some x ↔ (s.status = .next ∧ k = some x) ∨ (s.status ≠ .next ∧ x = .ub) := by
  unfold expectNext
  split
  · rename_i h; simp [h]
  · rename_i h; simp [h, eq_comm]

theorem value_iff {s : State P} {r : Res Value} {k : Value → Option (Out P)} {x : Out P} :
    withValue s r k = some x ↔ (∃ v, r = .ok v ∧ k v = some x) ∨ (r = .throw ∧ x = .exc message s) ∨ (r = .ub ∧ x = .ub) := by
  unfold withValue
  cases r <;> simp [eq_comm]

theorem top_iff {s : State P} {k : Ref → List Ref → Option (Out P)} {x : Out P} :
    withTop s k = some x ↔ (∃ r l, s.stack = r :: l ∧ k r l = some x) ∨ (s.stack = [] ∧ x = .ub) := by
  unfold withTop
  cases s.stack <;> simp [eq_comm]

/-- Evaluation of a condition. -/
theorem cond_iff {rec : Task P → State P → Option (Out P)} {c : List (Node P)} {s : State P} {neg : Bool}
    {A B : State P → Option (Out P)} {x : Out P} :
    (andThen (rec (.rod c) s) fun st => expectNext st <| withTop st fun r _ => withValue st (deref st.world r) fun v =>
      if test v = neg then A st else B st) = some x ↔
    (∃ s₁ v, Yields (rel rec) c s s₁ v ∧ test v = neg ∧ A s₁ = some x) ∨
    (∃ s₁ v, Yields (rel rec) c s s₁ v ∧ test v ≠ neg ∧ B s₁ = some x) ∨ NoValue (rel rec) c s x := by
  simp only [andThen_iff, expectNext_iff, top_iff, value_iff, Yields, NoValue, rel]
  constructor
  · rintro (⟨s₁, h1, ⟨hn, ⟨r, l, hs, ⟨v, hv, hx⟩ | ⟨hv, rfl⟩ | ⟨hv, rfl⟩⟩ | ⟨hs, rfl⟩⟩ | ⟨hn, rfl⟩⟩ | h)
    · split at hx
      · exact Or.inl ⟨s₁, v, ⟨h1, hn, r, l, hs, hv⟩, by assumption, hx⟩
      · exact Or.inr (Or.inl ⟨s₁, v, ⟨h1, hn, r, l, hs, hv⟩, by assumption, hx⟩)
    · exact Or.inr (Or.inr (Or.inr ⟨s₁, h1, Or.inr (Or.inr ⟨hn, r, l, hs, Or.inl ⟨hv, rfl⟩⟩)⟩))
    · exact Or.inr (Or.inr (Or.inr ⟨s₁, h1, Or.inr (Or.inr ⟨hn, r, l, hs, Or.inr ⟨hv, rfl⟩⟩)⟩))
    · exact Or.inr (Or.inr (Or.inr ⟨s₁, h1, Or.inr (Or.inl ⟨hn, hs, rfl⟩)⟩))
    · exact Or.inr (Or.inr (Or.inr ⟨s₁, h1, Or.inl ⟨hn, rfl⟩⟩))
    · exact Or.inr (Or.inr (Or.inl h))
  · rintro (⟨s₁, v, ⟨h1, hn, r, l, hs, hv⟩, ht, hx⟩ | ⟨s₁, v, ⟨h1, hn, r, l, hs, hv⟩, ht, hx⟩ | h |
      ⟨s₁, h1, ⟨hn, rfl⟩ | ⟨hn, hs, rfl⟩ | ⟨hn, r, l, hs, ⟨hv, rfl⟩ | ⟨hv, rfl⟩⟩⟩)
    · exact Or.inl ⟨s₁, h1, Or.inl ⟨hn, Or.inl ⟨r, l, hs, Or.inl ⟨v, hv, by rw [if_pos ht]; exact hx⟩⟩⟩⟩
    · exact Or.inl ⟨s₁, h1, Or.inl ⟨hn, Or.inl ⟨r, l, hs, Or.inl ⟨v, hv, by rw [if_neg ht]; exact hx⟩⟩⟩⟩
    · exact Or.inr h
    · exact Or.inl ⟨s₁, h1, Or.inr ⟨hn, rfl⟩⟩
    · exact Or.inl ⟨s₁, h1, Or.inl ⟨hn, Or.inr ⟨hs, rfl⟩⟩⟩
    · exact Or.inl ⟨s₁, h1, Or.inl ⟨hn, Or.inl ⟨r, l, hs, Or.inr (Or.inl ⟨hv, rfl⟩)⟩⟩⟩
    · exact Or.inl ⟨s₁, h1, Or.inl ⟨hn, Or.inl ⟨r, l, hs, Or.inr (Or.inr ⟨hv, rfl⟩)⟩⟩⟩

/-- Execution of a body. -/
theorem body_iff {rec : Task P → State P → Option (Out P)} {b : List (Node P)} {s : State P} {c₁ b₁ : Status}
    (hd : ∀ x : Status, ¬ (x ∈ [.cont, c₁] ∧ x ∈ [.brk, b₁])) (hb : b₁ ≠ .next)
    {A : State P → Option (Out P)} {x : Out P} :
    (andThen (rec (block b) s) fun st =>
      if (afterBody st.status c₁ b₁).1 then A (st.setStatus (afterBody st.status c₁ b₁).2)
      else some (.ok (st.setStatus (afterBody st.status c₁ b₁).2))) = some x ↔
    (∃ s₁, GoesOn (rel rec) [.cont, c₁] b s s₁ ∧ A s₁ = some x) ∨ BreaksOff (rel rec) [.cont, c₁] [.brk, b₁] b s x := by
  simp only [andThen_iff, GoesOn, BreaksOff, rel]
  constructor
  · rintro (⟨s₁, h1, hx⟩ | h)
    · unfold afterBody at hx
      split at hx
      · rename_i h
        exact Or.inl ⟨_, ⟨s₁, h1, Or.inr (by simpa using h), rfl⟩, by simpa using hx⟩
      · rename_i h
        split at hx
        · rename_i h'
          exact Or.inl ⟨_, ⟨s₁, h1, Or.inl h', rfl⟩, by simpa using hx⟩
        · rename_i h'
          split at hx
          · rename_i h''
            exact Or.inr (Or.inr ⟨s₁, h1, Or.inl ⟨by simpa using h'', by simpa using hx.symm⟩⟩)
          · rename_i h''
            refine Or.inr (Or.inr ⟨s₁, h1, Or.inr ⟨h', by simpa using h, by simpa using h'', ?_⟩⟩)
            simpa [State.setStatus] using hx.symm
    · exact Or.inr (Or.inl h)
  · rintro (⟨_, ⟨s₁, h1, h, rfl⟩, hx⟩ | h | ⟨s₁, h1, ⟨h, rfl⟩ | ⟨hn, hnc, hnb, rfl⟩⟩)
    · refine Or.inl ⟨s₁, h1, ?_⟩
      have : afterBody s₁.status c₁ b₁ = (true, .next) := by
        unfold afterBody
        rcases h with h | h
        · simp [h]
        · rw [if_pos (by simpa using h)]
      rw [this]
      simpa using hx
    · exact Or.inr h
    · refine Or.inl ⟨s₁, h1, ?_⟩
      have : afterBody s₁.status c₁ b₁ = (false, .next) := by
        unfold afterBody
        rw [if_neg (fun hc => hd s₁.status ⟨by simpa using hc, h⟩), if_neg, if_pos (by simpa using h)]
        intro h0
        rw [h0] at h
        simp at h
        exact hb h.symm
      rw [this]
      simp
    · refine Or.inl ⟨s₁, h1, ?_⟩
      have : afterBody s₁.status c₁ b₁ = (false, s₁.status) := by
        unfold afterBody
        rw [if_neg (by simpa using hnc), if_neg hn, if_neg (by simpa using hnb)]
      rw [this]
      simp [State.setStatus]

theorem disjoint_while (x : Status) : ¬ (x ∈ [Status.cont, .contWhile] ∧ x ∈ [Status.brk, .brkWhile]) := by
  cases x <;> simp

theorem disjoint_for (x : Status) : ¬ (x ∈ [Status.cont, .contFor] ∧ x ∈ [Status.brk, .brkFor]) := by
  cases x <;> simp

theorem while_step (sem : Sem P) {rec : Task P → State P → Option (Out P)} {neg : Bool} {c b k : List (Node P)} {s : State P}
    {o : Out P} : step sem rec (.whileL neg c b k) s = some o ↔
      (∃ s', WhileTurn (rel rec) neg c b s s' ∧ rec (.whileL neg c b k) s' = some o) ∨ WhileEnd (rel rec) neg c b k s o := by
  simp only [step]
  rw [cond_iff]
  simp only [body_iff (rec := rec) (A := rec (.whileL neg c b k)) disjoint_while (by decide)]
  unfold WhileTurn WhileEnd
  constructor
  · rintro (⟨s₁, v, hy, ht, hx⟩ | ⟨s₁, v, hy, ht, ⟨s₂, hg, hx⟩ | hb⟩ | h)
    · exact Or.inr (Or.inl ⟨s₁, v, hy, ht, hx⟩)
    · exact Or.inl ⟨s₂, ⟨s₁, v, hy, ht, hg⟩, hx⟩
    · exact Or.inr (Or.inr (Or.inl ⟨s₁, v, hy, ht, hb⟩))
    · exact Or.inr (Or.inr (Or.inr h))
  · rintro (⟨s₂, ⟨s₁, v, hy, ht, hg⟩, hx⟩ | ⟨s₁, v, hy, ht, hx⟩ | ⟨s₁, v, hy, ht, hb⟩ | h)
    · exact Or.inr (Or.inl ⟨s₁, v, hy, ht, Or.inl ⟨s₂, hg, hx⟩⟩)
    · exact Or.inl ⟨s₁, v, hy, ht, hx⟩
    · exact Or.inr (Or.inl ⟨s₁, v, hy, ht, Or.inr hb⟩)
    · exact Or.inr (Or.inr h)

theorem do_step (sem : Sem P) {rec : Task P → State P → Option (Out P)} {neg : Bool} {c b k : List (Node P)} {s : State P}
    {o : Out P} : step sem rec (.doL b neg c k) s = some o ↔
      (∃ s', DoTurn (rel rec) neg c b s s' ∧ rec (.doL b neg c k) s' = some o) ∨ DoEnd (rel rec) neg c b k s o := by
  simp only [step]
  rw [body_iff (rec := rec) (A := fun st => andThen (rec (.rod c) st) fun st => expectNext st <|
        withTop st fun r _ => withValue st (deref st.world r) fun v =>
          if test v = neg then rec (block k) st else rec (.doL b neg c k) st) disjoint_while (by decide)]
  simp only [cond_iff]
  unfold DoTurn DoEnd
  constructor
  · rintro (⟨s₁, hg, ⟨s₂, v, hy, ht, hx⟩ | ⟨s₂, v, hy, ht, hx⟩ | h⟩ | hb)
    · exact Or.inr (Or.inr (Or.inr ⟨s₁, s₂, v, hg, hy, ht, hx⟩))
    · exact Or.inl ⟨s₂, ⟨s₁, v, hg, hy, ht⟩, hx⟩
    · exact Or.inr (Or.inr (Or.inl ⟨s₁, hg, h⟩))
    · exact Or.inr (Or.inl hb)
  · rintro (⟨s₂, ⟨s₁, v, hg, hy, ht⟩, hx⟩ | hb | ⟨s₁, hg, h⟩ | ⟨s₁, s₂, v, hg, hy, ht, hx⟩)
    · exact Or.inl ⟨s₁, hg, Or.inr (Or.inl ⟨s₂, v, hy, ht, hx⟩)⟩
    · exact Or.inr hb
    · exact Or.inl ⟨s₁, hg, Or.inr (Or.inr h)⟩
    · exact Or.inl ⟨s₁, hg, Or.inl ⟨s₂, v, hy, ht, hx⟩⟩

theorem aside_iff {rec : Task P → State P → Option (Out P)} {t : Task P} {s : State P} {o : Out P} :
    aside rec t s = some o ↔ Outside (rel rec) t s o ∨ (s.scopes = [] ∧ o = .ub) := by
  unfold aside Outside rel
  cases h : s.scopes with
  | nil => simp [eq_comm]
  | cons x xs =>
    simp only [finish, onOut]
    constructor
    · intro ho
      refine Or.inl ⟨x, xs, ?_⟩
      split at ho
      · rename_i s' hs'
        exact ⟨_, rfl, hs', by simpa using ho.symm⟩
      · rename_i e s' hs'
        exact ⟨_, rfl, hs', by simpa using ho.symm⟩
      · rename_i h1 h2
        refine ⟨o, rfl, ho, ?_⟩
        cases o with
        | ok s' => exact absurd ho (h1 s')
        | exc e s' => exact absurd ho (h2 e s')
        | ub => rfl
    · rintro (⟨y, ys, o', hy, ho', rfl⟩ | ⟨hn, -⟩)
      · cases hy
        rw [ho']
        cases o' <;> rfl
      · cases hn

theorem for_step (sem : Sem P) {rec : Task P → State P → Option (Out P)} {c st b k : List (Node P)} {s : State P}
    {o : Out P} : step sem rec (.forL c st b k) s = some o ↔
      (∃ s', ForTurn (rel rec) c st b s s' ∧ rec (.forL c st b k) s' = some o) ∨ ForEnd (rel rec) c st b k s o := by
  simp only [step]
  have hbody : ∀ s, (andThen (rec (block b) s) fun st' =>
      if (afterBody st'.status .contFor .brkFor).1 then
        andThen (rec (.rod st) (st'.setStatus (afterBody st'.status .contFor .brkFor).2)) fun st' =>
          expectNext st' (rec (.forL c st b k) st')
      else some (.ok (st'.setStatus (afterBody st'.status .contFor .brkFor).2))) = some o ↔
      (∃ s₁ s', GoesOn (rel rec) contFor b s s₁ ∧ Plain (rel rec) st s₁ s' ∧ rec (.forL c st b k) s' = some o) ∨
      BreaksOff (rel rec) contFor brkFor b s o ∨ (∃ s₁, GoesOn (rel rec) contFor b s s₁ ∧ NotPlain (rel rec) st s₁ o) := by
    intro s
    rw [body_iff (rec := rec) (A := fun st' => andThen (rec (.rod st) st') fun st' =>
      expectNext st' (rec (.forL c st b k) st')) disjoint_for (by decide)]
    simp only [andThen_iff, expectNext_iff]
    unfold Plain NotPlain rel
    constructor
    · rintro (⟨s₁, hg, ⟨s₂, h1, ⟨hn, hx⟩ | ⟨hn, rfl⟩⟩ | h⟩ | hb)
      · exact Or.inl ⟨s₁, s₂, hg, ⟨h1, hn⟩, hx⟩
      · exact Or.inr (Or.inr ⟨s₁, hg, Or.inr ⟨s₂, h1, hn, rfl⟩⟩)
      · exact Or.inr (Or.inr ⟨s₁, hg, Or.inl h⟩)
      · exact Or.inr (Or.inl hb)
    · rintro (⟨s₁, s₂, hg, ⟨h1, hn⟩, hx⟩ | hb | ⟨s₁, hg, h | ⟨s₂, h1, hn, rfl⟩⟩)
      · exact Or.inl ⟨s₁, hg, Or.inl ⟨s₂, h1, Or.inl ⟨hn, hx⟩⟩⟩
      · exact Or.inr hb
      · exact Or.inl ⟨s₁, hg, Or.inr h⟩
      · exact Or.inl ⟨s₁, hg, Or.inl ⟨s₂, h1, Or.inr ⟨hn, rfl⟩⟩⟩
  simp only [andThen_iff (o := rec (.rod c) s), expectNext_iff]
  unfold ForTurn ForEnd
  constructor
  · rintro (⟨s₁, h1, ⟨hn, hx⟩ | ⟨hn, rfl⟩⟩ | h)
    · have fin : ForCond (rel rec) c s s₁ → (andThen (rec (block b) s₁) fun st' =>
          if (afterBody st'.status .contFor .brkFor).1 then
            andThen (rec (.rod st) (st'.setStatus (afterBody st'.status .contFor .brkFor).2)) fun st' =>
              expectNext st' (rec (.forL c st b k) st')
          else some (.ok (st'.setStatus (afterBody st'.status .contFor .brkFor).2))) = some o →
          (∃ s', (∃ s₁ s₂, ForCond (rel rec) c s s₁ ∧ GoesOn (rel rec) contFor b s₁ s₂ ∧ Plain (rel rec) st s₂ s') ∧
            rec (.forL c st b k) s' = some o) ∨ ForNoCond (rel rec) c s o ∨
            (∃ s₁ v, Yields (rel rec) c s s₁ v ∧ test v = false ∧ (Outside (rel rec) (block k) s₁ o ∨ (s₁.scopes = [] ∧ o = .ub))) ∨
            (∃ s₁, ForCond (rel rec) c s s₁ ∧ BreaksOff (rel rec) contFor brkFor b s₁ o) ∨
            (∃ s₁ s₂, ForCond (rel rec) c s s₁ ∧ GoesOn (rel rec) contFor b s₁ s₂ ∧ NotPlain (rel rec) st s₂ o) := by
        intro hc hx
        rcases (hbody s₁).1 hx with ⟨s₂, s', hg, hp, hx⟩ | hb | ⟨s₂, hg, hp⟩
        · exact Or.inl ⟨s', ⟨s₁, s₂, hc, hg, hp⟩, hx⟩
        · exact Or.inr (Or.inr (Or.inr (Or.inl ⟨s₁, hc, hb⟩)))
        · exact Or.inr (Or.inr (Or.inr (Or.inr ⟨s₁, s₂, hc, hg, hp⟩)))
      cases hs : s₁.stack with
      | nil =>
        rw [hs] at hx
        exact fin (Or.inr ⟨h1, hn, hs⟩) hx
      | cons r l =>
        rw [hs] at hx
        rcases value_iff.1 hx with ⟨v, hv, hx⟩ | ⟨hv, rfl⟩ | ⟨hv, rfl⟩
        · have hy : Yields (rel rec) c s s₁ v := ⟨h1, hn, r, l, hs, hv⟩
          cases ht : test v with
          | true =>
            rw [if_pos ht] at hx
            exact fin (Or.inl ⟨v, hy, ht⟩) hx
          | false =>
            rw [if_neg (by simp [ht])] at hx
            exact Or.inr (Or.inr (Or.inl ⟨s₁, v, hy, ht, aside_iff.1 hx⟩))
        · exact Or.inr (Or.inl (Or.inr ⟨s₁, h1, Or.inr ⟨hn, r, l, hs, Or.inl ⟨hv, rfl⟩⟩⟩))
        · exact Or.inr (Or.inl (Or.inr ⟨s₁, h1, Or.inr ⟨hn, r, l, hs, Or.inr ⟨hv, rfl⟩⟩⟩))
    · exact Or.inr (Or.inl (Or.inr ⟨s₁, h1, Or.inl ⟨hn, rfl⟩⟩))
    · exact Or.inr (Or.inl (Or.inl h))
  · have back : ∀ s₁, ForCond (rel rec) c s s₁ → (andThen (rec (block b) s₁) fun st' =>
          if (afterBody st'.status .contFor .brkFor).1 then
            andThen (rec (.rod st) (st'.setStatus (afterBody st'.status .contFor .brkFor).2)) fun st' =>
              expectNext st' (rec (.forL c st b k) st')
          else some (.ok (st'.setStatus (afterBody st'.status .contFor .brkFor).2))) = some o →
        (∃ s₁, rec (.rod c) s = some (.ok s₁) ∧ ((s₁.status = .next ∧
          (match s₁.stack with
          | [] => andThen (rec (block b) s₁) fun st' =>
            if (afterBody st'.status .contFor .brkFor).1 then
              andThen (rec (.rod st) (st'.setStatus (afterBody st'.status .contFor .brkFor).2)) fun st' =>
                expectNext st' (rec (.forL c st b k) st')
            else some (.ok (st'.setStatus (afterBody st'.status .contFor .brkFor).2))
          | r :: _ => withValue s₁ (deref s₁.world r) fun v => if test v then (andThen (rec (block b) s₁) fun st' =>
            if (afterBody st'.status .contFor .brkFor).1 then
              andThen (rec (.rod st) (st'.setStatus (afterBody st'.status .contFor .brkFor).2)) fun st' =>
                expectNext st' (rec (.forL c st b k) st')
            else some (.ok (st'.setStatus (afterBody st'.status .contFor .brkFor).2))) else aside rec (block k) s₁) = some o) ∨
          (s₁.status ≠ .next ∧ o = .ub))) := by
      rintro s₁ (⟨v, ⟨h1, hn, r, l, hs, hv⟩, ht⟩ | ⟨h1, hn, hs⟩) hx
      · refine ⟨s₁, h1, Or.inl ⟨hn, ?_⟩⟩
        rw [hs]
        exact value_iff.2 (Or.inl ⟨v, hv, by rw [if_pos ht]; exact hx⟩)
      · refine ⟨s₁, h1, Or.inl ⟨hn, ?_⟩⟩
        rw [hs]
        exact hx
    rintro (⟨s', ⟨s₁, s₂, hc, hg, hp⟩, hx⟩ | (h | ⟨s₁, h1, ⟨hn, rfl⟩ | ⟨hn, r, l, hs, hv⟩⟩) |
      ⟨s₁, v, ⟨h1, hn, r, l, hs, hv⟩, ht, ho⟩ | ⟨s₁, hc, hb⟩ | ⟨s₁, s₂, hc, hg, hp⟩)
    · exact Or.inl (back s₁ hc ((hbody s₁).2 (Or.inl ⟨s₂, s', hg, hp, hx⟩)))
    · exact Or.inr h
    · exact Or.inl ⟨s₁, h1, Or.inr ⟨hn, rfl⟩⟩
    · refine Or.inl ⟨s₁, h1, Or.inl ⟨hn, ?_⟩⟩
      rw [hs]
      exact value_iff.2 (Or.inr hv)
    · refine Or.inl ⟨s₁, h1, Or.inl ⟨hn, ?_⟩⟩
      rw [hs]
      exact value_iff.2 (Or.inl ⟨v, hv, by rw [if_neg (by simp [ht])]; exact aside_iff.2 ho⟩)
    · exact Or.inl (back s₁ hc ((hbody s₁).2 (Or.inr (Or.inl hb))))
    · exact Or.inl (back s₁ hc ((hbody s₁).2 (Or.inr (Or.inr ⟨s₂, hg, hp⟩))))

/-- From steps to sequences of turns. -/
theorem loop_iff (sem : Sem P) (L : Task P) (Turn : (Task P → State P → Out P → Prop) → State P → State P → Prop)
    (End : (Task P → State P → Out P → Prop) → State P → Out P → Prop)
    (hstep : ∀ rec s o, step sem rec L s = some o ↔ (∃ s', Turn (rel rec) s s' ∧ rec L s' = some o) ∨ End (rel rec) s o)
    (hT : ∀ R R' : Task P → State P → Out P → Prop, (∀ t s o, R t s o → R' t s o) → ∀ s s', Turn R s s' → Turn R' s s')
    (hE : ∀ R R' : Task P → State P → Out P → Prop, (∀ t s o, R t s o → R' t s o) → ∀ s o, End R s o → End R' s o)
    (s : State P) (o : Out P) :
    Runs sem L s o ↔ ∃ s', ReflTransGen (Turn (Runs sem)) s s' ∧ End (Runs sem) s' o := by
  have hsub : ∀ n t s o, rel (exec sem n) t s o → Runs sem t s o := fun n t s o h => ⟨n, h⟩
  have hrel : ∀ t s o, rel (run sem) t s o ↔ Runs sem t s o := fun t s o => run_eq_some
  constructor
  · rintro ⟨n, hn⟩
    induction n generalizing s with
    | zero => simp [exec] at hn
    | succ n ih =>
      rcases (hstep _ s o).1 hn with ⟨s', ht, hx⟩ | he
      · obtain ⟨s'', h1, h2⟩ := ih s' hx
        exact ⟨s'', ReflTransGen.head (hT _ _ (hsub n) _ _ ht) h1, h2⟩
      · exact ⟨s, ReflTransGen.refl, hE _ _ (hsub n) _ _ he⟩
  · rintro ⟨s', h1, h2⟩
    induction h1 using ReflTransGen.head_induction_on with
    | refl =>
      rw [← run_eq_some, run_step]
      exact (hstep _ _ _).2 (Or.inr (hE _ _ (fun t s o h => (hrel t s o).2 h) _ _ h2))
    | head ht _ ih =>
      rw [← run_eq_some, run_step]
      exact (hstep _ _ _).2 (Or.inl ⟨_, hT _ _ (fun t s o h => (hrel t s o).2 h) _ _ ht, run_eq_some.2 ih⟩)

theorem rel_run (sem : Sem P) : rel (run sem) = Runs sem := by
  funext t s o
  exact propext run_eq_some

theorem each_iff (sem : Sem P) (kn : Option Name) (mn : Name) (r : Ref) (b k : List (Node P))
    (es : List (Value × Subscript.Sub)) (s : State P) (o : Out P) :
    Runs sem (.eachL es kn mn r b k) s o ↔ Each (Runs sem) kn mn r b k es s o := by
  induction es generalizing s with
  | nil =>
    rw [← run_eq_some, run_step]
    simp only [step]
    rw [aside_iff, rel_run]
    unfold Each
    constructor
    · intro h
      exact Or.inl ⟨s, rfl, h⟩
    · rintro (⟨s', rfl, h⟩ | ⟨done, e, rest, s', h, -⟩)
      · exact h
      · simp at h
  | cons e es ih =>
    rw [← run_eq_some, run_step]
    simp only [step]
    rw [value_iff]
    simp only [body_iff (rec := run sem) (A := run sem (.eachL es kn mn r b k)) disjoint_for (by decide), rel_run,
      run_eq_some, ih]
    constructor
    · rintro (⟨v, hv, ⟨s₁, hg, ⟨s', ht, hx⟩ | ⟨done, e', rest, s', rfl, ht, hx⟩⟩ | hb⟩ | ⟨hv, ho⟩ | ⟨hv, ho⟩)
      · exact Or.inl ⟨s', ⟨s₁, ⟨v, hv, hg⟩, ht⟩, hx⟩
      · exact Or.inr ⟨e :: done, e', rest, s', rfl, ⟨s₁, ⟨v, hv, hg⟩, ht⟩, hx⟩
      · exact Or.inr ⟨[], e, es, s, rfl, rfl, Or.inl ⟨v, hv, hb⟩⟩
      · exact Or.inr ⟨[], e, es, s, rfl, rfl, Or.inr (Or.inl ⟨hv, ho⟩)⟩
      · exact Or.inr ⟨[], e, es, s, rfl, rfl, Or.inr (Or.inr ⟨hv, ho⟩)⟩
    · rintro (⟨s', ⟨s₁, ⟨v, hv, hg⟩, ht⟩, hx⟩ | ⟨done, e', rest, s', hes, ht, hx⟩)
      · exact Or.inl ⟨v, hv, Or.inl ⟨s₁, hg, Or.inl ⟨s', ht, hx⟩⟩⟩
      · rcases done with _ | ⟨d, done⟩
        · simp only [List.nil_append, List.cons.injEq] at hes
          obtain ⟨rfl, rfl⟩ := hes
          cases ht
          rcases hx with ⟨v, hv, hb⟩ | h | h
          · exact Or.inl ⟨v, hv, Or.inr hb⟩
          · exact Or.inr (Or.inl h)
          · exact Or.inr (Or.inr h)
        · simp only [List.cons_append, List.cons.injEq] at hes
          obtain ⟨rfl, rfl⟩ := hes
          obtain ⟨s₁, ⟨v, hv, hg⟩, ht⟩ := ht
          exact Or.inl ⟨v, hv, Or.inl ⟨s₁, hg, Or.inr ⟨done, e', rest, s', rfl, ht, hx⟩⟩⟩

theorem clauses_iff (sem : Sem P) (cs : List (Clause P)) (s : State P) (o : Out P) :
    Runs sem (.clauses cs) s o ↔ Bodies (Runs sem) cs s o := by
  induction cs generalizing s with
  | nil =>
    rw [← run_eq_some, run_step]
    simp only [step]
    unfold Bodies
    constructor
    · intro h
      exact Or.inl ⟨s, rfl, (Option.some.inj h).symm⟩
    · rintro (⟨s', rfl, rfl⟩ | ⟨done, e, rest, s', h, -⟩)
      · rfl
      · simp at h
  | cons c cs ih =>
    rw [← run_eq_some, run_step]
    simp only [step]
    rw [andThen_iff]
    constructor
    · rintro (⟨s₁, h1, hx⟩ | ⟨h1, ha⟩)
      · rw [run_eq_some] at h1
        split at hx
        · rename_i hn
          rw [run_eq_some, ih] at hx
          rcases hx with ⟨s', ht, rfl⟩ | ⟨done, c', rest, s', rfl, ht, hx⟩
          · exact Or.inl ⟨s', ⟨s₁, ⟨h1, hn⟩, ht⟩, rfl⟩
          · exact Or.inr ⟨c :: done, c', rest, s', rfl, ⟨s₁, ⟨h1, hn⟩, ht⟩, hx⟩
        · rename_i hn
          refine Or.inr ⟨[], c, cs, s, rfl, rfl, Or.inr ⟨s₁, h1, hn, ?_⟩⟩
          split at hx
          · rename_i hb
            exact Or.inl ⟨by simpa using hb, (Option.some.inj hx).symm⟩
          · rename_i hb
            exact Or.inr ⟨by simpa using hb, (Option.some.inj hx).symm⟩
      · exact Or.inr ⟨[], c, cs, s, rfl, rfl, Or.inl ⟨run_eq_some.1 h1, ha⟩⟩
    · have stop : ∀ c cs, ClauseEnds (Runs sem) c s o →
          (∃ s₁, run sem (.rod c.body) s = some (.ok s₁) ∧ (if s₁.status = .next then run sem (.clauses cs) s₁ else
            some (.ok (if s₁.status = .brk ∨ s₁.status = .brkSwitch then s₁.setStatus .next else s₁))) = some o) ∨
          (run sem (.rod c.body) s = some o ∧ Abrupt o) := by
        rintro c cs (⟨h1, ha⟩ | ⟨s₁, h1, hn, ⟨hb, rfl⟩ | ⟨hb, rfl⟩⟩)
        · exact Or.inr ⟨run_eq_some.2 h1, ha⟩
        · refine Or.inl ⟨s₁, run_eq_some.2 h1, ?_⟩
          rw [if_neg hn, if_pos (by simpa using hb)]
        · refine Or.inl ⟨s₁, run_eq_some.2 h1, ?_⟩
          rw [if_neg hn, if_neg (by simpa using hb)]
      rintro (⟨s', ⟨s₁, ⟨h1, hn⟩, ht⟩, rfl⟩ | ⟨done, c', rest, s', hes, ht, hx⟩)
      · refine Or.inl ⟨s₁, run_eq_some.2 h1, ?_⟩
        rw [if_pos hn, run_eq_some, ih]
        exact Or.inl ⟨s', ht, rfl⟩
      · rcases done with _ | ⟨d, done⟩
        · simp only [List.nil_append, List.cons.injEq] at hes
          obtain ⟨rfl, rfl⟩ := hes
          cases ht
          exact stop _ _ hx
        · simp only [List.cons_append, List.cons.injEq] at hes
          obtain ⟨rfl, rfl⟩ := hes
          obtain ⟨s₁, ⟨h1, hn⟩, ht⟩ := ht
          refine Or.inl ⟨s₁, run_eq_some.2 h1, ?_⟩
          rw [if_pos hn, run_eq_some, ih]
          exact Or.inr ⟨done, c', rest, s', rfl, ht, hx⟩

/-- The search for a clause, with the clauses before position `k` passed over. -/
def Find (R : Task P → State P → Out P → Prop) (v : Value) (cs : List (Clause P)) (k : Nat) (target : Option Nat)
    (all : List (Clause P)) (s : State P) (o : Out P) : Prop :=
  (∃ done c rest s' s'', cs = done ++ c :: rest ∧ InTurn (Passed R v) done s s' ∧ LabelIs R v true c s' s'' ∧
    Enters R all (k + done.length) s'' o) ∨
  (∃ done c rest s', cs = done ++ c :: rest ∧ InTurn (Passed R v) done s s' ∧ LabelFails R v c s' o) ∨
  ∃ s', InTurn (Passed R v) cs s s' ∧
    match ((defaultAt cs).map (k + ·)).orElse fun _ => target with
    | some k => Enters R all k s' o
    | none => o = .ok s'

theorem find_nil (sem : Sem P) (v : Value) (k : Nat) (target : Option Nat) (all : List (Clause P)) (s : State P) (o : Out P) :
    Runs sem (.find v [] k target all) s o ↔
      match target with
      | some k => Enters (Runs sem) all k s o
      | none => o = .ok s := by
  rw [← run_eq_some, run_step]
  simp only [step]
  cases target with
  | none => simp [eq_comm]
  | some k => simp only [Enters]; rw [run_eq_some]

theorem find_iff (sem : Sem P) (v : Value) (cs : List (Clause P)) (k : Nat) (target : Option Nat) (all : List (Clause P))
    (s : State P) (o : Out P) : Runs sem (.find v cs k target all) s o ↔ Find (Runs sem) v cs k target all s o := by
  induction cs generalizing s k target with
  | nil =>
    rw [find_nil]
    unfold Find
    constructor
    · intro h
      exact Or.inr (Or.inr ⟨s, rfl, by simpa [defaultAt] using h⟩)
    · rintro (⟨done, c, rest, s', s'', h, -⟩ | ⟨done, c, rest, s', h, -⟩ | ⟨s', rfl, h⟩)
      · simp at h
      · simp at h
      · simpa [defaultAt] using h
  | cons c cs ih =>
    have htarget : ∀ target', (defaultAt cs = none → target' = (if c.kind = .default then some k else target)) →
        ((defaultAt cs).map (k + 1 + ·)).orElse (fun _ => target') =
        ((defaultAt (c :: cs)).map (k + ·)).orElse fun _ => target := by
      intro target' ht
      simp only [defaultAt]
      cases hd : defaultAt cs with
      | some j => simp; omega
      | none =>
        rw [ht hd]
        by_cases hk : c.kind = .default
        · simp [hk]
        · simp [hk]
    by_cases hk : c.kind = .default
    · have heq : run sem (.find v (c :: cs) k target all) s = run sem (.find v cs (k + 1) (some k) all) s := by
        rw [run_step]
        simp only [step, hk]
      rw [← run_eq_some, heq, run_eq_some, ih]
      unfold Find
      have hpass : ∀ s s', Passed (Runs sem) v c s s' ↔ s' = s := by
        intro s s'
        unfold Passed LabelIs
        simp [hk]
      constructor
      · rintro (⟨done, c', rest, s', s'', rfl, ht, hl, he⟩ | ⟨done, c', rest, s', rfl, ht, hl⟩ | ⟨s', ht, h⟩)
        · refine Or.inl ⟨c :: done, c', rest, s', s'', rfl, ⟨s, (hpass _ _).2 rfl, ht⟩, hl, ?_⟩
          simpa [Nat.add_assoc, Nat.add_comm 1] using he
        · exact Or.inr (Or.inl ⟨c :: done, c', rest, s', rfl, ⟨s, (hpass _ _).2 rfl, ht⟩, hl⟩)
        · refine Or.inr (Or.inr ⟨s', ⟨s, (hpass _ _).2 rfl, ht⟩, ?_⟩)
          rwa [htarget (some k) (by simp [hk])] at h
      · rintro (⟨done, c', rest, s', s'', hes, ht, hl, he⟩ | ⟨done, c', rest, s', hes, ht, hl⟩ | ⟨s', ⟨s₁, hp, ht⟩, h⟩)
        · rcases done with _ | ⟨d, done⟩
          · simp only [List.nil_append, List.cons.injEq] at hes
            obtain ⟨rfl, rfl⟩ := hes
            exact absurd hk hl.1
          · simp only [List.cons_append, List.cons.injEq] at hes
            obtain ⟨rfl, rfl⟩ := hes
            obtain ⟨s₁, hp, ht⟩ := ht
            rw [hpass] at hp
            subst hp
            refine Or.inl ⟨done, c', rest, s', s'', rfl, ht, hl, ?_⟩
            simpa [Nat.add_assoc, Nat.add_comm 1] using he
        · rcases done with _ | ⟨d, done⟩
          · simp only [List.nil_append, List.cons.injEq] at hes
            obtain ⟨rfl, rfl⟩ := hes
            exact absurd hk hl.1
          · simp only [List.cons_append, List.cons.injEq] at hes
            obtain ⟨rfl, rfl⟩ := hes
            obtain ⟨s₁, hp, ht⟩ := ht
            rw [hpass] at hp
            subst hp
            exact Or.inr (Or.inl ⟨done, c', rest, s', rfl, ht, hl⟩)
        · rw [hpass] at hp
          subst hp
          refine Or.inr (Or.inr ⟨s', ht, ?_⟩)
          rw [htarget (some k) (by simp [hk])]
          exact h
    · have heq : run sem (.find v (c :: cs) k target all) s =
          andThen (run sem (.rod c.labels) s) fun st => expectNext st <|
          match clauseMatches st v c.kind with
          | none => some .ub
          | some .ub => some .ub
          | some .throw => some (.exc message st)
          | some (.ok true) => run sem (.find v [] k (some k) all) st
          | some (.ok false) => run sem (.find v cs (k + 1) target all) st := by
        rw [run_step]
        simp only [step]
        rfl
      rw [← run_eq_some, heq, andThen_iff]
      simp only [expectNext_iff]
      have hpass : ∀ s s', Passed (Runs sem) v c s s' ↔ LabelIs (Runs sem) v false c s s' := by
        intro s s'
        unfold Passed
        simp [hk]
      have htarget := htarget target (by simp [hk])
      constructor
      · rintro (⟨s₁, h1, ⟨hn, hx⟩ | ⟨hn, rfl⟩⟩ | ⟨h1, ha⟩)
        · rw [run_eq_some] at h1
          cases hm : clauseMatches s₁ v c.kind with
          | none =>
            rw [hm] at hx
            exact Or.inr (Or.inl ⟨[], c, cs, s, rfl, rfl, hk, Or.inr ⟨s₁, h1, Or.inr (Or.inl ⟨hn, Or.inl hm,
              (Option.some.inj hx).symm⟩)⟩⟩)
          | some m =>
            rw [hm] at hx
            cases m with
            | ub => exact Or.inr (Or.inl ⟨[], c, cs, s, rfl, rfl, hk, Or.inr ⟨s₁, h1, Or.inr (Or.inl ⟨hn, Or.inr hm,
              (Option.some.inj hx).symm⟩)⟩⟩)
            | throw => exact Or.inr (Or.inl ⟨[], c, cs, s, rfl, rfl, hk, Or.inr ⟨s₁, h1, Or.inr (Or.inr ⟨hn, hm,
              (Option.some.inj hx).symm⟩)⟩⟩)
            | ok m =>
              cases m with
              | true =>
                simp only [run_eq_some] at hx
                rw [find_nil] at hx
                exact Or.inl ⟨[], c, cs, s, s₁, rfl, rfl, ⟨hk, h1, hn, hm⟩, hx⟩
              | false =>
                simp only [run_eq_some] at hx
                rw [ih] at hx
                have hl : LabelIs (Runs sem) v false c s s₁ := ⟨hk, h1, hn, hm⟩
                rcases hx with ⟨done, c', rest, s', s'', rfl, ht, hl', he⟩ | ⟨done, c', rest, s', rfl, ht, hl'⟩ | ⟨s', ht, h⟩
                · refine Or.inl ⟨c :: done, c', rest, s', s'', rfl, ⟨s₁, (hpass _ _).2 hl, ht⟩, hl', ?_⟩
                  simpa [Nat.add_assoc, Nat.add_comm 1] using he
                · exact Or.inr (Or.inl ⟨c :: done, c', rest, s', rfl, ⟨s₁, (hpass _ _).2 hl, ht⟩, hl'⟩)
                · refine Or.inr (Or.inr ⟨s', ⟨s₁, (hpass _ _).2 hl, ht⟩, ?_⟩)
                  rwa [htarget] at h
        · rw [run_eq_some] at h1
          exact Or.inr (Or.inl ⟨[], c, cs, s, rfl, rfl, hk, Or.inr ⟨s₁, h1, Or.inl ⟨hn, rfl⟩⟩⟩)
        · rw [run_eq_some] at h1
          exact Or.inr (Or.inl ⟨[], c, cs, s, rfl, rfl, hk, Or.inl ⟨h1, ha⟩⟩)
      · rintro (⟨done, c', rest, s', s'', hes, ht, hl, he⟩ | ⟨done, c', rest, s', hes, ht, hl⟩ | ⟨s', ⟨s₁, hp, ht⟩, h⟩)
        · rcases done with _ | ⟨d, done⟩
          · simp only [List.nil_append, List.cons.injEq] at hes
            obtain ⟨rfl, rfl⟩ := hes
            cases ht
            obtain ⟨-, h1, hn, hm⟩ := hl
            refine Or.inl ⟨s'', run_eq_some.2 h1, Or.inl ⟨hn, ?_⟩⟩
            rw [hm]
            simp only [run_eq_some]
            rw [find_nil]
            exact he
          · simp only [List.cons_append, List.cons.injEq] at hes
            obtain ⟨rfl, rfl⟩ := hes
            obtain ⟨s₁, hp, ht⟩ := ht
            obtain ⟨-, h1, hn, hm⟩ := (hpass _ _).1 hp
            refine Or.inl ⟨s₁, run_eq_some.2 h1, Or.inl ⟨hn, ?_⟩⟩
            rw [hm]
            simp only [run_eq_some]
            rw [ih]
            refine Or.inl ⟨done, c', rest, s', s'', rfl, ht, hl, ?_⟩
            simpa [Nat.add_assoc, Nat.add_comm 1] using he
        · rcases done with _ | ⟨d, done⟩
          · simp only [List.nil_append, List.cons.injEq] at hes
            obtain ⟨rfl, rfl⟩ := hes
            cases ht
            obtain ⟨-, ⟨h1, ha⟩ | ⟨s₁, h1, ⟨hn, rfl⟩ | ⟨hn, hm | hm, rfl⟩ | ⟨hn, hm, rfl⟩⟩⟩ := hl
            · exact Or.inr ⟨run_eq_some.2 h1, ha⟩
            · exact Or.inl ⟨s₁, run_eq_some.2 h1, Or.inr ⟨hn, rfl⟩⟩
            · exact Or.inl ⟨s₁, run_eq_some.2 h1, Or.inl ⟨hn, by rw [hm]⟩⟩
            · exact Or.inl ⟨s₁, run_eq_some.2 h1, Or.inl ⟨hn, by rw [hm]⟩⟩
            · exact Or.inl ⟨s₁, run_eq_some.2 h1, Or.inl ⟨hn, by rw [hm]⟩⟩
          · simp only [List.cons_append, List.cons.injEq] at hes
            obtain ⟨rfl, rfl⟩ := hes
            obtain ⟨s₁, hp, ht⟩ := ht
            obtain ⟨-, h1, hn, hm⟩ := (hpass _ _).1 hp
            refine Or.inl ⟨s₁, run_eq_some.2 h1, Or.inl ⟨hn, ?_⟩⟩
            rw [hm]
            simp only [run_eq_some]
            rw [ih]
            exact Or.inr (Or.inl ⟨done, c', rest, s', rfl, ht, hl⟩)
        · obtain ⟨-, h1, hn, hm⟩ := (hpass _ _).1 hp
          refine Or.inl ⟨s₁, run_eq_some.2 h1, Or.inl ⟨hn, ?_⟩⟩
          rw [hm]
          simp only [run_eq_some]
          rw [ih]
          refine Or.inr (Or.inr ⟨s', ht, ?_⟩)
          rw [htarget]
          exact h

end Asteria.Exec
