import Verif.Model.LinearBuffer

/-!
# C36: `linear_buffer` is a queue
-/

namespace Asteria.LinearBuffer

variable {α : Type}

/-! ## The specification: a queue -/

/-- The operations of the interface.  `produce n s` is `reserve_after_end(n)`, writing `s` at `mut_end()`,
and `accept(s.size())`. -/
inductive Op (α : Type) where
  | putn (s : List α)
  | fill (n : Nat) (c : α)
  | putc (c : α)
  | produce (n : Nat) (s : List α)
  | reserve (n : Nat)
  | getn (n : Nat)
  | peekn (n : Nat)
  | getc
  | peekc
  | discard (n : Nat)
  | unaccept (n : Nat)
  | clear
  | size

/-- What an operation returns. -/
inductive Out (α : Type) where
  | elems (l : List α)
  | elem (c : Option α)
  | num (n : Nat)
  | done
deriving DecidableEq

/-- One operation on a buffer. -/
def Op.run (limit : Nat) (b : Buf α) : Op α → Res (Out α × Buf α)
  | .putn s => (LinearBuffer.putn limit b s).map fun b => (.done, b)
  | .fill n c => (LinearBuffer.fill limit b n c).map fun b => (.done, b)
  | .putc c => (LinearBuffer.putc limit b c).map fun b => (.done, b)
  | .produce n s =>
    (LinearBuffer.reserve limit b n).bind fun r =>
      (writeEnd r.2 s).bind fun b => (accept b s.length).map fun b => (.num r.1, b)
  | .reserve n => (LinearBuffer.reserve limit b n).map fun r => (.num r.1, r.2)
  | .getn n => (LinearBuffer.getn b n).map fun r => (.elems r.1, r.2)
  | .peekn n => (LinearBuffer.peekn b n).map fun l => (.elems l, b)
  | .getc => (LinearBuffer.getc b).map fun r => (.elem r.1, r.2)
  | .peekc => (LinearBuffer.peekc b).map fun c => (.elem c, b)
  | .discard n => (LinearBuffer.discard b n).map fun b => (.done, b)
  | .unaccept n => (LinearBuffer.unaccept b n).map fun b => (.done, b)
  | .clear => .ok (.done, LinearBuffer.clear b)
  | .size => .ok (.num (LinearBuffer.size b), b)

/-- The preconditions: no more may be discarded or taken back than there is, and no more may be produced
than was reserved. -/
def Op.pre (q : List α) : Op α → Prop
  | .produce n s => s.length ≤ n
  | .discard n => n ≤ q.length
  | .unaccept n => n ≤ q.length
  | _ => True

/-- What an operation on a queue returns, and the queue after it. -/
def Op.spec (q : List α) (out : Out α) (q' : List α) : Op α → Prop
  | .putn s => out = .done ∧ q' = q ++ s
  | .fill n c => out = .done ∧ q' = q ++ List.replicate n c
  | .putc c => out = .done ∧ q' = q ++ [c]
  | .produce n s => (∃ k, n ≤ k ∧ out = .num k) ∧ q' = q ++ s
  | .reserve n => (∃ k, n ≤ k ∧ out = .num k) ∧ q' = q
  | .getn n => out = .elems (q.take n) ∧ q' = q.drop n
  | .peekn n => out = .elems (q.take n) ∧ q' = q
  | .getc => out = .elem q.head? ∧ q' = q.tail
  | .peekc => out = .elem q.head? ∧ q' = q
  | .discard n => out = .done ∧ q' = q.drop n
  | .unaccept n => out = .done ∧ q' = q.take (q.length - n)
  | .clear => out = .done ∧ q' = []
  | .size => out = .num q.length ∧ q' = q

/-- How many elements an operation adds. -/
def Op.adds : Op α → Nat
  | .putn s => s.length
  | .fill n _ => n
  | .putc _ => 1
  | .produce n _ => n
  | .reserve n => n
  | _ => 0

/-! ## Representation -/

/-- The buffer holds the elements of the queue between its offsets. -/
structure Repr (b : Buf α) (q : List α) : Prop where
  le : b.goff ≤ b.eoff
  cap : b.eoff ≤ b.cells.length
  data : (b.cells.drop b.goff).take (b.eoff - b.goff) = q.map some

theorem Repr.length {b : Buf α} {q : List α} (r : Repr b q) : b.eoff - b.goff = q.length := by
  have h1 := r.le
  have h2 := r.cap
  have := congrArg List.length r.data
  simp only [List.length_take, List.length_drop, List.length_map] at this
  omega

theorem repr_empty : Repr (empty : Buf α) [] := ⟨Nat.le_refl _, Nat.le_refl _, rfl⟩

theorem relocate_spec (limit : Nat) {b : Buf α} {q : List α} (r : Repr b q) (n : Nat) :
    (q.length + n > limit ∧ relocate limit b n = .throw) ∨
    ∃ b', relocate limit b n = .ok b' ∧ Repr b' q ∧ n ≤ capacityAfterEnd b' := by
  have h1 := r.le
  have h2 := r.cap
  have hl := r.length
  have hd : ((b.cells.drop b.goff).take (b.eoff - b.goff)).length = q.length := by
    rw [r.data, List.length_map]
  unfold relocate
  rw [if_neg (by omega)]
  rw [hl]
  rw [hl] at hd
  by_cases hc : n ≤ b.cells.length - q.length
  · right
    rw [if_pos hc]
    refine ⟨_, rfl, ⟨Nat.zero_le _, ?_, ?_⟩, ?_⟩
    · simp only [List.length_append, hd, List.length_drop]; omega
    · simp only [List.drop_zero, Nat.sub_zero]
      rw [List.take_append_of_le_length (by omega), List.take_of_length_le (by omega), ← hl, r.data]
    · simp only [capacityAfterEnd, List.length_append, hd, List.length_drop]; omega
  · rw [if_neg hc]
    by_cases hm : q.length + n > limit
    · exact Or.inl ⟨hm, if_pos hm⟩
    · right
      rw [if_neg hm]
      have hor : q.length + n ≤ q.length + n ||| 0x1000 := Nat.left_le_or
      generalize (q.length + n ||| 0x1000) = c at hor
      refine ⟨_, rfl, ⟨Nat.zero_le _, ?_, ?_⟩, ?_⟩
      · simp only [List.length_append, hd, List.length_replicate]; omega
      · simp only [List.drop_zero, Nat.sub_zero]
        rw [List.take_append_of_le_length (by omega), List.take_of_length_le (by omega), ← hl, r.data]
      · simp only [capacityAfterEnd, List.length_append, hd, List.length_replicate]; omega

theorem reserve_spec (limit : Nat) {b : Buf α} {q : List α} (r : Repr b q) (n : Nat) :
    (q.length + n > limit ∧ reserve limit b n = .throw) ∨
    ∃ b', reserve limit b n = .ok (capacityAfterEnd b', b') ∧ Repr b' q ∧ n ≤ capacityAfterEnd b' := by
  unfold reserve
  by_cases h : n > capacityAfterEnd b
  · rw [if_pos h]
    rcases relocate_spec limit r n with ⟨h1, h2⟩ | ⟨b', h1, h2, h3⟩
    · exact Or.inl ⟨h1, by rw [h2]; rfl⟩
    · exact Or.inr ⟨b', by rw [h1]; rfl, h2, h3⟩
  · rw [if_neg h]
    exact Or.inr ⟨b, rfl, r, by omega⟩

theorem append_spec {b : Buf α} {q : List α} (r : Repr b q) (s : List α)
    (h : s.length ≤ capacityAfterEnd b) :
    ∃ b', ((writeEnd b s).bind fun b => accept b s.length) = .ok b' ∧ Repr b' (q ++ s) := by
  have h1 := r.le
  have h2 := r.cap
  have hl := r.length
  unfold capacityAfterEnd at h
  unfold writeEnd
  rw [if_pos (by omega), Res.ok_bind]
  have hlen : (b.cells.take b.eoff ++ s.map some ++ b.cells.drop (b.eoff + s.length)).length =
      b.cells.length := by
    simp only [List.length_append, List.length_take, List.length_map, List.length_drop]; omega
  unfold accept
  rw [if_pos (by simp only [capacityAfterEnd, hlen]; omega)]
  refine ⟨_, rfl, ⟨?_, ?_, ?_⟩⟩
  · simp only; omega
  · simp only [hlen]; omega
  · simp only
    have hd : (b.cells.take b.eoff).drop b.goff = q.map some := by
      rw [List.drop_take, r.data]
    have hle : b.goff ≤ (b.cells.take b.eoff).length := by rw [List.length_take]; omega
    rw [List.append_assoc, List.drop_append_of_le_length hle, hd, ← List.append_assoc, ← List.map_append]
    rw [List.take_append_of_le_length (by simp only [List.length_map, List.length_append]; omega)]
    rw [List.take_of_length_le (by simp only [List.length_map, List.length_append]; omega)]

theorem mapM_some (l : List α) : (l.map some).mapM id = some l := by
  induction l with
  | nil => rfl
  | cons a l ih => rw [List.map_cons, List.mapM_cons, ih]; rfl

theorem readBegin_spec {b : Buf α} {q : List α} (r : Repr b q) (n : Nat) (hn : n ≤ q.length) :
    readBegin b n = .ok (q.take n) := by
  have h1 := r.le
  have h2 := r.cap
  have hl := r.length
  unfold readBegin
  rw [if_pos (by omega)]
  have : (b.cells.drop b.goff).take n = (q.take n).map some := by
    rw [List.map_take, ← r.data, List.take_take, Nat.min_eq_left (by omega)]
  rw [this, mapM_some]

theorem discard_spec {b : Buf α} {q : List α} (r : Repr b q) (n : Nat) (hn : n ≤ q.length) :
    ∃ b', discard b n = .ok b' ∧ Repr b' (q.drop n) := by
  have h1 := r.le
  have h2 := r.cap
  have hl := r.length
  unfold discard
  rw [if_pos (by omega)]
  refine ⟨_, rfl, ⟨by simp only; omega, h2, ?_⟩⟩
  simp only
  rw [List.map_drop, ← r.data, List.drop_take, List.drop_drop]
  congr 1; omega

theorem getn_spec {b : Buf α} {q : List α} (r : Repr b q) (n : Nat) :
    ∃ b', getn b n = .ok (q.take n, b') ∧ Repr b' (q.drop n) := by
  have hs : size b = q.length := r.length
  unfold getn
  rw [hs]
  by_cases h : min n q.length ≤ 0
  · rw [if_pos h]
    refine ⟨b, ?_, ?_⟩
    · rcases (show n ≤ 0 ∨ q.length ≤ 0 by omega) with h | h
      · simp [Nat.le_zero.1 h]
      · simp [List.length_eq_zero_iff.1 (Nat.le_zero.1 h)]
    · rcases (show n ≤ 0 ∨ q.length ≤ 0 by omega) with h | h
      · rw [Nat.le_zero.1 h]; exact r
      · have := List.length_eq_zero_iff.1 (Nat.le_zero.1 h)
        subst this; simpa using r
  · rw [if_neg h, readBegin_spec r _ (Nat.min_le_right _ _), Res.ok_bind]
    obtain ⟨b', h1, h2⟩ := discard_spec r _ (Nat.min_le_right n q.length)
    rw [h1]
    have e1 : q.take (min n q.length) = q.take n := by rw [List.take_eq_take_iff]; omega
    have e2 : q.drop (min n q.length) = q.drop n := by
      by_cases hn : n ≤ q.length
      · rw [Nat.min_eq_left hn]
      · rw [Nat.min_eq_right (by omega), List.drop_length, List.drop_of_length_le (by omega)]
    rw [e1]
    rw [e2] at h2
    exact ⟨b', rfl, h2⟩

theorem peekn_spec {b : Buf α} {q : List α} (r : Repr b q) (n : Nat) : peekn b n = .ok (q.take n) := by
  have hs : size b = q.length := r.length
  unfold peekn
  rw [hs]
  by_cases h : min n q.length ≤ 0
  · rw [if_pos h]
    rcases (show n ≤ 0 ∨ q.length ≤ 0 by omega) with h | h
    · simp [Nat.le_zero.1 h]
    · simp [List.length_eq_zero_iff.1 (Nat.le_zero.1 h)]
  · rw [if_neg h, readBegin_spec r _ (Nat.min_le_right _ _)]
    congr 1
    rw [List.take_eq_take_iff]; omega

theorem head_take (q : List α) : (q.take 1).head? = q.head? := by cases q <;> rfl

theorem drop_one (q : List α) : q.drop 1 = q.tail := by cases q <;> rfl

/-! ## C36 -/

/-- C36: every operation whose precondition holds does to the represented queue what is specified; it
accesses nothing outside of the storage or uninitialized, and throws only when the length limit would be
exceeded. -/
theorem C36_step (limit : Nat) (b : Buf α) (q : List α) (r : Repr b q) (op : Op α) (hp : op.pre q) :
    (q.length + op.adds > limit ∧ op.run limit b = .throw) ∨
    ∃ out b' q', op.run limit b = .ok (out, b') ∧ op.spec q out q' ∧ Repr b' q' := by
  cases op with
  | putn s =>
    simp only [Op.run, Op.adds, LinearBuffer.putn]
    rcases reserve_spec limit r s.length with ⟨h1, h2⟩ | ⟨b1, h1, h2, h3⟩
    · exact Or.inl ⟨h1, by rw [h2]; rfl⟩
    · rw [h1, Res.ok_bind]
      obtain ⟨b2, g1, g2⟩ := append_spec h2 s h3
      simp only
      rw [g1]
      exact Or.inr ⟨_, b2, _, rfl, ⟨rfl, rfl⟩, g2⟩
  | fill n c =>
    simp only [Op.run, Op.adds, LinearBuffer.fill]
    rcases reserve_spec limit r n with ⟨h1, h2⟩ | ⟨b1, h1, h2, h3⟩
    · exact Or.inl ⟨h1, by rw [h2]; rfl⟩
    · rw [h1, Res.ok_bind]
      have hlen : (List.replicate n c).length = n := List.length_replicate
      obtain ⟨b2, g1, g2⟩ := append_spec h2 (List.replicate n c) (by omega)
      rw [hlen] at g1
      simp only
      rw [g1]
      exact Or.inr ⟨_, b2, _, rfl, ⟨rfl, rfl⟩, g2⟩
  | putc c =>
    simp only [Op.run, Op.adds, LinearBuffer.putc]
    rcases reserve_spec limit r 1 with ⟨h1, h2⟩ | ⟨b1, h1, h2, h3⟩
    · exact Or.inl ⟨h1, by rw [h2]; rfl⟩
    · rw [h1, Res.ok_bind]
      obtain ⟨b2, g1, g2⟩ := append_spec h2 [c] h3
      simp only
      rw [List.length_singleton] at g1
      rw [g1]
      exact Or.inr ⟨_, b2, _, rfl, ⟨rfl, rfl⟩, g2⟩
  | produce n s =>
    simp only [Op.run, Op.adds]
    simp only [Op.pre] at hp
    rcases reserve_spec limit r n with ⟨h1, h2⟩ | ⟨b1, h1, h2, h3⟩
    · exact Or.inl ⟨h1, by rw [h2]; rfl⟩
    · rw [h1, Res.ok_bind]
      obtain ⟨b2, g1, g2⟩ := append_spec h2 s (by omega)
      right
      refine ⟨.num (capacityAfterEnd b1), b2, q ++ s, ?_, ⟨⟨_, h3, rfl⟩, rfl⟩, g2⟩
      simp only
      cases hw : writeEnd b1 s with
      | ok b0 =>
        rw [hw, Res.ok_bind] at g1
        rw [Res.ok_bind, g1]; rfl
      | throw => rw [hw] at g1; cases g1
      | ub => rw [hw] at g1; cases g1
  | reserve n =>
    simp only [Op.run, Op.adds]
    rcases reserve_spec limit r n with ⟨h1, h2⟩ | ⟨b1, h1, h2, h3⟩
    · exact Or.inl ⟨h1, by rw [h2]; rfl⟩
    · exact Or.inr ⟨_, b1, q, by rw [h1]; rfl, ⟨⟨_, h3, rfl⟩, rfl⟩, h2⟩
  | getn n =>
    obtain ⟨b', h1, h2⟩ := getn_spec r n
    exact Or.inr ⟨_, b', _, by simp only [Op.run]; rw [h1]; rfl, ⟨rfl, rfl⟩, h2⟩
  | peekn n =>
    exact Or.inr ⟨_, b, _, by simp only [Op.run]; rw [peekn_spec r]; rfl, ⟨rfl, rfl⟩, r⟩
  | getc =>
    obtain ⟨b', h1, h2⟩ := getn_spec r 1
    rw [drop_one] at h2
    refine Or.inr ⟨.elem q.head?, b', _, ?_, ⟨rfl, rfl⟩, h2⟩
    simp only [Op.run, LinearBuffer.getc]
    rw [h1, Res.ok_map, Res.ok_map, head_take]
  | peekc =>
    refine Or.inr ⟨.elem q.head?, b, _, ?_, ⟨rfl, rfl⟩, r⟩
    simp only [Op.run, LinearBuffer.peekc]
    rw [peekn_spec r, Res.ok_map, Res.ok_map, head_take]
  | discard n =>
    obtain ⟨b', h1, h2⟩ := discard_spec r n hp
    exact Or.inr ⟨_, b', _, by simp only [Op.run]; rw [h1]; rfl, ⟨rfl, rfl⟩, h2⟩
  | unaccept n =>
    have h1 := r.le
    have h2 := r.cap
    have hl := r.length
    simp only [Op.pre] at hp
    refine Or.inr ⟨.done, { b with eoff := b.eoff - n }, q.take (q.length - n), ?_, ⟨rfl, rfl⟩, ?_⟩
    · simp only [Op.run, LinearBuffer.unaccept]
      rw [if_pos (by omega)]; rfl
    · refine ⟨by simp only; omega, by simp only; omega, ?_⟩
      simp only
      rw [List.map_take, ← r.data, List.take_take]
      congr 1; omega
  | clear => exact Or.inr ⟨.done, _, [], rfl, ⟨rfl, rfl⟩, ⟨Nat.le_refl _, Nat.zero_le _, by simp [clear]⟩⟩
  | size =>
    refine Or.inr ⟨.num q.length, b, q, ?_, ⟨rfl, rfl⟩, r⟩
    simp only [Op.run]
    have : LinearBuffer.size b = q.length := r.length
    rw [this]

/-- C36: an operation whose precondition does not hold, other than `produce`, is undefined behaviour, so
the preconditions are as weak as possible. -/
theorem C36_pre (limit : Nat) (b : Buf α) (q : List α) (r : Repr b q) (n : Nat) (hn : q.length < n) :
    (Op.discard n).run limit b = .ub ∧ (Op.unaccept n).run limit b = .ub := by
  have hl := r.length
  simp only [Op.run, LinearBuffer.discard, LinearBuffer.unaccept]
  rw [if_neg (by omega), if_neg (by omega)]
  exact ⟨rfl, rfl⟩

/-- A history of operations. -/
def runAll (limit : Nat) : List (Op α) → Buf α → Res (List (Out α) × Buf α)
  | [], b => .ok ([], b)
  | op :: ops, b =>
    (op.run limit b).bind fun r => (runAll limit ops r.2).map fun r' => (r.1 :: r'.1, r'.2)

/-- A history on queues, with its outputs and the last queue. -/
inductive SpecAll : List (Op α) → List α → List (Out α) → List α → Prop
  | nil (q) : SpecAll [] q [] q
  | cons {op ops q out q' outs q''} : op.spec q out q' → SpecAll ops q' outs q'' →
      SpecAll (op :: ops) q (out :: outs) q''

/-- The preconditions of a history, whatever the operations return. -/
def PreAll : List (Op α) → List α → Prop
  | [], _ => True
  | op :: ops, q => op.pre q ∧ ∀ out q', op.spec q out q' → PreAll ops q'

/-- C36: every history, starting with an empty buffer, is a history of a queue, unless an operation throws
because of the length limit. -/
theorem C36_history (limit : Nat) (ops : List (Op α)) (hp : PreAll ops []) :
    runAll limit ops empty = .throw ∨
    ∃ outs b q, runAll limit ops empty = .ok (outs, b) ∧ SpecAll ops [] outs q ∧ Repr b q := by
  have key : ∀ (b : Buf α) (q : List α), Repr b q → PreAll ops q →
      runAll limit ops b = .throw ∨
      ∃ outs b' q', runAll limit ops b = .ok (outs, b') ∧ SpecAll ops q outs q' ∧ Repr b' q' := by
    clear hp
    induction ops with
    | nil => exact fun b q r _ => Or.inr ⟨[], b, q, rfl, .nil q, r⟩
    | cons op ops ih =>
      intro b q r hp
      simp only [runAll]
      rcases C36_step limit b q r op hp.1 with ⟨-, h1⟩ | ⟨out, b', q', h1, h2, h3⟩
      · left; rw [h1]; rfl
      · rw [h1, Res.ok_bind]
        rcases ih b' q' h3 (hp.2 out q' h2) with g | ⟨outs, b2, q2, g1, g2, g3⟩
        · left; simp only; rw [g]; rfl
        · right; simp only; rw [g1]; exact ⟨out :: outs, b2, q2, rfl, .cons h2 g2, g3⟩
  exact key empty [] repr_empty hp

/-- The elements an operation puts. -/
def Op.puts : Op α → List α
  | .putn s => s
  | .fill n c => List.replicate n c
  | .putc c => [c]
  | .produce _ s => s
  | _ => []

/-- The elements taken out by an operation with its output. -/
def Op.gets : Op α → Out α → List α
  | .getn _, .elems l => l
  | .getc, .elem c => c.toList
  | _, _ => []

/-- C36: in every history that only puts and gets, the elements which were gotten, followed by the ones
still in the queue, are the elements which were put, in the same order: nothing is lost or duplicated. -/
theorem C36_fifo (ops : List (Op α)) (q : List α) (outs : List (Out α)) (q' : List α)
    (h : SpecAll ops q outs q')
    (hops : ∀ op ∈ ops, (∀ n, op ≠ .discard n) ∧ (∀ n, op ≠ .unaccept n) ∧ op ≠ .clear) :
    (List.zipWith Op.gets ops outs).flatten ++ q' = q ++ (ops.map Op.puts).flatten := by
  induction h with
  | nil q => simp
  | @cons op ops q out q1 outs q2 h1 h2 ih =>
    have ih := ih (fun o ho => hops o (by simp [ho]))
    obtain ⟨n1, n2, n3⟩ := hops op (by simp)
    simp only [List.zipWith_cons_cons, List.flatten_cons, List.map_cons, List.append_assoc]
    rw [ih]
    cases op with
    | putn s => obtain ⟨rfl, rfl⟩ := h1; simp [Op.gets, Op.puts]
    | fill n c => obtain ⟨rfl, rfl⟩ := h1; simp [Op.gets, Op.puts]
    | putc c => obtain ⟨rfl, rfl⟩ := h1; simp [Op.gets, Op.puts]
    | produce n s => obtain ⟨_, rfl⟩ := h1; simp [Op.gets, Op.puts]
    | reserve n => obtain ⟨_, rfl⟩ := h1; simp [Op.gets, Op.puts]
    | getn n =>
      obtain ⟨rfl, rfl⟩ := h1
      simp only [Op.gets, Op.puts, List.nil_append]
      rw [← List.append_assoc, List.take_append_drop]
    | peekn n => obtain ⟨rfl, rfl⟩ := h1; simp [Op.gets, Op.puts]
    | getc =>
      obtain ⟨rfl, rfl⟩ := h1
      simp only [Op.gets, Op.puts, List.nil_append]
      cases q <;> simp
    | peekc => obtain ⟨rfl, rfl⟩ := h1; simp [Op.gets, Op.puts]
    | discard n => exact absurd rfl (n1 n)
    | unaccept n => exact absurd rfl (n2 n)
    | clear => exact absurd rfl n3
    | size => obtain ⟨rfl, rfl⟩ := h1; simp [Op.gets, Op.puts]

/-- C36: copying gives an independent buffer with the same contents. -/
theorem C36_copy (limit : Nat) (this other : Buf α) (q : List α) (r : Repr other q)
    (hl : q.length ≤ limit) : ∃ b, copyFrom limit this other = .ok b ∧ Repr b q := by
  have hs : size other = q.length := r.length
  unfold copyFrom
  rw [hs, readBegin_spec r _ (Nat.le_refl _), Res.ok_bind, List.take_length]
  have hc : Repr (clear this) ([] : List α) := ⟨Nat.le_refl _, Nat.zero_le _, by simp [clear]⟩
  unfold putn
  rcases reserve_spec limit hc q.length with ⟨h1, h2⟩ | ⟨b1, h1, h2, h3⟩
  · simp only [List.length_nil] at h1; omega
  · rw [h1, Res.ok_bind]
    exact append_spec h2 q h3

-- an interleaving with a compaction
example : (runAll 100000 [.putn [1, 2, 3], .getn 2, .putc 4, .produce 4096 [5], .unaccept 1, .fill 2 7, .getn 10, .size]
    (empty : Buf Nat) |>.map (fun r => r.1)) = .ok [.done, .elems [1, 2], .done, .num 4097, .done, .done,
      .elems [3, 4, 7, 7], .num 0] := by
  decide +kernel

example : PreAll [Op.putn [1, 2, 3], .getn 2, .discard 1] ([] : List Nat) := by
  refine ⟨trivial, ?_⟩
  rintro out q' ⟨rfl, rfl⟩
  refine ⟨trivial, ?_⟩
  rintro out q' ⟨rfl, rfl⟩
  exact ⟨by simp [Op.pre], fun _ _ _ => trivial⟩

end Asteria.LinearBuffer
