import Verif.Proof.ExecTrace
import Verif.Spec.Safe

/-! A discipline for the evaluation stack, and that capturing references keeps it. -/

namespace Asteria.Exec.Safe

variable {P : Type}

/-- What code may do: expressions neither declare nor jump, and initializers do not jump. -/
inductive Mode where
  | expr | init | stmt
deriving DecidableEq

/-- What is known about the stacks: the number of operands, the number of variables below them that have been declared and
not initialized, and, if the stacks have been swapped, the number of operands on the other one. -/
structure Ty where
  k : Nat
  m : Nat
  alt : Option Nat

/-- Nothing is known. -/
def T0 : Ty := ⟨0, 0, none⟩

/-- The number of operands on the current stack. -/
def Ty.cur (T : Ty) : Nat := T.alt.getD T.k

/-- A change of the number of operands. -/
def Ty.setCur (T : Ty) (c : Nat) : Ty :=
  match T.alt with
  | none => { T with k := c }
  | some _ => { T with alt := some c }

@[simp] theorem Ty.cur_setCur (T : Ty) (c : Nat) : (T.setCur c).cur = c := by
  unfold Ty.setCur Ty.cur; split <;> simp [*]
@[simp] theorem Ty.setCur_setCur (T : Ty) (c d : Nat) : (T.setCur c).setCur d = T.setCur d := by
  rcases T with ⟨k, m, _ | a⟩ <;> rfl
@[simp] theorem Ty.setCur_cur (T : Ty) : T.setCur T.cur = T := by
  rcases T with ⟨k, m, _ | a⟩ <;> rfl
@[simp] theorem Ty.setCur_m (T : Ty) (c : Nat) : (T.setCur c).m = T.m := by
  rcases T with ⟨k, m, _ | a⟩ <;> rfl
@[simp] theorem Ty.setCur_isSome (T : Ty) (c : Nat) : (T.setCur c).alt.isSome = T.alt.isSome := by
  rcases T with ⟨k, m, _ | a⟩ <;> rfl
theorem Ty.setCur_none {T : Ty} (h : T.alt = none) (c : Nat) : T.setCur c = ⟨c, T.m, none⟩ := by
  rcases T with ⟨k, m, _ | a⟩
  · rfl
  · cases h
theorem Ty.cur_none {T : Ty} (h : T.alt = none) : T.cur = T.k := by simp [Ty.cur, h]
@[simp] theorem Ty.setCur_alt_none {T : Ty} (c : Nat) : (T.setCur c).alt = none ↔ T.alt = none := by
  rcases T with ⟨k, m, _ | a⟩ <;> simp [Ty.setCur]

/-- The stacks after a node. -/
def out (sig : P → Sig) (T : Ty) : Node P → Ty
  | .clearStack => T0
  | .pushLocal _ _ | .pushBound _ | .pushConst _ | .defineFunc _ _ _ | .catchE _ => T.setCur (T.cur + 1)
  | .declareVar _ => ⟨0, if T.k = 0 then T.m + 1 else 1, none⟩
  | .initVar _ => ⟨T.k - 1, T.m - 1, T.alt⟩
  | .branchE _ _ _ | .coalesceE _ _ | .checkArg _ | .declareRef _ | .defineNull _ _ | .deferE _ | .assertS => T
  | .funcCall n _ => T.setCur (T.cur - n)
  | .altClear => { T with alt := some 0 }
  | .altCall _ => { T with alt := none }
  | .initRef _ => T.setCur (T.cur - 1)
  | .prim p => let T' := T.setCur (T.cur - (sig p).pops + (sig p).pushes); { T' with m := T'.m - (sig p).fresh }
  | .block _ | .ifS _ _ _ | .switchS _ | .doWhile _ _ _ _ | .whileS _ _ _ _ | .forEach _ _ _ _ _ | .forS _ _ _ _ _
  | .tryS _ _ _ | .throwS | .simpleStatus _ | .returnS _ _ | .returnConst _ => T0

/-- The stacks after a list of nodes. -/
def outs (sig : P → Sig) : Ty → List (Node P) → Ty
  | T, [] => T
  | T, n :: ns => outs sig (out sig T n) ns

mutual
/-- A node that keeps the discipline. -/
def Typed (sig : P → Sig) : Mode → Ty → Node P → Prop
  | _, T, .clearStack => T.alt = none
  | _, _, .pushLocal _ _ => True
  | _, _, .pushBound _ => True
  | _, _, .pushConst _ => True
  | _, _, .defineFunc _ _ b => TypedSeq sig .stmt T0 b ∧ (outs sig T0 b).alt = none
  | _, T, .catchE b => T.alt = none ∧ TypedSeq sig .expr T0 b ∧ (outs sig T0 b).alt = none ∧ NoAltSeq b
  | j, T, .declareVar _ => j ≠ .expr ∧ T.alt = none
  | j, T, .initVar _ => j ≠ .expr ∧ T.alt = none ∧ T.k = 1 ∧ 1 ≤ T.m
  | j, T, .branchE t f a => 1 ≤ T.cur ∧
      (t = [] ∨ (if a then TypedSeq sig .expr T t ∧ outs sig T t = T.setCur (T.cur + 1)
        else TypedSeq sig j (T.setCur (T.cur - 1)) t ∧ outs sig (T.setCur (T.cur - 1)) t = T)) ∧
      (f = [] ∨ (if a then TypedSeq sig .expr T f ∧ outs sig T f = T.setCur (T.cur + 1)
        else TypedSeq sig j (T.setCur (T.cur - 1)) f ∧ outs sig (T.setCur (T.cur - 1)) f = T))
  | j, T, .coalesceE t a => 1 ≤ T.cur ∧
      (t = [] ∨ (if a then TypedSeq sig .expr T t ∧ outs sig T t = T.setCur (T.cur + 1)
        else TypedSeq sig j (T.setCur (T.cur - 1)) t ∧ outs sig (T.setCur (T.cur - 1)) t = T))
  | _, T, .checkArg _ => 1 ≤ T.cur
  | j, T, .funcCall n ptc => T.alt = none ∧ n + 1 ≤ T.k ∧ (ptc ≠ .none → j = .stmt)
  | _, T, .altClear => T.alt = none
  | j, T, .altCall ptc => T.alt.isSome ∧ 1 ≤ T.k ∧ (ptc ≠ .none → j = .stmt)
  | j, T, .deferE b => j = .stmt ∧ T.alt = none ∧ TypedSeq sig .expr T0 b ∧ (outs sig T0 b).alt = none
  | j, T, .initRef _ => j ≠ .expr ∧ T.alt = none ∧ 1 ≤ T.k
  | j, _, .declareRef _ => j ≠ .expr
  | j, _, .defineNull _ _ => j ≠ .expr
  | _, T, .prim p => (sig p).pops ≤ T.cur ∧ ((sig p).fresh = 0 ∨ (T.alt = none ∧ T.k = (sig p).pops ∧ (sig p).fresh = T.m))
  | j, T, .assertS => j = .stmt ∧ T.alt = none ∧ 1 ≤ T.k
  | j, T, .throwS => j = .stmt ∧ T.alt = none ∧ 1 ≤ T.k
  | j, T, .simpleStatus s => j = .stmt ∧ T.alt = none ∧ s ≠ .ret ∧ s ≠ .next
  | j, T, .returnS _ v => j = .stmt ∧ T.alt = none ∧ (v = true ∨ 1 ≤ T.k)
  | j, T, .returnConst _ => j = .stmt ∧ T.alt = none
  | j, T, .block b => j = .stmt ∧ T.alt = none ∧ TypedSeq sig .stmt T0 b ∧ (outs sig T0 b).alt = none
  | j, T, .ifS _ t f => j = .stmt ∧ T.alt = none ∧ 1 ≤ T.k ∧ (TypedSeq sig .stmt T0 t ∧ (outs sig T0 t).alt = none) ∧
      (TypedSeq sig .stmt T0 f ∧ (outs sig T0 f).alt = none)
  | j, T, .switchS cs => j = .stmt ∧ T.alt = none ∧ 1 ≤ T.k ∧ TypedClauses sig cs
  | j, T, .doWhile b _ c k => j = .stmt ∧ T.alt = none ∧ (TypedSeq sig .stmt T0 b ∧ (outs sig T0 b).alt = none) ∧
      (TypedSeq sig .expr T0 c ∧ (outs sig T0 c).alt = none ∧ 1 ≤ (outs sig T0 c).k) ∧
      (TypedSeq sig .stmt T0 k ∧ (outs sig T0 k).alt = none)
  | j, T, .whileS _ c b k => j = .stmt ∧ T.alt = none ∧
      (TypedSeq sig .expr T0 c ∧ (outs sig T0 c).alt = none ∧ 1 ≤ (outs sig T0 c).k) ∧
      (TypedSeq sig .stmt T0 b ∧ (outs sig T0 b).alt = none) ∧ (TypedSeq sig .stmt T0 k ∧ (outs sig T0 k).alt = none)
  | j, T, .forEach _ _ i b k => j = .stmt ∧ T.alt = none ∧
      (TypedSeq sig .expr T0 i ∧ (outs sig T0 i).alt = none ∧ 1 ≤ (outs sig T0 i).k) ∧
      (TypedSeq sig .stmt T0 b ∧ (outs sig T0 b).alt = none) ∧ (TypedSeq sig .stmt T0 k ∧ (outs sig T0 k).alt = none)
  | j, T, .forS i c s b k => j = .stmt ∧ T.alt = none ∧ (TypedSeq sig .init T0 i ∧ (outs sig T0 i).alt = none) ∧
      (TypedSeq sig .expr T0 c ∧ (outs sig T0 c).alt = none) ∧ (TypedSeq sig .expr T0 s ∧ (outs sig T0 s).alt = none) ∧
      (TypedSeq sig .stmt T0 b ∧ (outs sig T0 b).alt = none) ∧ (TypedSeq sig .stmt T0 k ∧ (outs sig T0 k).alt = none)
  | j, T, .tryS b _ h => j = .stmt ∧ T.alt = none ∧ (TypedSeq sig .stmt T0 b ∧ (outs sig T0 b).alt = none) ∧
      (TypedSeq sig .stmt T0 h ∧ (outs sig T0 h).alt = none)
termination_by structural _ _ x => x

/-- The same for a list. -/
def TypedSeq (sig : P → Sig) : Mode → Ty → List (Node P) → Prop
  | _, _, [] => True
  | j, T, n :: ns => Typed sig j T n ∧ TypedSeq sig j (out sig T n) ns
termination_by structural _ _ x => x

/-- The same for the clauses of a `switch` statement. -/
def TypedClauses (sig : P → Sig) : List (Clause P) → Prop
  | [] => True
  | .mk k l b _ :: cs => ((TypedSeq sig .expr T0 l ∧ (outs sig T0 l).alt = none) ∧
      (match k with | .default => True | .case => 1 ≤ (outs sig T0 l).k | .each _ _ => 2 ≤ (outs sig T0 l).k) ∧
      (TypedSeq sig .stmt T0 b ∧ (outs sig T0 b).alt = none)) ∧ TypedClauses sig cs
termination_by structural x => x

/-- The stacks are not swapped in the current context. -/
def NoAlt : Node P → Prop
  | .altClear => False
  | .altCall _ => False
  | .branchE t f _ => NoAltSeq t ∧ NoAltSeq f
  | .coalesceE t _ => NoAltSeq t
  | .doWhile _ _ _ _ => False
  | .whileS _ _ _ _ => False
  | .switchS _ => False
  | _ => True
termination_by structural x => x

/-- The same for a list. -/
def NoAltSeq : List (Node P) → Prop
  | [] => True
  | n :: ns => NoAlt n ∧ NoAltSeq ns
termination_by structural x => x
end

/-- Statements that are executed in a context of their own. -/
def Body (sig : P → Sig) (b : List (Node P)) : Prop := TypedSeq sig .stmt T0 b ∧ (outs sig T0 b).alt = none

/-- An expression that is executed as a whole. -/
def Whole (sig : P → Sig) (b : List (Node P)) : Prop := TypedSeq sig .expr T0 b ∧ (outs sig T0 b).alt = none

/-- The code of a branch. -/
def Arm (sig : P → Sig) (j : Mode) (T : Ty) (a : Bool) (t : List (Node P)) : Prop :=
  t = [] ∨ (if a then TypedSeq sig .expr T t ∧ outs sig T t = T.setCur (T.cur + 1)
    else TypedSeq sig j (T.setCur (T.cur - 1)) t ∧ outs sig (T.setCur (T.cur - 1)) t = T)

/-! ### Capture of references -/

theorem bind_ok {α β : Type} {a : Res α} {f : α → Res β} {b : β} (h : a.bind f = .ok b) : ∃ x, a = .ok x ∧ f x = .ok b := by
  cases a with
  | ok x => exact ⟨x, rfl, h⟩
  | throw => cases h
  | ub => cases h

theorem map_ok {α β : Type} {a : Res α} {f : α → β} {b : β} (h : a.map f = .ok b) : ∃ x, a = .ok x ∧ f x = b := by
  cases a with
  | ok x => exact ⟨x, rfl, by simpa [Res.map] using h⟩
  | throw => cases h
  | ub => cases h

/-- Code of which references have been captured: the same as before for this purpose. -/
structure Like (sig : P → Sig) (b b' : List (Node P)) : Prop where
  typed : ∀ j T, TypedSeq sig j T b → TypedSeq sig j T b'
  eff : ∀ T, outs sig T b' = outs sig T b
  noAlt : NoAltSeq b → NoAltSeq b'
  nil : b' = [] ↔ b = []

/-- The same for a node. -/
structure LikeN (sig : P → Sig) (n n' : Node P) : Prop where
  typed : ∀ j T, Typed sig j T n → Typed sig j T n'
  eff : ∀ T, out sig T n' = out sig T n
  noAlt : NoAlt n → NoAlt n'

theorem LikeN.refl (sig : P → Sig) (n : Node P) : LikeN sig n n := ⟨fun _ _ h => h, fun _ => rfl, fun h => h⟩

section
variable {sig : P → Sig}

theorem Like.arm {t t' : List (Node P)} (h : Like sig t t') {j : Mode} {T : Ty} {a : Bool} (ht : Arm sig j T a t) :
    Arm sig j T a t' := by
  rcases ht with ht | ht
  · exact .inl (h.nil.2 ht)
  · refine .inr ?_
    split
    · rw [if_pos ‹_›] at ht; exact ⟨h.typed _ _ ht.1, (h.eff _).trans ht.2⟩
    · rw [if_neg ‹_›] at ht; exact ⟨h.typed _ _ ht.1, (h.eff _).trans ht.2⟩

theorem Like.both {t t' : List (Node P)} (h : Like sig t t') {j : Mode} (ht : TypedSeq sig j T0 t ∧ (outs sig T0 t).alt = none) :
    TypedSeq sig j T0 t' ∧ (outs sig T0 t').alt = none := ⟨h.typed _ _ ht.1, by rw [h.eff]; exact ht.2⟩

theorem Like.three {t t' : List (Node P)} (h : Like sig t t') {j : Mode}
    (ht : TypedSeq sig j T0 t ∧ (outs sig T0 t).alt = none ∧ 1 ≤ (outs sig T0 t).k) :
    TypedSeq sig j T0 t' ∧ (outs sig T0 t').alt = none ∧ 1 ≤ (outs sig T0 t').k :=
  ⟨h.typed _ _ ht.1, by rw [h.eff]; exact ht.2.1, by rw [h.eff]; exact ht.2.2⟩

mutual
theorem rebind_like (sig : P → Sig) (ctx : List (Option (List (Name × Ref)))) :
    ∀ (n n' : Node P), rebind ctx n = .ok n' → LikeN sig n n'
  | .block b, n', h => by
    unfold rebind at h
    obtain ⟨b', hb, rfl⟩ := map_ok h
    have h1 := rebindAll_like sig _ b b' hb
    exact ⟨fun j T ht => by unfold Typed at *; exact ⟨ht.1, ht.2.1, h1.both ht.2.2⟩, fun _ => rfl, fun _ => trivial⟩
  | .ifS neg t f, n', h => by
    unfold rebind at h
    obtain ⟨t', ht', h⟩ := bind_ok h
    obtain ⟨f', hf', rfl⟩ := map_ok h
    have h1 := rebindAll_like sig _ t t' ht'
    have h2 := rebindAll_like sig _ f f' hf'
    exact ⟨fun j T ht => by unfold Typed at *; exact ⟨ht.1, ht.2.1, ht.2.2.1, h1.both ht.2.2.2.1, h2.both ht.2.2.2.2⟩,
      fun _ => rfl, fun _ => trivial⟩
  | .switchS cs, n', h => by
    unfold rebind at h
    obtain ⟨cs', hc, rfl⟩ := map_ok h
    have h1 := rebindClauses_like sig _ cs cs' hc
    exact ⟨fun j T ht => by unfold Typed at *; exact ⟨ht.1, ht.2.1, ht.2.2.1, h1 ht.2.2.2⟩, fun _ => rfl, fun h => h⟩
  | .doWhile b neg c k, n', h => by
    unfold rebind at h
    obtain ⟨b', hb, h⟩ := bind_ok h
    obtain ⟨c', hc, h⟩ := bind_ok h
    obtain ⟨k', hk, rfl⟩ := map_ok h
    have h1 := rebindAll_like sig _ b b' hb
    have h2 := rebindAll_like sig _ c c' hc
    have h3 := rebindAll_like sig _ k k' hk
    exact ⟨fun j T ht => by
        unfold Typed at *; exact ⟨ht.1, ht.2.1, h1.both ht.2.2.1, h2.three ht.2.2.2.1, h3.both ht.2.2.2.2⟩,
      fun _ => rfl, fun h => h⟩
  | .whileS neg c b k, n', h => by
    unfold rebind at h
    obtain ⟨c', hc, h⟩ := bind_ok h
    obtain ⟨b', hb, h⟩ := bind_ok h
    obtain ⟨k', hk, rfl⟩ := map_ok h
    have h1 := rebindAll_like sig _ b b' hb
    have h2 := rebindAll_like sig _ c c' hc
    have h3 := rebindAll_like sig _ k k' hk
    exact ⟨fun j T ht => by
        unfold Typed at *; exact ⟨ht.1, ht.2.1, h2.three ht.2.2.1, h1.both ht.2.2.2.1, h3.both ht.2.2.2.2⟩,
      fun _ => rfl, fun h => h⟩
  | .forEach kn mn i b k, n', h => by
    unfold rebind at h
    obtain ⟨c', hc, h⟩ := bind_ok h
    obtain ⟨b', hb, h⟩ := bind_ok h
    obtain ⟨k', hk, rfl⟩ := map_ok h
    have h1 := rebindAll_like sig _ b b' hb
    have h2 := rebindAll_like sig _ i c' hc
    have h3 := rebindAll_like sig _ k k' hk
    exact ⟨fun j T ht => by
        unfold Typed at *; exact ⟨ht.1, ht.2.1, h2.three ht.2.2.1, h1.both ht.2.2.2.1, h3.both ht.2.2.2.2⟩,
      fun _ => rfl, fun _ => trivial⟩
  | .forS i c s b k, n', h => by
    unfold rebind at h
    obtain ⟨i', hi, h⟩ := bind_ok h
    obtain ⟨c', hc, h⟩ := bind_ok h
    obtain ⟨s', hs, h⟩ := bind_ok h
    obtain ⟨b', hb, h⟩ := bind_ok h
    obtain ⟨k', hk, rfl⟩ := map_ok h
    have h0 := rebindAll_like sig _ i i' hi
    have h1 := rebindAll_like sig _ c c' hc
    have h2 := rebindAll_like sig _ s s' hs
    have h3 := rebindAll_like sig _ b b' hb
    have h4 := rebindAll_like sig _ k k' hk
    exact ⟨fun j T ht => by
        unfold Typed at *
        exact ⟨ht.1, ht.2.1, h0.both ht.2.2.1, h1.both ht.2.2.2.1, h2.both ht.2.2.2.2.1, h3.both ht.2.2.2.2.2.1,
          h4.both ht.2.2.2.2.2.2⟩,
      fun _ => rfl, fun _ => trivial⟩
  | .tryS b n hd, n', h => by
    unfold rebind at h
    obtain ⟨t', ht', h⟩ := bind_ok h
    obtain ⟨f', hf', rfl⟩ := map_ok h
    have h1 := rebindAll_like sig _ b t' ht'
    have h2 := rebindAll_like sig _ hd f' hf'
    exact ⟨fun j T ht => by unfold Typed at *; exact ⟨ht.1, ht.2.1, h1.both ht.2.2.1, h2.both ht.2.2.2⟩,
      fun _ => rfl, fun _ => trivial⟩
  | .pushLocal d n, n', h => by
    unfold rebind rebindLocal at h
    split at h
    · cases h
    · cases h; exact LikeN.refl _ _
    · split at h
      · cases h; exact LikeN.refl _ _
      · cases h
      · cases h; exact ⟨fun _ _ _ => trivial, fun _ => rfl, fun _ => trivial⟩
  | .defineFunc ps va b, n', h => by
    unfold rebind at h
    obtain ⟨b', hb, rfl⟩ := map_ok h
    have h1 := rebindAll_like sig _ b b' hb
    exact ⟨fun j T ht => by unfold Typed at *; exact h1.both ht, fun _ => rfl, fun _ => trivial⟩
  | .branchE t f a, n', h => by
    unfold rebind at h
    obtain ⟨t', ht', h⟩ := bind_ok h
    obtain ⟨f', hf', rfl⟩ := map_ok h
    have h1 := rebindAll_like sig _ t t' ht'
    have h2 := rebindAll_like sig _ f f' hf'
    exact ⟨fun j T ht => by unfold Typed at *; exact ⟨ht.1, h1.arm ht.2.1, h2.arm ht.2.2⟩, fun _ => rfl,
      fun hn => by unfold NoAlt at *; exact ⟨h1.noAlt hn.1, h2.noAlt hn.2⟩⟩
  | .deferE b, n', h => by
    unfold rebind at h
    obtain ⟨b', hb, rfl⟩ := map_ok h
    have h1 := rebindAll_like sig _ b b' hb
    exact ⟨fun j T ht => by unfold Typed at *; exact ⟨ht.1, ht.2.1, h1.both ht.2.2⟩, fun _ => rfl, fun _ => trivial⟩
  | .catchE b, n', h => by
    unfold rebind at h
    obtain ⟨b', hb, rfl⟩ := map_ok h
    have h1 := rebindAll_like sig _ b b' hb
    exact ⟨fun j T ht => by
        unfold Typed at *
        exact ⟨ht.1, (h1.both ⟨ht.2.1, ht.2.2.1⟩).1, (h1.both ⟨ht.2.1, ht.2.2.1⟩).2, h1.noAlt ht.2.2.2⟩,
      fun _ => rfl, fun _ => trivial⟩
  | .coalesceE c a, n', h => by
    unfold rebind at h
    obtain ⟨t', ht', rfl⟩ := map_ok h
    have h1 := rebindAll_like sig _ c t' ht'
    exact ⟨fun j T ht => by unfold Typed at *; exact ⟨ht.1, h1.arm ht.2⟩, fun _ => rfl,
      fun hn => by unfold NoAlt at *; exact h1.noAlt hn⟩
  | .clearStack, n', h => by unfold rebind at h; cases h; exact LikeN.refl _ _
  | .declareVar _, n', h => by unfold rebind at h; cases h; exact LikeN.refl _ _
  | .initVar _, n', h => by unfold rebind at h; cases h; exact LikeN.refl _ _
  | .throwS, n', h => by unfold rebind at h; cases h; exact LikeN.refl _ _
  | .assertS, n', h => by unfold rebind at h; cases h; exact LikeN.refl _ _
  | .simpleStatus _, n', h => by unfold rebind at h; cases h; exact LikeN.refl _ _
  | .checkArg _, n', h => by unfold rebind at h; cases h; exact LikeN.refl _ _
  | .pushBound _, n', h => by unfold rebind at h; cases h; exact LikeN.refl _ _
  | .pushConst _, n', h => by unfold rebind at h; cases h; exact LikeN.refl _ _
  | .funcCall _ _, n', h => by unfold rebind at h; cases h; exact LikeN.refl _ _
  | .altClear, n', h => by unfold rebind at h; cases h; exact LikeN.refl _ _
  | .altCall _, n', h => by unfold rebind at h; cases h; exact LikeN.refl _ _
  | .returnS _ _, n', h => by unfold rebind at h; cases h; exact LikeN.refl _ _
  | .returnConst _, n', h => by unfold rebind at h; cases h; exact LikeN.refl _ _
  | .defineNull _ _, n', h => by unfold rebind at h; cases h; exact LikeN.refl _ _
  | .declareRef _, n', h => by unfold rebind at h; cases h; exact LikeN.refl _ _
  | .initRef _, n', h => by unfold rebind at h; cases h; exact LikeN.refl _ _
  | .prim _, n', h => by unfold rebind at h; cases h; exact LikeN.refl _ _
termination_by structural x => x

theorem rebindAll_like (sig : P → Sig) (ctx : List (Option (List (Name × Ref)))) :
    ∀ (b b' : List (Node P)), rebindAll ctx b = .ok b' → Like sig b b'
  | [], b', h => by
    unfold rebindAll at h; cases h
    exact ⟨fun _ _ h => h, fun _ => rfl, fun h => h, Iff.rfl⟩
  | n :: ns, b', h => by
    unfold rebindAll at h
    obtain ⟨n', hn, h⟩ := bind_ok h
    obtain ⟨ns', hns, rfl⟩ := map_ok h
    have h1 := rebind_like sig ctx n n' hn
    have h2 := rebindAll_like sig ctx ns ns' hns
    refine ⟨fun j T ht => ?_, fun T => ?_, fun hn => ?_, by simp⟩
    · unfold TypedSeq at *
      exact ⟨h1.typed _ _ ht.1, by rw [h1.eff]; exact h2.typed _ _ ht.2⟩
    · show outs sig (out sig T n') ns' = outs sig (out sig T n) ns
      rw [h1.eff, h2.eff]
    · unfold NoAltSeq at *
      exact ⟨h1.noAlt hn.1, h2.noAlt hn.2⟩
termination_by structural x => x

theorem rebindClauses_like (sig : P → Sig) (ctx : List (Option (List (Name × Ref)))) :
    ∀ (cs cs' : List (Clause P)), rebindClauses ctx cs = .ok cs' → TypedClauses sig cs → TypedClauses sig cs'
  | [], cs', h, _ => by unfold rebindClauses at h; cases h; trivial
  | .mk k l b ns :: cs, cs', h, ht => by
    unfold rebindClauses at h
    obtain ⟨l', hl, h⟩ := bind_ok h
    obtain ⟨b', hb, h⟩ := bind_ok h
    obtain ⟨cs', hcs, rfl⟩ := map_ok h
    have h1 := rebindAll_like sig _ l l' hl
    have h2 := rebindAll_like sig _ b b' hb
    unfold TypedClauses at *
    refine ⟨⟨h1.both ht.1.1, ?_, h2.both ht.1.2.2⟩, rebindClauses_like sig _ cs cs' hcs ht.2⟩
    have h3 := ht.1.2.1
    rw [h1.eff]; exact h3
termination_by structural x => x
end

end

end Asteria.Exec.Safe
