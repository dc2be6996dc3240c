import Verif.Proof.Variant

/-!
# C153: variants
-/

namespace Asteria.Variant

open Spec

/-- C153: every variant has exactly one object, of the alternative type that its index tells; what has been
moved away from may be without one if its first alternative type is trivial, and then is that. -/
theorem C153_good {T : Sig} (hT : Sane T) {st : State} (h : Reached T st) : AllGood T st := by
  induction h with
  | init st h => intro i hi; rw [h] at hi; cases hi
  | step _ c ha he ih =>
    obtain ⟨st', b, h1, h2, _⟩ := exec_ok hT ih c ha
    rw [h1] at he
    cases he
    exact h2

/-- C153: no operation has undefined behaviour, and none leaves an object without destroying it; each does what
it shall do to the variants it names, and to no other anything. -/
theorem C153_partial {T : Sig} (hT : Sane T) {st : State} (h : Reached T st) (c : Cmd) (ha : Allowed T st c) :
    ∃ st' threw, st.exec T c = .ok (st', threw) ∧ Reached T st' ∧ Effect T st st' threw c := by
  obtain ⟨st', b, h1, _, h3⟩ := exec_ok hT (C153_good hT h) c ha
  exact ⟨st', b, h1, .step h c ha h1, h3⟩

/-- The kind of operations that have the strong guarantee. -/
def Strong (st : State) : Cmd → Prop
  | .asgParam d k _ _ _ => st.idx d ≠ k
  | .asgInner d k _ _ _ => st.idx d ≠ k
  | .asgCopy d s _ _ => st.idx d ≠ st.idx s
  | _ => True

/-- C153: if an operation throws, then nothing has changed, unless it was the assignment operator of an alternative
type that has thrown. -/
theorem C153_strong {T : Sig} (hT : Sane T) {st : State} (h : Reached T st) (c : Cmd) (ha : Allowed T st c)
    (hs : Strong st c) (st' : State) (he : st.exec T c = .ok (st', true)) : Unchanged st st' := by
  obtain ⟨st'', b, h1, _, h3⟩ := C153_partial hT h c ha
  rw [he] at h1
  cases h1
  cases c with
  | make d => cases h3.1
  | makeParam d k v fail => exact h3.2.1 rfl
  | makeCopy d s fail => exact h3.2.1 rfl
  | makeMove d s => cases h3.1
  | asgParam d k src fail left => exact h3.2.1 rfl hs
  | asgParamMove d k src => cases h3.1
  | asgCopy d s fail left => exact h3.2.1 rfl hs
  | asgInner d k v fail left => exact h3.2.1 rfl hs
  | asgMove d s => cases h3.1
  | swap d s => cases h3.1
  | emplace d k src fail => exact h3.2.1 rfl
  | drop d => cases h3.1

/-- C153: reading tells what was put in: it throws if and only if another alternative is asked for. -/
theorem C153_get {T : Sig} (hT : Sane T) {st : State} (h : Reached T st) (s k : Nat) (hs : st.alive s = true) :
    (st.idx s ≠ k → st.get s k = .throw) ∧ (st.idx s = k → ∃ x, st.get s k = .ok x ∧
      (∀ v, Holds st s k v → x = some v) ∧ (x = none → k = 0 ∧ T.triv 0 = true)) := by
  unfold State.get
  refine ⟨fun e => if_pos e, fun e => ?_⟩
  rw [if_neg (fun e' => e' e)]
  rcases (C153_good hT h s hs).2 with ⟨v, h1⟩ | ⟨h1, h2, h3⟩
  · rw [h1, e]
    dsimp only
    rw [if_pos rfl]
    refine ⟨some v, rfl, fun w hw => ?_, fun e => by cases e⟩
    have := hw.2.2
    rw [h1, e] at this
    cases this; rfl
  · rw [h1]
    refine ⟨none, rfl, fun w hw => ?_, fun _ => ⟨by omega, h3⟩⟩
    have := hw.2.2
    rw [h1] at this
    cases this

/-- C153: reading an argument that the present alternative owns is undefined behaviour, whenever that
alternative has a destructor, is to be replaced by one of another type, and that type (for a variant: every type)
is copied without exceptions: then it is destroyed before it is read.  `value = value.as_array()[0]` is such a case. -/
theorem C153_false {T : Sig} (hT : Sane T) {st : State} (h : Reached T st) (d k v : Nat) (fail : Bool) (left : Nat)
    (hd : st.alive d = true) (ht : T.triv (st.idx d) = false) (hk : st.idx d ≠ k) :
    (T.nothrow k = true → st.asgParam T d k (.owned v) fail left = .ub) ∧
    (T.all = true → st.asgInner T d k v fail left = .ub) ∧
    st.asgParamMove T d k (.owned v) = .ub := by
  have hn : st.replaceNow T d k (.owned v) = .ub := by
    unfold State.replaceNow
    obtain ⟨x, e1, _⟩ := destroy_ok (good_has (C153_good hT h d hd))
    rw [e1, Res.ok_bind, ht]
    rfl
  refine ⟨fun e => ?_, fun e => ?_, ?_⟩
  · unfold State.asgParam State.replace
    rw [if_neg hk, if_pos e, hn]
  · unfold State.asgInner
    rw [if_neg hk, if_pos e, hn]
  · unfold State.asgParamMove
    rw [if_neg hk, hn]

/-! ## Cases -/

/-- Like `Value`: the first of three alternatives is trivial; the last one may throw when it is copied. -/
def sig : Sig := ⟨3, fun k => k == 0, fun k => k != 2, 0, fun _ _ => 0⟩

theorem sig_sane : Sane sig := by
  refine ⟨by decide, fun k h => ?_⟩
  simp [sig] at h ⊢
  omega

/-- Nothing exists. -/
def nothing : State := ⟨fun _ => false, fun _ => 0, fun _ => none⟩

/-- Executing a list of operations. -/
def program (T : Sig) (st : State) : List Cmd → State × List Bool
  | [] => (st, [])
  | c :: l =>
    match st.exec T c with
    | .ok (st', b) => let r := program T st' l; (r.1, b :: r.2)
    | _ => (st, [])

/-- Two variants are made, the second one is assigned to the first, which throws; then they are swapped, and one
is moved to the other. -/
def steps : List Cmd :=
  [.makeParam 0 1 7 false, .makeParam 1 2 8 false, .asgCopy 0 1 true 0, .swap 0 1, .asgMove 0 1]

/-- What these do: after the exception the first variant is as it was, and in the end it has it back and the other one is null. -/
example : (program sig nothing (steps.take 3)).2 = [false, false, true] ∧
    (program sig nothing (steps.take 3)).1.stor 0 = some ⟨1, 7⟩ ∧
    (program sig nothing (steps.take 4)).1.stor 0 = some ⟨2, 8⟩ ∧
    (program sig nothing steps).1.stor 0 = some ⟨1, 7⟩ ∧ (program sig nothing steps).1.idx 1 = 0 ∧
    (program sig nothing steps).1.stor 1 = none := by decide

/-- The hypotheses are met: a variant that has a value with a destructor. -/
theorem one_reached : ∃ st, Reached sig st ∧ Holds st 0 1 7 :=
  ⟨_, .step (.init nothing fun _ => rfl) (.makeParam 0 1 7 false) ⟨rfl, by decide⟩ rfl, rfl, rfl, rfl⟩

/-- C153 is false: such a state is reached, and assigning what the variant owns is undefined behaviour. -/
theorem C153_witness_false : ∃ st, Reached sig st ∧ st.alive 0 = true ∧
    st.asgParam sig 0 0 (.owned 5) false 0 = .ub ∧ st.asgParamMove sig 0 2 (.owned 5) = .ub := by
  obtain ⟨st, h, h1, h2, _⟩ := one_reached
  have ht : sig.triv (st.idx 0) = false := by rw [h2]; rfl
  refine ⟨st, h, h1, ?_, ?_⟩
  · exact (C153_false sig_sane h 0 0 5 false 0 h1 ht (by rw [h2]; decide)).1 rfl
  · exact (C153_false sig_sane h 0 2 5 false 0 h1 ht (by rw [h2]; decide)).2.2

end Asteria.Variant
