import Verif.Proof.SafeStep
import Verif.Proof.ScopeRun
import Verif.Proof.Exec

/-! The induction over the steps of an execution. -/

namespace Asteria.Exec.Safe

variable {P : Type} {sem : Sem P} {sig : P → Sig}

theorem filter_sat {o : Option (Out P)} {Q : Out P → Prop} {f : Out P → Bool} (h : Sat o Q) : Sat (o.filter f) Q :=
  ⟨fun x hx => h.app x (by rw [Option.filter_eq_some_iff] at hx; exact hx.1)⟩

/-- What is found by an execution that may be abandoned is found by the execution. -/
theorem watched_le (pre : Task P → State P → Prop) (post : State P → Prop) (n : Nat) :
    ∀ t st, Le (watched sem pre post n t st) (exec sem n t st) := by
  induction n with
  | zero => intro t st; exact ⟨fun _ h => by simp [watched] at h⟩
  | succ n ih =>
    intro t st
    refine ⟨fun o h => ?_⟩
    unfold watched at h
    split at h
    · rw [Option.filter_eq_some_iff] at h
      exact (Le.step ih t st).app o h.1
    · cases h

/-- The tests of `attempt` and that local references find their names. -/
def Pre (sem : Sem P) (t : Task P) (st : State P) : Prop := (st.Defined sem ∧ t.Defined st) ∧ LocalsFound t st

theorem good_watched (n : Nat) {pre : Task P → State P → Prop} {post : State P → Prop} :
    Good False (watched sem pre post n) := by
  have hg := good_exec False sem n
  have hle := watched_le (sem := sem) pre post n
  exact ⟨fun t X st h1 h2 => ⟨fun o ho => (hg.whole t X st h1 h2).app o ((hle t st).app o ho)⟩,
    fun t fl X ss st h1 h2 => ⟨fun o ho => (hg.local_ t fl X ss st h1 h2).app o ((hle t st).app o ho)⟩,
    fun t X ss st h1 h2 => ⟨fun o ho => (hg.exits t X ss st h1 h2).app o ((hle t st).app o ho)⟩⟩

theorem watched_post (n : Nat) {pre : Task P → State P → Prop} {post : State P → Prop} {t : Task P} {st : State P} {o : Out P}
    (h : watched sem pre post n t st = some o) : ∀ st', o.state? = some st' → post st' := by
  cases n with
  | zero => simp [watched] at h
  | succ n =>
    unfold watched at h
    split at h
    · rw [Option.filter_eq_some_iff] at h; simpa using h.2
    · cases h

theorem watched_safe (hsem : SafeSem sem sig) (n : Nat) : R sem sig (watched sem (Pre sem) (fun st => st.Defined sem) n) := by
  induction n with
  | zero => exact ⟨fun _ => ⟨fun o h => by simp [watched] at h⟩, good_watched 0, fun t st o h => by simp [watched] at h⟩
  | succ n ih =>
    refine ⟨fun {t st Q} hc => ?_, good_watched _, fun t st o h => watched_post _ h⟩
    unfold watched
    split
    · rename_i hp
      exact filter_sat (step_safe hsem ih hc hp.1.1 hp.1.2 hp.2)
    · exact ⟨fun o h => by cases h⟩

/-- The test for local references makes no difference. -/
theorem watched_rec (n : Nat) : Scope.Rec (watched sem (Pre sem) (fun st => st.Defined sem) n) (attempt sem n) := by
  induction n with
  | zero => intro t st _ _; exact ⟨rfl, fun o h => by simp [attempt, watched] at h⟩
  | succ n ih =>
    intro t st ht hi
    have h := Scope.step_sim sem ih t st ht hi
    have hl := Scope.localsFound t st ht
    unfold attempt watched
    by_cases hp : st.Defined sem ∧ t.Defined st
    · rw [if_pos (show Pre sem t st from ⟨hp, hl⟩), if_pos hp]
      have he : step sem (watched sem (Pre sem) (fun st => st.Defined sem) n) t st =
        step sem (watched sem (fun t st => st.Defined sem ∧ t.Defined st) (fun st => st.Defined sem) n) t st := h.eq
      rw [he]
      refine ⟨rfl, fun o ho => h.sat o ?_⟩
      rw [Option.filter_eq_some_iff] at ho
      exact ho.1
    · rw [if_neg (fun h : Pre sem t st => hp h.1), if_neg hp]
      exact ⟨rfl, fun o ho => by cases ho⟩

/-- A piece that keeps the discipline and refers to names that exist. -/
theorem attempt_safe (hsem : SafeSem sem sig) {t : Task P} {st : State P} {Q : Out P → Prop} (hc : Claim sig t st Q)
    (ht : Scope.ST (Scope.rt st) t) (hi : Scope.Inv st) (n : Nat) : Sat (attempt sem n t st) Q := by
  rw [← (watched_rec n t st ht hi).eq]
  exact (watched_safe hsem n).claim hc

end Asteria.Exec.Safe
