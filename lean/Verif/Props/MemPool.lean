import Verif.Proof.MemPool

/-!
# C106: the memory pools, shared by any number of threads
-/

namespace Asteria.MemPool

variable {T : Type} [DecidableEq T]

/-- In whichever order threads take turns, nothing that is not a block is accessed, no block is accessed beyond its size,
and nothing is given to `operator delete` twice; whatever callers write to blocks that they hold. -/
theorem C106_safe_partial (as : List (Act T)) (h : ∀ a ∈ as, a.sane) : ∃ w, run (World.init T) as = .ok w ∧ Reach w := by
  obtain ⟨w, h1, _⟩ := run_inv as inv_init h
  exact ⟨w, h1, as, h, h1⟩

/-- Every block of the system is in exactly one place: with the callers, in one list, or with one thread that works on it. -/
theorem C106_partition {w : World T} (h : Reach w) : ∃ place : Addr → Owner T, ∀ a,
    (place a = .free ↔ w.real a = none) ∧ (place a = .user ↔ w.held a ≠ none) ∧
    (∀ si, place a = .pool si ↔ Linked w.next (w.head si) a) ∧ ∀ t, place a = .thr t ↔ Uses w t a := by
  obtain ⟨o, h⟩ := reach_inv h
  refine ⟨o, fun a => ⟨h.live a, h.user a, fun si => ?_, fun t => (h.thr t).uses a⟩⟩
  obtain ⟨L, h1, h2, _⟩ := h.pool si
  exact (h2 a).trans (h1.linked a).symm

/-- A block that is held is at least as large as `xmemalloc` has told. -/
theorem C106_size {w : World T} (h : Reach w) {b : Addr} {n : Nat} (hb : w.held b = some n) : ∃ s, w.real b = some s ∧ n ≤ s := by
  obtain ⟨o, h⟩ := reach_inv h
  obtain ⟨h1, s, h2, h3⟩ := h.big b n hb
  exact ⟨s, h2, Nat.le_trans (le_pool (by omega)) h3⟩

/-- When `xmemalloc` returns, the block was nobody's before, and `info` tells at least what was asked for. -/
theorem C106_alloc {w : World T} (h : Reach w) {t : T} {q : Req} {b : Addr} (hp : w.pc t = .give q b) (a : Option Addr) (s : Bool) :
    w.held b = none ∧ (∀ si, ¬ Linked w.next (w.head si) b) ∧ (∀ t', Uses w t' b → t' = t) ∧
    ∃ w', step w t a s = .ok w' ∧ w'.pc t = .idle ∧ w'.held b = some (q.esize * q.got) ∧ q.bytes ≤ q.esize * q.got ∧
      (0 < q.esize → q.count ≤ q.got) := by
  have hr := h
  obtain ⟨o, h⟩ := reach_inv h
  have hob : o b = .thr t := by
    rw [(h.thr t).uses b, Uses, hp]
  have ht := h.thr t
  rw [hp] at ht
  obtain ⟨hE, hb, hq⟩ := ht
  have hq' : q.bytes ≤ 2 ^ 63 := hq
  have hgot : 0 < q.esize → q.count ≤ q.got := by
    intro he
    have h1 := le_pool (n := q.bytes) (by omega)
    unfold Req.got
    split
    · rw [Nat.le_div_iff_mul_le he, Nat.mul_comm]
      exact h1
    · have e : q.esize = 1 := by omega
      have : q.bytes = q.count := by unfold Req.bytes; rw [e, Nat.one_mul]
      omega
  refine ⟨?_, ?_, ?_, ?_⟩
  · by_contra hc
    have := (h.user b).mpr hc
    rw [hob] at this; cases this
  · intro si hl
    obtain ⟨L, h1, h2, _⟩ := h.pool si
    have := (h2 b).mpr ((h1.linked b).mp hl)
    rw [hob] at this; cases this
  · intro t' hu
    have := ((h.thr t').uses b).mpr hu
    rw [hob] at this; cases this; rfl
  · refine ⟨{ w with held := Function.update w.held b (some (q.esize * q.got)) }.goto t .idle, ?_, goto_pc _ _ _,
      Function.update_self _ _ _, ?_, hgot⟩
    · unfold step
      rw [hp]
      exact touch_ok hb _
    · unfold Req.bytes
      by_cases he : 0 < q.esize
      · exact Nat.mul_le_mul_left _ (hgot he)
      · have : q.esize = 0 := by omega
        rw [this, Nat.zero_mul]; exact Nat.zero_le _

/-- A block that is freed with the `info` that `xmemalloc` has given goes to the pool from which requests of its size are
served. -/
theorem C106_same_pool {q : Req} (hq : q.bytes ≤ 2 ^ 63) : pool (q.esize * q.got) = pool q.bytes := by
  obtain ⟨h1, h2⟩ := pool_got (q := q) hq
  refine Nat.le_antisymm h2 (pool_le ?_ (by omega) (pool_ge (by omega)))
  refine Nat.le_trans ?_ (le_pool (by omega))
  have h3 := le_pool (n := q.bytes) (by omega)
  unfold Req.got
  split
  · exact Nat.mul_le_mul_left _ ((Nat.le_div_iff_mul_le (by omega)).mpr (by rw [Nat.mul_comm]; exact h3))
  · have : q.esize = 0 ∨ q.esize = 1 := by omega
    rcases this with e | e
    · unfold Req.bytes; rw [e, Nat.zero_mul]; exact Nat.zero_le _
    · have : q.bytes = q.count := by unfold Req.bytes; rw [e, Nat.one_mul]
      rw [e, Nat.one_mul]; omega

/-- Nothing is lost: `xmemclean`, when nobody else is in these functions, gives everything back to the system except the
blocks that callers hold. -/
theorem C106_clean {w : World T} (h : Reach w) (hi : ∀ t, w.pc t = .idle) (t : T) :
    ∃ n w', run w (.clean t :: List.replicate n (.step t none false)) = .ok w' ∧ (∀ t', w'.pc t' = .idle) ∧
      w'.held = w.held ∧ ∀ a, w'.real a ≠ none ↔ w.held a ≠ none := by
  have he : exec w (.clean t) = .ok (w.goto t (.clean 0)) := by
    unfold exec
    dsimp only
    rw [if_neg (by rw [hi t]; simp)]
  have hr := reach_exec h (a := .clean t) trivial he
  obtain ⟨w', h1, h2, h3, _, h5⟩ := clean_alone 63 _ 0 rfl hr (goto_pc _ _ _)
  obtain ⟨n, hn⟩ := alone_run h1
  have hidle : ∀ t', w'.pc t' = .idle := by
    intro t'
    by_cases e : t' = t
    · rw [e, h2]
    · rw [h5.pc t' e, goto_ne _ _ e, hi t']
  have hheld : w'.held = w.held := h5.held
  refine ⟨n, w', ?_, hidle, hheld, fun a => ?_⟩
  · rw [run, he]; exact hn
  · obtain ⟨o, hI⟩ := reach_inv (alone_reach h1 hr)
    rw [← hheld, ← hI.user a, Ne, ← hI.live a]
    cases ho : o a with
    | free => simp
    | user => simp
    | pool si =>
      obtain ⟨L, hc, hL, _⟩ := hI.pool si
      rw [h3 si (Nat.zero_le _)] at hc
      cases hc
      exact absurd ((hL a).mp ho) (by simp)
    | thr t' =>
      have := ((hI.thr t').uses a).mp ho
      rw [Uses, hidle t'] at this
      exact this.elim

/-- The claim without a limit for sizes: whatever is asked for, `xmemalloc` returns or throws. -/
def C106_claim (T : Type) [DecidableEq T] : Prop := ∀ as : List (Act T), run (World.init T) as ≠ .ub

/-- It is false: for more than half of the address space, the size is rounded up to 2 to the 64th power. -/
theorem C106_false : ¬ C106_claim Unit := by
  intro h
  apply h [.alloc () ⟨1, 2 ^ 63 + 1⟩ .use]
  have h1 : pool (2 ^ 63 + 1) = 64 := by
    rw [pool_eq (by omega) (by omega), Nat.add_sub_cancel, Nat.log2_two_pow]
  have h2 : (⟨1, 2 ^ 63 + 1⟩ : Req).bytes = 2 ^ 63 + 1 := rfl
  unfold run exec
  dsimp only
  rw [if_neg (by simp [World.init]), h2, if_neg (by omega), if_pos (by rw [h1])]
  rfl

/-! ### A concrete case -/

/-- Two threads: a block is freed by one and used again by the other; it is the same block, and it was in the list between. -/
example : (match (do
    let w ← run (World.init Bool) [.alloc false ⟨16, 3⟩ .use, .step false none false, .step false (some 7) false,
      .step false none false]
    let v ← run w [.write 7 (some 99), .free false 7 ⟨16, 4⟩ .use, .step false none false, .step false none false,
      .alloc true ⟨8, 5⟩ .use, .step false none false]
    let u ← run v [.step true none false, .step true none false, .step true none false, .step true none false, .step true none false]
    pure (w.held 7, v.head 6, v.held 7, u.held 7, u.head 6, u.real 7) : Res _) with
    | .ok x => x == (some 64, some 7, none, some 64, none, some 64)
    | _ => false) = true := by
  decide +kernel

end Asteria.MemPool
