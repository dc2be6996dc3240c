import Verif.Model.CowHashMap
import Verif.Proof.HashTable

/-!
# `cow_hashmap`: invariants
-/

namespace Asteria.HashMap

open Asteria.Hash

variable {K V : Type}

/-- Plausible constants of an instantiation. -/
structure Cfg.Ok (c : Cfg) : Prop where
  bpos : 0 < c.bsize
  lt : c.bsize < c.ssize
  small : c.ssize < 2 ^ 32
  limit : c.limit < 2 ^ 61

/-- The invariant of storage. -/
structure Storage.Inv (hash : K → Nat) (st : Storage K V) : Prop where
  wf : Wf hash st.bkts
  nelem : st.nelem = (elems st.bkts).length
  load : 2 * st.nelem ≤ st.bkts.length
  pos : 0 < st.bkts.length
  bound : st.bkts.length < 2 ^ 64

/-- The invariant of a handle. -/
def Inv (hash : K → Nat) : Map K V → Prop
  | none => True
  | some st => st.Inv hash

/-- The elements of a map in the order of iteration. -/
def elemsOf : Map K V → List (K × V)
  | none => []
  | some st => elems st.bkts

theorem nbkt_bounds (c : Cfg) (hc : c.Ok) (n : Nat) (hn : n ≤ c.limit) :
    2 * n ≤ maxNbkt c (minNblk c (n * 2)) ∧ 0 < maxNbkt c (minNblk c (n * 2)) ∧
      maxNbkt c (minNblk c (n * 2)) < 2 ^ 64 := by
  have hb := hc.bpos
  have hlt := hc.lt
  have hsm := hc.small
  have hl := hc.limit
  unfold maxNbkt minNblk
  rw [Nat.add_sub_cancel]
  generalize hx : n * 2 * c.bsize + c.ssize - 1 - c.bsize = x
  have h1 : x / c.ssize * c.ssize ≤ x := Nat.div_mul_le_self _ _
  have h2 : x < (x / c.ssize + 1) * c.ssize := by
    have := Nat.lt_div_mul_add (a := x) (b := c.ssize) (by omega)
    rw [Nat.add_mul, Nat.one_mul]; exact this
  rw [Nat.add_mul, Nat.one_mul] at h2
  refine ⟨?_, Nat.succ_pos _, ?_⟩
  · have h3 : (2 * n - 1) * c.bsize ≤ x / c.ssize * c.ssize := by
      rw [Nat.sub_mul]
      have : n * 2 * c.bsize = 2 * n * c.bsize := by rw [Nat.mul_comm n 2]
      omega
    have := (Nat.le_div_iff_mul_le hb).2 h3
    omega
  · have h4 : x / c.ssize * c.ssize < (2 * n + c.ssize) * c.bsize := by
      rw [Nat.add_mul]
      have e1 : n * 2 * c.bsize = 2 * n * c.bsize := by rw [Nat.mul_comm n 2]
      have : c.ssize * 1 ≤ c.ssize * c.bsize := Nat.mul_le_mul_left _ hb
      omega
    have := (Nat.div_lt_iff_lt_mul hb).2 h4
    omega

theorem Storage.Inv.exists_empty {hash : K → Nat} {st : Storage K V} (h : st.Inv hash) :
    ∃ z : Nat, st.bkts[z]? = some none := by
  apply Hash.exists_empty
  have h1 := h.load
  have h2 := h.nelem
  have h3 := h.pos
  omega

theorem inv_replicate (hash : K → Nat) (n : Nat) (h0 : 0 < n) (h : n < 2 ^ 64) :
    (⟨List.replicate n none, 0⟩ : Storage K V).Inv hash :=
  ⟨wf_replicate hash n, by rw [elems_replicate]; rfl, Nat.zero_le _, by simpa using h0, by simpa using h⟩

namespace Storage

theorem adopt_spec (hash : K → Nat) (st : Storage K V) (e : K × V) (h : st.Inv hash)
    (hnew : ∀ v, (e.1, v) ∉ elems st.bkts) (hroom : 2 * (st.nelem + 1) ≤ st.bkts.length) :
    ∃ st', st.adopt hash e = .ok st' ∧ st'.Inv hash ∧ (elems st'.bkts).Perm (e :: elems st.bkts) ∧
      st'.bkts.length = st.bkts.length ∧ st'.nelem = st.nelem + 1 := by
  obtain ⟨z, hz⟩ := h.exists_empty
  obtain ⟨q, h1, h2, h3⟩ := spare_spec hash st.bkts e.1 z h.bound hz
  have hp := elems_set_some e h2
  refine ⟨⟨st.bkts.set q (some e), st.nelem + 1⟩, ?_, ⟨wf_insert hash st.bkts e q h.wf h2 hnew h3, ?_, ?_, ?_, ?_⟩,
    hp, ?_, rfl⟩
  · unfold adopt
    rw [h1, Res.ok_bind]
    unfold adoptAt
    rw [h2]
  · simp only; rw [hp.length_eq, h.nelem, List.length_cons]
  · simp only [List.length_set]; exact hroom
  · simp only [List.length_set]; exact h.pos
  · simp only [List.length_set]; exact h.bound
  · simp only [List.length_set]

theorem transfer_spec (hash : K → Nat) (old : Table K V) (st : Storage K V) (h : st.Inv hash)
    (hnd : ((elems old).map Prod.fst ++ (elems st.bkts).map Prod.fst).Nodup)
    (hroom : 2 * (st.nelem + (elems old).length) ≤ st.bkts.length) :
    ∃ st', transfer hash old st = .ok st' ∧ st'.Inv hash ∧ (elems st'.bkts).Perm (elems old ++ elems st.bkts) ∧
      st'.bkts.length = st.bkts.length ∧ st'.nelem = st.nelem + (elems old).length := by
  induction old generalizing st with
  | nil => exact ⟨st, rfl, h, List.Perm.refl _, rfl, rfl⟩
  | cons o old ih =>
    cases o with
    | none =>
      have he : elems (none :: old) = elems old := by simp [elems]
      rw [he] at hnd hroom ⊢
      exact ih st h hnd hroom
    | some e =>
      have he : elems (some e :: old) = e :: elems old := by simp [elems]
      rw [he] at hnd hroom ⊢
      rw [List.map_cons, List.cons_append, List.nodup_cons] at hnd
      simp only [List.length_cons] at hroom ⊢
      obtain ⟨st1, r1, r2, r3, r4, r5⟩ := adopt_spec hash st e h
        (fun v hv => hnd.1 (List.mem_append_right _ (List.mem_map.2 ⟨_, hv, rfl⟩))) (by omega)
      obtain ⟨st2, q1, q2, q3, q4, q5⟩ := ih st1 r2 (by
          refine (((r3.map Prod.fst).append_left _).nodup_iff).2 ?_
          rw [List.map_cons]
          exact (List.perm_middle.nodup_iff).2 (List.nodup_cons.2 hnd)) (by omega)
      refine ⟨st2, ?_, q2, ?_, by omega, by omega⟩
      · simp only [transfer]; rw [r1]; exact q1
      · exact q3.trans ((r3.append_left _).trans List.perm_middle)

theorem cloneFrom_spec (old pre : Table K V) (n : Nat) (hn : n = (elems pre).length) :
    cloneFrom old pre.length ⟨pre ++ List.replicate old.length none, n⟩ =
      .ok ⟨pre ++ old, (elems (pre ++ old)).length⟩ := by
  induction old generalizing pre n with
  | nil => simp [cloneFrom, hn]
  | cons o old ih =>
    have hsnoc : ∀ (o : Option (K × V)) (t : Table K V), pre ++ o :: t = (pre ++ [o]) ++ t := by simp
    cases o with
    | none =>
      simp only [cloneFrom, List.length_cons, List.replicate_succ]
      rw [hsnoc none (List.replicate _ _), hsnoc none old]
      have := ih (pre ++ [none]) n (by rw [hn]; simp [elems])
      rw [List.length_append, List.length_singleton] at this
      exact this
    | some e =>
      simp only [cloneFrom, List.length_cons, List.replicate_succ]
      have h1 : adoptAt (⟨pre ++ none :: List.replicate old.length none, n⟩ : Storage K V) pre.length e =
          .ok ⟨(pre ++ [some e]) ++ List.replicate old.length none, n + 1⟩ := by
        simp [adoptAt]
      rw [h1, Res.ok_bind, hsnoc (some e) old]
      have := ih (pre ++ [some e]) (n + 1) (by rw [hn]; simp [elems])
      rw [List.length_append, List.length_singleton] at this
      exact this

/-- A clone has the same elements in the same buckets. -/
theorem clone_spec (hash : K → Nat) (st : Storage K V) (h : st.Inv hash) : st.clone = .ok st := by
  unfold clone
  by_cases hn : st.nelem = 0
  · rw [if_neg (by omega)]
    have : st.bkts = List.replicate st.bkts.length none := by
      apply List.ext_getElem?
      intro i
      rw [List.getElem?_replicate]
      split
      · next hi =>
        rw [List.getElem?_eq_getElem hi]
        cases ht : st.bkts[i] with
        | none => rfl
        | some e =>
          have hmem : e ∈ elems st.bkts := mem_elems.2 ⟨i, by rw [List.getElem?_eq_getElem hi, ht]⟩
          have h0 : elems st.bkts = [] := List.length_eq_zero_iff.1 (by rw [← h.nelem]; exact hn)
          rw [h0] at hmem; cases hmem
      · next hi => rw [List.getElem?_eq_none (by omega)]
    rw [← this, ← hn]
  · rw [if_pos hn]
    have := cloneFrom_spec st.bkts [] 0 rfl
    simp only [List.nil_append, List.length_nil] at this
    rw [this, ← h.nelem]

/-! ## Erasure -/

theorem clearRange_spec (ks : List Nat) (st : Storage K V) (hk : ∀ k ∈ ks, k < st.bkts.length)
    (hn : st.nelem = (elems st.bkts).length) :
    ∃ st', clearRange ks st = .ok st' ∧ st'.bkts.length = st.bkts.length ∧
      st'.nelem = (elems st'.bkts).length ∧
      ∀ j : Nat, j < st.bkts.length → st'.bkts[j]? = if j ∈ ks then some none else st.bkts[j]? := by
  induction ks generalizing st with
  | nil => exact ⟨st, rfl, rfl, hn, by simp⟩
  | cons k ks ih =>
    have hkl := hk k (by simp)
    cases ht : st.bkts[k] with
    | none =>
      have hg : st.bkts[k]? = some none := by rw [List.getElem?_eq_getElem hkl, ht]
      obtain ⟨st', r1, r2, r3, r4⟩ := ih st (fun j hj => hk j (by simp [hj])) hn
      refine ⟨st', ?_, r2, r3, ?_⟩
      · simp only [clearRange]; rw [hg]; exact r1
      · intro j hj
        rw [r4 j hj]
        by_cases hjk : j = k
        · subst hjk; simp [hg]
        · simp [hjk]
    | some e =>
      have hg : st.bkts[k]? = some (some e) := by rw [List.getElem?_eq_getElem hkl, ht]
      have hp := elems_set_none hg
      obtain ⟨st', r1, r2, r3, r4⟩ := ih ⟨st.bkts.set k none, st.nelem - 1⟩
        (fun j hj => by simpa using hk j (by simp [hj]))
        (by simp only; rw [hn, hp.length_eq]; simp)
      simp only [List.length_set] at r2 r4
      refine ⟨st', ?_, r2, r3, ?_⟩
      · simp only [clearRange]; rw [hg]; exact r1
      · intro j hj
        rw [r4 j hj, List.getElem?_set]
        by_cases hjk : k = j
        · subst hjk; simp [hkl]
        · have : j ≠ k := Ne.symm hjk
          simp [hjk, this]

theorem relocate_spec (hash : K → Nat) (F : Nat) (pre tail : List Nat) (st : Storage K V) (s : Nat)
    (h64 : st.bkts.length < 2 ^ 64) (htail : tail = [] ∨ ∃ r, tail = F :: r)
    (hpre : ∀ k ∈ pre, k < st.bkts.length ∧ st.bkts[k]? ≠ some none)
    (hcut : pre.map (cut st.bkts.length F) = List.range' s pre.length)
    (hs : s + pre.length = st.bkts.length - 1) (hc : CutOk hash F s st.bkts)
    (hn : st.nelem = (elems st.bkts).length) :
    ∃ st', relocate hash (pre ++ tail) st = .ok st' ∧ CutOk hash F (st'.bkts.length - 1) st'.bkts ∧
      (elems st'.bkts).Perm (elems st.bkts) ∧ st'.bkts.length = st.bkts.length ∧ st'.nelem = st.nelem := by
  induction pre generalizing st s with
  | nil =>
    refine ⟨st, ?_, ?_, List.Perm.refl _, rfl, rfl⟩
    · rcases htail with rfl | ⟨r, rfl⟩
      · rfl
      · simp only [List.nil_append, relocate]
        rw [hc.1]
    · simp only [List.length_nil, Nat.add_zero] at hs
      rw [← hs]; exact hc
  | cons k pre ih =>
    obtain ⟨hkl, hkne⟩ := hpre k (by simp)
    obtain ⟨e, he⟩ : ∃ e, st.bkts[k]? = some (some e) := by
      rw [List.getElem?_eq_getElem hkl] at hkne ⊢
      cases hd : st.bkts[k] with
      | none => rw [hd] at hkne; exact absurd rfl hkne
      | some e => exact ⟨e, rfl⟩
    simp only [List.map_cons, List.length_cons, List.range'_succ, List.cons.injEq] at hcut
    obtain ⟨q, g1, g2, g3, g4, g5, g6⟩ := relocate_step hash F s k st.bkts e h64 hc he hcut.1
    have hnotin : k ∉ pre := by
      intro hk
      have : cut st.bkts.length F k ∈ pre.map (cut st.bkts.length F) := List.mem_map_of_mem hk
      rw [hcut.2, hcut.1, List.mem_range'] at this
      obtain ⟨i, -, h⟩ := this; omega
    have hpos : 0 < st.nelem := by
      rw [hn]
      exact List.length_pos_of_mem (mem_elems.2 ⟨k, he⟩)
    obtain ⟨st', r1, r2, r3, r4, r5⟩ := ih ⟨(st.bkts.set k none).set q (some e), st.nelem - 1 + 1⟩ (s + 1)
      (by simp only; omega)
      (by
        intro j hj
        simp only
        rw [g5]
        refine ⟨(hpre j (by simp [hj])).1, g6 j ?_ (hpre j (by simp [hj])).2⟩
        rintro rfl; exact hnotin hj)
      (by simp only; rw [g5]; exact hcut.2)
      (by simp only; rw [g5]; simp only [List.length_cons] at hs; omega)
      g3 (by simp only; rw [g4.length_eq, ← hn]; omega)
    simp only at r3 r4 r5
    refine ⟨st', ?_, r2, r3.trans g4, ?_, ?_⟩
    · simp only [List.cons_append, relocate]
      rw [he]
      simp only
      have h1 : adopt hash ⟨st.bkts.set k none, st.nelem - 1⟩ e =
          .ok ⟨(st.bkts.set k none).set q (some e), st.nelem - 1 + 1⟩ := by
        unfold adopt
        simp only
        rw [g1, Res.ok_bind]
        unfold adoptAt
        rw [g2]
      rw [h1]
      exact r1
    · rw [r4]; exact g5
    · omega

/-- Elements of a table in the buckets `[a, b)`, and elsewhere. -/
theorem elems_split (t : Table K V) (a b : Nat) (hab : a ≤ b) :
    (elems t).Perm (elems ((t.drop a).take (b - a)) ++ elems (t.take a ++ t.drop b)) := by
  have h1 : t = t.take a ++ ((t.drop a).take (b - a) ++ t.drop b) := by
    conv_lhs => rw [← List.take_append_drop a t, ← List.take_append_drop (b - a) (t.drop a)]
    rw [List.drop_drop, show a + (b - a) = b from by omega]
  conv_lhs => rw [h1]
  simp only [elems, List.filterMap_append]
  rw [← List.append_assoc, ← List.append_assoc]
  exact List.Perm.append_right _ List.perm_append_comm

theorem eraseRange_spec (hash : K → Nat) (st : Storage K V) (a n : Nat) (h : st.Inv hash)
    (hr : a + n ≤ st.bkts.length) :
    ∃ st', st.eraseRange hash a n = .ok st' ∧ st'.Inv hash ∧ st'.bkts.length = st.bkts.length ∧
      (elems st.bkts).Perm (elems ((st.bkts.drop a).take n) ++ elems st'.bkts) := by
  unfold eraseRange
  by_cases hn : n = 0
  · subst hn
    rw [if_pos rfl]
    exact ⟨st, rfl, h, rfl, by simp [elems]⟩
  · rw [if_neg hn]
    obtain ⟨z, hz⟩ := h.exists_empty
    obtain ⟨s1, c1, c2, c3, c4⟩ := clearRange_spec (List.range' a n) st (by
      intro k hk; rw [List.mem_range'] at hk; obtain ⟨i, _, _⟩ := hk; omega) h.nelem
    have c4' : ∀ j : Nat, j < st.bkts.length →
        s1.bkts[j]? = if a ≤ j ∧ j < a + n then some none else st.bkts[j]? := by
      intro j hj
      rw [c4 j hj]
      have : j ∈ List.range' a n ↔ a ≤ j ∧ j < a + n := by
        rw [List.mem_range']
        constructor
        · rintro ⟨i, _, _⟩; omega
        · intro _; exact ⟨j - a, by omega, by omega⟩
      by_cases hji : j ∈ List.range' a n
      · rw [if_pos hji, if_pos (this.1 hji)]
      · rw [if_neg hji, if_neg (fun hc => hji (this.2 hc))]
    have hb := h.bound
    have hpos := h.pos
    obtain ⟨pre, tail, F, h1, h2, h3, h4, h5, h6⟩ := clear_cut hash st.bkts s1.bkts a (a + n) z
      hb h.wf (by omega) hr hz c2 c4'
    obtain ⟨st', r1, r2, r3, r4, r5⟩ := relocate_spec hash F pre tail s1 _ (by omega) h2 h3 h5 (by omega) h6 c3
    have he1 : s1.bkts = st.bkts.take a ++ (List.replicate n none ++ st.bkts.drop (a + n)) := by
      apply List.ext_getElem?
      intro j
      by_cases hj : j < st.bkts.length
      · rw [c4' j hj, List.getElem?_append, List.length_take, Nat.min_eq_left (by omega)]
        by_cases h1 : j < a
        · rw [if_pos h1, if_neg (by omega), List.getElem?_take, if_pos h1]
        · rw [if_neg h1, List.getElem?_append, List.length_replicate]
          by_cases h2 : j < a + n
          · rw [if_pos (by omega), if_pos (by omega), List.getElem?_replicate, if_pos (by omega)]
          · rw [if_neg (by omega), if_neg (by omega), List.getElem?_drop]
            congr 1; omega
      · rw [List.getElem?_eq_none (by omega), List.getElem?_eq_none]
        simp; omega
    have he2 : elems s1.bkts = elems (st.bkts.take a ++ st.bkts.drop (a + n)) := by
      have h0 := elems_replicate (K := K) (V := V) n
      unfold elems at h0 ⊢
      rw [he1, List.filterMap_append, List.filterMap_append, List.filterMap_append, h0, List.nil_append]
    have hsp := elems_split st.bkts a (a + n) (by omega)
    rw [Nat.add_sub_cancel_left] at hsp
    have hperm : (elems st.bkts).Perm (elems ((st.bkts.drop a).take n) ++ elems st'.bkts) := by
      refine hsp.trans ?_
      rw [← he2]
      exact r3.symm.append_left _
    have hle : (elems st.bkts).length = (elems ((st.bkts.drop a).take n)).length + (elems st'.bkts).length := by
      rw [hperm.length_eq, List.length_append]
    have hnel := h.nelem
    have hload := h.load
    have hr3 := r3.length_eq
    refine ⟨st', ?_, ⟨?_, by omega, by omega, by omega, by omega⟩, by omega, hperm⟩
    · rw [c1, Res.ok_bind, ← c2, h1]; exact r1
    · refine cutOk_wf hash F st'.bkts (by omega) r2 ?_
      have := h.wf.2
      rw [(hperm.map Prod.fst).nodup_iff, List.map_append] at this
      exact (List.nodup_append.1 this).2.1

/-! ## Insertion -/

theorem tryEmplace_spec [DecidableEq K] (hash : K → Nat) (st : Storage K V) (k : K) (v : V) (h : st.Inv hash)
    (hroom : st.nelem < st.bkts.length / 2) :
    (∃ q w, st.tryEmplace hash k v = .ok ((q, false), st) ∧ st.bkts[q]? = some (some (k, w))) ∨
    (∃ q st', st.tryEmplace hash k v = .ok ((q, true), st') ∧ (∀ w, (k, w) ∉ elems st.bkts) ∧ st'.Inv hash ∧
      (elems st'.bkts).Perm ((k, v) :: elems st.bkts) ∧ st'.bkts.length = st.bkts.length ∧
      st'.nelem = st.nelem + 1 ∧ st'.bkts[q]? = some (some (k, v))) := by
  obtain ⟨z, hz⟩ := h.exists_empty
  obtain ⟨q, h1, h2⟩ := locate_spec hash st.bkts k z h.bound hz h.wf
  unfold tryEmplace
  rw [if_pos hroom, h1, Res.ok_bind]
  rcases h2 with ⟨w, hw⟩ | ⟨h2, h3, h4⟩
  · left
    rw [hw]
    exact ⟨q, w, rfl, hw⟩
  · right
    rw [h2]
    have hql : q < st.bkts.length := (List.getElem?_eq_some_iff.1 h2).1
    have hp := elems_set_some (k, v) h2
    refine ⟨q, ⟨st.bkts.set q (some (k, v)), st.nelem + 1⟩, ?_, h3,
      ⟨wf_insert hash st.bkts (k, v) q h.wf h2 h3 h4, ?_, ?_, ?_, ?_⟩, hp, ?_, rfl, ?_⟩
    · unfold adoptAt; rw [h2]; rfl
    · simp only; rw [hp.length_eq, h.nelem, List.length_cons]
    · simp only [List.length_set]; omega
    · simp only [List.length_set]; exact h.pos
    · simp only [List.length_set]; exact h.bound
    · simp only [List.length_set]
    · simp [hql]

end Storage

theorem size_eq (hash : K → Nat) (h : Map K V) (hi : Inv hash h) : size h = (elemsOf h).length := by
  cases h with
  | none => rfl
  | some st => exact hi.nelem

theorem size_le_capacity (hash : K → Nat) (h : Map K V) (hi : Inv hash h) : size h ≤ capacity h := by
  cases h with
  | none => exact Nat.zero_le _
  | some st =>
    have := hi.load
    simp only [size, capacity, bucketCount]; omega

/-- Keys of a map are distinct. -/
theorem nodup_elemsOf (hash : K → Nat) (h : Map K V) (hi : Inv hash h) : ((elemsOf h).map Prod.fst).Nodup := by
  cases h with
  | none => exact List.nodup_nil
  | some st => exact hi.wf.2

theorem findPos_spec [DecidableEq K] (hash : K → Nat) (h : Map K V) (hi : Inv hash h) (k : K) :
    (∃ q v st, findPos hash h k = .ok (some q) ∧ h = some st ∧ st.bkts[q]? = some (some (k, v))) ∨
    (findPos hash h k = .ok none ∧ ∀ v, (k, v) ∉ elemsOf h) := by
  cases h with
  | none => exact Or.inr ⟨rfl, by simp [elemsOf]⟩
  | some st =>
    obtain ⟨z, hz⟩ := Storage.Inv.exists_empty hi
    obtain ⟨q, h1, h2⟩ := locate_spec hash st.bkts k z hi.bound hz hi.wf
    unfold findPos
    simp only
    rw [h1, Res.ok_bind]
    rcases h2 with ⟨w, hw⟩ | ⟨h2, h3, h4⟩
    · left; rw [hw]; exact ⟨q, w, st, rfl, rfl, hw⟩
    · right; rw [h2]; exact ⟨rfl, h3⟩

theorem mutBuckets_spec (hash : K → Nat) (shared : Bool) (h : Map K V) (hi : Inv hash h) :
    mutBuckets shared h = .ok h := by
  cases h with
  | none => rfl
  | some st =>
    unfold mutBuckets
    cases shared with
    | false => rfl
    | true => simp only [if_true]; rw [Storage.clone_spec hash st hi]; rfl

theorem reserveNew_spec (c : Cfg) (hc : c.Ok) (hash : K → Nat) (h : Map K V) (hi : Inv hash h)
    (finish : Bool) (add : Nat) :
    (size h + add > c.limit ∧ reserveNew c hash h finish add = .throw) ∨
    ∃ st, reserveNew c hash h finish add = .ok st ∧ st.Inv hash ∧ 2 * (size h + add) ≤ st.bkts.length ∧
      (elems st.bkts).Perm (if finish then elemsOf h else []) := by
  unfold reserveNew
  by_cases hl : size h + add > c.limit
  · exact Or.inl ⟨hl, if_pos hl⟩
  · right
    rw [if_neg hl]
    obtain ⟨b1, b2, b3⟩ := nbkt_bounds c hc (size h + add) (by omega)
    generalize maxNbkt c (minNblk c ((size h + add) * 2)) = N at b1 b2 b3 ⊢
    have hin := inv_replicate (K := K) (V := V) hash N b2 b3
    have hel : elems (List.replicate N none : Table K V) = [] := elems_replicate N
    have hlen : (List.replicate N (none : Option (K × V))).length = N := by simp
    by_cases hf : finish && decide (size h ≠ 0)
    · rw [if_pos hf]
      rw [Bool.and_eq_true, decide_eq_true_iff] at hf
      cases h with
      | none => exact absurd rfl hf.2
      | some st0 =>
        simp only
        have hne := hi.nelem
        obtain ⟨st, r1, r2, r3, r4, r5⟩ := Storage.transfer_spec hash st0.bkts _ hin
          (by simp only [hel, List.map_nil, List.append_nil]; exact hi.wf.2)
          (by simp only [hlen]; simp only [size] at b1; omega)
        simp only [hel, List.append_nil, hlen] at r3 r4
        refine ⟨st, r1, r2, by omega, ?_⟩
        rw [if_pos hf.1]; exact r3
    · rw [if_neg hf]
      refine ⟨_, rfl, hin, by simp only [hlen]; omega, ?_⟩
      simp only [hel]
      cases finish with
      | false => exact List.Perm.refl _
      | true =>
        simp only [Bool.true_and, decide_eq_true_iff, Decidable.not_not] at hf
        rw [size_eq hash h hi] at hf
        rw [if_pos rfl, List.length_eq_zero_iff.1 hf]

theorem finishNew_spec (hash : K → Nat) (h : Map K V) (hi : Inv hash h) (st : Storage K V) (hs : st.Inv hash)
    (hnd : ((elemsOf h).map Prod.fst ++ (elems st.bkts).map Prod.fst).Nodup)
    (hroom : 2 * (st.nelem + size h) ≤ st.bkts.length) :
    ∃ st', finishNew hash h st = .ok st' ∧ st'.Inv hash ∧ (elems st'.bkts).Perm (elemsOf h ++ elems st.bkts) := by
  cases h with
  | none => exact ⟨st, rfl, hs, List.Perm.refl _⟩
  | some o =>
    have hne := hi.nelem
    obtain ⟨st', r1, r2, r3, _⟩ := Storage.transfer_spec hash o.bkts st hs hnd
      (by simp only [size] at hroom; omega)
    exact ⟨st', r1, r2, r3⟩

end Asteria.HashMap
