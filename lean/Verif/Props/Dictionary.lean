import Verif.Proof.Dictionary

/-!
# C34, C35: the tables of scopes and of the garbage collector
-/

namespace Asteria.Hash

variable {K V : Type} [DecidableEq K]

/-! ## The specification: association lists -/

/-- A finite map as a list of pairs. -/
abbrev AMap (K V : Type) := List (K × V)

/-- The value under a key. -/
def AMap.get (m : AMap K V) (k : K) : Option V := (m.find? fun e => e.1 = k).map Prod.snd

/-- Replace the value under a key, or add the key. -/
def AMap.put (m : AMap K V) (k : K) (v : V) : AMap K V := (k, v) :: m.filter fun e => e.1 ≠ k

/-- Remove a key. -/
def AMap.del (m : AMap K V) (k : K) : AMap K V := m.filter fun e => e.1 ≠ k

omit [DecidableEq K] in
theorem nodup_unique {m : AMap K V} (h : (m.map Prod.fst).Nodup) {k : K} {v w : V} (h1 : (k, v) ∈ m)
    (h2 : (k, w) ∈ m) : v = w := by
  induction m with
  | nil => simp at h1
  | cons e m ih =>
    rw [List.map_cons, List.nodup_cons] at h
    rcases List.mem_cons.1 h1 with g1 | g1
    · rcases List.mem_cons.1 h2 with g2 | g2
      · have := g1.trans g2.symm; cases this; rfl
      · subst g1; exact absurd (List.mem_map.2 ⟨_, g2, rfl⟩) h.1
    · rcases List.mem_cons.1 h2 with g2 | g2
      · subst g2; exact absurd (List.mem_map.2 ⟨(k, v), g1, rfl⟩) h.1
      · exact ih h.2 g1 g2

theorem get_eq_some {m : AMap K V} (h : (m.map Prod.fst).Nodup) (k : K) (v : V) :
    m.get k = some v ↔ (k, v) ∈ m := by
  unfold AMap.get
  constructor
  · intro hf
    obtain ⟨e, he, hv⟩ := Option.map_eq_some_iff.1 hf
    have h1 := List.mem_of_find?_eq_some he
    have h2 := List.find?_some he
    simp only [decide_eq_true_eq] at h2
    subst hv h2; exact h1
  · intro hm
    cases hf : m.find? fun e => e.1 = k with
    | none =>
      have := List.find?_eq_none.1 hf (k, v) hm
      simp at this
    | some e =>
      have h1 := List.mem_of_find?_eq_some hf
      have h2 := List.find?_some hf
      simp only [decide_eq_true_eq] at h2
      subst h2
      rw [Option.map_some]
      congr 1
      exact nodup_unique h h1 hm

theorem get_eq_none {m : AMap K V} (k : K) : m.get k = none ↔ ∀ v, (k, v) ∉ m := by
  unfold AMap.get
  rw [Option.map_eq_none_iff, List.find?_eq_none]
  constructor
  · intro h v hv; simpa using h _ hv
  · rintro h ⟨k', v⟩ hv
    simp only [decide_eq_true_eq]
    rintro rfl; exact h v hv

/-- The pairs with other keys, when the pair with this key is known. -/
theorem del_perm {m l : AMap K V} {k : K} {v : V} (h : (m.map Prod.fst).Nodup) (hp : m.Perm ((k, v) :: l)) :
    (m.del k).Perm l := by
  have h1 := (hp.map Prod.fst).nodup_iff.1 h
  rw [List.map_cons, List.nodup_cons] at h1
  unfold AMap.del
  refine (hp.filter _).trans ?_
  rw [List.filter_cons_of_neg (by simp)]
  apply List.Perm.of_eq
  rw [List.filter_eq_self]
  rintro ⟨k', w⟩ hm
  simp only [ne_eq, decide_not, Bool.not_eq_eq_eq_not, Bool.not_true, decide_eq_false_iff_not]
  rintro rfl
  exact h1.1 (List.mem_map.2 ⟨_, hm, rfl⟩)

theorem del_absent {m : AMap K V} {k : K} (h : ∀ v, (k, v) ∉ m) : m.del k = m := by
  unfold AMap.del
  rw [List.filter_eq_self]
  rintro ⟨k', w⟩ hm
  simp only [ne_eq, decide_not, Bool.not_eq_eq_eq_not, Bool.not_true, decide_eq_false_iff_not]
  rintro rfl; exact h w hm

theorem get_del (m : AMap K V) (k j : K) : (m.del k).get j = if j = k then none else m.get j := by
  unfold AMap.get AMap.del
  rw [List.find?_filter]
  by_cases h : j = k
  · subst h
    rw [if_pos rfl, Option.map_eq_none_iff, List.find?_eq_none]
    intro e _; simp
  · rw [if_neg h]
    congr 2
    funext e
    by_cases he : e.1 = j
    · simp [he, h]
    · simp [he]

theorem get_put (m : AMap K V) (k j : K) (v : V) : (m.put k v).get j = if j = k then some v else m.get j := by
  have := get_del m k j
  unfold AMap.put AMap.get AMap.del at *
  by_cases h : j = k
  · subst h; simp
  · rw [List.find?_cons_of_neg (by simpa using Ne.symm h), this, if_neg h, if_neg h]

/-! ## C34 -/

/-- The operations on the name table of a scope. -/
inductive DOp (K V : Type) where
  | find (k : K)
  | insert (k : K) (f : V → V)
  | mutate (k : K) (f : V → V)
  | erase (k : K)
  | clear
  | size

/-- What an operation returns. -/
inductive DOut (V : Type) where
  | val (v : Option V)
  | flag (b : Bool)
  | done
  | num (n : Nat)
deriving DecidableEq

/-- One operation on a dictionary. -/
def DOp.run (hash : K → Nat) (limit : Nat) (dflt : V) (d : Dict K V) : DOp K V → Res (DOut V × Dict K V)
  | .find k => (d.find hash k).map fun v => (.val v, d)
  | .insert k f => (d.insert hash limit dflt k f).map fun r => (.flag r.1, r.2)
  | .mutate k f => (d.mutate hash k f).map fun r => (.flag r.1, r.2)
  | .erase k => (d.erase hash k).map fun r => (.val r.1, r.2)
  | .clear => d.clear.map fun d => (.done, d)
  | .size => .ok (.num d.size, d)

/-- One operation on a finite map. -/
def DOp.spec (dflt : V) (m : AMap K V) : DOp K V → DOut V × AMap K V
  | .find k => (.val (m.get k), m)
  | .insert k f => (.flag (m.get k).isNone, m.put k (f ((m.get k).getD dflt)))
  | .mutate k f =>
    match m.get k with
    | some v => (.flag true, m.put k (f v))
    | none => (.flag false, m)
  | .erase k => (.val (m.get k), m.del k)
  | .clear => (.done, [])
  | .size => (.num m.length, m)

/-- A history of operations on a dictionary. -/
def runAll (hash : K → Nat) (limit : Nat) (dflt : V) : List (DOp K V) → Dict K V → Res (List (DOut V))
  | [], _ => .ok []
  | op :: ops, d => (op.run hash limit dflt d).bind fun r => (runAll hash limit dflt ops r.2).map (r.1 :: ·)

/-- A history of operations on a finite map. -/
def specAll (dflt : V) : List (DOp K V) → AMap K V → List (DOut V)
  | [], _ => []
  | op :: ops, m => (op.spec dflt m).1 :: specAll dflt ops (op.spec dflt m).2

/-- The dictionary represents the map. -/
def Repr (hash : K → Nat) (d : Dict K V) (m : AMap K V) : Prop :=
  d.Inv hash ∧ (elems d.bkts).Perm m

omit [DecidableEq K] in
theorem Repr.nodup {hash : K → Nat} {d : Dict K V} {m : AMap K V} (h : Repr hash d m) :
    (m.map Prod.fst).Nodup := (h.2.map Prod.fst).nodup_iff.1 h.1.wf.2

theorem find_spec {hash : K → Nat} {d : Dict K V} {m : AMap K V} (h : Repr hash d m) (k : K) :
    d.find hash k = .ok (m.get k) := by
  unfold Dict.find
  by_cases hn : d.bkts.length = 0
  · rw [if_pos hn]
    have : m = [] := by
      have h1 := h.1.load
      have h2 := h.1.size_eq
      have h3 := h.2.length_eq
      exact List.length_eq_zero_iff.1 (by omega)
    subst this; rfl
  · rw [if_neg hn]
    obtain ⟨z, hz⟩ := h.1.exists_empty hn
    obtain ⟨q, h1, h2⟩ := locate_spec hash d.bkts k z (by have := h.1.bound; omega) hz h.1.wf
    rw [h1]
    simp only [Res.bind]
    rcases h2 with ⟨v, hv⟩ | ⟨h2, h3, -⟩
    · rw [hv]
      have : m.get k = some v := (get_eq_some h.nodup k v).2 (h.2.mem_iff.1 (mem_elems.2 ⟨q, hv⟩))
      rw [this]
    · rw [h2]
      have : m.get k = none := (get_eq_none k).2 (fun v hv => h3 v (h.2.mem_iff.2 hv))
      rw [this]

/-- Every operation refines the operation on maps.  It throws only when the table would become too
large. -/
theorem step_refines (hash : K → Nat) (limit : Nat) (hlim : limit ≤ 2 ^ 31) (dflt : V) (d : Dict K V)
    (m : AMap K V) (h : Repr hash d m) (op : DOp K V) :
    (3 * m.length + 11 ≥ limit ∧ op.run hash limit dflt d = .throw) ∨
    ∃ d', op.run hash limit dflt d = .ok ((op.spec dflt m).1, d') ∧ Repr hash d' (op.spec dflt m).2 := by
  have hb := h.1.bound
  cases op with
  | find k => exact Or.inr ⟨d, by simp only [DOp.run, find_spec h, DOp.spec, Res.map], h⟩
  | size =>
    refine Or.inr ⟨d, ?_, h⟩
    simp only [DOp.run, DOp.spec, h.1.size_eq, h.2.length_eq]
  | clear =>
    obtain ⟨d', h1, h2, h3⟩ := Dict.clear_spec hash d h.1
    exact Or.inr ⟨d', by simp only [DOp.run, h1, Res.map, DOp.spec], h2, by simp only [DOp.spec, h3]; exact .nil⟩
  | mutate k f =>
    right
    simp only [DOp.run, Dict.mutate]
    by_cases hn : d.bkts.length = 0
    · rw [if_pos hn]
      have : m = [] := by
        have h1 := h.1.load
        have h2 := h.1.size_eq
        have h3 := h.2.length_eq
        exact List.length_eq_zero_iff.1 (by omega)
      subst this
      exact ⟨d, rfl, h⟩
    · rw [if_neg hn]
      obtain ⟨z, hz⟩ := h.1.exists_empty hn
      obtain ⟨q, h1, h2⟩ := locate_spec hash d.bkts k z (by omega) hz h.1.wf
      rw [h1]
      simp only [Res.bind]
      rcases h2 with ⟨v, hv⟩ | ⟨h2, h3, -⟩
      · rw [hv]
        have hg : m.get k = some v := (get_eq_some h.nodup k v).2 (h.2.mem_iff.1 (mem_elems.2 ⟨q, hv⟩))
        obtain ⟨g1, l, g2, g3⟩ := Dict.assign_inv hash d q k v (f v) h.1 hv
        simp only [DOp.spec, hg, Res.map]
        refine ⟨_, rfl, g1, ?_⟩
        exact g3.trans ((List.perm_cons _).2 (del_perm h.nodup (h.2.symm.trans g2)).symm)
      · rw [h2]
        have : m.get k = none := (get_eq_none k).2 (fun v hv => h3 v (h.2.mem_iff.2 hv))
        simp only [DOp.spec, this]
        exact ⟨d, rfl, h⟩
  | insert k f =>
    simp only [DOp.run, Dict.insert]
    rcases Dict.reserve_spec hash limit 11 d (Or.inl rfl) hlim h.1 with ⟨h1, h2⟩ | ⟨d1, r1, r2, r3, r4, r5⟩
    · left
      rw [h2]
      refine ⟨?_, rfl⟩
      rw [h.1.size_eq, h.2.length_eq] at h1; exact h1
    · right
      rw [r1, Res.ok_bind]
      obtain ⟨z, hz⟩ := r2.exists_empty (by omega)
      have hb1 := r2.bound
      have hp1 : (elems d1.bkts).Perm m := r3.trans h.2
      obtain ⟨q, h1, h2⟩ := locate_spec hash d1.bkts k z (by omega) hz r2.wf
      rw [h1, Res.ok_bind]
      rcases h2 with ⟨v, hv⟩ | ⟨h2, h3, h4⟩
      · rw [hv]
        have hg : m.get k = some v := (get_eq_some h.nodup k v).2 (hp1.mem_iff.1 (mem_elems.2 ⟨q, hv⟩))
        obtain ⟨g1, l, g2, g3⟩ := Dict.assign_inv hash d1 q k v (f v) r2 hv
        simp only [DOp.spec, hg, Res.map]
        refine ⟨_, rfl, g1, ?_⟩
        exact g3.trans ((List.perm_cons _).2 (del_perm h.nodup (hp1.symm.trans g2)).symm)
      · rw [h2]
        have habs : ∀ v, (k, v) ∉ m := fun v hv => h3 v (hp1.mem_iff.2 hv)
        have hg : m.get k = none := (get_eq_none k).2 habs
        obtain ⟨g1, g2⟩ := Dict.attach_inv hash d1 q (k, f dflt) r2 r5 h2 h3 h4
        simp only [DOp.spec, hg, Res.map]
        refine ⟨_, rfl, g1, ?_⟩
        refine g2.trans ((List.perm_cons _).2 ?_)
        have := del_absent habs
        unfold AMap.del at this
        rw [this]; exact hp1
  | erase k =>
    right
    simp only [DOp.run, Dict.erase]
    by_cases hs : d.size = 0
    · rw [if_pos hs]
      have : m = [] := by
        have h2 := h.1.size_eq
        have h3 := h.2.length_eq
        exact List.length_eq_zero_iff.1 (by omega)
      subst this
      exact ⟨d, rfl, h⟩
    · rw [if_neg hs]
      have hload := h.1.load
      obtain ⟨z, hz⟩ := h.1.exists_empty (by omega)
      obtain ⟨q, h1, h2⟩ := locate_spec hash d.bkts k z (by omega) hz h.1.wf
      rw [h1]
      simp only [Res.bind]
      rcases h2 with ⟨v, hv⟩ | ⟨h2, h3, -⟩
      · rw [hv]
        have hg : m.get k = some v := (get_eq_some h.nodup k v).2 (h.2.mem_iff.1 (mem_elems.2 ⟨q, hv⟩))
        obtain ⟨d', g1, g2, g3, -⟩ := Dict.remove_spec hash d q (k, v) h.1 hv
        simp only [g1, Res.map, DOp.spec, hg]
        exact ⟨d', rfl, g2, (del_perm h.nodup (h.2.symm.trans g3)).symm⟩
      · rw [h2]
        have habs : ∀ v, (k, v) ∉ m := fun v hv => h3 v (h.2.mem_iff.2 hv)
        have : m.get k = none := (get_eq_none k).2 habs
        simp only [DOp.spec, this, Res.map]
        exact ⟨d, rfl, h.1, by rw [del_absent habs]; exact h.2⟩

theorem spec_length (dflt : V) (m : AMap K V) (op : DOp K V) : (op.spec dflt m).2.length ≤ m.length + 1 := by
  cases op with
  | mutate k f =>
    simp only [DOp.spec]
    cases m.get k with
    | none => simp
    | some v => simp only [AMap.put, List.length_cons]; have := List.length_filter_le (fun e => decide (e.1 ≠ k)) m; omega
  | insert k f =>
    simp only [DOp.spec, AMap.put, List.length_cons]
    have := List.length_filter_le (fun e => decide (e.1 ≠ k)) m; omega
  | erase k =>
    simp only [DOp.spec, AMap.del]
    have := List.length_filter_le (fun e => decide (e.1 ≠ k)) m; omega
  | _ => simp [DOp.spec]

theorem runAll_refines (hash : K → Nat) (limit : Nat) (hlim : limit ≤ 2 ^ 31) (dflt : V)
    (ops : List (DOp K V)) (d : Dict K V) (m : AMap K V) (h : Repr hash d m) :
    (3 * (m.length + ops.length) + 11 ≥ limit ∧ runAll hash limit dflt ops d = .throw) ∨
      runAll hash limit dflt ops d = .ok (specAll dflt ops m) := by
  induction ops generalizing d m with
  | nil => exact Or.inr rfl
  | cons op ops ih =>
    rcases step_refines hash limit hlim dflt d m h op with ⟨h1, h2⟩ | ⟨d', h1, h2⟩
    · left
      simp only [runAll, h2, Res.bind, List.length_cons]
      exact ⟨by omega, trivial⟩
    · simp only [runAll, h1, Res.bind, specAll]
      have hl := spec_length dflt m op
      rcases ih d' _ h2 with ⟨g1, g2⟩ | g
      · left
        rw [g2]
        simp only [List.length_cons]
        exact ⟨by omega, rfl⟩
      · right; rw [g]; rfl

/-- C34: whatever the hash function, every history of operations on the name table of a scope returns what
a finite map returns, unless the table becomes too large and `bad_alloc` is thrown; no bucket outside of
the table is accessed. -/
theorem C34_refines (hash : K → Nat) (limit : Nat) (hlim : limit ≤ 2 ^ 31) (dflt : V) (ops : List (DOp K V)) :
    runAll hash limit dflt ops Dict.empty = .throw ∨
      runAll hash limit dflt ops Dict.empty = .ok (specAll dflt ops []) := by
  rcases runAll_refines hash limit hlim dflt ops Dict.empty [] ⟨Dict.inv_empty hash, .nil⟩ with h | h
  · exact Or.inl h.2
  · exact Or.inr h

/-- C34: a history of fewer than about a third of the maximum number of buckets never throws. -/
theorem C34_total (hash : K → Nat) (limit : Nat) (hlim : limit ≤ 2 ^ 31) (dflt : V) (ops : List (DOp K V))
    (hs : 3 * ops.length + 11 < limit) :
    runAll hash limit dflt ops Dict.empty = .ok (specAll dflt ops []) := by
  rcases runAll_refines hash limit hlim dflt ops Dict.empty [] ⟨Dict.inv_empty hash, .nil⟩ with h | h
  · have := h.1; simp only [List.length_nil, Nat.zero_add] at this; omega
  · exact h

/-- C34: the specification is the usual one: a name maps to what was put under it last. -/
theorem C34_spec_put (m : AMap K V) (k j : K) (v : V) :
    (m.put k v).get j = if j = k then some v else m.get j := get_put m k j v

/-- C34: erasing a name affects this name only. -/
theorem C34_spec_del (m : AMap K V) (k j : K) : (m.del k).get j = if j = k then none else m.get j :=
  get_del m k j

/-- Three colliding keys in one table: erasing the first one keeps the others reachable. -/
example : runAll (fun _ : Nat => 0) 1000 (0 : Nat)
    [.insert 1 (fun _ => 10), .insert 2 (fun _ => 20), .insert 3 (fun _ => 30), .insert 2 (· + 1), .erase 1,
      .find 2, .find 3, .find 1, .size] Dict.empty =
    .ok [.flag true, .flag true, .flag true, .flag false, .val (some 10), .val (some 21), .val (some 30),
      .val none, .num 2] := by decide +kernel

/-! ## C35 -/

variable {W : Type}

/-- C35: `insert` adds the element if the key is new and reports whether it is; an existing element is
kept. -/
theorem C35_insert (hash : K → Nat) (limit : Nat) (hlim : limit ≤ 2 ^ 31) (d : Dict K (Option W))
    (m : AMap K (Option W)) (h : Repr hash d m) (k : K) (v : Option W) :
    (3 * m.length + 5 ≥ limit ∧ VarMap.insert hash limit d k v = .throw) ∨
    ∃ d', VarMap.insert hash limit d k v = .ok ((m.get k).isNone, d') ∧
      Repr hash d' (if (m.get k).isNone then m.put k v else m) := by
  unfold VarMap.insert
  rcases Dict.reserve_spec hash limit 5 d (Or.inr rfl) hlim h.1 with ⟨h1, h2⟩ | ⟨d1, r1, r2, r3, r4, r5⟩
  · left
    rw [h2]
    refine ⟨?_, rfl⟩
    rw [h.1.size_eq, h.2.length_eq] at h1; exact h1
  · right
    rw [r1, Res.ok_bind]
    obtain ⟨z, hz⟩ := r2.exists_empty (by omega)
    have hb1 := r2.bound
    have hp1 : (elems d1.bkts).Perm m := r3.trans h.2
    obtain ⟨q, h1, h2⟩ := locate_spec hash d1.bkts k z (by omega) hz r2.wf
    rw [h1, Res.ok_bind]
    rcases h2 with ⟨v', hv⟩ | ⟨h2, h3, h4⟩
    · rw [hv]
      have hg : m.get k = some v' := (get_eq_some h.nodup k v').2 (hp1.mem_iff.1 (mem_elems.2 ⟨q, hv⟩))
      simp only [hg, Option.isNone_some, Bool.false_eq_true, if_false]
      exact ⟨d1, rfl, r2, hp1⟩
    · rw [h2]
      have habs : ∀ v, (k, v) ∉ m := fun v hv => h3 v (hp1.mem_iff.2 hv)
      have hg : m.get k = none := (get_eq_none k).2 habs
      obtain ⟨g1, g2⟩ := Dict.attach_inv hash d1 q (k, v) r2 r5 h2 h3 h4
      simp only [hg, Option.isNone_none, if_true]
      refine ⟨_, rfl, g1, ?_⟩
      refine g2.trans ((List.perm_cons _).2 ?_)
      have := del_absent habs
      unfold AMap.del at this
      rw [this]; exact hp1

theorem erase_no_throw (hash : K → Nat) (d : Dict K V) (m : AMap K V) (h : Repr hash d m) (k : K) :
    d.erase hash k ≠ .throw := by
  have hb := h.1.bound
  unfold Dict.erase
  by_cases hs : d.size = 0
  · rw [if_pos hs]; simp
  · rw [if_neg hs]
    have hload := h.1.load
    obtain ⟨z, hz⟩ := h.1.exists_empty (by omega)
    obtain ⟨q, h1, h2⟩ := locate_spec hash d.bkts k z (by omega) hz h.1.wf
    rw [h1]
    simp only [Res.bind]
    rcases h2 with ⟨v, hv⟩ | ⟨h2, -, -⟩
    · rw [hv]
      obtain ⟨d', g1, -⟩ := Dict.remove_spec hash d q (k, v) h.1 hv
      simp [g1]
    · rw [h2]; simp

/-- C35: `erase` removes the element with the key, if any, and returns it. -/
theorem C35_erase (hash : K → Nat) (d : Dict K (Option W)) (m : AMap K (Option W)) (h : Repr hash d m) (k : K) :
    ∃ d', d.erase hash k = .ok (m.get k, d') ∧ Repr hash d' (m.del k) := by
  rcases step_refines hash (2 ^ 31) (Nat.le_refl _) none d m h (.erase k) with h' | h'
  · exfalso
    have hne := erase_no_throw hash d m h k
    have := h'.2
    simp only [DOp.run] at this
    cases he : d.erase hash k with
    | ok r => rw [he] at this; cases this
    | throw => exact hne he
    | ub => rw [he] at this; cases this
  · obtain ⟨d', h1, h2⟩ := h'
    simp only [DOp.run, DOp.spec] at h1
    cases he : d.erase hash k with
    | ok r =>
      rw [he] at h1
      simp only [Res.map, Res.ok.injEq, Prod.mk.injEq, DOut.val.injEq] at h1
      exact ⟨d', by rw [← h1.1, ← h1.2], h2⟩
    | throw => rw [he] at h1; cases h1
    | ub => rw [he] at h1; cases h1

/-- Merging a list of elements into a map: keys that are present are kept, elements without a variable are
skipped. -/
def AMap.merge (m : AMap K (Option W)) : List (K × Option W) → AMap K (Option W)
  | [] => m
  | (k, some v) :: l => AMap.merge (if (m.get k).isNone then m.put k (some v) else m) l
  | (_, none) :: l => AMap.merge m l

theorem merge_get (l : List (K × Option W)) (m : AMap K (Option W)) (hl : (l.map Prod.fst).Nodup) (k : K) :
    (AMap.merge m l).get k =
      match m.get k with
      | some v => some v
      | none => (AMap.get l k).join.map some := by
  induction l generalizing m with
  | nil => simp only [AMap.merge]; cases h : m.get k <;> simp [AMap.get]
  | cons e l ih =>
    obtain ⟨k', v⟩ := e
    rw [List.map_cons, List.nodup_cons] at hl
    have hno : ∀ w, (k', w) ∉ l := fun w hw => hl.1 (List.mem_map.2 ⟨_, hw, rfl⟩)
    have hcons : AMap.get ((k', v) :: l) k = if k = k' then some v else AMap.get l k := by
      unfold AMap.get
      by_cases h : k = k'
      · subst h; simp
      · rw [List.find?_cons_of_neg (by simpa using Ne.symm h), if_neg h]
    cases v with
    | none =>
      simp only [AMap.merge]
      rw [ih m hl.2, hcons]
      by_cases h : k = k'
      · subst h
        have : AMap.get l k = none := (get_eq_none k).2 hno
        simp [this]
      · simp [h]
    | some v =>
      simp only [AMap.merge]
      rw [ih _ hl.2, hcons]
      by_cases h : k = k'
      · subst h
        have : AMap.get l k = none := (get_eq_none k).2 hno
        cases hg : m.get k with
        | none => simp [get_put]
        | some w => simp [hg]
      · cases hg : m.get k' with
        | none => simp [get_put, h]
        | some w => simp [h]

theorem mergeLoop_spec (hash : K → Nat) (limit : Nat) (hlim : limit ≤ 2 ^ 31) (src : Table K (Option W))
    (is : List Nat) (hall : ∀ i ∈ is, ∃ e, src[i]? = some (some e)) (d : Dict K (Option W))
    (m : AMap K (Option W)) (h : Repr hash d m) :
    VarMap.mergeLoop hash limit src is d = .throw ∨
    ∃ d', VarMap.mergeLoop hash limit src is d = .ok d' ∧
      Repr hash d' (AMap.merge m (is.filterMap fun i => (src[i]?).join)) := by
  induction is generalizing d m with
  | nil => exact Or.inr ⟨d, rfl, h⟩
  | cons i is ih =>
    obtain ⟨⟨k, v⟩, he⟩ := hall i (by simp)
    have hall' : ∀ j ∈ is, ∃ e, src[j]? = some (some e) := fun j hj => hall j (by simp [hj])
    have hfm : ((i :: is).filterMap fun i => (src[i]?).join) = (k, v) :: is.filterMap fun i => (src[i]?).join := by
      rw [List.filterMap_cons]; simp only [he, Option.join_some]
    rw [hfm]
    simp only [VarMap.mergeLoop, he]
    cases v with
    | none => exact ih hall' d m h
    | some v =>
      simp only [AMap.merge]
      rcases C35_insert hash limit hlim d m h k (some v) with ⟨-, h1⟩ | ⟨d', h1, h2⟩
      · rw [h1]; exact Or.inl rfl
      · rw [h1]
        exact ih hall' d' _ h2

/-- C35: `merge_into` adds to the other table exactly the elements of this one which have a variable and
whose keys are not there yet. -/
theorem C35_merge (hash : K → Nat) (limit : Nat) (hlim : limit ≤ 2 ^ 31) (src d : Dict K (Option W))
    (s m : AMap K (Option W)) (hs : Repr hash src s) (h : Repr hash d m) :
    VarMap.mergeInto hash limit src d = .throw ∨
    ∃ d' m', VarMap.mergeInto hash limit src d = .ok d' ∧ Repr hash d' m' ∧
      ∀ k, m'.get k = match m.get k with
        | some v => some v
        | none => (s.get k).join.map some := by
  unfold VarMap.mergeInto
  have hperm : ((src.order.filterMap fun i => (src.bkts[i]?).join) : AMap K (Option W)).Perm s :=
    (Dict.linked_perm hs.1.linked).trans hs.2
  have hnd : (((src.order.filterMap fun i => (src.bkts[i]?).join) : AMap K (Option W)).map Prod.fst).Nodup :=
    (hperm.map Prod.fst).nodup_iff.2 hs.nodup
  have hget : ∀ k, AMap.get (src.order.filterMap fun i => (src.bkts[i]?).join) k = s.get k := by
    intro k
    cases hg : s.get k with
    | none =>
      rw [get_eq_none] at hg ⊢
      exact fun v hv => hg v (hperm.mem_iff.1 hv)
    | some v =>
      rw [get_eq_some hs.nodup] at hg
      rw [get_eq_some hnd]
      exact hperm.mem_iff.2 hg
  by_cases h0 : src.size = 0
  · rw [if_pos h0]
    right
    refine ⟨d, m, rfl, h, ?_⟩
    intro k
    have : s = [] := by
      have h2 := hs.1.size_eq
      have h3 := hs.2.length_eq
      exact List.length_eq_zero_iff.1 (by omega)
    subst this
    cases m.get k <;> simp [AMap.get]
  · rw [if_neg h0]
    rcases mergeLoop_spec hash limit hlim src.bkts src.order (fun i hi => (hs.1.linked.2 i).1 hi) d m h with
      h1 | ⟨d', h1, h2⟩
    · exact Or.inl h1
    · right
      refine ⟨d', _, h1, h2, ?_⟩
      intro k
      rw [merge_get _ _ hnd, hget]

omit [DecidableEq K] in
/-- C35: `extract_variable` removes one element that has a variable and returns the variable; it also drops
elements without variables that it finds first.  It fails only when there is no variable left, and then
leaves an empty table. -/
theorem C35_extract (hash : K → Nat) (d : Dict K (Option W)) (m : AMap K (Option W)) (h : Repr hash d m) :
    ∃ r d', VarMap.extract hash d = .ok (r, d') ∧
      match r with
      | some v => ∃ k nulls m', Repr hash d' m' ∧ (∀ e ∈ nulls, e.2 = none) ∧
          m.Perm ((k, some v) :: nulls ++ m')
      | none => Repr hash d' [] ∧ ∀ e ∈ m, e.2 = none := by
  have key : ∀ (fuel : Nat) (d : Dict K (Option W)) (m : AMap K (Option W)), Repr hash d m → d.size ≤ fuel →
      ∃ r d', VarMap.extractLoop hash fuel d = .ok (r, d') ∧
        match r with
        | some v => ∃ k nulls m', Repr hash d' m' ∧ (∀ e ∈ nulls, e.2 = none) ∧
            m.Perm ((k, some v) :: nulls ++ m')
        | none => Repr hash d' [] ∧ ∀ e ∈ m, e.2 = none := by
    intro fuel
    induction fuel with
    | zero =>
      intro d m h hf
      have h0 : d.size = 0 := by omega
      simp only [VarMap.extractLoop, h0, if_true]
      have : m = [] := by
        have h2 := h.1.size_eq
        have h3 := h.2.length_eq
        exact List.length_eq_zero_iff.1 (by omega)
      subst this
      exact ⟨none, d, rfl, h, by simp⟩
    | succ fuel ih =>
      intro d m h hf
      simp only [VarMap.extractLoop]
      by_cases h0 : d.size = 0
      · rw [if_pos h0]
        have : m = [] := by
          have h2 := h.1.size_eq
          have h3 := h.2.length_eq
          exact List.length_eq_zero_iff.1 (by omega)
        subst this
        exact ⟨none, d, rfl, h, by simp⟩
      · rw [if_neg h0]
        have hlen := Dict.linked_length h.1.linked
        have hse := h.1.size_eq
        cases ho : d.order with
        | nil => rw [ho] at hlen; simp only [List.length_nil] at hlen; omega
        | cons q o =>
          obtain ⟨⟨k, v⟩, he⟩ := (h.1.linked.2 q).1 (by rw [ho]; simp)
          simp only [he]
          obtain ⟨d', g1, g2, g3, -⟩ := Dict.remove_spec hash d q (k, v) h.1 he
          rw [g1]
          simp only [Res.bind]
          have hrep : Repr hash d' (elems d'.bkts) := ⟨g2, List.Perm.refl _⟩
          have hp := h.2.symm.trans g3
          cases v with
          | some v => exact ⟨some v, d', rfl, k, [], elems d'.bkts, hrep, by simp, hp⟩
          | none =>
            have hl := g3.length_eq
            have hs' := g2.size_eq
            simp only [List.length_cons] at hl
            obtain ⟨r, d'', r1, r2⟩ := ih d' _ hrep (by omega)
            refine ⟨r, d'', r1, ?_⟩
            cases r with
            | some v =>
              obtain ⟨k', nulls, m', a1, a2, a3⟩ := r2
              refine ⟨k', (k, none) :: nulls, m', a1, ?_, ?_⟩
              · intro e he
                rcases List.mem_cons.1 he with rfl | he
                · rfl
                · exact a2 e he
              · refine hp.trans (((List.perm_cons _).2 a3).trans ?_)
                exact List.Perm.swap _ _ _
            | none =>
              refine ⟨r2.1, ?_⟩
              intro e he
              rcases List.mem_cons.1 (hp.mem_iff.1 he) with rfl | he
              · rfl
              · exact r2.2 e he
  exact key d.size d m h (Nat.le_refl _)

omit [DecidableEq K] in
/-- C35: the empty table represents the empty map, so all of the above apply to every history. -/
theorem C35_empty (hash : K → Nat) : Repr hash (Dict.empty : Dict K (Option W)) [] :=
  ⟨Dict.inv_empty hash, .nil⟩

/-- The table with colliding keys 1 and 2, the latter without a variable, represents the list. -/
example : ∃ d : Dict Nat (Option Nat), Repr (fun _ => 0) d [(2, none), (1, some 10)] ∧
    VarMap.extract (fun _ => 0) d = .ok (some 10, ⟨List.replicate 5 none, [], 0⟩) := by
  obtain h | ⟨d1, h1, r1⟩ := C35_insert (fun _ : Nat => 0) 1000 (by omega) _ _ (C35_empty (W := Nat) _) 1 (some 10)
  · exact absurd h.1 (by decide)
  · obtain h | ⟨d2, h2, r2⟩ := C35_insert (fun _ : Nat => 0) 1000 (by omega) _ _ r1 2 none
    · exact absurd h.1 (by decide)
    · refine ⟨d2, r2, ?_⟩
      have e1 : VarMap.insert (fun _ : Nat => 0) 1000 (Dict.empty : Dict Nat (Option Nat)) 1 (some 10) =
        .ok (true, ⟨[some (1, some 10), none, none, none, none], [0], 1⟩) := by decide +kernel
      rw [e1] at h1
      cases h1
      have e2 : VarMap.insert (fun _ : Nat => 0) 1000
        (⟨[some (1, some 10), none, none, none, none], [0], 1⟩ : Dict Nat (Option Nat)) 2 none =
        .ok (true, ⟨[some (1, some 10), some (2, none), none, none, none], [1, 0], 2⟩) := by decide +kernel
      rw [e2] at h2
      cases h2
      decide +kernel

end Asteria.Hash
