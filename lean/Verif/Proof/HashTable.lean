import Verif.Model.HashTable
import Mathlib.Data.List.Perm.Basic
import Mathlib.Data.List.Nodup
import Mathlib.Data.List.Range
import Mathlib.Tactic.Tauto
import Mathlib.Tactic.ByContra

/-!
# Open addressing: invariants
-/

namespace Asteria.Hash

variable {K V : Type}

/-- The elements of a table. -/
def elems (t : Table K V) : List (K × V) := t.filterMap id

/-- How many buckets are visited before `p` when probing starts at `o`. -/
def dist (n o p : Nat) : Nat := if o ≤ p then p - o else p + n - o

/-- The bucket at which probing for a key starts. -/
def org (hash : K → Nat) (t : Table K V) (k : K) : Nat := probeOrigin t.length (hash k)

/-- The invariant of a table: no empty bucket lies between the origin of an element and its place, and
keys are unique. -/
def Wf (hash : K → Nat) (t : Table K V) : Prop :=
  (∀ (i : Nat) (e : K × V), t[i]? = some (some e) → ∀ j, j < t.length →
      dist t.length (org hash t e.1) j < dist t.length (org hash t e.1) i → t[j]? ≠ some none) ∧
    ((elems t).map Prod.fst).Nodup

theorem probeOrigin_lt (size hval : Nat) (h : 0 < size) (h64 : size < 2 ^ 64) :
    probeOrigin size hval < size := by
  unfold probeOrigin
  by_cases hs : size < 2 ^ 32
  · have hx : hval * 0x9E3779B9 % 2 ^ 64 % 2 ^ 32 < 2 ^ 32 := Nat.mod_lt _ (by decide)
    have h1 : hval * 0x9E3779B9 % 2 ^ 64 % 2 ^ 32 * size < 2 ^ 32 * size := Nat.mul_lt_mul_of_pos_right hx h
    rw [Nat.div_lt_iff_lt_mul (by decide)]
    have := Nat.mod_le (hval * 0x9E3779B9 % 2 ^ 64 % 2 ^ 32 * size) (2 ^ 64)
    omega
  · have : hval * 0x9E3779B9 % 2 ^ 64 % 2 ^ 32 * size % 2 ^ 64 < 2 ^ 64 := Nat.mod_lt _ (by decide)
    omega

theorem mem_elems {t : Table K V} {e : K × V} : e ∈ elems t ↔ ∃ i : Nat, t[i]? = some (some e) := by
  unfold elems
  rw [List.mem_filterMap]
  constructor
  · rintro ⟨a, h1, h2⟩
    simp only [id] at h2; subst h2
    exact List.mem_iff_getElem?.1 h1
  · rintro ⟨i, h⟩
    exact ⟨some e, List.mem_iff_getElem?.2 ⟨i, h⟩, rfl⟩

theorem elems_set_some {t : Table K V} {q : Nat} (e : K × V) (h : t[q]? = some none) :
    (elems (t.set q (some e))).Perm (e :: elems t) := by
  obtain ⟨hq, h'⟩ := List.getElem?_eq_some_iff.1 h
  have e1 : t = t.take q ++ none :: t.drop (q + 1) := by
    rw [← h', List.getElem_cons_drop, List.take_append_drop]
  have e2 : t.set q (some e) = t.take q ++ some e :: t.drop (q + 1) := List.set_eq_take_append_cons_drop ..
    |>.trans (if_pos hq)
  rw [e2]
  conv_rhs => rw [e1]
  simp only [elems, List.filterMap_append, List.filterMap_cons, id]
  exact List.perm_middle

theorem elems_set_none {t : Table K V} {q : Nat} {e : K × V} (h : t[q]? = some (some e)) :
    (elems t).Perm (e :: elems (t.set q none)) := by
  obtain ⟨hq, h'⟩ := List.getElem?_eq_some_iff.1 h
  have e1 : t = t.take q ++ some e :: t.drop (q + 1) := by
    rw [← h', List.getElem_cons_drop, List.take_append_drop]
  have e2 : t.set q none = t.take q ++ none :: t.drop (q + 1) := List.set_eq_take_append_cons_drop ..
    |>.trans (if_pos hq)
  rw [e2]
  conv_lhs => rw [e1]
  simp only [elems, List.filterMap_append, List.filterMap_cons, id]
  exact List.perm_middle

theorem elems_length_le (t : Table K V) : (elems t).length ≤ t.length := List.length_filterMap_le _ _

/-- A table with fewer elements than buckets has an empty bucket. -/
theorem exists_empty {t : Table K V} (h : (elems t).length < t.length) : ∃ z : Nat, t[z]? = some none := by
  by_contra hc
  have : ∀ x ∈ t, x.isSome := by
    intro x hx
    obtain ⟨i, hi⟩ := List.mem_iff_getElem?.1 hx
    cases x with
    | none => exact absurd ⟨i, hi⟩ hc
    | some e => rfl
  have : (elems t).length = t.length := by
    unfold elems
    clear h hc
    induction t with
    | nil => rfl
    | cons x t ih =>
      cases x with
      | none => exact absurd (this none (by simp)) (by simp)
      | some e =>
        have := ih (fun y hy => this y (by simp [hy]))
        show (e :: List.filterMap id t).length = _
        rw [List.length_cons, List.length_cons, this]
  omega

theorem elems_replicate (n : Nat) : elems (List.replicate n none : Table K V) = [] := by
  unfold elems
  induction n with
  | zero => rfl
  | succ n ih => simp

theorem wf_replicate (hash : K → Nat) (n : Nat) : Wf hash (List.replicate n none : Table K V) := by
  constructor
  · intro i e h
    rw [List.getElem?_replicate] at h
    split at h <;> cases h
  · rw [elems_replicate]; exact List.nodup_nil

/-! ## Probing -/

theorem probeOrder_get (o n i : Nat) (ho : o ≤ n) (hi : i < n) :
    (probeOrder o o n)[i]? = some (if i < n - o then o + i else i - (n - o)) := by
  unfold probeOrder
  rw [List.getElem?_append]
  simp only [List.length_range']
  split
  · next h => simp [h]
  · next h =>
    rw [List.getElem?_range]; omega

theorem probeOrder_length (o n : Nat) (ho : o ≤ n) : (probeOrder o o n).length = n := by
  simp [probeOrder]; omega

theorem probeOrder_mem_lt {b a n j : Nat} (hto : b ≤ n) (h : j ∈ probeOrder b a n) : j < n := by
  simp only [probeOrder, List.mem_append, List.mem_range', List.mem_range] at h
  rcases h with ⟨i, h1, h2⟩ | h
  · omega
  · omega

theorem probeOrder_dist (o n j : Nat) (ho : o < n) (hj : j < n) :
    (probeOrder o o n)[dist n o j]? = some j := by
  have hd : dist n o j < n := by unfold dist; split <;> omega
  rw [probeOrder_get o n _ (by omega) hd]
  congr 1
  unfold dist
  split <;> split <;> omega

theorem probeOrder_split (o n q : Nat) (pre post : List Nat) (ho : o < n)
    (h : probeOrder o o n = pre ++ q :: post) : q < n ∧ pre.length = dist n o q := by
  have hq : q < n := by
    have : q ∈ probeOrder o o n := by rw [h]; simp
    exact probeOrder_mem_lt (by omega) this
  refine ⟨hq, ?_⟩
  have hlen := probeOrder_length o n (by omega)
  have hp : pre.length < n := by rw [← hlen, h]; simp
  have h1 : (probeOrder o o n)[pre.length]? = some q := by rw [h]; simp
  rw [probeOrder_get o n _ (by omega) hp] at h1
  have h2 := Option.some.inj h1
  unfold dist
  split at h2 <;> split <;> omega

theorem scan_spec {α : Type} (data : List (Option α)) (pred : α → Bool) (ks : List Nat)
    (hk : ∀ k ∈ ks, k < data.length) :
    (∃ q pre post, scan data pred ks = .ok (some q) ∧ ks = pre ++ q :: post ∧
      (∀ j ∈ pre, ∃ e, data[j]? = some (some e) ∧ pred e = false) ∧
      (data[q]? = some none ∨ ∃ e, data[q]? = some (some e) ∧ pred e = true)) ∨
    (scan data pred ks = .ok none ∧ ∀ j ∈ ks, ∃ e, data[j]? = some (some e) ∧ pred e = false) := by
  induction ks with
  | nil => exact Or.inr ⟨rfl, by simp⟩
  | cons k ks ih =>
    have hlt := hk k (by simp)
    unfold scan
    rw [List.getElem?_eq_getElem hlt]
    cases hd : data[k] with
    | none => exact Or.inl ⟨k, [], ks, rfl, rfl, by simp, Or.inl (by rw [List.getElem?_eq_getElem hlt, hd])⟩
    | some e =>
      have hd' : data[k]? = some (some e) := by rw [List.getElem?_eq_getElem hlt, hd]
      simp only
      cases hp : pred e with
      | true => exact Or.inl ⟨k, [], ks, by simp, rfl, by simp, Or.inr ⟨e, hd', hp⟩⟩
      | false =>
        simp only [Bool.false_eq_true, if_false]
        rcases ih (fun j hj => hk j (by simp [hj])) with ⟨q, pre, post, h1, h2, h3, h4⟩ | ⟨h1, h2⟩
        · refine Or.inl ⟨q, k :: pre, post, h1, by rw [h2]; rfl, ?_, h4⟩
          intro j hj
          rcases List.mem_cons.1 hj with rfl | hj
          · exact ⟨e, hd', hp⟩
          · exact h3 j hj
        · refine Or.inr ⟨h1, ?_⟩
          intro j hj
          rcases List.mem_cons.1 hj with rfl | hj
          · exact ⟨e, hd', hp⟩
          · exact h2 j hj

/-- Probing from a bucket through the whole table, when there is an empty bucket. -/
theorem probe_spec {α : Type} (data : List (Option α)) (pred : α → Bool) (o z : Nat) (ho : o < data.length)
    (hz : data[z]? = some none) :
    ∃ q, linearProbe data o o pred = .ok (some q) ∧ q < data.length ∧
      (data[q]? = some none ∨ ∃ e, data[q]? = some (some e) ∧ pred e = true) ∧
      ∀ j, j < data.length → dist data.length o j < dist data.length o q →
        ∃ e, data[j]? = some (some e) ∧ pred e = false := by
  have hzl : z < data.length := (List.getElem?_eq_some_iff.1 hz).1
  unfold linearProbe
  rcases scan_spec data pred (probeOrder o o data.length)
    (fun k hk => probeOrder_mem_lt (by omega) hk) with ⟨q, pre, post, h1, h2, h3, h4⟩ | ⟨h1, h2⟩
  · obtain ⟨hq, hlen⟩ := probeOrder_split o data.length q pre post ho h2
    refine ⟨q, h1, hq, h4, fun j hj hd => h3 j ?_⟩
    have := probeOrder_dist o data.length j ho hj
    rw [h2, List.getElem?_append_left (by omega)] at this
    exact List.mem_iff_getElem?.2 ⟨_, this⟩
  · exfalso
    obtain ⟨e, he, -⟩ := h2 z (List.mem_iff_getElem?.2 ⟨_, probeOrder_dist o data.length z ho hzl⟩)
    rw [hz] at he; cases he

theorem spare_spec (hash : K → Nat) (t : Table K V) (k : K) (z : Nat) (h64 : t.length < 2 ^ 64)
    (hz : t[z]? = some none) :
    ∃ q, spare hash t k = .ok q ∧ t[q]? = some none ∧
      ∀ j, j < t.length → dist t.length (org hash t k) j < dist t.length (org hash t k) q →
        t[j]? ≠ some none := by
  have hzl : z < t.length := (List.getElem?_eq_some_iff.1 hz).1
  obtain ⟨q, h1, h2, h3, h4⟩ := probe_spec t (fun _ => false) (org hash t k) z
    (probeOrigin_lt _ _ (by omega) h64) hz
  refine ⟨q, ?_, ?_, ?_⟩
  · unfold spare
    unfold org at h1
    rw [h1]; rfl
  · rcases h3 with h | ⟨e, _, h⟩
    · exact h
    · cases h
  · intro j hj hd
    obtain ⟨e, he, -⟩ := h4 j hj hd
    rw [he]; simp

variable [DecidableEq K]

/-- Looking for a key ends at the element with this key, or at an empty bucket where it may be inserted. -/
theorem locate_spec (hash : K → Nat) (t : Table K V) (k : K) (z : Nat) (h64 : t.length < 2 ^ 64)
    (hz : t[z]? = some none) (hw : Wf hash t) :
    ∃ q, locate hash t k = .ok q ∧
      ((∃ v, t[q]? = some (some (k, v))) ∨
        (t[q]? = some none ∧ (∀ v, (k, v) ∉ elems t) ∧
          ∀ j, j < t.length → dist t.length (org hash t k) j < dist t.length (org hash t k) q →
            t[j]? ≠ some none)) := by
  have hzl : z < t.length := (List.getElem?_eq_some_iff.1 hz).1
  have ho : org hash t k < t.length := probeOrigin_lt _ _ (by omega) h64
  obtain ⟨q, h1, h2, h3, h4⟩ := probe_spec t (fun e => e.1 == k) (org hash t k) z ho hz
  refine ⟨q, ?_, ?_⟩
  · unfold locate
    unfold org at h1
    rw [h1]; rfl
  · rcases h3 with h | ⟨e, he, hp⟩
    · refine Or.inr ⟨h, ?_, ?_⟩
      · intro v hv
        obtain ⟨i, hi⟩ := mem_elems.1 hv
        have hil : i < t.length := (List.getElem?_eq_some_iff.1 hi).1
        by_cases hd : dist t.length (org hash t k) i < dist t.length (org hash t k) q
        · obtain ⟨e, he, hp⟩ := h4 i hil hd
          rw [hi] at he
          cases he
          simp at hp
        · have hne : i ≠ q := by rintro rfl; rw [h] at hi; cases hi
          have : dist t.length (org hash t k) q < dist t.length (org hash t k) i := by
            have : dist t.length (org hash t k) i ≠ dist t.length (org hash t k) q := by
              unfold dist; split <;> split <;> omega
            omega
          exact hw.1 i (k, v) hi q h2 this h
      · intro j hj hd
        obtain ⟨e, he, -⟩ := h4 j hj hd
        rw [he]; simp
    · left
      refine ⟨e.2, ?_⟩
      rw [he]
      simp only [beq_iff_eq] at hp
      rw [← hp]

omit [DecidableEq K] in
/-- Putting an element with a new key into the empty bucket found by probing. -/
theorem wf_insert (hash : K → Nat) (t : Table K V) (e : K × V) (q : Nat) (hw : Wf hash t)
    (hq : t[q]? = some none) (hnew : ∀ v, (e.1, v) ∉ elems t)
    (hpath : ∀ j, j < t.length → dist t.length (org hash t e.1) j < dist t.length (org hash t e.1) q →
      t[j]? ≠ some none) :
    Wf hash (t.set q (some e)) := by
  have hql : q < t.length := (List.getElem?_eq_some_iff.1 hq).1
  constructor
  · intro i e' hi j hj hd
    simp only [List.length_set, org] at hj hd
    rw [List.getElem?_set] at hi ⊢
    by_cases hqj : q = j
    · rw [if_pos hqj, if_pos hql]; simp
    · rw [if_neg hqj]
      by_cases hqi : q = i
      · rw [if_pos hqi, if_pos hql] at hi
        cases hi
        rw [← hqi] at hd
        exact hpath j hj hd
      · rw [if_neg hqi] at hi
        exact hw.1 i e' hi j hj hd
  · have hp := (elems_set_some e hq).map Prod.fst
    rw [hp.nodup_iff, List.map_cons, List.nodup_cons]
    refine ⟨?_, hw.2⟩
    intro hm
    obtain ⟨⟨k, v⟩, h1, h2⟩ := List.mem_map.1 hm
    simp only at h2; subst h2
    exact hnew v h1

omit [DecidableEq K] in
/-- Replacing the value of an element. -/
theorem wf_assign (hash : K → Nat) (t : Table K V) (k : K) (v w : V) (q : Nat) (hw : Wf hash t)
    (hq : t[q]? = some (some (k, v))) :
    Wf hash (t.set q (some (k, w))) ∧
      ∃ l, (elems t).Perm ((k, v) :: l) ∧ (elems (t.set q (some (k, w)))).Perm ((k, w) :: l) := by
  have hql : q < t.length := (List.getElem?_eq_some_iff.1 hq).1
  have hset : t.set q (some (k, w)) = (t.set q none).set q (some (k, w)) := by rw [List.set_set]
  have p1 := elems_set_none hq
  have p2 : (elems (t.set q (some (k, w)))).Perm ((k, w) :: elems (t.set q none)) := by
    rw [hset]; exact elems_set_some _ (by simp [hql])
  refine ⟨⟨?_, ?_⟩, _, p1, p2⟩
  · intro i e' hi j hj hd
    simp only [List.length_set, org] at hj hd
    rw [List.getElem?_set] at hi ⊢
    by_cases hqj : q = j
    · rw [if_pos hqj, if_pos hql]; simp
    · rw [if_neg hqj]
      by_cases hqi : q = i
      · rw [if_pos hqi, if_pos hql] at hi
        cases hi
        rw [← hqi] at hd
        exact hw.1 q (k, v) hq j hj hd
      · rw [if_neg hqi] at hi
        exact hw.1 i e' hi j hj hd
  · rw [(p2.map Prod.fst).nodup_iff]
    have := hw.2
    rw [(p1.map Prod.fst).nodup_iff] at this
    exact this

/-! ## Relocation -/

/-- Positions counted from the one after `F`, so that `F` is the last one. -/
def cut (n F j : Nat) : Nat := if F < j then j - F - 1 else j + n - F - 1

theorem cut_lt_iff {n F o j p : Nat} (hF : F < n) (ho : o < n) (hj : j < n) (hp : p < n)
    (h : cut n F o ≤ cut n F p) :
    cut n F o ≤ cut n F j ∧ cut n F j < cut n F p ↔ dist n o j < dist n o p := by
  unfold cut dist at *
  (repeat' split at *) <;> omega

theorem cut_le_of_dist {n F o q k : Nat} (hF : F < n) (ho : o < n) (hq : q < n) (hk : k < n)
    (h : cut n F o ≤ cut n F k) (hd : dist n o q ≤ dist n o k) :
    cut n F o ≤ cut n F q ∧ cut n F q ≤ cut n F k := by
  unfold cut dist at *
  (repeat' split at *) <;> omega

theorem cut_inj {n F a b : Nat} (hF : F < n) (ha : a < n) (hb : b < n) (h : cut n F a = cut n F b) : a = b := by
  unfold cut at h
  (repeat' split at h) <;> omega

theorem cut_self {n F : Nat} (hF : F < n) : cut n F F = n - 1 := by
  unfold cut; split <;> omega

theorem cut_lt {n F j : Nat} (hF : F < n) (hj : j < n) (hne : j ≠ F) : cut n F j < n - 1 := by
  unfold cut; split <;> omega

/-- The table is cut at an empty bucket `F`: no element has been pushed past `F`, and the elements before
position `s` are reachable by probing. -/
def CutOk (hash : K → Nat) (F s : Nat) (t : Table K V) : Prop :=
  t[F]? = some none ∧ ∀ (p : Nat) (e : K × V), t[p]? = some (some e) →
    cut t.length F (org hash t e.1) ≤ cut t.length F p ∧
    (cut t.length F p < s → ∀ j, j < t.length → cut t.length F (org hash t e.1) ≤ cut t.length F j →
      cut t.length F j < cut t.length F p → t[j]? ≠ some none)

omit [DecidableEq K] in
theorem cutOk_wf (hash : K → Nat) (F : Nat) (t : Table K V) (h64 : t.length < 2 ^ 64)
    (h : CutOk hash F (t.length - 1) t) (hn : ((elems t).map Prod.fst).Nodup) : Wf hash t := by
  have hF : F < t.length := (List.getElem?_eq_some_iff.1 h.1).1
  refine ⟨?_, hn⟩
  intro i e hi j hj hd
  have hil : i < t.length := (List.getElem?_eq_some_iff.1 hi).1
  have ho : org hash t e.1 < t.length := probeOrigin_lt _ _ (by omega) h64
  obtain ⟨h1, h2⟩ := h.2 i e hi
  have hne : i ≠ F := by rintro rfl; rw [h.1] at hi; cases hi
  have hc := cut_lt hF hil hne
  obtain ⟨ha, hb⟩ := (cut_lt_iff hF ho hj hil h1).2 hd
  exact h2 hc j hj ha hb

omit [DecidableEq K] in
theorem wf_cut (hash : K → Nat) (F : Nat) (t : Table K V) (h64 : t.length < 2 ^ 64) (hw : Wf hash t)
    (hF : t[F]? = some none) (s : Nat) : CutOk hash F s t := by
  have hFl : F < t.length := (List.getElem?_eq_some_iff.1 hF).1
  refine ⟨hF, ?_⟩
  intro p e hp
  have hpl : p < t.length := (List.getElem?_eq_some_iff.1 hp).1
  have ho : org hash t e.1 < t.length := probeOrigin_lt _ _ (by omega) h64
  have hne : p ≠ F := by rintro rfl; rw [hF] at hp; cases hp
  have hnot := hw.1 p e hp F hFl
  have hle : cut t.length F (org hash t e.1) ≤ cut t.length F p := by
    by_contra hc
    refine hnot ?_ hF
    unfold cut dist at *
    (repeat' split at *) <;> omega
  refine ⟨hle, ?_⟩
  intro _ j hj h1 h2
  exact hw.1 p e hp j hj ((cut_lt_iff hFl ho hj hpl hle).1 ⟨h1, h2⟩)

omit [DecidableEq K] in
/-- One step of the relocation. -/
theorem relocate_step (hash : K → Nat) (F s k : Nat) (t : Table K V) (e : K × V) (h64 : t.length < 2 ^ 64)
    (h : CutOk hash F s t) (hk : t[k]? = some (some e)) (hs : cut t.length F k = s) :
    ∃ q, spare hash (t.set k none) e.1 = .ok q ∧ (t.set k none)[q]? = some none ∧
      CutOk hash F (s + 1) ((t.set k none).set q (some e)) ∧
      (elems ((t.set k none).set q (some e))).Perm (elems t) ∧
      ((t.set k none).set q (some e)).length = t.length ∧
      ∀ j, j ≠ k → t[j]? ≠ some none → ((t.set k none).set q (some e))[j]? ≠ some none := by
  have hkl : k < t.length := (List.getElem?_eq_some_iff.1 hk).1
  have hFl : F < t.length := (List.getElem?_eq_some_iff.1 h.1).1
  have hkF : k ≠ F := by rintro rfl; rw [h.1] at hk; cases hk
  have ho : org hash t e.1 < t.length := probeOrigin_lt _ _ (by omega) h64
  have hke : (t.set k none)[k]? = some none := by simp [hkl]
  obtain ⟨q, h1, h2, h3⟩ := spare_spec hash (t.set k none) e.1 k (by simpa using h64) hke
  have hql : q < t.length := by
    have := (List.getElem?_eq_some_iff.1 h2).1
    simpa using this
  have horg : org hash (t.set k none) e.1 = org hash t e.1 := by simp [org]
  rw [horg] at h3
  simp only [List.length_set] at h3
  have hle := (h.2 k e hk).1
  have hdq : dist t.length (org hash t e.1) q ≤ dist t.length (org hash t e.1) k := by
    by_contra hc
    exact h3 k hkl (by omega) hke
  have hcq := cut_le_of_dist hFl ho hql hkl hle hdq
  rw [hs] at hcq
  have hcF := cut_self hFl
  have hsl : s < t.length - 1 := by
    rw [← hs]; exact cut_lt hFl hkl hkF
  have hqF : q ≠ F := by
    rintro rfl; omega
  have hlen : ((t.set k none).set q (some e)).length = t.length := by simp
  refine ⟨q, h1, h2, ⟨?_, ?_⟩, ?_, hlen, ?_⟩
  · rw [List.getElem?_set_ne hqF, List.getElem?_set_ne hkF]; exact h.1
  · intro p e' hp
    rw [hlen]
    have horg' : org hash ((t.set k none).set q (some e)) e'.1 = org hash t e'.1 := by simp [org]
    rw [horg']
    by_cases hpq : q = p
    · subst hpq
      have : e' = e := by
        rw [List.getElem?_set_self (by simpa using hql)] at hp; cases hp; rfl
      subst this
      refine ⟨hcq.1, ?_⟩
      intro _ j hj ha hb
      have hqj : q ≠ j := by rintro rfl; omega
      rw [List.getElem?_set_ne hqj]
      exact h3 j hj ((cut_lt_iff hFl ho hj hql hcq.1).1 ⟨ha, hb⟩)
    · rw [List.getElem?_set_ne hpq] at hp
      by_cases hkp : k = p
      · subst hkp
        rw [hke] at hp; cases hp
      · rw [List.getElem?_set_ne hkp] at hp
        obtain ⟨ha, hb⟩ := h.2 p e' hp
        refine ⟨ha, ?_⟩
        intro hps j hj hc hd
        have hpl : p < t.length := (List.getElem?_eq_some_iff.1 hp).1
        have hps' : cut t.length F p < s := by
          have : cut t.length F p ≠ cut t.length F k := fun hc => hkp (cut_inj hFl hpl hkl hc).symm
          omega
        have hj' := hb hps' j hj hc hd
        have hjk : k ≠ j := by rintro rfl; omega
        by_cases hqj : q = j
        · rw [hqj, List.getElem?_set_self (by simpa using hj)]; simp
        · rw [List.getElem?_set_ne hqj, List.getElem?_set_ne hjk]; exact hj'
  · exact (elems_set_some e h2).trans (elems_set_none hk).symm
  · intro j hjk hj
    by_cases hqj : q = j
    · subst hqj
      rw [List.getElem?_set_self (by simpa using hql)]; simp
    · rw [List.getElem?_set_ne hqj, List.getElem?_set_ne (Ne.symm hjk)]; exact hj

omit [DecidableEq K] in
theorem elems_clear_subperm (t : Table K V) (q : Nat) : ∃ l, (elems t).Perm (l ++ elems (t.set q none)) := by
  by_cases hq : q < t.length
  · cases ht : t[q] with
    | none =>
      refine ⟨[], ?_⟩
      have : t.set q none = t := by
        apply List.ext_getElem?
        intro i
        rw [List.getElem?_set]
        split
        · next h => subst h; simp [hq, ht]
        · rfl
      rw [this]; exact List.Perm.refl _
    | some e =>
      exact ⟨[e], elems_set_none (by rw [List.getElem?_eq_getElem hq, ht])⟩
  · rw [List.set_eq_of_length_le (by omega)]
    exact ⟨[], List.Perm.refl _⟩

theorem probeOrder_get' (a b n i : Nat) (hi : i < n - b + a) :
    (probeOrder a b n)[i]? = some (if i < n - b then b + i else i - (n - b)) := by
  unfold probeOrder
  rw [List.getElem?_append]
  simp only [List.length_range']
  split
  · next h => simp [h]
  · next h => rw [List.getElem?_range]; omega

theorem probeOrder_length' (a b n : Nat) : (probeOrder a b n).length = n - b + a := by
  simp [probeOrder]

/-- The buckets visited before `F`, in coordinates cut at `F`. -/
theorem pre_cut (a b n m F : Nat) (pre tail : List Nat) (hab : a < b) (hbn : b ≤ n)
    (h : probeOrder a b n = pre ++ tail) (hm : pre.length = m)
    (hF : F = if m < n - b then b + m else m - (n - b)) :
    F < n ∧ pre.map (cut n F) = List.range' (n - 1 - m) m := by
  have hlen := probeOrder_length' a b n
  have hml : m ≤ n - b + a := by rw [← hlen, h, ← hm]; simp
  have hFn : F < n := by rw [hF]; split <;> omega
  refine ⟨hFn, ?_⟩
  apply List.ext_getElem?
  intro i
  rw [List.getElem?_map]
  by_cases hi : i < m
  · have h1 : pre[i]? = some (if i < n - b then b + i else i - (n - b)) := by
      rw [← probeOrder_get' a b n i (by omega), h, List.getElem?_append_left (by omega)]
    rw [h1]
    simp only [Option.map_some]
    rw [List.getElem?_range' hi]
    congr 1
    unfold cut
    rw [hF]
    (repeat' split) <;> omega
  · rw [List.getElem?_eq_none (by omega), List.getElem?_eq_none (by simp; omega)]; rfl

omit [DecidableEq K] in
/-- After the buckets `[a,b)` of a table have been cleared, the table is cut at the first empty bucket
after them, or at `a` if there is none. -/
theorem clear_cut (hash : K → Nat) (t0 t : Table K V) (a b z : Nat) (h64 : t0.length < 2 ^ 64)
    (hw : Wf hash t0) (hab : a < b) (hbn : b ≤ t0.length) (hz : t0[z]? = some none)
    (hlen : t.length = t0.length)
    (ht : ∀ j : Nat, j < t0.length → t[j]? = if a ≤ j ∧ j < b then some none else t0[j]?) :
    ∃ pre tail F, probeOrder a b t.length = pre ++ tail ∧ (tail = [] ∨ ∃ r, tail = F :: r) ∧
      (∀ k ∈ pre, k < t.length ∧ t[k]? ≠ some none) ∧ pre.length ≤ t.length - 1 ∧
      pre.map (cut t.length F) = List.range' (t.length - 1 - pre.length) pre.length ∧
      CutOk hash F (t.length - 1 - pre.length) t := by
  have horg : ∀ k, org hash t k = org hash t0 k := by intro k; simp [org, hlen]
  have hzl : z < t0.length := (List.getElem?_eq_some_iff.1 hz).1
  have hol : ∀ k, org hash t0 k < t0.length := fun k => probeOrigin_lt _ _ (by omega) h64
  have hmem : ∀ k ∈ probeOrder a b t.length, k < t.length := fun k hk => probeOrder_mem_lt (by omega) hk
  have hplen := probeOrder_length' a b t.length
  rcases scan_spec t (fun _ => false) (probeOrder a b t.length) hmem with
    ⟨F, pre, post, h1, h2, h3, h4⟩ | ⟨h1, h2⟩
  · have hF : t[F]? = some none := by
      rcases h4 with h | ⟨e, _, h⟩
      · exact h
      · cases h
    have hml : pre.length < t.length - b + a := by rw [← hplen, h2]; simp
    have hFe : F = if pre.length < t.length - b then b + pre.length else pre.length - (t.length - b) := by
      have := probeOrder_get' a b t.length pre.length hml
      rw [h2] at this
      simpa using this
    obtain ⟨hFl, hcut⟩ := pre_cut a b t.length pre.length F pre _ hab (by omega) h2 rfl hFe
    have hFR : ¬ (a ≤ F ∧ F < b) := by rw [hFe]; split <;> omega
    have hF0 : t0[F]? = some none := by
      rw [ht F (by omega), if_neg hFR] at hF; exact hF
    have hc0 := wf_cut hash F t0 h64 hw hF0 t0.length
    refine ⟨pre, F :: post, F, h2, Or.inr ⟨post, rfl⟩, ?_, by omega, hcut, hF, ?_⟩
    · intro k hk
      obtain ⟨e, he, -⟩ := h3 k hk
      exact ⟨hmem k (by rw [h2]; simp [hk]), by rw [he]; simp⟩
    · intro p e hp
      have hpl : p < t0.length := hlen ▸ (List.getElem?_eq_some_iff.1 hp).1
      have hpR : ¬ (a ≤ p ∧ p < b) := by
        intro hc; rw [ht p hpl, if_pos hc] at hp; cases hp
      rw [ht p hpl, if_neg hpR] at hp
      obtain ⟨g1, g2⟩ := hc0.2 p e hp
      rw [hlen, horg]
      refine ⟨g1, ?_⟩
      intro hps j hj ha hb
      have hcp : cut t0.length F p < t0.length := by unfold cut; split <;> omega
      have := g2 hcp j hj ha hb
      rw [ht j hj, if_neg ?_]
      · exact this
      · intro hjR
        rw [hlen] at hFe hFl
        unfold cut at hps hb
        split at hFe <;> (repeat' split at hps) <;> (repeat' split at hb) <;> omega
  · have hFl : a < t0.length := by omega
    obtain ⟨-, hcut⟩ := pre_cut a b t.length (t.length - b + a) a (probeOrder a b t.length) [] hab (by omega)
      (by simp) hplen (by split <;> omega)
    have hzR : a ≤ z ∧ z < b := by
      by_contra hc
      have : z ∈ probeOrder a b t.length := by
        simp only [probeOrder, List.mem_append, List.mem_range', List.mem_range]
        by_cases hza : z < a
        · exact Or.inr hza
        · exact Or.inl ⟨z - b, by omega, by omega⟩
      obtain ⟨e, he, -⟩ := h2 z this
      rw [ht z hzl, if_neg hc, hz] at he; cases he
    refine ⟨probeOrder a b t.length, [], a, by simp, Or.inl rfl, ?_, by omega, by rw [hplen]; exact hcut, ?_, ?_⟩
    · intro k hk
      obtain ⟨e, he, -⟩ := h2 k hk
      exact ⟨hmem k hk, by rw [he]; simp⟩
    · rw [ht a hFl, if_pos ⟨Nat.le_refl _, hab⟩]
    · intro p e hp
      have hpl : p < t0.length := hlen ▸ (List.getElem?_eq_some_iff.1 hp).1
      have hpR : ¬ (a ≤ p ∧ p < b) := by
        intro hc; rw [ht p hpl, if_pos hc] at hp; cases hp
      rw [ht p hpl, if_neg hpR] at hp
      rw [horg, hplen, hlen]
      have ho := hol e.1
      constructor
      · by_contra hc
        refine hw.1 p e hp z hzl ?_ hz
        unfold cut at hc
        unfold dist
        (repeat' split at hc) <;> (repeat' split) <;> omega
      · intro hps
        exfalso
        unfold cut at hps
        split at hps <;> omega

end Asteria.Hash
