import Verif.Model.Globals

/-!
# Global contexts
-/

namespace Asteria.Globals

theorem shift_iff (u : Int) (h1 : -2 ^ 63 ≤ u) (h2 : u < 2 ^ 63) : u >>> 20 = u >>> 63 ↔ -2 ^ 20 ≤ u ∧ u < 2 ^ 20 := by
  rw [Int.shiftRight_eq_div_pow, Int.shiftRight_eq_div_pow]
  omega

theorem toInt_sub {a b : Addr} (ha : a.toNat < 2 ^ 63) (hb : b.toNat < 2 ^ 63) : (a - b).toInt = (a.toNat : Int) - b.toNat := by
  rw [BitVec.toInt_eq_toNat_cond, BitVec.toNat_sub]
  split <;> omega

theorem validate_iff (base self : Addr) : validate base self = .ok () ↔ -2 ^ 20 ≤ (base - self).toInt ∧ (base - self).toInt < 2 ^ 20 := by
  unfold validate
  dsimp only
  have h1 := BitVec.le_toInt (base - self)
  have h2 := BitVec.toInt_lt (x := base - self)
  rw [← shift_iff _ (by omega) (by omega), ← BitVec.toInt_sshiftRight, ← BitVec.toInt_sshiftRight]
  by_cases h : (base - self).sshiftRight 20 = (base - self).sshiftRight 63
  · simp [h]
  · rw [if_pos h]
    exact ⟨fun h' => (nomatch h'), fun e => absurd (BitVec.eq_of_toInt_eq e) h⟩

theorem validate_cases (base self : Addr) : validate base self = .ok () ∨ validate base self = .throw := by
  unfold validate
  dsimp only
  split <;> simp

/-- The number of modules up to a version. -/
theorem upperBound_spec (ms : List Module) (v : UInt32) (c : Nat) (hc : c ≤ ms.length) (hlo : ∀ i m, ms[i]? = some m → i < c → m.version ≤ v)
    (hhi : ∀ i m, ms[i]? = some m → c ≤ i → v < m.version) :
    ∀ (len first : Nat), first ≤ c → c ≤ first + len → first + len ≤ ms.length → upperBound ms v first len = .ok c := by
  intro len
  induction len using Nat.strongRecOn with
  | ind len ih =>
    intro first h1 h2 h3
    unfold upperBound
    by_cases h0 : len = 0
    · rw [dif_pos h0]
      congr 1
      omega
    rw [dif_neg h0]
    dsimp only
    have hlt : first + len / 2 < ms.length := by omega
    rw [List.getElem?_eq_getElem hlt]
    dsimp only
    have hm : ms[first + len / 2]? = some ms[first + len / 2] := List.getElem?_eq_getElem hlt
    by_cases hv : v < ms[first + len / 2].version
    · rw [if_pos hv]
      have : c ≤ first + len / 2 := by
        apply Nat.le_of_not_lt
        intro h
        have := hlo _ _ hm h
        exact absurd (UInt32.lt_of_lt_of_le hv this) (UInt32.lt_irrefl _)
      exact ih (len / 2) (by omega) first h1 this (by omega)
    · rw [if_neg hv]
      have : first + len / 2 < c := by
        apply Nat.lt_of_not_le
        intro h
        exact hv (hhi _ _ hm h)
      exact ih (len - len / 2 - 1) (by omega) (first + len / 2 + 1) (by omega) (by omega) (by omega)

/-- In a sorted table, the modules up to a version come first. -/
theorem sorted_split (v : UInt32) : ∀ (ms : List Module), ms.Pairwise (fun a b => a.version ≤ b.version) →
    (∀ i m, ms[i]? = some m → i < (ms.filter (fun m => m.version ≤ v)).length → m.version ≤ v) ∧
    (∀ i m, ms[i]? = some m → (ms.filter (fun m => m.version ≤ v)).length ≤ i → v < m.version) ∧
    ms.take (ms.filter (fun m => m.version ≤ v)).length = ms.filter (fun m => m.version ≤ v) := by
  intro ms
  induction ms with
  | nil => intro _; simp
  | cons a ms ih =>
    intro h
    obtain ⟨ha, h⟩ := List.pairwise_cons.1 h
    obtain ⟨i1, i2, i3⟩ := ih h
    by_cases hv : a.version ≤ v
    · rw [List.filter_cons_of_pos (by simpa using hv)]
      refine ⟨fun i m hi hl => ?_, fun i m hi hl => ?_, ?_⟩
      · cases i with
        | zero => cases hi; exact hv
        | succ i => exact i1 i m hi (by simpa using hl)
      · cases i with
        | zero => simp at hl
        | succ i => exact i2 i m hi (by simpa using hl)
      · rw [List.length_cons, List.take_succ_cons, i3]
    · have hall : ∀ m ∈ ms, ¬ m.version ≤ v := fun m hm h => hv (UInt32.le_trans (ha m hm) h)
      have hnil : ms.filter (fun m => m.version ≤ v) = [] := by
        rw [List.filter_eq_nil_iff]
        intro m hm
        simpa using hall m hm
      rw [List.filter_cons_of_neg (by simpa using hv), hnil]
      refine ⟨fun i m hi hl => by simp at hl, fun i m hi _ => ?_, rfl⟩
      cases i with
      | zero =>
        cases hi
        exact UInt32.not_le.1 hv
      | succ i => exact UInt32.not_le.1 (hall m (List.mem_of_getElem? hi))

theorem foldl_add (v : UInt32) : ∀ (ms : List Module) (o : List (String × UInt32)), (ms.map (·.name)).Nodup → (∀ m ∈ ms, o.lookup m.name = none) →
    ms.foldl (addModule v) o = o ++ ms.map fun m => (m.name, v) := by
  intro ms
  induction ms with
  | nil => intro o _ _; simp
  | cons m ms ih =>
    intro o hn ho
    rw [List.map_cons, List.nodup_cons] at hn
    have e : addModule v o m = o ++ [(m.name, v)] := by
      unfold addModule
      rw [ho m (by simp)]
    rw [List.foldl_cons, e, ih _ hn.2 ?_]
    · simp
    · intro m' hm'
      have : m'.name ≠ m.name := fun h => hn.1 (h ▸ List.mem_map_of_mem hm')
      have hb : (m'.name == m.name) = false := by simpa using this
      rw [List.lookup_append, ho m' (List.mem_cons_of_mem _ hm')]
      simp [List.lookup_cons, hb]

end Asteria.Globals
