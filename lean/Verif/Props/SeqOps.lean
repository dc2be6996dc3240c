import Verif.Model.SeqOps
import Mathlib.Tactic.Ring
import Mathlib.Tactic.Linarith
import Mathlib.Tactic.NormNum

/-!
# Properties of the string and array operators (C33)

The specification describes the result byte by byte: `l[i]?` is the element at `i`, if any.
-/

namespace Asteria.SeqOps

theorem zipInto_get (f) (vs ms : Bytes) (i : Nat) :
    (zipInto f vs ms)[i]? =
      match vs[i]?, ms[i]? with
      | some v, some m => some (f v m)
      | v, none => v
      | none, _ => none := by
  induction vs generalizing ms i with
  | nil => simp [zipInto]; cases ms[i]? <;> rfl
  | cons v vs ih =>
    cases ms with
    | nil => simp only [zipInto, List.getElem?_nil]
    | cons m ms =>
      cases i with
      | zero => simp [zipInto]
      | succ i =>
        simp only [zipInto, List.getElem?_cons_succ]
        apply ih

theorem zipInto_length (f) (vs ms : Bytes) : (zipInto f vs ms).length = vs.length := by
  induction vs generalizing ms with
  | nil => simp [zipInto]
  | cons v vs ih => cases ms <;> simp [zipInto, ih]

/-- C33: `s & t` is the bytewise conjunction of the common prefix. -/
theorem C33_and (s t : Bytes) :
    (andStr s t).length = min s.length t.length ∧
    ∀ (i : Nat) (v m : UInt8), s[i]? = some v → t[i]? = some m → (andStr s t)[i]? = some (v &&& m) := by
  unfold andStr
  split
  · next h =>
    refine ⟨by rw [zipInto_length, List.length_take, Nat.min_comm], ?_⟩
    intro i v m hv hm
    have hi : i < t.length := (List.getElem?_eq_some_iff.1 hm).1
    rw [zipInto_get, List.getElem?_take_of_lt hi, hv, hm]
  · next h =>
    refine ⟨by rw [zipInto_length]; omega, ?_⟩
    intro i v m hv hm
    rw [zipInto_get, hv, hm]

/-- The byte at `i`, or zero past the end: the zero-extension of a string. -/
def byteAt (s : Bytes) (i : Nat) : UInt8 := (s[i]?).getD 0

theorem orLike (f : UInt8 → UInt8 → UInt8) (hf : ∀ v, f v 0 = v) (maxLen : Nat) (s t r : Bytes)
    (h : (if s.length < t.length then appendN maxLen s (t.length - s.length) 0 else .ok s) = .ok r) :
    (zipInto f r t).length = max s.length t.length ∧
    ∀ i < max s.length t.length, (zipInto f r t)[i]? = some (f (byteAt s i) (byteAt t i)) := by
  have hr : r.length = max s.length t.length ∧ ∀ i < max s.length t.length, r[i]? = some (byteAt s i) := by
    unfold byteAt
    split at h
    · next hl =>
      unfold appendN at h
      split at h
      · simp only [Res.ok.injEq] at h
        subst h
        refine ⟨by simp; omega, fun i hi => ?_⟩
        by_cases his : i < s.length
        · rw [List.getElem?_append_left his, List.getElem?_eq_getElem his]; rfl
        · rw [List.getElem?_append_right (by omega), List.getElem?_replicate, if_pos (by omega),
            List.getElem?_eq_none (by omega)]; rfl
      · simp at h
    · next hl =>
      simp only [Res.ok.injEq] at h
      subst h
      refine ⟨by omega, fun i hi => ?_⟩
      rw [List.getElem?_eq_getElem (show i < s.length by omega)]; rfl
  refine ⟨by rw [zipInto_length]; exact hr.1, fun i hi => ?_⟩
  rw [zipInto_get, hr.2 i hi]
  unfold byteAt
  cases t[i]? <;> simp [hf]

/-- C33: `s | t` is the bytewise disjunction after zero-extending the shorter operand; it succeeds
whenever the longer length is permitted. -/
theorem C33_or (maxLen : Nat) (s t : Bytes) (ht : t.length ≤ maxLen) :
    ∃ r, orStr maxLen s t = .ok r ∧ r.length = max s.length t.length ∧
      ∀ i < max s.length t.length, r[i]? = some (byteAt s i ||| byteAt t i) := by
  have : ∃ r, (if s.length < t.length then appendN maxLen s (t.length - s.length) 0 else .ok s) = .ok r := by
    split
    · unfold appendN; rw [if_pos (by omega)]; exact ⟨_, rfl⟩
    · exact ⟨_, rfl⟩
  obtain ⟨r, hr⟩ := this
  refine ⟨_, ?_, orLike (· ||| ·) (by intro v; simp) maxLen s t r hr⟩
  unfold orStr
  rw [hr]; rfl

/-- C33: `s ^ t`, likewise. -/
theorem C33_xor (maxLen : Nat) (s t : Bytes) (ht : t.length ≤ maxLen) :
    ∃ r, xorStr maxLen s t = .ok r ∧ r.length = max s.length t.length ∧
      ∀ i < max s.length t.length, r[i]? = some (byteAt s i ^^^ byteAt t i) := by
  have : ∃ r, (if s.length < t.length then appendN maxLen s (t.length - s.length) 0 else .ok s) = .ok r := by
    split
    · unfold appendN; rw [if_pos (by omega)]; exact ⟨_, rfl⟩
    · exact ⟨_, rfl⟩
  obtain ⟨r, hr⟩ := this
  refine ⟨_, ?_, orLike (· ^^^ ·) (by intro v; simp) maxLen s t r hr⟩
  unfold xorStr
  rw [hr]; rfl

/-- C33: `~~s = s` and `~s` keeps the length. -/
theorem C33_not (s : Bytes) : notStr (notStr s) = s ∧ (notStr s).length = s.length ∧
    ∀ (i : Nat) (v : UInt8), s[i]? = some v → (notStr s)[i]? = some (~~~v) := by
  refine ⟨?_, by simp [notStr], ?_⟩
  · simp [notStr, Function.comp_def]
  · intro i v h; simp [notStr, h]

/-- C33: a negative count always throws. -/
theorem C33_negative_count {α} (maxLen : Nat) (fill : α) (s : List α) (n : Int) (h : n < 0) :
    sllSeq maxLen fill s n = .throw ∧ srlSeq maxLen fill s n = .throw ∧
    slaSeq maxLen fill s n = .throw ∧ sraSeq s n = .throw := by
  simp [sllSeq, srlSeq, slaSeq, sraSeq, h]

/-- C33: `s <<< n` keeps the length; position `i` gets the element at `i + n`, or the filler. -/
theorem C33_sll {α} (maxLen : Nat) (fill : α) (s : List α) (n : Int) (h : 0 ≤ n)
    (hs : s.length ≤ maxLen) :
    ∃ r, sllSeq maxLen fill s n = .ok r ∧ r.length = s.length ∧
      ∀ i < s.length, r[i]? = some ((s[i + n.toNat]?).getD fill) := by
  unfold sllSeq appendN clampN
  rw [if_neg (by omega), if_pos (by simp; omega)]
  refine ⟨_, rfl, by simp, fun i hi => ?_⟩
  by_cases hin : i + n.toNat < s.length
  · rw [List.getElem?_append_left (by simp; omega), List.getElem?_drop,
      show (max 0 (min n (s.length : Int))).toNat + i = i + n.toNat by omega,
      List.getElem?_eq_getElem hin]; rfl
  · rw [List.getElem?_append_right (by simp; omega), List.getElem?_replicate,
      if_pos (by simp; omega), List.getElem?_eq_none (by omega)]; rfl

/-- C33: `s >>> n` keeps the length; position `i` gets the element at `i - n`, or the filler. -/
theorem C33_srl {α} (maxLen : Nat) (fill : α) (s : List α) (n : Int) (h : 0 ≤ n)
    (hs : s.length ≤ maxLen) :
    ∃ r, srlSeq maxLen fill s n = .ok r ∧ r.length = s.length ∧
      ∀ i < s.length, r[i]? = if i < n.toNat then some fill else s[i - n.toNat]? := by
  unfold srlSeq clampN
  rw [if_neg (by omega)]
  simp only
  rw [if_pos (by simp; omega)]
  refine ⟨_, rfl, by simp, fun i hi => ?_⟩
  split
  · next hin =>
    rw [List.getElem?_append_left (by simp; omega), List.getElem?_replicate, if_pos (by omega)]
  · next hin =>
    rw [List.getElem?_append_right (by simp; omega), List.length_replicate,
      List.getElem?_take_of_lt (by omega)]
    congr 1; omega

/-- C33: `s << n` appends exactly `n` fillers (or throws past the maximum size). -/
theorem C33_sla {α} (maxLen : Nat) (fill : α) (s : List α) (n : Int) (h : 0 ≤ n) (hn : n < 2 ^ 63) :
    slaSeq maxLen fill s n =
      if s.length + n.toNat ≤ maxLen then .ok (s ++ List.replicate n.toNat fill) else .throw := by
  unfold slaSeq appendN clampN ptrdiffMax
  rw [if_neg (by omega)]
  have : (max 0 (min n ((2 ^ 63 - 1 : Nat) : Int))).toNat = n.toNat := by
    norm_num at *; omega
  rw [this]

/-- C33: `s >> n` drops the last `min n |s|` elements. -/
theorem C33_sra {α} (s : List α) (n : Int) (h : 0 ≤ n) :
    ∃ r, sraSeq s n = .ok r ∧ r <+: s ∧ r.length = s.length - min n.toNat s.length := by
  unfold sraSeq clampN
  rw [if_neg (by omega)]
  refine ⟨_, rfl, List.take_prefix _ _, by simp; omega⟩

/-- C33: `(s << n) >> n` is `s`. -/
theorem C33_sla_sra {α} (maxLen : Nat) (fill : α) (s r : List α) (n : Int) (hn : n < 2 ^ 63)
    (hr : slaSeq maxLen fill s n = .ok r) : sraSeq r n = .ok s := by
  by_cases h : n < 0
  · simp [slaSeq, h] at hr
  · rw [C33_sla maxLen fill s n (by omega) hn] at hr
    split at hr
    · simp only [Res.ok.injEq] at hr
      subst hr
      unfold sraSeq clampN
      rw [if_neg h]
      congr 1
      rw [List.take_append_of_le_length (by simp; omega)]
      apply List.take_of_length_le
      simp; omega
    · simp at hr

theorem flatten_rep_length {α} (k : Nat) (s : List α) :
    (List.replicate k s).flatten.length = k * s.length := by
  induction k with
  | zero => simp
  | succ k ih => simp [List.replicate_succ]; ring

theorem dupLoop_spec {α} (ntotal : Nat) (s dst : List α) (k : Nat) (hs : 0 < s.length) (hk : 0 < k)
    (hd : dst = (List.replicate k s).flatten) (hle : k * s.length ≤ ntotal) :
    ∃ k', dupLoop ntotal dst = (List.replicate k' s).flatten ∧ k' * s.length ≤ ntotal ∧
      ntotal < 2 * (k' * s.length) := by
  induction h : ntotal + 1 - dst.length using Nat.strong_induction_on generalizing dst k with
  | _ m ih =>
    have hl : dst.length = k * s.length := by rw [hd, flatten_rep_length]
    have hpos : 0 < k * s.length := Nat.mul_pos hk hs
    unfold dupLoop
    split
    · next hc =>
      refine ih (ntotal + 1 - (dst ++ dst).length) ?_ (dst ++ dst) (k + k) (by omega) ?_ ?_ rfl
      · rw [List.length_append]; omega
      · rw [hd, ← List.flatten_append, List.replicate_append_replicate]
      · rw [Nat.add_mul]; omega
    · next hc =>
      exact ⟨k, hd, hle, by omega⟩

/-- C33: `s * n` is `n` copies of `s`, or throws if `n` is negative or the length is excessive. -/
theorem C33_duplicate {α} (maxLen : Nat) (s : List α) (n : Int) :
    duplicate maxLen s n =
      if n < 0 ∨ (s.length : Int) * n > 2 ^ 63 - 1 ∨ (s.length : Int) * n > maxLen then .throw
      else .ok (List.replicate n.toNat s).flatten := by
  unfold duplicate
  by_cases h1 : n < 0
  · simp [h1]
  by_cases h2 : (s.length : Int) * n > 2 ^ 63 - 1
  · rw [if_neg h1, if_pos h2, if_pos (Or.inr (Or.inl h2))]
  rw [if_neg h1, if_neg h2]
  by_cases h3 : (s.length : Int) * n = 0
  · rw [if_pos h3, if_neg (by omega)]
    congr 1
    rcases Int.mul_eq_zero.1 h3 with h | h
    · have : s = [] := List.eq_nil_of_length_eq_zero (by omega)
      subst this; simp
    · subst h; simp
  · rw [if_neg h3]
    simp only
    have hn : n = (n.toNat : Int) := by omega
    generalize n.toNat = c at hn
    subst hn
    have hcast : (s.length : Int) * (c : Int) = ((c * s.length : Nat) : Int) := by
      push_cast; ring
    rw [hcast] at h2 h3 ⊢
    rw [Int.toNat_natCast]
    by_cases h4 : c * s.length > maxLen
    · rw [if_pos h4, if_pos (by omega)]
    · rw [if_neg h4, if_neg (by omega)]
      congr 1
      have hpos : 0 < c * s.length := by omega
      have hs : 0 < s.length := Nat.pos_of_mul_pos_left hpos
      have hc : 0 < c := Nat.pos_of_mul_pos_right hpos
      obtain ⟨k, hk, hle, hlt⟩ := dupLoop_spec (c * s.length) s s 1 hs (by omega) (by simp)
        (by have := Nat.mul_le_mul_right s.length hc; omega)
      rw [hk, flatten_rep_length]
      have hkc : k ≤ c := Nat.le_of_mul_le_mul_right hle hs
      have hck : c < 2 * k := by
        rw [← Nat.mul_assoc] at hlt
        exact Nat.lt_of_mul_lt_mul_right hlt
      have e1 : c * s.length - k * s.length = ((List.replicate (c - k) s).flatten).length := by
        rw [flatten_rep_length, Nat.sub_mul]
      have e2 : List.replicate k s = List.replicate (c - k) s ++ List.replicate (k - (c - k)) s := by
        rw [List.replicate_append_replicate]; congr 1; omega
      have e3 : List.replicate c s = List.replicate k s ++ List.replicate (c - k) s := by
        rw [List.replicate_append_replicate]; congr 1; omega
      rw [e3, List.flatten_append]
      congr 1
      rw [e1, e2, List.flatten_append, List.take_left]

example : andStr [0xF0, 0x0F, 0xFF] [0x3C, 0xFF] = [0x30, 0x0F] := by decide
example : orStr 100 [0xF0] [0x0C, 0x01] = .ok [0xFC, 0x01] ∧
    xorStr 100 [0xF0, 0x11] [0xFF] = .ok [0x0F, 0x11] := by decide
example : sllSeq 100 0 [1, 2, 3] 1 = .ok [2, 3, 0] ∧ srlSeq 100 0 [1, 2, 3] 5 = .ok [0, 0, 0] ∧
    slaSeq 100 0 [1, 2] 2 = .ok [1, 2, 0, 0] ∧ sraSeq [1, 2, 3] 2 = .ok [1] := by decide
example : duplicate 100 [1, 2] 5 = .ok [1, 2, 1, 2, 1, 2, 1, 2, 1, 2] := by
  simp [C33_duplicate, List.replicate]

end Asteria.SeqOps
