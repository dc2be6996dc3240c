import Verif.Model.ArrayLib

/-!
# Lemmas about rotation and shuffling
-/

namespace Asteria.ArrayLib

theorem swapAt_perm (l : List α) (i j : Nat) (hi : i < l.length) (hj : j < l.length) :
    ∃ r, swapAt l i j = .ok r ∧ r.Perm l := by
  unfold swapAt
  rw [List.getElem?_eq_getElem hi, List.getElem?_eq_getElem hj]
  exact ⟨_, rfl, List.set_set_perm hi hj⟩

theorem swapAt_split (p a' m b' s : List α) (a b : α) :
    swapAt (p ++ (a :: a') ++ m ++ (b :: b') ++ s) p.length (p.length + (1 + a'.length) + m.length) =
      .ok (p ++ (b :: a') ++ m ++ (a :: b') ++ s) := by
  unfold swapAt
  have e1 : (p ++ (a :: a') ++ m ++ (b :: b') ++ s)[p.length]? = some a := by simp
  have e2 : (p ++ (a :: a') ++ m ++ (b :: b') ++ s)[p.length + (1 + a'.length) + m.length]? = some b := by
    rw [List.append_assoc, List.getElem?_append_right (by simp; omega)]
    simp only [List.length_append, List.length_cons]
    rw [show p.length + (1 + a'.length) + m.length - (p.length + (a'.length + 1) + m.length) = 0 by omega]
    simp
  rw [e1, e2]
  simp only
  congr 1
  have s1 : (p ++ (a :: a') ++ m ++ (b :: b') ++ s).set p.length b =
      (p ++ (b :: a') ++ m) ++ (b :: b' ++ s) := by
    simp [List.set_append_right]
  rw [s1, List.set_append_right _ _ (by simp; omega)]
  simp only [List.length_append, List.length_cons]
  rw [show p.length + (1 + a'.length) + m.length - (p.length + (a'.length + 1) + m.length) = 0 by omega]
  simp

theorem swapRun_spec (p a m b s : List α) (h : a.length = b.length) :
    swapRun p.length (p.length + a.length + m.length) (p ++ a ++ m ++ b ++ s) a.length =
      .ok (p ++ b ++ m ++ a ++ s) := by
  induction a generalizing p m b with
  | nil =>
    have : b = [] := List.length_eq_zero_iff.1 h.symm
    subst this; rfl
  | cons x a ih =>
    cases b with
    | nil => simp at h
    | cons y b =>
      rw [List.length_cons, swapRun, show p.length + (a.length + 1) + m.length =
        p.length + (1 + a.length) + m.length by omega, swapAt_split]
      simp only [Res.bind]
      have := ih (p ++ [y]) (m ++ [x]) b (by simpa using h)
      simp only [List.length_append, List.length_cons, List.length_nil, List.append_assoc,
        List.cons_append, List.nil_append] at this ⊢
      rw [show p.length + (1 + a.length) + m.length + 1 =
        p.length + (0 + 1) + a.length + (m.length + (0 + 1)) by omega, this]

theorem rotateLoop_spec (p a b s : List α) (ha : a ≠ []) (hb : b ≠ []) :
    rotateLoop (p.length + a.length + b.length) p.length (p.length + a.length) (p ++ a ++ b ++ s) =
      .ok (p ++ b ++ a ++ s) := by
  induction hn : a.length + b.length using Nat.strongRecOn generalizing p a b s with
  | _ n ih =>
    have ha' := List.length_pos_iff.2 ha
    have hb' := List.length_pos_iff.2 hb
    unfold rotateLoop
    rw [if_pos (by omega)]
    simp only [show p.length + a.length - p.length = a.length by omega,
      show p.length + a.length + b.length - (p.length + a.length) = b.length by omega]
    split
    · next hlt =>
      have hs := swapRun_spec p a [] (b.take a.length) (b.drop a.length ++ s) (by simp; omega)
      simp only [List.append_nil, List.length_nil, Nat.add_zero] at hs
      have e : p ++ a ++ b.take a.length ++ (b.drop a.length ++ s) = p ++ a ++ b ++ s := by
        rw [List.append_assoc (p ++ a), ← List.append_assoc (b.take _), List.take_append_drop,
          ← List.append_assoc]
      rw [e] at hs
      rw [hs]
      simp only [Res.bind]
      have := ih _ (by simp; omega) (p ++ b.take a.length) a (b.drop a.length) s ha
        (by intro h0; have := congrArg List.length h0; simp at this; omega) rfl
      have hl : (p ++ b.take a.length).length = p.length + a.length := by simp; omega
      rw [hl] at this
      rw [show p.length + a.length + a.length + (b.drop a.length).length =
        p.length + a.length + b.length by simp; omega] at this
      rw [← List.append_assoc, this]
      congr 1
      simp only [List.append_assoc]
      rw [← List.append_assoc (b.take _), List.take_append_drop]
    · split
      · next hge hlt =>
        have hs := swapRun_spec p (a.take b.length) (a.drop b.length) b s (by simp; omega)
        have hlen : (a.take b.length).length = b.length := by simp; omega
        have hl2 : p.length + b.length + (a.drop b.length).length = p.length + a.length := by simp; omega
        rw [hlen, hl2] at hs
        have e : p ++ a.take b.length ++ a.drop b.length ++ b ++ s = p ++ a ++ b ++ s := by
          rw [List.append_assoc p, List.take_append_drop]
        rw [e] at hs
        rw [hs]
        simp only [Res.bind]
        have := ih _ (by simp; omega) (p ++ b) (a.drop b.length) (a.take b.length) s
          (by intro h0; have := congrArg List.length h0; simp at this; omega)
          (by intro h0; have := congrArg List.length h0
              simp only [List.length_take, List.length_nil] at this; omega) rfl
        rw [List.length_append, hl2, hlen] at this
        rw [this]
        congr 1
        rw [List.append_assoc (p ++ b), List.take_append_drop]
      · next hge hge2 =>
        have := swapRun_spec p a [] b s (by omega)
        simpa using this

theorem rotateRange_spec (l : List α) (k : Nat) (hk : k ≤ l.length) :
    rotateRange l 0 k l.length = .ok (l.drop k ++ l.take k) := by
  unfold rotateRange
  split
  · next h => have : k = 0 := by omega
              subst this; simp
  · split
    · next h => have : k = l.length := by omega
                subst this; simp
    · have := rotateLoop_spec [] (l.take k) (l.drop k) []
        (by intro h0; have := congrArg List.length h0
            simp only [List.length_take, List.length_nil] at this; omega)
        (by intro h0; have := congrArg List.length h0
            simp only [List.length_drop, List.length_nil] at this; omega)
      simp only [List.length_nil, List.nil_append, List.append_nil, List.take_append_drop,
        List.length_take, List.length_drop] at this
      rw [show 0 + min k l.length + (l.length - k) = l.length by omega,
        show 0 + min k l.length = k by omega] at this
      exact this

theorem probeOrigin_lt (size hval : Nat) (h : 0 < size) : probeOrigin size hval < size := by
  unfold probeOrigin
  generalize hval * 0x9E3779B9 % 2 ^ 64 = x
  have hx : x % 0x100000000 < 0x100000000 := Nat.mod_lt _ (by decide)
  generalize x % 0x100000000 = y at hx
  rw [Nat.div_lt_iff_lt_mul (by decide)]
  refine Nat.lt_of_le_of_lt (Nat.mod_le _ _) ?_
  rw [Nat.mul_comm]
  exact Nat.mul_lt_mul_of_pos_left hx h

theorem shuffleLoop_spec (lcg k : Nat) (data : List α) (rem : Nat) (h : k + rem = data.length) :
    ∃ r, shuffleLoop lcg k data rem = .ok r ∧ r.Perm data := by
  induction rem generalizing lcg k data with
  | zero => exact ⟨data, rfl, List.Perm.refl _⟩
  | succ rem ih =>
    unfold shuffleLoop
    simp only
    split
    · obtain ⟨d, h1, h2⟩ := swapAt_perm data (probeOrigin data.length (lcgStep lcg / 2 ^ 16)) k
        (probeOrigin_lt _ _ (by omega)) (by omega)
      rw [h1]
      simp only [Res.bind]
      obtain ⟨r, g1, g2⟩ := ih (lcgStep lcg) (k + 1) d (by rw [h2.length_eq]; omega)
      exact ⟨r, g1, g2.trans h2⟩
    · exact ih _ _ _ (by omega)

/-- The shuffle permutes positions in a way that does not depend on the elements. -/
theorem swapAt_map (f : α → β) (l : List α) (i j : Nat) :
    swapAt (l.map f) i j = (swapAt l i j).map (List.map f) := by
  unfold swapAt
  simp only [List.getElem?_map]
  cases l[i]? <;> cases l[j]? <;> simp [List.map_set]

theorem shuffleLoop_map (f : α → β) (lcg k : Nat) (data : List α) (rem : Nat) :
    shuffleLoop lcg k (data.map f) rem = (shuffleLoop lcg k data rem).map (List.map f) := by
  induction rem generalizing lcg k data with
  | zero => rfl
  | succ rem ih =>
    unfold shuffleLoop
    simp only [List.length_map]
    split
    · rw [swapAt_map]
      cases swapAt data (probeOrigin data.length (lcgStep lcg / 2 ^ 16)) k <;> simp [ih]
    · exact ih _ _ _

end Asteria.ArrayLib
