import Verif.Proof.Rod

/-!
# The reference stack as a list: the invariant
-/

namespace Asteria.Avm

open MemPool (Req)

variable {V : Type}

/-- Objects from the bottom, then slots without objects. -/
structure SRep (s : Stack V) (l : List V) : Prop where
  cells : ∃ k, s.mem.getD [] = l.reverse.map some ++ List.replicate k none
  size : s.size = l.length
  bound : s.estor ≤ 2 ^ 30

theorem scells_length (s : Stack V) : (s.mem.getD []).length = s.estor := by
  unfold Stack.estor
  cases s.mem <;> rfl

theorem SRep.le {s : Stack V} {l : List V} (h : SRep s l) : l.length ≤ s.estor := by
  obtain ⟨k, hk⟩ := h.cells
  rw [← scells_length, hk]
  simp

theorem stack_reallocate {s : Stack V} {l : List V} (h : SRep s l) {sz e : Nat} (hsz : 2 ≤ sz) (he : l.length ≤ e) (good : Bool) :
    if e < 0x7FFE0000 / sz ∧ good = true then ∃ s', s.reallocate sz e good = .ok s' ∧ SRep s' l ∧ e ≤ s'.estor
    else s.reallocate sz e good = .throw := by
  unfold Stack.reallocate
  by_cases h1 : e < 0x7FFE0000 / sz
  · have hs := h.size
    cases good with
    | false =>
      rw [if_neg (by simp), if_neg (by omega), if_neg (by omega)]
      rfl
    | true =>
      rw [if_pos ⟨h1, rfl⟩, if_neg (by omega), if_neg (by omega), if_neg (by simp)]
      obtain ⟨g1, g2⟩ := got_bounds hsz h1
      have g3 : (2 : Nat) ^ 31 / sz ≤ 2 ^ 30 := by
        rw [Nat.div_le_iff_le_mul_add_pred (by omega)]
        omega
      have hu : u32 (Req.got ⟨sz, e⟩) = Req.got ⟨sz, e⟩ := Nat.mod_eq_of_lt (by omega)
      dsimp only
      rw [hu]
      obtain ⟨k, hk⟩ := h.cells
      have hle := h.le
      cases hm : s.mem with
      | none =>
        have hl : l = [] := by
          have := h.le
          unfold Stack.estor at this
          rw [hm] at this
          exact List.eq_nil_of_length_eq_zero (by simpa using this)
        refine ⟨_, rfl, ⟨⟨Req.got ⟨sz, e⟩, ?_⟩, h.size, ?_⟩, ?_⟩
        · rw [hl]; rfl
        · show (List.replicate _ _).length ≤ _
          rw [List.length_replicate]; omega
        · show _ ≤ (List.replicate _ _).length
          rw [List.length_replicate]; exact g1
      | some m =>
        have hmk : m = l.reverse.map some ++ List.replicate k none := by rw [hm] at hk; exact hk
        have hml : l.length ≤ m.length := by rw [hmk]; simp
        dsimp only
        rw [if_pos ⟨by rw [h.size]; omega, by rw [h.size]; exact hml⟩]
        have ht : m.take s.size = l.reverse.map some := by
          rw [hmk, h.size, List.take_append_of_le_length (by simp)]
          exact List.take_of_length_le (by simp)
        have hlen : (m.take s.size ++ List.replicate (Req.got ⟨sz, e⟩ - s.size) none).length = Req.got ⟨sz, e⟩ := by
          rw [List.length_append, List.length_take, List.length_replicate, h.size]; omega
        refine ⟨_, rfl, ⟨⟨Req.got ⟨sz, e⟩ - s.size, ?_⟩, h.size, ?_⟩, ?_⟩
        · show _ ++ _ = _; rw [ht]
        · show List.length _ ≤ _; rw [hlen]; omega
        · show _ ≤ List.length _; rw [hlen]; exact g1
  · rw [if_neg (fun a => h1 a.1), if_pos (by omega)]

theorem stack_push {s : Stack V} {l : List V} (h : SRep s l) {sz : Nat} (hsz : 2 ≤ sz) (dbg : Bool) (v : V) (good : Bool) :
    if (dbg = false ∧ l.length < s.estor) ∨
        good = true ∧ (if dbg then l.length + 1 else l.length * 2 ||| 17) < 0x7FFE0000 / sz then
      ∃ s', s.push dbg sz v good = .ok s' ∧ SRep s' (v :: l)
    else s.push dbg sz v good = .throw := by
  have hle := h.le
  have hb := h.bound
  have put : ∀ s1 : Stack V, SRep s1 l → l.length < s1.estor →
      ∃ s', (match s1.mem with
        | none => Res.ub
        | some m =>
          match m[s1.size]? with
          | some none => .ok ⟨some (m.set s1.size (some v)), u32 (s1.size + 1)⟩
          | _ => .ub) = Res.ok s' ∧ SRep s' (v :: l) := by
    intro s1 h1 hroom
    obtain ⟨k, hk⟩ := h1.cells
    have hb1 := h1.bound
    cases hm : s1.mem with
    | none => unfold Stack.estor at hroom; rw [hm] at hroom; exact absurd hroom (Nat.not_lt_zero _)
    | some m =>
      have hmk : m = l.reverse.map some ++ List.replicate k none := by rw [hm] at hk; exact hk
      have hkpos : 0 < k := by
        unfold Stack.estor at hroom
        rw [hm, hmk] at hroom
        simp at hroom
        exact hroom
      have hget : m[s1.size]? = some none := by
        rw [hmk, h1.size, List.getElem?_append_right (by simp)]
        simp [hkpos]
      have hu : u32 (s1.size + 1) = l.length + 1 := by
        rw [h1.size]
        have : l.length ≤ s1.estor := h1.le
        exact Nat.mod_eq_of_lt (by omega)
      dsimp only
      rw [hget]
      refine ⟨_, rfl, ⟨⟨k - 1, ?_⟩, hu, ?_⟩⟩
      · show m.set s1.size (some v) = _
        obtain ⟨k', rfl⟩ : ∃ k', k = k' + 1 := ⟨k - 1, by omega⟩
        rw [hmk, h1.size, List.set_append_right _ _ (by simp)]
        simp [List.replicate_succ]
      · show (m.set _ _).length ≤ _
        rw [List.length_set]
        unfold Stack.estor at hb1
        rw [hm] at hb1
        exact hb1
  have hu1 : u32 (s.size + 1) = l.length + 1 := by rw [h.size]; exact Nat.mod_eq_of_lt (by omega)
  have hu2 : u32 (s.size * 2) = l.length * 2 := by rw [h.size]; exact Nat.mod_eq_of_lt (by omega)
  unfold Stack.push
  rw [hu1, hu2]
  cases dbg with
  | true =>
    simp only [if_true]
    have := stack_reallocate h hsz (show l.length ≤ l.length + 1 by omega) good
    split at this
    · rename_i hc
      rw [if_pos (.inr ⟨hc.2, hc.1⟩)]
      obtain ⟨s1, g1, g2, g3⟩ := this
      rw [g1]
      exact put s1 g2 (by omega)
    · rename_i hc
      rw [if_neg (by rintro (⟨h, _⟩ | h); cases h; exact hc ⟨h.2, h.1⟩), this]
      rfl
  | false =>
    simp only [Bool.false_eq_true, if_false, true_and]
    by_cases hr : s.size ≥ s.estor
    · rw [if_pos hr]
      have h2 : l.length * 2 ≤ l.length * 2 ||| 17 := Nat.left_le_or
      have h3 : 17 ≤ l.length * 2 ||| 17 := Nat.right_le_or
      have := stack_reallocate h hsz (show l.length ≤ l.length * 2 ||| 17 by omega) good
      split at this
      · rename_i hc
        rw [if_pos (.inr ⟨hc.2, hc.1⟩)]
        obtain ⟨s1, g1, g2, g3⟩ := this
        rw [g1]
        exact put s1 g2 (by omega)
      · rename_i hc
        rw [h.size] at hr
        rw [if_neg (by rintro (h | h); omega; exact hc ⟨h.2, h.1⟩), this]
        rfl
    · rw [if_neg hr]
      rw [h.size] at hr
      rw [if_pos (.inl (by omega))]
      exact put s h (by omega)

theorem stack_popLoop (n : Nat) : ∀ {s : Stack V} {l : List V}, SRep s l → n ≤ l.length →
    ∃ s', Stack.popLoop n s = .ok s' ∧ SRep s' (l.drop n) := by
  induction n with
  | zero => intro s l h _; exact ⟨s, rfl, h⟩
  | succ n ih =>
    intro s l h hn
    cases l with
    | nil => exact absurd hn (by simp)
    | cons v l =>
      obtain ⟨k, hk⟩ := h.cells
      have hb := h.bound
      cases hm : s.mem with
      | none => rw [hm] at hk; simp at hk
      | some m =>
        have hmk : m = l.reverse.map some ++ some v :: List.replicate k none := by
          rw [hm] at hk
          have : m = (v :: l).reverse.map some ++ List.replicate k none := hk
          rw [this]; simp
        have hsz : s.size - 1 = l.length := by rw [h.size]; rfl
        have hget : m[l.length]? = some (some v) := by
          rw [hmk, List.getElem?_append_right (by simp)]
          simp
        rw [Stack.popLoop, hm]
        dsimp only
        rw [hsz, hget]
        refine ih ⟨⟨k + 1, ?_⟩, rfl, ?_⟩ (by simpa using hn)
        · show m.set l.length none = _
          rw [hmk, List.set_append_right _ _ (by simp)]
          simp [List.replicate_succ]
        · show (m.set _ _).length ≤ _
          rw [List.length_set]
          unfold Stack.estor at hb
          rw [hm] at hb
          exact hb

theorem stack_at {s : Stack V} {l : List V} (h : SRep s l) {i : Nat} {v : V} (hv : l.reverse[i]? = some v) : s.at i = .ok v := by
  obtain ⟨k, hk⟩ := h.cells
  unfold Stack.at
  have hi : i < l.reverse.length := (List.getElem?_eq_some_iff.mp hv).1
  rw [hk, List.getElem?_append_left (by simpa using hi), List.getElem?_map, hv]
  rfl

theorem stack_top {s : Stack V} {l : List V} (h : SRep s l) {i : Nat} {v : V} (hv : l[i]? = some v) : s.top i = .ok v := by
  have hi : i < l.length := (List.getElem?_eq_some_iff.mp hv).1
  unfold Stack.top
  rw [if_pos (by rw [h.size]; exact hi)]
  apply stack_at h
  rw [h.size, List.getElem?_reverse (by omega), show l.length - 1 - (l.length - 1 - i) = i by omega]
  exact hv

theorem stack_bottom {s : Stack V} {l : List V} (h : SRep s l) {i : Nat} {v : V} (hv : l.reverse[i]? = some v) :
    s.bottom i = .ok v := by
  have hi : i < l.reverse.length := (List.getElem?_eq_some_iff.mp hv).1
  unfold Stack.bottom
  rw [if_pos (by rw [h.size]; simpa using hi)]
  exact stack_at h hv

theorem stack_setTop {s : Stack V} {l : List V} (h : SRep s l) {i : Nat} (hi : i < l.length) (v : V) :
    ∃ s', s.setTop i v = .ok s' ∧ SRep s' (l.set i v) := by
  unfold Stack.setTop
  rw [if_pos (by rw [h.size]; exact hi)]
  have hat : s.at (s.size - 1 - i) = .ok l[i] := by
    apply stack_at h
    rw [h.size, List.getElem?_reverse (by omega), show l.length - 1 - (l.length - 1 - i) = i by omega]
    simp [hi]
  rw [hat]
  obtain ⟨k, hk⟩ := h.cells
  have hb := h.bound
  refine ⟨_, rfl, ⟨⟨k, ?_⟩, by rw [List.length_set]; exact h.size, ?_⟩⟩
  · cases hm : s.mem with
    | none => rw [hm] at hk; have := congrArg List.length hk; simp at this; omega
    | some m =>
      rw [hm] at hk
      have hk' : m = l.reverse.map some ++ List.replicate k none := hk
      show m.set (s.size - 1 - i) (some v) = _
      rw [hk', h.size, List.set_append_left _ _ (by simp; omega)]
      congr 1
      apply List.ext_getElem?
      intro j
      rw [List.getElem?_set, List.getElem?_map, List.getElem?_map]
      by_cases hj : j < l.length
      · rw [List.getElem?_reverse hj, List.getElem?_reverse (by rw [List.length_set]; exact hj), List.length_set, List.getElem?_set]
        by_cases e : l.length - 1 - i = j
        · rw [if_pos e, if_pos (by rw [List.length_map, List.length_reverse]; omega), if_pos (by omega), if_pos hi]; rfl
        · rw [if_neg e, if_neg (by omega)]
      · rw [if_neg (by omega), List.getElem?_eq_none (by simp; omega), List.getElem?_eq_none (by simp; omega)]
  · show Stack.estor ⟨Option.map _ _, _⟩ ≤ _
    unfold Stack.estor at hb ⊢
    cases hm : s.mem with
    | none => simp
    | some m => rw [hm] at hb; simpa using hb

theorem stack_clear {s : Stack V} {l : List V} (h : SRep s l) : ∃ s', s.clear = .ok s' ∧ SRep s' [] := by
  unfold Stack.clear
  by_cases h0 : s.size ≠ 0
  · rw [if_pos h0, h.size]
    obtain ⟨s', g1, g2⟩ := stack_popLoop l.length h (Nat.le_refl _)
    exact ⟨s', g1, by rw [List.drop_length] at g2; exact g2⟩
  · rw [if_neg h0]
    have : l = [] := List.eq_nil_of_length_eq_zero (by rw [← h.size]; omega)
    exact ⟨s, rfl, this ▸ h⟩

theorem stack_destroy {s : Stack V} {l : List V} (h : SRep s l) : ∃ s', s.destroy = .ok s' ∧ SRep s' [] := by
  unfold Stack.destroy
  cases hm : s.mem with
  | none =>
    have : l = [] := by
      have := h.le
      unfold Stack.estor at this
      rw [hm] at this
      exact List.eq_nil_of_length_eq_zero (by simpa using this)
    exact ⟨s, rfl, this ▸ h⟩
  | some m =>
    dsimp only
    rw [h.size]
    obtain ⟨s', g1, g2⟩ := stack_popLoop l.length h (Nat.le_refl _)
    rw [List.drop_length] at g2
    rw [g1]
    dsimp only [Res.bind]
    obtain ⟨k, hk⟩ := g2.cells
    rw [if_pos]
    · exact ⟨_, rfl, ⟨⟨0, rfl⟩, g2.size, Nat.zero_le _⟩⟩
    · intro x hx
      rw [hk] at hx
      have := List.eq_of_mem_replicate hx
      rw [this]; rfl

theorem stack_apply {s : Stack V} {l : List V} (h : SRep s l) {sz : Nat} (hsz : 2 ≤ sz) (dbg : Bool) {o : StackOp V}
    (hl : Spec.legal l o) : ∃ s' b, s.apply dbg sz o = .ok (s', b) ∧ SRep s' (Spec.stack l (o, b)) := by
  cases o with
  | push v good =>
    have := stack_push h hsz dbg v good
    by_cases hc : (dbg = false ∧ l.length < s.estor) ∨
        good = true ∧ (if dbg then l.length + 1 else l.length * 2 ||| 17) < 0x7FFE0000 / sz
    · rw [if_pos hc] at this
      obtain ⟨s', g1, g2⟩ := this
      exact ⟨s', false, by simp [Stack.apply, g1], g2⟩
    · rw [if_neg hc] at this
      exact ⟨s, true, by simp [Stack.apply, this], h⟩
  | pop n =>
    obtain ⟨s', g1, g2⟩ := stack_popLoop n h hl
    refine ⟨s', false, ?_, g2⟩
    show (s.pop n).bind _ = _
    have hn : n ≤ l.length := hl
    unfold Stack.pop
    rw [if_pos (by rw [h.size]; exact hn), g1]
    rfl
  | clear =>
    obtain ⟨s', g1, g2⟩ := stack_clear h
    exact ⟨s', false, by simp [Stack.apply, g1, Res.bind], g2⟩
  | destroy =>
    obtain ⟨s', g1, g2⟩ := stack_destroy h
    exact ⟨s', false, by simp [Stack.apply, g1, Res.bind], g2⟩
  | setTop i v =>
    obtain ⟨s', g1, g2⟩ := stack_setTop h hl v
    exact ⟨s', false, by simp [Stack.apply, g1, Res.bind], g2⟩

theorem reach_rep {s : Stack V} {l : List V} {dbg : Bool} {sz : Nat} (hsz : 2 ≤ sz) (h : Spec.Reach dbg sz s l) : SRep s l := by
  induction h with
  | new => exact ⟨⟨0, rfl⟩, rfl, Nat.zero_le _⟩
  | step _ hl e ih =>
    obtain ⟨s', b, g1, g2⟩ := stack_apply ih hsz dbg hl
    rw [g1] at e
    cases e
    exact g2

end Asteria.Avm
