import Verif.Model.StrFind
import Verif.Spec.StrFind

/-! Lemmas about searching in `cow_string`. -/

namespace Asteria.StrFind

open Spec.StrFind

theorem rd_of {l : Bytes} {i : Nat} (h : i < l.length) : rd l i = .ok l[i] := by
  unfold rd; rw [List.getElem?_eq_getElem h]

theorem occurs_iff {t p : Bytes} {i : Nat} : Occurs t p i ↔ i + p.length ≤ t.length ∧ ∀ j, j < p.length → t[i + j]? = p[j]? := by
  constructor
  · rintro ⟨a, b, rfl, rfl⟩
    refine ⟨by simp, fun j hj => ?_⟩
    rw [List.getElem?_append_right (by omega), Nat.add_sub_cancel_left, List.getElem?_append_left hj]
  · rintro ⟨h1, h2⟩
    refine ⟨t.take i, t.drop (i + p.length), ?_, by simp; omega⟩
    suffices h : (t.drop i).take p.length = p by
      rw [← List.drop_drop]
      have e := List.take_append_drop p.length (t.drop i)
      rw [h] at e
      rw [e, List.take_append_drop]
    apply List.ext_getElem?
    intro j
    by_cases hj : j < p.length
    · rw [List.getElem?_take_of_lt hj, List.getElem?_drop, h2 j hj]
    · rw [List.getElem?_eq_none (by simp; omega), List.getElem?_eq_none (by omega)]

theorem charAt_iff {t : Bytes} {P : UInt8 → Prop} {i : Nat} : CharAt t P i ↔ ∃ h : i < t.length, P t[i] := by
  constructor
  · rintro ⟨a, c, b, rfl, rfl, hc⟩
    exact ⟨by simp, by simpa using hc⟩
  · rintro ⟨h, hp⟩
    exact ⟨t.take i, t[i], t.drop (i + 1), by rw [← List.drop_eq_getElem_cons h, List.take_append_drop], by simp; omega, hp⟩

/-! ### The table -/

theorem offsets_aux (m : Nat) (p : Bytes) : ∀ n, n < m → n ≤ p.length → ∀ h,
    let tbl := (List.range n).foldl (fun tbl k => fun h => if (p[k]?).map hash = some h then (k + 1) % m else tbl h) (fun _ => 0)
    tbl h ≤ n ∧ ∀ i, i < n → (p[i]?).map hash = some h → i + 1 ≤ tbl h := by
  intro n
  induction n with
  | zero => intro _ _ h; exact ⟨Nat.le_refl _, nofun⟩
  | succ n ih =>
    intro hm hn h
    have ⟨k1, k2⟩ := ih (by omega) (by omega) h
    dsimp only at k1 k2 ⊢
    rw [List.range_succ, List.foldl_append]
    simp only [List.foldl_cons, List.foldl_nil]
    by_cases he : (p[n]?).map hash = some h
    · rw [if_pos he, Nat.mod_eq_of_lt (by omega)]
      exact ⟨Nat.le_refl _, fun i hi _ => by omega⟩
    · rw [if_neg he]
      refine ⟨by omega, fun i hi hh => ?_⟩
      by_cases hin : i = n
      · subst hin; exact absurd hh he
      · exact k2 i (by omega) hh

theorem offsets_spec {m : Nat} {p : Bytes} (hm : p.length ≤ m) (hp : 0 < p.length) (h : Nat) :
    offsets m p h < p.length ∧ ∀ i, i + 1 < p.length → (p[i]?).map hash = some h → i + 1 ≤ offsets m p h := by
  have ⟨k1, k2⟩ := offsets_aux m p (p.length - 1) (by omega) (by omega) h
  unfold offsets
  exact ⟨by omega, fun i hi => k2 i (by omega)⟩

/-! ### The search -/

theorem compareAt_spec (t p : Bytes) (tcur : Nat) (ht : tcur + p.length ≤ t.length) : ∀ n i, n = p.length - i → i < p.length →
    (∀ j, j < i → t[tcur + j]? = p[j]?) → ∃ ok, compareAt t p tcur i = .ok ok ∧ (ok = true ↔ Occurs t p tcur) := by
  intro n
  induction n with
  | zero => intro i hn hi; omega
  | succ n ih =>
    intro i hn hi hj
    rw [compareAt, rd_of (show tcur + i < t.length by omega), rd_of hi, Res.ok_bind, Res.ok_bind]
    have h1 : t[tcur + i]? = some t[tcur + i] := List.getElem?_eq_getElem (by omega)
    have h2 : p[i]? = some p[i] := List.getElem?_eq_getElem hi
    by_cases he : t[tcur + i] = p[i]
    · rw [if_pos he]
      have hj' : ∀ j, j < i + 1 → t[tcur + j]? = p[j]? := by
        intro j hj1
        by_cases hji : j = i
        · subst hji; rw [h1, h2, he]
        · exact hj j (by omega)
      by_cases hl : i + 1 < p.length
      · rw [if_pos hl]
        exact ih (i + 1) (by omega) hl hj'
      · rw [if_neg hl]
        exact ⟨true, rfl, ⟨fun _ => occurs_iff.2 ⟨ht, fun j hj1 => hj' j (by omega)⟩, fun _ => rfl⟩⟩
    · rw [if_neg he]
      refine ⟨false, rfl, ⟨nofun, fun ho => ?_⟩⟩
      have := (occurs_iff.1 ho).2 i hi
      rw [h1, h2] at this
      exact absurd (Option.some.inj this) he

theorem search_spec {m : Nat} {t p : Bytes} (hm : p.length ≤ m) (hp : 0 < p.length) : ∀ n tcur, n = t.length - tcur →
    tcur + p.length ≤ t.length → ∃ r, search (offsets m p) t p tcur = .ok r ∧
      match r with
      | some i => tcur ≤ i ∧ Occurs t p i ∧ ∀ j, tcur ≤ j → Occurs t p j → i ≤ j
      | none => ∀ j, tcur ≤ j → ¬ Occurs t p j := by
  intro n
  induction n using Nat.strongRecOn with
  | _ n ih =>
    intro tcur hn ht
    rw [search]
    obtain ⟨ok, e, hok⟩ := compareAt_spec t p tcur ht _ 0 rfl hp nofun
    rw [e, Res.ok_bind]
    cases ok with
    | true =>
      rw [if_pos rfl]
      exact ⟨_, rfl, Nat.le_refl _, hok.1 rfl, fun j h _ => h⟩
    | false =>
      rw [if_neg (by simp), rd_of (show tcur + p.length - 1 < t.length by omega), Res.ok_bind]
      have hno : ¬ Occurs t p tcur := fun h => by have := hok.2 h; cases this
      obtain ⟨k1, k2⟩ := offsets_spec hm hp (hash t[tcur + p.length - 1])
      rw [dif_pos k1]
      generalize offsets m p (hash t[tcur + p.length - 1]) = off at k1 k2
      -- nothing in between
      have hgap : ∀ j, tcur ≤ j → Occurs t p j → tcur + p.length - off ≤ j := by
        intro j hj ho
        have hne : j ≠ tcur := by rintro rfl; exact hno ho
        by_cases hlt : j < tcur + p.length - off
        · exfalso
          obtain ⟨o1, o2⟩ := occurs_iff.1 ho
          by_cases hfar : tcur + p.length ≤ j
          · omega
          have h3 := o2 (tcur + p.length - 1 - j) (by omega)
          rw [show j + (tcur + p.length - 1 - j) = tcur + p.length - 1 by omega, List.getElem?_eq_getElem (by omega)] at h3
          have := k2 (tcur + p.length - 1 - j) (by omega) (by rw [← h3]; rfl)
          omega
        · omega
      by_cases hc : tcur + p.length - off + p.length ≤ t.length
      · rw [if_pos hc]
        obtain ⟨r, e2, hr⟩ := ih (t.length - (tcur + p.length - off)) (by omega) _ rfl hc
        refine ⟨r, e2, ?_⟩
        cases r with
        | none => exact fun j hj ho => hr j (hgap j hj ho) ho
        | some i =>
          obtain ⟨r1, r2, r3⟩ := hr
          exact ⟨by omega, r2, fun j hj ho => r3 j (hgap j hj ho) ho⟩
      · rw [if_neg hc]
        refine ⟨none, rfl, fun j hj ho => ?_⟩
        have h1 := hgap j hj ho
        have h2 := (occurs_iff.1 ho).1
        omega

theorem bmh_spec {t p : Bytes} (hw : p.length < 2 ^ 64) (hp : 0 < p.length) (ht : p.length ≤ t.length) :
    ∃ r, bmh (width p.length) t p = .ok r ∧
      match r with
      | some i => Occurs t p i ∧ ∀ j, Occurs t p j → i ≤ j
      | none => ∀ j, ¬ Occurs t p j := by
  have hm : p.length ≤ width p.length := by
    unfold width
    split <;> omega
  unfold bmh
  rw [if_neg (by omega)]
  obtain ⟨r, e, hr⟩ := search_spec (t := t) hm hp _ 0 rfl (by omega)
  refine ⟨r, e, ?_⟩
  cases r with
  | none => exact fun j => hr j (Nat.zero_le _)
  | some i => exact ⟨hr.2.1, fun j => hr.2.2 j (Nat.zero_le _)⟩

theorem occurs_drop {t p : Bytes} {k i : Nat} (hk : k ≤ t.length) : Occurs (t.drop k) p i ↔ Occurs t p (k + i) := by
  rw [occurs_iff, occurs_iff]
  simp only [List.length_drop, List.getElem?_drop]
  constructor
  · rintro ⟨h1, h2⟩; exact ⟨by omega, fun j hj => by rw [Nat.add_assoc]; exact h2 j hj⟩
  · rintro ⟨h1, h2⟩; exact ⟨by omega, fun j hj => by rw [← Nat.add_assoc]; exact h2 j hj⟩

theorem occurs_reverse {t p : Bytes} {i j : Nat} (h : i + p.length + j = t.length) : Occurs t.reverse p.reverse j ↔ Occurs t p i := by
  constructor
  · rintro ⟨a, b, e, ha⟩
    refine ⟨b.reverse, a.reverse, ?_, ?_⟩
    · have := congrArg List.reverse e
      simpa using this
    · have := congrArg List.length e
      simp at this ⊢
      omega
  · rintro ⟨a, b, e, ha⟩
    refine ⟨b.reverse, a.reverse, ?_, ?_⟩
    · rw [e]; simp
    · have := congrArg List.length e
      simp at this ⊢
      omega

theorem occurs_take {t p : Bytes} {i n : Nat} (hn : n ≤ t.length) : Occurs (t.take n) p i ↔ Occurs t p i ∧ i + p.length ≤ n := by
  rw [occurs_iff, occurs_iff]
  simp only [List.length_take, Nat.min_eq_left hn]
  constructor
  · rintro ⟨h1, h2⟩
    exact ⟨⟨by omega, fun j hj => by rw [← h2 j hj, List.getElem?_take_of_lt (by omega)]⟩, h1⟩
  · rintro ⟨⟨h1, h2⟩, h3⟩
    exact ⟨h3, fun j hj => by rw [← h2 j hj, List.getElem?_take_of_lt (by omega)]⟩

/-! ### Characters -/

theorem bitmap_spec (s : Bytes) (c : UInt8) : bitmap s c = true ↔ c ∈ s := by
  unfold bitmap
  suffices h : ∀ (s : Bytes) (m : UInt8 → Bool), (s.foldl (fun m b => fun c => if c = b then true else m c) m) c = true ↔ m c = true ∨ c ∈ s by
    exact (h s fun _ => false).trans (by simp)
  intro s
  induction s with
  | nil => intro m; simp
  | cons b s ih =>
    intro m
    rw [List.foldl_cons, ih]
    by_cases h : c = b
    · simp [h]
    · simp [h]

theorem upFrom_spec (ok : UInt8 → Bool) (P : UInt8 → Prop) (hP : ∀ c, ok c = true ↔ P c) (t : Bytes) : ∀ n cur, n = t.length - cur →
    cur < t.length → ∃ r, upFrom ok t cur = .ok r ∧ First (CharAt t P) cur r := by
  intro n
  induction n with
  | zero => intro cur h1 h2; omega
  | succ n ih =>
    intro cur h1 h2
    rw [upFrom, rd_of h2, Res.ok_bind]
    by_cases hc : ok t[cur] = true
    · rw [if_pos hc]
      exact ⟨cur, rfl, .inl ⟨Nat.le_refl _, charAt_iff.2 ⟨h2, (hP _).1 hc⟩, fun j hj _ => hj⟩⟩
    · rw [if_neg hc]
      have hne : ∀ j, cur ≤ j → CharAt t P j → cur + 1 ≤ j := by
        intro j hj ho
        by_cases he : j = cur
        · subst he
          obtain ⟨_, h⟩ := charAt_iff.1 ho
          exact absurd ((hP _).2 h) hc
        · omega
      by_cases hl : cur + 1 < t.length
      · rw [if_pos hl]
        obtain ⟨r, e, hr⟩ := ih (cur + 1) (by omega) hl
        refine ⟨r, e, ?_⟩
        rcases hr with ⟨k1, k2, k3⟩ | ⟨k1, k2⟩
        · exact .inl ⟨by omega, k2, fun j hj ho => k3 j (hne j hj ho) ho⟩
        · exact .inr ⟨k1, fun j hj ho => k2 j (hne j hj ho) ho⟩
      · rw [if_neg hl]
        refine ⟨_, rfl, .inr ⟨rfl, fun j hj ho => ?_⟩⟩
        have h1 := hne j hj ho
        obtain ⟨h2, _⟩ := charAt_iff.1 ho
        omega

theorem downFrom_spec (ok : UInt8 → Bool) (P : UInt8 → Prop) (hP : ∀ c, ok c = true ↔ P c) (t : Bytes) : ∀ cur, cur < t.length →
    ∃ r, downFrom ok t cur = .ok r ∧ Last (CharAt t P) cur r := by
  intro cur
  induction cur with
  | zero =>
    intro h
    unfold downFrom
    rw [rd_of h]
    refine ⟨_, rfl, ?_⟩
    by_cases hc : ok t[0] = true
    · dsimp only
      rw [if_pos hc]
      exact .inl ⟨Nat.le_refl _, charAt_iff.2 ⟨h, (hP _).1 hc⟩, fun j hj _ => hj⟩
    · dsimp only
      rw [if_neg hc]
      refine .inr ⟨rfl, fun j hj ho => ?_⟩
      have : j = 0 := by omega
      subst this
      obtain ⟨_, h⟩ := charAt_iff.1 ho
      exact hc ((hP _).2 h)
  | succ cur ih =>
    intro h
    unfold downFrom
    rw [rd_of h, Res.ok_bind]
    by_cases hc : ok t[cur + 1] = true
    · rw [if_pos hc]
      exact ⟨_, rfl, .inl ⟨Nat.le_refl _, charAt_iff.2 ⟨h, (hP _).1 hc⟩, fun j hj _ => hj⟩⟩
    · rw [if_neg hc]
      have hne : ∀ j, j ≤ cur + 1 → CharAt t P j → j ≤ cur := by
        intro j hj ho
        by_cases he : j = cur + 1
        · subst he
          obtain ⟨_, h⟩ := charAt_iff.1 ho
          exact absurd ((hP _).2 h) hc
        · omega
      obtain ⟨r, e, hr⟩ := ih (by omega)
      refine ⟨r, e, ?_⟩
      rcases hr with ⟨k1, k2, k3⟩ | ⟨k1, k2⟩
      · exact .inl ⟨by omega, k2, fun j hj ho => k3 j (hne j hj ho) ho⟩
      · exact .inr ⟨k1, fun j hj ho => k2 j (hne j hj ho) ho⟩

theorem not_bitmap_spec (s : Bytes) (c : UInt8) : (!bitmap s c) = true ↔ c ∉ s := by
  rw [← bitmap_spec s c]
  cases bitmap s c <;> simp

theorem first_none {P : UInt8 → Prop} {t : Bytes} {start : Nat} (h : t.length ≤ start) : First (CharAt t P) start npos := by
  refine .inr ⟨rfl, fun j hj ho => ?_⟩
  obtain ⟨h1, _⟩ := charAt_iff.1 ho
  omega

theorem last_none {P : UInt8 → Prop} {t : Bytes} {stop : Nat} (h : t.length = 0) : Last (CharAt t P) stop npos := by
  refine .inr ⟨rfl, fun j hj ho => ?_⟩
  obtain ⟨h1, _⟩ := charAt_iff.1 ho
  omega

/-- A search from the end, with a limit. -/
theorem last_of_min {P : UInt8 → Prop} {t : Bytes} {stop r : Nat} (h : Last (CharAt t P) (min stop (t.length - 1)) r) :
    Last (CharAt t P) stop r := by
  have hlt : ∀ j, CharAt t P j → j < t.length := fun j ho => (charAt_iff.1 ho).1
  rcases h with ⟨k1, k2, k3⟩ | ⟨k1, k2⟩
  · exact .inl ⟨by omega, k2, fun j hj ho => k3 j (by have := hlt j ho; omega) ho⟩
  · exact .inr ⟨k1, fun j hj ho => k2 j (by have := hlt j ho; omega) ho⟩

end Asteria.StrFind
