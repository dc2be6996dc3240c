import Verif.Model.StrSearch

/-!
# Lemmas about the Boyer-Moore-Horspool searcher
-/

namespace Asteria.StrSearch
open Asteria.Slice

/-! ## The word test -/

theorem zero_byte (n : Nat)
    (h : ∃ i, i < 8 ∧ n / 256 ^ i % 256 = 0) :
    ∃ i, i < 8 ∧ ((n + 2 ^ 64 - bmask) % 2 ^ 64).testBit (8 * i + 7) = true ∧
      n.testBit (8 * i + 7) = false := by
  simp only [Nat.testBit_eq_decide_div_mod_eq, bmask]
  obtain ⟨i, hi, h⟩ := h
  by_cases h0 : n % 256 = 0
  · exact ⟨0, by omega, by simp; omega, by simp; omega⟩
  by_cases h1 : n / 256 % 256 = 0
  · exact ⟨1, by omega, by simp; omega, by simp; omega⟩
  by_cases h2 : n / 65536 % 256 = 0
  · exact ⟨2, by omega, by simp; omega, by simp; omega⟩
  by_cases h3 : n / 16777216 % 256 = 0
  · exact ⟨3, by omega, by simp; omega, by simp; omega⟩
  by_cases h4 : n / 4294967296 % 256 = 0
  · exact ⟨4, by omega, by simp; omega, by simp; omega⟩
  by_cases h5 : n / 1099511627776 % 256 = 0
  · exact ⟨5, by omega, by simp; omega, by simp; omega⟩
  by_cases h6 : n / 281474976710656 % 256 = 0
  · exact ⟨6, by omega, by simp; omega, by simp; omega⟩
  by_cases h7 : n / 72057594037927936 % 256 = 0
  · exact ⟨7, by omega, by simp; omega, by simp; omega⟩
  exfalso
  have : i = 0 ∨ i = 1 ∨ i = 2 ∨ i = 3 ∨ i = 4 ∨ i = 5 ∨ i = 6 ∨ i = 7 := by omega
  rcases this with rfl | rfl | rfl | rfl | rfl | rfl | rfl | rfl <;> simp at h <;> omega

theorem bmask7_bit : ∀ i, i < 8 → (bmask <<< 7).testBit (8 * i + 7) = true := by decide

theorem leWord_lt (bs : Bytes) : leWord bs < 256 ^ bs.length := by
  induction bs with
  | nil => simp [leWord]
  | cons b bs ih =>
    simp only [leWord, List.length_cons, Nat.pow_succ]
    have := UInt8.toNat_lt b
    omega

theorem leWord_byte (bs : Bytes) (i : Nat) (h : i < bs.length) :
    leWord bs / 256 ^ i % 256 = (bs[i]).toNat := by
  induction bs generalizing i with
  | nil => simp at h
  | cons b bs ih =>
    have hb := UInt8.toNat_lt b
    cases i with
    | zero => simp [leWord]
    | succ i =>
      simp only [List.length_cons] at h
      rw [Nat.pow_succ, Nat.mul_comm, ← Nat.div_div_eq_div_mul, leWord]
      rw [show (b.toNat + 256 * leWord bs) / 256 = leWord bs by omega]
      simpa using ih i (by omega)

theorem bcomp_byte (c : UInt8) (i : Nat) (h : i < 8) :
    (bmask * c.toNat % 2 ^ 64) / 256 ^ i % 256 = c.toNat := by
  have hc := UInt8.toNat_lt c
  have e : bmask * c.toNat % 2 ^ 64 = leWord (List.replicate 8 c) := by
    simp only [bmask, List.replicate, leWord]; omega
  rw [e, leWord_byte _ _ (by simpa using h), List.getElem_replicate]

theorem wordHas_of_mem (bs : Bytes) (h8 : bs.length = 8) (c : UInt8) (hc : c ∈ bs) :
    wordHas (leWord bs) c = true := by
  obtain ⟨i, hi, hic⟩ := List.getElem_of_mem hc
  have hz : (leWord bs ^^^ (bmask * c.toNat % 2 ^ 64)) / 256 ^ i % 256 = 0 := by
    have e : (256 : Nat) ^ i = 2 ^ (8 * i) := by rw [Nat.pow_mul]
    have e8 : (256 : Nat) = 2 ^ 8 := rfl
    have h1 := leWord_byte bs i hi
    have h2 := bcomp_byte c i (by omega)
    rw [hic] at h1
    rw [e] at h1 h2 ⊢
    rw [← Nat.shiftRight_eq_div_pow] at h1 h2 ⊢
    rw [Nat.shiftRight_xor_distrib]
    rw [e8, Nat.xor_mod_two_pow, ← e8, h1, h2, Nat.xor_self]
  obtain ⟨k, hk, h1, h2⟩ := zero_byte _ ⟨i, by omega, hz⟩
  unfold wordHas
  simp only [decide_eq_true_eq]
  intro hcon
  have := congrArg (fun n => Nat.testBit n (8 * k + 7)) hcon
  simp only [Nat.testBit_and, h1, Nat.testBit_xor, bmask7_bit k hk, Nat.zero_testBit] at this h2
  rw [h2] at this
  simp at this

/-! ## The table -/

theorem bcrTable_aux (p : Bytes) (n : Nat) (hn : n ≤ p.length - 1) (hp : 0 < p.length) (c : UInt8) :
    let tbl := (List.range n).foldl
      (fun (tbl : UInt8 → Int) (k : Nat) => fun c => if p[k]? = some c then (p.length : Int) - 1 - k else tbl c)
      (fun _ => (p.length : Int))
    1 ≤ tbl c ∧ tbl c ≤ p.length ∧
      ∀ m : Nat, m < n → (p.length : Int) - 1 - m < tbl c → p[m]? ≠ some c := by
  induction n with
  | zero => simp; omega
  | succ n ih =>
    have ih := ih (by omega)
    simp only [List.range_succ, List.foldl_append, List.foldl_cons, List.foldl_nil] at ih ⊢
    generalize (List.range n).foldl _ _ = tbl at ih
    obtain ⟨h1, h2, h3⟩ := ih
    split
    · refine ⟨by omega, by omega, fun m hm hlt => by omega⟩
    · next hne =>
      refine ⟨h1, h2, fun m hm hlt => ?_⟩
      rcases Nat.lt_or_ge m n with h | h
      · exact h3 m h hlt
      · have : m = n := by omega
        rw [this]; exact hne

theorem bcrTable_spec (p : Bytes) (hp : 0 < p.length) (c : UInt8) :
    1 ≤ bcrTable p c ∧ bcrTable p c ≤ p.length ∧
      ∀ m : Nat, m < p.length - 1 → (p.length : Int) - 1 - m < bcrTable p c → p[m]? ≠ some c :=
  bcrTable_aux p _ (Nat.le_refl _) hp c

/-! ## The search -/

/-- The pattern occurs at offset `i`. -/
def At (t p : Bytes) (i : Nat) : Prop := ∀ k, k < p.length → t[i + k]? = p[k]?

/-- The offset `off` can be skipped safely. -/
def Safe (t p : Bytes) (tcur : Nat) (off : Int) : Prop :=
  1 ≤ off ∧ ∀ d : Nat, 1 ≤ d → (d : Int) < off → ¬ At t p (tcur + d)

theorem safe_char (t p : Bytes) (hp : 0 < p.length) (tcur j : Nat) (hj : j < p.length) (c : UInt8)
    (hc : t[tcur + j]? = some c) (d : Nat) (hd : 1 ≤ d)
    (hlt : (d : Int) < bcrTable p c - ((p.length : Int) - 1 - j)) : ¬ At t p (tcur + d) := by
  obtain ⟨-, h2, h3⟩ := bcrTable_spec p hp c
  intro hat
  have hdj : d ≤ j := by omega
  have := hat (j - d) (by omega)
  rw [show tcur + d + (j - d) = tcur + j by omega, hc] at this
  exact h3 (j - d) (by omega) (by omega) this.symm

theorem compareAt_spec (t p : Bytes) (hp : 0 < p.length) (tcur : Nat) (ht : tcur + p.length ≤ t.length)
    (tml : Nat) (off : Int) (html : tml < p.length) (hs : Safe t p tcur off)
    (hsuf : ∀ k, tml < k → k < p.length → t[tcur + k]? = p[k]?) :
    (compareAt t p (bcrTable p) tcur tml off = .ok none ∧ At t p tcur) ∨
    ∃ off', compareAt t p (bcrTable p) tcur tml off = .ok (some off') ∧ Safe t p tcur off' ∧
      ¬ At t p tcur := by
  induction tml generalizing off with
  | zero =>
    unfold compareAt rd
    rw [List.getElem?_eq_getElem (by omega), List.getElem?_eq_getElem html]
    simp only [Res.bind]
    split
    · next h =>
      refine Or.inl ⟨rfl, fun k hk => ?_⟩
      rcases Nat.eq_zero_or_pos k with rfl | hk0
      · rw [List.getElem?_eq_getElem (by omega), List.getElem?_eq_getElem html, h]
      · exact hsuf k hk0 hk
    · next h =>
      refine Or.inr ⟨off, rfl, hs, fun hat => h ?_⟩
      have := hat 0 html
      rw [List.getElem?_eq_getElem (by omega), List.getElem?_eq_getElem html] at this
      exact Option.some.inj this
  | succ tml ih =>
    unfold compareAt rd
    rw [List.getElem?_eq_getElem (by omega), List.getElem?_eq_getElem html]
    simp only [Res.bind]
    split
    · next h =>
      rw [List.getElem?_eq_getElem (i := tcur + tml) (by omega)]
      simp only
      apply ih _ (by omega)
      · refine ⟨by have := hs.1; omega, fun d hd hlt => ?_⟩
        by_cases hlt' : (d : Int) < off
        · exact hs.2 d hd hlt'
        · exact safe_char t p hp tcur tml (by omega) _ (List.getElem?_eq_getElem (by omega)) d hd
            (by omega)
      · intro k hk hk'
        rcases Nat.lt_or_ge (tml + 1) k with h' | h'
        · exact hsuf k h' hk'
        · have : k = tml + 1 := by omega
          rw [this, List.getElem?_eq_getElem (by omega), List.getElem?_eq_getElem html, h]
    · next h =>
      refine Or.inr ⟨off, rfl, hs, fun hat => h ?_⟩
      have := hat (tml + 1) html
      rw [List.getElem?_eq_getElem (by omega), List.getElem?_eq_getElem html] at this
      exact Option.some.inj this

/-- What a search from `tcur` on must return. -/
def Found (t p : Bytes) (tcur : Nat) : Option Nat → Prop
  | some i => tcur ≤ i ∧ i + p.length ≤ t.length ∧ At t p i ∧ ∀ j, tcur ≤ j → j < i → ¬ At t p j
  | none => ∀ j, tcur ≤ j → ¬ At t p j

theorem At.bound {t p : Bytes} {i : Nat} (hp : 0 < p.length) (h : At t p i) : i + p.length ≤ t.length := by
  have := h (p.length - 1) (by omega)
  rw [List.getElem?_eq_getElem (l := p) (by omega)] at this
  have := (List.getElem?_eq_some_iff.1 this).1
  omega

theorem bmhLoop_spec (t p : Bytes) (hp : 0 < p.length) (hl : p.length ≤ t.length) (tcur : Nat) :
    ∃ r, bmhLoop t p (bcrTable p) (t.length - p.length) tcur = .ok r ∧ Found t p tcur r := by
  induction hn : t.length + 1 - tcur using Nat.strongRecOn generalizing tcur with
  | _ n ih =>
    unfold bmhLoop
    split
    · next hle =>
      unfold rd
      rw [List.getElem?_eq_getElem (by omega)]
      simp only [Res.bind]
      have hsafe : Safe t p tcur (bcrTable p (t[tcur + (p.length - 1)]'(by omega))) := by
        refine ⟨(bcrTable_spec p hp _).1, fun d hd hlt => ?_⟩
        exact safe_char t p hp tcur (p.length - 1) (by omega) _ (List.getElem?_eq_getElem (by omega))
          d hd (by omega)
      rcases compareAt_spec t p hp tcur (by omega) (p.length - 1) _ (by omega) hsafe
          (fun k h1 h2 => by omega) with ⟨h1, h2⟩ | ⟨off, h1, h2, h3⟩
      · rw [h1]
        exact ⟨some tcur, rfl, Nat.le_refl _, by omega, h2, fun j h1 h2 => by omega⟩
      · rw [h1]
        have h21 := h2.1
        simp only
        rw [if_pos (by omega)]
        obtain ⟨r, hr, hf⟩ := ih _ (by omega) (tcur + off.toNat) rfl
        refine ⟨r, hr, ?_⟩
        have hskip : ∀ j, tcur ≤ j → j < tcur + off.toNat → ¬ At t p j := by
          intro j hj1 hj2
          rcases Nat.eq_or_lt_of_le hj1 with rfl | hlt
          · exact h3
          · have := h2.2 (j - tcur) (by omega) (by omega)
            rwa [show tcur + (j - tcur) = j by omega] at this
        cases r with
        | none =>
            intro j hj
            rcases Nat.lt_or_ge j (tcur + off.toNat) with h | h
            · exact hskip j hj h
            · exact hf j h
        | some i =>
          obtain ⟨h1, h2, h3, h4⟩ := hf
          exact ⟨by omega, h2, h3, fun j hj hji => by
            rcases Nat.lt_or_ge j (tcur + off.toNat) with h | h
            · exact hskip j hj h
            · exact h4 j h hji⟩
    · next hgt =>
      refine ⟨none, rfl, fun j hj hat => ?_⟩
      have := hat.bound hp
      omega

theorem wordSkip_spec (rev : Bool) (t p : Bytes) (c : UInt8) (hc : p[0]? = some c)
    (fin tcur : Nat) (hfin : fin ≤ t.length) :
    ∃ r, wordSkip rev t c fin tcur = .ok r ∧ tcur ≤ r ∧ ∀ j, tcur ≤ j → j < r → ¬ At t p j := by
  induction hn : fin + 8 - tcur using Nat.strongRecOn generalizing tcur with
  | _ n ih =>
    unfold wordSkip
    split
    · next hle =>
      unfold loadWord
      have hlen : ((t.drop tcur).take 8).length = 8 := by simp; omega
      simp only [hlen, if_true, Res.bind]
      generalize hbs : (if rev = true then _ else _ : Bytes) = bs
      have hbs8 : bs.length = 8 := by rw [← hbs]; split <;> simpa using hlen
      have hbsm : ∀ c, c ∈ (t.drop tcur).take 8 → c ∈ bs := by
        intro c hc; rw [← hbs]; split
        · exact List.mem_reverse.2 hc
        · exact hc
      split
      · exact ⟨tcur, rfl, Nat.le_refl _, fun j h1 h2 => by omega⟩
      · next hno =>
        obtain ⟨r, hr, hle', hf⟩ := ih _ (by omega) (tcur + 8) rfl
        refine ⟨r, hr, by omega, fun j h1 h2 => ?_⟩
        rcases Nat.lt_or_ge j (tcur + 8) with h | h
        · intro hat
          have hp0 : 0 < p.length := by
            rcases Nat.eq_zero_or_pos p.length with h | h
            · rw [List.length_eq_zero_iff.1 h] at hc; simp at hc
            · exact h
          have h0 := hat 0 hp0
          rw [hc, Nat.add_zero] at h0
          have hmem : c ∈ (t.drop tcur).take 8 := by
            apply List.mem_of_getElem? (i := j - tcur)
            rw [List.getElem?_take_of_lt (by omega), List.getElem?_drop,
              show tcur + (j - tcur) = j by omega, h0]
          exact hno (wordHas_of_mem bs hbs8 c (hbsm c hmem))
        · exact hf j h h2
    · exact ⟨tcur, rfl, Nat.le_refl _, fun j h1 h2 => by omega⟩

theorem bmhSearch_spec (rev : Bool) (t p : Bytes) (hp : 0 < p.length) :
    ∃ r, bmhSearch rev t p = .ok r ∧ Found t p 0 r := by
  unfold bmhSearch
  rw [if_neg (by omega)]
  split
  · next h => exact ⟨none, rfl, fun j _ hat => by have := hat.bound hp; omega⟩
  · next h =>
    have hc : p[0]? = some p[0] := List.getElem?_eq_getElem hp
    unfold rd
    rw [hc]
    simp only [Res.bind]
    obtain ⟨r, hr, -, hf⟩ := wordSkip_spec rev t p p[0] hc (t.length - p.length) 0 (by omega)
    rw [hr]
    simp only
    obtain ⟨q, hq, hf'⟩ := bmhLoop_spec t p hp (by omega) r
    refine ⟨q, hq, ?_⟩
    cases q with
    | none =>
        intro j hj
        rcases Nat.lt_or_ge j r with h | h
        · exact hf j hj h
        · exact hf' j h
    | some i =>
      obtain ⟨h1, h2, h3, h4⟩ := hf'
      exact ⟨by omega, h2, h3, fun j hj hji => by
        rcases Nat.lt_or_ge j r with h | h
        · exact hf j hj h
        · exact h4 j h hji⟩

theorem at_iff (t p : Bytes) (i : Nat) : At t p i ↔ p <+: t.drop i := by
  rw [List.prefix_iff_eq_take]
  constructor
  · intro h
    apply List.ext_getElem?
    intro k
    rw [List.getElem?_take]
    split
    · next hk => rw [List.getElem?_drop, h k hk]
    · next hk => exact List.getElem?_eq_none (by omega)
  · intro h k hk
    have := congrArg (·[k]?) h
    simp only [List.getElem?_take, hk, if_true, List.getElem?_drop] at this
    exact this.symm

theorem at_reverse (t p : Bytes) (i : Nat) (h : i + p.length ≤ t.length) :
    At t.reverse p.reverse i ↔ At t p (t.length - i - p.length) := by
  have key : ∀ (t p : Bytes) (i : Nat), i + p.length ≤ t.length →
      At t p (t.length - i - p.length) → At t.reverse p.reverse i := by
    intro t p i h hat k hk
    rw [List.length_reverse] at hk
    rw [List.getElem?_reverse (by omega), List.getElem?_reverse hk]
    have := hat (p.length - 1 - k) (by omega)
    rw [← this]
    congr 1; omega
  constructor
  · intro hat
    have := key t.reverse p.reverse (t.length - i - p.length) (by simp; omega)
      (by simp only [List.length_reverse]
          rwa [show t.length - (t.length - i - p.length) - p.length = i by omega])
    simpa using this
  · exact key t p i h

end Asteria.StrSearch
