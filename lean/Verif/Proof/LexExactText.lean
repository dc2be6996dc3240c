import Verif.Proof.LexExactInt
import Verif.Proof.LexerSpells

/-!
# Numeric literals: how far they extend, and what they are
-/

namespace Asteria.Lexer

open Spec (IsPrefix IsSign Parts DigitText FracText ExpoText Numeral Kept Meaning Denotes isExpo number InRange Run tick alpha digitOr
  IsBased Radix Point Tail Extent Unary Token Saturates)
open NumText (NumGet castI parseD)

variable {R : Type} {castD : NumGet → Option R}

theorem filter_tick (u : Bytes) : u.filter (· ≠ 96) = u.filter fun c => !tick c := by
  congr 1
  funext c
  simp [tick]

theorem run_collect {q : UInt8 → Bool} {mask : UInt8} (hq : ∀ c, q c = (tick c || isCmask mask c)) {w rest : Bytes} (h : Run q w rest) :
    collect mask (w ++ rest) = (w.filter fun c => !tick c, rest) := by
  rw [collect_append mask w rest, filter_tick]
  · intro c hc
    have := h.all c hc
    rw [hq] at this
    simpa [tick] using this
  · intro c t e
    have := h.stop c t e
    rw [hq] at this
    simpa [tick] using this

theorem digitOr_mask (hex : Bool) (c : UInt8) : digitOr hex c = (tick c || isCmask (if hex then 8 else 4) c) := by
  unfold digitOr
  cases hex
  · rw [if_neg (by simp), if_neg (by simp), cmask_digit]
  · rw [if_pos rfl, if_pos rfl, cmask_xdigit]

theorem letters_mask : ∀ c, (tick c || Spec.digit c || alpha c) = (tick c || isCmask 6 c) := forall_byte (by decide +kernel)

theorem fraction_point {hex : Bool} {f rest : Bytes} (h : Point hex f rest) :
    fraction (if hex then 8 else 4) (f ++ rest) = (f.filter fun c => !tick c, decide (f ≠ []), rest) := by
  cases h with
  | none h =>
    cases rest with
    | nil => rfl
    | cons c t =>
      have hc : c ≠ 46 := by rintro rfl; exact h ⟨t, rfl⟩
      rw [List.nil_append]
      unfold fraction
      split
      · rename_i e; cases e; exact absurd rfl hc
      · simp
  | some h =>
    rw [List.cons_append, show ∀ m s, fraction m (46 :: s) = (46 :: (collect m s).1, true, (collect m s).2) from fun _ _ => rfl,
      run_collect (digitOr_mask hex) h]
    have : (!tick 46) = true := by decide
    simp [this]

theorem exponent_tail {hex : Bool} {e rest : Bytes} (h : Tail hex e rest) :
    exponent (if hex then 112 else 101) (e ++ rest) = (e.filter fun c => !tick c, rest) := by
  have hx : ∀ c : UInt8, isExpo (if hex = true then 16 else 10) c ↔ (c ||| 0x20) = (if hex then 112 else 101) := by
    intro c; rw [isExpo_iff]; cases hex <;> simp
  cases h with
  | none h =>
    cases rest with
    | nil => rfl
    | cons c t =>
      rw [List.nil_append]
      unfold exponent
      dsimp only
      rw [if_neg (c := (c ||| 0x20) = _)]
      · rfl
      · intro hc
        exact h c ((hx c).mpr hc) ⟨t, rfl⟩
  | @some c w rest sgn neg h1 h2 h3 h4 =>
    have e1 := (hx c).mp h1
    have htick : ∀ c : UInt8, ((c ||| 0x20) = 112 ∨ (c ||| 0x20) = 101) → tick c = false := forall_byte (by decide +kernel)
    have hc : tick c = false := htick c (by rw [e1]; cases hex <;> simp)
    have hs : sign (sgn ++ (w ++ rest)) = (sgn, w ++ rest) := by
      rcases h2.prop with ⟨rfl, _⟩ | ⟨rfl, _⟩ | ⟨rfl, _⟩
      · obtain ⟨k1, k2⟩ := h3 rfl
        refine sign_none ?_ ?_
        · intro h
          cases hw : w ++ rest with
          | nil => rw [hw] at h; simp at h
          | cons x t => rw [hw] at h; simp at h; subst h; exact k1 ⟨t, hw.symm⟩
        · intro h
          cases hw : w ++ rest with
          | nil => rw [hw] at h; simp at h
          | cons x t => rw [hw] at h; simp at h; subst h; exact k2 ⟨t, hw.symm⟩
      · rfl
      · rfl
    have hst : sgn.filter (fun c => !tick c) = sgn := by
      rcases h2.prop with ⟨rfl, _⟩ | ⟨rfl, _⟩ | ⟨rfl, _⟩ <;> decide
    rw [List.cons_append, List.append_assoc]
    unfold exponent
    dsimp only
    rw [if_pos e1, hs]
    dsimp only
    have hc4 := run_collect (mask := 4) (digitOr_mask false) h4
    rw [hc4]
    simp [hc, hst]

theorem run_exists (q : UInt8 → Bool) (s : Bytes) : ∃ w rest, s = w ++ rest ∧ Run q w rest := by
  induction s with
  | nil => exact ⟨[], [], rfl, by simp, nofun⟩
  | cons c s ih =>
    by_cases hc : q c = true
    · obtain ⟨w, rest, rfl, h⟩ := ih
      refine ⟨c :: w, rest, rfl, ?_, h.stop⟩
      intro x hx
      rcases List.mem_cons.mp hx with rfl | hx
      · exact hc
      · exact h.all x hx
    · exact ⟨[], c :: s, rfl, by simp, fun c' t e => by cases e; simpa using hc⟩

/-- Every text that starts with a digit starts with a literal. -/
theorem extent_total {s : Bytes} (hd : ∃ c t, s = c :: t ∧ Spec.digit c = true) : ∃ u rest, s = u ++ rest ∧ Extent u rest := by
  have key : ∀ hex pre s', s = pre ++ s' → Radix hex pre s' → ∃ u rest, s = u ++ rest ∧ Extent u rest := by
    rintro hex pre s' rfl hr
    obtain ⟨w, s1, rfl, hw⟩ := run_exists (digitOr hex) s'
    obtain ⟨f, s2, rfl, hf⟩ : ∃ f s2, s1 = f ++ s2 ∧ Point hex f s2 := by
      by_cases h : [46] <+: s1
      · obtain ⟨t, rfl⟩ := h
        obtain ⟨w', t', rfl, hw'⟩ := run_exists (digitOr hex) t
        exact ⟨46 :: w', t', rfl, .some hw'⟩
      · exact ⟨[], s1, rfl, .none h⟩
    obtain ⟨e, s3, rfl, he⟩ : ∃ e s3, s2 = e ++ s3 ∧ Tail hex e s3 := by
      by_cases h : ∃ c, isExpo (if hex then 16 else 10) c ∧ [c] <+: s2
      · obtain ⟨c, h1, t, rfl⟩ := h
        by_cases hp : [43] <+: t
        · obtain ⟨t', rfl⟩ := hp
          obtain ⟨w', t'', rfl, hw'⟩ := run_exists (digitOr false) t'
          exact ⟨c :: ([43] ++ w'), t'', by simp, .some h1 ⟨.inr (.inl ⟨rfl, rfl⟩)⟩ nofun hw'⟩
        · by_cases hm : [45] <+: t
          · obtain ⟨t', rfl⟩ := hm
            obtain ⟨w', t'', rfl, hw'⟩ := run_exists (digitOr false) t'
            exact ⟨c :: ([45] ++ w'), t'', by simp, .some h1 ⟨.inr (.inr ⟨rfl, rfl⟩)⟩ nofun hw'⟩
          · obtain ⟨w', t'', rfl, hw'⟩ := run_exists (digitOr false) t
            exact ⟨c :: ([] ++ w'), t'', by simp, .some h1 ⟨.inl ⟨rfl, rfl⟩⟩ (fun _ => ⟨hp, hm⟩) hw'⟩
      · exact ⟨[], s2, rfl, .none fun c hc hp => h ⟨c, hc, hp⟩⟩
    obtain ⟨x, s4, rfl, hx⟩ := run_exists (fun c => tick c || Spec.digit c || alpha c) s3
    exact ⟨_, s4, by simp, .mk hr hw hf he hx⟩
  by_cases h : ∃ pre, IsBased pre ∧ pre <+: s
  · obtain ⟨pre, h1, t, rfl⟩ := h
    exact key true pre t rfl (.based h1)
  · exact key false [] s rfl (.plain (fun pre h1 h2 => h ⟨pre, h1, h2⟩) hd)

theorem extent_digit {u rest : Bytes} (h : Extent u rest) : ∃ c t, u = c :: t ∧ Spec.digit c = true := by
  cases h with
  | @mk hex pre w f e x rest hr hw hf he hx =>
    cases hr with
    | based hb =>
      rcases hb.prop with rfl | rfl | rfl | rfl <;> exact ⟨48, _, rfl, by decide⟩
    | plain h1 h2 =>
      obtain ⟨c, t, e1, e2⟩ := h2
      have hd : ∀ c, Spec.digit c = true → digitOr false c = true := forall_byte (by decide +kernel)
      cases w with
      | cons c' w' => cases e1; exact ⟨c, _, rfl, e2⟩
      | nil =>
        have := hw.stop c t (by simpa using e1)
        rw [hd c e2] at this
        cases this

theorem numericText_extent {u rest : Bytes} (h : Extent u rest) :
    numericText (u ++ rest) = (u.filter fun c => !tick c, decide (46 ∈ u), rest) := by
  cases h with
  | @mk hex pre w f e x rest hr hw hf he hx =>
    have hE : pre ++ (w ++ (f ++ (e ++ x))) ++ rest = pre ++ (w ++ (f ++ (e ++ (x ++ rest)))) := by simp
    have no46 : ∀ c, (digitOr true c = true → c ≠ 46) ∧ (digitOr false c = true → c ≠ 46) ∧ ((tick c || Spec.digit c || alpha c) = true → c ≠ 46) :=
      forall_byte (by decide +kernel)
    have nw : ∀ c ∈ w, c ≠ 46 := fun c hc => by
      have := hw.all c hc
      cases hex
      · exact (no46 c).2.1 this
      · exact (no46 c).1 this
    have nx : ∀ c ∈ x, c ≠ 46 := fun c hc => (no46 c).2.2 (hx.all c hc)
    have ne : ∀ c ∈ e, c ≠ 46 := by
      cases he with
      | none _ => simp
      | @some c w rest sgn neg h1 h2 h3 h4 =>
        intro d hd
        rcases List.mem_cons.mp hd with rfl | hd
        · rintro rfl
          unfold isExpo at h1
          split at h1 <;> revert h1 <;> decide
        · rcases List.mem_append.mp hd with hd | hd
          · rcases h2.prop with ⟨rfl, _⟩ | ⟨rfl, _⟩ | ⟨rfl, _⟩ <;> revert hd <;> simp +contextual
          · exact (no46 d).2.1 (h4.all d hd)
    have npre : ∀ c ∈ pre, c ≠ 46 ∧ tick c = false := by
      cases hr with
      | based hb => rcases hb.prop with rfl | rfl | rfl | rfl <;> simp [tick]
      | plain _ _ => simp
    have hpoint : decide (46 ∈ pre ++ (w ++ (f ++ (e ++ x)))) = decide (f ≠ []) := by
      apply decide_eq_decide.mpr
      simp only [List.mem_append]
      constructor
      · rintro (h | h | h | h | h)
        · exact absurd rfl (npre _ h).1
        · exact absurd rfl (nw _ h)
        · intro h0; rw [h0] at h; cases h
        · exact absurd rfl (ne _ h)
        · exact absurd rfl (nx _ h)
      · intro h
        cases hf with
        | none _ => exact absurd rfl h
        | some _ => right; right; left; simp
    have c1 := run_collect (digitOr_mask hex) hw
    have c2 := fraction_point hf
    have c3 := exponent_tail he
    have c4 := run_collect letters_mask hx
    have hfin : ∀ (t : Bytes) (s' : Bytes), radix (pre ++ (w ++ (f ++ (e ++ (x ++ rest))))) = (t, if hex then 8 else 4, if hex then 112 else 101, s') →
        t ++ (collect (if hex then 8 else 4) s').1 = (pre ++ w).filter (fun c => !tick c) → (collect (if hex then 8 else 4) s').2 = f ++ (e ++ (x ++ rest)) →
        numericText (pre ++ (w ++ (f ++ (e ++ (x ++ rest))))) = ((pre ++ (w ++ (f ++ (e ++ x)))).filter fun c => !tick c, decide (f ≠ []), rest) := by
      intro t s' h1 h2 h3
      unfold numericText
      dsimp only
      rw [h1]
      dsimp only
      rw [h3, c2]
      dsimp only
      rw [c3]
      dsimp only
      rw [c4]
      dsimp only
      rw [← List.append_assoc, h2]
      simp
    rw [hE, hpoint]
    have hpf : pre.filter (fun c => !tick c) = pre := List.filter_eq_self.mpr fun c hc => by rw [(npre c hc).2]; rfl
    cases hr with
    | based hb =>
      refine hfin pre (w ++ (f ++ (e ++ (x ++ rest)))) ?_ ?_ ?_
      · rcases hb.prop with rfl | rfl | rfl | rfl <;> rfl
      · rw [c1, List.filter_append, hpf]
      · rw [c1]
    | plain h1 h2 =>
      obtain ⟨c, t, e1, e2⟩ := h2
      have hd : ∀ c, Spec.digit c = true → digitOr false c = true ∧ tick c = false := forall_byte (by decide +kernel)
      cases w with
      | nil =>
        have := hw.stop c t (by simpa using e1)
        rw [(hd c e2).1] at this
        cases this
      | cons c' w' =>
        have hcc : c' = c := by rw [List.cons_append] at e1; exact (List.cons.inj e1).1
        subst hcc
        by_cases h48 : c' = 48
        · subst h48
          have hw' : Run (digitOr false) w' (f ++ (e ++ (x ++ rest))) := ⟨fun c hc => hw.all c (by simp [hc]), hw.stop⟩
          have c1' := run_collect (digitOr_mask false) hw'
          refine hfin [48] (w' ++ (f ++ (e ++ (x ++ rest)))) ?_ ?_ ?_
          · rw [List.nil_append, List.cons_append]
            cases hq : w' ++ (f ++ (e ++ (x ++ rest))) with
            | nil => rfl
            | cons y t' =>
              have : ¬ ((y ||| 0x20) = 98 ∨ (y ||| 0x20) = 120) := by
                rintro (hy | hy)
                · rcases (or_b y).mp hy with rfl | rfl
                  · exact h1 [48, 98] ⟨.inl rfl⟩ ⟨t', by simp [hq]⟩
                  · exact h1 [48, 66] ⟨.inr (.inl rfl)⟩ ⟨t', by simp [hq]⟩
                · rcases (or_x y).mp hy with rfl | rfl
                  · exact h1 [48, 120] ⟨.inr (.inr (.inl rfl))⟩ ⟨t', by simp [hq]⟩
                  · exact h1 [48, 88] ⟨.inr (.inr (.inr rfl))⟩ ⟨t', by simp [hq]⟩
              unfold radix
              simp only
              rw [if_neg this]
              rfl
          · rw [c1', List.nil_append, List.filter_cons_of_pos (by decide)]; rfl
          · rw [c1']
        · refine hfin [] (c' :: w' ++ (f ++ (e ++ (x ++ rest)))) ?_ ?_ ?_
          · unfold radix
            split
            · rename_i e; exact absurd (List.cons.inj e).1 h48
            · rename_i e; exact absurd (List.cons.inj e).1 h48
            · rfl
          · rw [c1]; rfl
          · rw [c1]

/-! ### The value -/

theorem kept_le {base : Nat} (hb : 1 ≤ base) {ds lead lead' rest rest' : List Nat} (h1 : ds = lead ++ rest) (h1' : ds = lead' ++ rest')
    (hl : ∀ d t, rest = d :: t → 2 ^ 64 ≤ number base lead * base + d) (hlt : number base lead' < 2 ^ 64) : lead'.length ≤ lead.length := by
  by_contra hc
  have hp : lead <+: lead' := by
    have p1 : lead <+: ds := ⟨rest, h1.symm⟩
    have p2 : lead' <+: ds := ⟨_, h1'.symm⟩
    exact List.prefix_of_prefix_length_le p1 p2 (by omega)
  obtain ⟨t, rfl⟩ := hp
  cases t with
  | nil => simp at hc
  | cons d t =>
    have hr : rest = d :: (t ++ rest') := by
      rw [h1, List.append_assoc] at h1'
      simpa using List.append_cancel_left h1'
    have := hl d _ hr
    have h5 : number base (lead ++ [d]) ≤ number base (lead ++ d :: t) := by
      have := number_prefix hb (lead ++ [d]) t
      simpa using this
    have h6 : number base (lead ++ [d]) = number base lead * base + d := by
      unfold number
      rw [List.foldl_append]
      rfl
    omega

theorem kept_unique {base : Nat} (hb : 1 ≤ base) {ds : List Nat} {m m' : Nat} {rest rest' : List Nat} (h : Kept base ds m rest)
    (h' : Kept base ds m' rest') : m = m' ∧ rest = rest' := by
  obtain ⟨lead, h1, rfl⟩ := h.split
  obtain ⟨lead', h1', rfl⟩ := h'.split
  have a := kept_le hb h1 h1' h.longest h'.lt
  have b := kept_le hb h1' h1 h'.longest h.lt
  have := List.append_inj (h1.symm.trans h1') (by omega)
  exact ⟨by rw [this.1], this.2⟩

theorem numeral_base {t : Bytes} {p : Parts} (h : Numeral t p) : p.base = 2 ∨ p.base = 10 ∨ p.base = 16 := by
  cases h with
  | mk hp _ _ _ _ => exact hp.base

theorem digitText_no46 {base : Nat} {t : Bytes} {ds : List Nat} (h : DigitText base t ds) : 46 ∉ t := by
  intro hm
  have : Spec.hexDigit 46 ∈ t.map Spec.hexDigit := List.mem_map.mpr ⟨46, hm, rfl⟩
  rw [h.eq] at this
  have e : Spec.hexDigit 46 = none := by decide +kernel
  rw [e] at this
  simp at this

theorem numeral_point {t : Bytes} {p : Parts} (h : Numeral t p) : 46 ∈ t ↔ p.frac ≠ none := by
  cases h with
  | @mk base pre w f e whole frac expo hp hw hf he hne =>
    have n1 : 46 ∉ pre := by
      rcases hp.prop with ⟨_, rfl⟩ | ⟨_, rfl | rfl⟩ | ⟨_, rfl | rfl⟩ <;> decide
    have n2 := digitText_no46 hw
    have n3 : 46 ∉ e := by
      cases he with
      | none => simp
      | @some c sgn neg t ds h1 h2 h3 _ =>
        have n4 := digitText_no46 h3
        intro hm
        rcases List.mem_cons.mp hm with rfl | hm
        · unfold isExpo at h1
          split at h1 <;> revert h1 <;> decide
        · rcases List.mem_append.mp hm with hm | hm
          · rcases h2.prop with ⟨rfl, _⟩ | ⟨rfl, _⟩ | ⟨rfl, _⟩ <;> revert hm <;> decide
          · exact n4 hm
    simp only [List.mem_append, n1, n2, n3, false_or, or_false]
    cases hf with
    | none => simp
    | some _ => simp

theorem near_castD (hs : Saturates castD) {g g' : NumGet} (h : Near g g') : castD g = castD g' := by
  obtain ⟨e, rfl, rfl | h | h⟩ := h
  · rfl
  · exact hs g' e (.inl ⟨h.2, h.1⟩)
  · exact hs g' e (.inr ⟨h.2, h.1⟩)

/-- The conversion of a literal. -/
theorem convert_exact (hsat : Saturates castD) {sgn t : Bytes} {neg : Bool} (hs : IsSign sgn neg)
    (ht : ∃ c t', t = c :: t' ∧ Spec.digit c = true) (hl : t.length ≤ 2 ^ 57) (tok : Tok R) :
    convert castD (decide (46 ∈ t)) (sgn ++ t) = .ok tok ↔
      (∃ p v, Numeral t p ∧ p.frac = none ∧ Denotes neg p v ∧ tok = .int v) ∨
      (∃ p g r, Numeral t p ∧ p.frac ≠ none ∧ Meaning neg p g ∧ castD g = some r ∧ tok = .real r) := by
  constructor
  · intro h
    unfold convert at h
    split at h
    · rename_i g hg
      obtain ⟨p, hp⟩ := numeral_of_parseD hs ht hg
      obtain ⟨g1, g', h1, h2, h3⟩ := parseD_numeral hs ht hl hp
      rw [hg] at h1
      cases h1
      by_cases hpt : 46 ∈ t
      · rw [decide_eq_true hpt, if_pos rfl, near_castD hsat h3] at h
        right
        cases hc : castD g' with
        | none => rw [hc] at h; cases h
        | some r =>
          rw [hc] at h
          cases h
          exact ⟨p, g', r, hp, (numeral_point hp).mp hpt, h2, hc, rfl⟩
      · rw [decide_eq_false hpt, if_neg (by simp)] at h
        left
        have hf : p.frac = none := by
          by_contra hc
          exact hpt ((numeral_point hp).mpr hc)
        cases hc : castI g with
        | ub => rw [hc] at h; cases h
        | throw => rw [hc] at h; cases h
        | ok c =>
          rw [hc] at h
          simp only [Res.bind] at h
          split at h
          · cases h
          · rename_i hn
            cases h
            simp only [Bool.or_eq_true, not_or, Bool.not_eq_true] at hn
            exact ⟨p, c.value, hp, hf, (gives_denotes (numeral_base hp) hf h2 h3).mp ⟨c, hc, hn.1, hn.2, rfl⟩, rfl⟩
    · cases h
  · rintro (⟨p, v, hp, hf, hd, rfl⟩ | ⟨p, g, r, hp, hf, hm, hc, rfl⟩)
    · obtain ⟨g, g', h1, h2, h3⟩ := parseD_numeral hs ht hl hp
      obtain ⟨c, q1, q2, q3, rfl⟩ := (gives_denotes (numeral_base hp) hf h2 h3).mpr hd
      have hpt : 46 ∉ t := fun h => (numeral_point hp).mp h hf
      unfold convert
      rw [h1]
      dsimp only
      rw [decide_eq_false hpt, if_neg (by simp), q1]
      simp [Res.bind, q2, q3]
    · obtain ⟨g1, g', h1, h2, h3⟩ := parseD_numeral hs ht hl hp
      have hpt : 46 ∈ t := (numeral_point hp).mpr hf
      have hgg : g' = g := by
        obtain ⟨m, rest, k1, rfl⟩ := hm.kept
        obtain ⟨m', rest', k2, rfl⟩ := h2.kept
        obtain ⟨rfl, rfl⟩ := kept_unique (by have := numeral_base hp; omega) k1 k2
        rfl
      subst hgg
      unfold convert
      rw [h1]
      dsimp only
      rw [decide_eq_true hpt, if_pos rfl, near_castD hsat h3, hc]

end Asteria.Lexer
