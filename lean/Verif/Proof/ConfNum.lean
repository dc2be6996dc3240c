import Verif.Proof.ConfLex
import Verif.Proof.JsonReal
import Verif.Proof.LexExactInt

/-!
# The numbers of configuration files
-/

namespace Asteria.Conf

open ConfSpec
open Lexer (forall_byte)
open Lexer.Spec (IsSign IsPrefix Numeral Parts Meaning Denotes FracText ExpoText isExpo)
open NumText
open JsonSpec (utf8 Item)
open Utf (Scalar)

/-! ### `parse_I` is `parse_D` where there is no radix point -/

theorem collectLoop_none (base : Nat) (s : Bytes) : ∀ xu, 46 ∉ s → collectLoop base none s xu = collectLoop base (some 46) s xu := by
  induction s with
  | nil => intro xu _; rfl
  | cons c s ih =>
    intro xu h
    rw [List.mem_cons, not_or] at h
    unfold collectLoop
    rw [if_neg (show ¬ (¬ xu.hasPoint = true ∧ some c = none) by simp),
      if_neg (show ¬ (¬ xu.hasPoint = true ∧ some c = some 46) by rintro ⟨_, e⟩; exact h.1 (Option.some.inj e).symm)]
    dsimp only
    by_cases hd : digitValue c ≥ base
    · rw [if_pos hd, if_pos hd]
    · rw [if_neg hd, if_neg hd]
      exact ih _ h.2

theorem collectDigits_none {base : Nat} {s : Bytes} (h : 46 ∉ s) : collectDigits base none s = collectDigits base (some 46) s := by
  unfold collectDigits
  rw [collectLoop_none base s _ h]

theorem skipPrefix_mem {b : UInt8} {s : Bytes} (h : 46 ∉ s) : 46 ∉ skipPrefix b s := by
  unfold skipPrefix
  split
  · split
    · simp only [List.mem_cons, not_or] at h; exact h.2.2
    · exact h
  · exact h

theorem parseBaseI_eq {b : Nat} {s : Bytes} (h : 46 ∉ s) (hs : getSpecial (getSign s).2 = none) : parseBaseI b s = parseBase b s := by
  have hg : 46 ∉ (getSign s).2 := by
    unfold getSign
    split
    · exact fun k => h (List.mem_cons_of_mem _ k)
    · exact fun k => h (List.mem_cons_of_mem _ k)
    · exact h
  have ht : 46 ∉ (if b = 2 then skipPrefix 98 (getSign s).2 else if b = 16 then skipPrefix 120 (getSign s).2 else (getSign s).2) := by
    split
    · exact skipPrefix_mem hg
    · split
      · exact skipPrefix_mem hg
      · exact hg
  unfold parseBaseI parseBase
  dsimp only
  rw [hs]
  dsimp only
  rw [collectDigits_none ht]

theorem parseI_eq {s : Bytes} (h : 46 ∉ s) (hs : getSpecial (getSign s).2 = none) : parseI s = parseD s := by
  unfold parseI parseD
  simp only [parseBaseI_eq h hs]
  cases prefixBase s with
  | some b => rfl
  | none =>
    cases s with
    | nil => rfl
    | cons c s =>
      dsimp only
      split
      · cases prefixBase s <;> rfl
      · rfl

theorem special_none {sgn u : Bytes} {neg : Bool} (hs : IsSign sgn neg) (hc : ∃ c t, u = c :: t ∧ Lexer.Spec.digit c = true) :
    getSpecial (getSign (sgn ++ u)).2 = none := by
  have hdig : ∀ c, Lexer.Spec.digit c = true → c ≠ 43 ∧ c ≠ 45 ∧ c ≠ 110 ∧ c ≠ 78 ∧ c ≠ 105 ∧ c ≠ 73 := forall_byte (by decide +kernel)
  obtain ⟨c, t, rfl, hc⟩ := hc
  obtain ⟨a1, a2, a3, a4, a5, a6⟩ := hdig c hc
  have : (getSign (sgn ++ c :: t)).2 = c :: t := by
    rcases hs.prop with ⟨rfl, rfl⟩ | ⟨rfl, rfl⟩ | ⟨rfl, rfl⟩
    · simp [getSign, a1, a2]
    · rfl
    · rfl
  rw [this]
  exact NumText.getSpecial_none c t a3 a4 a5 a6

/-! ### The texts of numbers are numerals -/

theorem hex_of {base c : Nat} (hb : base = 2 ∨ base = 10 ∨ base = 16) (h : DigitOf base c) :
    ∃ d, Lexer.Spec.hexDigit (UInt8.ofNat c) = some d ∧ d < base := by
  have hc : c < 128 := by
    unfold DigitOf ConfSpec.Digit at h
    split at h
    · omega
    · split at h <;> omega
  have key : ∀ c < 128, ∀ base ∈ [2, 10, 16], (if base = 2 then 0x30 ≤ c ∧ c ≤ 0x31
      else if base = 16 then (0x30 ≤ c ∧ c ≤ 0x39) ∨ (0x41 ≤ c ∧ c ≤ 0x46) ∨ (0x61 ≤ c ∧ c ≤ 0x66)
      else (0x30 ≤ c ∧ c ≤ 0x39)) → ((Lexer.Spec.hexDigit (UInt8.ofNat c)).any (· < base)) = true := by decide +kernel
  have := key c hc base (by simpa using hb) h
  cases e : Lexer.Spec.hexDigit (UInt8.ofNat c) with
  | none => rw [e] at this; cases this
  | some d => rw [e] at this; exact ⟨d, rfl, by simpa using this⟩

theorem ticked_text {base : Nat} (hb : base = 2 ∨ base = 10 ∨ base = 16) {s : List Nat} {t : Bytes} (h : Ticked base s t) :
    ∃ ds, Lexer.Spec.DigitText base t ds := by
  induction h with
  | nil => exact ⟨[], ⟨rfl, by simp⟩⟩
  | cons hc _ ih =>
    obtain ⟨ds, h1, h2⟩ := ih
    obtain ⟨d, k1, k2⟩ := hex_of hb hc
    exact ⟨d :: ds, ⟨by rw [List.map_cons, List.map_cons, h1, k1], by simpa using ⟨k2, h2⟩⟩⟩
  | tick hc _ ih =>
    obtain ⟨ds, h1, h2⟩ := ih
    obtain ⟨d, k1, k2⟩ := hex_of hb hc
    exact ⟨d :: ds, ⟨by rw [List.map_cons, List.map_cons, h1, k1], by simpa using ⟨k2, h2⟩⟩⟩

theorem sign_text {g : List Nat} {g' : Bytes} (h : Sign g g') : ∃ neg, IsSign g' neg := by
  cases h
  · exact ⟨false, ⟨.inl ⟨rfl, rfl⟩⟩⟩
  · exact ⟨false, ⟨.inr (.inl ⟨rfl, rfl⟩)⟩⟩
  · exact ⟨true, ⟨.inr (.inr ⟨rfl, rfl⟩)⟩⟩

theorem digit_first {s : List Nat} {t : Bytes} (h : Ticked 10 s t) (hn : t ≠ []) : ∃ c u, t = c :: u ∧ Lexer.Spec.digit c = true := by
  have key : ∀ c < 58, 48 ≤ c → Lexer.Spec.digit (UInt8.ofNat c) = true := by decide +kernel
  cases h with
  | nil => exact absurd rfl hn
  | cons hc => exact ⟨_, _, rfl, key _ (by have := hc.2; omega) hc.1⟩
  | tick hc => exact ⟨_, _, rfl, key _ (by have := hc.2; omega) hc.1⟩

theorem num_numeral {s : List Nat} {t : Bytes} (h : Num s t) : ∃ sgn neg u p, t = sgn ++ u ∧ IsSign sgn neg ∧ Numeral u p ∧
    (∃ c v, u = c :: v ∧ Lexer.Spec.digit c = true) := by
  cases h with
  | @mk base g g' p p' s s' f f' x x' hg hp hs hf hx hn h10 =>
    have hb : base = 2 ∨ base = 10 ∨ base = 16 := by cases hp <;> simp
    obtain ⟨neg, k1⟩ := sign_text hg
    have k2 : IsPrefix base p' := by
      cases hp
      · exact ⟨.inl ⟨rfl, rfl⟩⟩
      · exact ⟨.inr (.inl ⟨rfl, .inl rfl⟩)⟩
      · exact ⟨.inr (.inl ⟨rfl, .inl rfl⟩)⟩
      · exact ⟨.inr (.inr ⟨rfl, .inl rfl⟩)⟩
      · exact ⟨.inr (.inr ⟨rfl, .inl rfl⟩)⟩
    obtain ⟨whole, k3⟩ := ticked_text hb hs
    have k4 : ∃ frac, FracText base f' frac ∧ (f' ≠ [] → frac.getD [] ≠ []) := by
      cases hf with
      | none => exact ⟨none, .none, by simp⟩
      | some h hm =>
        obtain ⟨ds, h⟩ := ticked_text hb h
        exact ⟨some ds, .some h, fun _ => fun e => hm (h.nil_iff.2 e)⟩
    obtain ⟨frac, k4, k4'⟩ := k4
    have k5 : ∃ ex, ExpoText base x' ex := by
      cases hx with
      | none => exact ⟨none, .none⟩
      | @some c g g' s t hc hg hs hn =>
        obtain ⟨neg, hg⟩ := sign_text hg
        obtain ⟨ds, h⟩ := ticked_text (.inr (.inl rfl)) hs
        refine ⟨some (neg, ds), .some ?_ hg h fun e => hn (h.nil_iff.2 e)⟩
        unfold ExpoLetter at hc
        unfold isExpo
        split
        · rename_i hb'
          rw [if_pos hb'] at hc
          rcases hc with rfl | rfl <;> decide
        · rename_i hb'
          rw [if_neg hb'] at hc
          rcases hc with rfl | rfl <;> decide
    obtain ⟨ex, k5⟩ := k5
    refine ⟨g', neg, p' ++ (s' ++ (f' ++ x')), _, rfl, k1, .mk k2 k3 k4 k5 ?_, ?_⟩
    · intro e
      rw [List.append_eq_nil_iff] at e
      apply hn
      rw [k3.nil_iff.2 e.1, List.nil_append]
      by_contra hf
      exact k4' hf e.2
    · cases hp with
      | dec =>
        obtain ⟨c, u, rfl, hc⟩ := digit_first hs (h10 rfl)
        exact ⟨c, u ++ (f' ++ x'), rfl, hc⟩
      | bin _ => exact ⟨_, _, rfl, by decide⟩
      | binTick _ => exact ⟨_, _, rfl, by decide⟩
      | hex _ => exact ⟨_, _, rfl, by decide⟩
      | hexTick _ => exact ⟨_, _, rfl, by decide⟩

theorem numeral_base {u : Bytes} {p : Parts} (h : Numeral u p) : p.base = 2 ∨ p.base = 10 ∨ p.base = 16 := by
  have := (Lexer.numeral_digits h).1
  omega

theorem numeral_frac {u : Bytes} {p : Parts} (h : Numeral u p) (hd : 46 ∉ u) : p.frac = none := by
  cases h with
  | mk _ _ hf =>
    cases hf with
    | none => rfl
    | some _ => exact absurd (by simp) hd

theorem frac_of_mem {u : Bytes} {p : Parts} (h : Numeral u p) (hn : p.frac = none) : 46 ∉ u := by
  have dig : ∀ {b : Nat} {t : Bytes} {ds : List Nat}, Lexer.Spec.DigitText b t ds → 46 ∉ t := by
    intro b t ds h hm
    have : Lexer.Spec.hexDigit 46 ∈ t.map Lexer.Spec.hexDigit := List.mem_map_of_mem hm
    rw [h.eq, List.mem_map] at this
    obtain ⟨d, _, e⟩ := this
    cases e
  cases h with
  | mk hp hw hf he =>
    dsimp only at hn
    subst hn
    cases hf
    simp only [List.mem_append, not_or, List.nil_append]
    refine ⟨?_, dig hw, ?_⟩
    · rcases hp.prop with ⟨_, rfl⟩ | ⟨_, rfl | rfl⟩ | ⟨_, rfl | rfl⟩ <;> decide
    · cases he with
      | none => simp
      | some hc hs hd =>
        simp only [List.mem_cons, List.mem_append, not_or]
        refine ⟨?_, ?_, dig hd⟩
        · unfold isExpo at hc
          split at hc <;> rcases hc with rfl | rfl <;> decide
        · rcases hs.prop with ⟨rfl, _⟩ | ⟨rfl, _⟩ | ⟨rfl, _⟩ <;> decide

theorem numeric_int {sgn u : Bytes} {neg : Bool} {p : Parts} {v : Int} (hs : IsSign sgn neg) (hn : Numeral u p)
    (hc : ∃ c t, u = c :: t ∧ Lexer.Spec.digit c = true) (hl : u.length ≤ 2 ^ 57) (hf : p.frac = none) (hd : Denotes neg p v) :
    numeric (sgn ++ u) = .ok (.int v) := by
  have h46 : 46 ∉ sgn ++ u := by
    rw [List.mem_append, not_or]
    refine ⟨?_, frac_of_mem hn hf⟩
    rcases hs.prop with ⟨rfl, rfl⟩ | ⟨rfl, rfl⟩ | ⟨rfl, rfl⟩ <;> decide
  obtain ⟨g, g', h1, h2, h3⟩ := Lexer.parseD_numeral hs hc hl hn
  unfold numeric
  rw [if_pos h46, parseI_eq h46 (special_none hs hc), h1]
  dsimp only
  obtain ⟨c, k1, k2, _, k4⟩ := (Lexer.gives_denotes (numeral_base hn) hf h2 h3).2 hd
  rw [k1]
  show (if c.ovfl = true then Res.throw else Res.ok (Value.int c.value)) = _
  rw [k2, if_neg (by simp), k4]

theorem mem_of_frac {u : Bytes} {p : Parts} (h : Numeral u p) (hn : p.frac ≠ none) : 46 ∈ u := by
  by_contra hd
  exact hn (numeral_frac h hd)

/-- What `cast_D` makes of a numeral. -/
theorem castReal_numeral {sgn u : Bytes} {neg : Bool} {p : Parts} (hs : IsSign sgn neg) (hn : Numeral u p)
    (hc : ∃ c t, u = c :: t ∧ Lexer.Spec.digit c = true) (hl : u.length ≤ 2 ^ 57) :
    ∃ g, parseD (sgn ++ u) = some (g, []) ∧
      ((p.exact ≤ RealText.maximum ∧ ∃ x, Json.castReal g = some x ∧ Near neg p x) ∨
       (RealText.maximum < p.exact ∧ (Json.castReal g = none ∨ ∃ x, Json.castReal g = some x ∧ Near neg p x))) := by
  obtain ⟨g, g', h1, h2, h3⟩ := Lexer.parseD_numeral hs hc hl hn
  refine ⟨g, h1, ?_⟩
  rw [Lexer.near_castD Json.castReal_saturates h3]
  have key : Json.castReal g' = none ∧ RealText.maximum < p.exact ∨ ∃ x, Json.castReal g' = some x ∧ Near neg p x := by
    unfold Json.castReal
    rcases Lexer.castD_meaning hn h2 with ⟨e0, i, hc⟩ | ⟨e0, r, hc, ha, _⟩
    · rw [hc]
      refine .inr ⟨_, rfl, .inl ⟨e0 ▸ Json.minimum_pos, ?_⟩⟩
      rw [Json.dblOf_zero]
    · rw [hc]
      dsimp only
      cases ho : r.ovfl with
      | true => exact .inl ⟨rfl, ha.over ho⟩
      | false =>
        refine .inr ⟨_, rfl, ?_⟩
        cases hu : r.udfl with
        | true =>
          refine .inl ⟨ha.under hu, ?_⟩
          rw [(Json.castD_udfl hc hu).1, Json.meaning_sign h2, Json.dblOf_zero]
        | false =>
          obtain ⟨b, c1, c2, c3, c4⟩ := ha.near ho hu
          exact .inr ⟨b, c2, c4, by rw [c3, Json.dblOf_fin neg c2]⟩
  by_cases hm : p.exact ≤ RealText.maximum
  · exact .inl ⟨hm, key.resolve_left fun h => absurd h.2 (not_lt.2 hm)⟩
  · refine .inr ⟨not_le.1 hm, ?_⟩
    rcases key with h | h
    · exact .inl h.1
    · exact .inr h

theorem numeric_real {sgn u : Bytes} {neg : Bool} {p : Parts} (hs : IsSign sgn neg) (hn : Numeral u p)
    (hc : ∃ c t, u = c :: t ∧ Lexer.Spec.digit c = true) (hl : u.length ≤ 2 ^ 57) (hf : p.frac ≠ none) (hm : p.exact ≤ RealText.maximum) :
    ∃ x, numeric (sgn ++ u) = .ok (.real x) ∧ Near neg p x := by
  obtain ⟨g, h1, h2⟩ := castReal_numeral hs hn hc hl
  rcases h2 with ⟨_, x, h2, h3⟩ | ⟨h, _⟩
  · refine ⟨x, ?_, h3⟩
    unfold numeric
    rw [if_neg (not_not.2 (List.mem_append_right _ (mem_of_frac hn hf))), h1]
    dsimp only
    rw [h2]
  · exact absurd hm (not_le.2 h)

theorem numVal_numeric {t : Bytes} {v : Value} (hl : t.length ≤ 2 ^ 57) (h : NumVal t v) : ∃ w, numeric t = .ok w ∧ NumVal t w := by
  cases h with
  | int hs hn hc hf hd =>
    rw [List.length_append] at hl
    exact ⟨_, numeric_int hs hn ⟨_, _, rfl, hc⟩ (by omega) hf hd, .int hs hn hc hf hd⟩
  | real hs hn hc hf hm _ =>
    rw [List.length_append] at hl
    obtain ⟨x, h1, h2⟩ := numeric_real hs hn ⟨_, _, rfl, hc⟩ (by omega) hf hm
    exact ⟨_, h1, .real hs hn hc hf hm h2⟩

/-! ### Whole files -/

/-- Alike but for numbers. -/
inductive Alike : Item → Item → Prop
  | val {v w} : Alike (.val v) (.val w)
  | elems {l m} : l.length = m.length → Alike (.elems l) (.elems m)
  | fields {l m} : l.map (·.1) = m.map (·.1) → Alike (.fields l) (.fields m)

theorem derives_choose {num num' : Bytes → Value → Prop} {d : Nat} {i : Item} {ts : List Tok} (h : Derives num d i ts) :
    (∀ t v, .num t ∈ ts → num t v → ∃ w, num' t w) → ∃ j, Derives num' d j ts ∧ Alike i j := by
  induction h with
  | null => exact fun _ => ⟨_, .null, .val⟩
  | true => exact fun _ => ⟨_, .true, .val⟩
  | false => exact fun _ => ⟨_, .false, .val⟩
  | number hn =>
    intro hk
    obtain ⟨w, hw⟩ := hk _ _ (by simp) hn
    exact ⟨_, .number hw, .val⟩
  | string => exact fun _ => ⟨_, .string, .val⟩
  | noElems => exact fun _ => ⟨_, .noElems, .val⟩
  | noMembers => exact fun _ => ⟨_, .noMembers, .val⟩
  | array _ ih =>
    intro hk
    obtain ⟨j, h1, h2⟩ := ih fun t v hm => hk t v (by simp [hm])
    cases h2 with
    | @elems _ m hl =>
      cases m with
      | nil => cases hl
      | cons y ys => exact ⟨_, .array h1, .val⟩
  | object _ ih =>
    intro hk
    obtain ⟨j, h1, h2⟩ := ih fun t v hm => hk t v (by simp [hm])
    cases h2 with
    | @fields _ m hl =>
      cases m with
      | nil => cases hl
      | cons y ys => exact ⟨_, .object h1, .val⟩
  | elemsNil => exact fun _ => ⟨_, .elemsNil, .elems rfl⟩
  | elemsCons _ hs _ ih1 ih2 =>
    intro hk
    obtain ⟨j1, a1, b1⟩ := ih1 fun t v hm => hk t v (by simp [hm])
    obtain ⟨j2, a2, b2⟩ := ih2 fun t v hm => hk t v (by simp [hm])
    cases b1
    cases b2 with
    | elems hl => exact ⟨_, .elemsCons a1 hs a2, .elems (by rw [List.length_cons, List.length_cons, hl])⟩
  | fieldsNil => exact fun _ => ⟨_, .fieldsNil, .fields rfl⟩
  | fieldsCons hk' hn hc _ hs _ ih1 ih2 =>
    intro hk
    obtain ⟨j1, a1, b1⟩ := ih1 fun t v hm => hk t v (by simp [hm])
    obtain ⟨j2, a2, b2⟩ := ih2 fun t v hm => hk t v (by simp [hm])
    cases b1
    cases b2 with
    | fields hl => exact ⟨_, .fieldsCons hk' (by rw [← hl]; exact hn) hc a1 hs a2, .fields (by rw [List.map_cons, List.map_cons, hl])⟩

theorem derives_mono {num num' : Bytes → Value → Prop} (hm : ∀ t v, num t v → num' t v) {d : Nat} {i : Item} {ts : List Tok}
    (h : Derives num d i ts) : Derives num' d i ts := by
  induction h with
  | null => exact .null
  | true => exact .true
  | false => exact .false
  | number hn => exact .number (hm _ _ hn)
  | string => exact .string
  | noElems => exact .noElems
  | noMembers => exact .noMembers
  | array _ ih => exact .array ih
  | object _ ih => exact .object ih
  | elemsNil => exact .elemsNil
  | elemsCons _ hs _ ih1 ih2 => exact .elemsCons ih1 hs ih2
  | fieldsNil => exact .fieldsNil
  | fieldsCons hk hn hc _ hs _ ih1 ih2 => exact .fieldsCons hk hn hc ih1 hs ih2

theorem ticked_length {base : Nat} {s : List Nat} {t : Bytes} (h : Ticked base s t) : t.length ≤ s.length := by
  induction h with
  | nil => simp
  | cons _ _ ih => simpa using ih
  | tick _ _ ih => simp only [List.length_cons]; omega

theorem num_length {s : List Nat} {t : Bytes} (h : Num s t) : t.length ≤ s.length := by
  cases h with
  | @mk base g g' p p' s s' f f' x x' hg hp hs hf hx _ _ =>
    have h1 := ticked_length hs
    have sg : ∀ {g : List Nat} {g' : Bytes}, Sign g g' → g'.length = g.length := fun h => by cases h <;> rfl
    have h2 := sg hg
    simp only [List.length_append]
    have h3 : p'.length ≤ p.length := by cases hp <;> simp
    have h4 : f'.length ≤ f.length := by
      cases hf with
      | none => simp
      | some h _ => simpa using ticked_length h
    have h5 : x'.length ≤ x.length := by
      cases hx with
      | none => simp
      | some _ hg hs _ =>
        have := sg hg
        have := ticked_length hs
        simp only [List.length_cons, List.length_append]
        omega
    omega

theorem spells_num {lv : Level} {cs : List Nat} {ts : List Tok} (h : Spells lv cs ts) (t : Bytes) (ht : .num t ∈ ts) : t.length ≤ cs.length := by
  induction h with
  | nil _ => cases ht
  | cons _ hl _ ih =>
    simp only [List.length_append]
    rcases List.mem_cons.1 ht with rfl | ht
    · cases hl with
      | num hn => have := num_length hn; omega
    · have := ih ht
      omega

theorem utf8_length {cs : List Nat} (h : ∀ c ∈ cs, Scalar c) : cs.length ≤ (utf8 cs).length := by
  induction cs with
  | nil => simp
  | cons c cs ih =>
    have := ih fun c hc => h c (by simp [hc])
    obtain ⟨u, hu, hl⟩ := enc_some (h c (by simp))
    have e : utf8 (c :: cs) = u ++ utf8 cs := by simp [utf8, hu]
    rw [e, List.length_append, List.length_cons]
    omega

theorem loadConf_file {file : Bytes} {v : Value} (hl : file.length ≤ 2 ^ 57) (h : File .sure NumVal file v) :
    ∃ w, loadConf file = .ok w ∧ File .sure NumVal file w := by
  cases h with
  | mk hm hs hsp hd =>
    obtain ⟨j, h1, h2⟩ := derives_choose (num' := fun t v => numeric t = .ok v ∧ NumVal t v) hd fun t v ht hv => by
      have h1 := spells_num hsp t ht
      have h2 := utf8_length hs
      rw [List.length_append] at h2
      exact numVal_numeric (by omega) hv
    cases h2
    exact ⟨_, loadConf_of (.mk hm hs hsp (derives_mono (fun _ _ h => h.1) h1)), .mk hm hs hsp (derives_mono (fun _ _ h => h.2) h1)⟩

end Asteria.Conf
