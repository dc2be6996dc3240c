import Verif.Proof.JsonExact
import Verif.Proof.RealLiteral
import Verif.Proof.LexExact
import Verif.Props.LexExact
import Verif.Model.JsonReal
import Verif.Spec.JsonReal

/-!
# The numbers of JSON texts, and the texts of RFC 8259
-/

namespace Asteria.Json

open JsonSpec (Blank Number Digits Sign Fraction Exponent Str Item Denotes Start Text Rounds Char Chars RfcChar RfcChars RfcStr Rfc RfcText)
open NumText (NumGet parseBase parseD prefixBase)
open Lexer.Spec (IsSign Numeral Parts DigitText FracText ExpoText Meaning)
open RealText (value Nearly minimum maximum RealCast)

/-! ### Numbers are numerals -/

theorem digit_hex : ∀ b : UInt8, 0x30 ≤ b.toNat ∧ b.toNat ≤ 0x39 → Lexer.Spec.hexDigit b = some (b.toNat - 0x30) ∧ Lexer.Spec.digit b = true :=
  Lexer.forall_byte (by decide +kernel)

theorem digitText_of {t : Bytes} (h : ∀ b ∈ t, 0x30 ≤ b.toNat ∧ b.toNat ≤ 0x39) : DigitText 10 t (t.map fun b => b.toNat - 0x30) := by
  constructor
  · rw [List.map_map]
    exact List.map_congr_left fun b hb => (digit_hex b (h b hb)).1
  · intro d hd
    obtain ⟨b, hb, rfl⟩ := List.mem_map.1 hd
    have := h b hb
    omega

/-- A number is a sign and a decimal numeral that begins with a digit. -/
theorem number_numeral {t : Bytes} (h : Number t) : ∃ sgn neg u p, t = sgn ++ u ∧ IsSign sgn neg ∧ Numeral u p ∧ p.base = 10 ∧
    (∃ c t', u = c :: t' ∧ Lexer.Spec.digit c = true) ∧ prefixBase u = none := by
  obtain ⟨s, i, f, e, hs, hi, hf, he, rfl⟩ := h
  obtain ⟨neg, hs'⟩ : ∃ neg, IsSign s neg := by
    rcases hs with rfl | rfl | rfl
    · exact ⟨false, ⟨.inl ⟨rfl, rfl⟩⟩⟩
    · exact ⟨false, ⟨.inr (.inl ⟨rfl, rfl⟩)⟩⟩
    · exact ⟨true, ⟨.inr (.inr ⟨rfl, rfl⟩)⟩⟩
  obtain ⟨frac, hf'⟩ : ∃ frac, FracText 10 f frac := by
    rcases hf with rfl | ⟨d, hd, rfl⟩
    · exact ⟨_, .none⟩
    · exact ⟨_, .some (digitText_of hd.2)⟩
  obtain ⟨ex, he'⟩ : ∃ ex, ExpoText 10 e ex := by
    rcases he with rfl | ⟨c, s, d, hc, hs, hd, rfl⟩
    · exact ⟨_, .none⟩
    · have hne : d.map (fun b => b.toNat - 0x30) ≠ [] := by simpa using hd.1
      have hx : Lexer.Spec.isExpo 10 c := by unfold Lexer.Spec.isExpo; rw [if_pos rfl]; exact hc
      rcases hs with rfl | rfl | rfl
      · exact ⟨_, .some hx ⟨.inl ⟨rfl, rfl⟩⟩ (digitText_of hd.2) hne⟩
      · exact ⟨_, .some hx ⟨.inr (.inl ⟨rfl, rfl⟩)⟩ (digitText_of hd.2) hne⟩
      · exact ⟨_, .some hx ⟨.inr (.inr ⟨rfl, rfl⟩)⟩ (digitText_of hd.2) hne⟩
  have hw := digitText_of hi.2
  have hc : ∃ c t', i ++ (f ++ e) = c :: t' ∧ Lexer.Spec.digit c = true := by
    cases i with
    | nil => exact absurd rfl hi.1
    | cons a i => exact ⟨a, _, rfl, (digit_hex a (hi.2 a (by simp))).2⟩
  refine ⟨s, neg, i ++ (f ++ e), ⟨10, i.map fun b => b.toNat - 0x30, frac, ex⟩, rfl, hs', ?_, rfl, hc, Lexer.numeral_noPrefix hw hf' he' hc⟩
  have := Numeral.mk (pre := []) ⟨.inl ⟨rfl, rfl⟩⟩ hw hf' he' (by
    intro h
    have := (List.append_eq_nil_iff.1 h).1
    exact hi.1 (by simpa using this))
  simpa using this

/-- Where there is no prefix, `parse_D` and `parse_DD` are the same. -/
theorem parseD_decimal {sgn t : Bytes} {neg : Bool} (hs : IsSign sgn neg) (ht : ∃ c t', t = c :: t' ∧ Lexer.Spec.digit c = true)
    (hp : prefixBase t = none) : parseD (sgn ++ t) = parseBase 10 (sgn ++ t) := by
  have hdig : ∀ c, Lexer.Spec.digit c = true → c ≠ 43 ∧ c ≠ 45 := Lexer.forall_byte (by decide +kernel)
  obtain ⟨c, t', rfl, hc⟩ := ht
  obtain ⟨a1, a2⟩ := hdig c hc
  have deco : ∀ x : UInt8, x = 43 ∨ x = 45 → prefixBase (x :: c :: t') = none := by
    intro x hx
    simp only [prefixBase]
    rw [if_neg (by rcases hx with rfl | rfl <;> decide)]
  rcases hs.prop with ⟨rfl, rfl⟩ | ⟨rfl, rfl⟩ | ⟨rfl, rfl⟩
  · simp only [List.nil_append, parseD, hp, a1, a2, or_false, if_false]
  · simp only [List.nil_append, List.cons_append, parseD, deco 43 (.inl rfl), hp, true_or, if_true]
  · simp only [List.nil_append, List.cons_append, parseD, deco 45 (.inr rfl), hp, or_true, if_true]

/-! ### The values of numbers -/

theorem finish_udfl {sign : Nat} {exp : Int} {bits : Nat} {i : Bool} {r : RealCast} (h : RealText.finish sign exp bits i = .ok r) :
    r.udfl = false := by
  unfold RealText.finish at h
  dsimp only at h
  generalize sign + (if exp > 0 then exp.toNat else 0) * 2 ^ 52 + bits = v at h
  split at h
  · cases h
  · cases h; rfl

theorem compose_udfl {sign : Nat} {exp : Int} {bits : Nat} {m : Bool} {r : RealCast} (h : RealText.compose sign exp bits m = .ok r)
    (hu : r.udfl = true) : r.bits = sign ∧ r.ovfl = false := by
  unfold RealText.compose at h
  dsimp only at h
  generalize (if m = true then 1 else 0 : Nat) = n at h
  by_cases h1 : exp ≥ 1
  · rw [if_pos h1] at h
    split at h
    · simp only [Res.ok.injEq] at h; subst h; cases hu
    · rw [finish_udfl h] at hu; cases hu
  · rw [if_neg h1] at h
    by_cases h2 : exp ≥ -51
    · rw [if_pos h2] at h
      rw [finish_udfl h] at hu; cases hu
    · rw [if_neg h2] at h
      split at h
      · split at h
        · simp only [Res.ok.injEq] at h; subst h; exact ⟨rfl, rfl⟩
        · rw [finish_udfl h] at hu; cases hu
      · simp only [Res.ok.injEq] at h; subst h; exact ⟨rfl, rfl⟩

theorem castD_udfl {g : NumGet} {r : RealCast} (h : RealText.castD g = .ok r) (hu : r.udfl = true) :
    r.bits = (if g.sign then 2 ^ 63 else 0) ∧ r.ovfl = false := by
  unfold RealText.castD at h
  dsimp only at h
  generalize (if g.sign = true then 2 ^ 63 else 0) = sign at *
  split at h
  · cases h; cases hu
  split at h
  · cases h; exact ⟨rfl, rfl⟩
  split at h
  · cases h; cases hu
  split at h
  · split at h
    · cases h; exact ⟨rfl, rfl⟩
    split at h
    · cases h; cases hu
    split at h
    · cases h
    · split at h
      · cases h
      · exact compose_udfl h hu
  · exact compose_udfl h hu

theorem castReal_saturates : Lexer.Spec.Saturates castReal := by
  intro g e h
  unfold castReal RealText.castD
  simp only
  generalize (if g.sign = true then 2 ^ 63 else 0) = sg
  by_cases h0 : g.mant = 0
  · rw [if_pos h0, if_pos h0]
  · rw [if_neg h0, if_neg h0]
    rcases h with ⟨h1, h2⟩ | ⟨h1, h2⟩
    · rw [if_neg (by omega), if_pos (by omega), if_neg (by omega), if_pos (by omega)]
    · rw [if_pos (by omega), if_pos (by omega)]

theorem dblOf_fin (neg : Bool) {b : Nat} (hb : b < 2047 * 2 ^ 52) :
    Source.dblOf ((if neg then 2 ^ 63 else 0) + b) = .fin (if neg then -value b else value b) := by
  have hb' : b < 2 ^ 63 := Nat.lt_trans hb (by norm_num)
  unfold Source.dblOf
  dsimp only
  cases neg with
  | false =>
    have e1 : (0 + b) % 2 ^ 63 = b := by omega
    have e2 : (0 + b) / 2 ^ 63 % 2 = 0 := by omega
    simp only [Bool.false_eq_true, if_false, e1, e2, hb, if_true]
    simp
  | true =>
    have e1 : (2 ^ 63 + b) % 2 ^ 63 = b := by omega
    have e2 : (2 ^ 63 + b) / 2 ^ 63 % 2 = 1 := by omega
    simp only [if_true, e1, e2, hb]

theorem dblOf_zero (neg : Bool) : Source.dblOf (if neg then 2 ^ 63 else 0) = .fin 0 := by
  have := dblOf_fin neg (b := 0) (by norm_num)
  have h0 : value 0 = 0 := by norm_num [value, RealText.sig]
  rw [Nat.add_zero] at this
  rw [this, h0]
  simp

theorem minimum_pos : (0 : ℚ) < minimum := by unfold minimum; positivity

/-- The number that is given to `cast_D`. -/
theorem number_meaning {t : Bytes} (h : Number t) (hl : t.length ≤ 2 ^ 57) : ∃ sgn neg u p g g', t = sgn ++ u ∧ IsSign sgn neg ∧ Numeral u p ∧
    p.base = 10 ∧ parseBase 10 t = some (g, []) ∧ Meaning neg p g' ∧ castReal g = castReal g' := by
  obtain ⟨sgn, neg, u, p, rfl, h2, h3, h4, h5, h6⟩ := number_numeral h
  obtain ⟨g, g', k1, k2, k3⟩ := Lexer.parseD_numeral h2 h5 (by rw [List.length_append] at hl; omega) h3
  rw [parseD_decimal h2 h5 h6] at k1
  exact ⟨sgn, neg, u, p, g, g', rfl, h2, h3, h4, k1, k2, Lexer.near_castD castReal_saturates k3⟩

theorem meaning_sign {neg : Bool} {p : Parts} {g : NumGet} (h : Meaning neg p g) : g.sign = neg := by
  obtain ⟨m, rest, _, rfl⟩ := h.kept
  rfl

theorem number_rounds {t : Bytes} {x : Dbl} (h : Number t) (hl : t.length ≤ 2 ^ 57) (hx : NumVal castReal t x) : Rounds t x := by
  obtain ⟨sgn, neg, u, p, g, g', h1, h2, h3, h4, h5, h6, h7⟩ := number_meaning h hl
  obtain ⟨g1, k1, k2⟩ := hx
  rw [h5] at k1
  cases k1
  rw [h7] at k2
  refine ⟨sgn, neg, u, p, h1, h2, h3, h4, ?_⟩
  unfold castReal at k2
  rcases Lexer.castD_meaning h3 h6 with ⟨e0, i, hc⟩ | ⟨e0, r, hc, ha, _⟩
  · rw [hc] at k2
    simp only [Bool.false_eq_true, if_false, Option.some.injEq] at k2
    rw [dblOf_zero] at k2
    exact .inl ⟨e0 ▸ minimum_pos, k2.symm⟩
  · rw [hc] at k2
    dsimp only at k2
    split at k2
    · cases k2
    rename_i ho
    cases k2
    cases hu : r.udfl with
    | true =>
      left
      refine ⟨ha.under hu, ?_⟩
      rw [(castD_udfl hc hu).1, meaning_sign h6, dblOf_zero]
    | false =>
      right
      obtain ⟨b, c1, c2, c3, c4⟩ := ha.near (by simpa using ho) hu
      exact ⟨b, c2, c4, by rw [c3, dblOf_fin neg c2]⟩

theorem number_range {t sgn u : Bytes} {neg : Bool} {p : Parts} (h : Number t) (hl : t.length ≤ 2 ^ 57) (ht : t = sgn ++ u)
    (hs : IsSign sgn neg) (hn : Numeral u p) (hb : p.base = 10) (hc : ∃ c t', u = c :: t' ∧ Lexer.Spec.digit c = true)
    (hm : p.exact ≤ maximum) : ∃ x, NumVal castReal t x := by
  obtain ⟨sgn', neg', u', p', g1, g1', h1, h2, h3, h4, h5, h6, h7⟩ := number_meaning h hl
  have hp : prefixBase u = none := by
    cases hn with
    | @mk base pre w f e whole frac ex hp hw hf he hne =>
      simp only at hb
      subst hb
      have hpre : pre = [] := by rcases hp.prop with ⟨_, h⟩ | ⟨h, _⟩ | ⟨h, _⟩ <;> first | exact h | omega
      subst hpre
      rw [List.nil_append] at hc ⊢
      exact Lexer.numeral_noPrefix hw hf he hc
  obtain ⟨g, g', k1, k2, k3⟩ := Lexer.parseD_numeral hs hc (by rw [ht, List.length_append] at hl; omega) hn
  rw [parseD_decimal hs hc hp, ← ht, h5] at k1
  cases k1
  have hcast := Lexer.near_castD castReal_saturates k3
  suffices ∃ x, castReal g' = some x by
    obtain ⟨x, hx⟩ := this
    exact ⟨x, g1, h5, by rw [hcast, hx]⟩
  unfold castReal
  rcases Lexer.castD_meaning hn k2 with ⟨_, i, hc⟩ | ⟨e0, r, hc, ha, _⟩
  · rw [hc]; exact ⟨_, rfl⟩
  · rw [hc]
    dsimp only
    cases ho : r.ovfl with
    | false => exact ⟨_, rfl⟩
    | true => exact absurd (ha.over ho) (not_lt.2 hm)

theorem denotes_mono {num num' : Bytes → Dbl → Prop} {N : Nat} (hn : ∀ t x, Number t → t.length ≤ N → num t x → num' t x)
    {d : Nat} {i : Item} {t : Bytes} (h : Denotes num d i t) : t.length ≤ N → Denotes num' d i t := by
  induction h with
  | null h => exact fun _ => .null h
  | true h => exact fun _ => .true h
  | false h => exact fun _ => .false h
  | number h1 h2 h3 => exact fun hl => .number h1 h2 (hn _ _ h2 hl h3)
  | string h1 h2 => exact fun _ => .string h1 h2
  | array h1 _ ih => intro hl; exact .array h1 (ih (by simp at hl; omega))
  | arrayLast h1 _ _ h4 i1 i2 => intro hl; exact .arrayLast h1 (i1 (by simp at hl; omega)) (i2 (by simp at hl; omega)) h4
  | noElems h => exact fun _ => .noElems h
  | elem _ _ h3 h4 i1 i2 => intro hl; exact .elem (i1 (by simp at hl; omega)) (i2 (by simp at hl; omega)) h3 h4
  | object h1 _ ih => intro hl; exact .object h1 (ih (by simp at hl; omega))
  | objectLast h1 _ h3 h4 h5 h6 _ h8 i1 i2 =>
    intro hl; exact .objectLast h1 (i1 (by simp at hl; omega)) h3 h4 h5 h6 (i2 (by simp at hl; omega)) h8
  | noFields h => exact fun _ => .noFields h
  | field _ h3 h4 h5 h6 _ h8 h9 i1 i2 =>
    intro hl; exact .field (i1 (by simp at hl; omega)) h3 h4 h5 h6 (i2 (by simp at hl; omega)) h8 h9

theorem text_mono {num num' : Bytes → Dbl → Prop} {text : Bytes} {v : Value}
    (hn : ∀ t x, Number t → t.length ≤ text.length → num t x → num' t x) (h : Text num text v) : Text num' text v := by
  cases h with
  | mk h1 h2 h3 => exact .mk h1 (denotes_mono hn h2 (by simp; omega)) h3

/-! ### RFC 8259 -/

theorem rfc_number {t : Bytes} (h : RfcNumber.Number t) : Number t := by
  obtain ⟨m, i, f, e, hm, hi, hf, he, rfl⟩ := h
  refine ⟨m, i, f, e, ?_, ?_, ?_, ?_, rfl⟩
  · rcases hm with rfl | rfl
    · exact .inl rfl
    · exact .inr (.inr rfl)
  · rcases hi with rfl | ⟨d, ds, rfl, h1, h2, h3⟩
    · exact ⟨by simp, fun b hb => by rw [List.mem_singleton] at hb; subst hb; decide⟩
    · refine ⟨by simp, fun b hb => ?_⟩
      rcases List.mem_cons.1 hb with rfl | hb
      · omega
      · exact h3 b hb
  · rcases hf with rfl | ⟨ds, h1, h2, rfl⟩
    · exact .inl rfl
    · exact .inr ⟨ds, ⟨h1, h2⟩, rfl⟩
  · rcases he with rfl | ⟨e, s, ds, h1, h2, h3, h4, rfl⟩
    · exact .inl rfl
    · refine .inr ⟨e, s, ds, h1, ?_, ⟨h3, h4⟩, rfl⟩
      rcases h2 with h | h | h
      · exact .inl h
      · exact .inr (.inr h)
      · exact .inr (.inl h)

theorem rfc_char {u : Bytes} {c : Nat} (h : RfcChar u c) (hd : 0x7F ∉ u) : Char u c := by
  cases h with
  | plain h1 h2 h3 h4 =>
    refine .plain h1 h2 ?_ h3 h4
    intro hc
    subst hc
    have : Utf.utf8Encode 0x7F = some [0x7F] := by decide +kernel
    rw [this] at h1
    cases h1
    simp at hd
  | quote => exact .quote
  | backslash => exact .backslash
  | slash => exact .slash
  | b => exact .b
  | f => exact .f
  | n => exact .n
  | r => exact .r
  | t => exact .t
  | u h1 h2 => exact .u h1 h2
  | pair h1 h2 h3 h4 h5 h6 => exact .pair h1 h2 h3 h4 h5 h6

theorem rfc_str {q s : Bytes} (h : RfcStr q s) (hd : 0x7F ∉ q) : Str q s := by
  cases h with
  | @mk u cs h =>
    refine .mk ?_
    have hu : 0x7F ∉ u := fun hm => hd (by simp [hm])
    clear hd
    induction h with
    | nil => exact .nil
    | cons h _ ih =>
      rw [List.mem_append, not_or] at hu
      exact .cons (rfc_char h hu.1) (ih hu.2)

/-- What the text of an item is in the other grammar. -/
def Conforms (num : Bytes → Dbl → Prop) (d : Nat) (t : Bytes) : Item → Prop
  | .val v => Denotes num d (.val v) t
  | .elems m => ∀ l e, Denotes num d (.elems l) e → ∃ l' v e' t' w, l ++ m = l' ++ [v] ∧ e ++ t = e' ++ (t' ++ w) ∧
      Denotes num d (.elems l') e' ∧ Denotes num d (.val v) t' ∧ Blank w
  | .fields m => ∀ l e, Denotes num d (.fields l) e → ((l ++ m).map (·.1)).Nodup → ∃ l' k v e' q w₁ w₂ t' w,
      l ++ m = l' ++ [(k, v)] ∧ e ++ t = e' ++ (q ++ (w₁ ++ 0x3A :: (w₂ ++ (t' ++ w)))) ∧ Denotes num d (.fields l') e' ∧
      Str q k ∧ k ∉ l'.map (·.1) ∧ Blank w₁ ∧ Blank w₂ ∧ Denotes num d (.val v) t' ∧ Blank w

theorem conforms {num : Bytes → Dbl → Prop} {d : Nat} {i : Item} {t : Bytes} (h : Rfc num d i t) : 0x7F ∉ t → Conforms num d t i := by
  induction h with
  | null h => exact fun _ => .null h
  | true h => exact fun _ => .true h
  | false h => exact fun _ => .false h
  | number h1 h2 h3 => exact fun _ => .number h1 (rfc_number h2) h3
  | string h1 h2 => exact fun hd => .string h1 (rfc_str h2 hd)
  | array0 h1 h2 => exact fun _ => .array h1 (.noElems h2)
  | @array d l t h1 _ ih =>
    intro hd
    obtain ⟨l', v, e', t', w, k1, k2, k3, k4, k5⟩ := ih (fun hm => hd (by simp [hm])) [] [] (.noElems blank_nil)
    simp only [List.nil_append] at k1 k2
    subst k1
    rw [k2]
    have := Denotes.arrayLast h1 k3 k4 k5
    show Denotes _ _ _ _
    simpa only [List.append_assoc] using this
  | @elem d v w t w' h1 _ h3 ih =>
    intro hd l e he
    have := ih (fun hm => hd (by simp [hm]))
    exact ⟨l, v, e ++ w, t, w', rfl, by simp, elems_blank he h1, this, h3⟩
  | @elems d v m w t w' t' h1 _ h3 _ i1 i2 =>
    intro hd l e he
    have a := i1 (fun hm => hd (by simp [hm]))
    have b := i2 (fun hm => hd (by simp [hm])) (l ++ [v]) _ (.elem (elems_blank he h1) a h3 blank_nil)
    obtain ⟨l', v', e', t'', w'', k1, k2, k3, k4, k5⟩ := b
    refine ⟨l', v', e', t'', w'', by rw [← k1]; simp, by rw [← k2]; simp, k3, k4, k5⟩
  | object0 h1 h2 => exact fun _ => .object h1 (.noFields h2)
  | @object d l t h1 _ hnd ih =>
    intro hd
    obtain ⟨l', k, v, e', q, w₁, w₂, t', w, k1, k2, k3, k4, k5, k6, k7, k8, k9⟩ := ih (fun hm => hd (by simp [hm])) [] [] (.noFields blank_nil)
      (by simpa using hnd)
    simp only [List.nil_append] at k1 k2
    subst k1
    rw [k2]
    have := Denotes.objectLast h1 k3 k4 k5 k6 k7 k8 k9
    show Denotes _ _ _ _
    simpa only [List.append_assoc, List.cons_append] using this
  | @field d k q v w₁ w₂ w₃ t w₄ h1 h2 h3 h4 _ h6 ih =>
    intro hd l e he hnd
    have a := ih (fun hm => hd (by simp [hm]))
    refine ⟨l, k, v, e ++ w₁, q, w₂, w₃, t, w₄, rfl, by simp, fields_blank he h1, rfc_str h2 (fun hm => hd (by simp [hm])), ?_, h3, h4, a, h6⟩
    rw [List.map_append, List.nodup_append] at hnd
    intro hk
    exact hnd.2.2 k hk k (by simp) rfl
  | @fields d k q v m w₁ w₂ w₃ t w₄ t' h1 h2 h3 h4 _ h6 _ i1 i2 =>
    intro hd l e he hnd
    have a := i1 (fun hm => hd (by simp [hm]))
    have hs := rfc_str h2 (fun hm => hd (by simp [hm]))
    have hk : k ∉ l.map (·.1) := by
      rw [List.map_append, List.nodup_append] at hnd
      intro hk
      exact hnd.2.2 k hk k (by simp) rfl
    have b := i2 (fun hm => hd (by simp [hm])) (l ++ [(k, v)]) _ (.field (fields_blank he h1) hs hk h3 h4 a h6 blank_nil) (by simpa using hnd)
    obtain ⟨l', k', v', e', q', w₁', w₂', t'', w', k1, k2, k3⟩ := b
    exact ⟨l', k', v', e', q', w₁', w₂', t'', w', by rw [← k1]; simp, by rw [← k2]; simp, k3⟩

theorem rfc_text {num : Bytes → Dbl → Prop} {text : Bytes} {v : Value} (h : RfcText num text v) (hd : 0x7F ∉ text) : Text num text v := by
  cases h with
  | mk h1 h2 h3 => exact .mk (.plain h1) (conforms h2 fun hm => hd (by simp [hm])) h3

end Asteria.Json
