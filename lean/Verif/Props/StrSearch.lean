import Verif.Proof.StrSearch
import Verif.Props.Slice

/-!
# Properties of the string searching functions (C11 - C16)

Specification vocabulary: `p <+: l` says that `l` begins with `p`; `sliceBegin` and `sliceEnd` are the
boundaries of the range that `from` and `length` denote (Props/Slice.lean).
-/

namespace Asteria.StrSearch
open Asteria.Slice

/-- The pattern occurs in `text` at `i`, and the occurrence lies within `[b, e)`. -/
def OccursIn (text p : Bytes) (b e i : Nat) : Prop := b ≤ i ∧ i + p.length ≤ e ∧ p <+: text.drop i

/-! ## Transferring from a range to the text -/

theorem at_sub (text p : Bytes) (b e i : Nat)
    (h : b + i + p.length ≤ e) : At (sub text b e) p i ↔ p <+: text.drop (b + i) := by
  rw [← at_iff]
  unfold At sub
  constructor <;> intro hat k hk <;> have := hat k hk <;> rw [← this]
  · rw [List.getElem?_drop, List.getElem?_take_of_lt (by omega), ← Nat.add_assoc]
  · rw [List.getElem?_drop, List.getElem?_take_of_lt (by omega), ← Nat.add_assoc]

theorem sub_length (text : Bytes) (b e : Nat) (he : e ≤ text.length) : (sub text b e).length = e - b := by
  simp [sub]; omega

/-- C11: `find` never fails, and returns the least position at which the pattern occurs entirely within
the range, or null if there is none. -/
theorem C11_find (text pattern : Bytes) (from? length : Option Int)
    (hs : (text.length : Int) ≤ 2 ^ 63 - 1) (hf : OptI64 from?) (hl : OptI64 length) :
    let b := sliceBegin text.length from?
    let e := sliceEnd text.length from? length
    (∃ i : Nat, find text from? length pattern = .ok (some i) ∧ OccursIn text pattern b e i ∧
        ∀ j, OccursIn text pattern b e j → i ≤ j) ∨
      (find text from? length pattern = .ok none ∧ ∀ j, ¬ OccursIn text pattern b e j) := by
  intro b e
  have hbe : b ≤ e := sliceBegin_le_end _ _ _
  have hel : e ≤ text.length := sliceEnd_le _ _ _
  unfold find
  rw [C10_slice_bounds _ hs _ _ hf hl]
  simp only [Res.bind]
  have hsl := sub_length text b e hel
  by_cases hp : pattern.length = 0
  · have : doFindOpt false (sub text b e) pattern = .ok (some 0) := by unfold doFindOpt; rw [if_pos hp]
    rw [this]
    have hnil := List.length_eq_zero_iff.1 hp
    refine Or.inl ⟨b, by simp [Res.map, b], ⟨Nat.le_refl _, by omega, by rw [hnil]; exact List.nil_prefix⟩,
      fun j hj => hj.1⟩
  · have hred : doFindOpt false (sub text b e) pattern = bmhSearch false (sub text b e) pattern := by
      unfold doFindOpt bmhSearch
      rw [if_neg hp, if_neg hp]
      split
      · rw [if_pos (by omega)]
      · rfl
    obtain ⟨r, hr, hfound⟩ := bmhSearch_spec false (sub text b e) pattern (by omega)
    rw [hred, hr]
    cases r with
    | none =>
      refine Or.inr ⟨rfl, fun j ⟨h1, h2, h3⟩ => ?_⟩
      apply hfound (j - b) (by omega)
      rw [at_sub text pattern b e _ (by omega), show b + (j - b) = j by omega]
      exact h3
    | some i =>
      obtain ⟨-, h2, h3, h4⟩ := hfound
      refine Or.inl ⟨b + i, by simp [Res.map, b], ⟨by omega, by omega, ?_⟩, fun j ⟨g1, g2, g3⟩ => ?_⟩
      · exact (at_sub text pattern b e i (by omega)).1 h3
      · by_contra hlt
        apply h4 (j - b) (by omega) (by omega)
        rw [at_sub text pattern b e _ (by omega), show b + (j - b) = j by omega]
        exact g3

/-- C11: `rfind` returns the greatest position at which the pattern occurs entirely within the range. -/
theorem C11_rfind (text pattern : Bytes) (from? length : Option Int)
    (hs : (text.length : Int) ≤ 2 ^ 63 - 1) (hf : OptI64 from?) (hl : OptI64 length) :
    let b := sliceBegin text.length from?
    let e := sliceEnd text.length from? length
    (∃ i : Nat, rfind text from? length pattern = .ok (some i) ∧ OccursIn text pattern b e i ∧
        ∀ j, OccursIn text pattern b e j → j ≤ i) ∨
      (rfind text from? length pattern = .ok none ∧ ∀ j, ¬ OccursIn text pattern b e j) := by
  intro b e
  have hbe : b ≤ e := sliceBegin_le_end _ _ _
  have hel : e ≤ text.length := sliceEnd_le _ _ _
  unfold rfind
  rw [C10_slice_bounds _ hs _ _ hf hl]
  simp only [Res.bind]
  have hsl := sub_length text b e hel
  by_cases hp : pattern.length = 0
  · have : doFindOpt true (sub text b e).reverse pattern.reverse = .ok (some 0) := by
      unfold doFindOpt; rw [if_pos (by simpa using hp)]
    have hb : sub text (sliceBegin text.length from?) (sliceEnd text.length from? length) = sub text b e := rfl
    rw [hb, this]
    have hnil := List.length_eq_zero_iff.1 hp
    refine Or.inl ⟨e, by simp [Res.map, hp, e], ⟨hbe, by omega, by rw [hnil]; exact List.nil_prefix⟩,
      fun j hj => by have := hj.2.1; omega⟩
  · have hred : doFindOpt true (sub text b e).reverse pattern.reverse =
        bmhSearch true (sub text b e).reverse pattern.reverse := by
      unfold doFindOpt bmhSearch
      simp only [List.length_reverse]
      rw [if_neg hp, if_neg hp]
      split
      · rw [if_pos (by omega)]
      · rfl
    obtain ⟨r, hr, hfound⟩ := bmhSearch_spec true (sub text b e).reverse pattern.reverse
      (by rw [List.length_reverse]; omega)
    have hb : sub text (sliceBegin text.length from?) (sliceEnd text.length from? length) = sub text b e := rfl
    rw [hb, hred, hr]
    have hrev : ∀ j, OccursIn text pattern b e j →
        At (sub text b e).reverse pattern.reverse (e - j - pattern.length) := by
      intro j ⟨g1, g2, g3⟩
      rw [at_reverse _ _ _ (by omega), hsl,
        show e - b - (e - j - pattern.length) - pattern.length = j - b by omega,
        at_sub text pattern b e _ (by omega), show b + (j - b) = j by omega]
      exact g3
    cases r with
    | none => exact Or.inr ⟨rfl, fun j hj => hfound _ (Nat.zero_le _) (hrev j hj)⟩
    | some i =>
      obtain ⟨-, h2, h3, h4⟩ := hfound
      simp only [List.length_reverse] at h2
      rw [at_reverse _ _ _ (by omega), hsl, at_sub text pattern b e _ (by omega)] at h3
      refine Or.inl ⟨e - i - pattern.length, ?_, ⟨by omega, by omega, ?_⟩, fun j hj => ?_⟩
      · show Res.ok (some _) = _
        have he' : sliceEnd text.length from? length = e := rfl
        rw [he']
        congr 2; simp only; omega
      · rwa [show b + (e - b - i - pattern.length) = e - i - pattern.length by omega] at h3
      · by_contra hlt
        have := hj.2.1
        exact h4 _ (Nat.zero_le _) (by omega) (hrev j hj)

example : find [97, 98, 97, 98, 97] none none [97, 98] = .ok (some 0) ∧
    rfind [97, 98, 97, 98, 97] none none [97, 98] = .ok (some 2) ∧
    find [97, 98, 97, 98, 97] (some 1) none [97, 98] = .ok (some 2) ∧
    rfind [97, 98, 97, 98, 97] none (some 3) [97, 98] = .ok (some 0) ∧
    find (List.replicate 40 120 ++ [97, 98]) none none [97, 98] = .ok (some 40) := by decide +kernel
example : OccursIn [97, 98, 97, 98, 97] [97, 98] 1 5 2 := ⟨by decide, by decide, ⟨[97], rfl⟩⟩

/-! ## C12 -/

/-- `Subst p repl t out`: `out` is `t` with the leftmost non-overlapping occurrences of `p`, scanned from
left to right, replaced. -/
inductive Subst (p repl : Bytes) : Bytes → Bytes → Prop
  | done (t) : (∀ i, ¬ p <+: t.drop i) → Subst p repl t t
  | step (pre rest out) : (∀ j, j < pre.length → ¬ p <+: (pre ++ p ++ rest).drop j) →
      Subst p repl rest out → Subst p repl (pre ++ p ++ rest) (pre ++ repl ++ out)

theorem split_at (t p : Bytes) (i : Nat) (h : At t p i) :
    t = t.take i ++ p ++ t.drop (i + p.length) := by
  rw [at_iff] at h
  have h' := List.prefix_iff_eq_take.1 h
  conv => lhs; rw [← List.take_append_drop i t, ← List.take_append_drop p.length (t.drop i), ← h']
  rw [List.drop_drop, List.append_assoc]

theorem replaceLoop_spec (p repl : Bytes) (hp : 0 < p.length) (t : Bytes) :
    ∃ out, replaceLoop p repl t = .ok out ∧ Subst p repl t out := by
  induction hn : t.length using Nat.strongRecOn generalizing t with
  | _ n ih =>
    obtain ⟨r, hr, hf⟩ := bmhSearch_spec false t p hp
    unfold replaceLoop
    rw [hr]
    cases r with
    | none =>
      exact ⟨t, rfl, .done t fun i hi => hf i (Nat.zero_le _) ((at_iff t p i).2 hi)⟩
    | some i =>
      obtain ⟨-, h2, h3, h4⟩ := hf
      simp only
      rw [if_pos ⟨hp, h2⟩]
      obtain ⟨out, ho, hsub⟩ := ih _ (by simp; omega) (t.drop (i + p.length)) rfl
      rw [ho]
      refine ⟨_, rfl, ?_⟩
      have hsplit := split_at t p i h3
      have hst := Subst.step (repl := repl) (t.take i) (t.drop (i + p.length)) out (fun j hj => by
        rw [← hsplit]
        intro hc
        exact h4 j (Nat.zero_le _) (by simp at hj; omega) ((at_iff t p j).2 hc)) hsub
      rwa [← hsplit] at hst

/-- C12: with a non-empty pattern, `replace` keeps what is outside of the range, and inside replaces the
leftmost non-overlapping occurrences. -/
theorem C12_replace (text p repl : Bytes) (from? length : Option Int) (hp : p ≠ [])
    (hs : (text.length : Int) ≤ 2 ^ 63 - 1) (hf : OptI64 from?) (hl : OptI64 length) :
    ∃ pre mid post out, text = pre ++ mid ++ post ∧ pre.length = sliceBegin text.length from? ∧
      pre.length + mid.length = sliceEnd text.length from? length ∧ Subst p repl mid out ∧
      replace text from? length p repl = .ok (pre ++ out ++ post) := by
  have hbe := sliceBegin_le_end text.length from? length
  have hel := sliceEnd_le text.length from? length
  unfold replace
  rw [C10_slice_bounds _ hs _ _ hf hl]
  generalize sliceBegin text.length from? = b at *
  generalize sliceEnd text.length from? length = e at *
  simp only [Res.bind]
  have hpl : 0 < p.length := List.length_pos_iff.2 hp
  have hsplit : text = sub text 0 b ++ sub text b e ++ sub text e text.length := by
    simp only [sub, List.drop_zero, List.take_length]
    have : (text.take e).drop b ++ text.drop e = text.drop b := by
      conv => rhs; rw [← List.take_append_drop e text]
      rw [List.drop_append_of_le_length (by simp; omega)]
    rw [List.append_assoc, this, List.take_append_drop]
  have hlen0 : (sub text 0 b).length = b := by simp [sub]; omega
  have hlen1 := sub_length text b e hel
  split
  · next h =>
    refine ⟨_, _, _, sub text b e, hsplit, hlen0, by omega, ?_, by rw [← hsplit]⟩
    have : sub text b e = [] := List.length_eq_zero_iff.1 (by omega)
    rw [this]
    refine .done _ fun i hi => ?_
    have := hi.length_le
    simp at this
    exact hp this
  · rw [if_neg (by omega)]
    obtain ⟨out, ho, hsub⟩ := replaceLoop_spec p repl hpl (sub text b e)
    rw [ho]
    exact ⟨_, _, _, out, hsplit, hlen0, by omega, hsub, rfl⟩

/-- The relation determines the result, so `C12_replace` pins `replace` down. -/
theorem C12_subst_functional (p repl : Bytes) (t o₁ o₂ : Bytes) (h₁ : Subst p repl t o₁)
    (h₂ : Subst p repl t o₂) : o₁ = o₂ := by
  induction h₁ generalizing o₂ with
  | done t h =>
    cases h₂ with
    | done => rfl
    | step pre rest out h' =>
      exact absurd (by simp) (h pre.length)
  | step pre rest out h hs ih =>
    generalize ht : pre ++ p ++ rest = t at h₂
    cases h₂ with
    | done _ h' => subst ht; exact absurd (by simp) (h' pre.length)
    | step pre' rest' out' h' hs' =>
      have hlen : pre.length = pre'.length := by
        rcases Nat.lt_trichotomy pre.length pre'.length with hlt | he | hgt
        · have := h' pre.length hlt
          rw [← ht] at this
          exact absurd (by simp) this
        · exact he
        · have := h pre'.length hgt
          rw [ht] at this
          exact absurd (by simp) this
      rw [List.append_assoc, List.append_assoc] at ht
      obtain ⟨rfl, h2⟩ := List.append_inj ht hlen
      have h3 := List.append_cancel_left h2
      subst h3
      rw [ih _ hs']

/-- C12: replacing a pattern with itself is the identity. -/
theorem C12_replace_self (text p : Bytes) (from? length : Option Int) (hp : p ≠ [])
    (hs : (text.length : Int) ≤ 2 ^ 63 - 1) (hf : OptI64 from?) (hl : OptI64 length) :
    replace text from? length p p = .ok text := by
  obtain ⟨pre, mid, post, out, h1, -, -, h2, h3⟩ := C12_replace text p p from? length hp hs hf hl
  have : out = mid := by
    clear h3
    clear h1
    induction h2 with
    | done => rfl
    | step pre rest out _ _ ih => rw [ih]
  rw [h3, this, ← h1]

/-- C12: an empty pattern matches beside every byte of a non-empty range: the result is the replacement
followed by, for each byte, this byte and the replacement. -/
theorem C12_replace_empty (text repl : Bytes) (from? length : Option Int)
    (hs : (text.length : Int) ≤ 2 ^ 63 - 1) (hf : OptI64 from?) (hl : OptI64 length)
    (hne : sliceBegin text.length from? < sliceEnd text.length from? length) :
    ∃ pre mid post, text = pre ++ mid ++ post ∧ pre.length = sliceBegin text.length from? ∧
      pre.length + mid.length = sliceEnd text.length from? length ∧
      replace text from? length [] repl =
        .ok (pre ++ (repl ++ mid.flatMap fun c => c :: repl) ++ post) := by
  have hel := sliceEnd_le text.length from? length
  unfold replace
  rw [C10_slice_bounds _ hs _ _ hf hl]
  generalize sliceBegin text.length from? = b at *
  generalize sliceEnd text.length from? length = e at *
  simp only [Res.bind]
  rw [if_neg (by omega), if_pos List.length_nil]
  have hsplit : text = sub text 0 b ++ sub text b e ++ sub text e text.length := by
    simp only [sub, List.drop_zero, List.take_length]
    have : (text.take e).drop b ++ text.drop e = text.drop b := by
      conv => rhs; rw [← List.take_append_drop e text]
      rw [List.drop_append_of_le_length (by simp; omega)]
    rw [List.append_assoc, this, List.take_append_drop]
  have hlen0 : (sub text 0 b).length = b := by simp [sub]; omega
  have hlen1 := sub_length text b e hel
  have hins : ∀ l : Bytes, insertBeside repl l = repl ++ l.flatMap fun c => c :: repl := by
    intro l
    induction l with
    | nil => simp [insertBeside]
    | cons c cs ih => simp [insertBeside, ih]
  exact ⟨_, _, _, hsplit, hlen0, by omega, by rw [hins]⟩

/-- C12: an empty range is left alone. -/
theorem C12_replace_empty_range (text p repl : Bytes) (from? length : Option Int)
    (hs : (text.length : Int) ≤ 2 ^ 63 - 1) (hf : OptI64 from?) (hl : OptI64 length)
    (he : sliceBegin text.length from? = sliceEnd text.length from? length) :
    replace text from? length p repl = .ok text := by
  unfold replace
  rw [C10_slice_bounds _ hs _ _ hf hl]
  simp only [Res.bind]
  rw [if_pos he]

example : replace [97, 97, 97, 98] none none [97, 97] [120] = .ok [120, 97, 98] ∧
    replace [97, 98] none none [] [45] = .ok [45, 97, 45, 98, 45] ∧
    replace [97, 97, 97, 97] (some 1) (some 2) [97] [98, 99] = .ok [97, 98, 99, 98, 99, 97] := by
  decide +kernel

/-! ## C13 -/

theorem explodeBytes_join (rlimit : Option Nat) (n : Nat) (t : Bytes) :
    (explodeBytes rlimit n t).flatten = t := by
  induction t generalizing n with
  | nil => rfl
  | cons c cs ih =>
    unfold explodeBytes
    split
    · simp [ih]
    · simp

theorem implode_flatten (delim : Option Bytes) (h : delim.getD [] = []) (l : List Bytes) :
    implode l delim = l.flatten := by
  cases l with
  | nil => rfl
  | cons s ss =>
    simp only [implode, List.flatten_cons]
    congr 1
    induction ss with
    | nil => rfl
    | cons s ss ih => simp [implodeTail, h, ih]

theorem explodeLoop_spec (delim : Bytes) (hd : 0 < delim.length) (rlimit : Option Nat) (n : Nat) (t : Bytes) :
    ∃ s ss, explodeLoop delim rlimit n t = .ok (s :: ss) ∧ implode (s :: ss) (some delim) = t ∧
      (rlimit = none → ∀ x ∈ s :: ss, ¬ delim <:+: x) ∧
      (∀ x ∈ (s :: ss).dropLast, ¬ delim <:+: x) ∧
      (∀ L, rlimit = some L → n < L → n + (s :: ss).length ≤ L ∧
        (n + (s :: ss).length < L → ∀ x ∈ s :: ss, ¬ delim <:+: x)) := by
  induction hn : t.length using Nat.strongRecOn generalizing t n with
  | _ m ih =>
    have hinfix : ∀ x : Bytes, (∀ i, ¬ delim <+: x.drop i) → ¬ delim <:+: x := by
      rintro x h ⟨a, c, hx⟩
      apply h a.length
      rw [← hx]
      simp
    unfold explodeLoop
    split
    · next hlim =>
      obtain ⟨r, hr, hf⟩ := bmhSearch_spec false t delim hd
      rw [hr]
      cases r with
      | none =>
        have hno := hinfix t fun i hi => hf i (Nat.zero_le _) ((at_iff t delim i).2 hi)
        refine ⟨t, [], rfl, by simp [implode, implodeTail], ?_, by simp, ?_⟩
        · intro _ x hx; simp at hx; rw [hx]; exact hno
        · intro L hL hlt
          refine ⟨by simp; omega, fun _ x hx => ?_⟩
          simp at hx; rw [hx]; exact hno
      | some i =>
        obtain ⟨-, h2, h3, h4⟩ := hf
        simp only
        rw [if_pos ⟨hd, h2⟩]
        obtain ⟨s, ss, ho, himp, hn1, hn2, hn3⟩ := ih _ (by simp; omega) (n + 1) (t.drop (i + delim.length)) rfl
        rw [ho]
        have hno : ¬ delim <:+: t.take i := by
          apply hinfix
          intro j hj
          have hjl : j + delim.length ≤ i := by
            have := hj.length_le
            simp at this
            omega
          apply h4 j (Nat.zero_le _) (by omega)
          rw [at_iff]
          refine hj.trans ?_
          rw [List.drop_take]
          exact List.take_prefix _ _
        refine ⟨t.take i, s :: ss, rfl, ?_, ?_, ?_, ?_⟩
        · have hsplit := split_at t delim i h3
          conv => rhs; rw [hsplit, ← himp]
          simp [implode, implodeTail]
        · intro hnone x hx
          rcases List.mem_cons.1 hx with rfl | hx
          · exact hno
          · exact hn1 hnone x hx
        · intro x hx
          rw [List.dropLast_cons_of_ne_nil (by simp)] at hx
          rcases List.mem_cons.1 hx with rfl | hx
          · exact hno
          · exact hn2 x hx
        · intro L hL hlt
          simp only [hL, Option.all_some, decide_eq_true_eq] at hlim
          obtain ⟨h5, h6⟩ := hn3 L hL (by omega)
          refine ⟨by simp at h5 ⊢; omega, fun hlt' x hx => ?_⟩
          rcases List.mem_cons.1 hx with rfl | hx
          · exact hno
          · exact h6 (by simp at hlt' ⊢; omega) x hx
    · next hlim =>
      refine ⟨t, [], rfl, by simp [implode, implodeTail], ?_, by simp, ?_⟩
      · intro hnone; rw [hnone] at hlim; simp at hlim
      · intro L hL hlt
        rw [hL] at hlim
        simp at hlim ⊢
        omega

/-- C13: `implode(explode(text, delim, limit), delim)` is `text`, for every delimiter (or none) and every
positive limit (or none). -/
theorem C13_implode_explode (text : Bytes) (delim : Option Bytes) (limit : Option Int)
    (hlim : ∀ l, limit = some l → 0 < l) :
    ∃ segs, explode text delim limit = .ok segs ∧ implode segs delim = text := by
  have h0 : limit.any (· ≤ 0) = false := by
    cases limit with
    | none => rfl
    | some l => have := hlim l rfl; simp; omega
  unfold explode
  rw [h0]
  simp only [Bool.false_eq_true, if_false]
  split
  · next h => exact ⟨[], rfl, (List.length_eq_zero_iff.1 h).symm⟩
  · split
    · next h =>
      have hd : delim.getD [] = [] := by
        cases delim with
        | none => rfl
        | some d => simpa using h
      exact ⟨_, rfl, by rw [implode_flatten _ hd, explodeBytes_join]⟩
    · next h =>
      cases delim with
      | none => simp at h
      | some d =>
        simp at h
        obtain ⟨s, ss, h1, h2, -⟩ := explodeLoop_spec d (List.length_pos_iff.2 h)
          (limit.map Int.toNat) 0 text
        exact ⟨_, h1, h2⟩

/-- C13: with a non-empty delimiter and a non-empty text, no segment but the last contains the
delimiter; neither does the last one unless the limit has been reached; there are at most `limit`
segments. -/
theorem C13_segments (text d : Bytes) (limit : Option Int) (ht : text ≠ []) (hd : d ≠ [])
    (hlim : ∀ l, limit = some l → 0 < l) :
    ∃ segs, explode text (some d) limit = .ok segs ∧ segs ≠ [] ∧
      (∀ x ∈ segs.dropLast, ¬ d <:+: x) ∧
      (∀ l, limit = some l → (segs.length : Int) ≤ l) ∧
      ((∀ l, limit = some l → (segs.length : Int) < l) → ∀ x ∈ segs, ¬ d <:+: x) := by
  have h0 : limit.any (· ≤ 0) = false := by
    cases limit with
    | none => rfl
    | some l => have := hlim l rfl; simp; omega
  unfold explode
  rw [h0]
  simp only [Bool.false_eq_true, if_false]
  rw [if_neg (by simpa using ht), if_neg (by simpa using hd)]
  obtain ⟨s, ss, h1, -, h2, h3, h4⟩ := explodeLoop_spec d (List.length_pos_iff.2 hd)
          (limit.map Int.toNat) 0 text
  refine ⟨_, h1, by simp, h3, ?_, ?_⟩
  · intro l hl
    have := (h4 l.toNat (by rw [hl]; rfl) (by have := hlim l hl; omega)).1
    have := hlim l hl
    omega
  · intro hlt
    cases limit with
    | none => exact h2 rfl
    | some l =>
      have h5 := hlt l rfl
      have := hlim l rfl
      exact (h4 l.toNat rfl (by omega)).2 (by omega)

/-- C13: without a delimiter or with an empty one, every segment but possibly the last is one byte, all
are if the limit is not reached, and there are at most `limit` segments. -/
theorem C13_bytes (text : Bytes) (delim : Option Bytes) (limit : Option Int)
    (hd : delim = none ∨ delim = some []) (hlim : ∀ l, limit = some l → 0 < l) :
    ∃ segs, explode text delim limit = .ok segs ∧ (∀ x ∈ segs.dropLast, x.length = 1) ∧
      (∀ l, limit = some l → (segs.length : Int) ≤ l) ∧
      ((∀ l, limit = some l → (segs.length : Int) < l) → segs = text.map fun c => [c]) := by
  have h0 : limit.any (· ≤ 0) = false := by
    cases limit with
    | none => rfl
    | some l => have := hlim l rfl; simp; omega
  have key : ∀ (t : Bytes) (n : Nat) (R : Option Nat), (∀ L, R = some L → n < L) →
      (∀ x ∈ (explodeBytes R n t).dropLast, x.length = 1) ∧
      (∀ L, R = some L → n + (explodeBytes R n t).length ≤ L) ∧
      ((∀ L, R = some L → n + (explodeBytes R n t).length < L) →
        explodeBytes R n t = t.map fun c => [c]) := by
    intro t
    induction t with
    | nil => intro n R h; simp [explodeBytes]; exact fun L hL => Nat.le_of_lt (h L hL)
    | cons c cs ih =>
      intro n R h
      unfold explodeBytes
      split
      · next hR =>
        obtain ⟨g1, g2, g3⟩ := ih (n + 1) R (fun L hL => by rw [hL] at hR; simpa using hR)
        refine ⟨?_, fun L hL => ?_, fun hlt => ?_⟩
        · intro x hx
          by_cases he : explodeBytes R (n + 1) cs = []
          · rw [he] at hx; simp at hx
          · rw [List.dropLast_cons_of_ne_nil he] at hx
            rcases List.mem_cons.1 hx with rfl | hx
            · rfl
            · exact g1 x hx
        · have := g2 L hL; simp; omega
        · rw [g3 (fun L hL => by have := hlt L hL; simp at this; omega)]; rfl
      · next hR =>
        refine ⟨by simp, fun L hL => by have := h L hL; simp; omega, fun hlt => ?_⟩
        cases R with
        | none => simp at hR
        | some L => have := hlt L rfl; simp at this hR; omega
  have hall : delim.all (fun d => decide (d.length = 0)) = true := by rcases hd with rfl | rfl <;> rfl
  unfold explode
  rw [h0]
  simp only [Bool.false_eq_true, if_false, hall, if_true]
  split
  · next h =>
    have : text = [] := List.length_eq_zero_iff.1 h
    exact ⟨[], rfl, by simp, fun l hl => by have := hlim l hl; simp; omega, fun _ => by rw [this]; rfl⟩
  · obtain ⟨g1, g2, g3⟩ := key text 0 (limit.map Int.toNat) (fun L hL => by
      cases limit with
      | none => simp at hL
      | some l => have := hlim l rfl; simp at hL; omega)
    refine ⟨_, rfl, g1, fun l hl => ?_, fun hlt => g3 fun L hL => ?_⟩
    · have := g2 l.toNat (by rw [hl]; rfl)
      have := hlim l hl
      omega
    · cases limit with
      | none => simp at hL
      | some l => have := hlt l rfl; simp at hL; omega

/-- C13: exploding the empty string yields no segment; a limit that is not positive is an error. -/
theorem C13_edge (text : Bytes) (delim : Option Bytes) (limit : Option Int) :
    ((∃ l, limit = some l ∧ l ≤ 0) → explode text delim limit = .throw) ∧
    ((∀ l, limit = some l → 0 < l) → explode [] delim limit = .ok []) := by
  constructor
  · rintro ⟨l, rfl, hl⟩
    unfold explode
    rw [if_pos (by simpa using hl)]
  · intro hlim
    have h0 : limit.any (· ≤ 0) = false := by
      cases limit with
      | none => rfl
      | some l => have := hlim l rfl; simp; omega
    simp [explode, h0]

example : explode [97, 44, 98, 44, 44, 99] (some [44]) none = .ok [[97], [98], [], [99]] ∧
    explode [97, 44, 98, 44, 44, 99] (some [44]) (some 2) = .ok [[97], [98, 44, 44, 99]] ∧
    explode [97, 98, 99] none (some 2) = .ok [[97], [98, 99]] := by decide +kernel

/-! ## C16 -/

theorem doFindOf_none (set : Bytes) (m : Bool) (t : Bytes) (h : doFindOf set m t = none) :
    ∀ (i : Nat) (c : UInt8), t[i]? = some c → decide (c ∈ set) ≠ m := by
  induction t with
  | nil => simp
  | cons c cs ih =>
    unfold doFindOf at h
    split at h
    · simp at h
    · next hc =>
      intro i d hd
      cases i with
      | zero => simp at hd; rw [← hd]; exact hc
      | succ i =>
        have := Option.map_eq_none_iff.1 h
        exact ih this i d (by simpa using hd)

theorem doFindOf_some (set : Bytes) (m : Bool) (t : Bytes) (n : Nat) (h : doFindOf set m t = some n) :
    (∃ c, t[n]? = some c ∧ decide (c ∈ set) = m) ∧
      ∀ (i : Nat) (c : UInt8), i < n → t[i]? = some c → decide (c ∈ set) ≠ m := by
  induction t generalizing n with
  | nil => simp [doFindOf] at h
  | cons c cs ih =>
    unfold doFindOf at h
    split at h
    · next hc => simp at h; subst h; exact ⟨⟨c, rfl, hc⟩, fun i _ hi => by omega⟩
    · next hc =>
      obtain ⟨k, hk, rfl⟩ := Option.map_eq_some_iff.1 h
      obtain ⟨⟨d, h1, h2⟩, h3⟩ := ih k hk
      refine ⟨⟨d, by simpa using h1, h2⟩, fun i d hi hd => ?_⟩
      cases i with
      | zero => simp at hd; rw [← hd]; exact hc
      | succ i => exact h3 i d (by omega) (by simpa using hd)

/-- Position `i` of the range `[b, e)` holds a byte that is in `set` (`m = true`) or that is not in it
(`m = false`). -/
def Hit (text set : Bytes) (m : Bool) (b e i : Nat) : Prop :=
  b ≤ i ∧ i < e ∧ ∃ c, text[i]? = some c ∧ (c ∈ set ↔ m = true)

theorem decide_iff (p : Prop) [Decidable p] (m : Bool) : decide p = m ↔ (p ↔ m = true) := by
  cases m <;> by_cases hp : p <;> simp [hp]

/-- C16: `find_any_of` and `find_not_of` return the least matching position in the range. -/
theorem C16_find_of (m : Bool) (text set : Bytes) (from? length : Option Int)
    (hs : (text.length : Int) ≤ 2 ^ 63 - 1) (hf : OptI64 from?) (hl : OptI64 length) :
    let b := sliceBegin text.length from?
    let e := sliceEnd text.length from? length
    (∃ i : Nat, findOf m text from? length set = .ok (some i) ∧ Hit text set m b e i ∧
        ∀ j, Hit text set m b e j → i ≤ j) ∨
      (findOf m text from? length set = .ok none ∧ ∀ j, ¬ Hit text set m b e j) := by
  intro b e
  have hel : e ≤ text.length := sliceEnd_le _ _ _
  unfold findOf
  rw [C10_slice_bounds _ hs _ _ hf hl]
  have hb : sub text (sliceBegin text.length from?) (sliceEnd text.length from? length) = sub text b e := rfl
  simp only [Res.map, hb]
  have hget : ∀ i, b + i < e → (sub text b e)[i]? = text[b + i]? := by
    intro i hi
    unfold sub
    rw [List.getElem?_drop, List.getElem?_take_of_lt hi]
  have hsl := sub_length text b e hel
  cases hr : doFindOf set m (sub text b e) with
  | none =>
    refine Or.inr ⟨rfl, fun j ⟨h1, h2, c, h3, h4⟩ => ?_⟩
    apply doFindOf_none set m _ hr (j - b) c
    · rw [hget _ (by omega), show b + (j - b) = j by omega, h3]
    · rwa [decide_iff]
  | some n =>
    obtain ⟨⟨c, h1, h2⟩, h3⟩ := doFindOf_some set m _ n hr
    have hn : n < e - b := by
      have := (List.getElem?_eq_some_iff.1 h1).1; omega
    refine Or.inl ⟨b + n, by simp [b], ⟨by omega, by omega, c, by rw [← hget _ (by omega), h1],
      by rwa [← decide_iff]⟩, fun j ⟨g1, g2, d, g3, g4⟩ => ?_⟩
    by_contra hlt
    apply h3 (j - b) d (by omega)
    · rw [hget _ (by omega), show b + (j - b) = j by omega, g3]
    · rwa [decide_iff]

/-- C16: `rfind_any_of` and `rfind_not_of` return the greatest matching position in the range. -/
theorem C16_rfind_of (m : Bool) (text set : Bytes) (from? length : Option Int)
    (hs : (text.length : Int) ≤ 2 ^ 63 - 1) (hf : OptI64 from?) (hl : OptI64 length) :
    let b := sliceBegin text.length from?
    let e := sliceEnd text.length from? length
    (∃ i : Nat, rfindOf m text from? length set = .ok (some i) ∧ Hit text set m b e i ∧
        ∀ j, Hit text set m b e j → j ≤ i) ∨
      (rfindOf m text from? length set = .ok none ∧ ∀ j, ¬ Hit text set m b e j) := by
  intro b e
  have hel : e ≤ text.length := sliceEnd_le _ _ _
  unfold rfindOf
  rw [C10_slice_bounds _ hs _ _ hf hl]
  have hb : sub text (sliceBegin text.length from?) (sliceEnd text.length from? length) = sub text b e := rfl
  simp only [Res.map, hb]
  have hsl := sub_length text b e hel
  have hget : ∀ i, i < e - b → (sub text b e).reverse[i]? = text[e - 1 - i]? := by
    intro i hi
    rw [List.getElem?_reverse (by omega), hsl]
    unfold sub
    rw [List.getElem?_drop, List.getElem?_take_of_lt (by omega)]
    congr 1; omega
  cases hr : doFindOf set m (sub text b e).reverse with
  | none =>
    refine Or.inr ⟨rfl, fun j ⟨h1, h2, c, h3, h4⟩ => ?_⟩
    apply doFindOf_none set m _ hr (e - 1 - j) c
    · rw [hget _ (by omega), show e - 1 - (e - 1 - j) = j by omega, h3]
    · rwa [decide_iff]
  | some n =>
    obtain ⟨⟨c, h1, h2⟩, h3⟩ := doFindOf_some set m _ n hr
    have hn : n < e - b := by
      have := (List.getElem?_eq_some_iff.1 h1).1; simp at this; omega
    refine Or.inl ⟨e - 1 - n, ?_, ⟨by omega, by omega, c, by rw [← hget _ (by omega), h1],
      by rwa [← decide_iff]⟩, fun j ⟨g1, g2, d, g3, g4⟩ => ?_⟩
    · show Res.ok (some _) = _
      have he' : sliceEnd text.length from? length = e := rfl
      rw [he']
      congr 2; simp only; omega
    by_contra hlt
    apply h3 (e - 1 - j) d (by omega)
    · rw [hget _ (by omega), show e - 1 - (e - 1 - j) = j by omega, g3]
    · rwa [decide_iff]

example : findOf true [97, 98, 99, 100] none none [99, 98] = .ok (some 1) ∧
    rfindOf false [97, 98, 99, 100] none (some 3) [99] = .ok (some 1) ∧
    rfindOf true [97, 98, 99, 100] (some (-2)) none [97] = .ok none := by decide

/-! ## C14 -/

/-- `l` is the longest prefix of `text` that consists of rejected bytes. -/
def LeadingRejected (rej text l rest : Bytes) : Prop :=
  text = l ++ rest ∧ (∀ c ∈ l, c ∈ rej) ∧ ∀ c ∈ rest.head?, c ∉ rej

/-- `l` is the longest suffix of `text` that consists of rejected bytes. -/
def TrailingRejected (rej text rest l : Bytes) : Prop :=
  text = rest ++ l ∧ (∀ c ∈ l, c ∈ rej) ∧ ∀ c ∈ rest.getLast?, c ∉ rej

theorem findNotOf_none {rej text : Bytes} (h : findNotOf rej text = none) : ∀ c ∈ text, c ∈ rej := by
  intro c hc
  obtain ⟨i, hi, rfl⟩ := List.getElem_of_mem hc
  have := doFindOf_none rej false text h i _ (List.getElem?_eq_getElem hi)
  simpa using this

theorem findNotOf_some {rej text : Bytes} {n : Nat} (h : findNotOf rej text = some n) :
    n < text.length ∧ LeadingRejected rej text (text.take n) (text.drop n) := by
  obtain ⟨⟨c, h1, h2⟩, h3⟩ := doFindOf_some rej false text n h
  have hn := (List.getElem?_eq_some_iff.1 h1).1
  refine ⟨hn, (List.take_append_drop _ _).symm, ?_, ?_⟩
  · intro d hd
    obtain ⟨i, hi, rfl⟩ := List.getElem_of_mem hd
    simp only [List.length_take] at hi
    have := h3 i _ (by omega) (List.getElem?_eq_getElem (l := text) (by omega))
    simpa using this
  · intro d hd
    rw [List.head?_drop, h1] at hd
    simp at hd h2
    rw [← hd]; exact h2

theorem rfindNotOf_spec (rej text : Bytes) :
    rfindNotOfSucc rej text ≤ text.length ∧
      TrailingRejected rej text (text.take (rfindNotOfSucc rej text))
        (text.drop (rfindNotOfSucc rej text)) := by
  unfold rfindNotOfSucc
  cases hr : doFindOf rej false text.reverse with
  | none =>
    refine ⟨Nat.zero_le _, by simp, ?_, by simp⟩
    intro c hc
    exact findNotOf_none hr c (by simpa using hc)
  | some n =>
    obtain ⟨h1, h2, h3, h4⟩ := findNotOf_some hr
    simp only [List.length_reverse] at h1
    simp only
    refine ⟨by omega, (List.take_append_drop _ _).symm, ?_, ?_⟩
    · intro c hc
      apply h3
      have : text.reverse.take n = (text.drop (text.length - n)).reverse := by
        rw [List.take_reverse]
      rw [this]; simpa using hc
    · intro c hc
      apply h4
      rw [List.drop_reverse, List.head?_reverse]
      exact hc

/-- The bytes that are trimmed: the given ones, or space and tab. -/
def rejected (reject : Option Bytes) : Bytes :=
  match reject with
  | some r => r
  | none => [0x20, 0x09]

theorem getReject_eq (reject : Option Bytes) : getReject reject = rejected reject := by
  cases reject <;> rfl

theorem nil_of_not_head {rej rest : Bytes} (h : ∀ c ∈ rest, c ∈ rej) (h' : ∀ c ∈ rest.head?, c ∉ rej) :
    rest = [] := by
  cases rest with
  | nil => rfl
  | cons c cs => exact absurd (h c (by simp)) (h' c (by simp))

/-- C14: `triml` removes exactly the longest prefix of rejected bytes. -/
theorem C14_triml (text : Bytes) (reject : Option Bytes) :
    ∃ l, LeadingRejected (rejected reject) text l (triml text reject) := by
  unfold triml
  simp only [getReject_eq]
  split
  · next h =>
    refine ⟨[], rfl, by simp, ?_⟩
    intro c _ hc
    rw [List.length_eq_zero_iff.1 h] at hc; simp at hc
  · split
    · next h =>
      exact ⟨text, by simp, findNotOf_none h, by simp⟩
    · next n h =>
      have := (findNotOf_some h).2
      split
      · next h0 => subst h0; simp at this; exact ⟨[], this⟩
      · exact ⟨_, this⟩

/-- C14: `trimr` removes exactly the longest suffix of rejected bytes. -/
theorem C14_trimr (text : Bytes) (reject : Option Bytes) :
    ∃ l, TrailingRejected (rejected reject) text (trimr text reject) l := by
  unfold trimr
  simp only [getReject_eq]
  split
  · next h =>
    refine ⟨[], by simp, by simp, ?_⟩
    intro c _ hc
    rw [List.length_eq_zero_iff.1 h] at hc; simp at hc
  · obtain ⟨h1, h2⟩ := rfindNotOf_spec (rejected reject) text
    split
    · next h0 => rw [h0] at h2; simp at h2; exact ⟨_, h2⟩
    · split
      · next h0 => rw [h0] at h2; simp at h2; exact ⟨_, h2⟩
      · exact ⟨_, h2⟩

/-- C14: `trim` removes exactly the longest prefix of rejected bytes and, of what remains, the longest
suffix of rejected bytes. -/
theorem C14_trim (text : Bytes) (reject : Option Bytes) :
    ∃ l mid r, LeadingRejected (rejected reject) text l mid ∧
      TrailingRejected (rejected reject) mid (trim text reject) r := by
  unfold trim
  simp only [getReject_eq]
  split
  · next h =>
    have hnil := List.length_eq_zero_iff.1 h
    exact ⟨[], text, [], ⟨by simp, by simp, by simp [hnil]⟩, ⟨by simp, by simp, by simp [hnil]⟩⟩
  · split
    · next h =>
      exact ⟨text, [], [], ⟨by simp, findNotOf_none h, by simp⟩, ⟨by simp, by simp, by simp⟩⟩
    · next n h =>
      obtain ⟨hn, hlead⟩ := findNotOf_some h
      obtain ⟨h1, h2⟩ := rfindNotOf_spec (rejected reject) text
      generalize rfindNotOfSucc (rejected reject) text = ep at *
      have hnep : n < ep := by
        by_contra hge
        have hc : text[n] ∉ rejected reject := by
          apply hlead.2.2
          rw [List.head?_drop, List.getElem?_eq_getElem hn]; rfl
        apply hc
        apply h2.2.1
        apply List.mem_of_getElem? (i := n - ep)
        rw [List.getElem?_drop, show ep + (n - ep) = n by omega, List.getElem?_eq_getElem hn]
      have hsub : (text.drop n).take (ep - n) = (text.take ep).drop n := by
        rw [List.drop_take]
      have hT : TrailingRejected (rejected reject) (text.drop n) ((text.drop n).take (ep - n))
          (text.drop ep) := by
        refine ⟨?_, h2.2.1, ?_⟩
        · conv => lhs; rw [← List.take_append_drop (ep - n) (text.drop n)]
          rw [List.drop_drop, show n + (ep - n) = ep by omega]
        · intro c hc
          apply h2.2.2
          rw [hsub, List.getLast?_drop, if_neg (by simp; omega)] at hc
          exact hc
      split
      · next h0 =>
        obtain ⟨rfl, rfl⟩ := h0
        simp at hT hlead
        exact ⟨_, _, _, hlead, hT⟩
      · exact ⟨_, _, _, hlead, hT⟩

/-- The decompositions determine the result. -/
theorem C14_leading_unique (rej text l r l' r' : Bytes) (h : LeadingRejected rej text l r)
    (h' : LeadingRejected rej text l' r') : l = l' ∧ r = r' := by
  obtain ⟨h1, h2, h3⟩ := h
  obtain ⟨h1', h2', h3'⟩ := h'
  subst h1
  rcases List.append_eq_append_iff.1 h1' with ⟨a, ha, hb⟩ | ⟨a, ha, hb⟩
  · cases a with
    | nil => simp at ha hb; exact ⟨ha.symm, hb⟩
    | cons c a =>
      exfalso
      refine h3 c (by rw [hb]; simp) (h2' c (by rw [ha]; simp))
  · cases a with
    | nil => simp at ha hb; exact ⟨ha, hb.symm⟩
    | cons c a =>
      exfalso
      refine h3' c (by rw [hb]; simp) (h2 c (by rw [ha]; simp))

/-- C14: trimming twice is the same as trimming once. -/
theorem C14_idempotent (text : Bytes) (reject : Option Bytes) :
    triml (triml text reject) reject = triml text reject := by
  obtain ⟨l, h⟩ := C14_triml text reject
  obtain ⟨l', h'⟩ := C14_triml (triml text reject) reject
  have : LeadingRejected (rejected reject) (triml text reject) [] (triml text reject) :=
    ⟨rfl, by simp, h.2.2⟩
  exact (C14_leading_unique _ _ _ _ _ _ this h').2.symm

example : trim [32, 9, 97, 32, 98, 32] none = [97, 32, 98] ∧ triml [32, 97, 32] none = [97, 32] ∧
    trimr [32, 97, 32] none = [32, 97] ∧ trim [120, 97, 120] (some [120]) = [97] ∧
    trim [32, 97] (some []) = [32, 97] := by decide

/-! ## C15 -/

theorem padLoopL_spec (pad text : Bytes) (length k : Nat) (hp : 0 < pad.length) :
    ∃ n, padLoopL pad text length (List.replicate k pad).flatten = (List.replicate n pad).flatten ++ text ∧
      k ≤ n ∧ (n = k ∨ n * pad.length + text.length ≤ length) ∧
      length < n * pad.length + text.length + pad.length := by
  have hlen : ∀ k, ((List.replicate k pad).flatten).length = k * pad.length := by
    intro k; simp
  induction hm : length + 1 - k * pad.length using Nat.strongRecOn generalizing k with
  | _ m ih =>
    unfold padLoopL
    rw [hlen]
    split
    · next h =>
      have e : (List.replicate k pad).flatten ++ pad = (List.replicate (k + 1) pad).flatten := by
        rw [List.replicate_succ', List.flatten_append]; simp
      rw [e]
      have e2 : (k + 1) * pad.length = k * pad.length + pad.length := Nat.succ_mul _ _
      obtain ⟨n, h1, h2, h3, h4⟩ := ih _ (by omega) (k + 1) rfl
      refine ⟨n, h1, by omega, ?_, h4⟩
      rcases h3 with rfl | h3
      · right; omega
      · right; exact h3
    · next h => exact ⟨k, rfl, Nat.le_refl _, Or.inl rfl, by omega⟩

theorem padLoopR_spec (pad text : Bytes) (length k : Nat) (hp : 0 < pad.length) :
    ∃ n, padLoopR pad length (text ++ (List.replicate k pad).flatten) = text ++ (List.replicate n pad).flatten ∧
      k ≤ n ∧ (n = k ∨ n * pad.length + text.length ≤ length) ∧
      length < n * pad.length + text.length + pad.length := by
  have hlen : ∀ k, ((List.replicate k pad).flatten).length = k * pad.length := by
    intro k; simp
  induction hm : length + 1 - k * pad.length using Nat.strongRecOn generalizing k with
  | _ m ih =>
    unfold padLoopR
    rw [List.length_append, hlen]
    split
    · next h =>
      have e : text ++ (List.replicate k pad).flatten ++ pad =
          text ++ (List.replicate (k + 1) pad).flatten := by
        rw [List.replicate_succ', List.flatten_append]; simp
      rw [e]
      have e2 : (k + 1) * pad.length = k * pad.length + pad.length := Nat.succ_mul _ _
      obtain ⟨n, h1, h2, h3, h4⟩ := ih _ (by omega) (k + 1) rfl
      refine ⟨n, h1, by omega, ?_, h4⟩
      rcases h3 with rfl | h3
      · right; omega
      · right; exact h3
    · next h => exact ⟨k, rfl, Nat.le_refl _, Or.inl rfl, by omega⟩

/-- C15: the padding string: the given one, or a space. -/
def padding (p : Option Bytes) : Bytes :=
  match p with
  | some p => p
  | none => [0x20]

/-- C15: `padl` prepends as many copies of the padding as fit into `length`. -/
theorem C15_padl (text : Bytes) (length : Int) (p : Option Bytes) (hp : p ≠ some []) :
    ∃ n, padl text length p = .ok ((List.replicate n (padding p)).flatten ++ text) ∧
      (n = 0 ∨ ((n * (padding p).length + text.length : Nat) : Int) ≤ length) ∧
      length < ((n * (padding p).length + text.length + (padding p).length : Nat) : Int) := by
  have hpad : getPadding p = .ok (padding p) ∧ 0 < (padding p).length := by
    cases p with
    | none => exact ⟨rfl, by simp [padding]⟩
    | some q =>
      have : q ≠ [] := fun h => hp (by rw [h])
      exact ⟨by simp [getPadding, padding, this], by simpa [padding] using List.length_pos_iff.2 this⟩
  unfold padl
  rw [hpad.1]
  simp only [Res.map]
  have hpos := hpad.2
  generalize padding p = pad at *
  split
  · exact ⟨0, by simp, Or.inl rfl, by omega⟩
  · obtain ⟨n, h1, -, h3, h4⟩ := padLoopL_spec pad text length.toNat 0 hpos
    exact ⟨n, by simpa using h1, h3.imp id (by omega), by omega⟩

/-- C15: `padr` appends as many copies of the padding as fit into `length`. -/
theorem C15_padr (text : Bytes) (length : Int) (p : Option Bytes) (hp : p ≠ some []) :
    ∃ n, padr text length p = .ok (text ++ (List.replicate n (padding p)).flatten) ∧
      (n = 0 ∨ ((n * (padding p).length + text.length : Nat) : Int) ≤ length) ∧
      length < ((n * (padding p).length + text.length + (padding p).length : Nat) : Int) := by
  have hpad : getPadding p = .ok (padding p) ∧ 0 < (padding p).length := by
    cases p with
    | none => exact ⟨rfl, by simp [padding]⟩
    | some q =>
      have : q ≠ [] := fun h => hp (by rw [h])
      exact ⟨by simp [getPadding, padding, this], by simpa [padding] using List.length_pos_iff.2 this⟩
  unfold padr
  rw [hpad.1]
  simp only [Res.map]
  have hpos := hpad.2
  generalize padding p = pad at *
  split
  · exact ⟨0, by simp, Or.inl rfl, by omega⟩
  · obtain ⟨n, h1, -, h3, h4⟩ := padLoopR_spec pad text length.toNat 0 hpos
    exact ⟨n, by simpa using h1, h3.imp id (by omega), by omega⟩

/-- C15: an empty padding string is an error. -/
theorem C15_empty (text : Bytes) (length : Int) :
    padl text length (some []) = .throw ∧ padr text length (some []) = .throw := by
  simp [padl, padr, getPadding, Res.map]

example : padl [97] 5 (some [45, 61]) = .ok [45, 61, 45, 61, 97] ∧
    padr [97] 4 (some [45, 61]) = .ok [97, 45, 61] ∧ padl [97] (-3) none = .ok [97] := by
  decide +kernel

end Asteria.StrSearch
