import Verif.Proof.ConfSound

/-!
# The parser accepts only what the grammar derives
-/

namespace Asteria.Conf

open ConfSpec
open JsonSpec (Item utf8)
open Utf (Scalar utf8Encode)

/-- What `numeric` gives. -/
def Num' (t : Bytes) (v : Value) : Prop := numeric t = .ok v

/-- The rest of a file and its tokens. -/
inductive Reads (e : End) : List Nat → List Tok → Prop
  | nil {s} : e = .eof → Last .code s → Reads e s []
  | cons {g t u r ts} : Gap .code g → Lexlike t u r → Reads e r ts → Reads e (g ++ (u ++ r)) (t :: ts)

theorem token_reads {e : End} {s r : List Nat} {tok : Bytes} (h : token e s = .ok (tok, r)) :
    (tok = [] ∧ r = [] ∧ Reads e s []) ∨ ∃ t, tok = code t ∧ Shape t ∧ ∀ ts, Reads e r ts → Reads e s (t :: ts) := by
  rcases token_inv h with ⟨h1, h2, h3, h4⟩ | ⟨g, t, u, rfl, h2, h3, h4, h5⟩
  · exact .inl ⟨h1, h2, .nil h3 h4⟩
  · exact .inr ⟨t, h3, h4, fun ts hr => .cons h2 h5 hr⟩

/-- Reading the rest of the current container and of those around it. -/
inductive Cont : Cur → List Frame → List Tok → Value → Prop
  | top {entries l ts} : Derives Num' 32 (.fields l) ts → (∀ x ∈ l, x.1 ∉ entries.map (·.1)) → Cont (.obj entries) [] ts (.obj (entries ++ l))
  | arr {items l f fs ts sep us v} : Derives Num' (32 - (fs.length + 1)) (.elems l) ts → Sep sep →
      Cont (f.fill (.arr (items ++ l))) fs us v → Cont (.arr items) (f :: fs) (ts ++ (.punct 0x5D :: (sep ++ us))) v
  | obj {entries l f fs ts sep us v} : Derives Num' (32 - (fs.length + 1)) (.fields l) ts → (∀ x ∈ l, x.1 ∉ entries.map (·.1)) → Sep sep →
      Cont (f.fill (.obj (entries ++ l))) fs us v → Cont (.obj entries) (f :: fs) (ts ++ (.punct 0x7D :: (sep ++ us))) v

theorem Cont.elem {items : List Value} {x v : Value} {stack : List Frame} {vs sep us : List Tok}
    (hx : Derives Num' (32 - stack.length) (.val x) vs) (hs : Sep sep) (h : Cont (.arr (items ++ [x])) stack us v) :
    Cont (.arr items) stack (vs ++ (sep ++ us)) v := by
  cases h with
  | @arr _ l f fs ts sep' us' _ hd hs' hc =>
    have := Cont.arr (items := items) (l := x :: l) (f := f) (fs := fs) (.elemsCons hx hs hd) hs' (by simpa using hc)
    simpa using this

theorem Cont.field {entries : List (Bytes × Value)} {k : Bytes} {x v : Value} {stack : List Frame} {t : Tok} {col vs sep us : List Tok}
    (hk : Key t k) (hn : k ∉ entries.map (·.1)) (hc : Colon col)
    (hx : Derives Num' (32 - stack.length) (.val x) vs) (hs : Sep sep) (h : Cont (.obj (entries ++ [(k, x)])) stack us v) :
    Cont (.obj entries) stack (t :: (col ++ (vs ++ (sep ++ us)))) v := by
  have key : ∀ {l : List (Bytes × Value)}, (∀ y ∈ l, y.1 ∉ (entries ++ [(k, x)]).map (·.1)) → k ∉ l.map (·.1) ∧ ∀ y ∈ (k, x) :: l, y.1 ∉ entries.map (·.1) := by
    intro l h
    refine ⟨?_, ?_⟩
    · intro hm
      obtain ⟨y, h1, h2⟩ := List.mem_map.1 hm
      apply h y h1
      simp [h2]
    · intro y hy
      rcases List.mem_cons.1 hy with rfl | hy
      · exact hn
      · intro hm
        apply h y hy
        rw [List.map_append, List.mem_append]
        exact .inl hm
  cases h with
  | @top _ l ts hd hl =>
    obtain ⟨k1, k2⟩ := key hl
    have := Cont.top (entries := entries) (.fieldsCons hk k1 hc hx hs hd) k2
    simpa using this
  | @obj _ l f fs ts sep' us' _ hd hl hs' hc' =>
    obtain ⟨k1, k2⟩ := key hl
    have := Cont.obj (entries := entries) (l := (k, x) :: l) (f := f) (fs := fs) (.fieldsCons hk k1 hc hx hs hd) k2 hs' (by simpa using hc')
    simpa using this

/-- What is known of a state from which the parser succeeds. -/
def Inv (e : End) (v : Value) : State → Prop
  | .pack tok s cur stack => ∀ t, tok = code t → Shape t → stack.length ≤ 32 ∧ ∃ ts, Reads e s ts ∧ Cont cur stack (t :: ts) v
  | .close tok s cur stack => (tok = [] → Cont cur stack [] v) ∧ ∀ t, tok = code t → Shape t → ∃ ts, Reads e s ts ∧ Cont cur stack (t :: ts) v

theorem ofNat_punct {c d : Nat} (hc : Punct c) (hd : Punct d) (h : UInt8.ofNat c = UInt8.ofNat d) : c = d := by
  have e := congrArg UInt8.toNat h
  rcases punct_cases hc with rfl | rfl | rfl | rfl | rfl | rfl | rfl | rfl <;>
    rcases punct_cases hd with rfl | rfl | rfl | rfl | rfl | rfl | rfl | rfl <;>
    first | rfl | exact absurd e (by decide)

theorem at0_punct {t : Tok} {c : Nat} (h : Shape t) (hc : Punct c) (he : at0 (code t) = UInt8.ofNat c) : t = .punct c := by
  by_contra hn
  exact at0_ne h hc hn he

theorem tokenSep_reads {e : End} {a b : Nat} (ha : Punct a) (hb : Punct b) {s r : List Nat} {tok : Bytes}
    (h : tokenSep e (UInt8.ofNat a) (UInt8.ofNat b) s = .ok (tok, r)) :
    ∃ sep, (sep = [] ∨ sep = [.punct a] ∨ sep = [.punct b]) ∧
      ((tok = [] ∧ r = [] ∧ Reads e s sep) ∨ ∃ t, tok = code t ∧ Shape t ∧ ∀ ts, Reads e r ts → Reads e s (sep ++ t :: ts)) := by
  obtain ⟨⟨tok1, s1⟩, h1, h2⟩ := bind_inv h
  dsimp only at h2
  split at h2
  · rename_i hab
    rcases token_reads h1 with ⟨rfl, _, _⟩ | ⟨t1, rfl, k2, k3⟩
    · exfalso
      rcases hab with hab | hab
      · rcases punct_cases ha with rfl | rfl | rfl | rfl | rfl | rfl | rfl | rfl <;> revert hab <;> decide
      · rcases punct_cases hb with rfl | rfl | rfl | rfl | rfl | rfl | rfl | rfl <;> revert hab <;> decide
    · have : t1 = .punct a ∨ t1 = .punct b := by
        rcases hab with hab | hab
        · exact .inl (at0_punct k2 ha hab)
        · exact .inr (at0_punct k2 hb hab)
      refine ⟨[t1], by rcases this with rfl | rfl <;> simp, ?_⟩
      rcases token_reads h2 with ⟨rfl, rfl, l3⟩ | ⟨t2, rfl, l2, l3⟩
      · exact .inl ⟨rfl, rfl, k3 _ l3⟩
      · exact .inr ⟨t2, rfl, l2, fun ts hr => k3 _ (l3 _ hr)⟩
  · cases h2
    refine ⟨[], .inl rfl, ?_⟩
    rcases token_reads h1 with ⟨rfl, rfl, l3⟩ | ⟨t2, rfl, l2, l3⟩
    · exact .inl ⟨rfl, rfl, l3⟩
    · exact .inr ⟨t2, rfl, l2, l3⟩

/-- After a value. -/
theorem put_inv {e : End} {x v : Value} {s : List Nat} {f : Frame} {stack : List Frame} {st : State} (h : put e x s f stack = .ok (.inl st))
    (hi : Inv e v st) : ∃ sep us, Sep sep ∧ Reads e s (sep ++ us) ∧ Cont (f.fill x) stack us v := by
  obtain ⟨⟨tok, r⟩, h1, h2⟩ := map_inv h
  cases h2
  obtain ⟨sep, h3, h4⟩ := tokenSep_reads (a := 0x2C) (b := 0x3B) (by simp [Punct]) (by simp [Punct]) h1
  rcases h4 with ⟨rfl, rfl, h5⟩ | ⟨t, rfl, h5, h6⟩
  · exact ⟨sep, [], h3, by simpa using h5, hi.1 rfl⟩
  · obtain ⟨ts, k1, k2⟩ := hi.2 t rfl h5
    exact ⟨sep, t :: ts, h3, h6 ts k1, k2⟩

theorem put_not_value {e : End} {x v : Value} {s : List Nat} {f : Frame} {stack : List Frame} (h : put e x s f stack = .ok (.inr v)) : False := by
  obtain ⟨a, _, h2⟩ := map_inv h
  cases h2

theorem elems_nil {num : Bytes → Value → Prop} {d : Nat} {ts : List Tok} (h : Derives num d (.elems []) ts) : ts = [] := by
  cases h; rfl

theorem fields_nil {num : Bytes → Value → Prop} {d : Nat} {ts : List Tok} (h : Derives num d (.fields []) ts) : ts = [] := by
  cases h; rfl

/-- A value. -/
theorem value_inv {e : End} {v : Value} {t : Tok} {s : List Nat} {f : Frame} {stack : List Frame} {st : State} (hsh : Shape t)
    (h : value e (code t) s f stack = .ok (.inl st)) (hi : Inv e v st) :
    ∃ x vs sep us ts, Reads e s ts ∧ t :: ts = vs ++ (sep ++ us) ∧ Derives Num' (32 - stack.length) (.val x) vs ∧ Sep sep ∧
      Cont (f.fill x) stack us v := by
  have scalar : ∀ {x : Value}, Derives Num' (32 - stack.length) (.val x) [t] → put e x s f stack = .ok (.inl st) →
      ∃ x vs sep us ts, Reads e s ts ∧ t :: ts = vs ++ (sep ++ us) ∧ Derives Num' (32 - stack.length) (.val x) vs ∧ Sep sep ∧
        Cont (f.fill x) stack us v := by
    intro x hd h
    obtain ⟨sep, us, k1, k2, k3⟩ := put_inv h hi
    exact ⟨x, [t], sep, us, sep ++ us, k2, rfl, hd, k1, k3⟩
  unfold value at h
  split at h
  · rename_i h0
    have ht := at0_punct (c := 0x5B) hsh (by simp [Punct]) h0
    subst ht
    obtain ⟨⟨tok1, s1⟩, h1, h2⟩ := bind_inv h
    dsimp only at h2
    split at h2
    · cases h2
    rename_i hne
    rcases token_reads h1 with ⟨e0, _, _⟩ | ⟨t1, rfl, k2, k3⟩
    · exact absurd e0 hne
    split at h2
    · rename_i hcl
      have h2 := Sum.inl.inj (Res.ok.inj h2)
      subst h2
      obtain ⟨hl, ts, k4, k5⟩ := hi t1 rfl k2
      rw [List.length_cons] at hl
      generalize hw : t1 :: ts = w at k5
      cases k5 with
      | @arr _ l _ _ us sep us' _ hd hs hc =>
        cases l with
        | nil =>
          rw [elems_nil hd, List.nil_append] at hw
          rw [(List.cons.inj hw).1] at hcl
          exact absurd rfl hcl
        | cons y ys =>
          refine ⟨.arr (y :: ys), .punct 0x5B :: (us ++ [.punct 0x5D]), sep, us', t1 :: ts, k3 _ k4, ?_, ?_, hs, by simpa using hc⟩
          · rw [hw]; simp
          · have := Derives.array hd
            rwa [show 32 - (stack.length + 1) + 1 = 32 - stack.length by omega] at this
    · rename_i hcl
      rw [not_not] at hcl
      have ht := at0_punct (c := 0x5D) k2 (by simp [Punct]) hcl
      subst ht
      obtain ⟨sep, us, l1, l2, l3⟩ := put_inv h2 hi
      exact ⟨.arr [], [.punct 0x5B, .punct 0x5D], sep, us, .punct 0x5D :: (sep ++ us), k3 _ l2, rfl, .noElems, l1, l3⟩
  split at h
  · rename_i h0
    have ht := at0_punct (c := 0x7B) hsh (by simp [Punct]) h0
    subst ht
    obtain ⟨⟨tok1, s1⟩, h1, h2⟩ := bind_inv h
    dsimp only at h2
    split at h2
    · cases h2
    rename_i hne
    rcases token_reads h1 with ⟨e0, _, _⟩ | ⟨t1, rfl, k2, k3⟩
    · exact absurd e0 hne
    split at h2
    · rename_i hcl
      have h2 := Sum.inl.inj (Res.ok.inj h2)
      subst h2
      obtain ⟨hl, ts, k4, k5⟩ := hi t1 rfl k2
      rw [List.length_cons] at hl
      generalize hw : t1 :: ts = w at k5
      cases k5 with
      | @obj _ l _ _ us sep us' _ hd _ hs hc =>
        cases l with
        | nil =>
          rw [fields_nil hd, List.nil_append] at hw
          rw [(List.cons.inj hw).1] at hcl
          exact absurd rfl hcl
        | cons y ys =>
          refine ⟨.obj (y :: ys), .punct 0x7B :: (us ++ [.punct 0x7D]), sep, us', t1 :: ts, k3 _ k4, ?_, ?_, hs, by simpa using hc⟩
          · rw [hw]; simp
          · have := Derives.object hd
            rwa [show 32 - (stack.length + 1) + 1 = 32 - stack.length by omega] at this
    · rename_i hcl
      rw [not_not] at hcl
      have ht := at0_punct (c := 0x7D) k2 (by simp [Punct]) hcl
      subst ht
      obtain ⟨sep, us, l1, l2, l3⟩ := put_inv h2 hi
      exact ⟨.obj [], [.punct 0x7B, .punct 0x7D], sep, us, .punct 0x7D :: (sep ++ us), k3 _ l2, rfl, .noMembers, l1, l3⟩
  split at h
  · rename_i h0
    obtain ⟨x, h1, h2⟩ := bind_inv h
    cases t with
    | num b => exact scalar (.number h1) h2
    | punct c =>
      exfalso
      have hc : Punct c := hsh
      rcases punct_cases hc with rfl | rfl | rfl | rfl | rfl | rfl | rfl | rfl <;> revert h0 <;> decide
    | word w =>
      exfalso
      have hl := ident1_iff.1 (show isIdent1 (at0 w).toNat = true from hsh)
      unfold Letter at hl
      rcases h0 with h0 | h0 | h0
      · rw [show at0 w = 0x2B from h0] at hl; revert hl; decide
      · rw [show at0 w = 0x2D from h0] at hl; revert hl; decide
      · have := digit_iff.1 h0
        unfold Digit at this
        have e : (at0 (code (.word w))).toNat = (at0 w).toNat := rfl
        omega
    | str b => exfalso; revert h0; show ¬ ((0x22 : UInt8) = 0x2B ∨ (0x22 : UInt8) = 0x2D ∨ isDigit (0x22 : UInt8).toNat = true); decide
  rename_i hnum
  split at h
  · rename_i h0
    cases t with
    | str b => exact scalar .string h
    | punct c =>
      exfalso
      have hc : Punct c := hsh
      rcases punct_cases hc with rfl | rfl | rfl | rfl | rfl | rfl | rfl | rfl <;> revert h0 <;> decide
    | num b => exact absurd hsh hnum
    | word w =>
      exfalso
      have hl := ident1_iff.1 (show isIdent1 (at0 w).toNat = true from hsh)
      rw [show at0 w = 0x22 from h0] at hl
      revert hl
      unfold Letter
      decide
  rename_i hstr
  have word : ∀ {w : Bytes}, code t = w → isIdent1 (at0 w).toNat = true → t = .word w := by
    intro w hw hi
    cases t with
    | word w' => simp only [code] at hw; rw [hw]
    | punct c =>
      exfalso
      subst hw
      have hc : Punct c := hsh
      rcases punct_cases hc with rfl | rfl | rfl | rfl | rfl | rfl | rfl | rfl <;> revert hi <;> decide
    | num b => exact absurd hsh hnum
    | str b => exact absurd rfl hstr
  split at h
  · rename_i h0
    have := word h0 (by decide)
    rw [show ([0x6E, 0x75, 0x6C, 0x6C] : Bytes) = "null".toUTF8.toList by decide +kernel] at this
    subst this
    exact scalar .null h
  split at h
  · rename_i h0
    have := word h0 (by decide)
    rw [show ([0x74, 0x72, 0x75, 0x65] : Bytes) = "true".toUTF8.toList by decide +kernel] at this
    subst this
    exact scalar .true h
  split at h
  · rename_i h0
    have := word h0 (by decide)
    rw [show ([0x66, 0x61, 0x6C, 0x73, 0x65] : Bytes) = "false".toUTF8.toList by decide +kernel] at this
    subst this
    exact scalar .false h
  · cases h

theorem value_not_value {e : End} {v : Value} {tok : Bytes} {s : List Nat} {f : Frame} {stack : List Frame}
    (h : value e tok s f stack = .ok (.inr v)) : False := by
  unfold value at h
  split at h
  · obtain ⟨x, _, h2⟩ := bind_inv h
    split at h2
    · cases h2
    split at h2
    · cases h2
    · exact put_not_value h2
  split at h
  · obtain ⟨x, _, h2⟩ := bind_inv h
    split at h2
    · cases h2
    split at h2
    · cases h2
    · exact put_not_value h2
  split at h
  · obtain ⟨x, _, h2⟩ := bind_inv h
    exact put_not_value h2
  split at h
  · exact put_not_value h
  split at h
  · exact put_not_value h
  split at h
  · exact put_not_value h
  split at h
  · exact put_not_value h
  · cases h

theorem key_inv {t : Tok} {k : Bytes} (hsh : Shape t) (h : key (code t) = some k) : Key t k := by
  unfold key at h
  split at h
  · rename_i h0
    cases t with
    | str b => cases h; exact .str
    | punct c =>
      exfalso
      have hc : Punct c := hsh
      rcases punct_cases hc with rfl | rfl | rfl | rfl | rfl | rfl | rfl | rfl <;> revert h0 <;> decide
    | num b =>
      exfalso
      have hsh : at0 b = 0x2B ∨ at0 b = 0x2D ∨ isDigit (at0 b).toNat = true := hsh
      rw [show at0 b = 0x22 from h0] at hsh
      revert hsh
      decide
    | word w =>
      exfalso
      have hl := ident1_iff.1 (show isIdent1 (at0 w).toNat = true from hsh)
      rw [show at0 w = 0x22 from h0] at hl
      revert hl
      unfold Letter
      decide
  · rename_i hq
    split at h
    · rename_i h0
      cases t with
      | word w => cases h; exact .word
      | str b => exact absurd rfl hq
      | punct c =>
        exfalso
        have hc : Punct c := hsh
        rcases punct_cases hc with rfl | rfl | rfl | rfl | rfl | rfl | rfl | rfl <;> revert h0 <;> decide
      | num b =>
        exfalso
        have hl := ident1_iff.1 (show isIdent1 (at0 b).toNat = true from h0)
        have hsh : at0 b = 0x2B ∨ at0 b = 0x2D ∨ isDigit (at0 b).toNat = true := hsh
        unfold Letter at hl
        rcases hsh with h1 | h1 | h1
        · rw [h1] at hl; revert hl; decide
        · rw [h1] at hl; revert hl; decide
        · have := digit_iff.1 h1
          unfold Digit at this
          omega
    · cases h

theorem value_empty {e : End} {s : List Nat} {f : Frame} {stack : List Frame} {st : State ⊕ Value} : value e [] s f stack ≠ .ok st := by
  unfold value
  rw [if_neg (by decide), if_neg (by decide), if_neg (by decide), if_neg (by decide), if_neg (by decide), if_neg (by decide), if_neg (by decide)]
  simp

theorem steps_inv {e : End} {v : Value} : ∀ (n : Nat) (st : State), steps e n st = .ok v → Inv e v st := by
  intro n
  induction n with
  | zero => intro st h; cases h
  | succ n ih =>
    intro st h
    obtain ⟨r, h1, h2⟩ := bind_inv h
    cases st with
    | pack tok s cur stack =>
      intro t ht hsh
      subst ht
      simp only [step] at h1
      split at h1
      · cases h1
      rename_i hl
      refine ⟨by omega, ?_⟩
      cases cur with
      | arr items =>
        dsimp only at h1
        cases r with
        | inr w => exact (value_not_value h1).elim
        | inl st =>
          obtain ⟨x, vs, sep, us, ts, k1, k2, k3, k4, k5⟩ := value_inv hsh h1 (ih st h2)
          exact ⟨ts, k1, by rw [k2]; exact .elem k3 k4 k5⟩
      | obj entries =>
        dsimp only at h1
        cases hk : key (code t) with
        | none => rw [hk] at h1; cases h1
        | some k =>
          rw [hk] at h1
          dsimp only at h1
          obtain ⟨⟨tok1, s1⟩, h3, h4⟩ := bind_inv h1
          dsimp only at h4
          split at h4
          · cases h4
          rename_i hdup
          obtain ⟨col, hcol, hor⟩ := tokenSep_reads (a := 0x3A) (b := 0x3D) (by simp [Punct]) (by simp [Punct]) h3
          rcases hor with ⟨rfl, _, _⟩ | ⟨t1, rfl, l2, l3⟩
          · exact (value_empty h4).elim
          cases r with
          | inr w => exact (value_not_value h4).elim
          | inl st =>
            obtain ⟨x, vs, sep, us, ts, k1, k2, k3, k4, k5⟩ := value_inv l2 h4 (ih st h2)
            refine ⟨col ++ t1 :: ts, l3 _ k1, ?_⟩
            rw [k2]
            exact .field (key_inv hsh hk) hdup hcol k3 k4 k5
    | close tok s cur stack =>
      simp only [step] at h1
      split at h1
      · rename_i ht
        refine ⟨fun _ => ?_, fun t e => ?_⟩
        · split at h1
          · cases h1
            cases h2
            rename_i en
            have := Cont.top (entries := en) (l := []) .fieldsNil (by simp)
            simpa using this
          · cases h1
        · intro hsh
          exact absurd (e ▸ ht) (code_ne hsh)
      · rename_i ht
        refine ⟨fun e => absurd e ht, fun t e => ?_⟩
        intro hsh
        subst e
        split at h1
        · cases h1
          exact (ih _ h2 t rfl hsh).2
        · rename_i hcl
          rw [not_not] at hcl
          cases stack with
          | nil => cases h1
          | cons f fs =>
            dsimp only at h1
            cases r with
            | inr w => exact (put_not_value h1).elim
            | inl st =>
              obtain ⟨sep, us, k1, k2, k3⟩ := put_inv h1 (ih st h2)
              cases cur with
              | arr items =>
                have := at0_punct (c := 0x5D) hsh (by simp [Punct]) hcl
                subst this
                have := Cont.arr (items := items) (l := []) (ts := []) (f := f) (fs := fs) .elemsNil k1 (by simpa [Cur.value] using k3)
                exact ⟨_, k2, by simpa using this⟩
              | obj entries =>
                have := at0_punct (c := 0x7D) hsh (by simp [Punct]) hcl
                subst this
                have := Cont.obj (entries := entries) (l := []) (ts := []) (f := f) (fs := fs) .fieldsNil (by simp) k1 (by simpa [Cur.value] using k3)
                exact ⟨_, k2, by simpa using this⟩

/-! ### Whole files -/

/-- All tokens that are numbers have values. -/
theorem derives_num {num : Bytes → Value → Prop} {d : Nat} {i : Item} {ts : List Tok} (h : Derives num d i ts) (t : Bytes) :
    .num t ∈ ts → ∃ v, num t v := by
  have sep : ∀ {sep : List Tok}, Sep sep → .num t ∉ sep := by
    rintro _ (rfl | rfl | rfl) <;> simp
  have col : ∀ {sep : List Tok}, Colon sep → .num t ∉ sep := by
    rintro _ (rfl | rfl | rfl) <;> simp
  induction h with
  | null => simp
  | true => simp
  | false => simp
  | number hn => intro hm; simp at hm; subst hm; exact ⟨_, hn⟩
  | string => simp
  | noElems => simp
  | noMembers => simp
  | array _ ih => intro hm; exact ih (by simpa using hm)
  | object _ ih => intro hm; exact ih (by simpa using hm)
  | elemsNil => simp
  | elemsCons _ hs _ ih1 ih2 =>
    intro hm
    simp only [List.mem_append] at hm
    rcases hm with hm | hm | hm
    · exact ih1 hm
    · exact absurd hm (sep hs)
    · exact ih2 hm
  | fieldsNil => simp
  | fieldsCons hk _ hc _ hs _ ih1 ih2 =>
    intro hm
    simp only [List.mem_append, List.mem_cons] at hm
    rcases hm with hm | hm | hm | hm | hm
    · cases hk <;> cases hm
    · exact absurd hm (col hc)
    · exact ih1 hm
    · exact absurd hm (sep hs)
    · exact ih2 hm

theorem reads_spells {e : End} {s : List Nat} {ts : List Tok} (h : Reads e s ts) (hn : ∀ t, .num t ∈ ts → ∃ v, numeric t = .ok v) :
    e = .eof ∧ Spells .code s ts := by
  induction h with
  | nil h1 h2 => exact ⟨h1, .nil h2⟩
  | cons hg hl _ ih =>
    obtain ⟨h1, h2⟩ := ih fun t ht => hn t (by simp [ht])
    refine ⟨h1, .cons hg ?_ h2⟩
    rcases hl with hl | ⟨b, rfl, hb, _⟩
    · exact hl
    · obtain ⟨v, hv⟩ := hn b (by simp)
      exact absurd hv (numeric_empty hb v)

theorem decode_inv : ∀ (n : Nat) (s : Bytes) (cs : List Nat), decode n s = (cs, .eof) → s = utf8 cs ∧ ∀ c ∈ cs, Scalar c := by
  intro n
  induction n with
  | zero => intro s cs h; cases h
  | succ n ih =>
    intro s cs h
    rw [decode] at h
    cases hl : Json.load s with
    | throw => rw [hl] at h; cases h
    | ub => rw [hl] at h; cases h
    | ok o =>
      rw [hl] at h
      cases o with
      | none =>
        cases h
        exact ⟨Json.load_none hl, by simp⟩
      | some x =>
        dsimp only at h
        obtain ⟨c, s'⟩ := x
        cases hd : decode n s' with
        | mk cs' e' =>
          rw [hd] at h
          cases h
          obtain ⟨k1, k2⟩ := ih _ _ hd
          obtain ⟨u, hu, rfl⟩ := Json.load_inv hl
          refine ⟨by rw [k1]; simp [utf8, hu], ?_⟩
          intro d hd
          rcases List.mem_cons.1 hd with rfl | hd
          · exact (Utf.C07_encode_domain _).1 ⟨u, hu⟩
          · exact k2 d hd

theorem loadConf_inv {file : Bytes} {v : Value} (h : loadConf file = .ok v) : File .code (fun t v => numeric t = .ok v) file v := by
  unfold loadConf at h
  cases hd : decode (file.length + 1) file with
  | mk cs e =>
    rw [hd] at h
    unfold run at h
    obtain ⟨⟨tok, s⟩, h1, h2⟩ := bind_inv h
    dsimp only at h1 h2
    have goal : ∀ l ts, Reads e (dropMark cs) ts → Derives Num' 32 (.fields l) ts → File .code (fun t v => numeric t = .ok v) file (.obj l) := by
      intro l ts hr hder
      obtain ⟨rfl, hsp⟩ := reads_spells hr (derives_num hder)
      obtain ⟨rfl, hsc⟩ := decode_inv _ _ _ hd
      have hm : ∃ m, (m = [] ∨ m = [0xFEFF]) ∧ cs = m ++ dropMark cs := by
        cases cs with
        | nil => exact ⟨[], .inl rfl, rfl⟩
        | cons c s =>
          unfold dropMark
          dsimp only
          split
          · rename_i hc; exact ⟨[0xFEFF], .inr rfl, by rw [hc]; rfl⟩
          · exact ⟨[], .inl rfl, rfl⟩
      obtain ⟨m, hm, hcs⟩ := hm
      rw [hcs] at hsc
      have := File.mk (num := fun t v => numeric t = .ok v) hm hsc hsp hder
      rwa [← hcs] at this
    split at h2
    · rename_i ht
      cases h2
      rcases token_reads h1 with ⟨_, _, k3⟩ | ⟨t, k1, k2, _⟩
      · exact goal [] [] k3 .fieldsNil
      · exact absurd (k1 ▸ ht) (code_ne k2)
    · rename_i ht
      rcases token_reads h1 with ⟨k1, _, _⟩ | ⟨t, rfl, k2, k3⟩
      · exact absurd k1 ht
      · obtain ⟨_, ts, k4, k5⟩ := steps_inv _ _ h2 t rfl k2
        generalize hw : t :: ts = w at k5
        cases k5 with
        | top hder _ =>
          rw [← hw] at hder
          rw [List.nil_append]
          exact goal _ _ (k3 _ k4) hder

/-! ### Numbers that have been read -/

section

open NumText (NumGet Cast castI lower raise castI_spec castI_large raise_cases toInt_pos toInt_neg)
open Lexer (pow_big lower_spec)
open Lexer.Spec (InRange Parts Meaning Kept)

theorem castI_trunc {neg more : Bool} {B m : Nat} {e : Int} {c : Cast} (hB : 2 ≤ B) (hm : m < 2 ^ 64)
    (h : castI ⟨false, neg, B, e, m, more⟩ = .ok c) (ho : c.ovfl = false) :
    c.value = (if neg then -(trunc B m e : Int) else trunc B m e) ∧ InRange c.value ∧ (m = 0 ∨ e ≤ 10000) := by
  unfold castI at h
  dsimp only at h
  rw [if_neg (by simp)] at h
  by_cases h0 : m = 0
  · rw [if_pos h0] at h
    cases h
    subst h0
    have : trunc B 0 e = 0 := by unfold trunc; split <;> simp
    rw [this]
    refine ⟨by simp, ⟨by simp, by simp⟩, .inl rfl⟩
  rw [if_neg h0] at h
  by_cases h1 : e < -10000
  · rw [if_pos h1] at h
    cases h
    have : trunc B m e = 0 := by
      unfold trunc
      rw [if_neg (by omega)]
      have := pow_big B (-e).toNat hB (by omega)
      exact Nat.div_eq_of_lt (by omega)
    rw [this]
    exact ⟨by simp, ⟨by simp, by simp⟩, .inr (by omega)⟩
  rw [if_neg h1] at h
  by_cases h2 : e > 10000
  · rw [if_pos h2] at h; cases h; cases ho
  rw [if_neg h2] at h
  by_cases h3 : (if e > 0 then raise B e.toNat m else (m, false)).2 = true
  · rw [if_pos h3] at h; cases h; cases ho
  rw [if_neg h3] at h
  have hl : (if e < 0 then lower B (-e).toNat m more else ((if e > 0 then raise B e.toNat m else (m, false)).1, more)).1 = trunc B m e := by
    unfold trunc
    by_cases he : e < 0
    · rw [if_pos he, if_neg (by omega), lower_spec B hB _ _ _ (by omega)]
    · rw [if_neg he, if_pos (show 0 ≤ e by omega)]
      dsimp only
      by_cases he' : e > 0
      · rw [if_pos he'] at h3 ⊢
        rcases raise_cases B (by omega) e.toNat m hm with h | h
        · exact absurd h h3
        · rw [h]
      · rw [if_neg he', show e.toNat = 0 by omega]
        simp
  generalize (if e < 0 then lower B (-e).toNat m more else ((if e > 0 then raise B e.toNat m else (m, false)).1, more)) = l at *
  rw [hl] at h
  generalize trunc B m e = t at *
  by_cases hx : e < 0 ∧ t = 0
  · rw [if_pos hx] at h
    cases h
    rw [hx.2]
    exact ⟨by simp, ⟨by simp, by simp⟩, .inr (by omega)⟩
  rw [if_neg hx] at h
  cases neg with
  | true =>
    simp only [if_true] at h ⊢
    by_cases hb : t ≤ 2 ^ 63
    · rw [if_neg (by simp; omega), toInt_neg _ hb] at h
      split at h
      · cases h
      · cases h
        exact ⟨rfl, ⟨by dsimp only; omega, by dsimp only; omega⟩, .inr (by omega)⟩
    · rw [if_pos (by simp; omega)] at h; cases h; cases ho
  | false =>
    simp only [Bool.false_eq_true, if_false] at h ⊢
    by_cases hb : t < 2 ^ 63
    · rw [if_neg (by simp; omega), toInt_pos _ hb] at h
      split at h
      · cases h
      · cases h
        exact ⟨rfl, ⟨by dsimp only; omega, by dsimp only; omega⟩, .inr (by omega)⟩
    · rw [if_pos (by simp; omega)] at h; cases h; cases ho

theorem trunc_approx {B m : Nat} {e E : Int} (hB : 2 ≤ B) (hm : m < 2 ^ 64) (h : Lexer.Approx e E) (he : m = 0 ∨ e ≤ 10000) :
    trunc B m e = trunc B m E := by
  rcases h with rfl | h
  · rfl
  rcases he with rfl | he
  · unfold trunc; split <;> split <;> simp
  rcases h with ⟨h, _⟩ | ⟨h, h'⟩
  · omega
  · have key : ∀ x : Int, x < -10000 → trunc B m x = 0 := by
      intro x hx
      unfold trunc
      rw [if_neg (by omega)]
      have := pow_big B (-x).toNat hB (by omega)
      exact Nat.div_eq_of_lt (by omega)
    rw [key e (by omega), key E (by omega)]

theorem castI_truncates {neg : Bool} {p : Parts} {g g' : NumGet} {c : Cast} (hf : p.frac = none)
    (hm : Meaning neg p g') (hn : Lexer.Near g g') (h : castI g = .ok c) (ho : c.ovfl = false) : Truncates neg p c.value := by
  obtain ⟨m, rest, hk, rfl⟩ := hm.kept
  obtain ⟨e, rfl, ha⟩ := hn
  dsimp only at ha h
  have hdig : p.digits = p.whole := by unfold Parts.digits; rw [hf]; simp
  rw [hdig] at hk
  rw [hf] at ha
  simp only [Option.getD_none, List.length_nil, Nat.cast_zero, sub_zero] at ha
  have hB : 2 ≤ p.radix := by unfold Parts.radix; split <;> omega
  obtain ⟨h1, h2, h3⟩ := castI_trunc hB hk.lt h ho
  rw [trunc_approx hB hk.lt ha h3] at h1
  exact ⟨⟨m, rest, hk, h1⟩, h2⟩

end

open Lexer.Spec (IsSign Numeral Parts Denotes) in
theorem numeric_read {s : List Nat} {t : Bytes} {v : Value} (h : Num s t) (hl : t.length ≤ 2 ^ 57) (hv : numeric t = .ok v) : NumRead t v := by
  obtain ⟨sgn, neg, u, p, rfl, hs, hn, c, w, rfl, hc⟩ := num_numeral h
  rw [List.length_append] at hl
  by_cases hf : p.frac = none
  · have h46 : 46 ∉ sgn ++ c :: w := by
      rw [List.mem_append, not_or]
      refine ⟨?_, frac_of_mem hn hf⟩
      rcases hs.prop with ⟨rfl, rfl⟩ | ⟨rfl, rfl⟩ | ⟨rfl, rfl⟩ <;> decide
    have hv' := hv
    obtain ⟨g, g', h1, h2, h3⟩ := Lexer.parseD_numeral hs ⟨c, w, rfl, hc⟩ (by omega) hn
    unfold numeric at hv
    rw [if_pos h46, parseI_eq h46 (special_none hs ⟨c, w, rfl, hc⟩), h1] at hv
    dsimp only at hv
    obtain ⟨r, h4, h5⟩ := bind_inv hv
    split at h5
    · cases h5
    rename_i ho
    cases h5
    refine .int hs hn hc hf (castI_truncates hf h2 h3 h4 (by simpa using ho)) fun w hw => ?_
    rw [numeric_int hs hn ⟨c, _, rfl, hc⟩ (by omega) hf hw] at hv'
    cases hv'
    rfl
  · obtain ⟨g, h1, h2⟩ := castReal_numeral hs hn ⟨c, w, rfl, hc⟩ (by omega)
    unfold numeric at hv
    rw [if_neg (not_not.2 (List.mem_append_right _ (mem_of_frac hn hf))), h1] at hv
    dsimp only at hv
    rcases h2 with ⟨_, x, h2, h3⟩ | ⟨_, h2 | ⟨x, h2, h3⟩⟩
    · rw [h2] at hv; cases hv; exact .real hs hn hc hf h3
    · rw [h2] at hv; cases hv
    · rw [h2] at hv; cases hv; exact .real hs hn hc hf h3

theorem derives_mono_mem {num num' : Bytes → Value → Prop} {d : Nat} {i : Item} {ts : List Tok} (h : Derives num d i ts) :
    (∀ t v, .num t ∈ ts → num t v → num' t v) → Derives num' d i ts := by
  induction h with
  | null => exact fun _ => .null
  | true => exact fun _ => .true
  | false => exact fun _ => .false
  | number hn => exact fun hm => .number (hm _ _ (by simp) hn)
  | string => exact fun _ => .string
  | noElems => exact fun _ => .noElems
  | noMembers => exact fun _ => .noMembers
  | array _ ih => exact fun hm => .array (ih fun t v h => hm t v (by simp [h]))
  | object _ ih => exact fun hm => .object (ih fun t v h => hm t v (by simp [h]))
  | elemsNil => exact fun _ => .elemsNil
  | elemsCons _ hs _ ih1 ih2 => exact fun hm => .elemsCons (ih1 fun t v h => hm t v (by simp [h])) hs (ih2 fun t v h => hm t v (by simp [h]))
  | fieldsNil => exact fun _ => .fieldsNil
  | fieldsCons hk hn hc _ hs _ ih1 ih2 =>
    exact fun hm => .fieldsCons hk hn hc (ih1 fun t v h => hm t v (by simp [h])) hs (ih2 fun t v h => hm t v (by simp [h]))

theorem spells_is_num {lv : Level} {cs : List Nat} {ts : List Tok} (h : Spells lv cs ts) (t : Bytes) (ht : .num t ∈ ts) : ∃ s, Num s t := by
  induction h with
  | nil _ => cases ht
  | cons _ hl _ ih =>
    rcases List.mem_cons.1 ht with rfl | ht
    · cases hl with
      | num hn => exact ⟨_, hn⟩
    · exact ih ht

theorem loadConf_read {file : Bytes} {v : Value} (hl : file.length ≤ 2 ^ 57) (h : loadConf file = .ok v) : File .code NumRead file v := by
  cases loadConf_inv h with
  | mk hm hs hsp hd =>
    refine .mk hm hs hsp (derives_mono_mem hd fun t v ht hv => ?_)
    obtain ⟨s, hn⟩ := spells_is_num hsp t ht
    have h1 := spells_num hsp t ht
    have h2 := utf8_length hs
    rw [List.length_append] at h2
    exact numeric_read hn (by omega) hv

theorem loadConf_int {file : Bytes} {v : Value} (hl : file.length ≤ 2 ^ 57) (h : File .sure IntVal file v) : loadConf file = .ok v := by
  cases h with
  | mk hm hs hsp hd =>
    refine loadConf_of (.mk hm hs hsp (derives_mono_mem hd fun t v ht hv => ?_))
    have h1 := spells_num hsp t ht
    have h2 := utf8_length hs
    rw [List.length_append] at h2
    cases hv with
    | int k1 k2 k3 k4 k5 =>
      rw [List.length_append] at h1
      exact numeric_int k1 k2 ⟨_, _, rfl, k3⟩ (by omega) k4 k5

/-! ### Strings -/

theorem spells_str {lv : Level} (hlv : lv ≠ .code) {cs : List Nat} {ts : List Tok} (h : Spells lv cs ts) (s : Bytes) (hs : .str s ∈ ts) :
    ∃ c, s = utf8 c := by
  induction h with
  | nil _ => cases hs
  | cons _ hl _ ih =>
    rcases List.mem_cons.1 hs with rfl | hs
    · cases hl with
      | single _ _ _ => exact ⟨_, rfl⟩
      | narrow h _ => exact absurd h hlv
      | double _ => exact ⟨_, rfl⟩
    · exact ih hs

theorem utf8_ne (c : List Nat) : utf8 c ≠ [0xE9] := by
  induction c with
  | nil => simp [utf8]
  | cons x c ih =>
    intro h
    have h : (utf8Encode x).getD [] ++ utf8 c = [0xE9] := h
    cases hx : utf8Encode x with
    | none => rw [hx] at h; exact ih h
    | some u =>
      rw [hx] at h
      unfold utf8Encode at hx
      split at hx
      · rename_i hlt
        cases hx
        have := congrArg (fun l => (l.headD 0).toNat) h
        change (UInt8.ofNat x).toNat = 0xE9 at this
        rw [UInt8.toNat_ofNat'] at this
        omega
      split at hx
      · cases hx
      split at hx
      · cases hx
        have := congrArg List.length h
        simp at this
      split at hx
      · cases hx
        have := congrArg List.length h
        simp at this
      · cases hx
        have := congrArg List.length h
        simp at this

end Asteria.Conf
