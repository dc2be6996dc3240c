import Verif.Proof.JsonLexeme

/-!
# `std.json.parse` accepts exactly the texts of the grammar
-/

namespace Asteria.Json

open JsonSpec (Blank Number utf8 Char Chars Str Item Denotes Start Text)
open NumText (NumGet parseBase)
open Utf (Scalar utf8Encode)

variable {castD : NumGet → Option Dbl} {total : Nat}

/-- The value of the text of a number. -/
def NumVal (castD : NumGet → Option Dbl) (t : Bytes) (x : Dbl) : Prop := ∃ g, parseBase 10 t = some (g, []) ∧ castD g = some x

/-! ### The parser, from one state to another -/

/-- What comes after an opening bracket, or after a comma in an array. -/
def nextA (total : Nat) (items : List Value) (ctx : Ctx) (fs : List Frame) : Res (State ⊕ Value) :=
  (token total ctx).bind fun t =>
    if t.2.eof then .throw
    else if at0 t.1 ≠ 0x5D then .ok (.inl (.pack t.1 t.2 (.arr items :: fs)))
    else .ok (.inl (.close (.arr items) t.2 fs))

/-- What comes after an opening brace, or after a comma in an object. -/
def nextO (total : Nat) (entries : List (Bytes × Value)) (ctx : Ctx) (fs : List Frame) : Res (State ⊕ Value) :=
  (token total ctx).bind fun t =>
    if t.2.eof then .throw
    else if at0 t.1 ≠ 0x7D then
      if at0 t.1 ≠ 0x22 then .throw
      else if t.1.drop 1 ∈ entries.map (·.1) then .throw
      else colon total t.2 fun tok ctx => .ok (.inl (.pack tok ctx (.obj entries (t.1.drop 1) :: fs)))
    else .ok (.inl (.close (.obj entries) t.2 fs))

theorem step_open_arr {tok : Bytes} {ctx : Ctx} {fs : List Frame} (h : fs.length ≤ 32) (ht : at0 tok = 0x5B) :
    step castD total (.pack tok ctx fs) = nextA total [] ctx fs := by
  rw [step, if_neg (by omega), if_pos ht]; rfl

theorem step_open_obj {tok : Bytes} {ctx : Ctx} {fs : List Frame} (h : fs.length ≤ 32) (ht : at0 tok = 0x7B) :
    step castD total (.pack tok ctx fs) = nextO total [] ctx fs := by
  rw [step, if_neg (by omega), if_neg (by rw [ht]; decide), if_pos ht, nextO]
  simp

theorem step_close_arr {v : Value} {ctx : Ctx} {items : List Value} {fs : List Frame} :
    step castD total (.close v ctx (.arr items :: fs)) =
      (token total ctx).bind fun t =>
        if t.2.eof then .throw
        else if at0 t.1 ≠ 0x5D then if at0 t.1 ≠ 0x2C then .throw else nextA total (items ++ [v]) t.2 fs
        else .ok (.inl (.close (.arr (items ++ [v])) t.2 fs)) := by
  rw [step]; rfl

theorem step_close_obj {v : Value} {ctx : Ctx} {entries : List (Bytes × Value)} {key : Bytes} {fs : List Frame} :
    step castD total (.close v ctx (.obj entries key :: fs)) =
      (token total ctx).bind fun t =>
        if t.2.eof then .throw
        else if at0 t.1 ≠ 0x7D then if at0 t.1 ≠ 0x2C then .throw else nextO total (entries ++ [(key, v)]) t.2 fs
        else .ok (.inl (.close (.obj (entries ++ [(key, v)])) t.2 fs)) := by
  rw [step]; rfl

/-! ### Every text that is accepted is in the grammar -/

theorem elems_blank {num : Bytes → Dbl → Prop} {d : Nat} {l : List Value} {e w : Bytes} (h : Denotes num d (.elems l) e)
    (hw : Blank w) : Denotes num d (.elems l) (e ++ w) := by
  cases h with
  | noElems h => exact .noElems (blank_append h hw)
  | elem h1 h2 h3 h4 =>
    rw [List.append_assoc, List.append_assoc, List.append_assoc, List.cons_append]
    exact .elem h1 h2 h3 (blank_append h4 hw)

theorem fields_blank {num : Bytes → Dbl → Prop} {d : Nat} {l : List (Bytes × Value)} {e w : Bytes}
    (h : Denotes num d (.fields l) e) (hw : Blank w) : Denotes num d (.fields l) (e ++ w) := by
  cases h with
  | noFields h => exact .noFields (blank_append h hw)
  | field h1 h2 h3 h4 h5 h6 h7 h8 =>
    have := Denotes.field h1 h2 h3 h4 h5 h6 h7 (blank_append h8 hw)
    simpa only [List.append_assoc, List.cons_append] using this

/-- The text before a value within the frames of the stack. -/
inductive Opened (num : Bytes → Dbl → Prop) : List Frame → Bytes → Prop
  | nil {p} : Start p → Opened num [] p
  | arr {fs p l e} : fs.length ≤ 32 → Opened num fs p → Denotes num (fs.length + 1) (.elems l) e →
      Opened num (.arr l :: fs) (p ++ 0x5B :: e)
  | obj {fs p l e k q w w'} : fs.length ≤ 32 → Opened num fs p → Denotes num (fs.length + 1) (.fields l) e → Str q k →
      k ∉ l.map (·.1) → Blank w → Blank w' → Opened num (.obj l k :: fs) (p ++ 0x7B :: (e ++ (q ++ (w ++ 0x3A :: w'))))

/-- What has been read. -/
def Read (castD : NumGet → Option Dbl) (text : Bytes) : State → Prop
  | .pack tok ctx fs => ∃ p u r, text = p ++ (u ++ r) ∧ Opened (NumVal castD) fs p ∧ Lexeme u tok ∧ At ctx r ∧ r.length < text.length
  | .close v ctx fs => ∃ p t r, text = p ++ (t ++ r) ∧ Opened (NumVal castD) fs p ∧
      Denotes (NumVal castD) fs.length (.val v) t ∧ At ctx r ∧ r.length < text.length

theorem At.eof {ctx : Ctx} {t : Bytes} (h : At ctx t) : ctx.eof = false := h.1

theorem tokenOf {ctx : Ctx} {r : Bytes} {t : Bytes × Ctx} (ha : At ctx r) (hr : r.length < total) (h : token total ctx = .ok t)
    (he : t.2.eof ≠ true) : ∃ w u r', r = w ++ (u ++ r') ∧ Blank w ∧ Lexeme u t.1 ∧ At t.2 r' ∧ r'.length < r.length := by
  rw [token_at ha hr] at h
  rcases tok0_inv (tok := t.1) (ctx := t.2) h with ⟨_, _, h⟩ | h
  · exact absurd h he
  · exact h

theorem nextA_sound {text p e r : Bytes} {items : List Value} {ctx : Ctx} {fs : List Frame} {y : State ⊕ Value}
    (hl : fs.length ≤ 32) (hp : Opened (NumVal castD) fs p) (he : Denotes (NumVal castD) (fs.length + 1) (.elems items) e)
    (ht : text = p ++ (0x5B :: (e ++ r))) (ha : At ctx r) (hr : r.length < text.length)
    (h : nextA text.length items ctx fs = .ok y) : ∃ st, y = .inl st ∧ Read castD text st := by
  obtain ⟨t, h1, h2⟩ := bind_ok h
  split at h2
  · cases h2
  rename_i heof
  obtain ⟨w, u, r', e1, e2, e3, e4, e5⟩ := tokenOf ha hr h1 heof
  split at h2
  · cases h2
    refine ⟨_, rfl, p ++ 0x5B :: (e ++ w), u, r', ?_, .arr hl hp (elems_blank he e2), e3, e4, by omega⟩
    rw [ht, e1]; simp
  · rename_i hc
    cases h2
    rw [e3.punct_inv (by simpa using hc) (by decide)] at e1
    refine ⟨_, rfl, p, 0x5B :: ((e ++ w) ++ [0x5D]), r', ?_, hp, .array hl (elems_blank he e2), e4, by omega⟩
    rw [ht, e1]; simp

theorem nextO_sound {text p e r : Bytes} {entries : List (Bytes × Value)} {ctx : Ctx} {fs : List Frame} {y : State ⊕ Value}
    (hl : fs.length ≤ 32) (hp : Opened (NumVal castD) fs p) (he : Denotes (NumVal castD) (fs.length + 1) (.fields entries) e)
    (ht : text = p ++ (0x7B :: (e ++ r))) (ha : At ctx r) (hr : r.length < text.length)
    (h : nextO text.length entries ctx fs = .ok y) : ∃ st, y = .inl st ∧ Read castD text st := by
  obtain ⟨t, h1, h2⟩ := bind_ok h
  split at h2
  · cases h2
  rename_i heof
  obtain ⟨w, u, r', e1, e2, e3, e4, e5⟩ := tokenOf ha hr h1 heof
  split at h2
  · split at h2
    · cases h2
    rename_i hc
    split at h2
    · cases h2
    rename_i hk
    obtain ⟨q, cs, s1, s2, s3⟩ := e3.string_inv (by simpa using hc)
    unfold colon at h2
    obtain ⟨t1, h3, h4⟩ := bind_ok h2
    split at h4
    · cases h4
    rename_i hcol
    have hne : t1.2.eof ≠ true := by
      intro heq
      rw [token_at e4 (by omega)] at h3
      rcases tok0_inv (tok := t1.1) (ctx := t1.2) h3 with ⟨_, h, _⟩ | ⟨_, _, _, _, _, _, h, _⟩
      · rw [h] at hcol
        exact hcol (by decide)
      · rw [h.eof] at heq; cases heq
    obtain ⟨w₁, u₁, r₁, f1, f2, f3, f4, f5⟩ := tokenOf e4 (by omega) h3 hne
    rw [f3.punct_inv (by simpa using hcol) (by decide)] at f1
    obtain ⟨t2, h5, h6⟩ := bind_ok h4
    split at h6
    · cases h6
    rename_i heof2
    cases h6
    obtain ⟨w₂, u₂, r₂, g1, g2, g3, g4, g5⟩ := tokenOf f4 (by omega) h5 heof2
    have hs : Str u (t.1.drop 1) := by
      rw [s2, s3]; exact .mk s1
    refine ⟨_, rfl, _, u₂, r₂, ?_, .obj hl hp (fields_blank he e2) hs hk f2 g2, g3, g4, by omega⟩
    rw [ht, e1, f1, g1]; simp
  · rename_i hc
    cases h2
    rw [e3.punct_inv (by simpa using hc) (by decide)] at e1
    refine ⟨_, rfl, p, 0x7B :: ((e ++ w) ++ [0x7D]), r', ?_, hp, .object hl (fields_blank he e2), e4, by omega⟩
    rw [ht, e1]; simp

theorem step_sound {text : Bytes} {st : State} {y : State ⊕ Value} (h : Read castD text st)
    (hs : step castD text.length st = .ok y) :
    (∃ st', y = .inl st' ∧ Read castD text st') ∨ ∃ v, y = .inr v ∧ Text (NumVal castD) text v := by
  cases st with
  | pack tok ctx fs =>
    obtain ⟨p, u, r, ht, hp, hu, ha, hr⟩ := h
    by_cases hl : fs.length > 32
    · rw [step, if_pos hl] at hs; cases hs
    have hl : fs.length ≤ 32 := by omega
    by_cases k1 : at0 tok = 0x5B
    · rw [step_open_arr hl k1] at hs
      rw [hu.punct_inv k1 (by decide)] at ht
      exact .inl (nextA_sound hl hp (.noElems blank_nil) ht ha hr hs)
    by_cases k2 : at0 tok = 0x7B
    · rw [step_open_obj hl k2] at hs
      rw [hu.punct_inv k2 (by decide)] at ht
      exact .inl (nextO_sound hl hp (.noFields blank_nil) ht ha hr hs)
    rw [step, if_neg (by omega), if_neg k1, if_neg k2] at hs
    have leaf : ∀ v, Denotes (NumVal castD) fs.length (.val v) u → y = .inl (.close v ctx fs) →
        (∃ st', y = .inl st' ∧ Read castD text st') ∨ ∃ v, y = .inr v ∧ Text (NumVal castD) text v :=
      fun v hv hy => .inl ⟨_, hy, p, u, r, ht, hp, hv, ha, hr⟩
    split at hs
    · rename_i k3
      obtain ⟨rfl, hn⟩ := hu.number_inv k3
      split at hs
      · rename_i g hg
        split at hs
        · rename_i d hd
          cases hs
          exact leaf _ (.number hl hn ⟨g, hg, hd⟩) rfl
        · cases hs
      · cases hs
    split at hs
    · rename_i k4
      obtain ⟨q, cs, s1, s2, s3⟩ := hu.string_inv k4
      cases hs
      refine leaf _ (.string hl ?_) rfl
      rw [s2, s3]; exact .mk s1
    rename_i k4
    have hu' := hu.same k4
    subst hu'
    split at hs
    · rename_i k5
      cases hs
      exact leaf _ (by rw [k5, ← w_null]; exact .null hl) rfl
    split at hs
    · rename_i k5
      cases hs
      exact leaf _ (by rw [k5, ← w_true]; exact .true hl) rfl
    split at hs
    · rename_i k5
      cases hs
      exact leaf _ (by rw [k5, ← w_false]; exact .false hl) rfl
    · cases hs
  | close v ctx fs =>
    obtain ⟨p, t, r, ht, hp, hv, ha, hr⟩ := h
    cases fs with
    | nil =>
      rw [step] at hs
      obtain ⟨x, h1, h2⟩ := bind_ok hs
      split at h2
      · cases h2
      rename_i hx
      cases h2
      rw [token_at ha hr] at h1
      rcases tok0_inv (tok := x.1) (ctx := x.2) h1 with ⟨hb, _, _⟩ | ⟨_, _, _, _, _, h, _⟩
      · cases hp with
        | nil hp => exact .inr ⟨v, rfl, ht ▸ .mk hp hv hb⟩
      · exact absurd h.ne.1 hx
    | cons f fs =>
      cases hp with
      | @arr _ p l e hl hp he =>
        rw [step_close_arr] at hs
        obtain ⟨x, h1, h2⟩ := bind_ok hs
        split at h2
        · cases h2
        rename_i heof
        obtain ⟨w, u, r', e1, e2, e3, e4, e5⟩ := tokenOf ha hr h1 heof
        split at h2
        · split at h2
          · cases h2
          rename_i hc
          rw [e3.punct_inv (by simpa using hc) (by decide)] at e1
          refine .inl (nextA_sound hl hp (.elem he hv e2 blank_nil) ?_ e4 (by omega) h2)
          rw [ht, e1]; simp
        · rename_i hc
          cases h2
          rw [e3.punct_inv (by simpa using hc) (by decide)] at e1
          refine .inl ⟨_, rfl, p, _, r', ?_, hp, .arrayLast hl he hv e2, e4, by omega⟩
          rw [ht, e1]; simp
      | @obj _ p l e k q w₁ w₂ hl hp he hq hk hw₁ hw₂ =>
        rw [step_close_obj] at hs
        obtain ⟨x, h1, h2⟩ := bind_ok hs
        split at h2
        · cases h2
        rename_i heof
        obtain ⟨w, u, r', e1, e2, e3, e4, e5⟩ := tokenOf ha hr h1 heof
        split at h2
        · split at h2
          · cases h2
          rename_i hc
          rw [e3.punct_inv (by simpa using hc) (by decide)] at e1
          refine .inl (nextO_sound hl hp (.field he hq hk hw₁ hw₂ hv e2 blank_nil) ?_ e4 (by omega) h2)
          rw [ht, e1]; simp
        · rename_i hc
          cases h2
          rw [e3.punct_inv (by simpa using hc) (by decide)] at e1
          refine .inl ⟨_, rfl, p, _, r', ?_, hp, .objectLast hl he hq hk hw₁ hw₂ hv e2, e4, by omega⟩
          rw [ht, e1]; simp

theorem steps_sound {text : Bytes} : ∀ (n : Nat) {st : State} {v : Value}, Read castD text st →
    steps castD text.length n st = .ok v → Text (NumVal castD) text v
  | 0, _, _, _, h => by cases h
  | n + 1, st, v, hi, h => by
    rw [steps] at h
    obtain ⟨y, h1, h2⟩ := bind_ok h
    rcases step_sound hi h1 with ⟨st', rfl, h3⟩ | ⟨v', rfl, h3⟩
    · exact steps_sound n h3 h2
    · cases h2; exact h3

theorem bom_enc : utf8Encode 0xFEFF = some [0xEF, 0xBB, 0xBF] := by decide +kernel

/-- The first token. -/
theorem token_first (text : Bytes) : token text.length ⟨none, false, text⟩ =
    match text with
    | 0xEF :: 0xBB :: 0xBF :: s => tok0 s
    | _ => tok0 text := by
  have nobom : (∀ s, text ≠ 0xEF :: 0xBB :: 0xBF :: s) → token text.length ⟨none, false, text⟩ = tok0 text := by
    intro hn
    unfold token tok0
    simp only
    cases hl : load text with
    | ok x =>
      cases x with
      | none => rfl
      | some x =>
        simp only [Res.bind]
        have : ¬ (True ∧ x.1 = 0xFEFF) := by
          rintro ⟨_, hx⟩
          obtain ⟨u, hu, ht⟩ := load_inv (c := x.1) (s := x.2) hl
          rw [hx, bom_enc] at hu
          cases hu
          exact hn _ ht
        rw [if_neg (by simpa using this)]
    | throw => rfl
    | ub => rfl
  split
  · rename_i s
    have := load_enc bom_enc s
    simp only [List.cons_append, List.nil_append] at this
    unfold token tok0
    simp only
    rw [this]
    simp only [Res.bind]
    rw [if_pos (by simp)]
    cases load s with
    | ok x => cases x <;> rfl
    | throw => rfl
    | ub => rfl
  · rename_i hn
    exact nobom fun s h => hn s h

theorem parse_sound {text : Bytes} {v : Value} (h : parse castD text = .ok v) : Text (NumVal castD) text v := by
  obtain ⟨t, h1, h2⟩ := bind_ok h
  split at h2
  · cases h2
  rename_i hne
  refine steps_sound _ ?_ h2
  rw [token_first] at h1
  have first : ∀ p s, text = p ++ s → (∀ w, Blank w → Start (p ++ w)) → tok0 s = .ok t → Read castD text (.pack t.1 t.2 []) := by
    intro p s hs hst ht
    rcases tok0_inv (tok := t.1) (ctx := t.2) ht with ⟨_, h, _⟩ | ⟨w, u, r, e1, e2, e3, e4, e5⟩
    · exact absurd h hne
    · refine ⟨p ++ w, u, r, by rw [hs, e1]; simp, .nil (hst w e2), e3, e4, ?_⟩
      rw [hs]; simp; omega
  split at h1
  · rename_i s
    exact first [0xEF, 0xBB, 0xBF] s rfl (fun w hw => .bom hw) h1
  · exact first [] text rfl (fun w hw => .plain hw) h1

/-! ### Every text of the grammar is accepted -/

/-- The rest of the parser. -/
def go (castD : NumGet → Option Dbl) (total n : Nat) (x : Res (State ⊕ Value)) : Res Value :=
  x.bind fun
    | .inl st => steps castD total n st
    | .inr v => .ok v

/-- The parser gets from one point to another. -/
def Runs (castD : NumGet → Option Dbl) (total : Nat) (x y : Res (State ⊕ Value)) : Prop :=
  ∃ k, ∀ n, go castD total (n + k) x = go castD total n y

theorem Runs.refl (x : Res (State ⊕ Value)) : Runs castD total x x := ⟨0, fun _ => rfl⟩

theorem Runs.trans {x y z : Res (State ⊕ Value)} (h : Runs castD total x y) (h' : Runs castD total y z) : Runs castD total x z := by
  obtain ⟨k, hk⟩ := h
  obtain ⟨l, hl⟩ := h'
  exact ⟨l + k, fun n => by rw [← Nat.add_assoc, hk, hl]⟩

theorem runs_step (st : State) : Runs castD total (.ok (.inl st)) (step castD total st) := ⟨1, fun _ => rfl⟩

theorem runs_to {st : State} {y : Res (State ⊕ Value)} (h : step castD total st = y) : Runs castD total (.ok (.inl st)) y :=
  h ▸ runs_step st

/-- What the parser does with the text of an item. -/
def Takes (castD : NumGet → Option Dbl) (total d : Nat) (t : Bytes) : Item → Prop
  | .val v => ∀ fs r ctx w, fs.length = d → View ctx (w ++ (t ++ r)) → Blank w → Delim r →
      ∃ tok c₁ c₂, token total ctx = .ok (tok, c₁) ∧ c₁.eof = false ∧ tok ≠ [] ∧ at0 tok ≠ 0x5D ∧ View c₂ r ∧
        Runs castD total (.ok (.inl (.pack tok c₁ fs))) (.ok (.inl (.close v c₂ fs)))
  | .elems l => ∀ fs r ctx, fs.length + 1 = d → View ctx (t ++ r) →
      ∃ ctx' w, Blank w ∧ View ctx' (w ++ r) ∧ Runs castD total (nextA total [] ctx fs) (nextA total l ctx' fs)
  | .fields l => ∀ fs r ctx, fs.length + 1 = d → View ctx (t ++ r) →
      ∃ ctx' w, Blank w ∧ View ctx' (w ++ r) ∧ Runs castD total (nextO total [] ctx fs) (nextO total l ctx' fs)

/-- A value of one token. -/
theorem takes_leaf {tok t : Bytes} {v : Value} {fs : List Frame} {r : Bytes} {ctx c : Ctx}
    (h1 : token total ctx = .ok (tok, c)) (h2 : c.eof = false) (h3 : tok ≠ []) (h4 : at0 tok ≠ 0x5D) (h5 : View c r)
    (h6 : step castD total (.pack tok c fs) = .ok (.inl (.close v c fs))) :
    ∃ tok c₁ c₂, token total ctx = .ok (tok, c₁) ∧ c₁.eof = false ∧ tok ≠ [] ∧ at0 tok ≠ 0x5D ∧ View c₂ r ∧
        Runs castD total (.ok (.inl (.pack tok c₁ fs))) (.ok (.inl (.close v c₂ fs))) :=
  ⟨tok, c, c, h1, h2, h3, h4, h5, runs_to h6⟩

theorem takes_word {b : UInt8} {u : Bytes} {v : Value} {fs : List Frame} {r : Bytes} {ctx : Ctx} {w : Bytes}
    (hb : isIdent1 b.toNat = true) (hu : ∀ b ∈ u, isIdent b.toNat = true)
    (hs : ∀ c, step castD total (.pack (b :: u) c fs) = .ok (.inl (.close v c fs)))
    (hv : View ctx (w ++ (b :: u ++ r))) (hw : Blank w) (hr : Delim r) :
    ∃ tok c₁ c₂, token total ctx = .ok (tok, c₁) ∧ c₁.eof = false ∧ tok ≠ [] ∧ at0 tok ≠ 0x5D ∧ View c₂ r ∧
        Runs castD total (.ok (.inl (.pack tok c₁ fs))) (.ok (.inl (.close v c₂ fs))) := by
  have h : b.toNat = 0x5F ∨ b.toNat = 0x24 ∨ 0x41 ≤ b.toNat ∧ b.toNat ≤ 0x5A ∨ 0x61 ≤ b.toNat ∧ b.toNat ≤ 0x7A := by
    simp [isIdent1] at hb; omega
  refine takes_leaf (t := []) (tok := b :: u) (c := ⟨(peek r).1, false, (peek r).2⟩) ?_ rfl (by simp) (word_facts hb).2.1
    (view_peek hr.ascii) (hs _)
  rw [List.cons_append] at hv
  rw [token_view total hv hw (by omega) (by simp [isWs]; omega), body_word hb hu hr]

/-- The token of a string. -/
theorem body_str' {q s r : Bytes} (h : Str q s) :
    ∃ u, q = 0x22 :: u ∧ body false (0x22 : UInt8).toNat (u ++ r) = .ok (0x22 :: s, ⟨none, false, r⟩) := by
  cases h with
  | mk h =>
    refine ⟨_, rfl, ?_⟩
    unfold body
    rw [if_neg (by decide +kernel), if_neg (by decide +kernel), if_neg (by decide +kernel), if_pos (by decide +kernel)]
    rw [List.append_assoc, List.singleton_append, strLoop_of h _ _ _ (by simp; omega)]
    rfl

theorem token_str' {q s r w : Bytes} {ctx : Ctx} (h : Str q s) (hv : View ctx (w ++ (q ++ r))) (hw : Blank w) :
    token total ctx = .ok (0x22 :: s, ⟨none, false, r⟩) := by
  obtain ⟨u, rfl, hb⟩ := body_str' (r := r) h
  rw [List.cons_append] at hv
  rw [token_view total hv hw (by decide +kernel) (by decide +kernel), hb]

theorem nextA_end {items : List Value} {ctx : Ctx} {fs : List Frame} {w r : Bytes} (hw : Blank w) (hv : View ctx (w ++ 0x5D :: r)) :
    nextA total items ctx fs = .ok (.inl (.close (.arr items) ⟨none, false, r⟩ fs)) := by
  unfold nextA
  rw [token_punct 0x5D hv hw (by decide)]
  rfl

theorem nextO_end {entries : List (Bytes × Value)} {ctx : Ctx} {fs : List Frame} {w r : Bytes} (hw : Blank w)
    (hv : View ctx (w ++ 0x7D :: r)) : nextO total entries ctx fs = .ok (.inl (.close (.obj entries) ⟨none, false, r⟩ fs)) := by
  unfold nextO
  rw [token_punct 0x7D hv hw (by decide)]
  rfl

/-- An element, up to what follows. -/
theorem nextA_elem {items : List Value} {v : Value} {ctx : Ctx} {fs : List Frame} {w t r : Bytes}
    (ht : Takes castD total (fs.length + 1) t (.val v)) (hw : Blank w) (hv : View ctx (w ++ (t ++ r))) (hr : Delim r) :
    ∃ c, View c r ∧ Runs castD total (nextA total items ctx fs) (.ok (.inl (.close v c (.arr items :: fs)))) := by
  obtain ⟨tok, c₁, c₂, h1, h2, h3, h4, h5, h6⟩ := ht (.arr items :: fs) r ctx w rfl hv hw hr
  refine ⟨c₂, h5, ?_⟩
  unfold nextA
  rw [h1]
  simp only [Res.bind, h2, Bool.false_eq_true, if_false]
  rw [if_pos h4]
  exact h6

/-- A member, up to what follows. -/
theorem nextO_field {entries : List (Bytes × Value)} {v : Value} {ctx : Ctx} {fs : List Frame} {w k q w₁ w₂ t r : Bytes}
    (ht : Takes castD total (fs.length + 1) t (.val v)) (hw : Blank w) (hq : Str q k) (hk : k ∉ entries.map (·.1))
    (hw₁ : Blank w₁) (hw₂ : Blank w₂) (hv : View ctx (w ++ (q ++ (w₁ ++ 0x3A :: (w₂ ++ (t ++ r)))))) (hr : Delim r) :
    ∃ c, View c r ∧ Runs castD total (nextO total entries ctx fs) (.ok (.inl (.close v c (.obj entries k :: fs)))) := by
  obtain ⟨tok, c₁, c₂, h1, h2, h3, h4, h5, h6⟩ := ht (.obj entries k :: fs) r _ w₂ rfl (.fresh _) hw₂ hr
  refine ⟨c₂, h5, ?_⟩
  unfold nextO
  rw [token_str' hq hv hw]
  simp only [Res.bind, Bool.false_eq_true, if_false]
  have a0 : at0 (0x22 :: k) = 0x22 := rfl
  have a1 : (0x22 :: k).drop 1 = k := rfl
  rw [a0, if_pos (by decide), if_neg (by decide), a1, if_neg hk]
  unfold colon
  rw [token_punct 0x3A (.fresh (w₁ ++ 0x3A :: (w₂ ++ (t ++ r)))) hw₁ (by decide)]
  simp only [Res.bind]
  have a2 : at0 [0x3A] = 0x3A := rfl
  rw [a2, if_neg (by decide), h1]
  simp only [h2, Bool.false_eq_true, if_false]
  exact h6

theorem delim_punct {c : UInt8} (h : c = 0x2C ∨ c = 0x5D ∨ c = 0x7D) (r : Bytes) : Delim (c :: r) := by
  intro b s hs
  cases hs
  rcases h with h | h | h
  · exact .inl h
  · exact .inr (.inl h)
  · exact .inr (.inr (.inl h))

theorem takes {d : Nat} {i : Item} {t : Bytes} (h : Denotes (NumVal castD) d i t) : Takes castD total d t i := by
  induction h with
  | @null d hd =>
    intro fs r ctx w hf hv hw hr
    rw [w_null] at hv
    refine takes_word (by decide +kernel) (by decide +kernel) (fun c => ?_) hv hw hr
    rw [step, if_neg (by omega), if_neg (by decide), if_neg (by decide), if_neg (by decide +kernel), if_neg (by decide),
      if_pos (by decide)]
  | @true d hd =>
    intro fs r ctx w hf hv hw hr
    rw [w_true] at hv
    refine takes_word (by decide +kernel) (by decide +kernel) (fun c => ?_) hv hw hr
    rw [step, if_neg (by omega), if_neg (by decide), if_neg (by decide), if_neg (by decide +kernel), if_neg (by decide),
      if_neg (by decide), if_pos (by decide)]
  | @false d hd =>
    intro fs r ctx w hf hv hw hr
    rw [w_false] at hv
    refine takes_word (by decide +kernel) (by decide +kernel) (fun c => ?_) hv hw hr
    rw [step, if_neg (by omega), if_neg (by decide), if_neg (by decide), if_neg (by decide +kernel), if_neg (by decide),
      if_neg (by decide), if_neg (by decide), if_pos (by decide)]
  | @number d t x hd hn hx =>
    intro fs r ctx w hf hv hw hr
    obtain ⟨g, hg, hcast⟩ := hx
    obtain ⟨b, u, ht, hb, hbody⟩ := body_number hn hr
    have hat := lexeme_number hn
    have hfa := number_facts hat
    have h : b.toNat = 0x2B ∨ b.toNat = 0x2D ∨ 0x30 ≤ b.toNat ∧ b.toNat ≤ 0x39 := by
      rcases hb with h | h | h
      · exact .inl h
      · exact .inr (.inl h)
      · exact .inr (.inr (isDigit_iff.1 h))
    refine takes_leaf (t := []) (tok := t) (c := ⟨(peek r).1, false, (peek r).2⟩) ?_ rfl (by rw [ht]; simp) hfa.2.1
      (view_peek hr.ascii) ?_
    · rw [ht, List.cons_append] at hv
      rw [token_view total hv hw (by omega) (by simp [isWs]; omega), hbody]
    · rw [step, if_neg (by omega), if_neg hfa.1, if_neg hfa.2.2.1, if_pos hat, hg]
      simp only
      rw [hcast]
  | @string d t s hd hs =>
    intro fs r ctx w hf hv hw hr
    refine takes_leaf (t := []) (token_str' hs hv hw) rfl (by simp) (by change (0x22 : UInt8) ≠ 0x5D; decide) (.fresh r) ?_
    have hb0 : at0 (0x22 :: s) = 0x22 := rfl
    rw [step, if_neg (by omega), hb0, if_neg (by decide), if_neg (by decide), if_neg (by decide +kernel), if_pos rfl]
    rfl
  | @array d l e hd he ih =>
    intro fs r ctx w hf hv hw hr
    rw [List.cons_append, List.append_assoc, List.singleton_append] at hv
    obtain ⟨c', w', k1, k2, k3⟩ := ih fs (0x5D :: r) _ (by omega) (.fresh _)
    refine ⟨_, _, _, token_punct 0x5B hv hw (by decide), rfl, by simp, by decide, .fresh r, ?_⟩
    refine (runs_to (step_open_arr (by omega) rfl)).trans (k3.trans ?_)
    rw [nextA_end k1 k2]
    exact .refl _
  | @arrayLast d l e v t u hd he hv' hu ih1 ih2 =>
    intro fs r ctx w hf hv hw hr
    simp only [List.cons_append, List.append_assoc, List.nil_append] at hv
    obtain ⟨c', w', k1, k2, k3⟩ := ih1 fs (t ++ (u ++ 0x5D :: r)) _ (by omega) (.fresh _)
    obtain ⟨c2, k4, k5⟩ := nextA_elem (items := l) (fs := fs) (hf ▸ ih2) k1 k2 (delim_blank hu (delim_punct (.inr (.inl rfl)) r))
    refine ⟨_, _, _, token_punct 0x5B hv hw (by decide), rfl, by simp, by decide, .fresh r, ?_⟩
    refine (runs_to (step_open_arr (by omega) rfl)).trans (k3.trans (k5.trans (runs_to ?_)))
    rw [step_close_arr, token_punct 0x5D k4 hu (by decide)]
    rfl
  | @noElems d w hw =>
    intro fs r ctx hf hv
    exact ⟨ctx, w, hw, hv, .refl _⟩
  | @elem d l e v t u u' he hv' hu hu' ih1 ih2 =>
    intro fs r ctx hf hv
    simp only [List.cons_append, List.append_assoc, List.nil_append] at hv
    obtain ⟨c', w', k1, k2, k3⟩ := ih1 fs (t ++ (u ++ 0x2C :: (u' ++ r))) _ (by omega) hv
    obtain ⟨c2, k4, k5⟩ := nextA_elem (items := l) (fs := fs) (hf ▸ ih2) k1 k2 (delim_blank hu (delim_punct (.inl rfl) _))
    refine ⟨_, u', hu', .fresh _, k3.trans (k5.trans (runs_to ?_))⟩
    rw [step_close_arr, token_punct 0x2C k4 hu (by decide)]
    rfl
  | @object d l e hd he ih =>
    intro fs r ctx w hf hv hw hr
    rw [List.cons_append, List.append_assoc, List.singleton_append] at hv
    obtain ⟨c', w', k1, k2, k3⟩ := ih fs (0x7D :: r) _ (by omega) (.fresh _)
    refine ⟨_, _, _, token_punct 0x7B hv hw (by decide), rfl, by simp, by decide, .fresh r, ?_⟩
    refine (runs_to (step_open_obj (by omega) rfl)).trans (k3.trans ?_)
    rw [nextO_end k1 k2]
    exact .refl _
  | @objectLast d l e k q v t u w₁ w₂ hd he hq hk hw₁ hw₂ hv' hu ih1 ih2 =>
    intro fs r ctx w hf hv hw hr
    simp only [List.cons_append, List.append_assoc, List.nil_append] at hv
    obtain ⟨c', w', k1, k2, k3⟩ := ih1 fs (q ++ (w₁ ++ 0x3A :: (w₂ ++ (t ++ (u ++ 0x7D :: r))))) _ (by omega) (.fresh _)
    obtain ⟨c2, k4, k5⟩ := nextO_field (entries := l) (fs := fs) (hf ▸ ih2) k1 hq hk hw₁ hw₂ k2
      (delim_blank hu (delim_punct (.inr (.inr rfl)) r))
    refine ⟨_, _, _, token_punct 0x7B hv hw (by decide), rfl, by simp, by decide, .fresh r, ?_⟩
    refine (runs_to (step_open_obj (by omega) rfl)).trans (k3.trans (k5.trans (runs_to ?_)))
    rw [step_close_obj, token_punct 0x7D k4 hu (by decide)]
    rfl
  | @noFields d w hw =>
    intro fs r ctx hf hv
    exact ⟨ctx, w, hw, hv, .refl _⟩
  | @field d l e k q v t u u' w₁ w₂ he hq hk hw₁ hw₂ hv' hu hu' ih1 ih2 =>
    intro fs r ctx hf hv
    simp only [List.cons_append, List.append_assoc, List.nil_append] at hv
    obtain ⟨c', w', k1, k2, k3⟩ := ih1 fs (q ++ (w₁ ++ 0x3A :: (w₂ ++ (t ++ (u ++ 0x2C :: (u' ++ r)))))) _ (by omega) hv
    obtain ⟨c2, k4, k5⟩ := nextO_field (entries := l) (fs := fs) (hf ▸ ih2) k1 hq hk hw₁ hw₂ k2
      (delim_blank hu (delim_punct (.inl rfl) _))
    refine ⟨_, u', hu', .fresh _, k3.trans (k5.trans (runs_to ?_))⟩
    rw [step_close_obj, token_punct 0x2C k4 hu (by decide)]
    rfl

/-! ### The bytes of a text of the grammar -/

theorem low_append {a b : Bytes} (ha : Low a) (hb : Low b) : Low (a ++ b) := by
  intro x hx
  rcases List.mem_append.1 hx with h | h
  · exact ha x h
  · exact hb x h

theorem low_cons {a : UInt8} {b : Bytes} (ha : a.toNat < 0xFC) (hb : Low b) : Low (a :: b) := by
  intro x hx
  rcases List.mem_cons.1 hx with rfl | h
  · exact ha
  · exact hb x h

theorem low_nil : Low [] := nofun

theorem low_blank {w : Bytes} (h : Blank w) : Low w := fun b hb => Nat.lt_trans (blank_ws h b hb).2 (by decide)

theorem low_digits {t : Bytes} (h : JsonSpec.Digits t) : Low t := fun b hb => Nat.lt_of_le_of_lt (h.2 b hb).2 (by decide)

theorem low_sign {t : Bytes} (h : JsonSpec.Sign t) : Low t := by
  rcases h with rfl | rfl | rfl
  · exact low_nil
  · exact low_cons (by decide) low_nil
  · exact low_cons (by decide) low_nil

theorem low_number {t : Bytes} (h : Number t) : Low t := by
  obtain ⟨s, i, f, e, hs, hi, hf, he, rfl⟩ := h
  refine low_append (low_sign hs) (low_append (low_digits hi) (low_append ?_ ?_))
  · rcases hf with rfl | ⟨d, hd, rfl⟩
    · exact low_nil
    · exact low_cons (by decide) (low_digits hd)
  · rcases he with rfl | ⟨c, s, d, hc, hs, hd, rfl⟩
    · exact low_nil
    · refine low_cons ?_ (low_append (low_sign hs) (low_digits hd))
      rcases hc with rfl | rfl <;> decide

theorem low_hex {h : Bytes} {n : Nat} (k : JsonSpec.Hex4 h n) : Low h := by
  have key : ∀ {b : UInt8} {n : Nat}, JsonSpec.HexDigit b n → b.toNat < 0xFC := by
    intro b n h
    cases h with
    | dec h => rw [Utf.ofNat_toNat]; omega
    | upper h => rw [Utf.ofNat_toNat]; omega
    | lower h => rw [Utf.ofNat_toNat]; omega
  cases k with
  | mk a b c d => exact low_cons (key a) (low_cons (key b) (low_cons (key c) (low_cons (key d) low_nil)))

theorem low_enc {c : Nat} {u : Bytes} (h : utf8Encode c = some u) : Low u := by
  unfold utf8Encode at h
  split at h
  · cases h
    exact low_cons (by rw [Utf.ofNat_toNat]; omega) low_nil
  split at h
  · cases h
  have e3 : ∀ sh, (Utf.encOne c sh 0x3F).toNat < 0xFC := fun sh => by rw [Utf.encOne_3F]; omega
  split at h
  · cases h
    exact low_cons (by rw [Utf.encOne_1F]; omega) (low_cons (e3 _) low_nil)
  split at h
  · cases h
    exact low_cons (by rw [Utf.encOne_0F]; omega) (low_cons (e3 _) (low_cons (e3 _) low_nil))
  · cases h
    exact low_cons (by rw [Utf.encOne_07]; omega) (low_cons (e3 _) (low_cons (e3 _) (low_cons (e3 _) low_nil)))

theorem low_char {u : Bytes} {c : Nat} (h : Char u c) : Low u := by
  cases h with
  | plain h => exact low_enc h
  | u h _ => exact low_cons (by decide) (low_cons (by decide) (low_hex h))
  | pair h k =>
    exact low_cons (by decide) (low_cons (by decide) (low_append (low_hex h) (low_cons (by decide) (low_cons (by decide) (low_hex k)))))
  | _ => exact low_cons (by decide) (low_cons (by decide) low_nil)

theorem low_str {q s : Bytes} (h : Str q s) : Low q := by
  cases h with
  | mk h =>
    refine low_cons (by decide) (low_append ?_ (low_cons (by decide) low_nil))
    induction h with
    | nil => exact low_nil
    | cons h _ ih => exact low_append (low_char h) ih

theorem low_denotes {num : Bytes → Dbl → Prop} {d : Nat} {i : Item} {t : Bytes} (h : Denotes num d i t) : Low t := by
  induction h with
  | null => unfold Low; rw [w_null]; decide +kernel
  | true => unfold Low; rw [w_true]; decide +kernel
  | false => unfold Low; rw [w_false]; decide +kernel
  | number _ h => exact low_number h
  | string _ h => exact low_str h
  | array _ _ ih => exact low_cons (by decide) (low_append ih (low_cons (by decide) low_nil))
  | arrayLast _ _ _ hw i1 i2 =>
    exact low_cons (by decide) (low_append i1 (low_append i2 (low_append (low_blank hw) (low_cons (by decide) low_nil))))
  | noElems h => exact low_blank h
  | elem _ _ hw hw' i1 i2 => exact low_append i1 (low_append i2 (low_append (low_blank hw) (low_cons (by decide) (low_blank hw'))))
  | object _ _ ih => exact low_cons (by decide) (low_append ih (low_cons (by decide) low_nil))
  | objectLast _ _ hq _ hw₁ hw₂ _ hw i1 i2 =>
    exact low_cons (by decide) (low_append i1 (low_append (low_str hq) (low_append (low_blank hw₁) (low_cons (by decide)
      (low_append (low_blank hw₂) (low_append i2 (low_append (low_blank hw) (low_cons (by decide) low_nil))))))))
  | noFields h => exact low_blank h
  | field _ hq _ hw₁ hw₂ _ hw hw' i1 i2 =>
    exact low_append i1 (low_append (low_str hq) (low_append (low_blank hw₁) (low_cons (by decide)
      (low_append (low_blank hw₂) (low_append i2 (low_append (low_blank hw) (low_cons (by decide) (low_blank hw'))))))))

theorem low_text {num : Bytes → Dbl → Prop} {text : Bytes} {v : Value} (h : Text num text v) : Low text := by
  cases h with
  | mk hp hv hw =>
    refine low_append ?_ (low_append (low_denotes hv) (low_blank hw))
    cases hp with
    | plain h => exact low_blank h
    | bom h => exact low_cons (by decide) (low_cons (by decide) (low_cons (by decide) (low_blank h)))

theorem steps_more : ∀ (n k : Nat) (st : State), steps castD total n st ≠ .ub → steps castD total (n + k) st = steps castD total n st
  | 0, _, _, h => absurd rfl h
  | n + 1, k, st, h => by
    rw [Nat.add_right_comm, steps, steps]
    rw [steps] at h
    cases hs : step castD total st with
    | ok y =>
      rw [hs] at h
      cases y with
      | inl st' => exact steps_more n k st' h
      | inr v => rfl
    | throw => rfl
    | ub => rfl

theorem view_at {ctx : Ctx} {t : Bytes} (h : View ctx t) : At ctx t := by
  cases h with
  | fresh _ => exact at_fresh _
  | look b s hb => exact ⟨rfl, .inr ⟨_, rfl, load_ascii s hb⟩⟩

theorem parse_complete {text : Bytes} {v : Value} (h : Text (NumVal castD) text v) : parse castD text = .ok v := by
  have hlow := low_text h
  cases h with
  | @mk p v t w hp hv hw =>
    have hub := parse_sat castD hlow
    generalize htot : (p ++ (t ++ w)).length = total
    obtain ⟨q, ctx, hq, hvw, htk⟩ : ∃ q ctx, Blank q ∧ View ctx (q ++ (t ++ w)) ∧
        token total ⟨none, false, p ++ (t ++ w)⟩ = token total ctx := by
      cases hp with
      | plain h => exact ⟨p, _, h, .fresh _, rfl⟩
      | @bom q h =>
        refine ⟨q, _, h, .fresh _, ?_⟩
        rw [token_at (at_fresh (q ++ (t ++ w))) (by rw [← htot]; simp; omega), ← htot, token_first]
        rfl
    obtain ⟨tok, c₁, c₂, h1, h2, h3, h4, h5, k, hk⟩ := takes (total := total) hv [] w ctx q rfl hvw hq
      (by simpa using delim_blank hw delim_nil)
    have hfin : ∀ n, steps castD total (n + 1) (.close v c₂ []) = .ok v := by
      intro n
      rw [steps, step, token_end total h5 hw]
      rfl
    unfold parse at hub ⊢
    rw [htot, htk, h1] at hub ⊢
    simp only [Res.bind] at hub ⊢
    rw [if_neg h3] at hub ⊢
    rw [← steps_more _ (1 + k) _ hub, ← Nat.add_assoc]
    exact (hk _).trans (hfin _)

end Asteria.Json
