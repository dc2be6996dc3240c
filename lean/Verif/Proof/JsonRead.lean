import Verif.Proof.JsonWrite

/-!
# The parser accepts the texts of values
-/

namespace Asteria.Json

open JsonSpec (Quoted Item Writes Good GoodList GoodFields Blank Number norm normList normFields height heightList
  heightFields)
open NumText (NumGet parseBase)

variable {putD : Dbl → Bytes} {ofInt : Int → Dbl} {add : Bytes} {castD : NumGet → Option Dbl} {total : Nat}

/-- The text of a number is a JSON number, and reads back as the number. -/
def Survives (putD : Dbl → Bytes) (castD : NumGet → Option Dbl) (d : Dbl) : Prop :=
  Number (putD d) ∧ ∃ g, parseBase 10 (putD d) = some (g, []) ∧ castD g = some d

theorem steps_step {p q : State} (h : step castD total p = .ok (.inl q)) (n : Nat) :
    steps castD total (n + 1) p = steps castD total n q := by
  rw [steps, h]; rfl

/-- A character that is a token of its own. -/
theorem body_punct (c : UInt8) (s : Bytes) (h : c = 0x5B ∨ c = 0x5D ∨ c = 0x7B ∨ c = 0x7D ∨ c = 0x3A ∨ c = 0x2C) :
    body false c.toNat s = .ok ([c], ⟨none, false, s⟩) := by
  unfold body
  rw [if_pos, ofNat_toNat]
  rcases h with rfl | rfl | rfl | rfl | rfl | rfl <;> decide +kernel

theorem token_punct {ctx : Ctx} {w s : Bytes} (c : UInt8) (hv : View ctx (w ++ c :: s)) (hw : Blank w)
    (h : c = 0x5B ∨ c = 0x5D ∨ c = 0x7B ∨ c = 0x7D ∨ c = 0x3A ∨ c = 0x2C) :
    token total ctx = .ok ([c], ⟨none, false, s⟩) := by
  rw [token_view total hv hw, body_punct c s h]
  · rcases h with rfl | rfl | rfl | rfl | rfl | rfl <;> decide +kernel
  · rcases h with rfl | rfl | rfl | rfl | rfl | rfl <;> decide +kernel

theorem blank_nil : Blank [] := by intro b hb; simp at hb

theorem blank_append {w u : Bytes} (h : Blank w) (k : Blank u) : Blank (w ++ u) := by
  intro b hb
  rcases List.mem_append.1 hb with hb | hb
  · exact h b hb
  · exact k b hb

/-- The context after the first token of a value, and after the value. -/
def ReadsVal (castD : NumGet → Option Dbl) (total : Nat) (ofInt : Int → Dbl) (v : Value) (fs : List Frame) (ctx : Ctx)
    (r : Bytes) : Prop :=
  ∃ tok c₁ c₂, token total ctx = .ok (tok, c₁) ∧ c₁.eof = false ∧ tok ≠ [] ∧ at0 tok ≠ 0x5D ∧ View c₂ r ∧
    ∀ n, steps castD total (cost v + n) (.pack tok c₁ fs) = steps castD total n (.close (norm ofInt v) c₂ fs)

/-- The same for the elements of an array, up to the bracket. -/
def ReadsElems (castD : NumGet → Option Dbl) (total : Nat) (ofInt : Int → Dbl) (l items : List Value) (fs : List Frame)
    (ctx : Ctx) (r : Bytes) : Prop :=
  ∃ tok c₁ c₂, token total ctx = .ok (tok, c₁) ∧ c₁.eof = false ∧ tok ≠ [] ∧ at0 tok ≠ 0x5D ∧ View c₂ r ∧
    ∀ n, steps castD total (costList l + n) (.pack tok c₁ (.arr items :: fs)) =
      steps castD total n (.close (.arr (items ++ normList ofInt l)) c₂ fs)

/-- The same for the members of an object, up to the brace. -/
def ReadsFields (castD : NumGet → Option Dbl) (total : Nat) (ofInt : Int → Dbl) (l entries : List (Bytes × Value))
    (fs : List Frame) (ctx : Ctx) (r : Bytes) : Prop :=
  ∃ k x xs c₁ tok c₂ c₃, l = (k, x) :: xs ∧ token total ctx = .ok (0x22 :: k, c₁) ∧ c₁.eof = false ∧
    (∀ f, colon total c₁ f = f tok c₂) ∧ View c₃ r ∧
    ∀ n, steps castD total (costFields l + n) (.pack tok c₂ (.obj entries k :: fs)) =
      steps castD total n (.close (.obj (entries ++ normFields ofInt l)) c₃ fs)

/-- What the parser does with the text of an item. -/
def Reads (castD : NumGet → Option Dbl) (total : Nat) (ofInt : Int → Dbl) (P : Dbl → Prop) (t : Bytes) : Item → Prop
  | .val v => ∀ fs r ctx w, View ctx (w ++ (t ++ r)) → Blank w → Delim r → fs.length + height v ≤ 32 →
      Good ofInt P v → ReadsVal castD total ofInt v fs ctx r
  | .elems l => ∀ items fs r ctx w w₂, View ctx (w ++ (t ++ (w₂ ++ 0x5D :: r))) → Blank w → Blank w₂ →
      fs.length + 1 + heightList l ≤ 32 → GoodList ofInt P l → ReadsElems castD total ofInt l items fs ctx r
  | .fields l => ∀ entries fs r ctx w w₂, View ctx (w ++ (t ++ (w₂ ++ 0x7D :: r))) → Blank w → Blank w₂ →
      fs.length + 1 + heightFields l ≤ 32 → ((entries ++ l).map (·.1)).Nodup → GoodFields ofInt P l →
      ReadsFields castD total ofInt l entries fs ctx r

/-- Words. -/
theorem reads_word {b : UInt8} {u : Bytes} {v : Value} (fs : List Frame) (r : Bytes) (ctx : Ctx) (w : Bytes)
    (hb : isIdent1 b.toNat = true) (hu : ∀ b ∈ u, isIdent b.toNat = true)
    (hs : ∀ c, fs.length ≤ 32 → step castD total (.pack (b :: u) c fs) = .ok (.inl (.close (norm ofInt v) c fs)))
    (hc : cost v = 1) (hv : View ctx (w ++ (b :: u ++ r))) (hw : Blank w) (hr : Delim r) (hf : fs.length ≤ 32) :
    ReadsVal castD total ofInt v fs ctx r := by
  have h : b.toNat = 0x5F ∨ b.toNat = 0x24 ∨ 0x41 ≤ b.toNat ∧ b.toNat ≤ 0x5A ∨ 0x61 ≤ b.toNat ∧ b.toNat ≤ 0x7A := by
    simp [isIdent1] at hb; omega
  refine ⟨b :: u, ⟨(peek r).1, false, (peek r).2⟩, _, ?_, rfl, by simp, ?_, view_peek hr.ascii, fun n => ?_⟩
  · rw [List.cons_append] at hv
    rw [token_view total hv hw (by omega) (by simp [isWs]; omega), body_word hb hu hr]
  · intro e
    change b = 0x5D at e
    rw [e] at h
    revert h; decide +kernel
  · rw [hc, Nat.add_comm, steps_step (hs _ hf)]

theorem reads_null (v : Value) (hn : norm ofInt v = .null) (hc : cost v = 1) (fs : List Frame) (r : Bytes) (ctx : Ctx)
    (w : Bytes) (hv : View ctx (w ++ ("null".toUTF8.toList ++ r))) (hw : Blank w) (hr : Delim r) (hf : fs.length ≤ 32) :
    ReadsVal castD total ofInt v fs ctx r := by
  rw [w_null] at hv
  refine reads_word fs r ctx w (by decide +kernel) (by decide +kernel) ?_ hc hv hw hr hf
  intro c hf
  rw [hn]
  rw [step, if_neg (by omega), if_neg (by decide), if_neg (by decide), if_neg (by decide +kernel), if_neg (by decide),
    if_pos (by decide)]

theorem reads_true (fs : List Frame) (r : Bytes) (ctx : Ctx)
    (w : Bytes) (hv : View ctx (w ++ ("true".toUTF8.toList ++ r))) (hw : Blank w) (hr : Delim r) (hf : fs.length ≤ 32) :
    ReadsVal castD total ofInt (.bool true) fs ctx r := by
  rw [w_true] at hv
  refine reads_word fs r ctx w (by decide +kernel) (by decide +kernel) ?_ rfl hv hw hr hf
  intro c hf
  rw [step, if_neg (by omega), if_neg (by decide), if_neg (by decide), if_neg (by decide +kernel), if_neg (by decide),
    if_neg (by decide), if_pos (by decide)]
  rfl

theorem reads_false (fs : List Frame) (r : Bytes) (ctx : Ctx)
    (w : Bytes) (hv : View ctx (w ++ ("false".toUTF8.toList ++ r))) (hw : Blank w) (hr : Delim r) (hf : fs.length ≤ 32) :
    ReadsVal castD total ofInt (.bool false) fs ctx r := by
  rw [w_false] at hv
  refine reads_word fs r ctx w (by decide +kernel) (by decide +kernel) ?_ rfl hv hw hr hf
  intro c hf
  rw [step, if_neg (by omega), if_neg (by decide), if_neg (by decide), if_neg (by decide +kernel), if_neg (by decide),
    if_neg (by decide), if_neg (by decide), if_pos (by decide)]
  rfl

/-- Numbers. -/
theorem reads_number {d : Dbl} (v : Value) (hn : norm ofInt v = .real d) (hc : cost v = 1) (fs : List Frame)
    (r : Bytes) (ctx : Ctx) (w : Bytes) (hd : Survives putD castD d) (hv : View ctx (w ++ (putD d ++ r))) (hw : Blank w)
    (hr : Delim r) (hf : fs.length ≤ 32) : ReadsVal castD total ofInt v fs ctx r := by
  obtain ⟨hnum, g, hg, hcast⟩ := hd
  obtain ⟨b, u, ht, hb, hbody⟩ := body_number hnum hr
  have h : b.toNat = 0x2B ∨ b.toNat = 0x2D ∨ 0x30 ≤ b.toNat ∧ b.toNat ≤ 0x39 := by
    rcases hb with h | h | h
    · exact .inl h
    · exact .inr (.inl h)
    · simp [isDigit] at h; omega
  refine ⟨b :: u, ⟨(peek r).1, false, (peek r).2⟩, _, ?_, rfl, by simp, ?_, view_peek hr.ascii, fun n => ?_⟩
  · rw [ht, List.cons_append] at hv
    rw [token_view total hv hw (by omega) (by simp [isWs]; omega), hbody, ht]
  · exact ne_of_toNat (by change b.toNat ≠ 93; omega)
  · rw [hc, Nat.add_comm, hn]
    refine steps_step ?_ n
    have hb0 : at0 (b :: u) = b := rfl
    have hcond : b = 0x2B ∨ b = 0x2D ∨ isDigit b.toNat = true := by
      rcases hb with h | h | h
      · exact .inl (eq_of_toNat h)
      · exact .inr (.inl (eq_of_toNat h))
      · exact .inr (.inr h)
    rw [step, if_neg (by omega), hb0, if_neg (ne_of_toNat (by change b.toNat ≠ 91; omega)),
      if_neg (ne_of_toNat (by change b.toNat ≠ 123; omega)), if_pos hcond, ← ht, hg]
    simp only
    rw [hcast]

theorem reads_string {s q : Bytes} (hq : Quoted s q) (fs : List Frame)
    (r : Bytes) (ctx : Ctx) (w : Bytes) (hv : View ctx (w ++ (q ++ r))) (hw : Blank w)
    (hf : fs.length ≤ 32) : ReadsVal castD total ofInt (.str s) fs ctx r := by
  obtain ⟨u, rfl, hbody⟩ := body_string (r := r) hq
  refine ⟨0x22 :: s, ⟨none, false, r⟩, ⟨none, false, r⟩, ?_, rfl, by simp, by change (0x22 : UInt8) ≠ 0x5D; decide, .fresh r, fun n => ?_⟩
  · rw [List.cons_append] at hv
    rw [token_view total hv hw (by decide +kernel) (by decide +kernel), hbody]
  · have hc : cost (.str s) = 1 := rfl
    rw [hc, Nat.add_comm]
    refine steps_step ?_ n
    have hb0 : at0 (0x22 :: s) = 0x22 := rfl
    rw [step, if_neg (by omega), hb0, if_neg (by decide), if_neg (by decide), if_neg (by decide +kernel), if_pos rfl]
    rfl

theorem colon_ok {ind s : Bytes} {c₁ : Ctx} (hv : View c₁ (JsonSpec.colon ind ++ s)) :
    ∃ ctx w, View ctx (w ++ s) ∧ Blank w ∧ ∀ f, colon total c₁ f =
      (token total ctx).bind fun t => if t.2.eof then .throw else f t.1 t.2 := by
  have key : ∀ u, Blank u → View c₁ (0x3A :: (u ++ s)) → ∃ ctx w, View ctx (w ++ s) ∧ Blank w ∧ ∀ f, colon total c₁ f =
      (token total ctx).bind fun t => if t.2.eof then .throw else f t.1 t.2 := by
    intro u hu hv
    refine ⟨_, u, .fresh (u ++ s), hu, fun f => ?_⟩
    unfold colon
    rw [token_punct (w := []) 0x3A hv blank_nil (by decide)]
    rfl
  unfold JsonSpec.colon at hv
  by_cases hi : ind = []
  · rw [if_pos hi] at hv; exact key [] blank_nil hv
  · rw [if_neg hi] at hv; exact key [0x20] (by intro b hb; rw [List.mem_singleton.1 hb]; exact .inl rfl) hv

/-- A key and a value. -/
theorem read_field {ind k q t r : Bytes} {x : Value} {ctx : Ctx} {w : Bytes} {fs : List Frame} (hq : Quoted k q)
    (hv : View ctx (w ++ (q ++ (JsonSpec.colon ind ++ (t ++ r))))) (hw : Blank w)
    (ih : ∀ ctx w, View ctx (w ++ (t ++ r)) → Blank w → ReadsVal castD total ofInt x fs ctx r) :
    ∃ c₀ tok c₁ c₂, token total ctx = .ok (0x22 :: k, c₀) ∧ c₀.eof = false ∧ (∀ f, colon total c₀ f = f tok c₁) ∧
      View c₂ r ∧ ∀ n, steps castD total (cost x + n) (.pack tok c₁ fs) =
        steps castD total n (.close (norm ofInt x) c₂ fs) := by
  obtain ⟨z, rfl, hbody⟩ := body_string (r := JsonSpec.colon ind ++ (t ++ r)) hq
  obtain ⟨c, u, hc, hu, hcol⟩ := colon_ok (total := total) (.fresh (JsonSpec.colon ind ++ (t ++ r)))
  obtain ⟨tok, c₁, c₂, h1, h2, -, -, h5, h6⟩ := ih c u hc hu
  rw [List.cons_append] at hv
  refine ⟨_, tok, c₁, c₂, (by rw [token_view total hv hw (by decide +kernel) (by decide +kernel), hbody]), rfl,
    fun f => ?_, h5, h6⟩
  rw [hcol, h1]
  simp only [Res.bind]
  rw [h2]
  rfl

theorem height_arr (x : Value) (xs : List Value) : height (.arr (x :: xs)) = 1 + heightList (x :: xs) := by rw [height]

theorem height_obj (x : Bytes × Value) (xs : List (Bytes × Value)) :
    height (.obj (x :: xs)) = 1 + heightFields (x :: xs) := by rw [height]

/-- The parser reads the text of an item. -/
theorem reads {ind : Bytes} {i : Item} {t : Bytes} (h : Writes putD ofInt add ind i t) (hi : Blank ind)
    (ha : Blank add) : Reads castD total ofInt (Survives putD castD) t i := by
  induction h with
  | null => intro fs r ctx w hv hw hr hf _; exact reads_null .null rfl rfl fs r ctx w hv hw hr (by omega)
  | true => intro fs r ctx w hv hw hr hf _; exact reads_true fs r ctx w hv hw hr (by omega)
  | false => intro fs r ctx w hv hw hr hf _; exact reads_false fs r ctx w hv hw hr (by omega)
  | @int _ i =>
    intro fs r ctx w hv hw hr hf hg
    exact reads_number (.int i) rfl rfl fs r ctx w (by simpa [Good] using hg) hv hw hr (by omega)
  | @fin _ q =>
    intro fs r ctx w hv hw hr hf hg
    exact reads_number (.real (.fin q)) rfl rfl fs r ctx w (by simpa [Good] using hg) hv hw hr (by omega)
  | @special ind d hd =>
    intro fs r ctx w hv hw hr hf _
    refine reads_null (.real d) ?_ rfl fs r ctx w hv hw hr (by omega)
    cases d with
    | fin q => exact absurd rfl (hd q)
    | nan => rfl
    | inf b => rfl
  | str hq => intro fs r ctx w hv hw hr hf _; exact reads_string hq fs r ctx w hv hw (by omega)
  | @other _ i => intro fs r ctx w hv hw hr hf _; exact reads_null (.opaque i) rfl rfl fs r ctx w hv hw hr (by omega)
  | @func _ i => intro fs r ctx w hv hw hr hf _; exact reads_null (.func i) rfl rfl fs r ctx w hv hw hr (by omega)
  | noElems =>
    intro fs r ctx w hv hw hr hf _
    rw [w_arr] at hv
    refine ⟨_, _, ⟨none, false, r⟩, token_punct 0x5B hv hw (by decide), rfl, by simp, by decide, .fresh r, fun n => ?_⟩
    have hc : cost (.arr []) = 1 := rfl
    rw [hc, Nat.add_comm]
    refine steps_step ?_ n
    rw [step, if_neg (by omega), if_pos (by decide), token_punct (w := []) (s := r) 0x5D (.fresh ([0x5D] ++ r)) blank_nil (by decide)]
    rfl
  | noFields =>
    intro fs r ctx w hv hw hr hf _
    rw [w_obj] at hv
    refine ⟨_, _, ⟨none, false, r⟩, token_punct 0x7B hv hw (by decide), rfl, by simp, by decide, .fresh r, fun n => ?_⟩
    have hc : cost (.obj []) = 1 := rfl
    rw [hc, Nat.add_comm]
    refine steps_step ?_ n
    rw [step, if_neg (by omega), if_neg (by decide), if_pos (by decide),
      token_punct (w := []) (s := r) 0x7D (.fresh ([0x7D] ++ r)) blank_nil (by decide)]
    rfl
  | @arr ind x xs t _ ih =>
    intro fs r ctx w hv hw hr hf hg
    rw [height_arr] at hf
    rw [List.cons_append] at hv
    have e : t ++ (ind ++ [0x5D]) ++ r = t ++ (ind ++ 0x5D :: r) := by simp
    rw [e] at hv
    obtain ⟨tok, c₁, c₂, h1, h2, h3, h4, h5, h6⟩ := ih (blank_append hi ha) [] fs r ⟨none, false, t ++ (ind ++ 0x5D :: r)⟩ [] ind
      (.fresh _) blank_nil hi (by omega) (by simpa [Good] using hg)
    refine ⟨_, _, c₂, token_punct 0x5B hv hw (by decide), rfl, by simp, by decide, h5, fun n => ?_⟩
    have hc : cost (.arr (x :: xs)) + n = (costList (x :: xs) + n) + 1 := by rw [cost]; omega
    rw [hc, steps_step (q := .pack tok c₁ (.arr [] :: fs)), h6 n]
    · rfl
    · rw [step, if_neg (by omega), if_pos (by decide), h1]
      simp only [Res.bind]
      rw [h2, if_pos h4]
      rfl
  | @obj ind x xs t _ ih =>
    intro fs r ctx w hv hw hr hf hg
    rw [height_obj] at hf
    rw [Good] at hg
    rw [List.cons_append] at hv
    have e : t ++ (ind ++ [0x7D]) ++ r = t ++ (ind ++ 0x7D :: r) := by simp
    rw [e] at hv
    obtain ⟨k, x', xs', c₁, tok, c₂, c₃, h0, h1, h2, h3, h4, h5⟩ := ih (blank_append hi ha) [] fs r
      ⟨none, false, t ++ (ind ++ 0x7D :: r)⟩ [] ind (.fresh _) blank_nil hi (by omega) (by simpa using hg.1) hg.2
    refine ⟨_, _, c₃, token_punct 0x7B hv hw (by decide), rfl, by simp, by decide, h4, fun n => ?_⟩
    have hc : cost (.obj (x :: xs)) + n = (costFields (x :: xs) + n) + 1 := by rw [cost]; omega
    rw [hc, steps_step (q := .pack tok c₂ (.obj [] k :: fs)), h5 n]
    · rfl
    · rw [step, if_neg (by omega), if_neg (by decide), if_pos (by decide), h1]
      simp only [Res.bind]
      rw [h2, if_pos (show at0 (0x22 :: k) ≠ 0x7D by change (0x22 : UInt8) ≠ 0x7D; decide),
        if_neg (show ¬ at0 (0x22 :: k) ≠ 0x22 by simp [at0]), h3]
      rfl
  | @elem ind x t _ ih =>
    intro items fs r ctx w w₂ hv hw hw₂ hf hg
    rw [heightList, heightList] at hf
    rw [GoodList] at hg
    rw [List.append_assoc, ← List.append_assoc w] at hv
    obtain ⟨tok, c₁, c₂, h1, h2, h3, h4, h5, h6⟩ := ih hi (.arr items :: fs) (w₂ ++ 0x5D :: r) ctx (w ++ ind) hv
      (blank_append hw hi) (delim_blank hw₂ (fun b s h => by cases h; exact .inr (.inl rfl)))
      (by rw [List.length_cons]; omega) hg.1
    refine ⟨tok, c₁, ⟨none, false, r⟩, h1, h2, h3, h4, .fresh r, fun n => ?_⟩
    have hc : costList [x] + n = cost x + (n + 1) := by simp only [costList]; omega
    rw [hc, h6, steps_step (q := .close (.arr (items ++ [norm ofInt x])) ⟨none, false, r⟩ fs)]
    · rfl
    · rw [step, token_punct 0x5D h5 hw₂ (by decide)]
      rfl
  | @elemCons ind x y ys t u _ _ ih1 ih2 =>
    intro items fs r ctx w w₂ hv hw hw₂ hf hg
    rw [heightList] at hf
    rw [GoodList] at hg
    have e : w ++ (ind ++ (t ++ 0x2C :: u) ++ (w₂ ++ 0x5D :: r)) = (w ++ ind) ++ (t ++ (0x2C :: (u ++ (w₂ ++ 0x5D :: r)))) := by simp
    rw [e] at hv
    obtain ⟨tok, c₁, c₂, h1, h2, h3, h4, h5, h6⟩ := ih1 hi (.arr items :: fs) _ ctx (w ++ ind) hv
      (blank_append hw hi) (delim_comma _) (by rw [List.length_cons]; omega) hg.1
    obtain ⟨tok', c₁', c₂', k1, k2, k3, k4, k5, k6⟩ := ih2 hi (items ++ [norm ofInt x]) fs r
      ⟨none, false, u ++ (w₂ ++ 0x5D :: r)⟩ [] w₂ (.fresh _) blank_nil hw₂ (by omega) hg.2
    refine ⟨tok, c₁, c₂', h1, h2, h3, h4, k5, fun n => ?_⟩
    have hc : costList (x :: y :: ys) + n = cost x + ((costList (y :: ys) + n) + 1) := by
      rw [costList]; omega
    rw [hc, h6, steps_step (q := .pack tok' c₁' (.arr (items ++ [norm ofInt x]) :: fs)), k6]
    · rw [List.append_assoc]; rfl
    · rw [step, token_punct (w := []) 0x2C h5 blank_nil (by decide)]
      simp only [Res.bind]
      rw [if_neg (by decide), if_pos (by decide), if_neg (by decide), k1]
      simp only
      rw [k2, if_pos k4]
      rfl
  | @field ind k q x t hq _ ih =>
    intro entries fs r ctx w w₂ hv hw hw₂ hf hk hg
    rw [heightFields, heightFields] at hf
    rw [GoodFields] at hg
    have e : w ++ (ind ++ (q ++ (JsonSpec.colon ind ++ t)) ++ (w₂ ++ 0x7D :: r)) =
        (w ++ ind) ++ (q ++ (JsonSpec.colon ind ++ (t ++ (w₂ ++ 0x7D :: r)))) := by simp
    rw [e] at hv
    have hd : Delim (w₂ ++ 0x7D :: r) :=
      delim_blank hw₂ (fun b s h => by cases h; exact .inr (.inr (.inl rfl)))
    obtain ⟨c₀, tok, c₁, c₂, h1, h2, h3, h5, h6⟩ := read_field hq hv (blank_append hw hi) fun ctx w hv hw =>
      ih hi (.obj entries k :: fs) (w₂ ++ 0x7D :: r) ctx w hv hw hd
        (by rw [List.length_cons]; simp only at hf; omega) hg.2.1
    refine ⟨k, x, [], c₀, tok, c₁, ⟨none, false, r⟩, rfl, h1, h2, h3, .fresh r, fun n => ?_⟩
    have hc : costFields [(k, x)] + n = cost x + (n + 1) := by simp only [costFields]; omega
    rw [hc, h6, steps_step (q := .close (.obj (entries ++ [(k, norm ofInt x)])) ⟨none, false, r⟩ fs)]
    · rfl
    · rw [step, token_punct 0x7D h5 hw₂ (by decide)]
      rfl
  | @fieldCons ind k q x y ys t u hq _ _ ih1 ih2 =>
    intro entries fs r ctx w w₂ hv hw hw₂ hf hk hg
    rw [heightFields] at hf
    rw [GoodFields] at hg
    have e : w ++ (ind ++ (q ++ (JsonSpec.colon ind ++ (t ++ 0x2C :: u))) ++ (w₂ ++ 0x7D :: r)) =
        (w ++ ind) ++ (q ++ (JsonSpec.colon ind ++ (t ++ (0x2C :: (u ++ (w₂ ++ 0x7D :: r)))))) := by simp
    rw [e] at hv
    obtain ⟨c₀, tok, c₁, c₂, h1, h2, h3, h5, h6⟩ := read_field hq hv (blank_append hw hi) fun ctx w hv hw =>
      ih1 hi (.obj entries k :: fs) _ ctx w hv hw (delim_comma _)
        (by rw [List.length_cons]; simp only at hf; omega) hg.2.1
    have hk' : ((entries ++ [(k, norm ofInt x)] ++ y :: ys).map (·.1)).Nodup := by simpa using hk
    obtain ⟨k', x', xs', c₀', tok', c₁', c₂', k0, k1, k2, k3, k5, k6⟩ := ih2 hi (entries ++ [(k, norm ofInt x)]) fs r
      ⟨none, false, u ++ (w₂ ++ 0x7D :: r)⟩ [] w₂ (.fresh _) blank_nil hw₂ (by omega) hk' hg.2.2
    refine ⟨k, x, y :: ys, c₀, tok, c₁, c₂', rfl, h1, h2, h3, k5, fun n => ?_⟩
    have hc : costFields ((k, x) :: y :: ys) + n = cost x + ((costFields (y :: ys) + n) + 1) := by
      rw [costFields]; simp only; omega
    have hnot : k' ∉ (entries ++ [(k, norm ofInt x)]).map (·.1) := by
      rw [k0, List.map_append, List.nodup_append] at hk'
      intro hm
      exact hk'.2.2 k' hm k' (by simp) rfl
    rw [hc, h6, steps_step (q := .pack tok' c₁' (.obj (entries ++ [(k, norm ofInt x)]) k' :: fs)), k6]
    · rw [List.append_assoc]; rfl
    · rw [step, token_punct (w := []) 0x2C h5 blank_nil (by decide)]
      simp only [Res.bind]
      rw [if_neg (by decide), if_pos (by decide), if_neg (by decide), k1]
      simp only
      rw [k2, if_pos (show at0 (0x22 :: k') ≠ 0x7D by change (0x22 : UInt8) ≠ 0x7D; decide),
        if_neg (show ¬ at0 (0x22 :: k') ≠ 0x22 by simp [at0]), List.drop_succ_cons, List.drop_zero, if_neg hnot, k3]
      rfl

/-- The text of a value is at least half as long as the number of steps. -/
theorem cost_le {ind : Bytes} {i : Item} {t : Bytes} (h : Writes putD ofInt add ind i t)
    (hp : ∀ d, Survives putD castD d → 0 < (putD d).length) :
    match i with
    | .val v => Good ofInt (Survives putD castD) v → cost v ≤ 2 * t.length
    | .elems l => GoodList ofInt (Survives putD castD) l → costList l ≤ 2 * t.length + 1
    | .fields l => GoodFields ofInt (Survives putD castD) l → costFields l ≤ 2 * t.length + 1 := by
  induction h with
  | null => intro _; rw [w_null]; simp [cost]
  | true => intro _; rw [w_true]; simp [cost]
  | false => intro _; rw [w_false]; simp [cost]
  | @int _ i => intro hg; have := hp (ofInt i) (by simpa [Good] using hg); simp only [cost]; omega
  | @fin _ q => intro hg; have := hp (.fin q) (by simpa [Good] using hg); simp only [cost]; omega
  | special => intro _; rw [w_null]; simp [cost]
  | str hq => intro _; obtain ⟨cs, _, _, rfl⟩ := hq; simp [cost]; omega
  | other => intro _; rw [w_null]; simp [cost]
  | func => intro _; rw [w_null]; simp [cost]
  | noElems => intro _; rw [w_arr]; simp [cost, costList]
  | noFields => intro _; rw [w_obj]; simp [cost, costFields]
  | arr _ ih => intro hg; have := ih (by simpa [Good] using hg); rw [cost]; simp; omega
  | obj _ ih => intro hg; rw [Good] at hg; have := ih hg.2; rw [cost]; simp; omega
  | elem _ ih => intro hg; rw [GoodList] at hg; have := ih hg.1; simp [costList]; omega
  | elemCons _ _ ih1 ih2 =>
    intro hg; rw [GoodList] at hg; have := ih1 hg.1; have := ih2 hg.2; rw [costList]; simp; omega
  | field _ _ ih => intro hg; rw [GoodFields] at hg; have := ih hg.2.1; simp only [costFields]; simp; omega
  | fieldCons _ _ _ ih1 ih2 =>
    intro hg; rw [GoodFields] at hg; have := ih1 hg.2.1; have := ih2 hg.2.2; rw [costFields]; simp; omega

theorem parse_ok {ind : Bytes} {v : Value} {t w₁ w₂ : Bytes} (h : Writes putD ofInt add ind (.val v) t)
    (hg : Good ofInt (Survives putD castD) v) (hh : height v ≤ 32) (hi : Blank ind) (ha : Blank add) (h₁ : Blank w₁)
    (h₂ : Blank w₂) : parse castD (w₁ ++ (t ++ w₂)) = .ok (norm ofInt v) := by
  have hp : ∀ d, Survives putD castD d → 0 < (putD d).length := by
    rintro d ⟨⟨s, i, f, e, _, hi, _, _, h⟩, _⟩
    rw [h]
    have := List.length_pos_iff.2 hi.1
    simp; omega
  have hc := cost_le (castD := castD) h hp hg
  obtain ⟨tok, c₁, c₂, k1, k2, k3, k4, k5, k6⟩ := reads (castD := castD) (total := (w₁ ++ (t ++ w₂)).length) h hi ha
    [] w₂ ⟨none, false, w₁ ++ (t ++ w₂)⟩ w₁ (.fresh _) h₁ (by simpa using delim_blank h₂ delim_nil) (by simpa using hh) hg
  unfold parse
  rw [k1]
  simp only [Res.bind]
  rw [if_neg k3]
  have : 2 * (w₁ ++ (t ++ w₂)).length + 4 = cost v + ((2 * (w₁ ++ (t ++ w₂)).length + 4 - cost v - 1) + 1) := by
    simp at *; omega
  rw [this, k6, steps, step, token_end _ k5 h₂]
  rfl

end Asteria.Json
