import Verif.Proof.JsonString

/-!
# The formatter follows the grammar
-/

namespace Asteria.Json

open JsonSpec (Quoted Item Writes Good GoodList GoodFields)

theorem w_null : "null".toUTF8.toList = [0x6E, 0x75, 0x6C, 0x6C] := by decide +kernel
theorem w_true : "true".toUTF8.toList = [0x74, 0x72, 0x75, 0x65] := by decide +kernel
theorem w_false : "false".toUTF8.toList = [0x66, 0x61, 0x6C, 0x73, 0x65] := by decide +kernel
theorem w_arr : "[]".toUTF8.toList = [0x5B, 0x5D] := by decide +kernel
theorem w_obj : "{}".toUTF8.toList = [0x7B, 0x7D] := by decide +kernel

theorem outdent_ok (add ind : Bytes) : outdent add (ind ++ add) = .ok ind := by
  unfold outdent
  rw [if_pos (by simp)]
  simp

variable {putD : Dbl → Bytes} {ofInt : Int → Dbl} {add : Bytes}

theorem psteps_step {p q : PState} (h : pstep putD ofInt add p = .ok (.inl q)) (n : Nat) :
    psteps putD ofInt add (n + 1) p = psteps putD ofInt add n q := by
  rw [psteps, h]; rfl

/-- What the machine does with an item. -/
def Prints (putD : Dbl → Bytes) (ofInt : Int → Dbl) (add ind : Bytes) (t : Bytes) : Item → Prop
  | .val v => ∀ n fs out, psteps putD ofInt add (cost v + n) ⟨some v, fs, ind, out⟩ =
      psteps putD ofInt add n ⟨none, fs, ind, out ++ t⟩
  | .elems [] => True
  | .elems (x :: xs) => ∀ n fs out, psteps putD ofInt add (cost x + costList xs + n) ⟨some x, .arr xs :: fs, ind, out ++ ind⟩ =
      psteps putD ofInt add n ⟨none, .arr [] :: fs, ind, out ++ t⟩
  | .fields [] => True
  | .fields ((k, x) :: xs) => ∀ n fs out, ∃ q, quote k = .ok q ∧
      psteps putD ofInt add (cost x + costFields xs + n) ⟨some x, .obj xs :: fs, ind, out ++ (ind ++ (q ++ sep ind))⟩ =
      psteps putD ofInt add n ⟨none, .obj [] :: fs, ind, out ++ t⟩

theorem sep_colon (ind : Bytes) : sep ind = JsonSpec.colon ind := rfl

theorem prints {ind : Bytes} {i : Item} {t : Bytes} (h : Writes putD ofInt add ind i t) :
    Prints putD ofInt add ind t i := by
  have scalar : ∀ {ind t v}, cost v = 1 →
      (∀ fs out, pstep putD ofInt add ⟨some v, fs, ind, out⟩ = .ok (.inl ⟨none, fs, ind, out ++ t⟩)) →
      Prints putD ofInt add ind t (.val v) := by
    intro ind t v hc hp n fs out
    rw [hc, Nat.add_comm, psteps_step (hp fs out)]
  induction h with
  | null => rw [w_null]; exact scalar rfl fun _ _ => rfl
  | true => rw [w_true]; exact scalar rfl fun _ _ => rfl
  | false => rw [w_false]; exact scalar rfl fun _ _ => rfl
  | int => exact scalar rfl fun _ _ => rfl
  | fin => exact scalar rfl fun _ _ => rfl
  | @special ind d hd =>
    rw [w_null]
    refine scalar rfl fun _ _ => ?_
    cases d with
    | fin q => exact absurd rfl (hd q)
    | nan => rfl
    | inf b => rfl
  | @str ind s q hq =>
    refine scalar rfl fun _ _ => ?_
    unfold pstep
    simp only
    rw [quote_ok hq]
    rfl
  | other => rw [w_null]; exact scalar rfl fun _ _ => rfl
  | func => rw [w_null]; exact scalar rfl fun _ _ => rfl
  | noElems => rw [w_arr]; exact scalar rfl fun _ _ => rfl
  | noFields => rw [w_obj]; exact scalar rfl fun _ _ => rfl
  | @arr ind x xs t _ ih =>
    intro n fs out
    have hc : cost (.arr (x :: xs)) + n = (cost x + costList xs + (n + 1)) + 1 := by
      simp only [cost, costList]; omega
    rw [hc, psteps_step (q := ⟨some x, .arr xs :: fs, ind ++ add, out ++ ([0x5B] ++ (ind ++ add))⟩) rfl]
    rw [← List.append_assoc out, ih (n + 1) fs (out ++ [0x5B]),
      psteps_step (q := ⟨none, fs, ind, (out ++ [0x5B] ++ t) ++ (ind ++ [0x5D])⟩)]
    · simp
    · unfold pstep; simp only; rw [outdent_ok]; rfl
  | @obj ind x xs t _ ih =>
    intro n fs out
    obtain ⟨k, x⟩ := x
    have hc : cost (.obj ((k, x) :: xs)) + n = (cost x + costFields xs + (n + 1)) + 1 := by
      simp only [cost, costFields]; omega
    obtain ⟨q, hq, he⟩ := ih (n + 1) fs (out ++ [0x7B])
    rw [hc, psteps_step (q := ⟨some x, .obj xs :: fs, ind ++ add, out ++ [0x7B] ++ ((ind ++ add) ++ (q ++ sep (ind ++ add)))⟩)]
    · rw [he, psteps_step (q := ⟨none, fs, ind, (out ++ [0x7B] ++ t) ++ (ind ++ [0x7D])⟩)]
      · simp
      · unfold pstep; simp only; rw [outdent_ok]; rfl
    · unfold pstep; simp only; rw [hq]; simp
  | @elem ind x t _ ih =>
    intro n fs out
    have := ih n (.arr [] :: fs) (out ++ ind)
    simp only [costList, Nat.add_zero]
    rw [this, List.append_assoc]
  | @elemCons ind x y ys t u _ _ ih1 ih2 =>
    intro n fs out
    have hc : cost x + costList (y :: ys) + n = cost x + ((cost y + costList ys + n) + 1) := by
      simp only [costList]; omega
    rw [hc, ih1, psteps_step (q := ⟨some y, .arr ys :: fs, ind, (out ++ ind ++ t ++ [0x2C]) ++ ind⟩)]
    · rw [ih2]; simp
    · unfold pstep; simp
  | @field ind k q x t hq _ ih =>
    intro n fs out
    refine ⟨q, quote_ok hq, ?_⟩
    simp only [costFields, Nat.add_zero]
    rw [ih, sep_colon]; simp
  | @fieldCons ind k q x y ys t u hq _ _ ih1 ih2 =>
    intro n fs out
    obtain ⟨k2, y⟩ := y
    refine ⟨q, quote_ok hq, ?_⟩
    have hc : cost x + costFields ((k2, y) :: ys) + n = cost x + ((cost y + costFields ys + n) + 1) := by
      simp only [costFields]; omega
    obtain ⟨q2, hq2, he⟩ := ih2 n fs (out ++ (ind ++ (q ++ sep ind)) ++ t ++ [0x2C])
    rw [hc, ih1, psteps_step (q := ⟨some y, .obj ys :: fs, ind, (out ++ (ind ++ (q ++ sep ind)) ++ t ++ [0x2C]) ++ (ind ++ (q2 ++ sep ind))⟩)]
    · rw [he, sep_colon]; simp
    · unfold pstep; simp only; rw [hq2]; simp

/-- The formatter writes the text of a value. -/
theorem format_ok {v : Value} {t : Bytes} (h : Writes putD ofInt add (if add = [] then [] else [0x0A]) (.val v) t) :
    format putD ofInt add v = .ok t := by
  have := prints h 1 [] []
  unfold format
  rw [this]
  rfl

/-! ### Every good value has a text -/

mutual

theorem writes_val (P : Dbl → Prop) : ∀ (v : Value) (ind : Bytes), Good ofInt P v →
    ∃ t, Writes putD ofInt add ind (.val v) t
  | .null, _, _ => ⟨_, .null⟩
  | .bool true, _, _ => ⟨_, .true⟩
  | .bool false, _, _ => ⟨_, .false⟩
  | .int _, _, _ => ⟨_, .int⟩
  | .real (.fin _), _, _ => ⟨_, .fin⟩
  | .real .nan, _, _ => ⟨_, .special (by simp)⟩
  | .real (.inf _), _, _ => ⟨_, .special (by simp)⟩
  | .str s, _, h => by
    obtain ⟨q, hq⟩ := quoted_exists (show Utf.WellFormed s by simpa [Good] using h)
    exact ⟨q, .str hq⟩
  | .opaque _, _, _ => ⟨_, .other⟩
  | .func _, _, _ => ⟨_, .func⟩
  | .arr [], _, _ => ⟨_, .noElems⟩
  | .obj [], _, _ => ⟨_, .noFields⟩
  | .arr (x :: xs), ind, h => by
    obtain ⟨t, ht⟩ := writes_list P (x :: xs) (ind ++ add) (by simp) (by simpa [Good] using h)
    exact ⟨_, .arr ht⟩
  | .obj (x :: xs), ind, h => by
    obtain ⟨t, ht⟩ := writes_fields P (x :: xs) (ind ++ add) (by simp) (by rw [Good] at h; exact h.2)
    exact ⟨_, .obj ht⟩

theorem writes_list (P : Dbl → Prop) : ∀ (l : List Value) (ind : Bytes), l ≠ [] → GoodList ofInt P l →
    ∃ t, Writes putD ofInt add ind (.elems l) t
  | [], _, hl, _ => absurd rfl hl
  | [x], ind, _, h => by
    rw [GoodList] at h
    obtain ⟨t, ht⟩ := writes_val P x ind h.1
    exact ⟨_, .elem ht⟩
  | x :: y :: ys, ind, _, h => by
    rw [GoodList] at h
    obtain ⟨t, ht⟩ := writes_val P x ind h.1
    obtain ⟨u, hu⟩ := writes_list P (y :: ys) ind (by simp) h.2
    exact ⟨_, .elemCons ht hu⟩

theorem writes_fields (P : Dbl → Prop) : ∀ (l : List (Bytes × Value)) (ind : Bytes), l ≠ [] → GoodFields ofInt P l →
    ∃ t, Writes putD ofInt add ind (.fields l) t
  | [], _, hl, _ => absurd rfl hl
  | [(k, x)], ind, _, h => by
    rw [GoodFields] at h
    obtain ⟨q, hq⟩ := quoted_exists h.1
    obtain ⟨t, ht⟩ := writes_val P x ind h.2.1
    exact ⟨_, .field hq ht⟩
  | (k, x) :: y :: ys, ind, _, h => by
    rw [GoodFields] at h
    obtain ⟨q, hq⟩ := quoted_exists h.1
    obtain ⟨t, ht⟩ := writes_val P x ind h.2.1
    obtain ⟨u, hu⟩ := writes_fields P (y :: ys) ind (by simp) h.2.2
    exact ⟨_, .fieldCons hq ht hu⟩

end

end Asteria.Json
