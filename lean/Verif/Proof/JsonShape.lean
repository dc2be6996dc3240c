import Verif.Proof.JsonSafe
import Verif.Proof.JsonString

/-!
# What the parser returns
-/

namespace Asteria.Json

open JsonSpec
open NumText (NumGet parseBase)
open Utf (WellFormed WfChar)

/-- What is returned, if anything, satisfies `P`. -/
def Post (x : Res α) (P : α → Prop) : Prop := ∀ a, x = .ok a → P a

theorem Post.ok {a : α} {P : α → Prop} (h : P a) : Post (.ok a) P := by rintro _ ⟨⟩; exact h
theorem Post.throw {P : α → Prop} : Post (.throw : Res α) P := by rintro _ ⟨⟩
theorem Post.ub {P : α → Prop} : Post (.ub : Res α) P := by rintro _ ⟨⟩
theorem Post.triv (x : Res α) : Post x fun _ => True := fun _ _ => trivial

theorem Post.bind {x : Res α} {P : α → Prop} {f : α → Res β} {Q : β → Prop} (h : Post x P)
    (hf : ∀ a, P a → Post (f a) Q) : Post (x.bind f) Q := by
  cases x with
  | ok a => exact hf a (h a rfl)
  | throw => exact Post.throw
  | ub => exact Post.ub

theorem Post.map {x : Res α} {P : α → Prop} {f : α → β} {Q : β → Prop} (h : Post x P) (hf : ∀ a, P a → Q (f a)) :
    Post (x.map f) Q := by
  cases x with
  | ok a => exact Post.ok (hf a (h a rfl))
  | throw => exact Post.throw
  | ub => exact Post.ub

theorem wf_append {s t : Bytes} (hs : WellFormed s) (ht : WellFormed t) : WellFormed (s ++ t) := by
  induction hs with
  | nil => exact ht
  | cons c r hc _ ih => rw [List.append_assoc]; exact .cons _ _ hc ih

theorem wf_char {s : Bytes} (h : WfChar s) : WellFormed s := by
  have := WellFormed.cons s [] h .nil
  rwa [List.append_nil] at this

theorem wf_put (c : Nat) : WellFormed (put c) := by
  rw [put_eq]
  cases h : Utf.utf8Encode c with
  | none => exact .nil
  | some u => exact wf_char (Utf.C07_encode_well_formed c u h)

theorem wf_plain : ∀ s : Bytes, WellFormed (s.takeWhile plain)
  | [] => .nil
  | b :: s => by
    rw [List.takeWhile_cons]
    split
    · rename_i h
      refine .cons [b] _ (.r1 b ?_) (wf_plain s)
      simp [plain] at h
      unfold Utf.inR
      omega
    · exact .nil

theorem strLoop_wf : ∀ (n : Nat) (u s : Bytes), WellFormed u →
    Post (strLoop n (0x22 :: u) s) fun r => ∃ v, r.1 = 0x22 :: v ∧ WellFormed v
  | 0, _, _, _ => Post.ub
  | n + 1, u, s, h => by
    rw [strLoop]
    have hu := wf_append h (wf_plain s)
    refine (Post.triv _).bind ?_
    rintro (_ | x) _
    · exact Post.throw
    · simp only
      split
      · exact Post.throw
      split
      · exact Post.ok ⟨_, by simp, hu⟩
      split
      · refine (Post.triv _).bind ?_
        rintro y _
        have := strLoop_wf n _ y.2 (wf_append hu (wf_put y.1))
        simpa using this
      · have := strLoop_wf n _ x.2 (wf_append hu (wf_put x.1))
        simpa using this

/-- The text of a string token. -/
def TokStr (tok : Bytes) : Prop := at0 tok = 0x22 → WellFormed (tok.drop 1)

theorem run_head (c : Nat) (p : Nat → Bool) (s : Bytes) (h : c < 256) (hc : c ≠ 0x22) :
    Post ((run p s).map fun r => (UInt8.ofNat c :: r.1, (⟨r.2.1, false, r.2.2⟩ : Ctx))) fun r => TokStr r.1 := by
  refine (Post.triv _).map ?_
  intro r _ he
  change UInt8.ofNat c = 0x22 at he
  have : (UInt8.ofNat c).toNat = 0x22 := by rw [he]; rfl
  rw [Utf.ofNat_toNat] at this
  omega

theorem exponent_head (b : UInt8) (t : Bytes) (c : Option Nat) (s : Bytes) :
    Post (exponent (b :: t) c s) fun r => at0 r.1 = b := by
  unfold exponent
  split
  · exact Post.ok rfl
  · split
    · refine (Post.triv _).bind ?_
      rintro (_ | x) _
      · exact Post.throw
      · simp only
        split
        · exact (Post.triv _).map fun _ _ => rfl
        · exact (Post.triv _).map fun _ _ => rfl
    · exact Post.ok rfl

theorem fraction_head (b : UInt8) (t : Bytes) (c : Option Nat) (s : Bytes) :
    Post (fraction (b :: t) c s) fun r => at0 r.1 = b := by
  unfold fraction
  split
  · exact Post.ok rfl
  · split
    · refine (Post.triv _).bind fun r _ => ?_
      exact exponent_head b _ _ _
    · exact exponent_head b _ _ _

theorem number_head (c : Nat) (s : Bytes) : Post (number c s) fun r => at0 r.1 = UInt8.ofNat c := by
  unfold number
  split
  · exact (Post.triv _).bind fun r _ => fraction_head _ _ _ _
  · exact (Post.triv _).bind fun r _ => fraction_head _ _ _ _

theorem ofNat_ne {c : Nat} (h : c < 256) (hc : c ≠ 0x22) : UInt8.ofNat c ≠ 0x22 := by
  intro he
  have : (UInt8.ofNat c).toNat = 0x22 := by rw [he]; rfl
  rw [Utf.ofNat_toNat] at this
  omega

theorem body_str (eof : Bool) (c : Nat) (s : Bytes) : Post (body eof c s) fun r => TokStr r.1 := by
  unfold body
  split
  · rename_i hc
    refine Post.ok ?_
    intro he
    exact absurd he (ofNat_ne (c := c) (by omega) (by omega))
  split
  · rename_i hi
    have hi' : c = 0x5F ∨ c = 0x24 ∨ 0x41 ≤ c ∧ c ≤ 0x5A ∨ 0x61 ≤ c ∧ c ≤ 0x7A := by
      simp [isIdent1] at hi; omega
    exact run_head c _ s (by omega) (by omega)
  split
  · rename_i hc
    simp only [isDigit] at hc
    refine (number_head c s).map ?_
    intro r hr he
    rw [hr] at he
    simp at hc
    exact absurd he (ofNat_ne (c := c) (by omega) (by omega))
  split
  · refine (strLoop_wf _ [] s .nil).map ?_
    rintro r ⟨v, hv, hw⟩ _
    simp only
    rw [hv]
    exact hw
  · exact Post.throw

theorem skipWs_str (eof : Bool) (c : Nat) (s : Bytes) : Post (skipWs eof c s) fun r => TokStr r.1 := by
  unfold skipWs
  split
  · refine (Post.triv _).bind ?_
    rintro (_ | x) _
    · exact Post.ok fun _ => .nil
    · exact body_str _ _ _
  · exact body_str _ _ _

theorem token_str (total : Nat) (ctx : Ctx) : Post (token total ctx) fun r => TokStr r.1 := by
  unfold token
  split
  · exact skipWs_str _ _ _
  · refine (Post.triv _).bind ?_
    rintro (_ | x) _
    · exact Post.ok fun _ => .nil
    · simp only
      split
      · refine (Post.triv _).bind ?_
        rintro (_ | x) _
        · exact Post.ok fun _ => .nil
        · exact skipWs_str _ _ _
      · exact skipWs_str _ _ _

/-! ### Values -/

/-- What holds of a value with `d` open containers around it. -/
def Fit (ofInt : Int → Dbl) (P : Dbl → Prop) (d : Nat) (v : Value) : Prop :=
  Good ofInt P v ∧ norm ofInt v = v ∧ d + height v ≤ 32

theorem goodList_iff {ofInt : Int → Dbl} {P : Dbl → Prop} : ∀ {l : List Value}, GoodList ofInt P l ↔ ∀ x ∈ l, Good ofInt P x
  | [] => by simp [GoodList]
  | x :: xs => by simp [GoodList, goodList_iff]

theorem goodFields_iff {ofInt : Int → Dbl} {P : Dbl → Prop} : ∀ {l : List (Bytes × Value)},
    GoodFields ofInt P l ↔ ∀ x ∈ l, WellFormed x.1 ∧ Good ofInt P x.2
  | [] => by simp [GoodFields]
  | x :: xs => by simp only [GoodFields, goodFields_iff, List.forall_mem_cons, and_assoc]

theorem normList_eq {ofInt : Int → Dbl} : ∀ {l : List Value}, (∀ x ∈ l, norm ofInt x = x) → normList ofInt l = l
  | [], _ => by simp [normList]
  | x :: xs, h => by
    rw [normList, h x (by simp), normList_eq fun y hy => h y (by simp [hy])]

theorem normFields_eq {ofInt : Int → Dbl} : ∀ {l : List (Bytes × Value)}, (∀ x ∈ l, norm ofInt x.2 = x.2) →
    normFields ofInt l = l
  | [], _ => by simp [normFields]
  | x :: xs, h => by
    rw [normFields, h x (by simp), normFields_eq fun y hy => h y (by simp [hy])]

theorem heightList_le {n : Nat} : ∀ {l : List Value}, (∀ x ∈ l, height x ≤ n) → heightList l ≤ n
  | [], _ => by simp [heightList]
  | x :: xs, h => by
    rw [heightList]
    exact Nat.max_le.2 ⟨h x (by simp), heightList_le fun y hy => h y (by simp [hy])⟩

theorem heightFields_le {n : Nat} : ∀ {l : List (Bytes × Value)}, (∀ x ∈ l, height x.2 ≤ n) → heightFields l ≤ n
  | [], _ => by simp [heightFields]
  | x :: xs, h => by
    rw [heightFields]
    exact Nat.max_le.2 ⟨h x (by simp), heightFields_le fun y hy => h y (by simp [hy])⟩

theorem fit_arr {ofInt : Int → Dbl} {P : Dbl → Prop} {d : Nat} {l : List Value} (hd : d ≤ 32) (h : ∀ x ∈ l, Fit ofInt P (d + 1) x) :
    Fit ofInt P d (.arr l) := by
  refine ⟨?_, ?_, ?_⟩
  · rw [Good]; exact goodList_iff.2 fun x hx => (h x hx).1
  · rw [norm, normList_eq fun x hx => (h x hx).2.1]
  · cases l with
    | nil => simpa [height] using hd
    | cons x xs =>
      rw [height]
      have := (h x (by simp)).2.2
      have := heightList_le (n := 31 - d) fun y hy => by have := (h y hy).2.2; omega
      omega

theorem fit_obj {ofInt : Int → Dbl} {P : Dbl → Prop} {d : Nat} {l : List (Bytes × Value)} (hd : d ≤ 32) (hk : (l.map (·.1)).Nodup)
    (h : ∀ x ∈ l, WellFormed x.1 ∧ Fit ofInt P (d + 1) x.2) : Fit ofInt P d (.obj l) := by
  refine ⟨?_, ?_, ?_⟩
  · rw [Good]; exact ⟨hk, goodFields_iff.2 fun x hx => ⟨(h x hx).1, (h x hx).2.1⟩⟩
  · rw [norm, normFields_eq fun x hx => (h x hx).2.2.1]
  · cases l with
    | nil => simpa [height] using hd
    | cons x xs =>
      rw [height]
      have := (h x (by simp)).2.2.2
      have := heightFields_le (n := 31 - d) fun y hy => by have := (h y hy).2.2.2; omega
      omega

/-- What holds of the stack. -/
def FramesOk (ofInt : Int → Dbl) (P : Dbl → Prop) : List Frame → Prop
  | [] => True
  | .arr items :: fs => (∀ x ∈ items, Fit ofInt P (fs.length + 1) x) ∧ FramesOk ofInt P fs
  | .obj entries key :: fs =>
    (∀ x ∈ entries, WellFormed x.1 ∧ Fit ofInt P (fs.length + 1) x.2) ∧ WellFormed key ∧
      (entries.map (·.1) ++ [key]).Nodup ∧ FramesOk ofInt P fs

/-- What holds of a state. -/
def Inv (ofInt : Int → Dbl) (P : Dbl → Prop) : State → Prop
  | .pack tok _ fs => TokStr tok ∧ fs.length ≤ 33 ∧ FramesOk ofInt P fs
  | .close v _ fs => Fit ofInt P fs.length v ∧ FramesOk ofInt P fs

theorem fit_leaf {ofInt : Int → Dbl} {P : Dbl → Prop} {d : Nat} {v : Value} (hd : d ≤ 32) (hg : Good ofInt P v)
    (hn : norm ofInt v = v) (hh : height v = 0) : Fit ofInt P d v := ⟨hg, hn, by omega⟩

theorem step_inv (ofInt : Int → Dbl) (P : Dbl → Prop) (castD : NumGet → Option Dbl)
    (hc : ∀ g d, castD g = some d → (∃ q, d = .fin q) ∧ P d)
    (total : Nat) {st : State} (h : Inv ofInt P st) :
    Post (step castD total st) fun
      | .inl st' => Inv ofInt P st'
      | .inr v => Fit ofInt P 0 v := by
  have hcolon : ∀ (ctx : Ctx) (k : Bytes → Ctx → Res (State ⊕ Value)) (mk : Bytes → Ctx → State),
      (∀ tok c, k tok c = .ok (.inl (mk tok c))) → (∀ tok c, TokStr tok → Inv ofInt P (mk tok c)) →
      Post (colon total ctx k) fun
        | .inl st' => Inv ofInt P st'
        | .inr v => Fit ofInt P 0 v := by
    intro ctx k mk hk hs
    unfold Json.colon
    refine (Post.triv _).bind ?_
    rintro t _
    split
    · exact Post.throw
    · refine (token_str _ _).bind ?_
      rintro u hu
      split
      · exact Post.throw
      · rw [hk]
        exact Post.ok (hs _ _ hu)
  match st, h with
  | .pack tok ctx fs, ⟨ht, hl, hf⟩ =>
    rw [step]
    split
    · exact Post.throw
    rename_i hl'
    have hl' : fs.length ≤ 32 := by omega
    split
    · refine (token_str _ _).bind ?_
      rintro t ht
      split
      · exact Post.throw
      split
      · exact Post.ok ⟨ht, by simp; omega, by simp, hf⟩
      · exact Post.ok ⟨fit_arr hl' (by simp), hf⟩
    split
    · refine (token_str _ _).bind ?_
      rintro t ht
      split
      · exact Post.throw
      split
      · split
        · exact Post.throw
        · rename_i hq
          have hq : at0 t.1 = 0x22 := not_not.1 hq
          exact hcolon _ _ _ (fun _ _ => rfl) fun tok c hs => ⟨hs, by simp; omega, by simp, ht hq, by simp, hf⟩
      · exact Post.ok ⟨fit_obj hl' (by simp) (by simp), hf⟩
    split
    · split
      · split
        · rename_i d hd
          obtain ⟨⟨q, rfl⟩, hp⟩ := hc _ _ hd
          exact Post.ok ⟨fit_leaf hl' (by rw [Good]; exact hp) (by simp [norm]) (by simp [height]), hf⟩
        · exact Post.throw
      · exact Post.ub
    split
    · rename_i hq
      exact Post.ok ⟨fit_leaf hl' (by rw [Good]; exact ht hq) (by simp [norm]) (by simp [height]), hf⟩
    split
    · exact Post.ok ⟨fit_leaf hl' (by simp [Good]) (by simp [norm]) (by simp [height]), hf⟩
    split
    · exact Post.ok ⟨fit_leaf hl' (by simp [Good]) (by simp [norm]) (by simp [height]), hf⟩
    split
    · exact Post.ok ⟨fit_leaf hl' (by simp [Good]) (by simp [norm]) (by simp [height]), hf⟩
    · exact Post.throw
  | .close v ctx [], h =>
    rw [step]
    refine (Post.triv _).bind ?_
    rintro t _
    split
    · exact Post.throw
    · exact Post.ok h.1
  | .close v ctx (.arr items :: fs), ⟨hv, hi, hf⟩ =>
    have hd : fs.length ≤ 31 := by have := hv.2.2; simp at this; omega
    have hi' : ∀ x ∈ items ++ [v], Fit ofInt P (fs.length + 1) x := by
      intro x hx
      rcases List.mem_append.1 hx with hx | hx
      · exact hi x hx
      · rw [List.mem_singleton.1 hx]; exact hv
    rw [step]
    refine (Post.triv _).bind ?_
    rintro t _
    split
    · exact Post.throw
    split
    · split
      · exact Post.throw
      · refine (token_str _ _).bind ?_
        rintro u hu
        split
        · exact Post.throw
        split
        · exact Post.ok ⟨hu, by simp; omega, hi', hf⟩
        · exact Post.ok ⟨fit_arr (by omega) hi', hf⟩
    · exact Post.ok ⟨fit_arr (by omega) hi', hf⟩
  | .close v ctx (.obj entries key :: fs), ⟨hv, hi, hk, hn, hf⟩ =>
    have hd : fs.length ≤ 31 := by have := hv.2.2; simp at this; omega
    have hi' : ∀ x ∈ entries ++ [(key, v)], WellFormed x.1 ∧ Fit ofInt P (fs.length + 1) x.2 := by
      intro x hx
      rcases List.mem_append.1 hx with hx | hx
      · exact hi x hx
      · rw [List.mem_singleton.1 hx]; exact ⟨hk, hv⟩
    have hn' : ((entries ++ [(key, v)]).map (·.1)).Nodup := by simpa using hn
    rw [step]
    refine (Post.triv _).bind ?_
    rintro t _
    split
    · exact Post.throw
    split
    · split
      · exact Post.throw
      · refine (token_str _ _).bind ?_
        rintro u hu
        split
        · exact Post.throw
        split
        · split
          · exact Post.throw
          split
          · exact Post.throw
          · rename_i hq hm
            have hq : at0 u.1 = 0x22 := not_not.1 hq
            refine hcolon _ _ _ (fun _ _ => rfl) fun tok c hs => ⟨hs, by simp; omega, hi', hu hq, ?_, hf⟩
            rw [List.nodup_append]
            refine ⟨hn', by simp, ?_⟩
            rintro a ha b hb rfl
            rw [List.mem_singleton] at hb
            exact hm (hb ▸ ha)
        · exact Post.ok ⟨fit_obj (by omega) hn' hi', hf⟩
    · exact Post.ok ⟨fit_obj (by omega) hn' hi', hf⟩

theorem steps_inv (ofInt : Int → Dbl) (P : Dbl → Prop) (castD : NumGet → Option Dbl)
    (hc : ∀ g d, castD g = some d → (∃ q, d = .fin q) ∧ P d)
    (total : Nat) : ∀ (n : Nat) (st : State), Inv ofInt P st → Post (steps castD total n st) (Fit ofInt P 0)
  | 0, _, _ => Post.ub
  | n + 1, st, h => by
    rw [steps]
    refine (step_inv ofInt P castD hc total h).bind ?_
    rintro (st' | v) ha
    · exact steps_inv ofInt P castD hc total n st' ha
    · exact Post.ok ha

theorem parse_fit (ofInt : Int → Dbl) (P : Dbl → Prop) (castD : NumGet → Option Dbl)
    (hc : ∀ g d, castD g = some d → (∃ q, d = .fin q) ∧ P d)
    (text : Bytes) : Post (parse castD text) (Fit ofInt P 0) := by
  unfold parse
  refine (token_str _ _).bind ?_
  rintro t ht
  split
  · exact Post.throw
  · exact steps_inv ofInt P castD hc _ _ _ ⟨ht, by simp, trivial⟩

/-! ### Open containers -/

/-- The states that `do_parse_from` passes, given a text. -/
inductive Reach (castD : NumGet → Option Dbl) (text : Bytes) : State → Prop
  | start {t} : token text.length ⟨none, false, text⟩ = .ok t → t.1 ≠ [] → Reach castD text (.pack t.1 t.2 [])
  | next {st st'} : Reach castD text st → step castD text.length st = .ok (.inl st') → Reach castD text st'

/-- The number of open containers. -/
def State.depth : State → Nat
  | .pack _ _ fs => fs.length
  | .close _ _ fs => fs.length

theorem step_depth (castD : NumGet → Option Dbl) (total : Nat) {st : State} (h : st.depth ≤ 33) :
    Post (step castD total st) fun
      | .inl st' => st'.depth ≤ 33
      | .inr _ => True := by
  have hcolon : ∀ (ctx : Ctx) (k : Bytes → Ctx → Res (State ⊕ Value)) (mk : Bytes → Ctx → State),
      (∀ tok c, k tok c = .ok (.inl (mk tok c))) → (∀ tok c, (mk tok c).depth ≤ 33) →
      Post (colon total ctx k) fun
        | .inl st' => st'.depth ≤ 33
        | .inr _ => True := by
    intro ctx k mk hk hs
    unfold Json.colon
    refine (Post.triv _).bind ?_
    rintro t _
    split
    · exact Post.throw
    · refine (Post.triv _).bind ?_
      rintro u _
      split
      · exact Post.throw
      · rw [hk]
        exact Post.ok (hs _ _)
  match st, h with
  | .pack tok ctx fs, h =>
    rw [step]
    split
    · exact Post.throw
    rename_i hl
    have hl : fs.length ≤ 32 := by omega
    split
    · refine (Post.triv _).bind ?_
      rintro t _
      split
      · exact Post.throw
      split
      · exact Post.ok (by simp [State.depth]; omega)
      · exact Post.ok h
    split
    · refine (Post.triv _).bind ?_
      rintro t _
      split
      · exact Post.throw
      split
      · split
        · exact Post.throw
        · exact hcolon _ _ _ (fun _ _ => rfl) fun tok c => by simp [State.depth]; omega
      · exact Post.ok h
    split
    · split
      · split
        · exact Post.ok h
        · exact Post.throw
      · exact Post.ub
    split
    · exact Post.ok h
    split
    · exact Post.ok h
    split
    · exact Post.ok h
    split
    · exact Post.ok h
    · exact Post.throw
  | .close v ctx [], h =>
    rw [step]
    refine (Post.triv _).bind ?_
    rintro t _
    split
    · exact Post.throw
    · exact Post.ok trivial
  | .close v ctx (.arr items :: fs), h =>
    have h' : fs.length ≤ 33 := by simp [State.depth] at h; omega
    rw [step]
    refine (Post.triv _).bind ?_
    rintro t _
    split
    · exact Post.throw
    split
    · split
      · exact Post.throw
      · refine (Post.triv _).bind ?_
        rintro u _
        split
        · exact Post.throw
        split
        · exact Post.ok h
        · exact Post.ok h'
    · exact Post.ok h'
  | .close v ctx (.obj entries key :: fs), h =>
    have h' : fs.length ≤ 33 := by simp [State.depth] at h; omega
    rw [step]
    refine (Post.triv _).bind ?_
    rintro t _
    split
    · exact Post.throw
    split
    · split
      · exact Post.throw
      · refine (Post.triv _).bind ?_
        rintro u _
        split
        · exact Post.throw
        split
        · split
          · exact Post.throw
          split
          · exact Post.throw
          · exact hcolon _ _ _ (fun _ _ => rfl) fun tok c => h
        · exact Post.ok h'
    · exact Post.ok h'

theorem reach_depth (castD : NumGet → Option Dbl) (text : Bytes) {st : State} (h : Reach castD text st) : st.depth ≤ 33 := by
  induction h with
  | start _ _ => simp [State.depth]
  | next _ hs ih => exact step_depth castD _ ih _ hs

theorem tok_bracket (total : Nat) (s : Bytes) : token total ⟨none, false, 0x5B :: s⟩ = .ok ([0x5B], ⟨none, false, s⟩) := by
  unfold token
  simp only
  rw [load_ascii s (show (0x5B : UInt8).toNat < 0x80 by decide)]
  simp only [Res.bind]
  rw [if_neg (show ¬ (_ ∧ (0x5B : UInt8).toNat = 0xFEFF) from fun h => absurd h.2 (by decide))]
  rfl

/-- `[` opens a container if there are not too many. -/
theorem open_brackets (castD : NumGet → Option Dbl) (total : Nat) (r : Bytes) : ∀ (n : Nat) (fs : List Frame) (fuel : Nat),
    fs.length + n = 33 → n < fuel →
    steps castD total fuel (.pack [0x5B] ⟨none, false, List.replicate n 0x5B ++ r⟩ fs) = .throw
  | 0, fs, 0, _, hf => absurd hf (by omega)
  | 0, fs, k + 1, hl, hf => by
    rw [steps, step, if_pos (by omega)]; rfl
  | n + 1, fs, 0, _, hf => absurd hf (by omega)
  | n + 1, fs, k + 1, hl, hf => by
    rw [steps, step, if_neg (show ¬ fs.length > 32 by omega), if_pos (by decide), List.replicate_succ, List.cons_append,
      tok_bracket]
    simp only [Res.bind, Bool.false_eq_true, if_false]
    rw [if_pos (show at0 [0x5B] ≠ 0x5D by decide)]
    exact open_brackets castD total r n _ k (by simp; omega) (by omega)

theorem too_deep (castD : NumGet → Option Dbl) (r : Bytes) : parse castD (List.replicate 34 0x5B ++ r) = .throw := by
  unfold parse
  rw [show List.replicate 34 (0x5B : UInt8) ++ r = 0x5B :: (List.replicate 33 0x5B ++ r) from rfl, tok_bracket]
  simp only [Res.bind]
  rw [if_neg (by decide)]
  refine open_brackets castD _ r 33 [] _ rfl ?_
  simp only [List.length_append, List.length_replicate, List.length_cons]
  omega

end Asteria.Json
