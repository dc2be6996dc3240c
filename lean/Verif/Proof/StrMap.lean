import Verif.Model.StrMap
import Verif.Spec.StrMap
import Verif.Proof.CowStringState
import Verif.Proof.StrFind
import Verif.Proof.Lexer

/-! Lemmas about `to_upper`, `to_lower` and `translate`. -/

namespace Asteria.StrMap

open CowString CowString.Heap Spec.StrMap

theorem toUpper_spec (c : UInt8) : toUpper c = upper c := by
  revert c
  apply Lexer.forall_byte
  decide +kernel

theorem toLower_spec (c : UInt8) : toLower c = lower c := by
  revert c
  apply Lexer.forall_byte
  decide +kernel

theorem char_spec {H : Heap} {s : Str} {l : Bytes} (h : H.View s l) {i : Nat} (hi : i < l.length) : char H s i = .ok l[i] := by
  unfold char
  rw [h.read_part (by omega), Res.ok_bind, List.drop_eq_getElem_cons hi]
  rfl

/-- The pointer refers to the block of string `r`, which nothing else refers to. -/
def Held (S : State) (r : Nat) (w : Option Nat) : Prop :=
  ∀ p, w = some p → ∃ n b, S.vec[r]? = some ⟨.at p 0, n, some p⟩ ∧ S.heap.blk p = some b ∧ b.nref = 1

/-- After `fork`. -/
structure Open (S : State) (env : List Bytes) (r p : Nat) (l : Bytes) : Prop where
  inv : Inv S env
  text : env[r]? = some l
  str : S.vec[r]? = some ⟨.at p 0, l.length, some p⟩
  blk : ∃ b z, S.heap.blk p = some b ∧ b.nref = 1 ∧ b.Ok ∧ b.cells = l ++ 0 :: z

theorem Open.held {S : State} {env : List Bytes} {r p : Nat} {l : Bytes} (h : Open S env r p l) : Held S r (some p) := by
  intro q hq
  cases hq
  obtain ⟨b, z, h1, h2, _⟩ := h.blk
  exact ⟨_, b, h.str, h1, h2⟩

theorem set_str {S : State} {r : Nat} {s : Str} (h : S.vec[r]? = some s) : S.vec.set r s = S.vec := by
  obtain ⟨h1, h2⟩ := List.getElem?_eq_some_iff.1 h
  rw [← h2]; exact List.set_getElem_self h1

theorem set_text {env : List Bytes} {v : Nat} {l : Bytes} (h : env[v]? = some l) : env.set v l = env := by
  obtain ⟨h1, h2⟩ := List.getElem?_eq_some_iff.1 h
  rw [← h2]; exact List.set_getElem_self h1

theorem fork_spec {c : Cfg} (hc : c.Good) {S : State} {env : List Bytes} (hi : Inv S env) {r : Nat} {s : Str} {l : Bytes} (hv : S.vec[r]? = some s)
    (hl : env[r]? = some l) {w : Option Nat} (hw : Held S r w) :
    (fork c S r s w = .throw ∧ c.limit < l.length) ∨ ∃ S' p, fork c S r s w = .ok (S', p) ∧ Open S' env r p l := by
  have hview := hi.view r s l hv hl
  cases w with
  | some p =>
    right
    obtain ⟨n, b, h1, h2, h3⟩ := hw p rfl
    rw [hv] at h1
    cases h1
    have hlen : n = l.length := hview.len
    subst hlen
    obtain ⟨z, hz⟩ := hview.cells rfl h2
    obtain ⟨b', k1, _, k2⟩ := hview.has p rfl
    rw [h2] at k1
    cases k1
    exact ⟨S, p, rfl, hi, hl, hv, b, z, h2, h3, k2, hz⟩
  | none =>
    unfold fork
    dsimp only
    rcases mutData_spec hc hi.fresh hview with ⟨e, k⟩ | ⟨H1, p, b, z, e, u, hb, k1, ho, hcl⟩
    · left; rw [e]; exact ⟨rfl, k⟩
    · right
      rw [e]
      have hr : r < S.vec.length := (List.getElem?_eq_some_iff.1 hv).1
      have hlen := hview.len
      refine ⟨_, p, rfl, ?_, hl, ?_, b, z, hb, k1, ho, hcl⟩
      · have := hi.upd hv hl (s' := ⟨.at p 0, s.len, some p⟩) u (l' := l) (by rw [hlen]; exact view_at hb (by omega) ho hcl)
        rwa [set_text hl] at this
      · dsimp only
        rw [List.getElem?_set_self hr, hlen]

theorem write_step {S : State} {env : List Bytes} {r p : Nat} {D R : Bytes} {a : UInt8} (h : Open S env r p (D ++ a :: R)) (x : UInt8) :
    ∃ H, S.heap.write p D.length [x] = .ok H ∧ Open ⟨H, S.vec⟩ (env.set r (D ++ x :: R)) r p (D ++ x :: R) := by
  obtain ⟨b, z, h1, h2, h3, h4⟩ := h.blk
  rw [write_at h1 h2 (bs := [x]) (pre := D) (mid := [a]) (post := R ++ 0 :: z) (by rw [h4]; simp) rfl rfl]
  have ho' : ({ b with cells := D ++ ([x] ++ (R ++ 0 :: z)) } : Block).Ok := by
    refine ⟨?_, h3.2⟩
    have := h3.1
    rw [h4] at this
    simp at this ⊢
    omega
  have hlen : (D ++ a :: R).length = (D ++ x :: R).length := by simp
  have hs := h.str
  rw [hlen] at hs
  have hr : r < env.length := (List.getElem?_eq_some_iff.1 h.text).1
  have hcl : D ++ ([x] ++ (R ++ 0 :: z)) = (D ++ x :: R) ++ 0 :: z := by simp
  have hi := h.inv.upd hs h.text (s' := ⟨.at p 0, (D ++ x :: R).length, some p⟩)
    (.inplace p b { b with cells := D ++ ([x] ++ (R ++ 0 :: z)) } rfl h1 h2 h2 ho') (l' := D ++ x :: R)
    (view_at (set_same _ _ _) (by dsimp only; omega) ho' hcl)
  rw [set_str hs] at hi
  exact ⟨_, rfl, hi, List.getElem?_set_self hr, hs, _, z, set_same _ _ _, h2, ho', hcl⟩

theorem erase_step {c : Cfg} {S : State} {env : List Bytes} {r p : Nat} {D R : Bytes} {a : UInt8} (h : Open S env r p (D ++ a :: R)) :
    ∃ S', S.step c (.replaceFill r D.length 1 0 0) = .ok S' ∧ Open S' (env.set r (D ++ R)) r p (D ++ R) := by
  obtain ⟨b, z, h1, h2, h3, h4⟩ := h.blk
  have hr : r < env.length := (List.getElem?_eq_some_iff.1 h.text).1
  have hrv : r < S.vec.length := (List.getElem?_eq_some_iff.1 h.str).1
  have hmd : S.heap.mutData c ⟨.at p 0, (D ++ a :: R).length, some p⟩ = .ok (S.heap, ⟨.at p 0, (D ++ a :: R).length, some p⟩, p) := by
    unfold mutData mutDataOpt
    dsimp only
    rw [get_of h1]
    simp [Res.map, h2, Res.bind]
  have hmin : min ((D ++ a :: R).length - D.length) 1 = 1 := by simp
  unfold State.step
  dsimp only
  rw [str_of h.str, Res.ok_bind]
  unfold replace append
  rw [if_neg (by dsimp only; simp), if_pos rfl, Res.ok_bind]
  dsimp only
  unfold swizzle
  rw [hmin, hmd, Res.ok_bind]
  dsimp only
  rw [rotate_spec h1 h2 (A := D) (B := [a]) (C := R ++ [0]) (rest := z) (by rw [h4]; simp) rfl (by simp) (by simp; omega), Res.ok_bind]
  rw [rotate_spec (set_same _ _ _) (by exact h2) (A := D) (B := R) (C := []) (rest := 0 :: (a :: z)) (by simp) rfl (by simp) (by simp), set_set]
  have ho' : ({ b with cells := D ++ ([] ++ (R ++ 0 :: (a :: z))) } : Block).Ok := by
    refine ⟨?_, h3.2⟩
    have := h3.1
    rw [h4] at this
    simp at this ⊢
    omega
  have hcl : D ++ ([] ++ (R ++ 0 :: (a :: z))) = (D ++ R) ++ 0 :: (a :: z) := by simp
  have hlen : (D ++ a :: R).length - 1 = (D ++ R).length := by simp
  have hi := h.inv.upd h.str h.text (s' := ⟨.at p 0, (D ++ R).length, some p⟩)
    (.inplace p b { b with cells := D ++ ([] ++ (R ++ 0 :: (a :: z))) } rfl h1 h2 h2 ho') (l' := D ++ R)
    (view_at (set_same _ _ _) (by dsimp only; omega) ho' hcl)
  refine ⟨_, rfl, ?_, List.getElem?_set_self hr, ?_, _, a :: z, set_same _ _ _, h2, ho', hcl⟩
  · rw [hlen]; exact hi
  · dsimp only
    rw [List.getElem?_set_self hrv, hlen]

theorem caseLoop_spec {c : Cfg} (hc : c.Good) (f : UInt8 → UInt8) (r : Nat) : ∀ (n : Nat) (S : State) (env : List Bytes) (w : Option Nat) (D R : Bytes),
    Inv S env → env[r]? = some (D ++ R) → n = R.length → Held S r w →
    (caseLoop c f r n S w D.length = .throw ∧ c.limit < (D ++ R).length) ∨
    ∃ S', caseLoop c f r n S w D.length = .ok S' ∧ Inv S' (env.set r (D ++ R.map f)) := by
  intro n
  induction n with
  | zero =>
    intro S env w D R hi hl hn hw
    have : R = [] := List.length_eq_zero_iff.1 hn.symm
    subst this
    obtain ⟨s, hs⟩ := hi.str hl
    have hlen := (hi.view r s _ hs hl).len
    right
    rw [caseLoop, str_of hs, Res.ok_bind, if_neg (by rw [hlen]; simp)]
    refine ⟨S, rfl, ?_⟩
    rw [List.map_nil, set_text hl]
    exact hi
  | succ n ih =>
    intro S env w D R hi hl hn hw
    cases R with
    | nil => cases hn
    | cons a R =>
      obtain ⟨s, hs⟩ := hi.str hl
      have hview := hi.view r s _ hs hl
      rw [caseLoop, str_of hs, Res.ok_bind, if_pos (by rw [hview.len]; simp)]
      dsimp only
      rw [char_spec hview (by simp), Res.ok_bind]
      have hga : (D ++ a :: R)[D.length]'(by simp) = a := by simp
      rw [hga]
      have hn' : n = R.length := by simpa using hn
      have hD : ∀ x : UInt8, D.length + 1 = (D ++ [x]).length := by simp
      have hDR : ∀ (x : UInt8) (R : Bytes), D ++ x :: R = (D ++ [x]) ++ R := by simp
      by_cases hf : a = f a
      · rw [if_pos hf, hD a]
        rcases ih S env w (D ++ [a]) R hi (by rw [← hDR]; exact hl) hn' hw with ⟨e, k⟩ | ⟨S', e, k⟩
        · exact .inl ⟨e, by rw [hDR]; exact k⟩
        · refine .inr ⟨S', e, ?_⟩
          rw [List.map_cons, ← hf, hDR]
          exact k
      · rw [if_neg hf]
        rcases fork_spec hc hi hs hl hw with ⟨e, k⟩ | ⟨S1, p, e, ho⟩
        · left; rw [e]; exact ⟨rfl, k⟩
        · rw [e, Res.ok_bind]
          dsimp only
          obtain ⟨H, e2, ho2⟩ := write_step ho (f a)
          rw [e2, Res.ok_bind, hD (f a)]
          rcases ih ⟨H, S1.vec⟩ _ (some p) (D ++ [f a]) R ho2.inv (by rw [← hDR]; exact ho2.text) hn' ho2.held with ⟨e3, k⟩ | ⟨S', e3, k⟩
          · exact .inl ⟨e3, by simpa using k⟩
          · refine .inr ⟨S', e3, ?_⟩
            rw [List.set_set] at k
            rw [List.map_cons, hDR]
            exact k

theorem findChar_zero {inp : Bytes} (h : inp.length < 2 ^ 64) (a : UInt8) :
    (a ∈ inp ∧ StrFind.findChar inp 0 a = .ok (inp.idxOf a) ∧ inp.idxOf a ≠ StrFind.npos) ∨
    (a ∉ inp ∧ StrFind.findChar inp 0 a = .ok StrFind.npos) := by
  unfold StrFind.findChar
  by_cases hmem : a ∈ inp
  · left
    have hlt : inp.idxOf a < inp.length := List.idxOf_lt_length_iff.2 hmem
    refine ⟨hmem, ?_, by unfold StrFind.npos; omega⟩
    rw [if_neg (by omega), List.drop_zero]
    have : inp.findIdx? (fun x => decide (x = a)) = some (inp.idxOf a) := by
      rw [List.findIdx?_eq_some_iff_getElem]
      refine ⟨hlt, by simp, fun j hj => ?_⟩
      have := List.not_of_lt_findIdx (p := (· == a)) (xs := inp) (i := j) hj
      simpa using this
    rw [this]
    simp
  · right
    refine ⟨hmem, ?_⟩
    by_cases h0 : 0 ≥ inp.length
    · rw [if_pos h0]
    rw [if_neg h0, List.drop_zero]
    have : inp.findIdx? (fun x => decide (x = a)) = none := by
      rw [List.findIdx?_eq_none_iff]
      intro x hx
      simp
      rintro rfl
      exact hmem hx
    rw [this]

theorem outAt_spec {S : State} {env : List Bytes} (hi : Inv S env) {o : Option Nat} {out : Option Bytes}
    (ho : (o = none ∧ out = none) ∨ ∃ v l, o = some v ∧ out = some l ∧ env[v]? = some l) (i : Nat) :
    outAt S o i = .ok ((out.getD [])[i]?) := by
  unfold outAt
  rcases ho with ⟨rfl, rfl⟩ | ⟨v, l, rfl, rfl, hl⟩
  · rfl
  · dsimp only
    obtain ⟨s, hs⟩ := hi.str hl
    have hview := hi.view v s _ hs hl
    rw [str_of hs, Res.ok_bind, hview.len, Option.getD_some]
    by_cases h : i < l.length
    · rw [if_pos h, char_spec hview h, List.getElem?_eq_getElem h]
      rfl
    · rw [if_neg h, List.getElem?_eq_none (by omega)]

/-- The strings besides the result. -/
def Params (env : List Bytes) (r u : Nat) (o : Option Nat) (inp : Bytes) (out : Option Bytes) : Prop :=
  r ≠ u ∧ env[u]? = some inp ∧ ((o = none ∧ out = none) ∨ ∃ v l, o = some v ∧ out = some l ∧ r ≠ v ∧ env[v]? = some l)

theorem Params.set {env : List Bytes} {r u : Nat} {o : Option Nat} {inp : Bytes} {out : Option Bytes} (h : Params env r u o inp out) (l : Bytes) :
    Params (env.set r l) r u o inp out := by
  obtain ⟨h1, h2, h3⟩ := h
  refine ⟨h1, by rw [List.getElem?_set_ne h1]; exact h2, ?_⟩
  rcases h3 with h3 | ⟨v, k, k1, k2, k3, k4⟩
  · exact .inl h3
  · exact .inr ⟨v, k, k1, k2, k3, by rw [List.getElem?_set_ne k3]; exact k4⟩

theorem trLoop_spec {c : Cfg} (hc : c.Good) (r u : Nat) (o : Option Nat) (inp : Bytes) (out : Option Bytes) (hin : inp.length < 2 ^ 64) :
    ∀ (n : Nat) (S : State) (env : List Bytes) (w : Option Nat) (D R : Bytes),
    Inv S env → Params env r u o inp out → env[r]? = some (D ++ R) → n = R.length → Held S r w →
    (trLoop c r u o n S w D.length = .throw ∧ c.limit < (D ++ R).length) ∨
    ∃ S', trLoop c r u o n S w D.length = .ok S' ∧ Inv S' (env.set r (D ++ R.flatMap (image inp out))) := by
  intro n
  induction n with
  | zero =>
    intro S env w D R hi hp hl hn hw
    have : R = [] := List.length_eq_zero_iff.1 hn.symm
    subst this
    obtain ⟨s, hs⟩ := hi.str hl
    have hlen := (hi.view r s _ hs hl).len
    right
    rw [trLoop, str_of hs, Res.ok_bind, if_neg (by rw [hlen]; simp)]
    refine ⟨S, rfl, ?_⟩
    rw [List.flatMap_nil, set_text hl]
    exact hi
  | succ n ih =>
    intro S env w D R hi hp hl hn hw
    cases R with
    | nil => cases hn
    | cons a R =>
      obtain ⟨s, hs⟩ := hi.str hl
      have hview := hi.view r s _ hs hl
      rw [trLoop, str_of hs, Res.ok_bind, if_pos (by rw [hview.len]; simp)]
      dsimp only
      rw [char_spec hview (by simp), Res.ok_bind]
      have hga : (D ++ a :: R)[D.length]'(by simp) = a := by simp
      rw [hga]
      obtain ⟨su, hsu⟩ := hi.str hp.2.1
      rw [str_of hsu, Res.ok_bind, (hi.view u su _ hsu hp.2.1).rd, Res.ok_bind]
      have hn' : n = R.length := by simpa using hn
      have hD : ∀ x : UInt8, D.length + 1 = (D ++ [x]).length := by simp
      have hDR : ∀ (x : UInt8) (R : Bytes), D ++ x :: R = (D ++ [x]) ++ R := by simp
      rcases findChar_zero hin a with ⟨hmem, e0, hne⟩ | ⟨hmem, e0⟩
      · rw [e0, Res.ok_bind, if_neg hne]
        rcases fork_spec hc hi hs hl hw with ⟨e, k⟩ | ⟨S1, p, e, ho⟩
        · left; rw [e]; exact ⟨rfl, k⟩
        rw [e, Res.ok_bind]
        dsimp only
        have hout := hp.2.2
        rw [outAt_spec ho.inv (out := out) (by
          rcases hout with h | ⟨v, k, k1, k2, _, k4⟩
          · exact .inl h
          · exact .inr ⟨v, k, k1, k2, k4⟩), Res.ok_bind]
        have himg : image inp out a = ((out.getD [])[inp.idxOf a]?).toList := by unfold image; rw [if_pos hmem]
        cases hx : (out.getD [])[inp.idxOf a]? with
        | some b =>
          dsimp only
          obtain ⟨H, e2, ho2⟩ := write_step ho b
          rw [e2, Res.ok_bind, hD b]
          rcases ih ⟨H, S1.vec⟩ _ (some p) (D ++ [b]) R ho2.inv (hp.set _) (by rw [← hDR]; exact ho2.text) hn' ho2.held with ⟨e3, k⟩ | ⟨S', e3, k⟩
          · exact .inl ⟨e3, by simpa using k⟩
          · refine .inr ⟨S', e3, ?_⟩
            rw [List.set_set] at k
            rw [List.flatMap_cons, himg, hx, Option.toList_some, ← List.append_assoc]
            exact k
        | none =>
          dsimp only
          obtain ⟨S2, e2, ho2⟩ := erase_step (c := c) ho
          rw [e2, Res.ok_bind]
          rcases ih S2 _ (some p) D R ho2.inv (hp.set _) ho2.text hn' ho2.held with ⟨e3, k⟩ | ⟨S', e3, k⟩
          · refine .inl ⟨e3, ?_⟩
            simp at k ⊢
            omega
          · refine .inr ⟨S', e3, ?_⟩
            rw [List.set_set] at k
            rw [List.flatMap_cons, himg, hx, Option.toList_none, List.nil_append]
            exact k
      · rw [e0, Res.ok_bind, if_pos rfl, hD a]
        have himg : image inp out a = [a] := by unfold image; rw [if_neg hmem]
        rcases ih S env w (D ++ [a]) R hi hp (by rw [← hDR]; exact hl) hn' hw with ⟨e, k⟩ | ⟨S', e, k⟩
        · exact .inl ⟨e, by rw [hDR]; exact k⟩
        · refine .inr ⟨S', e, ?_⟩
          rw [List.flatMap_cons, himg, ← List.append_assoc]
          exact k

end Asteria.StrMap
