import Verif.Proof.CowString

/-! Programs that work with several copy-on-write strings: the invariant, and what each operation does to it. -/

namespace Asteria.CowString

open Heap

/-- The heap of `S` represents the texts `env`: every reference count is the number of strings that refer to the block, and
every string has its text. -/
structure Inv (S : State) (env : List Bytes) : Prop where
  len : env.length = S.vec.length
  fresh : S.heap.Fresh
  view : ∀ (v : Nat) s l, S.vec[v]? = some s → env[v]? = some l → S.heap.View s l
  cnt : ∀ p b, S.heap.blk p = some b → b.nref = (S.vec.map Str.sth).count (some p) ∧ 0 < b.nref

/-- All strings have their text at the beginning of their block. -/
def AllStrong (S : State) : Prop := ∀ s ∈ S.vec, Strong s

theorem two_le_count {vec : List Str} {p v w : Nat} {s t : Str} (hv : vec[v]? = some s) (hw : vec[w]? = some t)
    (hs : s.sth = some p) (ht : t.sth = some p) (h : v ≠ w) : 2 ≤ (vec.map Str.sth).count (some p) := by
  obtain ⟨hv1, hv2⟩ := List.getElem?_eq_some_iff.1 hv
  have hv1' : v < (vec.map Str.sth).length := by simpa using hv1
  have h1 := List.count_set (a := (none : Option Nat)) (b := some p) hv1'
  have h2 : 0 < ((vec.map Str.sth).set v none).count (some p) := by
    rw [List.count_pos_iff]
    apply List.mem_of_getElem? (i := w)
    rw [List.getElem?_set_ne h, List.getElem?_map, hw]
    simp [ht]
  simp [hv2, hs] at h1
  omega

theorem count_set {vec : List Str} {v : Nat} {s : Str} (hv : vec[v]? = some s) (x : Str) (p : Nat) :
    ((vec.set v x).map Str.sth).count (some p) =
      (vec.map Str.sth).count (some p) - (if s.sth = some p then 1 else 0) + (if x.sth = some p then 1 else 0) := by
  obtain ⟨hv1, hv2⟩ := List.getElem?_eq_some_iff.1 hv
  have hv1' : v < (vec.map Str.sth).length := by simpa using hv1
  rw [List.map_set]
  have := List.count_set (a := x.sth) (b := some p) hv1'
  simpa [hv2] using this

theorem count_pos {vec : List Str} {v p : Nat} {s : Str} (hv : vec[v]? = some s) (hs : s.sth = some p) :
    1 ≤ (vec.map Str.sth).count (some p) := by
  rw [Nat.succ_le_iff, List.count_pos_iff]
  apply List.mem_of_getElem? (i := v)
  rw [List.getElem?_map, hv]
  simp [hs]

theorem AllStrong.set {S : State} (h : AllStrong S) {v : Nat} {s x : Str} (hv : S.vec[v]? = some s) (hx : Strong s → Strong x) (H : Heap) :
    AllStrong ⟨H, S.vec.set v x⟩ := by
  intro t ht
  rcases List.mem_or_eq_of_mem_set ht with h1 | h1
  · exact h t h1
  · subst h1; exact hx (h s (List.mem_of_getElem? hv))

/-- A member function that changes one string. -/
theorem Inv.upd {S : State} {env : List Bytes} {v : Nat} {s s' : Str} {l l' : Bytes} {H' : Heap} (hi : Inv S env) (hv : S.vec[v]? = some s)
    (hl : env[v]? = some l) (hu : Heap.Upd S.heap s.sth H' s'.sth) (hview : H'.View s' l') : Inv ⟨H', S.vec.set v s'⟩ (env.set v l') := by
  have hm := hi.view v s l hv hl
  obtain ⟨hv1, hv2⟩ := List.getElem?_eq_some_iff.1 hv
  have hcs := count_set hv s'
  -- blocks that other strings refer to
  have hrel : ∀ (w : Nat) t p b, v ≠ w → S.vec[w]? = some t → t.sth = some p → S.heap.blk p = some b →
      ∃ b', S.heap.release s.sth p = some b' ∧ b'.cells = b.cells ∧ b'.cap = b.cap ∧ 0 < b'.nref := by
    intro w t p b hvw hw ht hb
    have hcnt := hi.cnt p b hb
    unfold Heap.release
    split
    · next he =>
      have := two_le_count hv hw he ht hvw
      rw [hb]
      simp only
      rw [if_neg (by omega)]
      exact ⟨_, rfl, rfl, rfl, by simp only; omega⟩
    · exact ⟨b, hb, rfl, rfl, hcnt.2⟩
  refine ⟨by simpa using hi.len, hu.isFresh hi.fresh, ?_, ?_⟩
  · intro w t lw hw hlw
    by_cases hvw : v = w
    · subst hvw
      have hv1' : v < env.length := by rw [hi.len]; exact hv1
      simp only [List.getElem?_set_self hv1] at hw
      simp only [List.getElem?_set_self hv1'] at hlw
      cases hw; cases hlw
      exact hview
    · rw [List.getElem?_set_ne hvw] at hw hlw
      have hf := hi.view w t lw hw hlw
      refine hf.frame fun p b hp hb => ?_
      obtain ⟨b1, r1, r2, r3, r4⟩ := hrel w t p b hvw hw hp hb
      have hcnt := hi.cnt p b hb
      have hlt : p < S.heap.next := by
        by_contra hge
        rw [hi.fresh p (by omega)] at hb; cases hb
      generalize s'.sth = m' at hu
      cases hu with
      | same => exact ⟨b, hb, rfl, rfl, hcnt.2⟩
      | inplace p2 b2 b' hm2 hb2 g1 =>
        by_cases hp2 : p = p2
        · subst hp2
          have := two_le_count hv hw hm2 hp hvw
          rw [hb] at hb2
          cases hb2
          omega
        · exact ⟨b, by simp only; rw [Heap.set_other _ _ _ _ hp2, hb], rfl, rfl, hcnt.2⟩
      | fresh _ q b' _ _ gq gq' gb => exact ⟨b1, by simp only; rw [gb, if_neg (by omega), r1], r2, r3, r4⟩
      | gone _ hn gb => exact ⟨b1, by simp only; rw [gb, r1], r2, r3, r4⟩
  · have hrel' : ∀ p b, S.heap.release s.sth p = some b → 0 < b.nref ∧
        b.nref = (S.vec.map Str.sth).count (some p) - (if s.sth = some p then 1 else 0) := by
      intro p b hb
      unfold Heap.release at hb
      split at hb
      · next he =>
        cases hb0 : S.heap.blk p with
        | none => rw [hb0] at hb; cases hb
        | some b0 =>
          rw [hb0] at hb
          have := hi.cnt p b0 hb0
          simp only at hb
          split at hb
          · cases hb
          · cases hb
            simp only [if_pos he]
            omega
      · next he =>
        have := hi.cnt p b hb
        rw [if_neg he]
        omega
    intro p b hb
    simp only at hb ⊢
    rw [hcs p]
    generalize hm' : s'.sth = m' at hu
    cases hu with
    | same =>
      have hk := hi.cnt p b hb
      rw [if_congr (Iff.rfl) rfl rfl]
      by_cases he : s.sth = some p
      · have := count_pos hv he
        rw [if_pos he]; omega
      · rw [if_neg he]; omega
    | inplace p2 b2 b' hm2 hb2 g1 g1' =>
      by_cases hp : p = p2
      · subst hp
        rw [Heap.set_same] at hb
        cases hb
        have hk := hi.cnt p b2 hb2
        rw [if_pos hm2]
        omega
      · rw [Heap.set_other _ _ _ _ hp] at hb
        have hk := hi.cnt p b hb
        have hne : s.sth ≠ some p := by rw [hm2]; intro e; cases e; exact hp rfl
        rw [if_neg hne]
        omega
    | fresh _ q b' g1' _ gq gq' gb =>
      rw [gb] at hb
      by_cases hp : p = q
      · subst hp
        rw [if_pos rfl] at hb
        cases hb
        have h0 : (S.vec.map Str.sth).count (some p) = 0 := by
          rw [List.count_eq_zero]
          intro hmem
          obtain ⟨t, ht, hte⟩ := List.mem_map.1 hmem
          obtain ⟨w, hw⟩ := List.mem_iff_getElem?.1 ht
          have hwl : w < env.length := by
            rw [hi.len]; exact (List.getElem?_eq_some_iff.1 hw).1
          obtain ⟨b, hb, _⟩ := (hi.view w t env[w] hw (List.getElem?_eq_getElem hwl)).has p hte
          rw [hi.fresh p gq] at hb
          cases hb
        rw [h0, if_pos rfl]
        omega
      · rw [if_neg hp] at hb
        obtain ⟨k1, k2⟩ := hrel' p b hb
        rw [if_neg (show ¬ (some q = some p) by intro e; cases e; exact hp rfl)]
        omega
    | gone _ hn gb =>
      rw [gb] at hb
      obtain ⟨k1, k2⟩ := hrel' p b hb
      simp only [reduceCtorEq, if_false]
      omega

/-- The string becomes one that shares the block of another. -/
theorem Inv.share {S : State} {env : List Bytes} {v w : Nat} {s t x : Str} {l lw lx : Bytes} (hi : Inv S env) (hv : S.vec[v]? = some s)
    (hl : env[v]? = some l) (hw : S.vec[w]? = some t) (hlw : env[w]? = some lw) (hx : S.heap.View x lx) (hxs : x.sth = t.sth) :
    ∃ H', S.heap.share s.sth t.sth = .ok H' ∧ Inv ⟨H', S.vec.set v x⟩ (env.set v lx) := by
  have hs := (hi.view v s l hv hl).has
  have ht := (hi.view w t lw hw hlw).has
  obtain ⟨H', e, hn, hb⟩ := Heap.share_spec hs ht
  obtain ⟨hv1, hv2⟩ := List.getElem?_eq_some_iff.1 hv
  have hcs := count_set hv x
  refine ⟨H', e, by simpa using hi.len, ?_, ?_, ?_⟩
  · intro r hr
    rw [hb]
    simp only at hr
    rw [hn] at hr
    have h0 := hi.fresh r hr
    split
    · exact h0
    · split
      · rw [h0]; rfl
      · exact Heap.release_ge hi.fresh _ hr
  · intro u y ly hu hlu
    simp only at hu
    by_cases hvu : v = u
    · subst hvu
      have hv1' : v < env.length := by rw [hi.len]; exact hv1
      rw [List.getElem?_set_self hv1] at hu
      rw [List.getElem?_set_self hv1'] at hlu
      cases hu; cases hlu
      refine hx.frame fun p b hp hbp => ?_
      have h0 := (hi.cnt p b hbp).2
      simp only
      rw [hb]
      split
      · exact ⟨b, hbp, rfl, rfl, h0⟩
      · rw [hxs] at hp
        rw [if_pos hp, hbp]
        exact ⟨_, rfl, rfl, rfl, by simp⟩
    · rw [List.getElem?_set_ne hvu] at hu hlu
      refine (hi.view u y ly hu hlu).frame fun p b hp hbp => ?_
      have h0 := hi.cnt p b hbp
      simp only
      rw [hb]
      split
      · exact ⟨b, hbp, rfl, rfl, h0.2⟩
      · split
        · rw [hbp]; exact ⟨_, rfl, rfl, rfl, by simp⟩
        · unfold Heap.release
          split
          · next he =>
            have := two_le_count hv hu he hp hvu
            rw [hbp]
            simp only
            rw [if_neg (by omega)]
            exact ⟨_, rfl, rfl, rfl, by simp only; omega⟩
          · exact ⟨b, hbp, rfl, rfl, h0.2⟩
  · intro p b hbp
    simp only at hbp ⊢
    rw [hcs, hxs]
    rw [hb] at hbp
    split at hbp
    · next he =>
      have h0 := hi.cnt p b hbp
      rw [he]
      by_cases hk : t.sth = some p
      · have := count_pos hw hk
        rw [if_pos hk]; omega
      · rw [if_neg hk]; omega
    · next he =>
      split at hbp
      · next hk =>
        rw [hk] at he
        rw [if_neg he, if_pos hk]
        cases hb0 : S.heap.blk p with
        | none => rw [hb0] at hbp; cases hbp
        | some b0 =>
          rw [hb0] at hbp
          cases hbp
          have h0 := hi.cnt p b0 hb0
          simp only
          omega
      · next hk =>
        rw [if_neg hk]
        unfold Heap.release at hbp
        split at hbp
        · next hm =>
          rw [if_pos hm]
          cases hb0 : S.heap.blk p with
          | none => rw [hb0] at hbp; cases hbp
          | some b0 =>
            rw [hb0] at hbp
            have h0 := hi.cnt p b0 hb0
            simp only at hbp
            split at hbp
            · cases hbp
            · cases hbp
              simp only
              omega
        · next hm =>
          have h0 := hi.cnt p b hbp
          rw [if_neg hm]
          omega

/-- Two strings exchange their blocks. -/
theorem Inv.exchange {S : State} {env : List Bytes} {v w : Nat} {s t s' t' : Str} {l l' : Bytes} (hi : Inv S env) (hv : S.vec[v]? = some s)
    (hw : S.vec[w]? = some t) (hne : v ≠ w) (hs : s'.sth = t.sth) (ht : t'.sth = s.sth) (hs' : S.heap.View s' l) (ht' : S.heap.View t' l') :
    Inv ⟨S.heap, (S.vec.set v s').set w t'⟩ ((env.set v l).set w l') := by
  obtain ⟨hv1, hv2⟩ := List.getElem?_eq_some_iff.1 hv
  obtain ⟨hw1, hw2⟩ := List.getElem?_eq_some_iff.1 hw
  have hev : v < env.length := by rw [hi.len]; exact hv1
  have hew : w < env.length := by rw [hi.len]; exact hw1
  refine ⟨by simpa using hi.len, hi.fresh, ?_, ?_⟩
  · intro u y ly hu hlu
    simp only at hu ⊢
    by_cases hwu : w = u
    · subst hwu
      rw [List.getElem?_set_self (by simpa using hw1)] at hu
      rw [List.getElem?_set_self (by simpa using hew)] at hlu
      cases hu; cases hlu
      exact ht'
    · rw [List.getElem?_set_ne hwu] at hu hlu
      by_cases hvu : v = u
      · subst hvu
        rw [List.getElem?_set_self hv1] at hu
        rw [List.getElem?_set_self hev] at hlu
        cases hu; cases hlu
        exact hs'
      · rw [List.getElem?_set_ne hvu] at hu hlu
        exact hi.view u y ly hu hlu
  · intro p b hb
    have h0 := hi.cnt p b hb
    simp only
    have hw' : (S.vec.set v s')[w]? = some t := by rw [List.getElem?_set_ne hne, hw]
    rw [count_set hw', count_set hv, hs, ht]
    refine ⟨?_, h0.2⟩
    by_cases h1 : s.sth = some p
    · by_cases h2 : t.sth = some p
      · have := two_le_count hv hw h1 h2 hne
        rw [if_pos h1, if_pos h2]; omega
      · have := count_pos hv h1
        rw [if_pos h1, if_neg h2]; omega
    · by_cases h2 : t.sth = some p
      · have := count_pos hw h2
        rw [if_neg h1, if_pos h2]; omega
      · rw [if_neg h1, if_neg h2]; omega

/-- The outcome of an operation that leaves the texts `env'`; it may throw because of `why`, and it keeps all texts at the
beginnings of their blocks if `tame`. -/
def Outcome (S : State) (env' : List Bytes) (why tame : Prop) (r : Res State) : Prop :=
  (r = .throw ∧ why) ∨ ∃ S', r = .ok S' ∧ Inv S' env' ∧ (tame → AllStrong S → AllStrong S')

theorem Inv.out {S : State} {env : List Bytes} {v : Nat} {s : Str} {l l' : Bytes} {why : Prop} {r : Res (Heap × Str)} (hi : Inv S env)
    (hv : S.vec[v]? = some s) (hl : env[v]? = some l) (h : S.heap.Out s l' why r) : Outcome S (env.set v l') why True (S.put v r) := by
  rcases h with ⟨e, w⟩ | ⟨H', s', e, hu, hview, hst⟩
  · left; rw [e]; exact ⟨rfl, w⟩
  · right
    rw [e]
    exact ⟨_, rfl, hi.upd hv hl hu hview, fun _ h => h.set hv hst H'⟩

theorem str_of {S : State} {v : Nat} {s : Str} (h : S.vec[v]? = some s) : S.str v = .ok s := by
  unfold State.str; rw [h]

theorem textOf_of {env : List Bytes} {v : Nat} {l : Bytes} (h : env[v]? = some l) : textOf env v = .ok l := by
  unfold textOf; rw [h]

/-- A string that exists in the specification exists. -/
theorem Inv.str {S : State} {env : List Bytes} (hi : Inv S env) {v : Nat} {l : Bytes} (h : env[v]? = some l) : ∃ s, S.vec[v]? = some s := by
  obtain ⟨h1, _⟩ := List.getElem?_eq_some_iff.1 h
  rw [hi.len] at h1
  exact ⟨_, List.getElem?_eq_getElem h1⟩

/-- The source of a copy. -/
theorem Inv.src {S : State} {env : List Bytes} (hi : Inv S env) (src : Src) :
    src.value env = .ub ∨ (src.value env = .throw ∧ S.resolve src = .throw) ∨
    ∃ bs q off, src.value env = .ok bs ∧ S.resolve src = .ok (q, off, bs.length) ∧ S.heap.read q off bs.length = .ok bs := by
  cases src with
  | ext b =>
    refine .inr (.inr ⟨b, .lit b, 0, rfl, rfl, ?_⟩)
    unfold Heap.read
    dsimp only
    rw [if_pos (by omega)]
    simp
  | sub w pos n =>
    unfold Src.value State.resolve
    dsimp only
    cases hl : env[w]? with
    | none => left; unfold textOf; rw [hl]; rfl
    | some l =>
      right
      obtain ⟨s, hs⟩ := hi.str hl
      have hv := hi.view w s l hs hl
      rw [textOf_of hl, Res.ok_bind, str_of hs, Res.ok_bind]
      have hlen := hv.len
      unfold part
      by_cases h : pos ≤ l.length
      · right
        rw [if_pos h, if_neg (by omega)]
        refine ⟨_, s.ptr, pos, rfl, ?_, ?_⟩
        · rw [hlen, List.length_take, List.length_drop, Nat.min_comm]
        · rw [List.length_take, List.length_drop, hv.read_part (by omega)]
          congr 1
          rw [List.take_eq_take_iff]
          simp
      · left
        rw [if_neg h, if_pos (by omega)]
        exact ⟨rfl, rfl⟩

/-- Characters are replaced. -/
theorem Inv.replace {c : Cfg} (hc : c.Good) {S : State} {env : List Bytes} {v : Nat} {s : Str} {l bs : Bytes} (hi : Inv S env)
    (hv : S.vec[v]? = some s) (hl : env[v]? = some l) {fetch} (hfe : S.heap.Fetches fetch bs) {n tpos tn : Nat} (hn : bs.length = n)
    (hal : n ≠ 0 → S.heap.Aligned s) (ht : tpos ≤ l.length) :
    Outcome S (env.set v (l.take tpos ++ (bs ++ (l.drop tpos).drop tn)))
      (c.limit < l.length + (n ||| S.heap.capOf s.sth / 2) ∨ c.limit < l.length + n) True (S.put v (S.heap.replace c s tpos tn n fetch)) := by
  have hview := hi.view v s l hv hl
  have hlen := hview.len
  unfold Heap.replace
  rw [if_neg (by omega)]
  rcases append_spec hc hi.fresh hview hfe hn hal with ⟨e, w⟩ | ⟨H1, s1, e, hu, hview1, hst⟩
  · left; rw [e]; exact ⟨rfl, .inl w⟩
  rw [e, Res.ok_bind]
  dsimp only
  have hi1 := hi.upd hv hl hu hview1
  have hv1 : v < S.vec.length := (List.getElem?_eq_some_iff.1 hv).1
  have hev : v < env.length := by rw [hi.len]; exact hv1
  have key : l ++ bs = l.take tpos ++ ((l.drop tpos).take tn) ++ ((l.drop tpos).drop tn) ++ bs := by
    rw [List.append_assoc (l.take tpos), List.take_append_drop, List.take_append_drop]
  rw [key] at hview1
  have hsw := swizzle_spec hc hi1.fresh hview1 (tpos := tpos) (tlen := min (s.len - tpos) tn) (old := s.len) (by simp; omega) (by simp; omega)
    (by simp; omega)
  have ho := hi1.out (v := v) (s := s1) (List.getElem?_set_self hv1) (List.getElem?_set_self hev) hsw
  rcases ho with ⟨e2, w2⟩ | ⟨S2, e2, i2, st2⟩
  · left
    refine ⟨?_, .inr ?_⟩
    · unfold State.put at e2 ⊢
      cases hx : Heap.swizzle c H1 s1 tpos (min (s.len - tpos) tn) s.len with
      | throw => rfl
      | ok r => rw [hx] at e2; cases e2
      | ub => rw [hx] at e2; cases e2
    · rw [← key] at w2
      simpa [hn] using w2
  · right
    unfold State.put at e2 ⊢
    cases hx : Heap.swizzle c H1 s1 tpos (min (s.len - tpos) tn) s.len with
    | throw => rw [hx] at e2; cases e2
    | ub => rw [hx] at e2; cases e2
    | ok r =>
      rw [hx] at e2
      cases e2
      refine ⟨_, rfl, ?_, fun _ h => ?_⟩
      · have := i2
        simp only [List.set_set] at this
        rw [← List.append_assoc]
        exact this
      · have := st2 trivial (h.set hv hst H1)
        simp only [List.set_set] at this
        exact this

/-- Part of a string. -/
theorem Inv.substr {c : Cfg} (hc : c.Good) {S : State} {env : List Bytes} {v w : Nat} {s t : Str} {l lw : Bytes} (hi : Inv S env)
    (hv : S.vec[v]? = some s) (hl : env[v]? = some l) (hw : S.vec[w]? = some t) (hlw : env[w]? = some lw) {tpos tn : Nat} (ht : tpos ≤ lw.length) :
    Outcome S (env.set v ((lw.drop tpos).take tn)) (c.limit < tn) (tpos = 0 ∨ tpos = lw.length ∨ tpos + tn < lw.length)
      ((S.heap.substr c t tpos tn).bind fun r => (r.1.decref s.sth).map fun H => ⟨H, S.vec.set v r.2⟩) := by
  have hview := hi.view w t lw hw hlw
  have hlen := hview.len
  have hsv := hi.view v s l hv hl
  unfold Heap.substr
  rw [if_neg (by omega)]
  dsimp only
  by_cases hend : tpos + min (t.len - tpos) tn = t.len
  · rw [if_pos hend]
    right
    generalize hx : (⟨match t.ptr with | .lit t => .lit (t.drop tpos) | .at p o => .at p (o + tpos), min (t.len - tpos) tn, t.sth⟩ : Str) = x
    have hxv : S.heap.View x (lw.drop tpos) := by
      subst hx
      refine ⟨by simp; omega, hview.has, ?_, ?_⟩
      · intro t' ht'
        dsimp only at ht'
        cases hp : t.ptr with
        | lit b => rw [hp] at ht'; cases ht'; rw [hview.lit b hp]
        | «at» p o => rw [hp] at ht'; cases ht'
      · intro p o hpo
        dsimp only at hpo
        cases hp : t.ptr with
        | lit b => rw [hp] at hpo; cases hpo
        | «at» p' o' =>
          rw [hp] at hpo
          cases hpo
          obtain ⟨h1, h2⟩ := hview.at_ p o' hp
          refine ⟨h1, fun b hb => ?_⟩
          obtain ⟨pre, r, k1, k2⟩ := h2 b hb
          refine ⟨pre ++ lw.take tpos, r, ?_, by simp; omega⟩
          rw [k1]
          rw [List.append_assoc pre, ← List.append_assoc (lw.take tpos), List.take_append_drop]
    have hxs : x.sth = t.sth := by subst hx; rfl
    have hlt : (lw.drop tpos).take tn = lw.drop tpos := List.take_of_length_le (by simp; omega)
    rw [hlt]
    obtain ⟨H', e, hi'⟩ := hi.share hv hl hw hlw hxv hxs
    refine ⟨_, ?_, hi', fun htame hall => ?_⟩
    · unfold Heap.share at e
      cases h1 : S.heap.incref t.sth with
      | throw => rw [h1] at e; cases e
      | ub => rw [h1] at e; cases e
      | ok H1 =>
        rw [h1, Res.ok_bind] at e
        dsimp only [Res.map, Res.ok_bind]
        rw [e]
    · refine hall.set hv (fun _ => ?_) H'
      have hts := hall t (List.mem_of_getElem? hw)
      subst hx
      rcases htame with h | h | h
      · subst h
        rcases hts with h | h
        · exact .inl (by dsimp only; omega)
        · refine .inr fun p hp => ?_
          have := h p hp
          dsimp only
          rw [this]
      · exact .inl (by dsimp only; omega)
      · omega
  · rw [if_neg hend]
    have htl : min (t.len - tpos) tn = tn := by omega
    rw [htl]
    have hrd : S.heap.read t.ptr 0 0 = .ok [] := by rw [hview.read_part (by omega)]; simp
    rcases realloc_spec hc hi.fresh (Has.none S.heap) (add := tn) hrd rfl with ⟨e, hwhy⟩ | ⟨H1, b, r, e, n1, b1, h1, ho, hcl, hcap⟩
    · left; rw [e]; exact ⟨rfl, by omega⟩
    right
    rw [e, Res.ok_bind]
    dsimp only
    have hb1 : ∀ x, H1.blk x = if x = S.heap.next then some b else S.heap.blk x := by intro x; rw [b1, release_none]
    have hext : ∀ p b', S.heap.blk p = some b' → H1.blk p = some b' := by
      intro p b' hb'
      rw [hb1, if_neg (by rintro rfl; rw [hi.fresh _ (Nat.le_refl _)] at hb'; cases hb'), hb']
    have hrd2 : H1.read t.ptr tpos tn = .ok ((lw.drop tpos).take tn) := read_mono (hview.read_part (by omega)) hext
    rw [hrd2, Res.ok_bind]
    have hbl := ho.1
    have hpl : ((lw.drop tpos).take tn).length = tn := by simp; omega
    obtain ⟨b', r', h1', ho', hcl', ew⟩ := fill_spec (H := H1) (p := S.heap.next) (by rw [hb1, if_pos rfl]) h1 ho (l := []) (rest := b.cells) rfl
      (bs := (lw.drop tpos).take tn) (by omega) (n := 0) rfl (m := tn) (by omega)
    rw [ew, Res.ok_bind]
    obtain ⟨H3, e3, u3, k3⟩ := fresh_drop (H2 := H1.set S.heap.next (some b')) hi.fresh hsv.has h1' ho' (Nat.le_refl _) (by rw [set_next]; omega)
      (by
        intro x
        by_cases hx : x = S.heap.next
        · subst hx; rw [set_same, if_pos rfl]
        · rw [set_other _ _ _ _ hx, hb1, if_neg hx, if_neg hx])
    dsimp only
    rw [e3]
    refine ⟨_, rfl, hi.upd hv hl u3 ?_, fun _ hall => hall.set hv (fun _ => strong_at _ _) H3⟩
    have := view_at k3 (by omega) ho' hcl'
    rw [List.nil_append, hpl] at this
    exact this

end Asteria.CowString
