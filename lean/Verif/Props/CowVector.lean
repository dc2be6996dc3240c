import Verif.Proof.CowVector

/-!
# C37: vectors that share storage behave as independent values
-/

namespace Asteria.CowVector

variable {α : Type}

/-! ### Specification: every vector has its own list -/

/-- The value of an argument. -/
def Src.value (env : List (List α)) : Src α → Option α
  | .val a => some a
  | .elem w i => (env[w]?).bind fun l => l[i]?

/-- The values of several arguments. -/
def values (env : List (List α)) : List (Src α) → Option (List α)
  | [] => some []
  | s :: ss => (s.value env).bind fun a => (values env ss).map fun as => a :: as

/-- Replaces the list of vector `v`, if there is such a vector. -/
def update (env : List (List α)) (v : Nat) (f : List α → Res (List α)) : Res (List (List α)) :=
  match env[v]? with
  | none => .ub
  | some l => (f l).map fun l' => env.set v l'

/-- An argument that refers to no element is the caller's mistake. -/
def demand {β γ : Type} : Option β → (β → Res γ) → Res γ
  | none, _ => .ub
  | some b, f => f b

/-- What an operation does if vectors never share anything.  `ub` is a violated precondition: an operand
that does not exist, or more elements to pop than there are; `throw` is `out_of_range`. -/
def Op.spec (env : List (List α)) : Op α → Res (List (List α))
  | .copy v w => demand env[w]? fun l => update env v fun _ => .ok l
  | .move v w => demand env[v]? fun l => demand env[w]? fun l' => .ok ((env.set v l').set w l)
  | .destroy v => update env v fun _ => .ok []
  | .append v ss => demand (values env ss) fun as => update env v fun l => .ok (l ++ as)
  | .appendSP v as => update env v fun l => .ok (l ++ as)
  | .emplaceBack v s => demand (s.value env) fun a => update env v fun l => .ok (l ++ [a])
  | .insert v tpos ss => demand (values env ss) fun as => update env v fun l =>
      if tpos ≤ l.length then .ok (l.take tpos ++ as ++ l.drop tpos) else .throw
  | .insertOne v tpos s => demand (s.value env) fun a => update env v fun l =>
      if tpos ≤ l.length then .ok (l.take tpos ++ [a] ++ l.drop tpos) else .throw
  | .erase v tpos tn => update env v fun l =>
      if tpos ≤ l.length then .ok (l.take tpos ++ (l.drop tpos).drop tn) else .throw
  | .popBack v n => update env v fun l => if n ≤ l.length then .ok (l.take (l.length - n)) else .ub
  | .write v pos a => update env v fun l => if pos < l.length then .ok (l.set pos a) else .throw
  | .resize v n s => demand (s.value env) fun a => update env v fun l =>
      .ok (l.take n ++ List.replicate (n - l.length) a)
  | .clear v => update env v fun _ => .ok []
  | .shrink v => update env v .ok
  | .reserve v _ => update env v .ok
  | .assign v as => update env v fun _ => .ok as
  | .subvec v w tpos tn => demand env[w]? fun l => update env v fun _ =>
      if tpos ≤ l.length then .ok ((l.drop tpos).take tn) else .throw

/-- The reason for a `length_error`: `max_size()` does not admit the elements asked for together with the
spare capacity that the function tries to allocate. -/
def Op.tooLong (c : Cfg) (S : State α) (env : List (List α)) : Op α → Prop
  | .append v ss => ∀ l, env[v]? = some l → Heap.TooLong c l.length (S.heap.capOf (S.ptr v)) ss.length
  | .appendSP v as => ∀ l, env[v]? = some l → Heap.TooLong c l.length (S.heap.capOf (S.ptr v)) as.length
  | .emplaceBack v _ => ∀ l, env[v]? = some l → Heap.TooLong c l.length (S.heap.capOf (S.ptr v)) 1
  | .insert v _ ss => ∀ l, env[v]? = some l → Heap.TooLong c l.length (S.heap.capOf (S.ptr v)) ss.length
  | .insertOne v _ _ => ∀ l, env[v]? = some l → Heap.TooLong c l.length (S.heap.capOf (S.ptr v)) 1
  | .resize v n _ => ∀ l, env[v]? = some l → Heap.TooLong c l.length (S.heap.capOf (S.ptr v)) (n - l.length)
  | .assign v as => ∀ l, env[v]? = some l → Heap.TooLong c l.length (S.heap.capOf (S.ptr v)) as.length
  | .shrink v => ∀ l, env[v]? = some l → c.limit < l.length
  | .reserve v n => ∀ l, env[v]? = some l → c.limit < maxNelem c (minNblk c (max l.length n))
  | .subvec _ w tpos tn => ∀ l, env[w]? = some l → c.limit < min (l.length - tpos) tn
  | _ => False

/-! ### The invariant -/

/-- The heap of `S` represents the lists `env`: every reference count is the number of vectors that refer to
the block, and every block that is referred to holds the elements of its vectors. -/
structure Inv (S : State α) (env : List (List α)) : Prop where
  len : env.length = S.vec.length
  fresh : S.heap.Fresh
  full : ∀ (v : Nat) m l, S.vec[v]? = some m → env[v]? = some l → S.heap.Full m l
  cnt : ∀ p b, S.heap.blk p = some b → b.nref = S.vec.count (some p) ∧ 0 < b.nref

theorem two_le_count {vec : List Ptr} {p v w : Nat} (hv : vec[v]? = some (some p)) (hw : vec[w]? = some (some p))
    (h : v ≠ w) : 2 ≤ vec.count (some p) := by
  obtain ⟨hv1, hv2⟩ := List.getElem?_eq_some_iff.1 hv
  have h1 := List.count_set (a := (none : Ptr)) (b := some p) hv1
  have h2 : 0 < (vec.set v none).count (some p) := by
    rw [List.count_pos_iff]
    apply List.mem_of_getElem? (i := w)
    rw [List.getElem?_set_ne h, hw]
  simp [hv2] at h1
  omega

theorem Inv.upd {S : State α} {env : List (List α)} {v : Nat} {m m' : Ptr} {l l' : List α} {H' : Heap α}
    (hi : Inv S env) (hv : S.vec[v]? = some m) (hl : env[v]? = some l)
    (hu : Heap.Upd S.heap m l H' m' l') : Inv ⟨H', S.vec.set v m'⟩ (env.set v l') := by
  have hm := hi.full v m l hv hl
  have hfull' := hu.full hm
  have hfresh' := hu.isFresh hi.fresh
  obtain ⟨hv1, hv2⟩ := List.getElem?_eq_some_iff.1 hv
  have hcs : ∀ p, (S.vec.set v m').count (some p) =
      S.vec.count (some p) - (if m = some p then 1 else 0) + (if m' = some p then 1 else 0) := by
    intro p
    have := List.count_set (a := m') (b := some p) hv1
    simpa [hv2] using this
  refine ⟨by simpa using hi.len, hfresh', ?_, ?_⟩
  · intro w mw lw hw hlw
    by_cases hvw : v = w
    · subst hvw
      have hv1' : v < env.length := by rw [hi.len]; exact hv1
      simp only [List.getElem?_set_self hv1] at hw
      simp only [List.getElem?_set_self hv1'] at hlw
      cases hw; cases hlw
      exact hfull'
    · rw [List.getElem?_set_ne hvw] at hw hlw
      have hf := hi.full w mw lw hw hlw
      cases mw with
      | none => exact hf
      | some p =>
        have hlt := hf.lt hi.fresh
        obtain ⟨b, hb, h0, h1, h2, h3⟩ := hf
        have hcnt := hi.cnt p b hb
        have hrel : ∃ b', S.heap.release m p = some b' ∧ 0 < b'.nref ∧ b'.nskip = 0 ∧ b'.cells = lw.map some ∧
            lw.length ≤ b'.cap := by
          unfold Heap.release
          split
          · next he =>
            subst he
            have := two_le_count hv hw hvw
            rw [hb]
            simp only
            rw [if_neg (by omega)]
            exact ⟨_, rfl, by simp only; omega, h1, h2, h3⟩
          · exact ⟨b, hb, h0, h1, h2, h3⟩
        cases hu with
        | same => exact ⟨b, hb, h0, h1, h2, h3⟩
        | inplace p2 b2 b' _ hm2 hb2 g1 =>
          by_cases hp : p = p2
          · subst hp
            rw [hb] at hb2; cases hb2
            rw [hm2] at hv
            have := two_le_count hv hw hvw
            omega
          · exact ⟨b, by simp only; rw [Heap.set_other _ _ _ _ hp, hb], h0, h1, h2, h3⟩
        | fresh _ q b' _ g1' gs gc gl gq gq' gb =>
          obtain ⟨b', k1, k2⟩ := hrel
          exact ⟨b', by simp only; rw [gb, if_neg (by omega), k1], k2⟩
        | gone _ hn gb =>
          obtain ⟨b', k1, k2⟩ := hrel
          exact ⟨b', by simp only; rw [gb, k1], k2⟩
  · intro p b hb
    simp only at hb
    simp only
    rw [hcs]
    have hrel : ∀ b, S.heap.release m p = some b → b.nref = S.vec.count (some p) - (if m = some p then 1 else 0) ∧
        0 < b.nref := by
      intro b hb
      unfold Heap.release at hb
      split at hb
      · next he =>
        subst he
        cases hx : S.heap.blk p with
        | none => rw [hx] at hb; cases hb
        | some b0 =>
          rw [hx] at hb
          simp only at hb
          have := hi.cnt p b0 hx
          split at hb
          · cases hb
          · cases hb
            simp only [if_true]
            omega
      · next he =>
        rw [if_neg he]
        have := hi.cnt p b hb
        omega
    cases hu with
    | same =>
      have := hi.cnt p b hb
      split
      · next he => subst he; omega
      · omega
    | inplace p2 b2 b' _ hm2 hb2 g1 g1' =>
      by_cases hp : p = p2
      · subst hp
        rw [Heap.set_same] at hb; cases hb
        have := hi.cnt p b2 hb2
        simp only [hm2, if_true]
        omega
      · rw [Heap.set_other _ _ _ _ hp] at hb
        have := hi.cnt p b hb
        have hne : ¬ m = some p := by rw [hm2]; intro e; cases e; exact hp rfl
        rw [if_neg hne]
        omega
    | fresh _ q b' _ g1' gs gc gl gq gq' gb =>
      rw [gb] at hb
      by_cases hp : p = q
      · subst hp
        rw [if_pos rfl] at hb; cases hb
        have hz : S.vec.count (some p) = 0 := by
          rw [List.count_eq_zero]
          intro hmem
          obtain ⟨w, hw⟩ := List.getElem?_of_mem hmem
          have hw1 := (List.getElem?_eq_some_iff.1 hw).1
          have : w < env.length := by rw [hi.len]; exact hw1
          have := (hi.full w _ _ hw (List.getElem?_eq_getElem this)).lt hi.fresh
          omega
        simp only [if_true]
        omega
      · rw [if_neg hp] at hb
        have := hrel b hb
        rw [if_neg (show ¬ some q = some p by intro e; cases e; exact hp rfl)]
        omega
    | gone _ hn gb =>
      rw [gb] at hb
      have := hrel b hb
      simp only [reduceCtorEq, if_false]
      omega

theorem Inv.swap {S : State α} {env : List (List α)} {v w : Nat} {m m' : Ptr} {l l' : List α}
    (hi : Inv S env) (hv : S.vec[v]? = some m) (hl : env[v]? = some l) (hw : S.vec[w]? = some m')
    (hl' : env[w]? = some l') : Inv ⟨S.heap, (S.vec.set v m').set w m⟩ ((env.set v l').set w l) := by
  obtain ⟨hv1, hv2⟩ := List.getElem?_eq_some_iff.1 hv
  obtain ⟨hw1, hw2⟩ := List.getElem?_eq_some_iff.1 hw
  have hlen := hi.len
  refine ⟨by simpa using hi.len, hi.fresh, ?_, ?_⟩
  · intro u mu lu hu hlu
    simp only at hu
    by_cases h1 : w = u
    · subst h1
      rw [List.getElem?_set_self (by simpa using hw1)] at hu
      rw [List.getElem?_set_self (by simp; omega)] at hlu
      cases hu; cases hlu
      exact hi.full v _ _ hv hl
    · rw [List.getElem?_set_ne h1] at hu hlu
      by_cases h2 : v = u
      · subst h2
        rw [List.getElem?_set_self hv1] at hu
        rw [List.getElem?_set_self (by omega)] at hlu
        cases hu; cases hlu
        exact hi.full w _ _ hw hl'
      · rw [List.getElem?_set_ne h2] at hu hlu
        exact hi.full u _ _ hu hlu
  · intro p b hb
    have h := hi.cnt p b hb
    refine ⟨?_, h.2⟩
    rw [h.1]
    simp only
    have e1 := List.count_set (a := m) (b := some p) (show w < (S.vec.set v m').length by simpa using hw1)
    have e2 := List.count_set (a := m') (b := some p) hv1
    rw [e1, e2]
    have hx : (S.vec.set v m')[w]'(by simpa using hw1) = m' := by
      rw [List.getElem_set]
      split
      · rfl
      · exact hw2
    rw [hx, hv2]
    have hpos : m = some p → 0 < S.vec.count (some p) := by
      intro e
      rw [List.count_pos_iff]
      subst e
      exact List.mem_of_getElem? hv
    by_cases a1 : m = some p <;> by_cases a2 : m' = some p <;> simp [a1, a2] <;> simp [a1] at hpos <;> omega

/-- A temporary that shares or owns its storage takes the place of vector `v`, whose storage is released. -/
theorem Inv.replace {S : State α} {env : List (List α)} {v : Nat} {m x : Ptr} {l lx : List α}
    (hi : Inv ⟨S.heap, S.vec ++ [x]⟩ (env ++ [lx])) (hv : S.vec[v]? = some m) (hl : env[v]? = some l) :
    ∃ H', S.heap.decref m = .ok H' ∧ Inv ⟨H', S.vec.set v x⟩ (env.set v lx) := by
  obtain ⟨hv1, hv2⟩ := List.getElem?_eq_some_iff.1 hv
  have hlen : env.length = S.vec.length := by have := hi.len; simpa using this
  have hv' : (S.vec ++ [x])[v]? = some m := by rw [List.getElem?_append_left hv1, hv]
  have hl' : (env ++ [lx])[v]? = some l := by rw [List.getElem?_append_left (by omega), hl]
  have hx : (S.vec ++ [x])[S.vec.length]? = some x := by simp
  have hlx : (env ++ [lx])[S.vec.length]? = some lx := by rw [← hlen]; simp
  have hsw := hi.swap hv' hl' hx hlx
  have hset : ((S.vec ++ [x]).set v x).set S.vec.length m = S.vec.set v x ++ [m] := by
    rw [List.set_append_left _ _ hv1, List.set_append_right _ _ (by simp)]
    simp
  have hset' : ((env ++ [lx]).set v lx).set S.vec.length l = env.set v lx ++ [l] := by
    rw [List.set_append_left _ _ (by omega), List.set_append_right _ _ (by simp; omega)]
    simp [hlen]
  simp only at hsw
  rw [hset, hset'] at hsw
  have hlast : (S.vec.set v x ++ [m])[S.vec.length]? = some m := by
    rw [List.getElem?_append_right (by simp)]; simp
  have hlast' : (env.set v lx ++ [l])[S.vec.length]? = some l := by
    rw [List.getElem?_append_right (by simp; omega)]; simp [hlen]
  obtain ⟨H', g1, g2⟩ := Heap.destroy_spec (hsw.full _ _ _ hlast hlast')
  have h3 := hsw.upd hlast hlast' g2
  refine ⟨H', g1, ?_⟩
  have hs3 : (S.vec.set v x ++ [m]).set S.vec.length none = S.vec.set v x ++ [none] := by
    rw [List.set_append_right _ _ (by simp)]; simp
  have hs3' : (env.set v lx ++ [l]).set S.vec.length [] = env.set v lx ++ [[]] := by
    rw [List.set_append_right _ _ (by simp; omega)]; simp [hlen]
  simp only at h3
  rw [hs3, hs3'] at h3
  refine ⟨by simpa using hlen, h3.fresh, ?_, ?_⟩
  · intro u mu lu hu hlu
    have hu1 := (List.getElem?_eq_some_iff.1 hu).1
    have hlu1 := (List.getElem?_eq_some_iff.1 hlu).1
    exact h3.full u mu lu (by simp only; rw [List.getElem?_append_left hu1]; exact hu)
      (by rw [List.getElem?_append_left hlu1]; exact hlu)
  · intro p b hb
    have := h3.cnt p b hb
    simpa using this

theorem Inv.ptr {S : State α} {env : List (List α)} (hi : Inv S env) {v : Nat} {l : List α} (hl : env[v]? = some l) :
    S.vec[v]? = some (S.ptr v) ∧ S.heap.Full (S.ptr v) l := by
  have h1 := (List.getElem?_eq_some_iff.1 hl).1
  rw [hi.len] at h1
  have h2 : S.vec[v]? = some (S.ptr v) := by
    unfold State.ptr
    rw [List.getElem?_eq_getElem h1]; rfl
  exact ⟨h2, hi.full v _ _ h2 hl⟩

theorem Inv.resolve {S : State α} {env : List (List α)} (hi : Inv S env) {s : Src α} {a : α}
    (h : s.value env = some a) : ∃ r, S.resolve s = .ok r ∧ S.heap.Denotes r a := by
  cases s with
  | val b => cases h; exact ⟨.val a, rfl, rfl⟩
  | elem w i =>
    simp only [Src.value] at h
    cases hl : env[w]? with
    | none => rw [hl] at h; cases h
    | some l =>
      rw [hl] at h
      simp only [Option.bind_some] at h
      obtain ⟨h1, h2⟩ := hi.ptr hl
      have hi1 := (List.getElem?_eq_some_iff.1 h).1
      unfold State.resolve
      cases hp : S.ptr w with
      | none => rw [hp] at h2; simp only [Heap.Full] at h2; subst h2; simp at hi1
      | some p =>
        rw [hp] at h2
        simp only [hp]
        rw [h2.size, Res.ok_bind, if_pos hi1]
        obtain ⟨b, hb, -, -, hc, -⟩ := h2
        exact ⟨_, rfl, b, hb, by rw [hc, List.getElem?_map, h]; rfl⟩

theorem Inv.resolveAll {S : State α} {env : List (List α)} (hi : Inv S env) :
    ∀ {ss : List (Src α)} {as : List α}, values env ss = some as →
    ∃ rs, S.resolveAll ss = .ok rs ∧ S.heap.DenotesAll rs as ∧ as.length = ss.length
  | [], as, h => by cases h; exact ⟨[], rfl, trivial, rfl⟩
  | s :: ss, as, h => by
    simp only [values] at h
    cases h1 : s.value env with
    | none => rw [h1] at h; cases h
    | some a =>
      rw [h1] at h
      simp only [Option.bind_some] at h
      cases h2 : values env ss with
      | none => rw [h2] at h; cases h
      | some as' =>
        rw [h2] at h
        simp only [Option.map_some, Option.some.injEq] at h
        subst h
        obtain ⟨r, g1, g2⟩ := hi.resolve h1
        obtain ⟨rs, k1, k2, k3⟩ := hi.resolveAll h2
        refine ⟨r :: rs, ?_, ⟨g2, k2⟩, by simp [k3]⟩
        simp [State.resolveAll, g1, k1]

/-- The outcome of an operation agrees with its specification. -/
def Agrees (c : Cfg) (S : State α) (env : List (List α)) (op : Op α) : Prop :=
  (∃ S' env', op.run c S = .ok S' ∧ op.spec env = .ok env' ∧ Inv S' env') ∨
  (op.run c S = .throw ∧ (op.spec env = .throw ∨ op.tooLong c S env))

theorem put_out {S : State α} {env : List (List α)} (hi : Inv S env) {v : Nat} {l l' : List α}
    (hl : env[v]? = some l) {r : Res (Heap α × Ptr)} {reason : Prop} (h : Heap.Out S.heap (S.ptr v) l r l' reason) :
    (∃ S' env', S.put v r = .ok S' ∧ update env v (fun _ => .ok l') = .ok env' ∧ Inv S' env') ∨
    (S.put v r = .throw ∧ reason) := by
  rcases h with ⟨h1, h2⟩ | ⟨H', m', h1, h2⟩
  · exact Or.inr ⟨by rw [h1]; rfl, h2⟩
  · left
    refine ⟨_, _, by rw [h1]; rfl, by unfold update; rw [hl]; rfl, hi.upd (hi.ptr hl).1 hl h2⟩

theorem put_ok {S : State α} {env : List (List α)} (hi : Inv S env) {v : Nat} {l l' : List α}
    (hl : env[v]? = some l) {r : Res (Heap α × Ptr)}
    (h : ∃ H' m', r = .ok (H', m') ∧ Heap.Upd S.heap (S.ptr v) l H' m' l') :
    ∃ S' env', S.put v r = .ok S' ∧ update env v (fun _ => .ok l') = .ok env' ∧ Inv S' env' := by
  rcases put_out (reason := False) hi hl (Or.inr h) with h | h
  · exact h
  · exact h.2.elim

theorem update_some {env : List (List α)} {v : Nat} {l : List α} {f : List α → Res (List α)}
    (hl : env[v]? = some l) : update env v f = update env v fun _ => f l := by
  unfold update; rw [hl]

theorem update_throw {env : List (List α)} {v : Nat} {l : List α}
    (hl : env[v]? = some l) : update env v (fun _ => .throw) = .throw := by
  unfold update; rw [hl]; rfl

theorem update_ub {env : List (List α)} {v : Nat} {f : List α → Res (List α)} (h : update env v f ≠ .ub) :
    ∃ l, env[v]? = some l := by
  cases hl : env[v]? with
  | none => unfold update at h; rw [hl] at h; exact absurd rfl h
  | some l => exact ⟨l, rfl⟩

/-- **C37, one operation.**  From a state that represents the lists `env`, an operation whose preconditions
hold under value semantics never accesses storage that is freed, moved from, or shared and being written:
it ends in a state that represents exactly the lists that value semantics prescribes, or it throws because
value semantics prescribes `out_of_range` or because `max_size()` is exceeded. -/
theorem C37_step (c : Cfg) (hc : c.Good) (S : State α) (env : List (List α)) (hi : Inv S env) (op : Op α)
    (hpre : op.spec env ≠ .ub) : Agrees c S env op := by
  unfold Agrees
  cases op with
  | copy v w =>
    simp only [Op.spec, Op.run] at hpre ⊢
    cases hw : env[w]? with
    | none => rw [hw] at hpre; exact absurd rfl hpre
    | some lw =>
      rw [hw] at hpre
      simp only [demand] at hpre ⊢
      obtain ⟨l, hl⟩ := update_ub hpre
      obtain ⟨w1, w2⟩ := hi.ptr hw
      obtain ⟨v1, v2⟩ := hi.ptr hl
      left
      have hinc : ∃ H1, S.heap.incref (S.ptr w) = .ok H1 ∧ Inv ⟨H1, S.vec ++ [S.ptr w]⟩ (env ++ [lw]) := by
        cases hp : S.ptr w with
        | none =>
          rw [hp] at w2
          refine ⟨S.heap, rfl, by simp [hi.len], hi.fresh, ?_, ?_⟩
          · intro u mu lu hu hlu
            by_cases hlt : u < S.vec.length
            · have := hi.len
              simp only at hu
              rw [List.getElem?_append_left hlt] at hu
              rw [List.getElem?_append_left (by omega)] at hlu
              exact hi.full u _ _ hu hlu
            · have h1 := (List.getElem?_eq_some_iff.1 hu).1
              simp only [List.length_append, List.length_cons, List.length_nil] at h1
              have : u = S.vec.length := by omega
              subst this
              simp at hu
              rw [← hi.len] at hlu
              simp at hlu
              subst hu; subst hlu
              exact w2
          · intro p b hb
            have := hi.cnt p b hb
            simpa using this
        | some p =>
          rw [hp] at w2
          have hlt := w2.lt hi.fresh
          obtain ⟨b, hb, h0, h1, h2, h3⟩ := w2
          refine ⟨S.heap.set p (some { b with nref := b.nref + 1 }), ?_, by simp [hi.len], ?_, ?_, ?_⟩
          · unfold Heap.incref
            simp only
            rw [Heap.get_of hb, Res.ok_bind, if_neg (by omega)]
          · intro r hr
            simp only [Heap.set] at hr
            simp only
            rw [Heap.set_other _ _ _ _ (by omega), hi.fresh r hr]
          · have hext : ∀ m k, S.heap.Full m k → (S.heap.set p (some { b with nref := b.nref + 1 })).Full m k := by
              intro m k hf
              cases m with
              | none => exact hf
              | some q =>
                obtain ⟨b2, hb2, r0, r1, r2, r3⟩ := hf
                by_cases hq : q = p
                · subst hq; rw [hb] at hb2; cases hb2
                  exact ⟨_, Heap.set_same _ _ _, by simp, r1, r2, r3⟩
                · exact ⟨b2, by rw [Heap.set_other _ _ _ _ hq, hb2], r0, r1, r2, r3⟩
            intro u mu lu hu hlu
            by_cases hlt : u < S.vec.length
            · have := hi.len
              simp only at hu
              rw [List.getElem?_append_left hlt] at hu
              rw [List.getElem?_append_left (by omega)] at hlu
              exact hext _ _ (hi.full u _ _ hu hlu)
            · have h1' := (List.getElem?_eq_some_iff.1 hu).1
              simp only [List.length_append, List.length_cons, List.length_nil] at h1'
              have : u = S.vec.length := by omega
              subst this
              simp at hu
              rw [← hi.len] at hlu
              simp at hlu
              subst hu; subst hlu
              exact hext _ _ ⟨b, hb, h0, h1, h2, h3⟩
          · intro q b2 hb2
            simp only at hb2 ⊢
            rw [List.count_append]
            by_cases hq : q = p
            · subst hq
              rw [Heap.set_same] at hb2; cases hb2
              have := hi.cnt q b hb
              simp
              omega
            · rw [Heap.set_other _ _ _ _ hq] at hb2
              have := hi.cnt q b2 hb2
              simp [Ne.symm hq]
              omega
      obtain ⟨H1, g1, g2⟩ := hinc
      obtain ⟨H2, k1, k2⟩ := Inv.replace (S := ⟨H1, S.vec⟩) g2 v1 hl
      refine ⟨⟨H2, S.vec.set v (S.ptr w)⟩, env.set v lw, ?_, ?_, k2⟩
      · unfold Heap.assignCopy
        rw [g1, Res.ok_bind]
        simp only at k1
        split
        · next he =>
          rw [he.1] at k1
          simp only [Heap.decref, Res.ok.injEq] at k1
          subst k1
          simp [State.put, he.2]
        · rw [k1]; rfl
      · unfold update; rw [hl]; rfl
  | move v w =>
    simp only [Op.spec, Op.run] at hpre ⊢
    cases hv : env[v]? with
    | none => rw [hv] at hpre; exact absurd rfl hpre
    | some lv =>
      rw [hv] at hpre
      simp only [demand] at hpre ⊢
      cases hw : env[w]? with
      | none => rw [hw] at hpre; exact absurd rfl hpre
      | some lw =>
        simp only
        left
        exact ⟨_, _, rfl, rfl, hi.swap (hi.ptr hv).1 hv (hi.ptr hw).1 hw⟩
  | destroy v =>
    simp only [Op.spec, Op.run] at hpre ⊢
    obtain ⟨l, hl⟩ := update_ub hpre
    obtain ⟨H', g1, g2⟩ := Heap.destroy_spec (hi.ptr hl).2
    left
    exact put_ok hi hl ⟨H', none, by rw [g1]; rfl, g2⟩
  | append v ss =>
    simp only [Op.spec, Op.run, Op.tooLong] at hpre ⊢
    cases hs : values env ss with
    | none => rw [hs] at hpre; exact absurd rfl hpre
    | some as =>
      rw [hs] at hpre
      simp only [demand] at hpre ⊢
      obtain ⟨l, hl⟩ := update_ub hpre
      obtain ⟨rs, k1, k2, k3⟩ := hi.resolveAll hs
      rw [k1, Res.ok_bind, update_some hl]
      rcases put_out hi hl (Heap.append_spec c hc hi.fresh (hi.ptr hl).2 k2) with h | ⟨h1, h2⟩
      · exact Or.inl h
      · refine Or.inr ⟨h1, Or.inr ?_⟩
        intro l2 e; rw [hl] at e; cases e; rw [← k3]; exact h2
  | appendSP v as =>
    simp only [Op.spec, Op.run, Op.tooLong] at hpre ⊢
    obtain ⟨l, hl⟩ := update_ub hpre
    rw [update_some hl]
    rcases put_out hi hl (Heap.appendSP_spec (as := as) c hc hi.fresh (hi.ptr hl).2) with h | ⟨h1, h2⟩
    · exact Or.inl h
    · refine Or.inr ⟨h1, Or.inr ?_⟩
      intro l2 e; rw [hl] at e; cases e; exact h2
  | emplaceBack v s =>
    simp only [Op.spec, Op.run, Op.tooLong] at hpre ⊢
    cases hs : s.value env with
    | none => rw [hs] at hpre; exact absurd rfl hpre
    | some a =>
      rw [hs] at hpre
      simp only [demand] at hpre ⊢
      obtain ⟨l, hl⟩ := update_ub hpre
      obtain ⟨r, k1, k2⟩ := hi.resolve hs
      rw [k1, Res.ok_bind, update_some hl]
      rcases put_out hi hl (Heap.emplaceBack_spec c hc hi.fresh (hi.ptr hl).2 k2) with h | ⟨h1, h2⟩
      · exact Or.inl h
      · refine Or.inr ⟨h1, Or.inr ?_⟩
        intro l2 e; rw [hl] at e; cases e; exact h2
  | insert v tpos ss =>
    simp only [Op.spec, Op.run, Op.tooLong] at hpre ⊢
    cases hs : values env ss with
    | none => rw [hs] at hpre; exact absurd rfl hpre
    | some as =>
      rw [hs] at hpre
      simp only [demand] at hpre ⊢
      obtain ⟨l, hl⟩ := update_ub hpre
      obtain ⟨rs, k1, k2, k3⟩ := hi.resolveAll hs
      rw [k1, Res.ok_bind, update_some hl]
      by_cases ht : tpos ≤ l.length
      · simp only [if_pos ht]
        rcases put_out hi hl (Heap.insert_spec c hc hi.fresh (hi.ptr hl).2 k2 ht) with h | ⟨h1, h2⟩
        · exact Or.inl h
        · refine Or.inr ⟨h1, Or.inr ?_⟩
          intro l2 e; rw [hl] at e; cases e; rw [← k3]; exact h2
      · simp only [if_neg ht]
        refine Or.inr ⟨?_, Or.inl (update_throw hl)⟩
        unfold Heap.insert
        rw [(hi.ptr hl).2.size, Res.ok_bind, if_pos (by omega)]; rfl
  | insertOne v tpos s =>
    simp only [Op.spec, Op.run, Op.tooLong] at hpre ⊢
    cases hs : s.value env with
    | none => rw [hs] at hpre; exact absurd rfl hpre
    | some a =>
      rw [hs] at hpre
      simp only [demand] at hpre ⊢
      obtain ⟨l, hl⟩ := update_ub hpre
      obtain ⟨r, k1, k2⟩ := hi.resolve hs
      rw [k1, Res.ok_bind, update_some hl]
      by_cases ht : tpos ≤ l.length
      · simp only [if_pos ht]
        rcases put_out hi hl (Heap.insertOne_spec c hc hi.fresh (hi.ptr hl).2 k2 ht) with h | ⟨h1, h2⟩
        · exact Or.inl h
        · refine Or.inr ⟨h1, Or.inr ?_⟩
          intro l2 e; rw [hl] at e; cases e; exact h2
      · simp only [if_neg ht]
        refine Or.inr ⟨?_, Or.inl (update_throw hl)⟩
        unfold Heap.insertOne
        rw [(hi.ptr hl).2.size, Res.ok_bind, if_pos (by omega)]; rfl
  | erase v tpos tn =>
    simp only [Op.spec, Op.run] at hpre ⊢
    obtain ⟨l, hl⟩ := update_ub hpre
    rw [update_some hl]
    by_cases ht : tpos ≤ l.length
    · simp only [if_pos ht]
      left
      obtain ⟨H', m', g1, g2⟩ := Heap.erase_spec (tn := tn) c hi.fresh (hi.ptr hl).2 ht
      have e : l.drop (tpos + min (l.length - tpos) tn) = (l.drop tpos).drop tn := by
        rw [List.drop_drop]
        by_cases h : tn ≤ l.length - tpos
        · rw [Nat.min_eq_right h]
        · rw [List.drop_of_length_le (by omega), List.drop_of_length_le (by omega)]
      rw [e] at g2
      exact put_ok hi hl ⟨H', m', g1, g2⟩
    · simp only [if_neg ht]
      refine Or.inr ⟨?_, Or.inl (update_throw hl)⟩
      unfold Heap.erase
      rw [(hi.ptr hl).2.size, Res.ok_bind, if_pos (by omega)]; rfl
  | popBack v n =>
    simp only [Op.spec, Op.run] at hpre ⊢
    obtain ⟨l, hl⟩ := update_ub hpre
    rw [update_some hl] at hpre ⊢
    by_cases ht : n ≤ l.length
    · simp only [if_pos ht]
      left
      exact put_ok hi hl (Heap.popBack_spec c hi.fresh (hi.ptr hl).2 ht)
    · simp only [if_neg ht] at hpre
      unfold update at hpre
      rw [hl] at hpre
      exact absurd rfl hpre
  | write v pos a =>
    simp only [Op.spec, Op.run] at hpre ⊢
    obtain ⟨l, hl⟩ := update_ub hpre
    rw [update_some hl]
    by_cases ht : pos < l.length
    · simp only [if_pos ht]
      left
      exact put_ok hi hl (Heap.write_spec c hi.fresh (hi.ptr hl).2 ht)
    · simp only [if_neg ht]
      refine Or.inr ⟨?_, Or.inl (update_throw hl)⟩
      unfold Heap.write
      rw [(hi.ptr hl).2.size, Res.ok_bind, if_pos (by omega)]; rfl
  | resize v n s =>
    simp only [Op.spec, Op.run, Op.tooLong] at hpre ⊢
    cases hs : s.value env with
    | none => rw [hs] at hpre; exact absurd rfl hpre
    | some a =>
      rw [hs] at hpre
      simp only [demand] at hpre ⊢
      obtain ⟨l, hl⟩ := update_ub hpre
      obtain ⟨r, k1, k2⟩ := hi.resolve hs
      rw [k1, Res.ok_bind, update_some hl]
      rcases put_out hi hl (Heap.resize_spec (n := n) c hc hi.fresh (hi.ptr hl).2 k2) with h | ⟨h1, h2⟩
      · exact Or.inl h
      · refine Or.inr ⟨h1, Or.inr ?_⟩
        intro l2 e; rw [hl] at e; cases e; exact h2
  | clear v =>
    simp only [Op.spec, Op.run] at hpre ⊢
    obtain ⟨l, hl⟩ := update_ub hpre
    left
    obtain ⟨H', m', g1, g2, -⟩ := Heap.clear_spec (hi.ptr hl).2
    exact put_ok hi hl ⟨H', m', g1, g2⟩
  | shrink v =>
    simp only [Op.spec, Op.run, Op.tooLong] at hpre ⊢
    obtain ⟨l, hl⟩ := update_ub hpre
    rw [update_some hl]
    rcases put_out hi hl (Heap.shrink_spec c hc hi.fresh (hi.ptr hl).2) with h | ⟨h1, h2⟩
    · exact Or.inl h
    · refine Or.inr ⟨h1, Or.inr ?_⟩
      intro l2 e; rw [hl] at e; cases e; exact h2
  | reserve v n =>
    simp only [Op.spec, Op.run, Op.tooLong] at hpre ⊢
    obtain ⟨l, hl⟩ := update_ub hpre
    rw [update_some hl]
    rcases put_out hi hl (Heap.reserve_spec (n := n) c hc hi.fresh (hi.ptr hl).2) with h | ⟨h1, h2⟩
    · exact Or.inl h
    · refine Or.inr ⟨h1, Or.inr ?_⟩
      intro l2 e; rw [hl] at e; cases e; exact h2
  | assign v as =>
    simp only [Op.spec, Op.run, Op.tooLong] at hpre ⊢
    obtain ⟨l, hl⟩ := update_ub hpre
    rcases put_out hi hl (Heap.assign_spec (as := as) c hc hi.fresh (hi.ptr hl).2) with h | ⟨h1, h2⟩
    · exact Or.inl h
    · refine Or.inr ⟨h1, Or.inr ?_⟩
      intro l2 e; rw [hl] at e; cases e; exact h2
  | subvec v w tpos tn =>
    simp only [Op.spec, Op.run, Op.tooLong] at hpre ⊢
    cases hw : env[w]? with
    | none => rw [hw] at hpre; exact absurd rfl hpre
    | some lw =>
      rw [hw] at hpre
      simp only [demand] at hpre ⊢
      obtain ⟨l, hl⟩ := update_ub hpre
      obtain ⟨w1, w2⟩ := hi.ptr hw
      obtain ⟨v1, v2⟩ := hi.ptr hl
      by_cases ht : tpos ≤ lw.length
      · simp only [if_pos ht]
        rcases Heap.subvec_spec (tn := tn) c hc hi.fresh w2 ht with ⟨h1, h2⟩ | ⟨H', q, b, g1, g2, g3, g4, g5⟩
        · refine Or.inr ⟨by rw [h1]; rfl, Or.inr ?_⟩
          intro l2 e; cases e; exact h2
        · left
          have e : (lw.drop tpos).take (min (lw.length - tpos) tn) = (lw.drop tpos).take tn := by
            rw [List.take_eq_take_iff]; simp; omega
          rw [e] at g4 g5
          have hI : Inv ⟨H', S.vec ++ [some q]⟩ (env ++ [(lw.drop tpos).take tn]) := by
            have hqz : S.vec.count (some q) = 0 := by
              rw [List.count_eq_zero]
              intro hmem
              obtain ⟨u, hu⟩ := List.getElem?_of_mem hmem
              have hu1 := (List.getElem?_eq_some_iff.1 hu).1
              have : u < env.length := by rw [hi.len]; exact hu1
              have := (hi.full u _ _ hu (List.getElem?_eq_getElem this)).lt hi.fresh
              have := g2.fresh
              omega
            have := g2.next
            have := g2.fresh
            refine ⟨by simp [hi.len], g2.isFresh hi.fresh (by simp only; omega), ?_, ?_⟩
            · intro u mu lu hu hlu
              by_cases hlt : u < S.vec.length
              · have := hi.len
                simp only at hu
                rw [List.getElem?_append_left hlt] at hu
                rw [List.getElem?_append_left (by omega)] at hlu
                exact g2.full hi.fresh (hi.full u _ _ hu hlu)
              · have h1' := (List.getElem?_eq_some_iff.1 hu).1
                simp only [List.length_append, List.length_cons, List.length_nil] at h1'
                have : u = S.vec.length := by omega
                subst this
                simp at hu
                rw [← hi.len] at hlu
                simp at hlu
                subst hu; subst hlu
                exact ⟨b, g2.at, by have := g2.nref; omega, g3, g4, g5⟩
            · intro p b2 hb2
              simp only at hb2 ⊢
              rw [g2.blk] at hb2
              rw [List.count_append]
              by_cases hp : p = q
              · subst hp
                rw [if_pos rfl] at hb2; cases hb2
                have := g2.nref
                simp
                omega
              · rw [if_neg hp] at hb2
                have := hi.cnt p b2 hb2
                simp [Ne.symm hp]
                omega
          obtain ⟨H2, k1, k2⟩ := Inv.replace (S := ⟨H', S.vec⟩) hI v1 hl
          refine ⟨⟨H2, S.vec.set v (some q)⟩, env.set v ((lw.drop tpos).take tn), ?_, ?_, k2⟩
          · rw [g1, Res.ok_bind]
            simp only at k1 ⊢
            rw [k1]; rfl
          · unfold update; rw [hl]; rfl
      · simp only [if_neg ht]
        refine Or.inr ⟨?_, Or.inl (update_throw hl)⟩
        unfold Heap.subvec
        rw [w2.size, Res.ok_bind, if_pos (by omega)]; rfl

/-- What a reader sees: `size()` and `at(i)` of every vector give the list that value semantics prescribes. -/
theorem C37_read (S : State α) (env : List (List α)) (hi : Inv S env) (v : Nat) (l : List α)
    (hl : env[v]? = some l) :
    S.heap.size (S.ptr v) = .ok l.length ∧
    ∀ i, S.heap.at_ (S.ptr v) i = match l[i]? with | some a => .ok a | none => .throw := by
  obtain ⟨h1, h2⟩ := hi.ptr hl
  refine ⟨h2.size, fun i => ?_⟩
  unfold Heap.at_
  rw [h2.size, Res.ok_bind]
  by_cases hlt : i < l.length
  · rw [if_neg (by omega), List.getElem?_eq_getElem hlt]
    cases hp : S.ptr v with
    | none => rw [hp] at h2; simp only [Heap.Full] at h2; subst h2; simp at hlt
    | some p =>
      rw [hp] at h2
      obtain ⟨b, hb, -, -, hc, -⟩ := h2
      simp only
      apply Heap.read_of
      exact ⟨b, hb, by rw [hc, List.getElem?_map, List.getElem?_eq_getElem hlt]; rfl⟩
  · rw [if_pos (by omega), List.getElem?_eq_none (by omega)]

/-! ### Histories -/

/-- `n` vectors that have just been constructed (cow_vector.hpp:57-63). -/
def start (n : Nat) : State α := ⟨⟨fun _ => none, 0⟩, List.replicate n none⟩

/-- A sequence of operations. -/
def runAll (c : Cfg) : List (Op α) → State α → Res (State α)
  | [], S => .ok S
  | op :: ops, S => (op.run c S).bind (runAll c ops)

/-- The same sequence under value semantics. -/
def specAll : List (Op α) → List (List α) → Res (List (List α))
  | [], env => .ok env
  | op :: ops, env => (op.spec env).bind (specAll ops)

theorem start_inv (n : Nat) : Inv (start n : State α) (List.replicate n []) := by
  refine ⟨by simp [start], fun p _ => rfl, ?_, ?_⟩
  · intro v m l h1 h2
    have h3 := List.mem_of_getElem? h1
    have h4 := List.mem_of_getElem? h2
    simp only [start, List.mem_replicate] at h3 h4
    rw [h3.2, h4.2]; rfl
  · intro p b h; cases h

theorem history_from (c : Cfg) (hc : c.Good) : ∀ (ops : List (Op α)) (S S' : State α) (env env' : List (List α)),
    Inv S env → specAll ops env = .ok env' → runAll c ops S ≠ .ub ∧ (runAll c ops S = .ok S' → Inv S' env')
  | [], S, S', env, env', hi, h => by
    simp only [specAll, Res.ok.injEq] at h
    subst h
    simp only [runAll, ne_eq, reduceCtorEq, not_false_eq_true, Res.ok.injEq, true_and]
    intro e; subst e; exact hi
  | op :: ops, S, S', env, env', hi, h => by
    simp only [specAll] at h
    cases hs : op.spec env with
    | ub => rw [hs] at h; cases h
    | throw => rw [hs] at h; cases h
    | ok env1 =>
      rw [hs, Res.ok_bind] at h
      simp only [runAll]
      rcases C37_step c hc S env hi op (by rw [hs]; exact fun e => by cases e) with ⟨S1, env2, h1, h2, h3⟩ | ⟨h1, -⟩
      · rw [hs] at h2; cases h2
        rw [h1, Res.ok_bind]
        exact history_from c hc ops S1 S' env1 env' h3 h
      · rw [h1]
        exact ⟨fun e => (by cases e), fun e => (by cases e)⟩

/-- **C37.**  Take any number of vectors, and any program of copies, moves, destructions and modifications
whose preconditions hold under value semantics.  Then no storage is used after it is freed, no shared
storage is written to, and (unless `max_size()` is exceeded) every vector reads back the list it would
have if nothing were ever shared. -/
theorem C37_history (c : Cfg) (hc : c.Good) (n : Nat) (ops : List (Op α)) (env : List (List α))
    (hs : specAll ops (List.replicate n []) = .ok env) :
    runAll c ops (start n) ≠ .ub ∧
    ∀ S, runAll c ops (start n) = .ok S → ∀ v l, env[v]? = some l →
      S.heap.size (S.ptr v) = .ok l.length ∧
      ∀ i, S.heap.at_ (S.ptr v) i = match l[i]? with | some a => .ok a | none => .throw := by
  refine ⟨(history_from c hc ops (start n) (start n) _ env (start_inv n) hs).1, ?_⟩
  intro S hS v l hl
  exact C37_read S env ((history_from c hc ops (start n) S _ env (start_inv n) hs).2 hS) v l hl

/-- No leak and no premature release: when all vectors are destroyed no block remains. -/
theorem C37_no_leak (S : State α) (env : List (List α)) (hi : Inv S env) (h : ∀ m ∈ S.vec, m = none) (p : Nat) :
    S.heap.blk p = none := by
  cases hb : S.heap.blk p with
  | none => rfl
  | some b =>
    have h1 := hi.cnt p b hb
    have h2 : S.vec.count (some p) = 0 := by
      rw [List.count_eq_zero]; intro hm; cases h _ hm
    omega

/-! ### A concrete history -/

/-- An instantiation such as `cow_vector<int>`. -/
def exCfg : Cfg := ⟨4, 40, 1000000, true⟩
/-- An instantiation such as `cow_vector<Value>`, whose elements are moved one by one. -/
def exCfg' : Cfg := ⟨16, 48, 1000000, false⟩

/-- Three vectors: one is filled, copied twice, and the copies are changed, among others by appending
elements of the shared vector to itself. -/
def exOps : List (Op Nat) :=
  [.appendSP 0 [1, 2, 3], .copy 1 0, .copy 2 0, .write 1 0 10, .append 2 [.elem 2 0, .elem 2 2, .elem 0 1],
   .insertOne 0 1 (.elem 0 2), .erase 2 1 2, .subvec 1 2 1 5, .resize 0 6 (.elem 1 0)]

example : exCfg.Good ∧ exCfg'.Good := ⟨⟨by decide, by decide⟩, ⟨by decide, by decide⟩⟩

example : specAll exOps [[], [], []] = .ok [[1, 3, 2, 3, 1, 1], [1, 3, 2], [1, 1, 3, 2]] := by decide +kernel

example : ((runAll exCfg exOps (start 3)).map fun S => (List.range 3).map fun v =>
      ((List.range 6).map fun i => S.heap.at_ (S.ptr v) i)) =
    .ok [[.ok 1, .ok 3, .ok 2, .ok 3, .ok 1, .ok 1], [.ok 1, .ok 3, .ok 2, .throw, .throw, .throw],
      [.ok 1, .ok 1, .ok 3, .ok 2, .throw, .throw]] := by decide +kernel

end Asteria.CowVector
