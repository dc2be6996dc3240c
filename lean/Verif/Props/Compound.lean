import Verif.Model.Compound
import Verif.Props.CowVector

/-!
# Properties of compound assignment: C69
-/

namespace Asteria.Compound

open CowVector

variable {α : Type}

/-- The statement of C69 for one outcome: element `pos` of array `v`, which held `a` when it was opened, now
holds `op a b`, where `b` is the right operand as it was before; all other elements and arrays are
unchanged. -/
def Right (op : α → α → Res α) (env : List (List α)) (v pos w j : Nat) (r : Res (State α)) : Prop :=
  ∀ l a lw b, env[v]? = some l → l[pos]? = some a → env[w]? = some lw → lw[j]? = some b →
    match op a b with
    | .ok x => ∃ S', r = .ok S' ∧ Inv S' (env.set v (l.set pos x))
    | .throw => r = .throw
    | .ub => r = .ub

theorem read_full {H : Heap α} {p i : Nat} {l : List α} {b : α} (h : H.Full (some p) l) (hb : l[i]? = some b) :
    H.read (.ref p i) = .ok b := by
  obtain ⟨blk, hblk, -, -, hc, -⟩ := h
  apply Heap.read_of
  exact ⟨blk, hblk, by rw [hc, List.getElem?_map, hb]; rfl⟩

/-- **C69** (partial): if the left side is an element that exists, addressed by its index, a compound
assignment combines it with the value that the right operand had before, whatever arrays share their
storage, and also if both are elements of the same array.

Missing: targets that make the array grow (`[^]`, `[$]`, and an index out of range) when the right operand is
an element of the same array, see `C69_false_ub` and `C69_false_value`. -/
theorem C69_partial (c : Cfg) (null : α) (op : α → α → Res α) (S : State α) (env : List (List α))
    (hi : Inv S env) (v i w j : Nat) : Right op env v i w j (compound c null op S v (.index i) w j) := by
  intro l a lw b hl ha hlw hb
  obtain ⟨hv1, hv2⟩ := hi.ptr hl
  obtain ⟨hw1, hw2⟩ := hi.ptr hlw
  have hil : i < l.length := (List.getElem?_eq_some_iff.1 ha).1
  have hjl : j < lw.length := (List.getElem?_eq_some_iff.1 hb).1
  unfold compound
  cases hpw : S.ptr w with
  | none =>
    rw [hpw] at hw2
    simp only [Heap.Full] at hw2
    subst hw2
    simp at hjl
  | some pw =>
    rw [hpw] at hw1 hw2
    have hres : S.resolve (.elem w j) = .ok (.ref pw j) := by
      simp only [State.resolve, hpw]
      rw [hw2.size, Res.ok_bind, if_pos hjl]
    rw [hres, Res.ok_bind]
    simp only [openElem]
    rw [hv2.size, Res.ok_bind, if_pos hil]
    obtain ⟨H', m', g1, g2, g3, g4⟩ := Heap.mutData_spec c hi.fresh hv2
    have hi' := hi.upd hv1 hl g2
    have hset : env.set v l = env := by
      obtain ⟨_, rfl⟩ := List.getElem?_eq_some_iff.1 hl
      exact List.set_getElem_self _
    rw [hset] at hi'
    have hvlt : v < S.vec.length := (List.getElem?_eq_some_iff.1 hv1).1
    have hread : H'.read (.ref pw j) = .ok b := by
      by_cases hu : ∃ u : Nat, u ≠ v ∧ S.vec[u]? = some (some pw)
      · obtain ⟨u, hu1, hu2⟩ := hu
        have hul : u < env.length := by rw [hi.len]; exact (List.getElem?_eq_some_iff.1 hu2).1
        have hfu := hi.full u _ _ hu2 (List.getElem?_eq_getElem hul)
        have hsame : env[u] = lw := by
          obtain ⟨b1, h1, -, -, h2, -⟩ := hfu
          obtain ⟨b2, h3, -, -, h4, -⟩ := hw2
          rw [h1] at h3
          cases h3
          rw [h2] at h4
          exact (List.map_inj_right fun _ _ => Option.some.inj).1 h4
        have hfull := hi'.full u (some pw) env[u] (by
          rw [List.getElem?_set_ne (Ne.symm hu1)]; exact hu2) (List.getElem?_eq_getElem hul)
        rw [hsame] at hfull
        exact read_full hfull hb
      · have hwv : w = v := by
          by_contra hne
          exact hu ⟨w, hne, hw1⟩
        subst hwv
        have hex : S.heap.mutData c (some pw) = .ok (S.heap, some pw) := by
          obtain ⟨blk, h1, h2, -, -, -⟩ := hw2
          have hcnt := hi.cnt pw blk h1
          have hone : blk.nref = 1 := by
            have hle : S.vec.count (some pw) ≤ 1 := by
              by_contra hgt
              apply hu
              have hlt := hvlt
              have hsp : S.vec = S.vec.take w ++ some pw :: S.vec.drop (w + 1) := by
                have := (List.getElem?_eq_some_iff.1 hw1).2
                rw [← this, List.getElem_cons_drop, List.take_append_drop]
              rw [hsp, List.count_append, List.count_cons_self] at hgt
              have hmem : some pw ∈ S.vec.take w ∨ some pw ∈ S.vec.drop (w + 1) := by
                by_contra hno
                rw [not_or] at hno
                rw [List.count_eq_zero_of_not_mem hno.1, List.count_eq_zero_of_not_mem hno.2] at hgt
                omega
              rcases hmem with hm | hm
              · obtain ⟨k, hk⟩ := List.mem_iff_getElem?.1 hm
                rw [List.getElem?_take] at hk
                split at hk
                · exact ⟨k, by omega, hk⟩
                · cases hk
              · obtain ⟨k, hk⟩ := List.mem_iff_getElem?.1 hm
                rw [List.getElem?_drop] at hk
                exact ⟨_, by omega, hk⟩
            omega
          unfold Heap.mutData Heap.writable
          simp only
          rw [Heap.get_of h1, Res.ok_map, Res.ok_bind]
          simp [hone]
        rw [hpw] at g1
        rw [hex] at g1
        cases g1
        exact read_full hw2 hb
    rw [g1, Res.ok_map, Res.ok_bind]
    simp only
    rw [hread, Res.ok_bind]
    have hptr : (⟨H', S.vec.set v m'⟩ : State α).ptr v = m' := by
      simp [State.ptr, hvlt]
    have hat := (C37_read ⟨H', S.vec.set v m'⟩ env hi' v l hl).2 i
    rw [hptr, ha] at hat
    simp only at hat
    rw [hat, Res.ok_bind]
    cases op a b with
    | throw => rfl
    | ub => rfl
    | ok x =>
      simp only [Res.ok_bind]
      have hv2' := (hi'.ptr hl).2
      rw [hptr] at hv2'
      obtain ⟨H2, m2, k1, k2⟩ := Heap.write_spec c (pos := i) (a := x) hi'.fresh hv2' hil
      rw [k1]
      refine ⟨_, rfl, ?_⟩
      exact hi'.upd (m := m') (by simp [hvlt]) hl k2

/-- A configuration like that of `Value` on 64-bit platforms: 16-byte elements, 32-byte storage units. -/
def cfg : Cfg := ⟨16, 32, 1000, false⟩

/-- Addition of small numbers. -/
def plus (a b : Nat) : Res Nat := .ok (a + b)

/-- Non-vacuity: `a[0] += a[1]` with `a = [10, 20, 30]`, whose storage is shared with a copy. -/
example : (((runAll cfg [.append 0 [.val 10, .val 20, .val 30], .copy 1 0] (start 2)).bind fun S =>
    compound cfg 0 plus S 0 (.index 0) 0 1).map fun S =>
      (S.heap.at_ (S.ptr 0) 0, S.heap.at_ (S.ptr 1) 0)) = .ok (.ok 30, .ok 10) := by decide

/-- **C69**, negation of the full statement: `a[^] += a[1]` with `a = [10, 20, 30]` reads storage that has
been freed. -/
theorem C69_false_ub : ∃ S : State Nat, Inv S [[10, 20, 30]] ∧ compound cfg 0 plus S 0 .head 0 1 = .ub := by
  have hok : (runAll cfg [.append 0 [.val 10, .val 20, .val 30]] (start 1 : State Nat)).map (fun _ => ()) = .ok () := by
    decide +kernel
  cases hr : runAll cfg [.append 0 [.val 10, .val 20, .val 30]] (start 1) with
  | ok S =>
    refine ⟨S, (history_from cfg ⟨by decide, by decide⟩ _ _ S _ _ (start_inv 1) rfl).2 hr, ?_⟩
    have : (runAll cfg [.append 0 [.val 10, .val 20, .val 30]] (start 1)).bind
        (fun S => (compound cfg 0 plus S 0 .head 0 1).map fun _ => ()) = .ub := by decide +kernel
    rw [hr, Res.ok_bind] at this
    cases h : compound cfg 0 plus S 0 .head 0 1 with
    | ok _ => rw [h] at this; cases this
    | throw => rw [h] at this; cases this
    | ub => rfl
  | throw => rw [hr] at hok; cases hok
  | ub => rw [hr] at hok; cases hok

/-- `Heap.insertOne`, written such that it can be evaluated by the kernel. -/
def insertOne' (c : Cfg) (H : Heap α) (m : Ptr) (tpos : Nat) (a : Arg α) : Res (Heap α × Ptr) :=
  (H.size m).bind fun kpos =>
    if tpos > kpos then .throw
    else (H.emplaceBack c m a).bind fun r => (r.1.mutData c r.2).bind fun r =>
      (r.1.size r.2).bind fun n =>
        (r.1.modify r.2 fun l =>
          if tpos ≤ kpos ∧ kpos ≤ l.length ∧ n = l.length then
            .ok (l.take tpos ++ l.drop kpos ++ (l.take kpos).drop tpos)
          else ArrayLib.rotateRange l tpos kpos n).map fun H => (H, r.2)

theorem insertOne_eq (c : Cfg) (H : Heap α) (m : Ptr) (tpos : Nat) (a : Arg α) :
    H.insertOne c m tpos a = insertOne' c H m tpos a := by
  unfold Heap.insertOne insertOne'
  have : ∀ kpos n, (fun l : List (Option α) =>
      if tpos ≤ kpos ∧ kpos ≤ l.length ∧ n = l.length then
        Res.ok (l.take tpos ++ l.drop kpos ++ (l.take kpos).drop tpos)
      else ArrayLib.rotateRange l tpos kpos n) = fun l => ArrayLib.rotateRange l tpos kpos n := by
    intro kpos n
    funext l
    split
    · rename_i h
      obtain ⟨h1, h2, rfl⟩ := h
      exact (Heap.rotateRange_gen l tpos kpos h1 h2).symm
    · rfl
  simp only [this]

/-- **C69**, negation of the full statement: if there is spare capacity, the element that moved to the place of
the right operand is read instead: `a[^] += a[1]` with `a = [10, 20, 30]` gives `20`, not `30`. -/
theorem C69_false_value : ∃ S : State Nat, Inv S [[10, 20, 30]] ∧
    ((compound cfg 0 plus S 0 .head 0 1).bind fun S => S.heap.at_ (S.ptr 0) 0) = .ok 20 := by
  have hok : (runAll cfg [.append 0 [.val 10, .val 20, .val 30], .reserve 0 10] (start 1 : State Nat)).map (fun _ => ()) = .ok () := by
    decide +kernel
  cases hr : runAll cfg [.append 0 [.val 10, .val 20, .val 30], .reserve 0 10] (start 1) with
  | ok S =>
    refine ⟨S, (history_from cfg ⟨by decide, by decide⟩ _ _ S _ _ (start_inv 1) rfl).2 hr, ?_⟩
    have : (runAll cfg [.append 0 [.val 10, .val 20, .val 30], .reserve 0 10] (start 1)).bind
        (fun S => (compound cfg 0 plus S 0 .head 0 1).bind fun S => S.heap.at_ (S.ptr 0) 0) = .ok 20 := by
      unfold compound openElem
      simp only [insertOne_eq]
      decide +kernel
    rw [hr] at this
    exact this
  | throw => rw [hr] at hok; cases hok
  | ub => rw [hr] at hok; cases hok

end Asteria.Compound
