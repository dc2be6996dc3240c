import Verif.Model.ArrayLib
import Mathlib.Data.List.Perm.Subperm
import Mathlib.Tactic.ByContra
import Mathlib.Tactic.Tauto

/-!
# Lemmas about merge sort
-/

namespace Asteria.ArrayLib

/-- A comparison that is a total preorder: never unordered, antisymmetric in its outcome, transitive. -/
structure TotalPreorder (cmp : α → α → Cmp) : Prop where
  ordered : ∀ a b, cmp a b ≠ .unordered
  flip : ∀ a b, cmp a b = .less ↔ cmp b a = .greater
  trans : ∀ a b c, cmp a b ≠ .greater → cmp b c ≠ .greater → cmp a c ≠ .greater

/-- Non-descending. -/
def Ascending (cmp : α → α → Cmp) (l : List α) : Prop := l.Pairwise fun a b => cmp a b ≠ .greater

/-- Strictly ascending. -/
def StrictlyAscending (cmp : α → α → Cmp) (l : List α) : Prop := l.Pairwise fun a b => cmp a b = .less

/-- Equivalence of elements. -/
def equiv (cmp : α → α → Cmp) (a b : α) : Bool := cmp a b = .equal

theorem compareTotal_ok {cmp : α → α → Cmp} (h : TotalPreorder cmp) (a b : α) :
    compareTotal cmp a b = .ok (cmp a b) := by
  unfold compareTotal
  have := h.ordered a b
  split
  · contradiction
  · rfl

theorem TotalPreorder.refl {cmp : α → α → Cmp} (h : TotalPreorder cmp) (a : α) : cmp a a = .equal := by
  have h1 := h.ordered a a
  have h2 := h.flip a a
  cases hc : cmp a a <;> simp_all

theorem TotalPreorder.equal_symm {cmp : α → α → Cmp} (h : TotalPreorder cmp) {a b : α}
    (he : cmp a b = .equal) : cmp b a = .equal := by
  have h1 := h.ordered b a
  have h2 := h.flip a b
  have h3 := h.flip b a
  cases hc : cmp b a <;> simp_all

theorem TotalPreorder.equal_iff {cmp : α → α → Cmp} (h : TotalPreorder cmp) {a b : α} :
    cmp a b = .equal ↔ cmp a b ≠ .greater ∧ cmp b a ≠ .greater := by
  have h1 := h.ordered a b
  have h2 := h.flip a b
  cases hc : cmp a b <;> simp_all

theorem TotalPreorder.le_total {cmp : α → α → Cmp} (h : TotalPreorder cmp) (a b : α) :
    cmp a b ≠ .greater ∨ cmp b a ≠ .greater := by
  by_cases hg : cmp a b = .greater
  · right; rw [(h.flip b a).2 hg]; simp
  · left; exact hg

theorem TotalPreorder.equal_trans {cmp : α → α → Cmp} (h : TotalPreorder cmp) {a b c : α}
    (h1 : cmp a b = .equal) (h2 : cmp b c = .equal) : cmp a c = .equal := by
  rw [h.equal_iff] at *
  exact ⟨h.trans _ _ _ h1.1 h2.1, h.trans _ _ _ h2.2 h1.2⟩

theorem TotalPreorder.less_of_le_less {cmp : α → α → Cmp} (h : TotalPreorder cmp) {a b c : α}
    (h1 : cmp a b ≠ .greater) (h2 : cmp b c = .less) : cmp a c = .less := by
  rw [h.flip]
  by_contra hng
  have h3 := h.trans c a b hng h1
  exact h3 ((h.flip b c).1 h2)

/-- The boolean order that drives the merging. -/
def leB (cmp : α → α → Cmp) (a b : α) : Bool := cmp a b ≠ .greater

/-! ## Merging -/

theorem mergeTwo_eq {cmp : α → α → Cmp} (h : TotalPreorder cmp) (u : Bool) (out as bs : List α)
    (ha : as ≠ []) (hb : bs ≠ []) :
    mergeTwo cmp u out as bs = outputAll cmp u out (List.merge as bs (leB cmp)) := by
  induction hn : as.length + bs.length using Nat.strongRecOn generalizing out as bs with
  | _ n ih =>
    match as, bs, ha, hb with
    | a :: as, b :: bs, _, _ =>
      unfold mergeTwo
      rw [compareTotal_ok h]
      simp only [Res.bind]
      rw [List.cons_merge_cons]
      by_cases hg : cmp a b = .greater
      · simp only [hg, if_true, leB, ne_eq, not_true_eq_false, decide_false, Bool.false_eq_true, if_false]
        rw [outputAll]
        cases outputElement cmp u out b with
        | throw => rfl
        | ub => rfl
        | ok out' =>
          simp only [Res.bind]
          split
          · next he =>
            have : bs = [] := List.isEmpty_iff.1 he
            rw [this]; simp
          · next he =>
            exact ih _ (by simp at hn ⊢; omega) out' (a :: as) bs (by simp) (by simpa using he) rfl
      · simp only [hg, if_false, leB, ne_eq, not_false_eq_true, decide_true, if_true]
        rw [outputAll]
        cases outputElement cmp u out a with
        | throw => rfl
        | ub => rfl
        | ok out' =>
          simp only [Res.bind]
          split
          · next he =>
            have : as = [] := List.isEmpty_iff.1 he
            rw [this]; simp
          · next he =>
            exact ih _ (by simp at hn ⊢; omega) out' as (b :: bs) (by simpa using he) (by simp) rfl

theorem outputAll_false (cmp : α → α → Cmp) (out l : List α) :
    outputAll cmp false out l = .ok (l.reverse ++ out) := by
  induction l generalizing out with
  | nil => rfl
  | cons x xs ih => simp [outputAll, outputElement, ih]

theorem ascending_merge {cmp : α → α → Cmp} (h : TotalPreorder cmp) (as bs : List α)
    (ha : Ascending cmp as) (hb : Ascending cmp bs) : Ascending cmp (List.merge as bs (leB cmp)) := by
  induction hn : as.length + bs.length using Nat.strongRecOn generalizing as bs with
  | _ n ih =>
    match as, bs with
    | [], bs => simpa using hb
    | as, [] => simpa using ha
    | a :: as, b :: bs =>
      unfold Ascending at *
      rw [List.cons_merge_cons]
      have ha' := List.pairwise_cons.1 ha
      have hb' := List.pairwise_cons.1 hb
      split
      · next hle =>
        have hle : cmp a b ≠ .greater := by simpa [leB] using hle
        refine List.pairwise_cons.2 ⟨fun x hx => ?_, ih _ (by simp at hn ⊢; omega) _ _ ha'.2 hb rfl⟩
        rcases List.mem_merge.1 hx with hx | hx
        · exact ha'.1 x hx
        · rcases List.mem_cons.1 hx with rfl | hx
          · exact hle
          · exact h.trans _ _ _ hle (hb'.1 x hx)
      · next hgt =>
        have hgt : cmp a b = .greater := by simpa [leB] using hgt
        have hle : cmp b a ≠ .greater := by rw [(h.flip b a).2 hgt]; simp
        refine List.pairwise_cons.2 ⟨fun x hx => ?_, ih _ (by simp at hn ⊢; omega) _ _ ha hb'.2 rfl⟩
        rcases List.mem_merge.1 hx with hx | hx
        · rcases List.mem_cons.1 hx with rfl | hx
          · exact hle
          · exact h.trans _ _ _ hle (ha'.1 x hx)
        · exact hb'.1 x hx

theorem filter_merge {cmp : α → α → Cmp} (h : TotalPreorder cmp) (e : α) (as bs : List α)
    (ha : Ascending cmp as) (hb : Ascending cmp bs) :
    (List.merge as bs (leB cmp)).filter (equiv cmp e) =
      as.filter (equiv cmp e) ++ bs.filter (equiv cmp e) := by
  induction hn : as.length + bs.length using Nat.strongRecOn generalizing as bs with
  | _ n ih =>
    match as, bs with
    | [], bs => simp
    | as, [] => simp
    | a :: as, b :: bs =>
      have ha' := List.pairwise_cons.1 ha
      have hb' := List.pairwise_cons.1 hb
      rw [List.cons_merge_cons]
      split
      · next hle =>
        have := ih _ (by simp at hn ⊢; omega) as (b :: bs) ha'.2 hb rfl
        rw [List.filter_cons, this, List.filter_cons (x := a)]
        split <;> simp
      · next hgt =>
        have hgt : cmp a b = .greater := by simpa [leB] using hgt
        have := ih _ (by simp at hn ⊢; omega) (a :: as) bs ha hb'.2 rfl
        rw [List.filter_cons, this, List.filter_cons (x := b)]
        split
        · next heq =>
          -- `b` is equivalent to `e`, so nothing in the left block is
          have heb : cmp e b = .equal := by simpa [equiv] using heq
          have hnone : (a :: as).filter (equiv cmp e) = [] := by
            rw [List.filter_eq_nil_iff]
            intro x hx hex
            have hex : cmp e x = .equal := by simpa [equiv] using hex
            have hbx : cmp b x = .equal := h.equal_trans (h.equal_symm heb) hex
            have hax : cmp a x ≠ .greater := by
              rcases List.mem_cons.1 hx with rfl | hx
              · rw [h.refl]; simp
              · exact ha'.1 x hx
            exact h.trans a x b hax (by rw [h.equal_symm hbx]; simp) hgt
          rw [hnone]; rfl
        · rfl

/-! ## Blocks -/

/-- The list consists of sorted blocks of `b` elements, the last one possibly shorter. -/
inductive Blocks (cmp : α → α → Cmp) (b : Nat) : List α → Prop
  | last (l) : l.length ≤ b → Ascending cmp l → Blocks cmp b l
  | cons (a l) : a.length = b → Ascending cmp a → Blocks cmp b l → Blocks cmp b (a ++ l)

theorem blocks_one (cmp : α → α → Cmp) (l : List α) : Blocks cmp 1 l := by
  induction l with
  | nil => exact .last _ (by simp) List.Pairwise.nil
  | cons a l ih => exact .cons [a] l rfl (List.pairwise_singleton _ _) ih

theorem mergeLoop_spec {cmp : α → α → Cmp} (h : TotalPreorder cmp) (b : Nat) (hb : 0 < b)
    (out input : List α) (hbl : Blocks cmp b input) :
    ∃ r, mergeLoop cmp false b out input = .ok (r.reverse ++ out) ∧ r.Perm input ∧
      Blocks cmp (b * 2) r ∧ ∀ e, r.filter (equiv cmp e) = input.filter (equiv cmp e) := by
  induction hn : input.length using Nat.strongRecOn generalizing out input with
  | _ n ih =>
    unfold mergeLoop
    cases hbl with
    | last _ hlen hasc =>
      rw [if_neg (by omega), outputAll_false]
      exact ⟨input, rfl, List.Perm.refl _, .last _ (by omega) hasc, fun _ => rfl⟩
    | cons a l hlen hasc hl =>
      by_cases hl0 : l = []
      · subst hl0
        rw [if_neg (by simp; omega), outputAll_false]
        exact ⟨_, rfl, List.Perm.refl _, .last _ (by simp; omega) (by simpa using hasc), fun _ => rfl⟩
      · have hlpos := List.length_pos_iff.2 hl0
        rw [if_pos ⟨hb, by simp; omega⟩]
        rw [List.take_left' hlen, List.drop_left' hlen]
        have ha0 : a ≠ [] := by intro h0; rw [h0] at hlen; simp at hlen; omega
        cases hl with
        | last _ hlen2 hasc2 =>
          rw [List.take_of_length_le hlen2, List.drop_of_length_le hlen2, mergeTwo_eq h _ _ _ _ ha0 hl0,
            outputAll_false]
          simp only [Res.bind]
          unfold mergeLoop
          rw [if_neg (by simp)]
          refine ⟨_, rfl, List.merge_perm_append _, ?_, fun e => ?_⟩
          · exact .last _ (by rw [List.length_merge]; omega) (ascending_merge h _ _ hasc hasc2)
          · rw [filter_merge h e _ _ hasc hasc2, List.filter_append]
        | cons a2 l2 hlen2 hasc2 hl2 =>
          have ha2 : a2 ≠ [] := by intro h0; rw [h0] at hlen2; simp at hlen2; omega
          rw [List.take_left' hlen2, List.drop_left' hlen2, mergeTwo_eq h _ _ _ _ ha0 ha2,
            outputAll_false]
          simp only [Res.bind]
          obtain ⟨r, h1, h2, h3, h4⟩ := ih _ (by simp at hn; omega)
            ((List.merge a a2 (leB cmp)).reverse ++ out) l2 hl2 rfl
          rw [h1]
          refine ⟨List.merge a a2 (leB cmp) ++ r, by simp, ?_, ?_, fun e => ?_⟩
          · rw [← List.append_assoc]
            exact List.Perm.append (List.merge_perm_append _) h2
          · exact .cons _ _ (by rw [List.length_merge]; omega) (ascending_merge h _ _ hasc hasc2) h3
          · rw [List.filter_append, filter_merge h e _ _ hasc hasc2, h4]
            simp [List.filter_append]

theorem mergeBlocks_spec {cmp : α → α → Cmp} (h : TotalPreorder cmp) (b : Nat) (hb : 0 < b)
    (input : List α) (hle : b ≤ input.length) (hbl : Blocks cmp b input) :
    ∃ r, mergeBlocks cmp false input b = .ok r ∧ r.Perm input ∧
      Blocks cmp (b * 2) r ∧ ∀ e, r.filter (equiv cmp e) = input.filter (equiv cmp e) := by
  obtain ⟨r, h1, h2⟩ := mergeLoop_spec h b hb [] input hbl
  unfold mergeBlocks
  rw [if_pos ⟨hb, hle⟩, h1]
  exact ⟨r, by simp, h2⟩

theorem blocks_whole {cmp : α → α → Cmp} {b : Nat} {l : List α} (h : Blocks cmp b l)
    (hb : l.length ≤ b) : Ascending cmp l := by
  cases h with
  | last _ _ ha => exact ha
  | cons a l hlen ha _ =>
    have : l = [] := by
      apply List.length_eq_zero_iff.1
      simp at hb; omega
    rw [this]; simpa using ha

theorem sortLoop_spec {cmp : α → α → Cmp} (h : TotalPreorder cmp) (b : Nat) (hb : 0 < b)
    (data : List α) (hbl : Blocks cmp b data) :
    ∃ r, sortLoop cmp b data data.length = .ok r ∧ r.Perm data ∧ Ascending cmp r ∧
      ∀ e, r.filter (equiv cmp e) = data.filter (equiv cmp e) := by
  induction hn : data.length - b using Nat.strongRecOn generalizing b data with
  | _ n ih =>
    unfold sortLoop
    by_cases hlt : b < data.length
    · rw [if_pos ⟨hb, hlt⟩]
      obtain ⟨d, h1, h2, h3, h4⟩ := mergeBlocks_spec h b hb data (by omega) hbl
      rw [h1]
      simp only [Res.bind]
      obtain ⟨r, g1, g2, g3, g4⟩ := ih _ (by rw [h2.length_eq]; omega) (b * 2) (by omega) d h3 rfl
      rw [← h2.length_eq]
      exact ⟨r, g1, g2.trans h2, g3, fun e => by rw [g4, h4]⟩
    · rw [if_neg (by omega)]
      exact ⟨data, rfl, List.Perm.refl _, blocks_whole hbl (by omega), fun _ => rfl⟩

theorem usortLoop_spec {cmp : α → α → Cmp} (h : TotalPreorder cmp) (b : Nat) (hb : 0 < b)
    (data : List α) (hbl : Blocks cmp b data) (hlt : b < data.length) :
    ∃ r c, usortLoop cmp b data data.length = .ok (r, c) ∧ 0 < c ∧ c < r.length ∧ r.length ≤ c * 2 ∧
      Blocks cmp c r ∧ ∀ e, r.filter (equiv cmp e) = data.filter (equiv cmp e) := by
  induction hn : data.length - b using Nat.strongRecOn generalizing b data with
  | _ n ih =>
    unfold usortLoop
    by_cases hlt2 : b * 2 < data.length
    · rw [if_pos ⟨hb, hlt2⟩]
      obtain ⟨d, h1, h2, h3, h4⟩ := mergeBlocks_spec h b hb data (by omega) hbl
      rw [h1]
      simp only [Res.bind]
      obtain ⟨r, c, g1, g2, g3, g4, g5, g6⟩ := ih _ (by rw [h2.length_eq]; omega) (b * 2) (by omega) d h3
        (by rw [h2.length_eq]; omega) rfl
      rw [← h2.length_eq]
      exact ⟨r, c, g1, g2, g3, g4, g5, fun e => by rw [g6, h4]⟩
    · rw [if_neg (by omega)]
      exact ⟨data, b, rfl, hb, hlt, by omega, hbl, fun _ => rfl⟩

theorem outputAll_unique {cmp : α → α → Cmp} (h : TotalPreorder cmp) (out l : List α)
    (hs : Ascending cmp (out.reverse ++ l)) (ho : StrictlyAscending cmp out.reverse) :
    ∃ r, outputAll cmp true out l = .ok r ∧ StrictlyAscending cmp r.reverse ∧
      ∀ e, r.reverse.filter (equiv cmp e) =
        ((out.reverse ++ l).filter (equiv cmp e)).head?.toList := by
  induction l generalizing out with
  | nil =>
    refine ⟨out, rfl, ho, fun e => ?_⟩
    rw [List.append_nil]
    cases hf : out.reverse.filter (equiv cmp e) with
    | nil => rfl
    | cons x xs =>
      cases xs with
      | nil => rfl
      | cons y ys =>
        exfalso
        have hp : List.Pairwise (fun a b => cmp a b = .less) (x :: y :: ys) := by
          rw [← hf]; exact List.Pairwise.filter _ ho
        have hxy := (List.pairwise_cons.1 hp).1 y (by simp)
        have hx : x ∈ out.reverse.filter (equiv cmp e) := by rw [hf]; simp
        have hy : y ∈ out.reverse.filter (equiv cmp e) := by rw [hf]; simp
        have hx := (List.mem_filter.1 hx).2
        have hy := (List.mem_filter.1 hy).2
        simp only [equiv, decide_eq_true_eq] at hx hy
        rw [h.equal_trans (h.equal_symm hx) hy] at hxy
        simp at hxy
  | cons x xs ih =>
    have step : ∀ o', outputElement cmp true out x = .ok o' →
        outputAll cmp true out (x :: xs) = outputAll cmp true o' xs := by
      intro o' ho'
      rw [outputAll, ho']
      rfl
    cases out with
    | nil =>
      rw [step [x] rfl]
      obtain ⟨r, h1, h2, h3⟩ := ih [x] (by simpa using hs) (List.pairwise_singleton _ _)
      exact ⟨r, h1, h2, by simpa using h3⟩
    | cons y ys =>
      have hyx : cmp y x ≠ .greater := by
        unfold Ascending at hs
        rw [List.pairwise_append] at hs
        exact hs.2.2 y (by simp) x (by simp)
      by_cases heq : cmp y x = .equal
      · rw [step (y :: ys) (by simp [outputElement, compareTotal_ok h, heq])]
        obtain ⟨r, h1, h2, h3⟩ := ih (y :: ys) (by
          refine List.Pairwise.sublist ?_ hs
          exact List.Sublist.append (List.Sublist.refl _) (List.sublist_cons_self _ _)) ho
        refine ⟨r, h1, h2, fun e => ?_⟩
        rw [h3, List.filter_append, List.filter_append, List.filter_cons (x := x)]
        split
        · next hex =>
          have hex : cmp e x = .equal := by simpa [equiv] using hex
          have hey : equiv cmp e y = true := by
            simp only [equiv, decide_eq_true_eq]
            exact h.equal_trans hex (h.equal_symm heq)
          have hmem : y ∈ (y :: ys).reverse.filter (equiv cmp e) :=
            List.mem_filter.2 ⟨by simp, hey⟩
          generalize (y :: ys).reverse.filter (equiv cmp e) = q at hmem
          cases q with
          | nil => simp at hmem
          | cons z zs => rfl
        · rfl
      · have hless : cmp y x = .less := by
          have := h.ordered y x
          cases hc : cmp y x <;> simp_all
        rw [step (x :: y :: ys) (by simp [outputElement, compareTotal_ok h, heq])]
        obtain ⟨r, h1, h2, h3⟩ := ih (x :: y :: ys) (by simpa using hs) (by
          unfold StrictlyAscending at *
          rw [List.reverse_cons, List.pairwise_append]
          refine ⟨ho, List.pairwise_singleton _ _, fun a ha b hb => ?_⟩
          simp at hb
          subst hb
          by_cases hay : a = y
          · rw [hay]; exact hless
          · have : cmp a y = .less := by
              rw [List.reverse_cons, List.pairwise_append] at ho
              refine ho.2.2 a ?_ y (by simp)
              simp at ha ⊢
              tauto
            exact h.less_of_le_less (by rw [this]; simp) hless)
        refine ⟨r, h1, h2, fun e => ?_⟩
        rw [h3]
        simp

/-! ## Any comparator -/

/-- The outcome for an arbitrary comparator: an exception, or some of the elements in some order; all of
them if duplicates are kept. -/
def Outcome (u : Bool) (x : Res (List α)) (l : List α) : Prop :=
  x = .throw ∨ ∃ r, x = .ok r ∧ r.Subperm l ∧ (u = false → r.Perm l)

theorem outputElement_any (cmp : α → α → Cmp) (u : Bool) (out : List α) (x : α) :
    Outcome u (outputElement cmp u out x) (x :: out) := by
  unfold outputElement compareTotal
  split
  · next y ys =>
    cases hc : cmp y x
    · exact Or.inl rfl
    · exact Or.inr ⟨_, rfl, List.Subperm.refl _, fun _ => List.Perm.refl _⟩
    · exact Or.inr ⟨_, rfl, (List.sublist_cons_self _ _).subperm, by simp⟩
    · exact Or.inr ⟨_, rfl, List.Subperm.refl _, fun _ => List.Perm.refl _⟩
  · exact Or.inr ⟨_, rfl, List.Subperm.refl _, fun _ => List.Perm.refl _⟩

theorem Outcome.bind {u : Bool} {x : Res (List α)} {l l' : List α} {f : List α → Res (List α)}
    (hx : Outcome u x l) (q : List α) (hf : ∀ r, Outcome u (f r) (r ++ q)) (hl : (l ++ q).Perm l') :
    Outcome u (x.bind f) l' := by
  rcases hx with rfl | ⟨r, rfl, h1, h2⟩
  · exact Or.inl rfl
  · rcases hf r with h | ⟨r', h3, h4, h5⟩
    · exact Or.inl h
    · refine Or.inr ⟨r', h3, ?_, fun hu => ?_⟩
      · exact (h4.trans ((List.subperm_append_right q).2 h1)).trans hl.subperm
      · exact ((h5 hu).trans ((h2 hu).append_right q)).trans hl

theorem outputAll_any (cmp : α → α → Cmp) (u : Bool) (out l : List α) :
    Outcome u (outputAll cmp u out l) (out ++ l) := by
  induction l generalizing out with
  | nil => exact Or.inr ⟨out, rfl, by simp [List.Subperm.refl], by simp⟩
  | cons x xs ih =>
    rw [outputAll]
    exact (outputElement_any cmp u out x).bind xs (fun r => ih r) (List.perm_middle.symm)

theorem mergeTwo_any (cmp : α → α → Cmp) (u : Bool) (out as bs : List α) (ha : as ≠ []) (hb : bs ≠ []) :
    Outcome u (mergeTwo cmp u out as bs) (out ++ (as ++ bs)) := by
  induction hn : as.length + bs.length using Nat.strongRecOn generalizing out as bs with
  | _ n ih =>
    match as, bs, ha, hb with
    | a :: as, b :: bs, _, _ =>
      unfold mergeTwo compareTotal
      have left : Outcome u ((outputElement cmp u out a).bind fun out =>
          if as.isEmpty then outputAll cmp u out (b :: bs) else mergeTwo cmp u out as (b :: bs))
          (out ++ (a :: as ++ b :: bs)) := by
        refine (outputElement_any cmp u out a).bind (as ++ b :: bs) (fun r => ?_) ?_
        · split
          · next he =>
            rw [List.isEmpty_iff.1 he]
            exact outputAll_any cmp u r (b :: bs)
          · next he =>
            exact ih _ (by simp at hn ⊢; omega) r as (b :: bs) (by simpa using he) (by simp) rfl
        · exact List.perm_middle.symm
      have right : Outcome u ((outputElement cmp u out b).bind fun out =>
          if bs.isEmpty then outputAll cmp u out (a :: as) else mergeTwo cmp u out (a :: as) bs)
          (out ++ (a :: as ++ b :: bs)) := by
        refine (outputElement_any cmp u out b).bind (a :: as ++ bs) (fun r => ?_) ?_
        · split
          · next he =>
            rw [List.isEmpty_iff.1 he]
            simpa using outputAll_any cmp u r (a :: as)
          · next he =>
            exact ih _ (by simp at hn ⊢; omega) r (a :: as) bs (by simp) (by simpa using he) rfl
        · refine List.perm_middle.symm.trans ?_
          exact List.Perm.append_left _ List.perm_middle.symm
      cases hc : cmp a b
      · exact Or.inl rfl
      · simpa using left
      · simpa using left
      · simpa using right

theorem mergeLoop_any (cmp : α → α → Cmp) (u : Bool) (b : Nat) (out input : List α) :
    Outcome u (mergeLoop cmp u b out input) (out ++ input) := by
  induction hn : input.length using Nat.strongRecOn generalizing out input with
  | _ n ih =>
    unfold mergeLoop
    split
    · next hlt =>
      have h1 : input.take b ≠ [] := by
        intro h0; have := congrArg List.length h0; simp only [List.length_take, List.length_drop, List.length_nil] at this; omega
      have h2 : (input.drop b).take b ≠ [] := by
        intro h0; have := congrArg List.length h0; simp only [List.length_take, List.length_drop, List.length_nil] at this; omega
      refine (mergeTwo_any cmp u out _ _ h1 h2).bind ((input.drop b).drop b) (fun r => ?_) ?_
      · exact ih _ (by simp; omega) r _ rfl
      · rw [List.append_assoc, List.append_assoc, List.take_append_drop, List.take_append_drop]
    · exact outputAll_any cmp u out input

theorem mergeBlocks_any (cmp : α → α → Cmp) (u : Bool) (input : List α) (b : Nat) (hb : 0 < b)
    (hle : b ≤ input.length) : Outcome u (mergeBlocks cmp u input b) input := by
  unfold mergeBlocks
  rw [if_pos ⟨hb, hle⟩]
  rcases mergeLoop_any cmp u b [] input with h | ⟨r, h1, h2, h3⟩
  · rw [h]; exact Or.inl rfl
  · rw [h1]
    exact Or.inr ⟨_, rfl, (r.reverse_perm.subperm).trans h2, fun hu => r.reverse_perm.trans (h3 hu)⟩

theorem sortLoop_any (cmp : α → α → Cmp) (b : Nat) (data : List α) :
    Outcome false (sortLoop cmp b data data.length) data := by
  induction hn : data.length - b using Nat.strongRecOn generalizing b data with
  | _ n ih =>
    unfold sortLoop
    split
    · next hlt =>
      rcases mergeBlocks_any cmp false data b hlt.1 (by omega) with h | ⟨r, h1, h2, h3⟩
      · rw [h]; exact Or.inl rfl
      · rw [h1]
        have hp := h3 rfl
        simp only [Res.bind]
        rw [← hp.length_eq]
        rcases ih _ (by rw [hp.length_eq]; omega) (b * 2) r rfl with h | ⟨r', g1, g2, g3⟩
        · exact Or.inl h
        · exact Or.inr ⟨r', g1, g2.trans h2, fun _ => (g3 rfl).trans hp⟩
    · exact Or.inr ⟨data, rfl, List.Subperm.refl _, fun _ => List.Perm.refl _⟩

theorem usortLoop_any (cmp : α → α → Cmp) (b : Nat) (hb : 0 < b) (data : List α) (hlt : b < data.length) :
    usortLoop cmp b data data.length = .throw ∨
      ∃ r c, usortLoop cmp b data data.length = .ok (r, c) ∧ r.Perm data ∧ 0 < c ∧ c < r.length := by
  induction hn : data.length - b using Nat.strongRecOn generalizing b data with
  | _ n ih =>
    unfold usortLoop
    split
    · next hlt2 =>
      rcases mergeBlocks_any cmp false data b hb (by omega) with h | ⟨r, h1, h2, h3⟩
      · rw [h]; exact Or.inl rfl
      · rw [h1]
        have hp := h3 rfl
        simp only [Res.bind]
        rw [← hp.length_eq]
        rcases ih _ (by rw [hp.length_eq]; omega) (b * 2) (by omega) r (by rw [hp.length_eq]; omega) rfl
          with h | ⟨r', c, g1, g2, g3⟩
        · exact Or.inl h
        · exact Or.inr ⟨r', c, g1, g2.trans hp, g3⟩
    · exact Or.inr ⟨data, b, rfl, List.Perm.refl _, hb, hlt⟩

end Asteria.ArrayLib
