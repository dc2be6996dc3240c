import Verif.Spec.StaticVector
import Verif.Proof.CowVector

/-!
# Lemmas about `static_vector`
-/

namespace Asteria.StaticVector

variable {α : Type}

/-- The vector that has the elements `l`. -/
def rep (cap : Nat) (l : List α) : Vec α := ⟨l.length, l.map some ++ List.replicate (cap - l.length) none⟩

theorem Holds.eq {cap : Nat} {v : Vec α} {l : List α} (h : Holds cap v l) : v = rep cap l := by
  cases v
  cases h
  simp_all [rep]

theorem rep_holds {cap : Nat} {l : List α} (hb : l.length ≤ cap) (hc : Countable cap l.length) : Holds cap (rep cap l) l :=
  ⟨rfl, hb, rfl, hc⟩

theorem Countable.lt {cap n : Nat} (h : Countable cap n) (hn : n ≤ cap) : n < countMod cap := by
  obtain ⟨h1, h2⟩ := h
  unfold countMod
  split
  · omega
  · split
    · omega
    · split <;> omega

theorem Countable.mono {cap m n : Nat} (h : Countable cap n) (hm : m ≤ n) : Countable cap m :=
  ⟨h.1, h.2.elim (fun h => .inl (by omega)) .inr⟩

theorem rep_get {cap : Nat} {l : List α} {k : Nat} (hk : k < l.length) : (rep cap l).cells[k]? = some (some l[k]) := by
  simp [rep, hk, List.getElem?_append_left]

theorem rep_read {cap : Nat} {l : List α} {k : Nat} (hk : k < l.length) : (rep cap l).read k = .ok l[k] := by
  unfold Vec.read
  rw [rep_get hk]

theorem rep_store {cap : Nat} {l : List α} {k : Nat} (hk : k < l.length) (x : α) :
    (rep cap l).store k x = .ok (rep cap (l.set k x)) := by
  unfold Vec.store
  rw [rep_get hk]
  simp [rep, List.set_append_left, hk, List.map_set]

theorem rep_emplace {cap : Nat} {l : List α} (h : l.length < cap) (hc : Countable cap (l.length + 1)) (x : α) :
    (rep cap l).emplaceBackUnchecked cap x = .ok (rep cap (l ++ [x])) := by
  have hm := hc.lt (by omega)
  obtain ⟨d, hd⟩ : ∃ d, cap - l.length = d + 1 := ⟨cap - l.length - 1, by omega⟩
  have hg : (rep cap l).cells[(rep cap l).nelem]? = some none := by
    simp [rep, hd, List.replicate_succ]
  unfold Vec.emplaceBackUnchecked
  rw [if_pos (show (rep cap l).nelem < cap from h), hg]
  simp only [rep, Nat.mod_eq_of_lt hm, List.length_append, List.length_singleton, hd]
  rw [show cap - (l.length + 1) = d by omega]
  simp [List.replicate_succ, List.set_append_right]

theorem rep_pop {cap : Nat} {l : List α} {x : α} (h : l.length < cap) :
    (rep cap (l ++ [x])).popBackUnchecked = .ok (rep cap l) := by
  have hg : (rep cap (l ++ [x])).cells[(rep cap (l ++ [x])).nelem - 1]? = some (some x) := by
    simp [rep, List.getElem?_append_left]
  obtain ⟨d, hd⟩ : ∃ d, cap - l.length = d + 1 := ⟨cap - l.length - 1, by omega⟩
  unfold Vec.popBackUnchecked
  rw [if_pos (by simp [rep]), hg]
  simp only [rep, List.length_append, List.length_singleton, Nat.add_sub_cancel, hd]
  rw [show cap - (l.length + 1) = d by omega]
  simp [List.replicate_succ, List.set_append_right]

theorem rep_appendN {cap : Nat} (x : α) : ∀ (n : Nat) {l : List α}, l.length + n ≤ cap → Countable cap (l.length + n) →
    (rep cap l).appendNUnchecked cap x n = .ok (rep cap (l ++ List.replicate n x))
  | 0, l, _, _ => by simp [Vec.appendNUnchecked]
  | n + 1, l, h, hc => by
    unfold Vec.appendNUnchecked
    rw [rep_emplace (by omega) (hc.mono (by omega)), Res.ok_bind,
      rep_appendN x n (by simp; omega) (hc.mono (by simp; omega))]
    simp [List.replicate_succ]

theorem rep_appendRange {cap : Nat} : ∀ (xs : List α) {l : List α}, l.length + xs.length ≤ cap →
    Countable cap (l.length + xs.length) → (rep cap l).appendRangeUnchecked cap xs = .ok (rep cap (l ++ xs))
  | [], l, _, _ => by simp [Vec.appendRangeUnchecked]
  | x :: xs, l, h, hc => by
    simp only [List.length_cons] at h hc
    unfold Vec.appendRangeUnchecked
    rw [rep_emplace (by omega) (hc.mono (by omega)), Res.ok_bind,
      rep_appendRange xs (by simp; omega) (hc.mono (by simp; omega))]
    simp

theorem rep_popN {cap : Nat} : ∀ (n : Nat) {l : List α}, l.length ≤ cap → n ≤ l.length →
    (rep cap l).popNUnchecked n = .ok (rep cap (l.take (l.length - n)))
  | 0, l, _, _ => by simp [Vec.popNUnchecked]
  | n + 1, l, h, hn => by
    have hne : l ≠ [] := by intro e; subst e; simp at hn
    obtain ⟨l', x, rfl⟩ : ∃ l' x, l = l' ++ [x] := ⟨l.dropLast, l.getLast hne, (List.dropLast_concat_getLast hne).symm⟩
    simp only [List.length_append, List.length_singleton] at h hn
    unfold Vec.popNUnchecked
    rw [rep_pop (by omega), Res.ok_bind, rep_popN n (by omega) (by omega)]
    rw [List.take_append_of_le_length (by simp)]
    simp only [List.length_append, List.length_singleton]
    rw [show l'.length + 1 - (n + 1) = l'.length - n by omega]

theorem rep_popN_ub {cap : Nat} : ∀ (n : Nat) {l : List α}, l.length ≤ cap → l.length < n →
    (rep cap l).popNUnchecked n = .ub
  | 0, l, _, hn => absurd hn (by omega)
  | n + 1, l, h, hn => by
    unfold Vec.popNUnchecked
    by_cases hne : l = []
    · subst hne
      rfl
    · obtain ⟨l', x, rfl⟩ : ∃ l' x, l = l' ++ [x] :=
        ⟨l.dropLast, l.getLast hne, (List.dropLast_concat_getLast hne).symm⟩
      simp only [List.length_append, List.length_singleton] at h hn
      rw [rep_pop (by omega), Res.ok_bind, rep_popN_ub n (by omega) (by omega)]

theorem objects_map : ∀ l : List α, objects (l.map some) = .ok l
  | [] => rfl
  | x :: l => by simp [objects, objects_map l]

theorem rep_rotate {cap : Nat} {l : List α} {b s : Nat} (hb : b ≤ s) (hs : s ≤ l.length) :
    (rep cap l).rotate b s (rep cap l).nelem = .ok (rep cap (l.take b ++ l.drop s ++ (l.take s).drop b)) := by
  have ht : (rep cap l).cells.take (rep cap l).nelem = l.map some := by simp [rep]
  have hd : (rep cap l).cells.drop (rep cap l).nelem = List.replicate (cap - l.length) none := by simp [rep]
  unfold Vec.rotate
  rw [ht, hd, objects_map, Res.ok_bind, show (rep cap l).nelem = l.length from rfl, CowVector.Heap.rotateRange_gen l b s hb hs, Res.ok_map]
  have hl : (l.take b ++ l.drop s ++ (l.take s).drop b).length = l.length := by
    simp; omega
  simp only [rep, hl]

theorem rep_slice {cap : Nat} {l : List α} : ∀ (n a : Nat), a + n ≤ l.length →
    (rep cap l).slice a n = .ok ((l.drop a).take n)
  | 0, a, _ => by simp [Vec.slice]
  | n + 1, a, h => by
    unfold Vec.slice
    rw [rep_read (by omega), Res.ok_bind, rep_slice n (a + 1) (by omega), Res.ok_map]
    conv => rhs; rw [List.drop_eq_getElem_cons (show a < l.length by omega)]
    rfl

theorem rep_destroy {cap : Nat} : ∀ (n : Nat) (l : List α) (j : Nat), l.length = n →
    Vec.destroyLoop ⟨m, l.map some ++ List.replicate j none⟩ n = .ok (List.replicate (n + j) none)
  | 0, l, j, h => by
    have : l = [] := List.length_eq_zero_iff.mp h
    subst this
    simp [Vec.destroyLoop]
  | n + 1, l, j, h => by
    have hne : l ≠ [] := by intro e; subst e; simp at h
    obtain ⟨l', x, rfl⟩ : ∃ l' x, l = l' ++ [x] := ⟨l.dropLast, l.getLast hne, (List.dropLast_concat_getLast hne).symm⟩
    have hl : l'.length = n := by simpa using h
    subst hl
    unfold Vec.destroyLoop
    have hg : ((l' ++ [x]).map some ++ List.replicate j none)[l'.length]? = some (some x) := by
      simp [List.getElem?_append_left]
    dsimp only
    rw [hg]
    dsimp only
    have : ((l' ++ [x]).map some ++ List.replicate j none).set l'.length none
        = l'.map some ++ List.replicate (j + 1) none := by
      simp [List.set_append_right, List.replicate_succ]
    rw [this, rep_destroy (cap := cap) l'.length l' (j + 1) rfl]
    congr 2
    omega

theorem assignLoop_eq {cap : Nat} (husk : α → α) : ∀ (b b' a a' c c' : List α), a.length = a'.length → b.length = b'.length →
    assignLoop husk (rep cap (a ++ b ++ c)) (rep cap (a' ++ b' ++ c')) a.length b.length
      = .ok (rep cap (a ++ b' ++ c), rep cap (a' ++ b'.map husk ++ c'))
  | [], [], a, a', c, c', _, _ => by simp [assignLoop]
  | [], _ :: _, _, _, _, _, _, h => by simp at h
  | _ :: _, [], _, _, _, _, _, h => by simp at h
  | x :: b, y :: b', a, a', c, c', ha, hb => by
    simp only [List.length_cons]
    unfold assignLoop
    rw [rep_read (by simp; omega), Res.ok_bind, rep_store (by simp; omega), Res.ok_bind, rep_store (by simp), Res.ok_bind]
    have e1 : (a' ++ (y :: b') ++ c')[a.length]'(by simp; omega) = y := by
      simp [ha]
    have e2 : (a' ++ (y :: b') ++ c').set a.length (husk y) = (a' ++ [husk y]) ++ b' ++ c' := by
      simp [ha, List.set_append_right]
    have e3 : (a ++ (x :: b) ++ c).set a.length y = (a ++ [y]) ++ b ++ c := by
      simp [List.set_append_right]
    rw [e1, e2, e3]
    have := assignLoop_eq (cap := cap) husk b b' (a ++ [y]) (a' ++ [husk y]) c c' (by simp [ha]) (by simpa using hb)
    rw [show (a ++ [y]).length = a.length + 1 by simp] at this
    rw [this]
    simp

theorem emplaceLoop_eq {cap : Nat} (husk : α → α) : ∀ (b a a' : List α), a.length = a'.length →
    a.length + b.length ≤ cap → Countable cap (a.length + b.length) →
    emplaceLoop cap husk (rep cap a) (rep cap (a' ++ b)) a.length b.length
      = .ok (rep cap (a ++ b), rep cap (a' ++ b.map husk))
  | [], a, a', _, _, _ => by simp [emplaceLoop]
  | y :: b, a, a', ha, hb, hc => by
    simp only [List.length_cons] at hb hc ⊢
    unfold emplaceLoop
    rw [rep_read (by simp; omega), Res.ok_bind, rep_store (by simp; omega), Res.ok_bind,
      rep_emplace (by omega) (hc.mono (by omega)), Res.ok_bind]
    have e1 : (a' ++ (y :: b))[a.length]'(by simp; omega) = y := by simp [ha]
    have e2 : (a' ++ (y :: b)).set a.length (husk y) = (a' ++ [husk y]) ++ b := by simp [ha, List.set_append_right]
    rw [e1, e2]
    have := emplaceLoop_eq (cap := cap) husk b (a ++ [y]) (a' ++ [husk y]) (by simp [ha]) (by simp; omega)
      (hc.mono (by simp; omega))
    rw [show (a ++ [y]).length = a.length + 1 by simp] at this
    rw [this]
    simp

theorem swapLoop_eq {cap : Nat} : ∀ (b b' a a' c c' : List α), a.length = a'.length → b.length = b'.length →
    swapLoop (rep cap (a ++ b ++ c)) (rep cap (a' ++ b' ++ c')) a.length b.length
      = .ok (rep cap (a ++ b' ++ c), rep cap (a' ++ b ++ c'))
  | [], [], a, a', c, c', _, _ => by simp [swapLoop]
  | [], _ :: _, _, _, _, _, _, h => by simp at h
  | _ :: _, [], _, _, _, _, _, h => by simp at h
  | x :: b, y :: b', a, a', c, c', ha, hb => by
    simp only [List.length_cons]
    unfold swapLoop
    rw [rep_read (by simp), Res.ok_bind, rep_read (by simp; omega), Res.ok_bind, rep_store (by simp), Res.ok_bind,
      rep_store (by simp; omega), Res.ok_bind]
    have e0 : (a ++ (x :: b) ++ c)[a.length]'(by simp) = x := by simp
    have e1 : (a' ++ (y :: b') ++ c')[a.length]'(by simp; omega) = y := by
      simp [ha]
    have e2 : (a' ++ (y :: b') ++ c').set a.length x = (a' ++ [x]) ++ b' ++ c' := by
      simp [ha, List.set_append_right]
    have e3 : (a ++ (x :: b) ++ c).set a.length y = (a ++ [y]) ++ b ++ c := by
      simp [List.set_append_right]
    rw [e0, e1, e2, e3]
    have := swapLoop_eq (cap := cap) b b' (a ++ [y]) (a' ++ [x]) c c' (by simp [ha]) (by simpa using hb)
    rw [show (a ++ [y]).length = a.length + 1 by simp] at this
    rw [this]
    simp

end Asteria.StaticVector
