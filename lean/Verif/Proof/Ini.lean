import Verif.Model.Ini
import Verif.Proof.Csv
import Verif.Spec.Ini

/-!
# Reading an INI text
-/

namespace Asteria.Ini

open Lexer (getlines)
open Csv (chop chop_cr dropBom)

theorem takeWhile_all {p : UInt8 → Bool} : ∀ {s : Bytes}, (∀ b ∈ s, p b = true) → s.takeWhile p = s
  | [], _ => rfl
  | x :: s, h => by
    rw [List.takeWhile_cons_of_pos (h x (by simp)), takeWhile_all fun b hb => h b (by simp [hb])]

theorem split_eq : ∀ {k : Bytes}, 0x3D ∉ k → ∀ v : Bytes,
    (k ++ 0x3D :: v).dropWhile (· ≠ 0x3D) = 0x3D :: v ∧ (k ++ 0x3D :: v).takeWhile (· ≠ 0x3D) = k
  | [], _, v => by simp
  | x :: k, h, v => by
    have h1 : x ≠ 0x3D := fun e => h (by simp [e])
    have h2 : 0x3D ∉ k := fun e => h (by simp [e])
    have := split_eq h2 v
    rw [List.cons_append, List.dropWhile_cons_of_pos (by simpa using h1), List.takeWhile_cons_of_pos (by simpa using h1)]
    exact ⟨this.1, by rw [this.2]⟩

theorem rtrim_id {s : Bytes} (h : ∀ x, s.getLast? = some x → space x = false) : rtrim s = s := by
  unfold rtrim
  rw [List.getLast?_eq_head?_reverse] at h
  cases hs : s.reverse with
  | nil => rw [List.reverse_eq_nil_iff] at hs; rw [hs]; rfl
  | cons x t =>
    rw [hs] at h
    rw [List.dropWhile_cons_of_neg (by simp [h x rfl]), ← hs, List.reverse_reverse]

theorem ltrim_id {s : Bytes} (h : ∀ x, s.head? = some x → space x = false) : s.dropWhile space = s := by
  cases s with
  | nil => rfl
  | cons x t => rw [List.dropWhile_cons_of_neg (by simp [h x rfl])]

/-- What `allowed` means. -/
structure Fine (s : Bytes) : Prop where
  clean : ∀ b ∈ s, reject b = false
  first : ∀ x, s.head? = some x → space x = false
  last : ∀ x, s.getLast? = some x → space x = false

theorem allowed_iff {s : Bytes} : allowed s = true ↔ Fine s := by
  unfold allowed
  simp only [Bool.and_eq_true, Bool.not_eq_true', List.any_eq_false]
  constructor
  · rintro ⟨⟨h1, h2⟩, h3⟩
    refine ⟨fun b hb => by simpa using h1 b hb, ?_, ?_⟩
    · intro x hx; rw [hx] at h2; simpa using h2
    · intro x hx; rw [hx] at h3; simpa using h3
  · rintro ⟨h1, h2, h3⟩
    refine ⟨⟨fun b hb => by simp [h1 b hb], ?_⟩, ?_⟩
    · cases hx : s.head? with
      | none => rfl
      | some x => simpa using h2 x hx
    · cases hx : s.getLast? with
      | none => rfl
      | some x => simpa using h3 x hx

theorem fine_nil : Fine [] := ⟨by simp, by simp, by simp⟩

theorem Fine.ne {s : Bytes} (h : Fine s) {c : UInt8} (hc : reject c = true) : c ∉ s := fun hm => by
  rw [h.clean c hm] at hc; cases hc

theorem not_comment {b : UInt8} (h : reject b = false) : (!comment b) = true := by
  have : ∀ b : UInt8, reject b = false → (!comment b) = true := Lexer.forall_byte (by decide +kernel)
  exact this b h

/-- A property as it is written. -/
def propLine (x : Bytes × Bytes) : Bytes := x.1 ++ 0x3D :: x.2

theorem doLine_prop (st : St) {x : Bytes × Bytes} (hk : Fine x.1) (hne : x.1 ≠ []) (ht : Fine x.2) :
    doLine st (propLine x ++ [13]) = .ok (st.put x.1 x.2) := by
  obtain ⟨k, t⟩ := x
  simp only at hk hne ht ⊢
  unfold doLine propLine
  rw [chop_cr]
  simp only
  have h1 : (k ++ 0x3D :: t).takeWhile (fun b => !comment b) = k ++ 0x3D :: t := by
    apply takeWhile_all
    intro b hb
    rcases List.mem_append.1 hb with hb | hb
    · exact not_comment (hk.clean b hb)
    · rcases List.mem_cons.1 hb with rfl | hb
      · decide
      · exact not_comment (ht.clean b hb)
  obtain ⟨y, k', rfl⟩ := List.exists_cons_of_ne_nil hne
  have h2 : (y :: k' ++ 0x3D :: t).dropWhile space = y :: k' ++ 0x3D :: t := by
    rw [List.cons_append, List.dropWhile_cons_of_neg (by simp [hk.first y rfl])]
  rw [h1, h2, List.cons_append]
  simp only
  have h3 : rtrim (y :: (k' ++ 0x3D :: t)) = y :: (k' ++ 0x3D :: t) := by
    apply rtrim_id
    intro x hx
    rw [← List.cons_append, List.getLast?_append] at hx
    cases t with
    | nil => simp at hx; rw [← hx]; decide
    | cons z t =>
      refine ht.last x ?_
      rw [List.getLast?_cons_cons] at hx
      cases hz : (z :: t).getLast? with
      | none => simp at hz
      | some w => rw [hz] at hx; simpa using hx
  have hy : y ≠ 0x5B := fun e => hk.ne (c := 0x5B) (by decide) (by simp [e])
  rw [h3, item, if_neg (by simpa using hy), ← List.cons_append]
  have hs := split_eq (hk.ne (c := 0x3D) (by decide)) t
  rw [hs.1, hs.2]
  simp only
  rw [rtrim_id hk.last, if_neg (by simp), if_neg (by simp), ltrim_id ht.first]

/-- A section as it is written. -/
def sectLine (n : Bytes) : Bytes := 0x5B :: (n ++ [0x5D])

theorem doLine_sect (st : St) {n : Bytes} (hn : Fine n) (hne : n ≠ []) : doLine st (sectLine n ++ [13]) = st.enter n := by
  unfold doLine sectLine
  rw [chop_cr]
  simp only
  have h1 : (0x5B :: (n ++ [0x5D])).takeWhile (fun b => !comment b) = 0x5B :: (n ++ [0x5D]) := by
    apply takeWhile_all
    intro b hb
    rcases List.mem_cons.1 hb with rfl | hb
    · decide
    rcases List.mem_append.1 hb with hb | hb
    · exact not_comment (hn.clean b hb)
    · rw [List.mem_singleton.1 hb]; decide
  rw [h1, List.dropWhile_cons_of_neg (by decide)]
  simp only
  have h3 : rtrim (0x5B :: (n ++ [0x5D])) = 0x5B :: (n ++ [0x5D]) := by
    apply rtrim_id
    intro x hx
    rw [← List.cons_append, List.getLast?_append] at hx
    simp at hx
    rw [← hx]; decide
  rw [h3, item, if_pos (by simp), if_neg (by rw [← List.cons_append, List.getLast?_append]; simp)]
  have h4 : (List.drop 1 (0x5B :: (n ++ [0x5D]))).dropWhile space = n ++ [0x5D] := by
    simp only [List.drop_succ_cons, List.drop_zero]
    apply ltrim_id
    obtain ⟨y, n', rfl⟩ := List.exists_cons_of_ne_nil hne
    intro x hx
    exact hn.first x hx
  rw [h4, if_neg]
  · simp
  · simp only [List.length_append, List.length_singleton]
    have := List.length_pos_iff.2 hne
    omega

theorem doLine_blank (st : St) : doLine st ([] ++ [13]) = .ok st := by
  unfold doLine
  rw [chop_cr]
  rfl

theorem lines_append : ∀ (a b : List Bytes) (st : St), lines st (a ++ b) = (lines st a).bind fun st => lines st b
  | [], _, _ => rfl
  | l :: a, b, st => by
    rw [List.cons_append, lines, lines]
    cases h : doLine st l with
    | ok st' => simp only [Res.bind]; exact lines_append a b st'
    | throw => rfl
    | ub => rfl

theorem assign_new {α : Type} {k : Bytes} (v : α) : ∀ {l : List (Bytes × α)}, k ∉ l.map (·.1) → assign k v l = l ++ [(k, v)]
  | [], _ => rfl
  | x :: l, h => by
    rw [assign, if_neg (fun e => h (by simp [e])), assign_new v fun e => h (by simp only [List.map_cons, List.mem_cons]; exact .inr e)]
    rfl

/-- Properties outside of sections. -/
theorem lines_top : ∀ (ps : List (Bytes × Bytes)) (root : List (Bytes × Entry)),
    (∀ x ∈ ps, Fine x.1 ∧ x.1 ≠ [] ∧ Fine x.2) → (root.map (·.1) ++ ps.map (·.1)).Nodup →
    lines ⟨root, none⟩ (ps.map fun x => propLine x ++ [13]) = .ok ⟨root ++ ps.map (fun x => (x.1, .text x.2)), none⟩
  | [], root, _, _ => by simp [lines]
  | x :: ps, root, h, hn => by
    have hx := h x (by simp)
    rw [List.map_cons, lines, doLine_prop _ hx.1 hx.2.1 hx.2.2]
    simp only [Res.bind, St.put]
    have hk : x.1 ∉ root.map (·.1) := by
      intro hm
      rw [List.nodup_append] at hn
      exact hn.2.2 _ hm x.1 (by simp) rfl
    rw [assign_new _ hk, lines_top ps _ (fun y hy => h y (by simp [hy])) (by simpa using hn)]
    simp

/-- Properties of a section. -/
theorem lines_sect (n : Bytes) (root : List (Bytes × Entry)) (hn : n ∉ root.map (·.1)) : ∀ (ps l : List (Bytes × Bytes)),
    (∀ x ∈ ps, Fine x.1 ∧ x.1 ≠ [] ∧ Fine x.2) → (l.map (·.1) ++ ps.map (·.1)).Nodup →
    lines ⟨root ++ [(n, .sect l)], some n⟩ (ps.map fun x => propLine x ++ [13]) = .ok ⟨root ++ [(n, .sect (l ++ ps))], some n⟩
  | [], l, _, _ => by simp [lines]
  | x :: ps, l, h, hd => by
    have hx := h x (by simp)
    rw [List.map_cons, lines, doLine_prop _ hx.1 hx.2.1 hx.2.2]
    have hk : x.1 ∉ l.map (·.1) := by
      intro hm
      rw [List.nodup_append] at hd
      exact hd.2.2 _ hm x.1 (by simp) rfl
    have hput : (⟨root ++ [(n, .sect l)], some n⟩ : St).put x.1 x.2 = ⟨root ++ [(n, .sect (l ++ [x]))], some n⟩ := by
      simp only [St.put, List.map_append, List.map_cons, List.map_nil, if_true, assign_new x.2 hk]
      congr 2
      conv => rhs; rw [← List.map_id root]
      apply List.map_congr_left
      rintro ⟨m, e⟩ hm
      cases e with
      | text t => rfl
      | sect l =>
        have : m ≠ n := fun e => hn (List.mem_map.2 ⟨_, hm, e⟩)
        simp [this]
    simp only [Res.bind]
    rw [hput, lines_sect n root hn ps (l ++ [x]) (fun y hy => h y (by simp [hy])) (by simpa using hd)]
    simp

theorem lookup_new {α : Type} {k : Bytes} : ∀ {l : List (Bytes × α)}, k ∉ l.map (·.1) → l.lookup k = none
  | [], _ => rfl
  | x :: l, h => by
    have h1 : k ≠ x.1 := fun e => h (by simp [e])
    rw [List.lookup_cons, beq_eq_false_iff_ne.2 h1]
    exact lookup_new fun e => h (by simp only [List.map_cons, List.mem_cons]; exact .inr e)

/-- The lines of sections, with blank lines before all but the first if there is nothing before it. -/
def sectLines : Bool → List (Bytes × List (Bytes × Bytes)) → List Bytes
  | _, [] => []
  | b, (n, ps) :: rest => (if b then [[]] else []) ++ (sectLine n :: (ps.map propLine ++ sectLines true rest))

theorem lines_sects : ∀ (ss : List (Bytes × List (Bytes × Bytes))) (b : Bool) (root : List (Bytes × Entry)) (sink : Option Bytes),
    (∀ s ∈ ss, Fine s.1 ∧ s.1 ≠ [] ∧ (∀ x ∈ s.2, Fine x.1 ∧ x.1 ≠ [] ∧ Fine x.2) ∧ (s.2.map (·.1)).Nodup) →
    (root.map (·.1) ++ ss.map (·.1)).Nodup →
    ∃ sink', lines ⟨root, sink⟩ ((sectLines b ss).map (· ++ [13])) = .ok ⟨root ++ ss.map (fun s => (s.1, .sect s.2)), sink'⟩
  | [], b, root, sink, _, _ => ⟨sink, by simp [sectLines, lines]⟩
  | (n, ps) :: ss, b, root, sink, h, hd => by
    have hs := h _ (List.mem_cons_self ..)
    simp only at hs
    have hn : n ∉ root.map (·.1) := by
      intro hm
      rw [List.nodup_append] at hd
      exact hd.2.2 _ hm n (by simp) rfl
    have key : ∃ sink', lines ⟨root, sink⟩ ((sectLine n :: (ps.map propLine ++ sectLines true ss)).map (· ++ [13])) =
        .ok ⟨root ++ ((n, ps) :: ss).map (fun s => (s.1, .sect s.2)), sink'⟩ := by
      rw [List.map_cons, lines, doLine_sect _ hs.1 hs.2.1, St.enter]
      simp only [lookup_new hn, Res.bind, List.map_append, List.map_map, Function.comp_def]
      have h1 := lines_sect n root hn ps [] hs.2.2.1 (by simpa using hs.2.2.2)
      rw [lines_append, h1]
      simp only [Res.bind, List.nil_append]
      obtain ⟨sink', h2⟩ := lines_sects ss true (root ++ [(n, .sect ps)]) (some n) (fun s hs => h s (by simp [hs])) (by simpa using hd)
      refine ⟨sink', ?_⟩
      rw [h2]
      simp
    rw [sectLines]
    cases b with
    | false => simpa using key
    | true =>
      simp only [if_true, List.cons_append, List.nil_append]
      rw [List.map_cons, lines, doLine_blank]
      exact key

/-! ### What the formatter writes -/

variable {print : Value → Bytes} (hp : ∀ v, Plain v → Fine (print v))
include hp

theorem props_ok : ∀ (obj : List (Bytes × Value)) (r : Bytes × Nat), props print obj = .ok r →
    r.1 = ((scal print obj).map propLine).flatMap (· ++ [13, 10]) ∧ r.2 = (scal print obj).length ∧
      ∀ x ∈ scal print obj, Fine x.1 ∧ x.1 ≠ [] ∧ Fine x.2
  | [], r, h => by cases h; simp [scal]
  | (k, v) :: rest, r, h => by
    have step : ∀ t : Bytes, Fine t → ((key k).bind fun k =>
        (props print rest).map fun r => (k ++ (0x3D :: (t ++ (0x0D :: 0x0A :: r.1))), r.2 + 1)) = .ok r →
        scal print ((k, v) :: rest) = (k, t) :: scal print rest →
        r.1 = ((scal print ((k, v) :: rest)).map propLine).flatMap (· ++ [13, 10]) ∧
          r.2 = (scal print ((k, v) :: rest)).length ∧ ∀ x ∈ scal print ((k, v) :: rest), Fine x.1 ∧ x.1 ≠ [] ∧ Fine x.2 := by
      intro t ht h hs
      rw [hs]
      unfold key at h
      split at h
      · cases h
      split at h
      · rename_i hne ha
        simp only [Res.bind] at h
        cases hr : props print rest with
        | ok q =>
          rw [hr] at h
          cases h
          obtain ⟨h1, h2, h3⟩ := props_ok rest q hr
          refine ⟨by simp [h1, propLine], by simp [h2], ?_⟩
          intro x hx
          rcases List.mem_cons.1 hx with rfl | hx
          · exact ⟨allowed_iff.1 ha, hne, ht⟩
          · exact h3 x hx
        | throw => rw [hr] at h; cases h
        | ub => rw [hr] at h; cases h
      · cases h
    have skip : props print rest = .ok r → scal print ((k, v) :: rest) = scal print rest →
        r.1 = ((scal print ((k, v) :: rest)).map propLine).flatMap (· ++ [13, 10]) ∧
          r.2 = (scal print ((k, v) :: rest)).length ∧ ∀ x ∈ scal print ((k, v) :: rest), Fine x.1 ∧ x.1 ≠ [] ∧ Fine x.2 := by
      intro h hs
      rw [hs]
      exact props_ok rest r h
    rw [props] at h
    cases v with
    | str s =>
      rw [scalar] at h
      split at h
      · rename_i hs
        exact step s (by rw [hs]; exact fine_nil) h rfl
      split at h
      · rename_i ha
        exact step s (allowed_iff.1 ha) h rfl
      · cases h
    | null => exact step _ (hp (.null) trivial) h rfl
    | bool b => exact step _ (hp (.bool b) trivial) h rfl
    | int i => exact step _ (hp (.int i) trivial) h rfl
    | real d => exact step _ (hp (.real d) trivial) h rfl
    | «opaque» i => exact skip h rfl
    | func i => exact skip h rfl
    | arr l => exact skip h rfl
    | obj l => exact skip h rfl

theorem sections_ok : ∀ (obj : List (Bytes × Value)) (n : Nat) (t : Bytes), sections print n obj = .ok t →
    t = (sectLines (n ≠ 0) (sects print obj)).flatMap (· ++ [13, 10]) ∧
      ∀ s ∈ sects print obj, Fine s.1 ∧ s.1 ≠ [] ∧ ∀ x ∈ s.2, Fine x.1 ∧ x.1 ≠ [] ∧ Fine x.2
  | [], n, t, h => by cases h; simp [sects, sectLines]
  | (k, v) :: rest, n, t, h => by
    cases v with
    | obj ps =>
      rw [sections] at h
      have hs : sects print ((k, .obj ps) :: rest) = (k, scal print ps) :: sects print rest := rfl
      rw [hs]
      unfold key at h
      split at h
      · cases h
      split at h
      · rename_i hne ha
        simp only [Res.bind] at h
        cases hr : props print ps with
        | ok q =>
          rw [hr] at h
          simp only at h
          cases ht : sections print (n + 1 + q.2) rest with
          | ok u =>
            rw [ht] at h
            cases h
            obtain ⟨h1, _, h3⟩ := props_ok hp ps q hr
            obtain ⟨g1, g2⟩ := sections_ok rest _ u ht
            refine ⟨?_, ?_⟩
            · have e : decide (n + 1 + q.2 ≠ 0) = true := by simp
              rw [e] at g1
              rw [sectLines, h1, g1]
              by_cases hn : n = 0 <;> simp [hn, sectLine]
            · intro s hs
              rcases List.mem_cons.1 hs with rfl | hs
              · exact ⟨allowed_iff.1 ha, hne, h3⟩
              · exact g2 s hs
          | throw => rw [ht] at h; cases h
          | ub => rw [ht] at h; cases h
        | throw => rw [hr] at h; cases h
        | ub => rw [hr] at h; cases h
      · cases h
    | _ => exact sections_ok rest n t h

end Asteria.Ini
