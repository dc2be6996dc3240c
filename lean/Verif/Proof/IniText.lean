import Verif.Spec.IniText
import Verif.Props.Ini

/-!
# Helper lemmas for the meaning of INI texts
-/

namespace Asteria.Ini

open Lexer (getlines)

/-! ### Spaces -/

theorem space_iff' {b : UInt8} : space b = true ↔ b = 0x20 ∨ b = 0x09 := by simp [space]

theorem Spaces.nil : Spaces [] := by intro b h; cases h

theorem Spaces.append {a b : Bytes} (ha : Spaces a) (hb : Spaces b) : Spaces (a ++ b) := by
  intro x hx
  rcases List.mem_append.mp hx with h | h
  · exact ha x h
  · exact hb x h

theorem dropWhile_space {a r : Bytes} (ha : Spaces a) (hr : ∀ x t, r = x :: t → x ≠ 0x20 ∧ x ≠ 0x09) :
    (a ++ r).dropWhile space = r := by
  induction a with
  | nil =>
    cases r with
    | nil => rfl
    | cons x t => rw [List.nil_append, List.dropWhile_cons_of_neg]; rw [space_iff.mpr (hr x t rfl)]; simp
  | cons y a ih =>
    rw [List.cons_append, List.dropWhile_cons_of_pos (space_iff'.mpr (ha y (.head _)))]
    exact ih fun b hb => ha b (.tail _ hb)

theorem space_split (s : Bytes) : ∃ a, s = a ++ s.dropWhile space ∧ Spaces a ∧
    ∀ x t, s.dropWhile space = x :: t → x ≠ 0x20 ∧ x ≠ 0x09 := by
  induction s with
  | nil => exact ⟨[], rfl, .nil, by simp⟩
  | cons y s ih =>
    by_cases hy : space y = true
    · obtain ⟨a, h1, h2, h3⟩ := ih
      rw [List.dropWhile_cons_of_pos hy]
      refine ⟨y :: a, by rw [List.cons_append, ← h1], ?_, h3⟩
      intro b hb
      rcases List.mem_cons.mp hb with rfl | hb
      · exact space_iff'.mp hy
      · exact h2 b hb
    · rw [List.dropWhile_cons_of_neg hy]
      refine ⟨[], rfl, .nil, ?_⟩
      intro x t e
      cases e
      exact space_iff.mp (by simpa using hy)

theorem Spaces.reverse {a : Bytes} (h : Spaces a) : Spaces a.reverse := fun b hb => h b (by simpa using hb)

theorem rtrim_space {b r : Bytes} (hb : Spaces b) (hr : ∀ t x, r = t ++ [x] → x ≠ 0x20 ∧ x ≠ 0x09) : rtrim (r ++ b) = r := by
  unfold rtrim
  rw [List.reverse_append, dropWhile_space hb.reverse, List.reverse_reverse]
  intro x t e
  apply hr t.reverse x
  have := congrArg List.reverse e
  simpa using this

theorem rtrim_split (s : Bytes) : ∃ b, s = rtrim s ++ b ∧ Spaces b ∧ ∀ t x, rtrim s = t ++ [x] → x ≠ 0x20 ∧ x ≠ 0x09 := by
  obtain ⟨a, h1, h2, h3⟩ := space_split s.reverse
  refine ⟨a.reverse, ?_, h2.reverse, ?_⟩
  · unfold rtrim
    have := congrArg List.reverse h1
    simpa using this
  · intro t x e
    apply h3 x t.reverse
    unfold rtrim at e
    have := congrArg List.reverse e
    simpa using this

/-! ### Comments -/

theorem comment_iff {b : UInt8} : comment b = true ↔ b = 0x3B ∨ b = 0x23 := by simp [comment]

theorem takeWhile_remark {x c : Bytes} (hx : NoRemark x) (hc : Remark c) : (x ++ c).takeWhile (fun b => !comment b) = x := by
  induction x with
  | nil =>
    rcases hc with rfl | ⟨t, rfl | rfl⟩
    · rfl
    · rw [List.nil_append, List.takeWhile_cons_of_neg (by decide)]
    · rw [List.nil_append, List.takeWhile_cons_of_neg (by decide)]
  | cons y x ih =>
    have hy : comment y = false := by
      cases h : comment y with
      | false => rfl
      | true => rcases comment_iff.mp h with rfl | rfl
                · exact absurd (.head _) hx.1
                · exact absurd (.head _) hx.2
    rw [List.cons_append, List.takeWhile_cons_of_pos (by simp [hy]), ih ⟨fun h => hx.1 (.tail _ h), fun h => hx.2 (.tail _ h)⟩]

theorem remark_split (s : Bytes) : ∃ c, s = s.takeWhile (fun b => !comment b) ++ c ∧
    NoRemark (s.takeWhile fun b => !comment b) ∧ Remark c := by
  induction s with
  | nil => exact ⟨[], rfl, ⟨by simp, by simp⟩, .inl rfl⟩
  | cons y s ih =>
    by_cases hy : comment y = true
    · rw [List.takeWhile_cons_of_neg (by simp [hy])]
      refine ⟨y :: s, rfl, ⟨by simp, by simp⟩, .inr ⟨s, ?_⟩⟩
      rcases comment_iff.mp hy with rfl | rfl
      · exact .inl rfl
      · exact .inr rfl
    · obtain ⟨c, h1, h2, h3⟩ := ih
      rw [List.takeWhile_cons_of_pos (by simpa using hy)]
      refine ⟨c, by rw [List.cons_append, ← h1], ⟨?_, ?_⟩, h3⟩
      · intro h
        rcases List.mem_cons.mp h with rfl | h
        · exact hy rfl
        · exact h2.1 h
      · intro h
        rcases List.mem_cons.mp h with rfl | h
        · exact hy rfl
        · exact h2.2 h

theorem NoRemark.append {a b : Bytes} (ha : NoRemark a) (hb : NoRemark b) : NoRemark (a ++ b) := by
  refine ⟨fun h => ?_, fun h => ?_⟩
  · rcases List.mem_append.mp h with h | h
    · exact ha.1 h
    · exact hb.1 h
  · rcases List.mem_append.mp h with h | h
    · exact ha.2 h
    · exact hb.2 h

theorem NoRemark.sub {a b : Bytes} (h : NoRemark b) (hs : ∀ x ∈ a, x ∈ b) : NoRemark a :=
  ⟨fun h' => h.1 (hs _ h'), fun h' => h.2 (hs _ h')⟩

theorem Spaces.noRemark {a : Bytes} (h : Spaces a) : NoRemark a := by
  refine ⟨fun h' => ?_, fun h' => ?_⟩
  · rcases h _ h' with h | h <;> cases h
  · rcases h _ h' with h | h <;> cases h

theorem noRemark_one {x : UInt8} (h : x ≠ 0x3B ∧ x ≠ 0x23) : NoRemark [x] :=
  ⟨by simpa using fun e => h.1 e.symm, by simpa using fun e => h.2 e.symm⟩

/-! ### One line -/

/-- The effect of an item. -/
def apply (st : St) : Item → Res St
  | .blank => .ok st
  | .sect n => st.enter n
  | .prop k v => .ok (st.put k v)

/-- What `doLine` does once the line has been taken apart. -/
theorem doLine_core (st : St) {l a r b c : Bytes} (hl : Csv.chop l = a ++ (r ++ (b ++ c))) (ha : Spaces a) (hr : Trimmed r)
    (hn : NoRemark r) (hb : Spaces b) (hc : Remark c) : doLine st l = item st r := by
  unfold doLine
  rw [hl, ← List.append_assoc, ← List.append_assoc, takeWhile_remark ((ha.noRemark.append hn).append hb.noRemark) hc]
  have h1 : (a ++ r ++ b).dropWhile space = r ++ b := by
    rw [List.append_assoc]
    refine dropWhile_space ha ?_
    intro x t e
    cases r with
    | nil => exact absurd rfl hr.1
    | cons y r => cases e; exact hr.2.1 _ _ rfl
  simp only [h1]
  split
  · rename_i he
    exact absurd (List.append_eq_nil_iff.mp he).1 hr.1
  · rw [rtrim_space hb hr.2.2]

theorem doLine_nothing (st : St) {l a c : Bytes} (hl : Csv.chop l = a ++ c) (ha : Spaces a) (hc : Remark c) :
    doLine st l = .ok st := by
  unfold doLine
  rw [hl, takeWhile_remark ha.noRemark hc]
  have h1 : a.dropWhile space = [] := by simpa using dropWhile_space (r := []) ha (by simp)
  simp only [h1]

theorem takeWhile_ne {k r : Bytes} (hk : (0x3D : UInt8) ∉ k) (hr : r = [] ∨ ∃ v, r = 0x3D :: v) :
    (k ++ r).takeWhile (· ≠ (0x3D : UInt8)) = k ∧ (k ++ r).dropWhile (· ≠ (0x3D : UInt8)) = r := by
  induction k with
  | nil => rcases hr with rfl | ⟨v, rfl⟩ <;> exact ⟨rfl, rfl⟩
  | cons y k ih =>
    have hy : y ≠ 0x3D := fun e => hk (e ▸ .head _)
    obtain ⟨h1, h2⟩ := ih fun h => hk (.tail _ h)
    rw [List.cons_append, List.takeWhile_cons_of_pos (by simpa using hy), List.dropWhile_cons_of_pos (by simpa using hy), h1, h2]
    exact ⟨rfl, rfl⟩

theorem Spaces.noEq {a : Bytes} (h : Spaces a) : (0x3D : UInt8) ∉ a := fun h' => by rcases h _ h' with h | h <;> cases h

theorem doLine_reads (st : St) {l : Bytes} {i : Item} (h : Reads (Csv.chop l) i) : doLine st l = apply st i := by
  generalize hm : Csv.chop l = m at h
  cases h with
  | blank ha hc => exact doLine_nothing st hm ha hc
  | @sect a n b c ha hn hr hb hc =>
    have ht : Trimmed (0x5B :: (n ++ [0x5D])) := by
      refine ⟨by simp, ?_, ?_⟩
      · intro x t e; cases e; decide
      · intro t x e
        rw [← List.cons_append] at e
        have := (List.append_inj' e rfl).2
        cases this; decide
    rw [doLine_core st (a := a) (r := 0x5B :: (n ++ [0x5D])) (b := b) (c := c) (by simp [hm]) ha ht
      (by
        refine NoRemark.append (a := [0x5B]) (noRemark_one (by decide)) (hr.append (noRemark_one (by decide)))) hb hc]
    unfold item
    rw [if_pos (show ((0x5B :: (n ++ [0x5D]) : Bytes)).head? = some 0x5B from rfl)]
    have h1 : ((0x5B :: (n ++ [0x5D]) : Bytes)).getLast? = some 0x5D := List.getLast?_concat (l := 0x5B :: n)
    rw [if_neg (by simp [h1])]
    have h2 : ¬ ((((0x5B :: (n ++ [0x5D]) : Bytes)).drop 1).dropWhile space).length = 1 := by
      simp only [List.drop_one, List.tail_cons]
      obtain ⟨a', e, hs, hx⟩ := space_split n
      cases hd : n.dropWhile space with
      | nil => rw [hd, List.append_nil] at e; exact absurd (e ▸ hs) hn
      | cons y q =>
        rw [hd] at e
        rw [e, List.append_assoc, dropWhile_space hs (by intro x t e'; cases e'; exact hx _ _ hd)]
        simp
    rw [if_neg h2]
    simp [apply]
  | @word a k b c ha hk hr he hh hb hc =>
    rw [doLine_core st hm ha hk hr hb hc]
    unfold item
    obtain ⟨h1, h2⟩ := takeWhile_ne he (.inl rfl)
    rw [List.append_nil] at h2
    rw [if_neg hh, h2]
    rfl
  | @pair a k s s' v b c ha hk hr he hh hs hs' hv hrv hb hc =>
    have hks : (0x3D : UInt8) ∉ k ++ s := by
      intro h
      rcases List.mem_append.mp h with h | h
      · exact he h
      · exact hs.noEq h
    have hkn : k ++ s ≠ [] := by
      intro h
      exact hk.1 (List.append_eq_nil_iff.mp h).1
    have hhead : ∀ q : Bytes, ((k ++ s) ++ q).head? ≠ some 0x5B := by
      intro q
      cases k with
      | nil => exact absurd rfl hk.1
      | cons x k => exact hh
    have key : ∀ w : Bytes, w.dropWhile space = v → item st ((k ++ s) ++ 0x3D :: w) = .ok (st.put k v) := by
      intro w hw
      unfold item
      obtain ⟨h1, h2⟩ := takeWhile_ne hks (.inr ⟨w, rfl⟩)
      rw [if_neg (hhead _), h2]
      simp only
      rw [h1, if_neg hkn, rtrim_space hs hk.2.2, if_neg hk.1, hw]
    have kt : ∀ x t, (k ++ s : Bytes) = x :: t → x ≠ 0x20 ∧ x ≠ 0x09 := by
      intro x t e
      cases k with
      | nil => exact absurd rfl hk.1
      | cons y k => cases e; exact hk.2.1 _ _ rfl
    have first : ∀ q x t, ((k ++ s) ++ q : Bytes) = x :: t → x ≠ 0x20 ∧ x ≠ 0x09 := by
      intro q x t e
      cases hks' : k ++ s with
      | nil => exact absurd hks' hkn
      | cons y z => rw [hks'] at e; cases e; exact kt _ _ hks'
    rcases hv with rfl | hv
    · rw [doLine_core st (a := a) (r := (k ++ s) ++ [0x3D]) (b := s' ++ b) (c := c) (by simp [hm]) ha ?_
        ((hr.append hs.noRemark).append (noRemark_one (by decide))) (hs'.append hb) hc, key [] rfl]
      · rfl
      · refine ⟨by simp, first _, ?_⟩
        intro t x e
        have := (List.append_inj' e rfl).2
        cases this; decide
    · rw [doLine_core st (a := a) (r := (k ++ s) ++ 0x3D :: (s' ++ v)) (b := b) (c := c) (by simp [hm]) ha ?_ ?_ hb hc,
        key (s' ++ v) (dropWhile_space hs' hv.2.1)]
      · rfl
      · refine ⟨by simp, first _, ?_⟩
        intro t x e
        rcases List.eq_nil_or_concat v with rfl | ⟨v', y, rfl⟩
        · exact absurd rfl hv.1
        · have h3 : (k ++ s ++ 0x3D :: (s' ++ v')) ++ [y] = t ++ [x] := by rw [← e]; simp
          have := (List.append_inj' h3 rfl).2
          cases this
          exact hv.2.2 v' _ (by simp)
      · exact (hr.append hs.noRemark).append (NoRemark.append (a := [0x3D]) (noRemark_one (by decide)) (hs'.noRemark.append hrv))

theorem doLine_not (st : St) {l : Bytes} (h : ∀ i, ¬ Reads (Csv.chop l) i) : doLine st l = .throw := by
  obtain ⟨c, e1, hn, hc⟩ := remark_split (Csv.chop l)
  generalize hB : (Csv.chop l).takeWhile (fun b => !comment b) = B at *
  obtain ⟨a, e2, ha, hx⟩ := space_split B
  generalize hs : B.dropWhile space = s at *
  obtain ⟨b, e3, hb, hy⟩ := rtrim_split s
  cases hs' : s with
  | nil =>
    subst hs'
    rw [List.append_nil] at e2
    exact absurd (by rw [e1, e2]; exact .blank ha hc) (h .blank)
  | cons x q =>
    have hr : Trimmed (rtrim s) := by
      have hne : rtrim s ≠ [] := by
        intro e
        rw [e, List.nil_append] at e3
        have h1 := hb x (by rw [← e3, hs']; exact .head _)
        have h2 := hx x q hs'
        rcases h1 with h1 | h1
        · exact h2.1 h1
        · exact h2.2 h1
      refine ⟨hne, ?_, hy⟩
      intro y t e
      have : s = y :: (t ++ b) := by rw [e3, e]; rfl
      exact hx _ _ this
    generalize hR : rtrim s = r at *
    have el : Csv.chop l = a ++ (r ++ (b ++ c)) := by rw [e1, e2, e3]; simp
    have hrn : NoRemark r := hn.sub fun z hz => by rw [e2, e3]; simp [hz]
    rw [doLine_core st el ha hr hrn hb hc]
    unfold item
    split
    · rename_i hh
      obtain ⟨n0, rfl⟩ : ∃ n0, r = 0x5B :: n0 := by
        cases r with
        | nil => cases hh
        | cons y n0 => simp at hh; exact ⟨n0, by rw [hh]⟩
      split
      · rfl
      · rename_i hl
        rw [not_not] at hl
        obtain ⟨n, rfl⟩ : ∃ n, n0 = n ++ [0x5D] := by
          rcases List.eq_nil_or_concat n0 with rfl | ⟨n, y, rfl⟩
          · cases hl
          · rw [List.concat_eq_append, ← List.cons_append, List.getLast?_append] at hl
            simp at hl
            exact ⟨n, by rw [hl]; simp⟩
        split
        · rfl
        · rename_i hsp
          refine absurd ?_ (h (.sect n))
          rw [el]
          have := Reads.sect (n := n) ha ?_ (hrn.sub fun z hz => by simp [hz]) hb hc
          · simpa using this
          · intro hsn
            apply hsp
            simp only [List.drop_one, List.tail_cons]
            rw [dropWhile_space hsn (by intro x t e; cases e; decide)]
            rfl
    · rename_i hh
      split
      · rename_i hd
        have he : (0x3D : UInt8) ∉ r := by
          intro hm
          rw [List.dropWhile_eq_nil_iff] at hd
          have := hd _ hm
          simp at this
        exact absurd (by rw [el]; exact .word ha hr hrn he hh hb hc) (h (.prop r []))
      · rename_i y v hd
        have ek : r = r.takeWhile (· ≠ (0x3D : UInt8)) ++ (y :: v) := by rw [← hd, List.takeWhile_append_dropWhile]
        have hy3 : y = 0x3D := by
          have := List.head?_dropWhile_not (p := (· ≠ (0x3D : UInt8))) r
          rw [hd] at this
          simpa using this
        subst hy3
        simp only
        generalize hk0 : r.takeWhile (· ≠ (0x3D : UInt8)) = k at *
        have hkn : (0x3D : UInt8) ∉ k := by
          intro hm
          rw [← hk0] at hm
          have := List.mem_takeWhile_imp hm
          simp at this
        split
        · rfl
        · rename_i hk1
          split
          · rfl
          · rename_i hk2
            obtain ⟨s2, f1, f2, f3⟩ := rtrim_split k
            obtain ⟨s1, g1, g2, g3⟩ := space_split v
            refine absurd ?_ (h (.prop (rtrim k) (v.dropWhile space)))
            generalize rtrim k = k' at *
            generalize v.dropWhile space = v' at *
            rw [el, ek, f1, g1]
            have hmem : ∀ z, z ∈ k' → z ∈ r := fun z hz => by rw [ek, f1]; simp [hz]
            have hmemv : ∀ z, z ∈ v' → z ∈ r := fun z hz => by rw [ek, g1]; simp [hz]
            have hkt : Trimmed k' := by
              refine ⟨hk2, ?_, f3⟩
              intro x t e
              refine hr.2.1 x (t ++ (s2 ++ 0x3D :: v)) ?_
              rw [ek, f1, e]; simp
            have := Reads.pair (s := s2) (s' := s1) (v := v') ha hkt (hrn.sub hmem) (fun hm => hkn (by rw [f1]; simp [hm])) ?_ f2 g2 ?_
              (hrn.sub hmemv) hb hc
            · simpa using this
            · cases k' with
              | nil => exact absurd rfl hk2
              | cons z k' =>
                intro e
                apply hh
                rw [ek, f1]
                exact e
            · by_cases hv : v' = []
              · exact .inl hv
              · refine .inr ⟨hv, g3, ?_⟩
                intro t x e
                refine hr.2.2 (k ++ 0x3D :: (s1 ++ t)) x ?_
                rw [ek, g1, e]; simp

/-! ### The items of a text -/

/-- The section at the end. -/
def curOf : Option Bytes → List Item → Option Bytes
  | cur, [] => cur
  | cur, .blank :: is => curOf cur is
  | _, .sect n :: is => curOf (some n) is
  | cur, .prop _ _ :: is => curOf cur is

/-- What an item adds to a section. -/
def adds (target cur : Option Bytes) : Item → List (Bytes × Bytes)
  | .prop k v => if cur = target then [(k, v)] else []
  | _ => []

theorem within_append (target : Option Bytes) (i : Item) : ∀ (is : List Item) (cur : Option Bytes),
    within target cur (is ++ [i]) = within target cur is ++ adds target (curOf cur is) i
  | [], cur => by
    cases i with
    | prop k v => by_cases h : cur = target <;> simp [within, adds, curOf, h]
    | _ => rfl
  | .blank :: is, cur => within_append target i is cur
  | .sect n :: is, cur => within_append target i is (some n)
  | .prop k v :: is, cur => by
    simp only [List.cons_append, within, curOf]
    split
    · rw [within_append target i is cur]; rfl
    · exact within_append target i is cur

theorem curOf_append (i : Item) : ∀ (is : List Item) (cur : Option Bytes), curOf cur (is ++ [i]) = curOf (curOf cur is) [i]
  | [], _ => rfl
  | .blank :: is, cur => curOf_append i is cur
  | .sect n :: is, cur => curOf_append i is (some n)
  | .prop k v :: is, cur => curOf_append i is cur

theorem curOf_none : ∀ (is : List Item) (cur : Option Bytes), curOf cur is = none → cur = none ∧ ∀ n, .sect n ∉ is
  | [], _, h => ⟨h, by simp⟩
  | .blank :: is, cur, h => by
    obtain ⟨h1, h2⟩ := curOf_none is cur h
    exact ⟨h1, fun n hn => h2 n (by simpa using hn)⟩
  | .sect n :: is, cur, h => by cases (curOf_none is _ h).1
  | .prop k v :: is, cur, h => by
    obtain ⟨h1, h2⟩ := curOf_none is cur h
    exact ⟨h1, fun n hn => h2 n (by simpa using hn)⟩

theorem curOf_some {m : Bytes} : ∀ (is : List Item) (cur : Option Bytes), curOf cur is = some m → cur = some m ∨ .sect m ∈ is
  | [], _, h => .inl h
  | .blank :: is, cur, h => (curOf_some is cur h).imp id (List.mem_cons_of_mem _)
  | .sect n :: is, cur, h => by
    rcases curOf_some is _ h with h | h
    · cases h; exact .inr (.head _)
    · exact .inr (.tail _ h)
  | .prop k v :: is, cur, h => (curOf_some is cur h).imp id (List.mem_cons_of_mem _)

theorem within_absent {n : Bytes} : ∀ (is : List Item) (cur : Option Bytes), cur ≠ some n → .sect n ∉ is → within (some n) cur is = []
  | [], _, _, _ => rfl
  | .blank :: is, cur, h, hn => within_absent is cur h fun h' => hn (.tail _ h')
  | .sect m :: is, cur, h, hn => within_absent is (some m) (fun e => by cases e; exact hn (.head _)) fun h' => hn (.tail _ h')
  | .prop k v :: is, cur, h, hn => by
    rw [within, if_neg h]
    exact within_absent is cur h fun h' => hn (.tail _ h')

theorem given_append {l : List (Bytes × Bytes)} {k v k' v' : Bytes} :
    Given (l ++ [(k, v)]) k' v' ↔ (k' = k ∧ v' = v) ∨ (k' ≠ k ∧ Given l k' v') := by
  constructor
  · rintro ⟨p, q, e, hq⟩
    rcases List.eq_nil_or_concat q with rfl | ⟨q, x, rfl⟩
    · have := (List.append_inj' e rfl).2
      cases this
      exact .inl ⟨rfl, rfl⟩
    · rw [List.concat_eq_append, ← List.cons_append, ← List.append_assoc] at e
      obtain ⟨e1, e2⟩ := List.append_inj' e rfl
      cases e2
      refine .inr ⟨?_, p, q, e1, fun w hw => hq w (by simp [hw])⟩
      rintro rfl
      exact hq v (by simp)
  · rintro (⟨rfl, rfl⟩ | ⟨hk, p, q, e, hq⟩)
    · exact ⟨l, [], rfl, by simp⟩
    · refine ⟨p, q ++ [(k, v)], by rw [e]; simp, ?_⟩
      intro w hw
      rcases List.mem_append.mp hw with h | h
      · exact hq w h
      · simp at h; exact hk h.1

theorem given_mem {l : List (Bytes × Bytes)} {k v : Bytes} (h : Given l k v) : (k, v) ∈ l := by
  obtain ⟨p, q, rfl, _⟩ := h
  simp

theorem mem_given {k : Bytes} : ∀ {l : List (Bytes × Bytes)} {v : Bytes}, (k, v) ∈ l → ∃ w, Given l k w
  | x :: l, v, h => by
    by_cases hl : ∃ w, (k, w) ∈ l
    · obtain ⟨w, hw⟩ := hl
      obtain ⟨w, p, q, e, hq⟩ := mem_given hw
      exact ⟨w, x :: p, q, by rw [e]; rfl, hq⟩
    · rcases List.mem_cons.mp h with h | h
      · exact ⟨v, [], l, by rw [h]; rfl, fun w hw => hl ⟨w, hw⟩⟩
      · exact absurd ⟨v, h⟩ hl

/-! ### Maps -/

theorem assign_keys {α : Type} (k : Bytes) (v : α) : ∀ (l : List (Bytes × α)) (x : Bytes),
    x ∈ (assign k v l).map (·.1) ↔ x = k ∨ x ∈ l.map (·.1)
  | [], x => by simp [assign]
  | y :: l, x => by
    rw [assign]
    split
    · rename_i h; simp [h]
    · rw [List.map_cons, List.mem_cons, assign_keys k v l x, List.map_cons, List.mem_cons]
      tauto

theorem assign_nodup {α : Type} (k : Bytes) (v : α) : ∀ (l : List (Bytes × α)), (l.map (·.1)).Nodup →
    ((assign k v l).map (·.1)).Nodup
  | [], _ => by simp [assign]
  | y :: l, h => by
    rw [List.map_cons, List.nodup_cons] at h
    rw [assign]
    split
    · rename_i e
      rw [List.map_cons, List.nodup_cons]
      exact ⟨e ▸ h.1, h.2⟩
    · rename_i e
      rw [List.map_cons, List.nodup_cons, assign_keys]
      exact ⟨fun h' => h'.elim e h.1, assign_nodup k v l h.2⟩

theorem assign_mem {α : Type} {k : Bytes} {v : α} {k' : Bytes} {v' : α} : ∀ {l : List (Bytes × α)}, (l.map (·.1)).Nodup →
    ((k', v') ∈ assign k v l ↔ (k' = k ∧ v' = v) ∨ (k' ≠ k ∧ (k', v') ∈ l))
  | [], _ => by simp [assign]
  | (k1, v1) :: l, h => by
    rw [List.map_cons, List.nodup_cons] at h
    have hm : (k', v') ∈ l → k' ∈ l.map (·.1) := fun h => List.mem_map.mpr ⟨_, h, rfl⟩
    rw [assign]
    split
    · rename_i e
      simp only at e
      subst e
      simp only [List.mem_cons, Prod.mk.injEq]
      constructor
      · rintro (h' | h')
        · exact .inl h'
        · exact .inr ⟨fun e => h.1 (e ▸ hm h'), .inr h'⟩
      · rintro (h' | ⟨h1, h' | h'⟩)
        · exact .inl h'
        · exact absurd h'.1 h1
        · exact .inr h'
    · rename_i e
      simp only at e
      simp only [List.mem_cons, assign_mem h.2, Prod.mk.injEq]
      constructor
      · rintro (h' | h' | h')
        · exact .inr ⟨fun e' => e (h'.1 ▸ e'), .inl h'⟩
        · exact .inl h'
        · exact .inr ⟨h'.1, .inr h'.2⟩
      · rintro (h' | ⟨h1, h' | h'⟩)
        · exact .inr (.inl h')
        · exact .inl h'
        · exact .inr (.inr ⟨h1, h'⟩)

theorem lookup_none' {α : Type} {k : Bytes} : ∀ {l : List (Bytes × α)}, l.lookup k = none → k ∉ l.map (·.1)
  | [], _ => by simp
  | (k1, v1) :: l, h => by
    rw [List.lookup_cons] at h
    split at h
    · cases h
    · rename_i e
      rw [List.map_cons, List.mem_cons, not_or]
      exact ⟨by simpa using e, lookup_none' h⟩

theorem lookup_some' {α : Type} {k : Bytes} {v : α} : ∀ {l : List (Bytes × α)}, l.lookup k = some v → (k, v) ∈ l
  | [], h => by cases h
  | (k1, v1) :: l, h => by
    rw [List.lookup_cons] at h
    split at h
    · rename_i e
      cases h
      rw [beq_iff_eq] at e
      rw [e]; exact .head _
    · exact .tail _ (lookup_some' h)

/-! ### One item -/

/-- The state after the items. -/
structure Inv (is : List Item) (st : St) : Prop where
  means : Means is st.root
  sink : st.sink = curOf none is

theorem inv_nil : Inv [] ⟨[], none⟩ :=
  ⟨⟨by simp, by simp [within, Given], by simp, by simp⟩, rfl⟩

theorem Means.congr {is js : List Item} {root : List (Bytes × Entry)} (h : Means is root)
    (hw : ∀ t, within t none js = within t none is) (hs : ∀ n, .sect n ∈ js ↔ .sect n ∈ is) : Means js root :=
  ⟨h.keys, fun k v => by rw [hw, h.texts], fun n => by rw [hs, h.sects], fun n l hl => by rw [hw]; exact h.inner n l hl⟩

theorem mem_put {st : St} {n k t : Bytes} {m : Bytes} {e : Entry} (h : st.sink = some n) :
    (m, e) ∈ (st.put k t).root ↔ (∃ v, e = .text v ∧ (m, .text v) ∈ st.root) ∨
      ∃ l, (m, .sect l) ∈ st.root ∧ e = .sect (if m = n then assign k t l else l) := by
  unfold St.put
  rw [h]
  simp only [List.mem_map, Prod.exists]
  constructor
  · rintro ⟨m', e', hm, he⟩
    cases e' with
    | text v => simp only [Prod.mk.injEq] at he; obtain ⟨rfl, rfl⟩ := he; exact .inl ⟨v, rfl, hm⟩
    | sect l =>
      simp only at he
      split at he
      · rename_i hmn
        cases he
        exact .inr ⟨l, hm, by rw [if_pos hmn]⟩
      · rename_i hmn
        cases he
        exact .inr ⟨l, hm, by rw [if_neg hmn]⟩
  · rintro (⟨v, rfl, hm⟩ | ⟨l, hm, rfl⟩)
    · exact ⟨m, .text v, hm, rfl⟩
    · refine ⟨m, .sect l, hm, ?_⟩
      simp only
      split
      · rfl
      · rfl

theorem put_keys {st : St} {n k t : Bytes} (h : st.sink = some n) : (st.put k t).root.map (·.1) = st.root.map (·.1) := by
  unfold St.put
  rw [h]
  simp only [List.map_map]
  apply List.map_congr_left
  rintro ⟨m, e⟩ _
  cases e with
  | text v => rfl
  | sect l =>
    simp only [Function.comp]
    split <;> rfl

theorem nodup_same {α : Type} {k : Bytes} {a b : α} {l : List (Bytes × α)} (h : (l.map (·.1)).Nodup) (ha : (k, a) ∈ l)
    (hb : (k, b) ∈ l) : a = b := by
  induction l with
  | nil => cases ha
  | cons x l ih =>
    rw [List.map_cons, List.nodup_cons] at h
    rcases List.mem_cons.mp ha with ea | ha' <;> rcases List.mem_cons.mp hb with eb | hb'
    · rw [← ea] at eb; cases eb; rfl
    · exact absurd (List.mem_map.mpr ⟨_, hb', by rw [← ea]⟩) h.1
    · exact absurd (List.mem_map.mpr ⟨_, ha', by rw [← eb]⟩) h.1
    · exact ih h.2 ha' hb'

theorem step_prop {is : List Item} {st : St} (h : Inv is st) (k v : Bytes) : Inv (is ++ [.prop k v]) (st.put k v) := by
  refine ⟨?_, by rw [put_sink, h.sink, curOf_append]; rfl⟩
  have hm := h.means
  have hw : ∀ t, within t none (is ++ [.prop k v]) =
      within t none is ++ if st.sink = t then [(k, v)] else [] := by
    intro t; rw [within_append, h.sink]; rfl
  have hsect : ∀ n, Item.sect n ∈ is ++ [.prop k v] ↔ Item.sect n ∈ is := by intro n; simp
  cases hs : st.sink with
  | none =>
    have hno := (curOf_none is none (by rw [← h.sink, hs])).2
    have hroot : (st.put k v).root = assign k (.text v) st.root := by unfold St.put; rw [hs]
    rw [hroot]
    have hns : ∀ n l, (n, Entry.sect l) ∉ assign k (.text v) st.root := by
      intro n l hn
      rw [assign_mem hm.keys] at hn
      rcases hn with ⟨_, e⟩ | ⟨_, hn⟩
      · cases e
      · exact hno n ((hm.sects n).mp ⟨l, hn⟩)
    refine ⟨assign_nodup _ _ _ hm.keys, ?_, ?_, fun n l hn => absurd hn (hns n l)⟩
    · intro k' v'
      rw [assign_mem hm.keys, hw, if_pos hs, given_append, hm.texts]
      simp
    · intro n
      rw [hsect]
      exact ⟨fun ⟨l, hl⟩ => absurd hl (hns n l), fun hn => absurd hn (hno n)⟩
  | some n0 =>
    refine ⟨by rw [put_keys hs]; exact hm.keys, ?_, ?_, ?_⟩
    · intro k' v'
      rw [mem_put hs, hw, if_neg (by rw [hs]; simp), List.append_nil, ← hm.texts]
      simp
    · intro n
      rw [hsect, ← hm.sects]
      constructor
      · rintro ⟨l, hl⟩
        rw [mem_put hs] at hl
        rcases hl with ⟨_, e, _⟩ | ⟨l, hl, _⟩
        · cases e
        · exact ⟨l, hl⟩
      · rintro ⟨l, hl⟩
        exact ⟨_, (mem_put hs).mpr (.inr ⟨l, hl, rfl⟩)⟩
    · intro n l hl
      rw [mem_put hs] at hl
      rcases hl with ⟨_, e, _⟩ | ⟨l, hl, e⟩
      · cases e
      · cases e
        obtain ⟨h1, h2⟩ := hm.inner n l hl
        rw [hw]
        by_cases hn : n = n0
        · subst hn
          rw [if_pos rfl, if_pos hs]
          refine ⟨assign_nodup _ _ _ h1, fun k' v' => ?_⟩
          rw [assign_mem h1, given_append, h2]
        · rw [if_neg hn, if_neg (by rw [hs]; simpa using fun e => hn e.symm), List.append_nil]
          exact ⟨h1, h2⟩

theorem step_sect {is : List Item} {st : St} (h : Inv is st) (n : Bytes) :
    (st.enter n = .ub ∧ ∃ v, (n, v) ∈ within none none is) ∨
      (∃ st', st.enter n = .ok st' ∧ Inv (is ++ [.sect n]) st') ∧ ∀ v, (n, v) ∉ within none none is := by
  have hm := h.means
  have hw : ∀ t, within t none (is ++ [.sect n]) = within t none is := by
    intro t; rw [within_append]; simp [adds]
  have hcur : curOf none (is ++ [.sect n]) = some n := by rw [curOf_append]; rfl
  have hfree : (∀ v, (n, .text v) ∉ st.root) → ∀ v, (n, v) ∉ within none none is := by
    intro h1 v hv
    obtain ⟨w, hw⟩ := mem_given hv
    exact h1 w ((hm.texts n w).mpr hw)
  unfold St.enter
  cases hl : st.root.lookup n with
  | none =>
    have hk := lookup_none' hl
    have habs : ∀ e, (n, e) ∉ st.root := fun e he => hk (List.mem_map.mpr ⟨_, he, rfl⟩)
    have hno : Item.sect n ∉ is := fun hn => by obtain ⟨l, hl⟩ := (hm.sects n).mpr hn; exact habs _ hl
    refine .inr ⟨⟨_, rfl, ⟨?_, hcur.symm⟩⟩, hfree fun v => habs _⟩
    refine ⟨?_, ?_, ?_, ?_⟩
    · simp only [List.map_append, List.map_cons, List.map_nil]
      rw [List.nodup_append]
      refine ⟨hm.keys, by simp, ?_⟩
      intro a ha b hb e
      simp at hb
      subst hb; subst e
      exact hk ha
    · intro k v
      simp only [List.mem_append, List.mem_singleton, Prod.mk.injEq, reduceCtorEq, and_false, or_false]
      rw [hw, hm.texts]
    · intro m
      simp only [List.mem_append, List.mem_singleton, Prod.mk.injEq, Item.sect.injEq, Entry.sect.injEq]
      rw [← hm.sects]
      constructor
      · rintro ⟨l, h' | h'⟩
        · exact .inl ⟨l, h'⟩
        · exact .inr h'.1
      · rintro (⟨l, h'⟩ | rfl)
        · exact ⟨l, .inl h'⟩
        · exact ⟨[], .inr ⟨rfl, rfl⟩⟩
    · intro m l hml
      simp only [List.mem_append, List.mem_singleton, Prod.mk.injEq, Entry.sect.injEq] at hml
      rw [hw]
      rcases hml with hml | ⟨rfl, rfl⟩
      · exact hm.inner m l hml
      · rw [within_absent is none (by simp) hno]
        exact ⟨by simp, by simp [Given]⟩
  | some e =>
    have hmem := lookup_some' hl
    cases e with
    | text v => exact .inl ⟨rfl, v, given_mem ((hm.texts n v).mp hmem)⟩
    | sect l =>
      have hin : Item.sect n ∈ is := (hm.sects n).mp ⟨l, hmem⟩
      refine .inr ⟨⟨_, rfl, ⟨?_, hcur.symm⟩⟩, hfree fun v hv => by cases nodup_same hm.keys hv hmem⟩
      refine hm.congr hw fun m => ?_
      simp only [List.mem_append, List.mem_singleton, Item.sect.injEq]
      exact ⟨fun h' => h'.elim id (· ▸ hin), .inl⟩

/-- One item. -/
theorem step {is : List Item} {st : St} (h : Inv is st) (hc : ¬ Collision is) (i : Item) :
    (apply st i = .ub ∧ Collision (is ++ [i])) ∨
      (∃ st', apply st i = .ok st' ∧ Inv (is ++ [i]) st') ∧ ¬ Collision (is ++ [i]) := by
  cases i with
  | blank =>
    have hw : ∀ t, within t none (is ++ [.blank]) = within t none is := by intro t; rw [within_append]; simp [adds]
    refine .inr ⟨⟨st, rfl, h.means.congr hw (by simp), by rw [h.sink, curOf_append]; rfl⟩, ?_⟩
    rintro ⟨n, v, h1, h2⟩
    rw [hw] at h2
    exact hc ⟨n, v, by simpa using h1, h2⟩
  | prop k v =>
    refine .inr ⟨⟨_, rfl, step_prop h k v⟩, ?_⟩
    rintro ⟨n, w, h1, h2⟩
    have h1 : Item.sect n ∈ is := by simpa using h1
    rw [within_append] at h2
    have hcur : curOf none is ≠ none := fun e => (curOf_none is none e).2 n h1
    simp only [adds, if_neg hcur, List.append_nil] at h2
    exact hc ⟨n, w, h1, h2⟩
  | sect n =>
    have hw : within none none (is ++ [.sect n]) = within none none is := by rw [within_append]; simp [adds]
    rcases step_sect h n with ⟨h1, v, hv⟩ | ⟨h1, h2⟩
    · exact .inl ⟨h1, n, v, by simp, by rw [hw]; exact hv⟩
    · refine .inr ⟨h1, ?_⟩
      rintro ⟨m, w, h3, h4⟩
      rw [hw] at h4
      rcases List.mem_append.mp h3 with h3 | h3
      · exact hc ⟨m, w, h3, h4⟩
      · simp at h3
        subst h3
        exact h2 w h4

/-! ### All lines -/

theorem within_mem {target : Option Bytes} {x : Bytes × Bytes} (js : List Item) : ∀ (is : List Item) (cur : Option Bytes),
    x ∈ within target cur is → x ∈ within target cur (is ++ js)
  | [], _, h => by cases h
  | .blank :: is, cur, h => within_mem js is cur h
  | .sect n :: is, _, h => within_mem js is (some n) h
  | .prop _ _ :: is, cur, h => by
    rw [List.cons_append]
    rw [within] at h ⊢
    split at h
    · rename_i e
      rw [if_pos e]
      rcases List.mem_cons.mp h with h | h
      · exact h ▸ .head _
      · exact .tail _ (within_mem js is cur h)
    · rename_i e
      rw [if_neg e]
      exact within_mem js is cur h

theorem collision_append {is : List Item} (h : Collision is) (js : List Item) : Collision (is ++ js) := by
  obtain ⟨n, v, h1, h2⟩ := h
  exact ⟨n, v, List.mem_append_left _ h1, within_mem js is none h2⟩

/-- The lines of a text, after those that have been read. -/
theorem lines_items {ls : List Bytes} {is : List Item} (h : List.Forall₂ (fun l i => Reads (Csv.chop l) i) ls is) :
    ∀ {pre : List Item} {st : St}, Inv pre st → ¬ Collision pre → ∀ rest,
      (lines st (ls ++ rest) = .ub ∧ Collision (pre ++ is)) ∨
        (∃ st', lines st (ls ++ rest) = lines st' rest ∧ Inv (pre ++ is) st') ∧ ¬ Collision (pre ++ is) := by
  induction h with
  | nil =>
    intro pre st hi hc rest
    rw [List.append_nil]
    exact .inr ⟨⟨st, rfl, hi⟩, hc⟩
  | @cons l i ls is hl _ ih =>
    intro pre st hi hc rest
    rw [List.cons_append, lines, doLine_reads st hl]
    rcases step hi hc i with ⟨h1, h2⟩ | ⟨⟨st', h1, h2⟩, h3⟩
    · refine .inl ⟨by rw [h1]; rfl, ?_⟩
      have := collision_append h2 is
      simpa using this
    · rw [h1]
      have := ih h2 h3 rest
      simpa using this

/-! ### Lines -/

theorem unended_iff {l m : Bytes} : Unended l m ↔ m = Csv.chop l := by
  constructor
  · intro h
    cases h with
    | cr => simp [Csv.chop]
    | plain _ h =>
      unfold Csv.chop
      rw [if_neg]
      intro hl
      obtain ⟨q, e⟩ := List.getLast?_eq_some_iff.mp hl
      exact h q e
  · rintro rfl
    unfold Csv.chop
    split
    · rename_i hl
      obtain ⟨q, e⟩ := List.getLast?_eq_some_iff.mp hl
      rw [e]
      simpa using Unended.cr q
    · rename_i hl
      refine .plain l ?_
      rintro q rfl
      simp at hl

theorem getlines_cur_append : ∀ (l cur t : Bytes), 0x0A ∉ l → getlines cur (l ++ t) = getlines (cur ++ l) t
  | [], cur, t, _ => by simp
  | c :: l, cur, t, h => by
    rw [List.cons_append, getlines, if_neg (by rintro rfl; exact h (.head _)), getlines_cur_append l _ t (fun h' => h (.tail _ h'))]
    simp

theorem lines_getlines {text : Bytes} {ls : List Bytes} (h : Lines text ls) : (getlines [] text).map Csv.chop = ls := by
  induction h with
  | nil => rfl
  | @last l m hne hn hu =>
    have := getlines_cur_append l [] [] hn
    rw [List.append_nil] at this
    rw [this, List.nil_append, getlines, if_neg hne, unended_iff.mp hu]
    rfl
  | @cons l m t ls hn hu _ ih =>
    rw [getlines_cur_append l [] _ hn, List.nil_append, getlines, if_pos rfl, List.map_cons, ih, unended_iff.mp hu]

theorem break_split : ∀ s : Bytes, 0x0A ∉ s ∨ ∃ l t, s = l ++ 0x0A :: t ∧ 0x0A ∉ l
  | [] => .inl (by simp)
  | c :: s => by
    by_cases hc : c = 0x0A
    · exact .inr ⟨[], s, by rw [hc]; rfl, by simp⟩
    · rcases break_split s with h | ⟨l, t, h1, h2⟩
      · refine .inl fun h' => ?_
        rcases List.mem_cons.mp h' with h' | h'
        · exact hc h'.symm
        · exact h h'
      · refine .inr ⟨c :: l, t, by rw [h1]; rfl, fun h' => ?_⟩
        rcases List.mem_cons.mp h' with h' | h'
        · exact hc h'.symm
        · exact h2 h'

theorem lines_total : ∀ (n : Nat) (text : Bytes), text.length < n → ∃ ls, Lines text ls
  | 0, _, h => absurd h (by omega)
  | n + 1, text, h => by
    rcases break_split text with h' | ⟨l, t, rfl, hl⟩
    · by_cases he : text = []
      · exact ⟨[], he ▸ .nil⟩
      · exact ⟨_, .last he h' (unended_iff.mpr rfl)⟩
    · obtain ⟨ls, hls⟩ := lines_total n t (by simp at h; omega)
      exact ⟨_, .cons hl (unended_iff.mpr rfl) hls⟩

end Asteria.Ini
