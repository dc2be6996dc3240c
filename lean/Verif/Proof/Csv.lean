import Verif.Model.Csv
import Verif.Proof.LexerReload

/-!
# Reading a CSV text
-/

namespace Asteria.Csv

open Lexer (getlines cQuote)

/-! ### Lines -/

theorem getlines_cur : ∀ (s cur : Bytes), s ≠ [] → ∃ l ls, getlines [] s = l :: ls ∧ getlines cur s = (cur ++ l) :: ls
  | [], _, h => absurd rfl h
  | c :: s, cur, _ => by
    by_cases hc : c = 10
    · exact ⟨[], getlines [] s, by simp [getlines, hc], by simp [getlines, hc]⟩
    · cases s with
      | nil => exact ⟨[c], [], by simp [getlines, hc], by simp [getlines, hc]⟩
      | cons d s =>
        obtain ⟨l, ls, h1, h2⟩ := getlines_cur (d :: s) [c] (by simp)
        obtain ⟨l', ls', h3, h4⟩ := getlines_cur (d :: s) (cur ++ [c]) (by simp)
        rw [h1] at h3
        cases h3
        refine ⟨c :: l, ls, ?_, ?_⟩
        · rw [getlines, if_neg hc]; exact h2
        · rw [getlines, if_neg hc, h4]; simp

theorem getlines_cons {c : UInt8} {s : Bytes} (hc : c ≠ 10) (hs : s ≠ []) :
    ∃ l ls, getlines [] s = l :: ls ∧ getlines [] (c :: s) = (c :: l) :: ls := by
  obtain ⟨l, ls, h1, h2⟩ := getlines_cur s [c] hs
  exact ⟨l, ls, h1, by rw [getlines, if_neg hc]; exact h2⟩

theorem getlines_nl (s : Bytes) : getlines [] (10 :: s) = [] :: getlines [] s := by simp [getlines]

theorem chop_cons {x : UInt8} {l : Bytes} (h : l ≠ [] ∨ x ≠ 13) : chop (x :: l) = x :: chop l := by
  cases l with
  | nil =>
    have hx : x ≠ 13 := by simpa using h
    simp [chop, hx]
  | cons y l =>
    unfold chop
    rw [List.getLast?_cons_cons]
    split
    · rw [List.dropLast_cons_of_ne_nil (by simp)]
    · rfl

theorem chop_nil : chop [] = [] := rfl

/-- What happens in the middle of a line, given the rest of the text. -/
def mid (st : St) (s : Bytes) : Res St :=
  match getlines [] s with
  | [] => .ok st
  | l :: ls => (loop ((chop l).length + 1) st (chop l)).bind fun st => lines st ls

/-! ### The loop -/

theorem loop_fuel : ∀ (n m : Nat) (st : St) (s : Bytes), s.length ≤ n → s.length ≤ m → loop n st s = loop m st s
  | n, m, st, [], _, _ => by cases n <;> cases m <;> simp [loop]
  | 0, _, _, _ :: _, h, _ => absurd h (by simp)
  | _, 0, _, _ :: _, _, h => absurd h (by simp)
  | n + 1, m + 1, st, b :: t, hn, hm => by
    simp only [List.length_cons] at hn hm
    rw [loop, loop]
    split
    · congr 1
      funext st
      split
      · exact loop_fuel n m _ _ (by omega) (by omega)
      · split
        · rfl
        · rename_i x r hr
          have := (List.dropWhile_suffix (fun x : UInt8 => decide (x ≠ 0x2C)) (l := b :: t)).length_le
          rw [hr] at this
          simp only [List.length_cons] at this
          congr 1
          funext st
          congr 1
          funext st
          exact loop_fuel n m _ _ (by omega) (by omega)
    · have := (List.dropWhile_suffix (fun x : UInt8 => decide (x ≠ 0x22)) (l := b :: t)).length_le
      split
      · rfl
      · rename_i x r hr
        rw [hr] at this
        simp only [List.length_cons] at this
        congr 1
        funext st
        exact loop_fuel n m _ _ (by omega) (by omega)
      · rename_i x r _ hr
        rw [hr] at this
        simp only [List.length_cons] at this
        congr 1
        funext st
        exact loop_fuel n m _ _ (by omega) (by omega)

/-- A character in quotation. -/
theorem loop_char {x y : UInt8} (hx : x ≠ 0x22) (n : Nat) (d : Bytes) (cs : List Bytes) (rs : List (List Bytes)) (a : Bool)
    (l : Bytes) : loop (n + 1) ⟨(d :: cs) :: rs, a, true⟩ (x :: y :: l) =
      loop (n + 1) ⟨((d ++ [x]) :: cs) :: rs, a, true⟩ (y :: l) := by
  rw [loop, loop]
  simp only [Bool.true_eq_false, if_false]
  rw [List.dropWhile_cons_of_pos (by simpa using hx), List.takeWhile_cons_of_pos (by simpa using hx)]
  split
  · simp [St.append]
  · simp [St.append]
  · simp [St.append]

/-- The quotation mark that is doubled. -/
theorem loop_double (n : Nat) (d : Bytes) (cs : List Bytes) (rs : List (List Bytes)) (a : Bool) (l : Bytes) :
    loop (n + 1) ⟨(d :: cs) :: rs, a, true⟩ (0x22 :: 0x22 :: l) = loop n ⟨((d ++ [0x22]) :: cs) :: rs, a, true⟩ l := by
  rw [loop]
  simp [St.append]

/-- The quotation mark at the end. -/
theorem loop_close (n : Nat) (d : Bytes) (cs : List Bytes) (rs : List (List Bytes)) (a : Bool) {l : Bytes}
    (hl : l.head? ≠ some 0x22) :
    loop (n + 1) ⟨(d :: cs) :: rs, a, true⟩ (0x22 :: l) = loop n ⟨(d :: cs) :: rs, false, false⟩ l := by
  rw [loop]
  simp only [Bool.true_eq_false, if_false]
  rw [List.dropWhile_cons_of_neg (by simp), List.takeWhile_cons_of_neg (by simp)]
  split
  · rename_i h; cases h
  · rename_i h; cases h; simp at hl
  · rename_i h; cases h; simp [St.append]

/-- The last character of a line in quotation. -/
theorem loop_eol {x : UInt8} (hx : x ≠ 0x22) (n : Nat) (d : Bytes) (cs : List Bytes) (rs : List (List Bytes)) (a : Bool) :
    loop (n + 1) ⟨(d :: cs) :: rs, a, true⟩ [x] = .ok ⟨((d ++ [x, 0x0A]) :: cs) :: rs, a, true⟩ := by
  rw [loop]
  simp only [Bool.true_eq_false, if_false]
  rw [List.dropWhile_cons_of_pos (by simpa using hx)]
  simp [St.append]

/-- The first cell. -/
theorem loop_first {s : Bytes} (hs : s ≠ []) (n : Nat) (rs : List (List Bytes)) (a : Bool) :
    loop (n + 1) ⟨[] :: rs, a, false⟩ s = loop (n + 1) ⟨[[]] :: rs, a, false⟩ s := by
  cases s with
  | nil => exact absurd rfl hs
  | cons b t =>
    rw [loop, loop]
    simp only [if_true]
    simp [St.first, St.newCell]

/-- The quotation mark at the start. -/
theorem loop_open (n : Nat) (d : Bytes) (cs : List Bytes) (rs : List (List Bytes)) (l : Bytes) :
    loop (n + 1) ⟨(d :: cs) :: rs, true, false⟩ (0x22 :: l) = loop n ⟨(d :: cs) :: rs, true, true⟩ l := by
  rw [loop]
  simp [St.first]

theorem noComma_drop : ∀ {c : Bytes}, 0x2C ∉ c → ∀ r : Bytes,
    (c ++ 0x2C :: r).dropWhile (· ≠ 0x2C) = 0x2C :: r ∧ (c ++ 0x2C :: r).takeWhile (· ≠ 0x2C) = c
  | [], _, r => by simp
  | x :: c, h, r => by
    have h1 : x ≠ 0x2C := fun e => h (by simp [e])
    have h2 : 0x2C ∉ c := fun e => h (by simp [e])
    have := noComma_drop h2 r
    rw [List.cons_append, List.dropWhile_cons_of_pos (by simpa using h1), List.takeWhile_cons_of_pos (by simpa using h1)]
    exact ⟨this.1, by rw [this.2]⟩

theorem noComma_end : ∀ {c : Bytes}, 0x2C ∉ c → c.dropWhile (· ≠ 0x2C) = []
  | [], _ => rfl
  | x :: c, h => by
    have h1 : x ≠ 0x2C := fun e => h (by simp [e])
    rw [List.dropWhile_cons_of_pos (by simpa using h1)]
    exact noComma_end fun e => h (by simp [e])

/-- Text up to a comma. -/
theorem loop_comma {c : Bytes} (hc : 0x2C ∉ c) (n : Nat) (d : Bytes) (cs : List Bytes) (rs : List (List Bytes)) (a : Bool)
    (ha : a = false ∨ c.head? ≠ some 0x22) (l : Bytes) :
    loop (n + 1) ⟨(d :: cs) :: rs, a, false⟩ (c ++ 0x2C :: l) = loop n ⟨([] :: (d ++ c) :: cs) :: rs, true, false⟩ l := by
  have hd := noComma_drop hc l
  obtain ⟨b, t, hb, hbt⟩ : ∃ b t, c ++ 0x2C :: l = b :: t ∧ (a = false ∨ b ≠ 0x22) := by
    cases c with
    | nil => exact ⟨_, _, rfl, .inr (by decide)⟩
    | cons b t => exact ⟨b, _, rfl, by simpa using ha⟩
  rw [hb] at hd ⊢
  rw [loop]
  simp only [if_true]
  simp only [St.first, Res.bind]
  have hn : ¬ (a = true ∧ b = 0x22) := by
    rintro ⟨h1, h2⟩
    rcases hbt with h | h
    · rw [h] at h1; cases h1
    · exact h h2
  rw [if_neg hn, hd.1, hd.2]
  simp [St.append, St.newCell]

/-- Text up to the end of the line. -/
theorem loop_end {c : Bytes} (hc : 0x2C ∉ c) (hne : c ≠ []) (n : Nat) (d : Bytes) (cs : List Bytes) (rs : List (List Bytes))
    (a : Bool) (ha : a = false ∨ c.head? ≠ some 0x22) :
    loop (n + 1) ⟨(d :: cs) :: rs, a, false⟩ c = .ok ⟨((d ++ c) :: cs) :: rs, true, false⟩ := by
  have hd := noComma_end hc
  cases c with
  | nil => exact absurd rfl hne
  | cons b t =>
    rw [loop]
    simp only [if_true]
    simp only [St.first, Res.bind]
    have hn : ¬ (a = true ∧ b = 0x22) := by
      rintro ⟨h1, h2⟩
      rcases ha with h | h
      · rw [h] at h1; cases h1
      · exact h (by simp [h2])
    rw [if_neg hn, hd]
    simp [St.append]

/-! ### The text -/

/-- A character at the beginning of the rest of the text is at the beginning of the rest of the line. -/
theorem mid_cons {x : UInt8} {s : Bytes} {st : St} (hx : x ≠ 10) (h : s ≠ []) (hx' : x ≠ 13 ∨ s.head? ≠ some 10) :
    ∃ l ls, getlines [] s = l :: ls ∧
      mid st (x :: s) = (loop ((chop l).length + 2) st (x :: chop l)).bind fun st => lines st ls := by
  obtain ⟨l, ls, h1, h2⟩ := getlines_cons hx h
  refine ⟨l, ls, h1, ?_⟩
  unfold mid
  rw [h2]
  simp only
  rw [chop_cons]
  · simp
  · rcases hx' with h' | h'
    · exact .inr h'
    · left
      rintro rfl
      cases s with
      | nil => exact h rfl
      | cons y t =>
        rw [getlines] at h1
        split at h1
        · rename_i hy; exact h' (by simp [hy])
        · obtain ⟨l', ls', _, h4⟩ : ∃ l ls, True ∧ getlines [y] t = (y :: l) :: ls := by
            cases t with
            | nil => exact ⟨[], [], trivial, by simp [getlines]⟩
            | cons z t =>
              obtain ⟨l, ls, _, h4⟩ := getlines_cur (z :: t) [y] (by simp)
              exact ⟨l, ls, trivial, h4⟩
          rw [List.nil_append] at h1
          rw [h4] at h1
          cases h1

theorem mid_eq {s : Bytes} {l : Bytes} {ls : List Bytes} (st : St) (h : getlines [] s = l :: ls) (n : Nat) (hn : (chop l).length ≤ n) :
    mid st s = (loop n st (chop l)).bind fun st => lines st ls := by
  unfold mid
  rw [h]
  simp only
  rw [loop_fuel _ n st _ (by omega) hn]

theorem head_chop {s l : Bytes} {ls : List Bytes} (h : getlines [] s = l :: ls) (c : UInt8)
    (h' : s.head? ≠ some c) : (chop l).head? ≠ some c := by
  intro e
  have hl : l.head? = some c := by
    unfold chop at e
    split at e
    · cases l with
      | nil => simp at e
      | cons y l =>
        cases l with
        | nil => simp at e
        | cons z l => rw [List.dropLast_cons_of_ne_nil (by simp)] at e; simpa using e
    · exact e
  cases s with
  | nil => simp [getlines] at h
  | cons y t =>
    have hy : y ≠ c := by simpa using h'
    rw [getlines] at h
    split at h
    · cases h; simp at hl
    · cases t with
      | nil => simp [getlines] at h; rw [← h.1] at hl; simp at hl; exact hy hl
      | cons z t =>
        obtain ⟨l', ls', _, h4⟩ := getlines_cur (z :: t) [y] (by simp)
        rw [List.nil_append] at h
        rw [h4] at h
        cases h
        simp at hl
        exact hy hl

/-- No line break in the text of a cell follows a line break, a carriage return, a quotation mark or the beginning. -/
def Adj : Bytes → Prop
  | x :: y :: s => (y = 10 → x ≠ 10 ∧ x ≠ 13 ∧ x ≠ 0x22) ∧ Adj (y :: s)
  | _ => True

theorem Adj.tail {x : UInt8} {s : Bytes} (h : Adj (x :: s)) : Adj s := by
  cases s with
  | nil => trivial
  | cons y s => exact h.2

theorem double_head (c : Bytes) (s : Bytes) : (double c ++ 0x22 :: s).head? = (c.head?.getD 0x22 : UInt8) := by
  cases c with
  | nil => rfl
  | cons x c =>
    rw [double]
    split
    · rename_i h; simp [h]
    · simp

theorem lines_quoted {s : Bytes} (hs : s ≠ []) (rows : List (List Bytes)) (a : Bool) :
    lines ⟨rows, a, true⟩ (getlines [] s) = mid ⟨rows, a, true⟩ s := by
  unfold mid
  obtain ⟨l, ls, h, _⟩ := getlines_cur s [] hs
  rw [h]
  rfl

/-- Text in quotation is appended to the cell. -/
theorem mid_quoted (s : Bytes) (hs : s.head? ≠ some 0x22) (hs' : s ≠ []) (cs : List Bytes) (rs : List (List Bytes)) (a : Bool) :
    ∀ (k : Nat) (c d : Bytes), c.length ≤ k → Adj c → c.head? ≠ some 10 →
    mid ⟨(d :: cs) :: rs, a, true⟩ (double c ++ 0x22 :: s) = mid ⟨((d ++ c) :: cs) :: rs, false, false⟩ s := by
  intro k
  induction k with
  | zero =>
    intro c d hk _ _
    have : c = [] := by simpa using hk
    subst this
    obtain ⟨l, ls, h1, h2⟩ := mid_cons (x := 0x22) (st := ⟨(d :: cs) :: rs, a, true⟩) (by decide) hs' (.inl (by decide))
    rw [double, List.nil_append, h2, loop_close _ _ _ _ _ (head_chop h1 0x22 hs), List.append_nil, mid_eq _ h1]
    omega
  | succ k ih =>
    intro c d hk ha hh
    match c, hk, ha, hh with
    | [], _, _, _ => exact ih [] d (by simp) trivial (by simp)
    | x :: c, hk, ha, hh =>
      have hx : x ≠ 10 := by simpa using hh
      have hc : c.length ≤ k := by simpa using hk
      have hne : double c ++ 0x22 :: s ≠ [] := by simp
      by_cases hq : x = 0x22
      · subst hq
        have hc10 : c.head? ≠ some 10 := by
          cases c with
          | nil => simp
          | cons y c => intro e; simp at e; exact (ha.1 e).2.2 rfl
        rw [double, if_pos rfl, List.cons_append, List.cons_append]
        obtain ⟨l, ls, h1, h2⟩ := mid_cons (x := 0x22) (s := 0x22 :: (double c ++ 0x22 :: s)) (st := ⟨(d :: cs) :: rs, a, true⟩)
          (by decide) (by simp) (.inl (by decide))
        obtain ⟨l', ls', h3, h4⟩ := getlines_cons (c := 0x22) (by decide) hne
        rw [h4] at h1
        cases h1
        rw [h2, chop_cons (.inr (by decide)), loop_double]
        have := ih c (d ++ [0x22]) hc ha.tail hc10
        rw [List.append_assoc, List.singleton_append] at this
        rw [← this, mid_eq _ h3]
        simp; omega
      · rw [double, if_neg hq, List.cons_append]
        by_cases hn : c.head? = some 10
        · cases c with
          | nil => simp at hn
          | cons y c =>
            simp at hn
            subst hn
            have hx13 : x ≠ 13 := (ha.1 rfl).2.1
            have hc10 : c.head? ≠ some 10 := by
              cases c with
              | nil => simp
              | cons z c => intro e; simp at e; exact (ha.tail.1 e).1 rfl
            rw [double, if_neg (by decide), List.cons_append]
            unfold mid
            have h1 : getlines [] (x :: 10 :: (double c ++ 0x22 :: s)) = [x] :: getlines [] (double c ++ 0x22 :: s) := by
              simp [getlines, hx]
            rw [h1]
            simp only
            rw [chop_cons (.inr hx13), chop_nil, loop_eol hq]
            simp only [Res.bind]
            rw [lines_quoted (by simp)]
            have := ih c (d ++ [x, 10]) (by simp at hc; omega) ha.tail.tail hc10
            rw [this]
            unfold mid
            simp
        · have h13 : x ≠ 13 ∨ (double c ++ 0x22 :: s).head? ≠ some 10 := by
            right
            rw [double_head]
            cases c with
            | nil => simp
            | cons y c => simpa using hn
          obtain ⟨l, ls, h1, h2⟩ := mid_cons (x := x) (st := ⟨(d :: cs) :: rs, a, true⟩) hx hne h13
          rw [h2]
          have hl : chop l ≠ [] := by
            -- the rest of the line does not consist of a carriage return
            cases c with
            | nil =>
              obtain ⟨l', ls', h3, h4⟩ := getlines_cons (c := 0x22) (s := s) (by decide) hs'
              rw [double, List.nil_append, h4] at h1
              cases h1
              rw [chop_cons (.inr (by decide))]
              simp
            | cons y c =>
              have hy : y ≠ 10 := by simpa using hn
              have key : ∀ (z : UInt8) (w : Bytes), z ≠ 10 → w ≠ [] → (z ≠ 13 ∨ w.head? ≠ some 10) →
                  getlines [] (z :: w) = l :: ls → chop l ≠ [] := by
                intro z w hz hw hz' hg
                obtain ⟨l', ls', h3, h4⟩ := getlines_cons (c := z) hz hw
                rw [hg] at h4
                cases h4
                rw [chop_cons]
                · simp
                · rcases hz' with h | h
                  · exact .inr h
                  · left
                    rintro rfl
                    cases w with
                    | nil => exact hw rfl
                    | cons u w =>
                      have hu : u ≠ 10 := by simpa using h
                      cases w with
                      | nil => simp [getlines, hu] at h3
                      | cons v w =>
                        obtain ⟨_, _, _, h6⟩ := getlines_cons (c := u) (s := v :: w) hu (by simp)
                        rw [h3] at h6
                        cases h6
              rw [double] at h1
              split at h1
              · exact key 0x22 _ (by decide) (by simp) (.inl (by decide)) h1
              · rename_i hy22
                refine key y _ hy (by simp) ?_ h1
                by_cases hy13 : y = 13
                · right
                  change (double c ++ 0x22 :: s).head? ≠ some 10
                  rw [double_head]
                  cases c with
                  | nil => simp
                  | cons z c =>
                    intro e
                    simp at e
                    exact (ha.2.1 e).2.1 hy13
                · exact .inl hy13
          have := ih c (d ++ [x]) hc ha.tail hn
          rw [List.append_assoc, List.singleton_append] at this
          rw [← this, mid_eq _ h1 ((chop l).length + 2) (by omega)]
          cases hch : chop l with
          | nil => exact absurd hch hl
          | cons y t => rw [loop_char hq]

/-! ### Rows -/

/-- A cell: whether it is in quotation, and its text. -/
abbrev Piece := Bool × Bytes

/-- How it is written. -/
def Piece.text (p : Piece) : Bytes := if p.1 then 0x22 :: (double p.2 ++ [0x22]) else p.2

/-- Text that needs no quotation. -/
def Clean (t : Bytes) : Prop := ∀ b ∈ t, 0x20 ≤ b.toNat ∧ b.toNat ≤ 0x7E ∧ b ≠ 0x2C ∧ b ≠ 0x22

def Piece.Ok (p : Piece) : Prop := if p.1 then Adj p.2 ∧ p.2.head? ≠ some 10 else Clean p.2

theorem Clean.ne {t : Bytes} (h : Clean t) {c : UInt8} (hc : c.toNat < 0x20 ∨ 0x7E < c.toNat ∨ c = 0x2C ∨ c = 0x22) : c ∉ t := by
  intro hm
  have := h c hm
  rcases hc with h' | h' | h' | h'
  · omega
  · omega
  · exact this.2.2.1 h'
  · exact this.2.2.2 h'

theorem getlines_append {c s : Bytes} (hc : 10 ∉ c) (hs : s ≠ []) :
    ∃ l ls, getlines [] s = l :: ls ∧ getlines [] (c ++ s) = (c ++ l) :: ls := by
  induction c with
  | nil =>
    obtain ⟨l, ls, h, _⟩ := getlines_cur s [] hs
    exact ⟨l, ls, h, by simpa using h⟩
  | cons x c ih =>
    obtain ⟨l, ls, h1, h2⟩ := ih fun h => hc (by simp [h])
    obtain ⟨l', ls', h3, h4⟩ := getlines_cons (c := x) (s := c ++ s) (fun h => hc (by simp [h])) (by simp [hs])
    rw [h2] at h3
    cases h3
    exact ⟨l, ls, h1, h4⟩

theorem chop_append (c : Bytes) (x : UInt8) (hx : x ≠ 13) (l : Bytes) : chop (c ++ x :: l) = c ++ x :: chop l := by
  induction c with
  | nil => exact chop_cons (.inr hx)
  | cons y c ih => rw [List.cons_append, chop_cons (.inl (by simp)), ih, List.cons_append]

theorem chop_cr (c : Bytes) : chop (c ++ [13]) = c := by
  unfold chop
  simp

/-- Text up to a comma, from the middle of a line. -/
theorem mid_comma {c s : Bytes} (hc : 0x2C ∉ c) (hc' : 10 ∉ c) (hs : s ≠ []) (d : Bytes) (cs : List Bytes)
    (rs : List (List Bytes)) (a : Bool) (ha : a = false ∨ c.head? ≠ some 0x22) :
    mid ⟨(d :: cs) :: rs, a, false⟩ (c ++ 0x2C :: s) = mid ⟨([] :: (d ++ c) :: cs) :: rs, true, false⟩ s := by
  obtain ⟨l, ls, h1, h2⟩ := getlines_append (c := c ++ [0x2C]) (s := s) (by simp [hc']) hs
  rw [List.append_assoc, List.append_assoc, List.singleton_append, List.singleton_append] at h2
  rw [mid_eq _ h1 _ (Nat.le_refl _), mid_eq _ h2 ((c ++ 0x2C :: chop l).length + 1) (by rw [chop_append _ _ (by decide)]; omega),
    chop_append _ _ (by decide), loop_comma hc _ _ _ _ _ ha]
  rw [loop_fuel _ (chop l).length _ _ (by simp; omega) (Nat.le_refl _)]

/-- A quotation mark at the beginning of a cell. -/
theorem mid_open {s : Bytes} (hs : s ≠ []) (d : Bytes) (cs : List Bytes) (rs : List (List Bytes)) :
    mid ⟨(d :: cs) :: rs, true, false⟩ (0x22 :: s) = mid ⟨(d :: cs) :: rs, true, true⟩ s := by
  obtain ⟨l, ls, h1, h2⟩ := mid_cons (x := 0x22) (st := ⟨(d :: cs) :: rs, true, false⟩) (by decide) hs (.inl (by decide))
  rw [h2, loop_open, mid_eq _ h1]
  omega

theorem piece_comma {p : Piece} (hp : p.Ok) {s : Bytes} (hs : s ≠ []) (cs : List Bytes) (rs : List (List Bytes)) (a : Bool)
    (ha : p.1 = true → a = true) :
    mid ⟨([] :: cs) :: rs, a, false⟩ (p.text ++ 0x2C :: s) = mid ⟨([] :: p.2 :: cs) :: rs, true, false⟩ s := by
  obtain ⟨q, t⟩ := p
  cases q with
  | true =>
    have ht : Adj t ∧ t.head? ≠ some 10 := hp
    rw [ha rfl]
    simp only [Piece.text, if_true, List.cons_append, List.append_assoc, List.nil_append]
    rw [mid_open (by simp), mid_quoted _ (by simp) (by simp) cs rs true t.length t [] (Nat.le_refl _) ht.1 ht.2]
    have := mid_comma (c := []) (by simp) (by simp) hs t cs rs false (.inl rfl)
    simpa using this
  | false =>
    have ht : Clean t := hp
    have := mid_comma (ht.ne (c := 0x2C) (by simp)) (ht.ne (c := 10) (by decide)) hs [] cs rs a
      (.inr fun e => ht.ne (c := 0x22) (by simp) (List.mem_of_mem_head? e))
    simpa [Piece.text] using this

theorem mid_eol (st : St) (s : Bytes) : mid st (13 :: 10 :: s) = lines st (getlines [] s) := by
  unfold mid
  have : getlines [] (13 :: 10 :: s) = [13] :: getlines [] s := by simp [getlines]
  rw [this]
  simp only
  rw [show chop [13] = [] by decide, loop]
  rfl

theorem piece_end {p : Piece} (hp : p.Ok) (s : Bytes) (cs : List Bytes) (rs : List (List Bytes)) (a : Bool)
    (ha : p.1 = true → a = true) (hb : p.2 = [] → a = true) :
    mid ⟨([] :: cs) :: rs, a, false⟩ (p.text ++ 13 :: 10 :: s) = lines ⟨(p.2 :: cs) :: rs, !p.1, false⟩ (getlines [] s) := by
  obtain ⟨q, t⟩ := p
  cases q with
  | true =>
    have ht : Adj t ∧ t.head? ≠ some 10 := hp
    rw [ha rfl]
    simp only [Piece.text, if_true, List.cons_append, List.append_assoc, List.nil_append]
    rw [mid_open (by simp), mid_quoted _ (by simp) (by simp) cs rs true t.length t [] (Nat.le_refl _) ht.1 ht.2, mid_eol]
    simp
  | false =>
    have ht : Clean t := hp
    simp only [Piece.text, Bool.false_eq_true, if_false, Bool.not_false]
    cases t with
    | nil => rw [List.nil_append, mid_eol, hb rfl]
    | cons x t =>
      have hx := ht x (by simp)
      have h1 : getlines [] ((x :: t) ++ 13 :: 10 :: s) = ((x :: t) ++ [13]) :: getlines [] s := by
        obtain ⟨l, ls, h1, h2⟩ := getlines_append (s := 13 :: 10 :: s) (ht.ne (c := 10) (by decide)) (by simp)
        rw [h2]
        simp [getlines] at h1
        rw [← h1.1, ← h1.2]
      rw [mid_eq _ h1 _ (Nat.le_succ _), chop_cr, loop_end (ht.ne (c := 0x2C) (by simp)) (by simp) _ _ _ _ _
        (.inr fun e => ht.ne (c := 0x22) (by simp) (List.mem_of_mem_head? e))]
      simp

/-- A row as it is written. -/
def join : List Piece → Bytes
  | [] => []
  | [p] => p.text
  | p :: q :: ps => p.text ++ 0x2C :: join (q :: ps)

/-- Whether the row ends in quotation. -/
def lastQuoted : List Piece → Bool
  | [] => false
  | [p] => p.1
  | _ :: q :: ps => lastQuoted (q :: ps)

theorem row_mid (s : Bytes) (rs : List (List Bytes)) : ∀ (ps : List Piece) (p : Piece) (cs : List Bytes) (a : Bool),
    (∀ p' ∈ p :: ps, p'.Ok) → (p.1 = true → a = true) → (ps = [] → p.2 = [] → a = true) →
    mid ⟨([] :: cs) :: rs, a, false⟩ (join (p :: ps) ++ 13 :: 10 :: s) =
      lines ⟨(((p :: ps).map (·.2)).reverse ++ cs) :: rs, !lastQuoted (p :: ps), false⟩ (getlines [] s)
  | [], p, cs, a, h, ha, hb => by
    rw [join, lastQuoted, piece_end (h p (by simp)) s cs rs a ha (hb rfl)]
    simp
  | q :: ps, p, cs, a, h, ha, _ => by
    rw [join, lastQuoted, List.append_assoc, List.cons_append, piece_comma (h p (by simp)) (by simp) cs rs a ha,
      row_mid s rs ps q (p.2 :: cs) true (fun p' hp => h p' (List.mem_cons_of_mem _ hp)) (by simp) (by simp)]
    simp

/-- The text of a row does not begin with a line break. -/
theorem join_head {p : Piece} {ps : List Piece} (h : ∀ p' ∈ p :: ps, p'.Ok) (hn : ps = [] → p.1 = false → p.2 ≠ []) :
    ∃ x r, join (p :: ps) = x :: r ∧ 0x20 ≤ x.toNat ∧ x.toNat ≤ 0x7E := by
  obtain ⟨q, t⟩ := p
  have hp := h _ (List.mem_cons_self ..)
  cases q with
  | true =>
    cases ps with
    | nil => exact ⟨0x22, _, rfl, by decide⟩
    | cons q ps => exact ⟨0x22, _, rfl, by decide⟩
  | false =>
    have ht : Clean t := hp
    cases t with
    | nil =>
      cases ps with
      | nil => exact absurd rfl (hn rfl rfl)
      | cons q ps => exact ⟨0x2C, _, rfl, by decide⟩
    | cons x t =>
      have := ht x (by simp)
      cases ps with
      | nil => exact ⟨x, t, rfl, this.1, this.2.1⟩
      | cons q ps => exact ⟨x, _, rfl, this.1, this.2.1⟩

theorem lines_start {s : Bytes} (hs : s ≠ []) (rs : List (List Bytes)) (a : Bool) :
    lines ⟨rs, a, false⟩ (getlines [] s) = mid ⟨[] :: rs, a, false⟩ s := by
  unfold mid
  obtain ⟨l, ls, h, _⟩ := getlines_cur s [] hs
  rw [h]
  rfl

theorem ne_of_range {x c : UInt8} (h : 0x20 ≤ x.toNat ∧ x.toNat ≤ 0x7E) (hc : c.toNat < 0x20 ∨ 0x7E < c.toNat) : x ≠ c := by
  rintro rfl; omega

theorem mid_first {x : UInt8} (hx : 0x20 ≤ x.toNat ∧ x.toNat ≤ 0x7E) {s : Bytes} (hs : s ≠ []) (rs : List (List Bytes)) (a : Bool) :
    mid ⟨[] :: rs, a, false⟩ (x :: s) = mid ⟨[[]] :: rs, a, false⟩ (x :: s) := by
  have h10 : x ≠ 10 := ne_of_range hx (by decide)
  have h13 : x ≠ 13 := ne_of_range hx (by decide)
  obtain ⟨l, ls, h1, h2⟩ := mid_cons (x := x) (st := ⟨[] :: rs, a, false⟩) h10 hs (.inl h13)
  obtain ⟨l', ls', h3, h4⟩ := mid_cons (x := x) (st := ⟨[[]] :: rs, a, false⟩) h10 hs (.inl h13)
  rw [h1] at h3
  cases h3
  rw [h2, h4, loop_first (by simp)]

/-- The text of a table. -/
def tableText : List (List Piece) → Bytes
  | [] => []
  | r :: rs => join r ++ 13 :: 10 :: tableText rs

/-- No row that begins in quotation comes after a row that ends in quotation, except for empty rows. -/
def Fits : Bool → List (List Piece) → Prop
  | _, [] => True
  | a, [] :: rs => Fits a rs
  | a, (p :: ps) :: rs => (p.1 = true → a = true) ∧ Fits (!lastQuoted (p :: ps)) rs

theorem table_lines : ∀ (rows : List (List Piece)) (rs : List (List Bytes)) (a : Bool),
    (∀ r ∈ rows, ∀ p ∈ r, p.Ok) → (∀ r ∈ rows, r ≠ [(false, [])]) → Fits a rows →
    ∃ a', lines ⟨rs, a, false⟩ (getlines [] (tableText rows)) =
      .ok ⟨(rows.map fun r => (r.map (·.2)).reverse).reverse ++ rs, a', false⟩
  | [], rs, a, _, _, _ => ⟨a, rfl⟩
  | [] :: rows, rs, a, hp, hn, hf => by
    rw [tableText, join, List.nil_append, lines_start (by simp), mid_eol]
    obtain ⟨a', h⟩ := table_lines rows ([] :: rs) a (fun r hr => hp r (by simp [hr])) (fun r hr => hn r (by simp [hr])) hf
    exact ⟨a', by rw [h]; simp⟩
  | (p :: ps) :: rows, rs, a, hp, hn, hf => by
    have hok := hp (p :: ps) (by simp)
    have hne : ps = [] → p.1 = false → p.2 ≠ [] := by
      intro h1 h2 h3
      apply hn (p :: ps) (by simp)
      rw [h1, ← h2, ← h3]
    obtain ⟨x, r, hx, hr⟩ := join_head hok hne
    have h1 : join (p :: ps) ++ 13 :: 10 :: tableText rows = x :: (r ++ 13 :: 10 :: tableText rows) := by rw [hx]; rfl
    rw [tableText, lines_start (by simp), h1, mid_first hr (by simp), ← h1, row_mid _ _ ps p [] a hok hf.1]
    · obtain ⟨a', h⟩ := table_lines rows _ (!lastQuoted (p :: ps)) (fun r hr => hp r (by simp [hr]))
        (fun r hr => hn r (by simp [hr])) hf.2
      exact ⟨a', by rw [h]; simp⟩
    · intro h2 h3
      cases hq : p.1 with
      | true => exact hf.1 hq
      | false => exact absurd h3 (hne h2 hq)

theorem dropBom_id {s : Bytes} (h : s.head? ≠ some 0xEF) : dropBom (getlines [] s) = getlines [] s := by
  cases s with
  | nil => rfl
  | cons x s =>
    have hx : x ≠ 0xEF := by simpa using h
    obtain ⟨l, ls, h1, _⟩ := getlines_cur (x :: s) [] (by simp)
    rw [h1, dropBom, if_neg]
    intro hb
    have hl : l.head? = some 0xEF := by
      cases l with
      | nil => simp [bom] at hb
      | cons y l => simp [bom] at hb; simp [hb.1]
    rw [getlines] at h1
    split at h1
    · cases h1; simp at hl
    · cases s with
      | nil => simp [getlines] at h1; rw [← h1.1] at hl; simp at hl; exact hx hl
      | cons z s =>
        obtain ⟨_, _, _, h4⟩ := getlines_cur (z :: s) ([] ++ [x]) (by simp)
        rw [h4] at h1
        cases h1
        simp at hl
        exact hx hl

/-- Reading a table. -/
theorem parse_table (rows : List (List Piece)) (hp : ∀ r ∈ rows, ∀ p ∈ r, p.Ok) (hn : ∀ r ∈ rows, r ≠ [(false, [])])
    (hf : Fits true rows) : parse (tableText rows) = .ok (rows.map (·.map (·.2))) := by
  have hb : (tableText rows).head? ≠ some 0xEF := by
    cases rows with
    | nil => simp [tableText]
    | cons r rows =>
      cases r with
      | nil => simp [tableText, join]
      | cons p ps =>
        have hne : ps = [] → p.1 = false → p.2 ≠ [] := by
          intro h1 h2 h3
          apply hn (p :: ps) (by simp)
          rw [h1, ← h2, ← h3]
        obtain ⟨x, r, hx, hr⟩ := join_head (hp (p :: ps) (by simp)) hne
        rw [tableText, hx]
        simpa using ne_of_range hr (by decide)
  unfold parse
  obtain ⟨a', h⟩ := table_lines rows [] true hp hn hf
  rw [dropBom_id hb, h]
  simp [List.map_map, Function.comp_def]

/-! ### The loop never fails -/

/-- There is a cell to append to. -/
def St.Ok (st : St) : Prop := st.quoted = true → ∃ c cs rs, st.rows = (c :: cs) :: rs

theorem loop_safe : ∀ (n : Nat) (st : St) (s : Bytes), s.length ≤ n → st.Ok → st.rows ≠ [] →
    ∃ st', loop n st s = .ok st' ∧ st'.Ok ∧ st'.rows ≠ []
  | n, st, [], _, h, h' => ⟨st, by cases n <;> simp [loop], h, h'⟩
  | 0, _, _ :: _, h, _, _ => absurd h (by simp)
  | n + 1, st, b :: t, hn, h, h' => by
    simp only [List.length_cons] at hn
    rw [loop]
    split
    · rename_i hq
      obtain ⟨c, cs, rs, a, q, hst, hq'⟩ : ∃ c cs rs a q, st.first = .ok ⟨(c :: cs) :: rs, a, q⟩ ∧ q = false := by
        obtain ⟨rows, a, q⟩ := st
        match rows, h' with
        | [] :: rs, _ => exact ⟨[], [], rs, a, q, rfl, hq⟩
        | (c :: cs) :: rs, _ => exact ⟨c, cs, rs, a, q, rfl, hq⟩
      subst hq'
      rw [hst]
      simp only [Res.bind]
      split
      · exact loop_safe n _ _ (by omega) (fun _ => ⟨_, _, _, rfl⟩) (by simp)
      · split
        · exact ⟨_, rfl, fun e => (by cases e), by simp⟩
        · rename_i x r hr
          have := (List.dropWhile_suffix (fun x : UInt8 => decide (x ≠ 0x2C)) (l := b :: t)).length_le
          rw [hr] at this
          simp only [List.length_cons] at this
          simp only [St.append, St.newCell]
          exact loop_safe n _ _ (by omega) (fun e => by cases e) (by simp)
    · rename_i hq
      have hq : st.quoted = true := by simpa using hq
      obtain ⟨c, cs, rs, hst⟩ := h hq
      have := (List.dropWhile_suffix (fun x : UInt8 => decide (x ≠ 0x22)) (l := b :: t)).length_le
      simp only [St.append, hst]
      split
      · exact ⟨_, rfl, fun _ => ⟨_, _, _, rfl⟩, by simp⟩
      · rename_i x r hr
        rw [hr] at this
        simp only [List.length_cons] at this
        exact loop_safe n _ _ (by omega) (fun _ => ⟨_, _, _, rfl⟩) (by simp)
      · rename_i x r _ hr
        rw [hr] at this
        simp only [List.length_cons] at this
        exact loop_safe n _ _ (by omega) (fun e => by cases e) (by simp)

theorem lines_safe : ∀ (ls : List Bytes) (st : St), st.Ok → ∃ st', lines st ls = .ok st'
  | [], st, _ => ⟨st, rfl⟩
  | l :: ls, st, h => by
    rw [lines, doLine]
    obtain ⟨st', h1, h2, _⟩ := loop_safe ((chop l).length + 1) (if st.quoted then st else { st with rows := [] :: st.rows }) (chop l)
      (by omega) (by
        split
        · exact h
        · rename_i hq; intro e; exact absurd e hq) (by
        split
        · rename_i hq; obtain ⟨c, cs, rs, hst⟩ := h hq; rw [hst]; simp
        · simp)
    rw [h1]
    exact lines_safe ls st' h2

theorem parse_safe (text : Bytes) : parse text ≠ .ub := by
  unfold parse
  obtain ⟨st, h⟩ := lines_safe (dropBom (getlines [] text)) ⟨[], true, false⟩ (fun e => by cases e)
  rw [h]
  simp only [Res.bind]
  split <;> simp

end Asteria.Csv
