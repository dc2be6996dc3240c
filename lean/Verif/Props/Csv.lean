import Verif.Proof.Csv

/-!
# Properties of the CSV library
-/

namespace Asteria.Csv

open Lexer (cQuote)

variable (print : Value → Bytes)

/-- A table of strings. -/
def table (rows : List (List Bytes)) : List Value := rows.map fun r => .arr (r.map .str)

/-- **C58** as stated: every table of strings is read back. -/
def C58_claim : Prop := ∀ rows : List (List Bytes), (format print (table rows)).bind parse = .ok rows

/-! ### What is read back -/

/-- The text that is read back from a cell: a string is escaped unless it has a comma, a line break or a quotation mark, and
what is not convertible becomes empty. -/
def image : Value → Bytes
  | .str s => if 0x2C ∈ s ∨ 0x0A ∈ s ∨ 0x22 ∈ s then s else cQuote s
  | .opaque _ | .func _ | .arr _ | .obj _ => []
  | v => print v

/-- Strings are written in quotation. -/
def InQuotation (v : Value) : Prop := ∃ s, v = .str s

/-- A line break in a string is not at its beginning, and does not come after a line break, a carriage return or a quotation
mark.  What is written for a number or the like is printable, without a comma or a quotation mark. -/
def CellOk : Value → Prop
  | .str s => ∀ a b, s = a ++ 0x0A :: b → ∃ a' x, a = a' ++ [x] ∧ x ≠ 0x0A ∧ x ≠ 0x0D ∧ x ≠ 0x22
  | .opaque _ | .func _ | .arr _ | .obj _ => True
  | v => ∀ b ∈ print v, 0x20 ≤ b.toNat ∧ b.toNat ≤ 0x7E ∧ b ≠ 0x2C ∧ b ≠ 0x22

/-- Between a row that ends with a string and a row that begins with one, there is a row that is neither empty nor begins
with a string. -/
def RowsOk (rows : List (List Value)) : Prop :=
  ∀ pre r v es w q post, rows = pre ++ (r ++ [v]) :: (es ++ (w :: q) :: post) → (∀ e ∈ es, e = []) →
    InQuotation v → ¬ InQuotation w

/-! ### Proofs -/

theorem any_special (s : Bytes) : s.any special = true ↔ 0x2C ∈ s ∨ 0x0A ∈ s ∨ 0x22 ∈ s := by
  simp only [List.any_eq_true, special, Bool.or_eq_true, decide_eq_true_eq]
  constructor
  · rintro ⟨x, hx, (rfl | rfl) | rfl⟩
    · exact .inl hx
    · exact .inr (.inl hx)
    · exact .inr (.inr hx)
  · rintro (h | h | h)
    · exact ⟨_, h, .inl (.inl rfl)⟩
    · exact ⟨_, h, .inl (.inr rfl)⟩
    · exact ⟨_, h, .inr rfl⟩

/-- What `c_quote` writes has no quotation marks but for those that are escaped. -/
theorem cQuote_noQuote : ∀ {s : Bytes}, 0x22 ∉ s → 0x22 ∉ cQuote s
  | [], _ => by simp [cQuote]
  | c :: s, h => by
    have e : cQuote (c :: s) = Lexer.charEscapes.getD c.toNat [] ++ cQuote s := rfl
    rw [e, List.mem_append]
    rintro (h1 | h1)
    · have key : ∀ c : UInt8, 0x22 ∈ Lexer.charEscapes.getD c.toNat [] → c = 0x22 := Lexer.forall_byte (by decide +kernel)
      exact h (by simp [key c h1])
    · exact cQuote_noQuote (fun hm => h (by simp [hm])) h1

theorem double_id : ∀ {s : Bytes}, 0x22 ∉ s → double s = s
  | [], _ => rfl
  | x :: s, h => by
    rw [double, if_neg (fun e => h (by simp [e])), double_id fun hm => h (by simp [hm])]

/-- A cell as it is written. -/
def piece (v : Value) : Piece :=
  match v with
  | .str _ => (true, image print v)
  | _ => (false, image print v)

theorem valueText_piece (v : Value) : valueText print v = (piece print v).text := by
  cases v with
  | str s =>
    simp only [valueText, cellText, piece, image, Piece.text, if_true]
    split
    · rename_i h
      rw [if_pos ((any_special s).1 h)]
    · rename_i h
      have h' := mt (any_special s).2 h
      rw [if_neg h', double_id (cQuote_noQuote fun hm => h' (.inr (.inr hm)))]
  | _ => simp [valueText, piece, image, Piece.text]

theorem rowText_join : ∀ r : List Value, rowText print r = join (r.map (piece print))
  | [] => rfl
  | [v] => by simp [rowText, join, valueText_piece]
  | v :: w :: vs => by
    have := rowText_join (w :: vs)
    simp only [List.map_cons] at this
    simp only [rowText, List.map_cons, join, valueText_piece, this]

theorem format_table : ∀ rows : List (List Value),
    format print (rows.map .arr) = .ok (tableText (rows.map (·.map (piece print))))
  | [] => rfl
  | r :: rows => by
    simp only [List.map_cons, format, format_table rows, Res.map, tableText, rowText_join]

theorem adj_of : ∀ {s : Bytes}, (∀ a b, s = a ++ 0x0A :: b → ∃ a' x, a = a' ++ [x] ∧ x ≠ 0x0A ∧ x ≠ 0x0D ∧ x ≠ 0x22) →
    s.head? ≠ some 10 ∧ Adj s := by
  intro s h
  have hh : s.head? ≠ some 10 := by
    cases s with
    | nil => simp
    | cons x s =>
      intro e
      simp at e
      obtain ⟨a', y, h1, _⟩ := h [] s (by rw [e]; rfl)
      simp at h1
  refine ⟨hh, ?_⟩
  clear hh
  have key : ∀ (s p : Bytes), (∀ a b, p ++ s = a ++ 0x0A :: b → ∃ a' x, a = a' ++ [x] ∧ x ≠ 0x0A ∧ x ≠ 0x0D ∧ x ≠ 0x22) → Adj s := by
    intro s
    induction s with
    | nil => intro _ _; trivial
    | cons x s ih =>
      intro p hp
      cases s with
      | nil => trivial
      | cons y s =>
        refine ⟨?_, ih (p ++ [x]) (by simpa using hp)⟩
        rintro rfl
        obtain ⟨a', z, h1, h2⟩ := hp (p ++ [x]) s (by simp)
        have := List.append_inj' h1 (by simp)
        simp at this
        rw [this.2]
        exact h2
  exact key s [] (by simpa using h)

theorem cQuote_adj (s : Bytes) : (cQuote s).head? ≠ some 10 ∧ Adj (cQuote s) := by
  apply adj_of
  intro a b h
  have := Lexer.cQuote_printable s 0x0A (by rw [h]; simp)
  exact absurd this.1 (by decide)

theorem piece_ok {v : Value} (h : CellOk print v) : (piece print v).Ok := by
  cases v with
  | str s =>
    simp only [piece, image, Piece.Ok, if_true]
    split
    · exact (adj_of h).symm
    · exact (cQuote_adj s).symm
  | null => exact h
  | bool b => exact h
  | int i => exact h
  | real d => exact h
  | _ => intro b hb; simp [piece, image] at hb

theorem lastQuoted_snoc (p : Piece) : ∀ ps : List Piece, lastQuoted (ps ++ [p]) = p.1
  | [] => rfl
  | [q] => rfl
  | q :: q' :: ps => lastQuoted_snoc p (q' :: ps)

theorem piece_quoted {v : Value} : (piece print v).1 = true ↔ InQuotation v := by
  cases v <;> simp [piece, InQuotation]

theorem fits_of : ∀ (rows : List (List Value)) (a : Bool), RowsOk rows →
    (∀ es w q post, rows = es ++ (w :: q) :: post → (∀ e ∈ es, e = []) → InQuotation w → a = true) →
    Fits a (rows.map (·.map (piece print)))
  | [], _, _, _ => trivial
  | [] :: rows, a, h, h' => by
    refine fits_of rows a (fun pre r v es w q post e => h ([] :: pre) r v es w q post (by rw [e]; rfl)) ?_
    intro es w q post e he hw
    exact h' ([] :: es) w q post (by rw [e]; rfl) (by simpa using he) hw
  | (v :: r) :: rows, a, h, h' => by
    refine ⟨fun hq => h' [] v r rows rfl (by simp) ((piece_quoted print).1 hq), ?_⟩
    refine fits_of rows _ (fun pre r' v' es w q post e => h ((v :: r) :: pre) r' v' es w q post (by rw [e]; rfl)) ?_
    intro es w q post e he hw
    obtain ⟨r', v', hr⟩ : ∃ r' v', v :: r = r' ++ [v'] := by
      exact ⟨_, _, (List.dropLast_concat_getLast (show v :: r ≠ [] by simp)).symm⟩
    have hl : lastQuoted ((v :: r).map (piece print)) = (piece print v').1 := by
      rw [hr, List.map_append, List.map_singleton, lastQuoted_snoc]
    have : ¬ InQuotation v' := fun hv => h [] r' v' es w q post (by rw [e, hr]; rfl) he hv hw
    rw [← List.map_cons (f := piece print), hl]
    cases hp : (piece print v').1 with
    | true => exact absurd ((piece_quoted print).1 hp) this
    | false => rfl

/-! ### C58 -/

/-- **C58, partial.** A table of strings, numbers and the like is read back as the texts of its cells, provided that line
breaks in strings have something before them, that no row consists of a single empty cell that is not a string, and that a
row that ends with a string is not followed by one that begins with a string.  What is missing is tables of which that is
not true (the claim is false of them) and strings that are escaped (they are read back as they are written). -/
theorem C58_partial (rows : List (List Value)) (hc : ∀ r ∈ rows, ∀ v ∈ r, CellOk print v)
    (hn : ∀ r ∈ rows, ∀ v, r = [v] → ¬ InQuotation v → image print v ≠ []) (hr : RowsOk rows) :
    (format print (rows.map .arr)).bind parse = .ok (rows.map (·.map (image print))) := by
  rw [format_table]
  simp only [Res.bind]
  rw [parse_table]
  · simp only [List.map_map, Function.comp_def, Res.ok.injEq]
    apply List.map_congr_left
    intro r _
    apply List.map_congr_left
    intro v _
    cases v <;> rfl
  · intro r hr' p hp
    obtain ⟨r', h1, rfl⟩ := List.mem_map.1 hr'
    obtain ⟨v, h2, rfl⟩ := List.mem_map.1 hp
    exact piece_ok print (hc r' h1 v h2)
  · intro r hr' e
    obtain ⟨r', h1, rfl⟩ := List.mem_map.1 hr'
    match r', h1, e with
    | [v], h1, e =>
      simp only [List.map_cons, List.map_nil, List.cons.injEq, and_true] at e
      refine hn [v] h1 v rfl (fun hq => ?_) ?_
      · rw [← piece_quoted print, e] at hq; cases hq
      · have : (piece print v).2 = image print v := by cases v <;> rfl
        rw [← this, e]
    | [], _, e => simp at e
    | _ :: _ :: _, _, e => simp at e
  · exact fits_of print rows true hr (fun _ _ _ _ _ _ _ => rfl)

/-- Strings that are read back unchanged: those with a comma, a line break or a quotation mark, and printable ASCII without a
backslash or an apostrophe. -/
theorem C58_image (s : Bytes) (h : (0x2C ∈ s ∨ 0x0A ∈ s ∨ 0x22 ∈ s) ∨
    ∀ b ∈ s, 0x20 ≤ b.toNat ∧ b.toNat ≤ 0x7E ∧ b ≠ 0x5C ∧ b ≠ 0x27) : image print (.str s) = s := by
  rw [image]
  split
  · rfl
  · rename_i h'
    have h := h.resolve_left h'
    have key : ∀ c : UInt8, 0x20 ≤ c.toNat ∧ c.toNat ≤ 0x7E ∧ c ≠ 0x5C ∧ c ≠ 0x27 → c ≠ 0x22 →
        Lexer.charEscapes.getD c.toNat [] = [c] := Lexer.forall_byte (by decide +kernel)
    have : ∀ t : Bytes, (∀ b ∈ t, b ∈ s) → cQuote t = t := by
      intro t
      induction t with
      | nil => intro _; rfl
      | cons c t ih =>
        intro ht
        have hc := ht c (by simp)
        have e : cQuote (c :: t) = Lexer.charEscapes.getD c.toNat [] ++ cQuote t := rfl
        rw [e, key c (h c hc) (fun e => h' (.inr (.inr (e ▸ hc)))), ih fun b hb => ht b (by simp [hb])]
        rfl
    exact this s fun _ h => h

/-- **C58, partial.** A single row of strings is read back, if each either needs no escape sequence, or has a comma, a line
break or a quotation mark. -/
theorem C58_row_partial (row : List Bytes) (hc : ∀ s ∈ row, CellOk print (.str s))
    (hi : ∀ s ∈ row, (0x2C ∈ s ∨ 0x0A ∈ s ∨ 0x22 ∈ s) ∨ ∀ b ∈ s, 0x20 ≤ b.toNat ∧ b.toNat ≤ 0x7E ∧ b ≠ 0x5C ∧ b ≠ 0x27) :
    (format print (table [row])).bind parse = .ok [row] := by
  have h := C58_partial print [row.map .str] ?_ ?_ ?_
  · simp only [List.map_cons, List.map_nil, List.map_map] at h
    rw [table, List.map_cons, List.map_nil, h]
    congr 2
    rw [List.map_congr_left (g := id)]
    · simp
    · intro s hs; exact C58_image print s (hi s hs)
  · intro r hr v hv
    rw [List.mem_singleton.1 hr] at hv
    obtain ⟨s, hs, rfl⟩ := List.mem_map.1 hv
    exact hc s hs
  · intro r hr v hv hq
    rw [List.mem_singleton.1 hr] at hv
    refine absurd ?_ hq
    have : v ∈ row.map Value.str := by rw [hv]; simp
    obtain ⟨s, _, rfl⟩ := List.mem_map.1 this
    exact ⟨s, rfl⟩
  · intro pre r v es w q post e
    have := congrArg List.length e
    simp at this
    omega

/-- **C58.** False of the code in general: whatever strings without a comma, a line break or a quotation mark are in two
rows, the second row is read back with its quotation marks. -/
theorem C58_second_row (a b : Bytes) (ha : ¬ (0x2C ∈ a ∨ 0x0A ∈ a ∨ 0x22 ∈ a)) (hb : ¬ (0x2C ∈ b ∨ 0x0A ∈ b ∨ 0x22 ∈ b)) :
    (format print (table [[a], [b]])).bind parse = .ok [[cQuote a], [0x22 :: (cQuote b ++ [0x22])]] := by
  have hq : ∀ {s : Bytes}, ¬ (0x2C ∈ s ∨ 0x0A ∈ s ∨ 0x22 ∈ s) → cellText s = 0x22 :: (cQuote s ++ [0x22]) := by
    intro s h
    rw [cellText, if_neg (mt (any_special s).1 h)]
  have hnq : 0x22 ∉ cQuote a := cQuote_noQuote fun hm => ha (.inr (.inr hm))
  have hcomma : 0x2C ∉ cQuote b := by
    have key : ∀ c : UInt8, 0x2C ∈ Lexer.charEscapes.getD c.toNat [] → c = 0x2C := Lexer.forall_byte (by decide +kernel)
    intro hm
    obtain ⟨c, hc, hm⟩ := List.mem_flatMap.1 hm
    exact hb (.inl (key c hm ▸ hc))
  have hlf : ∀ s, 10 ∉ cQuote s := fun s hm => absurd (Lexer.cQuote_printable s 10 hm).1 (by decide)
  have ht : format print (table [[a], [b]]) =
      .ok (Piece.text (true, cQuote a) ++ 13 :: 10 :: ((0x22 :: (cQuote b ++ [0x22])) ++ 13 :: 10 :: [])) := by
    simp [table, format, rowText, valueText, hq ha, hq hb, Piece.text, double_id hnq]
  rw [ht]
  simp only [Res.bind]
  unfold parse
  rw [dropBom_id (by simp [Piece.text]), lines_start (by simp)]
  have h1 := row_mid ((0x22 :: (cQuote b ++ [0x22])) ++ 13 :: 10 :: []) [] [] (true, cQuote a) [] true
    (by intro p hp; rw [List.mem_singleton.1 hp]; exact (cQuote_adj a).symm) (fun _ => rfl) (fun _ _ => rfl)
  rw [join] at h1
  have h0 : Piece.text (true, cQuote a) ++ 13 :: 10 :: ((0x22 :: (cQuote b ++ [0x22])) ++ 13 :: 10 :: []) =
      0x22 :: ((double (cQuote a) ++ [0x22]) ++ 13 :: 10 :: ((0x22 :: (cQuote b ++ [0x22])) ++ 13 :: 10 :: [])) := rfl
  rw [h0, mid_first (by decide) (by simp), ← h0, h1, lines_start (by simp), List.cons_append, mid_first (by decide) (by simp)]
  have h2 : Lexer.getlines [] (0x22 :: (cQuote b ++ [0x22] ++ 13 :: 10 :: [])) = [(0x22 :: (cQuote b ++ [0x22])) ++ [13]] := by
    obtain ⟨l, ls, h1, h2⟩ := getlines_append (c := 0x22 :: (cQuote b ++ [0x22])) (s := 13 :: 10 :: []) (by simp [hlf]) (by simp)
    simp [Lexer.getlines] at h1
    rw [← h1.1, h1.2] at h2
    exact h2
  rw [mid_eq _ h2 ((0x22 :: (cQuote b ++ [0x22])).length + 1) (by rw [chop_cr]; omega), chop_cr, show (!lastQuoted [(true, cQuote a)]) = false from rfl,
    loop_end (by simp [hcomma]) (by simp) _ _ _ _ _ (.inl rfl)]
  rfl

/-- **C58.** False of the code: the second row. -/
theorem C58_false : ¬ C58_claim print := by
  intro h
  have h1 := h [[[0x61]], [[0x62]]]
  rw [C58_second_row print [0x61] [0x62] (by decide) (by decide)] at h1
  revert h1
  decide +kernel

/-- **C58.** False of the code also in a single row: a backslash is doubled; -/
theorem C58_false_backslash : (format print (table [[[0x5C]]])).bind parse = .ok [[[0x5C, 0x5C]]] := by
  have h : format print (table [[[0x5C]]]) = .ok [0x22, 0x5C, 0x5C, 0x22, 0x0D, 0x0A] := rfl
  rw [h]
  decide +kernel

/-- a line break after a quotation mark is lost; -/
theorem C58_false_break : (format print (table [[[0x22, 0x0A, 0x61]]])).bind parse = .ok [[[0x22, 0x61]]] := by
  have h : format print (table [[[0x22, 0x0A, 0x61]]]) = .ok [0x22, 0x22, 0x22, 0x0A, 0x61, 0x22, 0x0D, 0x0A] := rfl
  rw [h]
  decide +kernel

/-- a line break after a line break is lost; -/
theorem C58_false_break2 : (format print (table [[[0x61, 0x0A, 0x0A, 0x62]]])).bind parse = .ok [[[0x61, 0x0A, 0x62]]] := by
  have h : format print (table [[[0x61, 0x0A, 0x0A, 0x62]]]) = .ok [0x22, 0x61, 0x0A, 0x0A, 0x62, 0x22, 0x0D, 0x0A] := rfl
  rw [h]
  decide +kernel

/-- and so is a carriage return before a line break. -/
theorem C58_false_cr : (format print (table [[[0x61, 0x0D, 0x0A, 0x62]]])).bind parse = .ok [[[0x61, 0x0A, 0x62]]] := by
  have h : format print (table [[[0x61, 0x0D, 0x0A, 0x62]]]) = .ok [0x22, 0x61, 0x0D, 0x0A, 0x62, 0x22, 0x0D, 0x0A] := rfl
  rw [h]
  decide +kernel

/-- The concrete case: a row with a comma, a quotation mark and a line break. -/
example : (format print (table [[[0x61, 0x2C], [], [0x22, 0x62, 0x0A, 0x63]]])).bind parse =
    .ok [[[0x61, 0x2C], [], [0x22, 0x62, 0x0A, 0x63]]] := by
  refine C58_row_partial print _ ?_ ?_
  · intro s hs a b e
    rcases List.mem_cons.1 hs with rfl | hs
    · exact absurd (show (0x0A : UInt8) ∈ [0x61, 0x2C] by rw [e]; simp) (by decide)
    rcases List.mem_cons.1 hs with rfl | hs
    · simp at e
    rw [List.mem_singleton] at hs
    subst hs
    match a, e with
    | [], e => cases e
    | [_], e => cases e
    | [x, y], e => cases e; exact ⟨[0x22], 0x62, rfl, by decide⟩
    | [_, _, _], e => cases e
    | [_, _, _, _], e => cases e
    | _ :: _ :: _ :: _ :: _ :: _, e => cases e
  · decide +kernel

/-- **C90.** Whatever the text, the reader of CSV does not run into undefined behaviour. -/
theorem C90_csv (text : Bytes) : parse text ≠ .ub := parse_safe text

/-- It can fail, which is different. -/
example : parse [0x22, 0x61] = .throw := by decide +kernel

end Asteria.Csv
