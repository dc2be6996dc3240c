import Verif.Proof.Ini

/-!
# Properties of the INI library
-/

namespace Asteria.Ini

open Lexer (getlines getlines_lines)
open Csv (dropBom)

/-- What is written for null, booleans and numbers has nothing that is special in an INI text. -/
def PrintOk (print : Value → Bytes) : Prop := ∀ v, Plain v → Fits (print v) ∧ 0x0A ∉ print v

/-- **C59** as stated: what the formatter accepts is read back. -/
def C59_claim (print : Value → Bytes) : Prop :=
  ∀ obj, Distinct obj → ∀ t, format print obj = .ok t → parse t = .ok (image print obj)

/-! ### Helpers -/

theorem reject_iff {b : UInt8} : reject b = false ↔ b ∉ ([0x5B, 0x5D, 0x3D, 0x3B, 0x23] : Bytes) := by
  simp only [reject, Bool.or_eq_false_iff, decide_eq_false_iff_not, List.mem_cons, List.not_mem_nil, or_false, not_or]
  exact ⟨fun ⟨⟨⟨⟨a, b⟩, c⟩, d⟩, e⟩ => ⟨a, b, c, d, e⟩, fun ⟨a, b, c, d, e⟩ => ⟨⟨⟨⟨a, b⟩, c⟩, d⟩, e⟩⟩

theorem space_iff {b : UInt8} : space b = false ↔ b ≠ 0x20 ∧ b ≠ 0x09 := by
  simp [space]

theorem fine_iff {s : Bytes} : Fine s ↔ Fits s := by
  constructor
  · rintro ⟨h1, h2, h3⟩
    refine ⟨fun b hb => reject_iff.1 (h1 b hb), ?_, ?_⟩
    · rintro x t rfl; exact space_iff.1 (h2 x rfl)
    · rintro t x rfl; exact space_iff.1 (h3 x (by simp))
  · rintro ⟨h1, h2, h3⟩
    refine ⟨fun b hb => reject_iff.2 (h1 b hb), ?_, ?_⟩
    · intro x hx
      cases s with
      | nil => cases hx
      | cons y t => cases hx; exact space_iff.2 (h2 _ t rfl)
    · intro x hx
      obtain ⟨t, rfl⟩ := List.getLast?_eq_some_iff.1 hx
      exact space_iff.2 (h3 t x rfl)

theorem key_ok {k r : Bytes} : key k = .ok r ↔ r = k ∧ k ≠ [] ∧ Fits k := by
  unfold key
  split
  · rename_i h; simp [h]
  split
  · rename_i h1 h2
    simp only [Res.ok.injEq]
    exact ⟨fun e => ⟨e.symm, h1, fine_iff.1 (allowed_iff.1 h2)⟩, fun e => e.1.symm⟩
  · rename_i h1 h2
    simp only [reduceCtorEq, false_iff]
    rintro ⟨_, _, h3⟩
    exact h2 (allowed_iff.2 (fine_iff.2 h3))

theorem fits_nil : Fits [] := fine_iff.1 fine_nil

theorem bind_ok {α β : Type} {x : Res α} {f : α → Res β} {b : β} : x.bind f = .ok b ↔ ∃ a, x = .ok a ∧ f a = .ok b := by
  cases x <;> simp [Res.bind]

theorem map_ok {α β : Type} {x : Res α} {f : α → β} {b : β} : x.map f = .ok b ↔ ∃ a, x = .ok a ∧ f a = b := by
  cases x <;> simp [Res.map]

theorem scalar_ok {print : Value → Bytes} {v : Value} {t : Bytes} : scalar print v = .ok (some t) →
    (Plain v ∨ ∃ s, v = .str s) ∧ ∀ s, v = .str s → Fits s := by
  cases v with
  | str s =>
    intro h
    refine ⟨.inr ⟨s, rfl⟩, ?_⟩
    rintro _ ⟨rfl⟩
    rw [scalar] at h
    split at h
    · rename_i hs; rw [hs]; exact fits_nil
    split at h
    · rename_i ha; exact fine_iff.1 (allowed_iff.1 ha)
    · cases h
  | null => intro _; exact ⟨.inl trivial, by intro s h; cases h⟩
  | bool b => intro _; exact ⟨.inl trivial, by intro s h; cases h⟩
  | int b => intro _; exact ⟨.inl trivial, by intro s h; cases h⟩
  | real b => intro _; exact ⟨.inl trivial, by intro s h; cases h⟩
  | «opaque» b => intro h; cases h
  | func b => intro h; cases h
  | arr b => intro h; cases h
  | obj b => intro h; cases h

theorem scalar_str (print : Value → Bytes) {s : Bytes} (h : Fits s) : scalar print (.str s) = .ok (some s) := by
  rw [scalar]
  split
  · rfl
  · rw [if_pos (allowed_iff.2 (fine_iff.2 h))]

theorem props_iff (print : Value → Bytes) : ∀ obj, (∃ r, props print obj = .ok r) ↔ PropsFit obj
  | [] => by
    refine ⟨fun _ k v h => ?_, fun _ => ⟨_, rfl⟩⟩
    cases h
  | (k, v) :: rest => by
    have ih := props_iff print rest
    have hrest : PropsFit ((k, v) :: rest) → PropsFit rest := fun h k v hm => h k v (List.mem_cons_of_mem _ hm)
    constructor
    · rintro ⟨r, h⟩
      rw [props, bind_ok] at h
      obtain ⟨o, h1, h2⟩ := h
      cases o with
      | none =>
        intro k' v' hm hv'
        rcases List.mem_cons.1 hm with hm | hm
        · cases hm
          rcases hv' with hv' | ⟨s, rfl⟩
          · cases v <;> simp only [Plain] at hv' <;> cases h1
          · rw [scalar] at h1
            split at h1
            · cases h1
            split at h1 <;> cases h1
        · exact ih.1 ⟨r, h2⟩ k' v' hm hv'
      | some t =>
        simp only at h2
        rw [bind_ok] at h2
        obtain ⟨k1, h3, h4⟩ := h2
        rw [map_ok] at h4
        obtain ⟨r', h4, _⟩ := h4
        obtain ⟨rfl, h5, h6⟩ := key_ok.1 h3
        intro k' v' hm hv'
        rcases List.mem_cons.1 hm with hm | hm
        · cases hm
          exact ⟨h5, h6, (scalar_ok h1).2⟩
        · exact ih.1 ⟨r', h4⟩ k' v' hm hv'
    · intro h
      obtain ⟨r, hr⟩ := ih.2 (hrest h)
      have step : ∀ t, (Plain v ∨ ∃ s, v = .str s) → scalar print v = .ok (some t) → ∃ r, props print ((k, v) :: rest) = .ok r := by
        intro t hv ht
        obtain ⟨h1, h2, _⟩ := h k v (by simp) hv
        rw [props, ht]
        simp only [Res.bind, key_ok.2 ⟨rfl, h1, h2⟩, hr, Res.map]
        exact ⟨_, rfl⟩
      cases v with
      | str s =>
        have := (h k (.str s) (by simp) (.inr ⟨s, rfl⟩)).2.2 s rfl
        exact step s (.inr ⟨s, rfl⟩) (scalar_str print this)
      | null => exact step _ (.inl trivial) rfl
      | bool b => exact step _ (.inl trivial) rfl
      | int b => exact step _ (.inl trivial) rfl
      | real b => exact step _ (.inl trivial) rfl
      | «opaque» b => exact ⟨r, hr⟩
      | func b => exact ⟨r, hr⟩
      | arr b => exact ⟨r, hr⟩
      | obj b => exact ⟨r, hr⟩

theorem sections_iff (print : Value → Bytes) : ∀ obj n, (∃ r, sections print n obj = .ok r) ↔
    ∀ k ps, (k, .obj ps) ∈ obj → k ≠ [] ∧ Fits k ∧ PropsFit ps
  | [], n => by
    refine ⟨fun _ k v h => ?_, fun _ => ⟨_, rfl⟩⟩
    cases h
  | (k, v) :: rest, n => by
    have skip : (∀ ps, v ≠ .obj ps) → sections print n ((k, v) :: rest) = sections print n rest := by
      intro hv
      cases v <;> first | rfl | exact absurd rfl (hv _)
    by_cases hv : ∃ ps, v = .obj ps
    · obtain ⟨ps, rfl⟩ := hv
      rw [sections]
      constructor
      · rintro ⟨r, h⟩
        rw [bind_ok] at h
        obtain ⟨k1, h1, h⟩ := h
        rw [bind_ok] at h
        obtain ⟨r1, h2, h⟩ := h
        rw [map_ok] at h
        obtain ⟨t, h3, _⟩ := h
        obtain ⟨rfl, h5, h6⟩ := key_ok.1 h1
        intro k' ps' hm
        rcases List.mem_cons.1 hm with hm | hm
        · cases hm
          exact ⟨h5, h6, (props_iff print _).1 ⟨_, h2⟩⟩
        · exact (sections_iff print rest _).1 ⟨_, h3⟩ k' ps' hm
      · intro h
        obtain ⟨h1, h2, h3⟩ := h k ps (by simp)
        obtain ⟨r, hr⟩ := (props_iff print ps).2 h3
        obtain ⟨t, ht⟩ := (sections_iff print rest (n + 1 + r.2)).2 fun k ps hm => h k ps (List.mem_cons_of_mem _ hm)
        simp only [key_ok.2 ⟨rfl, h1, h2⟩, Res.bind, hr, ht, Res.map]
        exact ⟨_, rfl⟩
    · have hv' : ∀ ps, v ≠ .obj ps := fun ps e => hv ⟨ps, e⟩
      rw [skip hv', sections_iff print rest n]
      constructor
      · intro h k' ps' hm
        rcases List.mem_cons.1 hm with hm | hm
        · cases hm; exact absurd rfl (hv' _)
        · exact h k' ps' hm
      · exact fun h k' ps' hm => h k' ps' (List.mem_cons_of_mem _ hm)

theorem scal_mem {print : Value → Bytes} {obj : List (Bytes × Value)} {x : Bytes × Bytes} (h : x ∈ scal print obj) :
    ∃ v, (x.1, v) ∈ obj ∧ ((∃ s, v = .str s ∧ x.2 = s) ∨ (Plain v ∧ x.2 = print v)) := by
  obtain ⟨⟨k, v⟩, hm, hx⟩ := List.mem_filterMap.1 h
  cases v <;> simp only [Option.some.injEq, reduceCtorEq] at hx <;> cases hx
  · exact ⟨_, hm, .inr ⟨trivial, rfl⟩⟩
  · exact ⟨_, hm, .inr ⟨trivial, rfl⟩⟩
  · exact ⟨_, hm, .inr ⟨trivial, rfl⟩⟩
  · exact ⟨_, hm, .inr ⟨trivial, rfl⟩⟩
  · exact ⟨_, hm, .inl ⟨_, rfl, rfl⟩⟩

theorem sects_mem {print : Value → Bytes} {obj : List (Bytes × Value)} {x : Bytes × List (Bytes × Bytes)}
    (h : x ∈ sects print obj) : ∃ ps, (x.1, .obj ps) ∈ obj ∧ x.2 = scal print ps := by
  obtain ⟨⟨k, v⟩, hm, hx⟩ := List.mem_filterMap.1 h
  cases v <;> simp only [Option.some.injEq, reduceCtorEq] at hx <;> cases hx
  exact ⟨_, hm, rfl⟩

theorem scal_cons (print : Value → Bytes) (x : Bytes × Value) (l : List (Bytes × Value)) :
    (scal print (x :: l) = scal print l ∧ ∀ y, sects print (x :: l) = y → y = sects print l ∨ ∃ z, y = (x.1, z) :: sects print l) ∨
    ((∃ t, scal print (x :: l) = (x.1, t) :: scal print l) ∧ sects print (x :: l) = sects print l) := by
  obtain ⟨k, v⟩ := x
  cases v
  case arr => exact .inl ⟨rfl, fun y e => .inl e.symm⟩
  case obj => exact .inl ⟨rfl, fun y e => .inr ⟨_, e.symm⟩⟩
  case «opaque» => exact .inl ⟨rfl, fun y e => .inl e.symm⟩
  case func => exact .inl ⟨rfl, fun y e => .inl e.symm⟩
  all_goals exact .inr ⟨⟨_, rfl⟩, rfl⟩

theorem keys_sub (print : Value → Bytes) : ∀ obj : List (Bytes × Value),
    (∀ k, k ∈ (scal print obj).map (·.1) → k ∈ obj.map (·.1)) ∧ (∀ k, k ∈ (sects print obj).map (·.1) → k ∈ obj.map (·.1)) := by
  intro obj
  constructor
  · intro k hk
    obtain ⟨x, hx, rfl⟩ := List.mem_map.1 hk
    obtain ⟨v, hv, _⟩ := scal_mem hx
    exact List.mem_map.2 ⟨_, hv, rfl⟩
  · intro k hk
    obtain ⟨x, hx, rfl⟩ := List.mem_map.1 hk
    obtain ⟨v, hv, _⟩ := sects_mem hx
    exact List.mem_map.2 ⟨_, hv, rfl⟩

theorem keys_nodup (print : Value → Bytes) : ∀ obj : List (Bytes × Value), (obj.map (·.1)).Nodup →
    ((scal print obj).map (·.1) ++ (sects print obj).map (·.1)).Nodup
  | [], _ => by simp [scal, sects]
  | x :: l, h => by
    rw [List.map_cons, List.nodup_cons] at h
    have ih := keys_nodup print l h.2
    have hs := keys_sub print l
    have h1 : x.1 ∉ (scal print l).map (·.1) := fun e => h.1 (hs.1 _ e)
    have h2 : x.1 ∉ (sects print l).map (·.1) := fun e => h.1 (hs.2 _ e)
    rcases scal_cons print x l with ⟨e1, e2⟩ | ⟨⟨t, e1⟩, e2⟩
    · rw [e1]
      rcases e2 _ rfl with e2 | ⟨z, e2⟩
      · rw [e2]; exact ih
      · rw [e2, List.map_cons, List.perm_middle.nodup_iff, List.nodup_cons]
        exact ⟨by simp only [List.mem_append, not_or]; exact ⟨h1, h2⟩, ih⟩
    · rw [e1, e2, List.map_cons, List.cons_append, List.nodup_cons]
      exact ⟨by simp only [List.mem_append, not_or]; exact ⟨h1, h2⟩, ih⟩

theorem sectLines_noBreak : ∀ (ss : List (Bytes × List (Bytes × Bytes))) (b : Bool),
    (∀ s ∈ ss, 10 ∉ s.1 ∧ ∀ x ∈ s.2, 10 ∉ x.1 ∧ 10 ∉ x.2) → ∀ l ∈ sectLines b ss, 10 ∉ l
  | [], b, _, l, hl => by cases hl
  | (n, ps) :: ss, b, h, l, hl => by
    rw [sectLines, List.mem_append, List.mem_cons, List.mem_append, List.mem_map] at hl
    have h0 := h (n, ps) (by simp)
    rcases hl with hl | rfl | ⟨x, hx, rfl⟩ | hl
    · cases b with
      | true => rw [if_pos rfl, List.mem_singleton] at hl; rw [hl]; simp
      | false => cases hl
    · simp only [sectLine, List.mem_cons, List.mem_append, List.not_mem_nil, or_false, not_or]
      exact ⟨by decide, h0.1, by decide⟩
    · have := h0.2 x hx
      simp only [propLine, List.mem_cons, List.mem_append, not_or]
      exact ⟨this.1, by decide, this.2⟩
    · exact sectLines_noBreak ss true (fun s hs => h s (by simp [hs])) l hl

theorem flat_crlf (L : List Bytes) : L.flatMap (· ++ [13, 10]) = (L.map (· ++ [13])).flatMap (· ++ [10]) := by
  induction L with
  | nil => rfl
  | cons l L ih => simp [ih]

/-! ### The properties -/

/-- **C59**, what is accepted: the formatter succeeds exactly on objects whose names and strings fit in lines, and throws
an exception otherwise. -/
theorem C59_accept (print : Value → Bytes) (obj : List (Bytes × Value)) :
    (Formattable obj → ∃ t, format print obj = .ok t) ∧ (¬ Formattable obj → format print obj = .throw) := by
  have hiff : (∃ t, format print obj = .ok t) ↔ Formattable obj := by
    unfold format
    constructor
    · rintro ⟨t, h⟩
      rw [bind_ok] at h
      obtain ⟨r, h1, h⟩ := h
      rw [map_ok] at h
      obtain ⟨u, h2, _⟩ := h
      exact ⟨(props_iff print obj).1 ⟨_, h1⟩, (sections_iff print obj _).1 ⟨_, h2⟩⟩
    · rintro ⟨h1, h2⟩
      obtain ⟨r, hr⟩ := (props_iff print obj).2 h1
      obtain ⟨u, hu⟩ := (sections_iff print obj r.2).2 h2
      simp only [hr, Res.bind, hu, Res.map]
      exact ⟨_, rfl⟩
  have nokey : ∀ k, key k ≠ .ub := by
    intro k h
    unfold key at h
    split at h
    · cases h
    split at h <;> cases h
  have noscalar : ∀ v, scalar print v ≠ .ub := by
    intro v h
    cases v with
    | str s =>
      rw [scalar] at h
      split at h
      · cases h
      split at h <;> cases h
    | _ => cases h
  have noprops : ∀ obj, props print obj ≠ .ub := by
    intro obj
    induction obj with
    | nil => intro h; cases h
    | cons x l ih =>
      obtain ⟨k, v⟩ := x
      intro h
      rw [props] at h
      cases hs : scalar print v with
      | ub => exact noscalar v hs
      | throw => rw [hs] at h; cases h
      | ok o =>
        rw [hs] at h
        cases o with
        | none => exact ih h
        | some t =>
          simp only [Res.bind] at h
          cases hk : key k with
          | ub => exact nokey k hk
          | throw => rw [hk] at h; cases h
          | ok k' =>
            rw [hk] at h
            simp only at h
            cases hp : props print l with
            | ub => exact ih hp
            | throw => rw [hp] at h; cases h
            | ok r => rw [hp] at h; cases h
  have nosects : ∀ obj n, sections print n obj ≠ .ub := by
    intro obj
    induction obj with
    | nil => intro n h; cases h
    | cons x l ih =>
      obtain ⟨k, v⟩ := x
      intro n h
      cases v with
      | obj ps =>
        rw [sections] at h
        cases hk : key k with
        | ub => exact nokey k hk
        | throw => rw [hk] at h; cases h
        | ok k' =>
          rw [hk] at h
          simp only [Res.bind] at h
          cases hp : props print ps with
          | ub => exact noprops ps hp
          | throw => rw [hp] at h; cases h
          | ok r =>
            rw [hp] at h
            simp only at h
            cases ht : sections print (n + 1 + r.2) l with
            | ub => exact ih _ ht
            | throw => rw [ht] at h; cases h
            | ok u => rw [ht] at h; cases h
      | _ => exact ih n h
  refine ⟨hiff.2, fun hn => ?_⟩
  cases h : format print obj with
  | ok t => exact absurd (hiff.1 ⟨t, h⟩) hn
  | throw => rfl
  | ub =>
    unfold format at h
    cases hp : props print obj with
    | ub => exact absurd hp (noprops obj)
    | throw => rw [hp] at h; cases h
    | ok r =>
      rw [hp] at h
      simp only [Res.bind] at h
      cases ht : sections print r.2 obj with
      | ub => exact absurd ht (nosects obj _)
      | throw => rw [ht] at h; cases h
      | ok u => rw [ht] at h; cases h

/-- **C59**, partial: whatever object the formatter accepts, without line breaks in names and strings, and unless the text
happens to begin with a byte order mark, is read back: its strings and what is written for null, booleans and numbers, and
those of the objects in it, in order.  Missing: names and strings with line breaks (`C59_false`), and names that begin with
a byte order mark (`C59_false_bom`). -/
theorem C59_partial (print : Value → Bytes) (hprint : PrintOk print) (obj : List (Bytes × Value)) (hd : Distinct obj)
    (hb : NoBreak obj) (t : Bytes) (ht : format print obj = .ok t) (hbom : ¬ [0xEF, 0xBB, 0xBF] <+: t) :
    parse t = .ok (image print obj) := by
  have hp : ∀ v, Plain v → Fine (print v) := fun v hv => fine_iff.2 (hprint v hv).1
  unfold format at ht
  rw [bind_ok] at ht
  obtain ⟨r, h1, ht⟩ := ht
  rw [map_ok] at ht
  obtain ⟨u, h2, rfl⟩ := ht
  obtain ⟨g1, g2, g3⟩ := props_ok hp obj r h1
  obtain ⟨f1, f2⟩ := sections_ok hp obj r.2 u h2
  have scalNB : ∀ ps : List (Bytes × Value), NoBreakProps ps → ∀ x ∈ scal print ps, 10 ∉ x.1 ∧ 10 ∉ x.2 := by
    intro ps hps x hx
    obtain ⟨v, hm, hv⟩ := scal_mem hx
    have := hps _ _ hm
    refine ⟨this.1, ?_⟩
    rcases hv with ⟨s, rfl, e⟩ | ⟨hv, e⟩
    · rw [e]; exact this.2 s rfl
    · rw [e]; exact (hprint v hv).2
  have hL : r.1 ++ u = (((scal print obj).map propLine ++ sectLines (r.2 ≠ 0) (sects print obj)).map (· ++ [13])).flatMap (· ++ [10]) := by
    rw [← flat_crlf, List.flatMap_append, ← g1, ← f1]
  have hget : getlines [] (r.1 ++ u) =
      ((scal print obj).map propLine ++ sectLines (r.2 ≠ 0) (sects print obj)).map (· ++ [13]) := by
    rw [hL]
    apply getlines_lines
    intro l' hl'
    obtain ⟨l, hl, rfl⟩ := List.mem_map.1 hl'
    rw [List.mem_append] at hl
    simp only [List.mem_append, List.mem_singleton, not_or]
    refine ⟨?_, by decide⟩
    rcases hl with hl | hl
    · obtain ⟨x, hx, rfl⟩ := List.mem_map.1 hl
      have := scalNB obj hb.1 x hx
      simp only [propLine, List.mem_cons, List.mem_append, not_or]
      exact ⟨this.1, by decide, this.2⟩
    · refine sectLines_noBreak _ _ ?_ l hl
      intro s hs
      obtain ⟨ps, hm, e⟩ := sects_mem hs
      refine ⟨(hb.1 _ _ hm).1, ?_⟩
      rw [e]
      exact scalNB ps (hb.2 _ _ hm)
  have hnobom : dropBom (getlines [] (r.1 ++ u)) = getlines [] (r.1 ++ u) := by
    rw [hget]
    generalize hM : ((scal print obj).map propLine ++ sectLines (r.2 ≠ 0) (sects print obj)).map (· ++ [13]) = M at hL
    cases M with
    | nil => rfl
    | cons l M =>
      rw [dropBom, if_neg]
      intro hpre
      apply hbom
      rw [hL, List.flatMap_cons, List.append_assoc]
      have : [0xEF, 0xBB, 0xBF] <+: l := List.isPrefixOf_iff_prefix.1 hpre
      exact this.trans (List.prefix_append _ _)
  unfold parse
  rw [hnobom, hget, List.map_append, lines_append, List.map_map]
  have e1 := lines_top (scal print obj) [] g3 (by
    have := keys_nodup print obj hd.1
    rw [List.nodup_append] at this
    simpa using this.1)
  simp only [Function.comp_def]
  rw [e1]
  simp only [Res.bind, List.nil_append]
  obtain ⟨sink, e2⟩ := lines_sects (sects print obj) (r.2 ≠ 0) ((scal print obj).map fun x => (x.1, .text x.2)) none
    (by
      intro s hs
      obtain ⟨ps, hm, e⟩ := sects_mem hs
      obtain ⟨a, b, c⟩ := f2 s hs
      refine ⟨a, b, c, ?_⟩
      rw [e]
      have := keys_nodup print ps (hd.2 _ _ hm)
      rw [List.nodup_append] at this
      exact this.1)
    (by simpa [List.map_map, Function.comp_def] using keys_nodup print obj hd.1)
  rw [e2]
  rfl

/-- A way to print numbers for the examples. -/
def demoPrint : Value → Bytes
  | .null => "null".toUTF8.toList
  | .bool true => "true".toUTF8.toList
  | _ => "42".toUTF8.toList

/-- `{ a: 42, s: { x: "y z" }, n: null }` -/
def demo : List (Bytes × Value) :=
  [("a".toUTF8.toList, .int 42), ("s".toUTF8.toList, .obj [("x".toUTF8.toList, .str "y z".toUTF8.toList)]), ("n".toUTF8.toList, .null)]

example : format demoPrint demo = .ok "a=42\r\nn=null\r\n\r\n[s]\r\nx=y z\r\n".toUTF8.toList := by decide +kernel
example : (format demoPrint demo).bind parse = .ok (image demoPrint demo) := by decide +kernel
example : image demoPrint demo = [("a".toUTF8.toList, .text "42".toUTF8.toList), ("n".toUTF8.toList, .text "null".toUTF8.toList),
  ("s".toUTF8.toList, .sect [("x".toUTF8.toList, "y z".toUTF8.toList)])] := by decide +kernel
/-- A name with an equals sign is rejected. -/
example : format demoPrint [("a=b".toUTF8.toList, .null)] = .throw := by decide +kernel
example : PrintOk demoPrint := by
  intro v hv
  have : ∀ v, allowed (demoPrint v) = true ∧ 10 ∉ demoPrint v := by
    intro v
    unfold demoPrint
    split <;> decide +kernel
  exact ⟨fine_iff.1 (allowed_iff.1 (this v).1), (this v).2⟩

/-- **C59** is false: the formatter accepts the string `a⏎b`, and it is read back as `a`, and a property `b`. -/
theorem C59_false (print : Value → Bytes) : ¬ C59_claim print := by
  intro h
  have hf : format print [([0x6B], .str [0x61, 0x0A, 0x62])] = .ok [0x6B, 0x3D, 0x61, 0x0A, 0x62, 0x0D, 0x0A] := rfl
  have := h [([0x6B], .str [0x61, 0x0A, 0x62])] ⟨by decide, by simp⟩ _ hf
  have hi : image print [([0x6B], .str [0x61, 0x0A, 0x62])] = [([0x6B], .text [0x61, 0x0A, 0x62])] := rfl
  rw [hi] at this
  revert this
  decide +kernel

/-- **C59** is also false of names that begin with a byte order mark. -/
theorem C59_false_bom (print : Value → Bytes) : ¬ ∀ obj, Distinct obj → NoBreak obj → ∀ t, format print obj = .ok t →
    parse t = .ok (image print obj) := by
  intro h
  have hf : format print [([0xEF, 0xBB, 0xBF, 0x6B], .str [0x61])] = .ok [0xEF, 0xBB, 0xBF, 0x6B, 0x3D, 0x61, 0x0D, 0x0A] := rfl
  have hb : NoBreak [([0xEF, 0xBB, 0xBF, 0x6B], .str [0x61])] := by
    refine ⟨?_, by simp⟩
    intro k v hm
    simp only [List.mem_singleton] at hm
    cases hm
    refine ⟨by decide, ?_⟩
    rintro s ⟨rfl⟩
    decide
  have := h _ ⟨by decide, by simp⟩ hb _ hf
  have hi : image print [([0xEF, 0xBB, 0xBF, 0x6B], .str [0x61])] = [([0xEF, 0xBB, 0xBF, 0x6B], .text [0x61])] := rfl
  rw [hi] at this
  revert this
  decide +kernel

/-! ### The reader -/

/-- **C91** as stated: the reader never has undefined behaviour. -/
def C91_claim : Prop := ∀ text, parse text ≠ .ub

/-- **C91** is false: a section that has the name of a property fails an assertion, which is undefined behaviour in a build
without assertions. -/
theorem C91_false : ¬ C91_claim := fun h => h "a=1\n[a]\n".toUTF8.toList (by decide +kernel)

theorem put_sink (st : St) (k t : Bytes) : (st.put k t).sink = st.sink := by
  unfold St.put
  cases st.sink <;> rfl

theorem item_safe {st : St} {line : Bytes} (h : line.head? ≠ some 0x5B) : item st line = .throw ∨ ∃ k t, item st line = .ok (st.put k t) := by
  rw [item, if_neg h]
  split
  · exact .inr ⟨_, _, rfl⟩
  · simp only
    split
    · exact .inl rfl
    split
    · exact .inl rfl
    · exact .inr ⟨_, _, rfl⟩

theorem rtrim_head {x : UInt8} {s : Bytes} (hx : space x = false) : (rtrim (x :: s)).head? = some x := by
  unfold rtrim
  rw [List.reverse_cons, List.dropWhile_append]
  split
  · rw [List.dropWhile_cons_of_neg (by simp [hx])]; rfl
  · simp

theorem getlines_mem : ∀ (s cur : Bytes) (l : Bytes), l ∈ getlines cur s → ∀ b ∈ l, b ∈ cur ∨ b ∈ s
  | [], cur, l, hl, b, hb => by
    rw [getlines] at hl
    split at hl
    · cases hl
    · rw [List.mem_singleton] at hl; subst hl; exact .inl hb
  | c :: s, cur, l, hl, b, hb => by
    rw [getlines] at hl
    split at hl
    · rcases List.mem_cons.1 hl with rfl | hl
      · exact .inl hb
      · rcases getlines_mem s [] l hl b hb with h | h
        · cases h
        · exact .inr (List.mem_cons_of_mem _ h)
    · rcases getlines_mem s _ l hl b hb with h | h
      · rcases List.mem_append.1 h with h | h
        · exact .inl h
        · rw [List.mem_singleton] at h; exact .inr (by simp [h])
      · exact .inr (List.mem_cons_of_mem _ h)

theorem chop_sub {l : Bytes} {b : UInt8} (h : b ∈ Csv.chop l) : b ∈ l := by
  unfold Csv.chop at h
  split at h
  · exact List.dropLast_subset l h
  · exact h

theorem rtrim_nil_or {s : Bytes} : ∀ b, (rtrim s).head? = some b → b ∈ s := by
  intro b hb
  have h1 : b ∈ rtrim s := List.mem_of_mem_head? hb
  unfold rtrim at h1
  rw [List.mem_reverse] at h1
  exact List.mem_reverse.1 ((List.dropWhile_sublist _).subset h1)

/-- A line without brackets. -/
theorem doLine_plain (st : St) {l : Bytes} (h : 0x5B ∉ l) : doLine st l ≠ .ub := by
  unfold doLine
  simp only
  split
  · intro h; cases h
  · have hs' : ∀ b ∈ ((Csv.chop l).takeWhile fun b => !comment b).dropWhile space, b ∈ l := by
      intro b hb
      exact chop_sub ((List.takeWhile_sublist _).subset ((List.dropWhile_sublist _).subset hb))
    have := item_safe (st := st) (line := rtrim (((Csv.chop l).takeWhile fun b => !comment b).dropWhile space)) (fun e => h (hs' _ (rtrim_nil_or _ e)))
    rcases this with e | ⟨k, t, e⟩ <;> rw [e] <;> intro h <;> cases h

theorem lines_plain : ∀ (ls : List Bytes) (st : St), (∀ l ∈ ls, 0x5B ∉ l) → lines st ls ≠ .ub
  | [], _, _ => fun h => by cases h
  | l :: ls, st, h => by
    rw [lines]
    cases hl : doLine st l with
    | ok st' => exact lines_plain ls st' fun x hx => h x (by simp [hx])
    | throw => intro h; cases h
    | ub => exact absurd hl (doLine_plain st (h l (by simp)))

/-- Only sections so far, and `sink` points to one. -/
def InSect (st : St) : Prop := st.sink ≠ none ∧ ∀ x ∈ st.root, ∃ l, x.2 = .sect l

theorem put_inSect {st : St} (h : InSect st) (k t : Bytes) : InSect (st.put k t) := by
  obtain ⟨root, sink⟩ := st
  obtain ⟨h1, h2⟩ := h
  cases sink with
  | none => exact absurd rfl h1
  | some n =>
    refine ⟨by simp [St.put], ?_⟩
    intro x hx
    simp only [St.put] at hx
    obtain ⟨⟨m, e⟩, hm, rfl⟩ := List.mem_map.1 hx
    obtain ⟨l, hl⟩ := h2 _ hm
    simp only at hl
    subst hl
    simp only
    split <;> exact ⟨_, rfl⟩

theorem lookup_mem {α : Type} {k : Bytes} {v : α} : ∀ {l : List (Bytes × α)}, l.lookup k = some v → ∃ k', (k', v) ∈ l
  | [], h => by cases h
  | (k1, v1) :: l, h => by
    rw [List.lookup_cons] at h
    split at h
    · cases h; exact ⟨k1, by simp⟩
    · obtain ⟨k', hk⟩ := lookup_mem h
      exact ⟨k', by simp [hk]⟩

theorem enter_inSect {st : St} (h : ∀ x ∈ st.root, ∃ l, x.2 = Entry.sect l) (n : Bytes) : ∃ st', st.enter n = .ok st' ∧ InSect st' := by
  unfold St.enter
  split
  · refine ⟨_, rfl, by simp, ?_⟩
    intro x hx
    rcases List.mem_append.1 hx with hx | hx
    · exact h x hx
    · rw [List.mem_singleton] at hx; subst hx; exact ⟨_, rfl⟩
  · exact ⟨_, rfl, by simp, h⟩
  · rename_i t ht
    obtain ⟨k', hk⟩ := lookup_mem ht
    obtain ⟨l, hl⟩ := h _ hk
    cases hl

theorem item_inSect {st : St} (h : InSect st) (line : Bytes) : item st line = .throw ∨ ∃ st', item st line = .ok st' ∧ InSect st' := by
  by_cases hh : line.head? = some 0x5B
  · rw [item, if_pos hh]
    split
    · exact .inl rfl
    split
    · exact .inl rfl
    · exact .inr (enter_inSect h.2 _)
  · rcases item_safe (st := st) hh with e | ⟨k, t, e⟩
    · exact .inl e
    · exact .inr ⟨_, e, put_inSect h k t⟩

theorem lines_inSect : ∀ (ls : List Bytes) (st : St), InSect st → lines st ls ≠ .ub
  | [], _, _ => fun h => by cases h
  | l :: ls, st, h => by
    rw [lines]
    have : doLine st l = .throw ∨ ∃ st', doLine st l = .ok st' ∧ InSect st' := by
      unfold doLine
      simp only
      split
      · exact .inr ⟨_, rfl, h⟩
      · exact item_inSect h _
    rcases this with e | ⟨st', e, h'⟩
    · rw [e]; intro h; cases h
    · rw [e]; exact lines_inSect ls st' h'

/-- **C91**, partial: there is no undefined behaviour if the text has no section, or if it begins with one.  Missing: texts
with properties before the first section, where the name of a section may be that of a property (`C91_false`). -/
theorem C91_partial (text : Bytes) (h : 0x5B ∉ text ∨ text.head? = some 0x5B) : parse text ≠ .ub := by
  have hmap : ∀ x : Res St, x ≠ .ub → x.map (·.root) ≠ .ub := by
    intro x hx
    cases x with
    | ok a => intro h; cases h
    | throw => intro h; cases h
    | ub => exact absurd rfl hx
  unfold parse
  apply hmap
  rcases h with h | h
  · apply lines_plain
    have hg : ∀ l ∈ getlines [] text, 0x5B ∉ l := by
      intro l hl hb
      rcases getlines_mem text [] l hl _ hb with h' | h'
      · cases h'
      · exact h h'
    intro l hl
    cases hq : getlines [] text with
    | nil => rw [hq] at hl; cases hl
    | cons y ys =>
      rw [hq] at hl hg
      rw [dropBom] at hl
      rcases List.mem_cons.1 hl with rfl | hl
      · split
        · exact fun e => hg y (by simp) ((List.drop_sublist _ _).subset e)
        · exact hg y (by simp)
      · exact hg l (by simp [hl])
  · obtain ⟨s, rfl⟩ : ∃ s, text = 0x5B :: s := by
      cases text with
      | nil => cases h
      | cons x s => cases h; exact ⟨s, rfl⟩
    obtain ⟨l, ls, hl⟩ : ∃ l ls, getlines [] (0x5B :: s) = (0x5B :: l) :: ls := by
      rw [getlines, if_neg (by decide), List.nil_append]
      by_cases hs : s = []
      · subst hs; exact ⟨[], [], rfl⟩
      · obtain ⟨l, ls, _, h2⟩ := Csv.getlines_cur s [0x5B] hs
        exact ⟨l, ls, h2⟩
    rw [hl, dropBom, if_neg (by simp [Csv.bom, List.isPrefixOf]), lines]
    have hfirst : doLine ⟨[], none⟩ (0x5B :: l) = .throw ∨ ∃ st, doLine ⟨[], none⟩ (0x5B :: l) = .ok st ∧ InSect st := by
      unfold doLine
      simp only
      rw [Csv.chop_cons (.inr (by decide)), List.takeWhile_cons_of_pos (by decide), List.dropWhile_cons_of_neg (by decide)]
      simp only
      rw [item, if_pos (rtrim_head (by decide))]
      split
      · exact .inl rfl
      split
      · exact .inl rfl
      · exact .inr (enter_inSect (by simp) _)
    rcases hfirst with e | ⟨st, e, hst⟩
    · rw [e]; intro h; cases h
    · rw [e]; exact lines_inSect ls st hst

example : parse "[a]\nx=1\n[a]\ny=2\n[b]\na\n".toUTF8.toList = .ok [("a".toUTF8.toList, .sect [("x".toUTF8.toList, "1".toUTF8.toList),
  ("y".toUTF8.toList, "2".toUTF8.toList)]), ("b".toUTF8.toList, .sect [("a".toUTF8.toList, [])])] := by decide +kernel
example : "[a]\nx=1\n[a]\ny=2\n[b]\na\n".toUTF8.toList.head? = some 0x5B := by decide +kernel

end Asteria.Ini
