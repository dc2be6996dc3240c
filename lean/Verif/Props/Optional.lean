import Verif.Spec.Optional

/-!
# C155: an `optional` is a value or none
-/

namespace Asteria.Optional

open StaticVector

variable {α β : Type}

theorem emplaceBack_new (x : α) : emplaceBack ⟨0, [none]⟩ x = .ok ⟨1, [some x]⟩ := by
  simp [emplaceBack, Vec.pushBack, fits, Vec.emplaceBackUnchecked, countMod]

theorem new_eq : (new : Opt α) = ⟨0, [none]⟩ := rfl

theorem clear_some (x : α) : Vec.clear (⟨1, [some x]⟩ : Opt α) = .ok ⟨0, [none]⟩ := by
  simp [Vec.clear, Vec.popNUnchecked, Vec.popBackUnchecked]

theorem clear_none : Vec.clear (⟨0, [none]⟩ : Opt α) = .ok ⟨0, [none]⟩ := rfl

/-- C155 for construction: by default there is no value; from a value there is that value; from an rvalue of another type of
`optional`, what it has, converted.  (Missing: construction from lvalues of another type, `C155_false`.) -/
theorem C155_construct_partial (conv : β → α) (husk : β → β) :
    Is (new : Opt α) none
      ∧ (∀ x : α, ∃ o, ofValue x = .ok o ∧ Is o (some x))
      ∧ ∀ (p : Opt β) (b : Option β), Is p b → ∃ o p', ofOtherMove conv husk p = .ok (o, p')
          ∧ Is o (b.map conv) ∧ Is p' (b.map husk) := by
  refine ⟨rfl, fun x => ⟨_, emplaceBack_new x, rfl⟩, fun p b h => ?_⟩
  cases b with
  | none =>
    cases h
    exact ⟨_, _, rfl, rfl, rfl⟩
  | some y =>
    cases h
    refine ⟨⟨1, [some (conv y)]⟩, ⟨1, [some (husk y)]⟩, ?_, rfl, rfl⟩
    simp [ofOtherMove, front, Vec.read, Vec.store, new_eq, emplaceBack_new]

/-- C155 for assignment, in all its forms, whatever the `optional` had before. -/
theorem C155_assign (conv : β → α) (husk : β → β) (hs : α → α) {o : Opt α} {a : Option α} (h : Is o a) :
    (∃ o', reset o = .ok o' ∧ Is o' none)
      ∧ (∀ x, ∃ o', assign o x = .ok o' ∧ Is o' (some x))
      ∧ (∀ x, ∃ o', emplace o x = .ok o' ∧ Is o' (some x))
      ∧ (∀ (p : Opt β) (b : Option β), Is p b → ∃ o', assignOther conv o p = .ok o' ∧ Is o' (b.map conv))
      ∧ (∀ (p : Opt β) (b : Option β), Is p b → ∃ o' p', assignOtherMove conv husk o p = .ok (o', p')
          ∧ Is o' (b.map conv) ∧ Is p' (b.map husk))
      ∧ (∀ (p : Opt α) (b : Option α), Is p b → ∃ o' p', takeFrom hs o p = .ok (o', p') ∧ Is o' b ∧ Is p' (b.map hs))
      ∧ (∀ (p : Opt α) (b : Option α), Is p b → ∃ o' p', swap hs o p = .ok (o', p') ∧ Is o' b ∧ Is p' a) := by
  cases a with
  | none =>
    cases h
    refine ⟨⟨_, rfl, rfl⟩, fun x => ⟨_, emplaceBack_new x, rfl⟩, fun x => ⟨_, emplaceBack_new x, rfl⟩, ?_, ?_, ?_, ?_⟩
    · intro p b hp
      cases b with
      | none => cases hp; exact ⟨_, rfl, rfl⟩
      | some y =>
        cases hp
        exact ⟨⟨1, [some (conv y)]⟩, by simp [assignOther, front, Vec.read, emplaceBack_new], rfl⟩
    · intro p b hp
      cases b with
      | none => cases hp; exact ⟨_, _, rfl, rfl, rfl⟩
      | some y =>
        cases hp
        exact ⟨⟨1, [some (conv y)]⟩, ⟨1, [some (husk y)]⟩,
          by simp [assignOtherMove, front, Vec.read, Vec.store, emplaceBack_new], rfl, rfl⟩
    · intro p b hp
      cases b with
      | none => cases hp; exact ⟨_, _, rfl, rfl, rfl⟩
      | some y => cases hp; exact ⟨⟨1, [some y]⟩, ⟨1, [some (hs y)]⟩, rfl, rfl, rfl⟩
    · intro p b hp
      cases b with
      | none => cases hp; exact ⟨_, _, rfl, rfl, rfl⟩
      | some y => cases hp; exact ⟨⟨1, [some y]⟩, ⟨0, [none]⟩, rfl, rfl, rfl⟩
  | some z =>
    cases h
    refine ⟨⟨_, clear_some z, rfl⟩, fun x => ⟨⟨1, [some x]⟩, rfl, rfl⟩, fun x => ⟨⟨1, [some x]⟩, ?_, rfl⟩, ?_, ?_, ?_, ?_⟩
    · unfold emplace
      rw [clear_some, Res.ok_bind, emplaceBack_new]
    · intro p b hp
      cases b with
      | none => cases hp; exact ⟨_, clear_some z, rfl⟩
      | some y => cases hp; exact ⟨⟨1, [some (conv y)]⟩, rfl, rfl⟩
    · intro p b hp
      cases b with
      | none => cases hp; exact ⟨⟨0, [none]⟩, ⟨0, [none]⟩, rfl, rfl, rfl⟩
      | some y => cases hp; exact ⟨⟨1, [some (conv y)]⟩, ⟨1, [some (husk y)]⟩, rfl, rfl, rfl⟩
    · intro p b hp
      cases b with
      | none => cases hp; exact ⟨⟨0, [none]⟩, ⟨0, [none]⟩, rfl, rfl, rfl⟩
      | some y => cases hp; exact ⟨⟨1, [some y]⟩, ⟨1, [some (hs y)]⟩, rfl, rfl, rfl⟩
    · intro p b hp
      cases b with
      | none => cases hp; exact ⟨⟨0, [none]⟩, ⟨1, [some z]⟩, rfl, rfl, rfl⟩
      | some y => cases hp; exact ⟨⟨1, [some y]⟩, ⟨1, [some z]⟩, rfl, rfl, rfl⟩

/-- C155 for observers: `value` throws if there is no value, `operator*` fails an assertion; `value_or` gives the default;
`value_or_emplace` makes one. -/
theorem C155_observe (husk : α → α) {o : Opt α} {a : Option α} (h : Is o a) :
    hasValue o = a.isSome
      ∧ value o = (match a with | none => .throw | some x => .ok x)
      ∧ front o = (match a with | none => .ub | some x => .ok x)
      ∧ (∀ d, valueOr o d = .ok (a.getD d))
      ∧ (∀ d, ∃ o', moveValueOr husk o d = .ok (a.getD d, o') ∧ Is o' (a.map husk))
      ∧ (∀ x, ∃ o', valueOrEmplace o x = .ok (a.getD x, o') ∧ Is o' (some (a.getD x))) := by
  cases a with
  | none =>
    cases h
    exact ⟨rfl, rfl, rfl, fun _ => rfl, fun _ => ⟨_, rfl, rfl⟩, fun x => ⟨⟨1, [some x]⟩, rfl, rfl⟩⟩
  | some y =>
    cases h
    exact ⟨rfl, rfl, rfl, fun _ => rfl, fun _ => ⟨⟨1, [some (husk y)]⟩, rfl, rfl⟩, fun x => ⟨⟨1, [some y]⟩, rfl, rfl⟩⟩

/-- C155 for comparison: two are equal if neither has a value or both have equal values; `!=` is the opposite. -/
theorem C155_compare (e : α → α → Bool) {o p : Opt α} {a b : Option α} (h : Is o a) (h' : Is p b) :
    eq e o p = .ok (same e a b) ∧ ne e o p = .ok (!same e a b)
      ∧ ∀ y, eqValue e o y = .ok (same e a (some y)) ∧ neValue e o y = .ok (!same e a (some y)) := by
  cases a <;> cases b <;> cases h <;> cases h' <;> exact ⟨rfl, rfl, fun _ => ⟨rfl, rfl⟩⟩

example : Is (⟨1, [some 'a']⟩ : Opt Char) (some 'a') ∧ Is (⟨0, [none]⟩ : Opt Char) none := ⟨rfl, rfl⟩

/-- C155 is false for construction from an lvalue of another type of `optional`: the test is the wrong way round.  If the other
one has a value, the new one has none; if it has none, the assertion in `front` fails. -/
theorem C155_false (conv : β → α) :
    (∀ y : β, ∀ p, Is p (some y) → ∃ o, ofOther conv p = .ok o ∧ Is o none)
      ∧ ∀ p : Opt β, Is p none → ofOther conv p = .ub :=
  ⟨fun _ _ h => by cases h; exact ⟨_, rfl, rfl⟩, fun _ h => by cases h; rfl⟩

end Asteria.Optional
