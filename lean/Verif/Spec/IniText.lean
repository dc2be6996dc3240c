import Verif.Spec.Ini

/-!
# What an INI text means

Lines, what is in a line, and which values a text gives.  Nothing here refers to how the reader works; the type `Entry` of
results is that of Verif/Model/Ini.lean.
-/

namespace Asteria.Ini

/-- Spaces and tabs. -/
def Spaces (s : Bytes) : Prop := ∀ b ∈ s, b = 0x20 ∨ b = 0x09

/-- A comment, from `;` or `#`, or nothing. -/
def Remark (s : Bytes) : Prop := s = [] ∨ ∃ t, s = 0x3B :: t ∨ s = 0x23 :: t

/-- There is no comment in it. -/
def NoRemark (s : Bytes) : Prop := 0x3B ∉ s ∧ 0x23 ∉ s

/-- Something that neither begins nor ends with a space or a tab. -/
def Trimmed (s : Bytes) : Prop :=
  s ≠ [] ∧ (∀ x t, s = x :: t → x ≠ 0x20 ∧ x ≠ 0x09) ∧ (∀ t x, s = t ++ [x] → x ≠ 0x20 ∧ x ≠ 0x09)

/-- What can be in a line. -/
inductive Item where
  | blank
  | sect (name : Bytes)
  | prop (key value : Bytes)

/-- What is in a line; there may be spaces around everything except names of sections, to which they belong, and there may
be a comment at the end. -/
inductive Reads : Bytes → Item → Prop
  | blank {a c} : Spaces a → Remark c → Reads (a ++ c) .blank
  | sect {a n b c} : Spaces a → ¬ Spaces n → NoRemark n → Spaces b → Remark c →
      Reads (a ++ (0x5B :: (n ++ (0x5D :: (b ++ c))))) (.sect n)
  | word {a k b c} : Spaces a → Trimmed k → NoRemark k → 0x3D ∉ k → k.head? ≠ some 0x5B → Spaces b → Remark c →
      Reads (a ++ (k ++ (b ++ c))) (.prop k [])
  | pair {a k s s' v b c} : Spaces a → Trimmed k → NoRemark k → 0x3D ∉ k → k.head? ≠ some 0x5B → Spaces s → Spaces s' →
      (v = [] ∨ Trimmed v) → NoRemark v → Spaces b → Remark c →
      Reads (a ++ (k ++ (s ++ (0x3D :: (s' ++ (v ++ (b ++ c))))))) (.prop k v)

/-- A line without the carriage return at its end, if there is one. -/
inductive Unended : Bytes → Bytes → Prop
  | cr (l) : Unended (l ++ [0x0D]) l
  | plain (l) : (∀ q, l ≠ q ++ [0x0D]) → Unended l l

/-- The lines of a text. -/
inductive Lines : Bytes → List Bytes → Prop
  | nil : Lines [] []
  | last {l m} : l ≠ [] → 0x0A ∉ l → Unended l m → Lines l [m]
  | cons {l m t ls} : 0x0A ∉ l → Unended l m → Lines t ls → Lines (l ++ 0x0A :: t) (m :: ls)

/-- The properties in a section, or those before the first one, in order; `cur` is the section at the beginning. -/
def within (target : Option Bytes) : Option Bytes → List Item → List (Bytes × Bytes)
  | _, [] => []
  | cur, .blank :: is => within target cur is
  | _, .sect n :: is => within target (some n) is
  | cur, .prop k v :: is => if cur = target then (k, v) :: within target cur is else within target cur is

/-- The last value given to a key. -/
def Given (l : List (Bytes × Bytes)) (k v : Bytes) : Prop := ∃ p q, l = p ++ (k, v) :: q ∧ ∀ w, (k, w) ∉ q

/-- A section has the name of a property outside sections. -/
def Collision (is : List Item) : Prop := ∃ n v, .sect n ∈ is ∧ (n, v) ∈ within none none is

/-- What the items of a text mean: keys are distinct, and have the values that were given to them last. -/
structure Means (is : List Item) (root : List (Bytes × Entry)) : Prop where
  keys : (root.map (·.1)).Nodup
  texts : ∀ k v, (k, .text v) ∈ root ↔ Given (within none none is) k v
  sects : ∀ n, (∃ l, (n, .sect l) ∈ root) ↔ .sect n ∈ is
  inner : ∀ n l, (n, .sect l) ∈ root → (l.map (·.1)).Nodup ∧ ∀ k v, (k, v) ∈ l ↔ Given (within (some n) none is) k v

end Asteria.Ini
