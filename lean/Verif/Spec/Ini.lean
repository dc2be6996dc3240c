import Verif.Model.Ini

/-!
# What an INI text keeps of an object
-/

namespace Asteria.Ini

/-- The properties that are kept of an object: its strings, and null, booleans and numbers as text. -/
def scal (print : Value → Bytes) (obj : List (Bytes × Value)) : List (Bytes × Bytes) :=
  obj.filterMap fun x =>
    match x.2 with
    | .str s => some (x.1, s)
    | .opaque _ | .func _ | .arr _ | .obj _ => none
    | v => some (x.1, print v)

/-- The sections that are kept of an object: its objects. -/
def sects (print : Value → Bytes) (obj : List (Bytes × Value)) : List (Bytes × List (Bytes × Bytes)) :=
  obj.filterMap fun x =>
    match x.2 with
    | .obj ps => some (x.1, scal print ps)
    | _ => none

/-- Null, booleans and numbers. -/
def Plain : Value → Prop
  | .null | .bool _ | .int _ | .real _ => True
  | _ => False

/-- What is read back: properties first, then sections. -/
def image (print : Value → Bytes) (obj : List (Bytes × Value)) : List (Bytes × Entry) :=
  (scal print obj).map (fun x => (x.1, .text x.2)) ++ (sects print obj).map (fun x => (x.1, .sect x.2))

/-- A text that fits in a line: none of `[]=;#`, and neither a space nor a tab at either end. -/
def Fits (s : Bytes) : Prop :=
  (∀ b ∈ s, b ∉ ([0x5B, 0x5D, 0x3D, 0x3B, 0x23] : Bytes)) ∧
    (∀ x t, s = x :: t → x ≠ 0x20 ∧ x ≠ 0x09) ∧ (∀ t x, s = t ++ [x] → x ≠ 0x20 ∧ x ≠ 0x09)

/-- The names and values that are written for an object. -/
def PropsFit (obj : List (Bytes × Value)) : Prop :=
  ∀ k v, (k, v) ∈ obj → (Plain v ∨ ∃ s, v = .str s) → k ≠ [] ∧ Fits k ∧ ∀ s, v = .str s → Fits s

/-- What the formatter accepts. -/
def Formattable (obj : List (Bytes × Value)) : Prop :=
  PropsFit obj ∧ ∀ k ps, (k, .obj ps) ∈ obj → k ≠ [] ∧ Fits k ∧ PropsFit ps

/-- No line break in what is written for an object. -/
def NoBreakProps (obj : List (Bytes × Value)) : Prop :=
  ∀ k v, (k, v) ∈ obj → 0x0A ∉ k ∧ ∀ s, v = .str s → 0x0A ∉ s

def NoBreak (obj : List (Bytes × Value)) : Prop :=
  NoBreakProps obj ∧ ∀ k ps, (k, .obj ps) ∈ obj → NoBreakProps ps

/-- Keys of objects are distinct. -/
def Distinct (obj : List (Bytes × Value)) : Prop :=
  (obj.map (·.1)).Nodup ∧ ∀ k ps, (k, .obj ps) ∈ obj → (ps.map (·.1)).Nodup

end Asteria.Ini
