import Verif.Model.Value

/-!
# Equality of values can be computed

For concrete cases.
-/

namespace Asteria

instance : DecidableEq Dbl := fun a b =>
  match a, b with
  | .nan, .nan => isTrue rfl
  | .inf s, .inf t => if h : s = t then isTrue (h ▸ rfl) else isFalse (fun k => by cases k; exact h rfl)
  | .fin p, .fin q => if h : p = q then isTrue (h ▸ rfl) else isFalse (fun k => by cases k; exact h rfl)
  | .nan, .inf _ => isFalse nofun
  | .nan, .fin _ => isFalse nofun
  | .inf _, .nan => isFalse nofun
  | .inf _, .fin _ => isFalse nofun
  | .fin _, .nan => isFalse nofun
  | .fin _, .inf _ => isFalse nofun

mutual
  def same : Value → Value → Bool
    | .null, .null => true
    | .bool a, .bool b => a == b
    | .int a, .int b => decide (a = b)
    | .real a, .real b => decide (a = b)
    | .str a, .str b => decide (a = b)
    | .arr l, .arr m => sameList l m
    | .obj l, .obj m => sameFields l m
    | _, _ => false
  def sameList : List Value → List Value → Bool
    | [], [] => true
    | a :: l, b :: m => same a b && sameList l m
    | _, _ => false
  def sameFields : List (Bytes × Value) → List (Bytes × Value) → Bool
    | [], [] => true
    | (k, a) :: l, (j, b) :: m => decide (k = j) && same a b && sameFields l m
    | _, _ => false
end

mutual
  theorem eq_of_same : (a b : Value) → same a b = true → a = b
    | .null, .null, _ => rfl
    | .bool a, .bool b, h => by simp [same] at h; rw [h]
    | .int a, .int b, h => by simp [same] at h; rw [h]
    | .real a, .real b, h => by simp [same] at h; rw [h]
    | .str a, .str b, h => by simp [same] at h; rw [h]
    | .arr l, .arr m, h => by rw [same] at h; rw [eq_of_sameList l m h]
    | .obj l, .obj m, h => by rw [same] at h; rw [eq_of_sameFields l m h]
    | .null, .bool _, h | .null, .int _, h | .null, .real _, h | .null, .str _, h | .null, .opaque _, h | .null, .func _, h | .null, .arr _, h | .null, .obj _, h => by simp [same] at h
    | .bool _, .null, h | .bool _, .int _, h | .bool _, .real _, h | .bool _, .str _, h | .bool _, .opaque _, h | .bool _, .func _, h | .bool _, .arr _, h | .bool _, .obj _, h => by simp [same] at h
    | .int _, .null, h | .int _, .bool _, h | .int _, .real _, h | .int _, .str _, h | .int _, .opaque _, h | .int _, .func _, h | .int _, .arr _, h | .int _, .obj _, h => by simp [same] at h
    | .real _, .null, h | .real _, .bool _, h | .real _, .int _, h | .real _, .str _, h | .real _, .opaque _, h | .real _, .func _, h | .real _, .arr _, h | .real _, .obj _, h => by simp [same] at h
    | .str _, .null, h | .str _, .bool _, h | .str _, .int _, h | .str _, .real _, h | .str _, .opaque _, h | .str _, .func _, h | .str _, .arr _, h | .str _, .obj _, h => by simp [same] at h
    | .opaque _, .null, h | .opaque _, .bool _, h | .opaque _, .int _, h | .opaque _, .real _, h | .opaque _, .str _, h | .opaque _, .opaque _, h | .opaque _, .func _, h | .opaque _, .arr _, h | .opaque _, .obj _, h => by simp [same] at h
    | .func _, .null, h | .func _, .bool _, h | .func _, .int _, h | .func _, .real _, h | .func _, .str _, h | .func _, .opaque _, h | .func _, .func _, h | .func _, .arr _, h | .func _, .obj _, h => by simp [same] at h
    | .arr _, .null, h | .arr _, .bool _, h | .arr _, .int _, h | .arr _, .real _, h | .arr _, .str _, h | .arr _, .opaque _, h | .arr _, .func _, h | .arr _, .obj _, h => by simp [same] at h
    | .obj _, .null, h | .obj _, .bool _, h | .obj _, .int _, h | .obj _, .real _, h | .obj _, .str _, h | .obj _, .opaque _, h | .obj _, .func _, h | .obj _, .arr _, h => by simp [same] at h
  theorem eq_of_sameList : (l m : List Value) → sameList l m = true → l = m
    | [], [], _ => rfl
    | a :: l, b :: m, h => by
      rw [sameList, Bool.and_eq_true] at h
      rw [eq_of_same a b h.1, eq_of_sameList l m h.2]
    | [], _ :: _, h => by simp [sameList] at h
    | _ :: _, [], h => by simp [sameList] at h
  theorem eq_of_sameFields : (l m : List (Bytes × Value)) → sameFields l m = true → l = m
    | [], [], _ => rfl
    | (k, a) :: l, (j, b) :: m, h => by
      rw [sameFields, Bool.and_eq_true, Bool.and_eq_true, decide_eq_true_eq] at h
      rw [h.1.1, eq_of_same a b h.1.2, eq_of_sameFields l m h.2]
    | [], _ :: _, h => by simp [sameFields] at h
    | _ :: _, [], h => by simp [sameFields] at h
end

end Asteria
