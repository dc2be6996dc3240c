import Verif.Model.Basic

/-!
# Random UUIDs

`std_system_random_uuid`, /repo/asteria/src/library/system.cpp:100-157.
-/

namespace Asteria.Uuid

/-- The lambda `y`, system.cpp:106-111: a hexadecimal digit of a number of 64 bits, of which the index of the lowest is zero.  `int` has 32 bits; `>>` of
a negative number is arithmetic. -/
def y (quad : Nat) (index : Nat) : UInt8 :=
  let value : BitVec 32 := BitVec.ofNat 32 (quad >>> (index * 4)) &&& 0x0F#32
  let shift : BitVec 32 := 0x30#32 - BitVec.sshiftRight ((9#32 - value) &&& (-0x2700#32)) 8
  UInt8.ofNat (value + shift).toNat

/-- `std_system_random_uuid`, system.cpp:113-156, with the two numbers that `::RAND_bytes()` gives; that it fails, which is not
checked, is left out. -/
def randomUuid (q0 q1 : Nat) : Bytes :=
  [y q0 0, y q0 1, y q0 2, y q0 3, y q0 4, y q0 5, y q0 6, y q0 7, 0x2D,
   y q0 8, y q0 9, y q0 10, y q0 11, 0x2D,
   0x34, y q0 12, y q0 13, y q0 14, 0x2D,
   y (8 ||| (q1 &&& 3)) 0, y q1 1, y q1 2, y q1 3, 0x2D,
   y q1 4, y q1 5, y q1 6, y q1 7, y q1 8, y q1 9, y q1 10, y q1 11, y q1 12, y q1 13, y q1 14, y q1 15]

end Asteria.Uuid
