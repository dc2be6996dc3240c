import Verif.Model.Modules
import Verif.Proof.NumText

/-!
# Properties of the module loader
-/

namespace Asteria.Modules

open NumText (writeDigits writeDigits_spec digitChar digitChar_spec valueOf)

/-! ### Keys -/

theorem digits_inj {base : Nat} (hb : base ≤ 16) : ∀ {a b : List Nat}, (∀ d ∈ a, d < base) → (∀ d ∈ b, d < base) →
    a.map digitChar = b.map digitChar → a = b
  | [], [], _, _, _ => rfl
  | [], _ :: _, _, _, h => by cases h
  | _ :: _, [], _, _, h => by cases h
  | x :: a, y :: b, ha, hb', h => by
    simp only [List.map_cons, List.cons.injEq] at h
    have hx := (digitChar_spec x (Nat.lt_of_lt_of_le (ha x (by simp)) hb)).1
    have hy := (digitChar_spec y (Nat.lt_of_lt_of_le (hb' y (by simp)) hb)).1
    rw [h.1, hy] at hx
    rw [hx, digits_inj hb (fun d hd => ha d (by simp [hd])) (fun d hd => hb' d (by simp [hd])) h.2]

theorem writeDigits_inj {m n : Nat} (hm : m < 2 ^ 64) (hn : n < 2 ^ 64) (h : writeDigits 10 m 1 = writeDigits 10 n 1) : m = n := by
  have hp : (2 : Nat) ^ 64 ≤ 10 ^ 64 := by decide +kernel
  obtain ⟨a, ea, ha, va, _⟩ := writeDigits_spec 10 m 1 (by decide) (by omega) (by decide)
  obtain ⟨b, eb, hb, vb, _⟩ := writeDigits_spec 10 n 1 (by decide) (by omega) (by decide)
  rw [ea, eb] at h
  rw [← va, ← vb, digits_inj (by decide) ha hb h]

theorem writeDigits_noSlash {m : Nat} (hm : m < 2 ^ 64) : 0x2F ∉ writeDigits 10 m 1 := by
  have hp : (2 : Nat) ^ 64 ≤ 10 ^ 64 := by decide +kernel
  obtain ⟨a, ea, ha, _, _⟩ := writeDigits_spec 10 m 1 (by decide) (by omega) (by decide)
  rw [ea]
  intro h
  obtain ⟨d, hd, e⟩ := List.mem_map.1 h
  have : ∀ d : Fin 10, digitChar d.val ≠ 0x2F := by decide +kernel
  exact this ⟨d, ha d hd⟩ e

theorem split_slash {a b c d : Bytes} (ha : (0x2F : UInt8) ∉ a) (hb : (0x2F : UInt8) ∉ b) (h : a ++ 0x2F :: c = b ++ 0x2F :: d) :
    a = b ∧ c = d := by
  induction a generalizing b with
  | nil =>
    cases b with
    | nil => simpa using h
    | cons y b => simp only [List.nil_append, List.cons_append, List.cons.injEq] at h; exact absurd h.1 (fun e => hb (by simp [e]))
  | cons x a ih =>
    cases b with
    | nil => simp only [List.nil_append, List.cons_append, List.cons.injEq] at h; exact absurd h.1 (fun e => ha (by simp [e]))
    | cons y b =>
      simp only [List.cons_append, List.cons.injEq] at h
      have := ih (b := b) (fun e => ha (by simp [e])) (fun e => hb (by simp [e])) h.2
      exact ⟨by rw [h.1, this.1], this.2⟩

/-- Different files have different keys. -/
theorem C67_key {d1 i1 d2 i2 : Nat} (h1 : d1 < 2 ^ 64) (h2 : i1 < 2 ^ 64) (h3 : d2 < 2 ^ 64) (h4 : i2 < 2 ^ 64)
    (h : key d1 i1 = key d2 i2) : d1 = d2 ∧ i1 = i2 := by
  unfold key at h
  have e := List.append_cancel_left h
  have es : "/ino:".toUTF8.toList = (0x2F : UInt8) :: "ino:".toUTF8.toList := by decide +kernel
  rw [es, List.cons_append, List.cons_append] at e
  obtain ⟨ha, hb⟩ := split_slash (writeDigits_noSlash h1) (writeDigits_noSlash h3) e
  exact ⟨writeDigits_inj h1 h3 ha, writeDigits_inj h2 h4 (List.append_cancel_left hb)⟩

example : key 2049 131 = "dev:2049/ino:131".toUTF8.toList := by decide +kernel

/-! ### What imports are meant to do -/

/-- The device and the inode number of a file. -/
abbrev Id := Nat × Nat

/-- Why a file can not be imported, if it can not: above all, it must not be among those that are being imported. -/
def refusal (busy : List Id) (f : File) : Option Error :=
  if ¬ f.opens then some .open
  else if ¬ f.stats then some .stat
  else if (f.dev, f.ino) ∈ busy then some .recursive
  else none

mutual
/-- An import, while some files are being imported.  There is nothing to be undone. -/
def spec (busy : List Id) : Module → Option Error
  | .mk f imports throws =>
    match refusal busy f with
    | some e => some e
    | none => match specAll ((f.dev, f.ino) :: busy) imports with
      | some e => some e
      | none => if throws then some .script else none

def specAll (busy : List Id) : List (Bool × Module) → Option Error
  | [] => none
  | (caught, m) :: ms =>
    match spec busy m with
    | some e => if caught then specAll busy ms else some e
    | none => specAll busy ms
end

mutual
/-- Numbers of files are 64-bit integers, and `::flock` does not fail. -/
def Module.Ok : Module → Prop
  | .mk f imports _ => f.dev < 2 ^ 64 ∧ f.ino < 2 ^ 64 ∧ f.locks = true ∧ AllOk imports

def AllOk : List (Bool × Module) → Prop
  | [] => True
  | (_, m) :: ms => m.Ok ∧ AllOk ms
end

/-- The keys of files. -/
def keys (busy : List Id) : List Bytes := busy.map fun x => key x.1 x.2

/-- Numbers of files are 64-bit integers. -/
def IdsOk (busy : List Id) : Prop := ∀ x ∈ busy, x.1 < 2 ^ 64 ∧ x.2 < 2 ^ 64

theorem key_mem {busy : List Id} (hb : IdsOk busy) {d i : Nat} (hd : d < 2 ^ 64) (hi : i < 2 ^ 64) :
    key d i ∈ keys busy ↔ (d, i) ∈ busy := by
  constructor
  · intro h
    obtain ⟨⟨d', i'⟩, hm, e⟩ := List.mem_map.1 h
    have := hb _ hm
    obtain ⟨rfl, rfl⟩ := C67_key this.1 this.2 hd hi e
    exact hm
  · intro h
    exact List.mem_map.2 ⟨_, h, rfl⟩

mutual
/-- **C67**, partial: as long as `::flock` does not fail, a file can be imported exactly if it is not being imported, at
whatever depth; and after an import, normally or by an exception, those that are being imported are the same as before.
Missing: failures of `::flock` (`C67_false`). -/
theorem C67_partial (busy : List Id) (hb : IdsOk busy) : ∀ m : Module, m.Ok → run (keys busy) m = (spec busy m, keys busy)
  | .mk f imports throws, hok => by
    rw [Module.Ok] at hok
    obtain ⟨h1, h2, h3, h4⟩ := hok
    rw [run, spec]
    have hm := key_mem hb h1 h2
    unfold lock refusal
    by_cases ho : f.opens = true
    · by_cases hs : f.stats = true
      · by_cases hk : (f.dev, f.ino) ∈ busy
        · simp [ho, hs, hk, hm.2 hk]
        · have hk' : key f.dev f.ino ∉ keys busy := fun e => hk (hm.1 e)
          have hb' : IdsOk ((f.dev, f.ino) :: busy) := by
            intro x hx
            rcases List.mem_cons.1 hx with rfl | hx
            · exact ⟨h1, h2⟩
            · exact hb x hx
          have ih := C67_all_partial ((f.dev, f.ino) :: busy) hb' imports h4
          have e : keys ((f.dev, f.ino) :: busy) = key f.dev f.ino :: keys busy := rfl
          rw [e] at ih
          simp only [ho, hs, hk, hk', h3, not_true, if_false]
          rw [ih]
          simp only [unlock, List.erase_cons_head]
          cases specAll ((f.dev, f.ino) :: busy) imports <;> rfl
      · simp [ho, hs]
    · simp [ho]

/-- **C67** for several imports in sequence, partial. -/
theorem C67_all_partial (busy : List Id) (hb : IdsOk busy) : ∀ ms : List (Bool × Module), AllOk ms →
    runAll (keys busy) ms = (specAll busy ms, keys busy)
  | [], _ => by rw [runAll, specAll]
  | (caught, m) :: ms, hok => by
    rw [AllOk] at hok
    have h1 := C67_partial busy hb m hok.1
    have h2 := C67_all_partial busy hb ms hok.2
    rw [runAll, specAll, h1]
    simp only
    cases spec busy m with
    | none => exact h2
    | some e => cases caught <;> simp [h2]
end

/-- Two files. -/
def fileA : File := ⟨true, true, true, 2049, 131⟩
def fileB : File := ⟨true, true, true, 2049, 132⟩

/-- `a` imports `b`, which imports `a`: denied.  If `b` catches that, all is well; and `b` can be imported again after that. -/
example : spec [] (.mk fileA [(false, .mk fileB [(false, .mk fileA [] false)] false)] false) = some .recursive := by decide +kernel
example : spec [] (.mk fileA [(false, .mk fileB [(true, .mk fileA [] false)] false), (false, .mk fileB [] false)] false) = none := by
  decide +kernel
example : Module.Ok (.mk fileA [(false, .mk fileB [(true, .mk fileA [] false)] false), (false, .mk fileB [] false)] false) := by
  simp [Module.Ok, AllOk, fileA, fileB]

/-- **C67** as stated: after imports, whatever happened, nothing is locked. -/
def C67_claim : Prop := ∀ ms : List (Bool × Module), (runAll [] ms).2 = []

/-- **C67** is false: if `::flock` fails, then the file stays marked, and is never imported again, as if it were being
imported. -/
theorem C67_false : ¬ C67_claim := by
  intro h
  have := h [(true, .mk { fileA with locks := false } [] false)]
  revert this
  decide +kernel

/-- The second attempt is denied as a recursive import. -/
theorem C67_false_denied : (runAll [] [(true, .mk { fileA with locks := false } [] false), (false, .mk fileA [] false)]).1 =
    some .recursive := by decide +kernel

end Asteria.Modules
