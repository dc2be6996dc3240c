import Verif.Proof.Files

/-!
# C121-C124: reading, streaming, writing and copying files
-/

namespace Asteria.Files

/-! ### C121: `std.filesystem.read` -/

theorem read_gen (σ : Sys) (d : Disk) (path : Bytes) (offset limit : Option Int)
    (hsize : ∀ f, d.file (d.name path) = some f → f.data.length < 2 ^ 63) :
    (∃ f, d.file (d.name path) = some f ∧ 0 ∉ path ∧ 0 ≤ offset.getD 0 ∧ read σ d path offset limit = .ok (part f.data offset limit)) ∨
    (read σ d path offset limit = .throw ∧ (offset.getD 0 < 0 ∨ 0 ∈ path ∨ d.file (d.name path) = none ∨ ∃ j, σ j = .fail)) := by
  unfold read
  by_cases ho : offset.getD 0 < 0
  · rw [if_pos ho]; exact .inr ⟨rfl, .inl ho⟩
  rw [if_neg ho]
  by_cases hp : 0 ∈ path
  · rw [if_pos (by simp [safe, hp])]; exact .inr ⟨rfl, .inr (.inl hp)⟩
  rw [if_neg (by simp [safe, hp])]
  cases h0 : σ 0 with
  | fail => exact .inr ⟨rfl, .inr (.inr (.inr ⟨0, h0⟩))⟩
  | upto k =>
    cases hf : d.file (d.name path) with
    | none => exact .inr ⟨rfl, .inr (.inr (.inl rfl))⟩
    | some f =>
      dsimp only
      have hs := hsize f hf
      rcases readLoop_spec σ f.data offset.isSome hs (f.data.length + 1) 1 0 (offset.getD 0) (limit.getD int64Max) 0x100000 []
        (by omega) (by omega) (by intro h; cases offset with | none => rfl | some _ => cases h) (by omega) with h | ⟨h, h'⟩
      · rw [h, part_take hs, List.nil_append]
        exact .inl ⟨f, rfl, hp, by omega, rfl⟩
      · exact .inr ⟨h, .inr (.inr (.inr h'))⟩

/-- **C121.** However the system splits the transfers, `std.filesystem.read(path, offset, limit)` returns precisely the bytes of the
file from `offset` (or the beginning) on, at most `limit` of them (or all), or throws an exception; an exception has a reason:
the offset is negative, the path has a null character, the file does not exist, or a call to the system has failed.  It is never
undefined. -/
theorem C121_read (σ : Sys) (d : Disk) (path : Bytes) (offset limit : Option Int)
    (hsize : ∀ f, d.file (d.name path) = some f → f.data.length < 2 ^ 63) :
    match read σ d path offset limit with
    | .ok s => ∃ f, d.file (d.name path) = some f ∧ 0 ∉ path ∧ 0 ≤ offset.getD 0 ∧ s = part f.data offset limit
    | .throw => offset.getD 0 < 0 ∨ 0 ∈ path ∨ d.file (d.name path) = none ∨ ∃ j, σ j = .fail
    | .ub => False := by
  rcases read_gen σ d path offset limit hsize with ⟨f, h1, h2, h3, h⟩ | ⟨h, h'⟩
  · rw [h]; exact ⟨f, h1, h2, h3, rfl⟩
  · rw [h]; exact h'

/-- A system that transfers three bytes at a time. -/
def slow : Sys := fun _ => .upto 3

/-- A system that fails at the fifth call. -/
def flaky : Sys := fun i => if i = 4 then .fail else .upto 3

/-- Two files, of which the second has two names. -/
def disk : Disk where
  name p := if p = [97] then 0 else if p = [98] ∨ p = [99] then 1 else 2
  file n := if n = 0 then some ⟨[1, 2, 3, 4, 5, 6, 7, 8, 9, 10], 0o640⟩ else if n = 1 then some ⟨[11, 12], 0o644⟩ else none
  umask := 0o022

example : read slow disk [97] (some 2) (some 7) = .ok [3, 4, 5, 6, 7, 8, 9] := by decide +kernel
example : read slow disk [97] (some 8) none = .ok [9, 10] := by decide +kernel
example : read slow disk [97] none (some (-1)) = .ok [] := by decide +kernel
example : read slow disk [97] (some (-1)) none = .throw := by decide +kernel
example : read flaky disk [97] (some 0) (some 10) = .throw := by decide +kernel
example : read flaky disk [97] (some 0) (some 9) = .ok [1, 2, 3, 4, 5, 6, 7, 8, 9] := by decide +kernel
example : ∀ f, disk.file (disk.name [97]) = some f → f.data.length < 2 ^ 63 := by decide +kernel

/-! ### C122: `std.filesystem.stream` -/

/-- **C122.** However the system splits the transfers, `std.filesystem.stream(path, callback, offset, limit)` gives to `callback`
nonempty blocks, with the offset of each, which follow each other and start at `offset` (or the beginning), until it throws an
exception; if `stream` returns, they have made up the bytes that `read` would have returned, and the result is their number.
Otherwise what has been given is a part of these bytes, and there is a reason. -/
theorem C122_stream (σ : Sys) (d : Disk) (path : Bytes) (cb : Int → Bytes → S → Res Unit × S) (offset limit : Option Int) (s : S)
    (hsize : ∀ f, d.file (d.name path) = some f → f.data.length < 2 ^ 63) :
    (∃ f, d.file (d.name path) = some f ∧ 0 ∉ path ∧ 0 ≤ offset.getD 0 ∧
      Streamed σ cb (offset.getD 0) (part f.data offset limit) (part f.data offset limit).length s (stream σ d path cb offset limit s)) ∨
    (stream σ d path cb offset limit s = (.throw, s) ∧ (offset.getD 0 < 0 ∨ 0 ∈ path ∨ d.file (d.name path) = none ∨ ∃ j, σ j = .fail)) := by
  unfold stream
  by_cases ho : offset.getD 0 < 0
  · rw [if_pos ho]; exact .inr ⟨rfl, .inl ho⟩
  rw [if_neg ho]
  by_cases hp : 0 ∈ path
  · rw [if_pos (by simp [safe, hp])]; exact .inr ⟨rfl, .inr (.inl hp)⟩
  rw [if_neg (by simp [safe, hp])]
  cases h0 : σ 0 with
  | fail => exact .inr ⟨rfl, .inr (.inr (.inr ⟨0, h0⟩))⟩
  | upto k =>
    cases hf : d.file (d.name path) with
    | none => exact .inr ⟨rfl, .inr (.inr (.inl rfl))⟩
    | some f =>
      dsimp only
      have hs := hsize f hf
      have h := streamLoop_spec σ f.data cb offset.isSome (offset.getD 0) hs (f.data.length + 1) 1 0 (offset.getD 0) (limit.getD int64Max) 0x100000 s
        (by omega) (by omega) (by intro h; cases offset with | none => rfl | some _ => cases h) (by omega)
      rw [part_take hs, Int.sub_self, Int.zero_add] at h
      exact .inl ⟨f, rfl, hp, by omega, h⟩

/-- A function that records what it gets. -/
def record (off : Int) (b : Bytes) (s : List (Int × Bytes)) : Res Unit × List (Int × Bytes) := (.ok (), s ++ [(off, b)])

example : stream slow disk [97] record (some 2) (some 7) [] = (.ok 7, [(2, [3, 4, 5]), (5, [6, 7, 8]), (8, [9])]) := by decide +kernel
example : stream flaky disk [97] record (some 0) (some 10) [] = (.throw, [(0, [1, 2, 3]), (3, [4, 5, 6]), (6, [7, 8, 9])]) := by decide +kernel

/-! ### C123: `std.filesystem.write` and `append` -/

/-- The end of `write` and `append`. -/
theorem write_end {σ : Sys} {d d1 : Disk} {path : Bytes} {f : File} {i : Nat} (h : Changed d d1 path f) (data : Bytes) :
    (∃ j d', writeLoop σ (d1.name path) data.length i data d1 = (.ok j, d') ∧ Changed d d' path ⟨f.data ++ data, f.mode⟩) ∨
    (∃ p d', writeLoop σ (d1.name path) data.length i data d1 = (.throw, d') ∧ p <+: data ∧ Changed d d' path ⟨f.data ++ p, f.mode⟩ ∧ ∃ j, σ j = .fail) := by
  rcases writeLoop_spec σ path data.length i data d1 f (by rw [h.name]; exact h.file) (Nat.le_refl _) with
    ⟨j, d', h1, h2⟩ | ⟨p, d', h1, h2, _, h4, h5⟩
  · exact .inl ⟨j, d', h1, h.trans h2⟩
  · exact .inr ⟨p, d', h1, h2, h.trans h4, h5⟩

/-- **C123 (`write`).** However the system splits the transfers, if `std.filesystem.write(path, offset, data)` returns, then the file
has the first `offset` bytes of what it had, with zeros for those it did not have (or nothing if no offset is given), followed by
`data`; its permissions are kept, or are 0666 without the bits of the `umask` if it is new; no other file has changed.
If there is an exception, there is a reason, and either nothing has happened, or the file has been created but not truncated, or
part of the data has been written. -/
theorem C123_write (σ : Sys) (d : Disk) (path : Bytes) (offset : Option Int) (data : Bytes) :
    match write σ d path offset data with
    | (.ok _, d') => 0 ∉ path ∧ 0 ≤ offset.getD 0 ∧ Changed d d' path ⟨kept (d.contents path) offset ++ data, d.modeOf path 0o666⟩
    | (.throw, d') =>
      ((offset.getD 0 < 0 ∨ 0 ∈ path) ∧ d' = d) ∨
      ((∃ j, σ j = .fail) ∧ (d' = d ∨ Changed d d' path ⟨d.contents path, d.modeOf path 0o666⟩ ∨
        ∃ p, p <+: data ∧ Changed d d' path ⟨kept (d.contents path) offset ++ p, d.modeOf path 0o666⟩))
    | (.ub, _) => False := by
  unfold write
  by_cases ho : offset.getD 0 < 0
  · rw [if_pos ho]; exact .inl ⟨.inl ho, rfl⟩
  rw [if_neg ho]
  by_cases hp : 0 ∈ path
  · rw [if_pos (by simp [safe, hp])]; exact .inl ⟨.inr hp, rfl⟩
  rw [if_neg (by simp [safe, hp])]
  cases h0 : σ 0 with
  | fail => exact .inr ⟨⟨0, h0⟩, .inl rfl⟩
  | upto k =>
    cases hc : d.create path offset.isNone false 0o666 with
    | none => exact absurd (create_none.1 hc).1 (by simp)
    | some d1 =>
      have hch := (create_spec hc).1
      dsimp only
      cases offset with
      | none =>
        dsimp only
        rcases write_end (σ := σ) (i := 1) hch data with ⟨j, d', h1, h2⟩ | ⟨p, d', h1, h2, h3, h4⟩
        · rw [h1]; exact ⟨hp, by omega, h2⟩
        · rw [h1]; exact .inr ⟨h4, .inr (.inr ⟨p, h2, h3⟩)⟩
      | some off =>
        dsimp only
        cases h1 : σ 1 with
        | fail => exact .inr ⟨⟨1, h1⟩, .inr (.inl hch)⟩
        | upto k' =>
          dsimp only
          have ht := hch.trans (changed_truncate (by rw [hch.name]; exact hch.file) off)
          have hn : (d1.truncate (d1.name path) off.toNat).name path = d1.name path := by rw [ht.name, hch.name]
          rcases write_end (σ := σ) (i := 2) ht data with ⟨j, d', h1, h2⟩ | ⟨p, d', h1, h2, h3, h4⟩
          · rw [hn] at h1; rw [h1]; exact ⟨hp, by omega, h2⟩
          · rw [hn] at h1; rw [h1]; exact .inr ⟨h4, .inr (.inr ⟨p, h2, h3⟩)⟩

/-- **C123 (`append`).** Likewise, `std.filesystem.append(path, data, exclusive)` keeps everything the file had.  If `exclusive` is
`true` it returns only if there was no file, and otherwise nothing happens. -/
theorem C123_append (σ : Sys) (d : Disk) (path data : Bytes) (exclusive : Option Bool) :
    match append σ d path data exclusive with
    | (.ok _, d') => 0 ∉ path ∧ (exclusive = some true → d.file (d.name path) = none) ∧
      Changed d d' path ⟨d.contents path ++ data, d.modeOf path 0o666⟩
    | (.throw, d') =>
      ((0 ∈ path ∨ (exclusive = some true ∧ d.file (d.name path) ≠ none)) ∧ d' = d) ∨
      ((∃ j, σ j = .fail) ∧ (d' = d ∨ ((exclusive = some true → d.file (d.name path) = none) ∧
        ∃ p, p <+: data ∧ Changed d d' path ⟨d.contents path ++ p, d.modeOf path 0o666⟩)))
    | (.ub, _) => False := by
  unfold append
  by_cases hp : 0 ∈ path
  · rw [if_pos (by simp [safe, hp])]; exact .inl ⟨.inl hp, rfl⟩
  rw [if_neg (by simp [safe, hp])]
  cases h0 : σ 0 with
  | fail => exact .inr ⟨⟨0, h0⟩, .inl rfl⟩
  | upto k =>
    cases hc : d.create path false (decide (exclusive = some true)) 0o666 with
    | none => exact .inl ⟨.inr (by simpa using create_none.1 hc), rfl⟩
    | some d1 =>
      obtain ⟨hch, hx⟩ := create_spec hc
      dsimp only
      rcases write_end (σ := σ) (i := 1) hch data with ⟨j, d', h1, h2⟩ | ⟨p, d', h1, h2, h3, h4⟩
      · rw [h1]; exact ⟨hp, by simpa using hx, h2⟩
      · rw [h1]; exact .inr ⟨h4, .inr ⟨by simpa using hx, p, h2, h3⟩⟩

/-- The file with a name after a call, and whether it has returned. -/
def after (r : Res Unit × Disk) (path : Bytes) : Bool × Option File := (decide (r.1 = .ok ()), r.2.file (r.2.name path))

example : after (write slow disk [97] (some 3) [21, 22, 23, 24]) [97] = (true, some ⟨[1, 2, 3, 21, 22, 23, 24], 0o640⟩) := by decide +kernel
example : after (write slow disk [98] (some 3) [21, 22, 23, 24]) [99] = (true, some ⟨[11, 12, 0, 21, 22, 23, 24], 0o644⟩) := by decide +kernel
example : after (write slow disk [100] none [21, 22, 23, 24]) [100] = (true, some ⟨[21, 22, 23, 24], 0o644⟩) := by decide +kernel
example : after (write flaky disk [97] none [21, 22, 23, 24, 25, 26, 27, 28, 29, 30]) [97] =
    (false, some ⟨[21, 22, 23, 24, 25, 26, 27, 28, 29], 0o640⟩) := by decide +kernel
example : after (append slow disk [98] [21, 22, 23, 24] none) [98] = (true, some ⟨[11, 12, 21, 22, 23, 24], 0o644⟩) := by decide +kernel
example : after (append slow disk [98] [21, 22, 23, 24] (some true)) [98] = (false, some ⟨[11, 12], 0o644⟩) := by decide +kernel

/-! ### C124: `std.filesystem.copy` -/

/-- **C124, as one would expect it.** If `std.filesystem.copy(path_new, path_old)` returns, `path_new` has the contents and permissions
that `path_old` had, and `path_old` still has them; no other file has changed. -/
def C124_claim : Prop := ∀ (σ : Sys) (d d' : Disk) (blksize : Nat) (pathNew pathOld : Bytes), copy σ d blksize pathNew pathOld = (.ok (), d') →
  ∃ f, d.file (d.name pathOld) = some f ∧ Changed d d' pathNew f ∧ d'.file (d.name pathOld) = some f

theorem copy_self (σ : Sys) (d d' : Disk) (blksize : Nat) (pathNew pathOld : Bytes) (hn : d.name pathNew = d.name pathOld)
    (h : copy σ d blksize pathNew pathOld = (.ok (), d')) :
    ∃ f, d.file (d.name pathOld) = some f ∧ Changed d d' pathOld ⟨[], f.mode⟩ := by
  unfold copy at h
  by_cases hp : 0 ∈ pathOld
  · rw [if_pos (by simp [safe, hp])] at h; cases h
  rw [if_neg (by simp [safe, hp])] at h
  cases h0 : σ 0 with
  | fail => rw [h0] at h; cases h
  | upto k0 =>
    cases hf : d.file (d.name pathOld) with
    | none => rw [h0, hf] at h; cases h
    | some f =>
      refine ⟨f, rfl, ?_⟩
      rw [h0, hf] at h
      dsimp only at h
      by_cases hp' : 0 ∈ pathNew
      · rw [if_pos (by simp [safe, hp'])] at h; cases h
      rw [if_neg (by simp [safe, hp'])] at h
      cases h1 : σ 1 with
      | fail => rw [h1] at h; cases h
      | upto k1 =>
        cases hc : d.create pathNew true false 0o200 with
        | none => rw [h1, hc] at h; cases h
        | some d1 =>
          rw [h1, hc] at h
          dsimp only at h
          have hch := (create_spec hc).1
          have hm : d.modeOf pathNew 0o200 = f.mode := by unfold Disk.modeOf; rw [hn, hf]; rfl
          simp only [if_true, hm] at hch
          have hfile := hch.file
          have hname := hch.name
          rw [hname, hn] at h
          rw [hn] at hfile
          rw [hfile] at h
          cases h2 : σ 2 with
          | fail => rw [h2] at h; cases h
          | upto k2 =>
            rw [h2] at h
            dsimp only [List.length_nil] at h
            rw [copyLoop] at h
            cases h3 : σ 3 with
            | fail => rw [h3] at h; cases h
            | upto k3 =>
              rw [h3] at h
              dsimp only at h
              rw [hfile] at h
              simp only [Option.map_some, Option.getD_some, List.drop_nil, List.length_nil, Nat.min_zero] at h
              rw [if_pos (by simp [moved])] at h
              dsimp only at h
              rw [hfile] at h
              cases h4 : σ (3 + 1) with
              | fail => rw [h4] at h; cases h
              | upto k4 =>
                rw [h4] at h
                cases h
                have := hch.trans (changed_put d1 pathNew ⟨[], f.mode⟩)
                rw [hname, hn] at this
                exact ⟨this.name, this.umask, by have := this.file; rwa [hn] at this, by have := this.other; rwa [hn] at this⟩

/-- **C124 is false**: copying a file to itself, or to another name of the same file, destroys its contents: the file is truncated
before it is read. -/
theorem C124_false : ¬ C124_claim := by
  intro h
  have e : (copy slow disk 4096 [99] [98]).1 = .ok () := by decide +kernel
  obtain ⟨f, h1, _, h3⟩ := h slow disk _ 4096 [99] [98] (Prod.ext e rfl)
  obtain ⟨g, h4, h5⟩ := copy_self slow disk _ 4096 [99] [98] (by decide +kernel) (Prod.ext e rfl)
  rw [h1] at h4
  cases h4
  rw [h5.file] at h3
  have hf : f.data = [] := congrArg File.data (Option.some.inj h3).symm
  have hg : disk.file (disk.name [98]) = some ⟨[11, 12], 0o644⟩ := by decide +kernel
  rw [hg] at h1
  cases h1
  cases hf

/-- **C124 (files copied to themselves).** Whenever both paths lead to the same file, `copy` empties it and returns as if it had
succeeded. -/
theorem C124_false_self (σ : Sys) (d d' : Disk) (blksize : Nat) (pathNew pathOld : Bytes) (hn : d.name pathNew = d.name pathOld)
    (h : copy σ d blksize pathNew pathOld = (.ok (), d')) :
    ∃ f, d.file (d.name pathOld) = some f ∧ Changed d d' pathOld ⟨[], f.mode⟩ := copy_self σ d d' blksize pathNew pathOld hn h

/-- **C124 (partial).** However the system splits the transfers, if the paths lead to different files and `copy` returns, then
`path_new` has the contents and permissions of `path_old`, and nothing else has changed.  If there is an exception then there is
a reason, and either nothing has happened, or the new file has a part of the contents, and the permissions it had; if it is new,
it can be read by nobody.  What is missing: paths that lead to the same file, see `C124_false_self`. -/
theorem C124_partial (σ : Sys) (d : Disk) (blksize : Nat) (pathNew pathOld : Bytes) (hne : d.name pathNew ≠ d.name pathOld) :
    match copy σ d blksize pathNew pathOld with
    | (.ok _, d') => 0 ∉ pathNew ∧ 0 ∉ pathOld ∧
      ∃ f, d.file (d.name pathOld) = some f ∧ Changed d d' pathNew f ∧ d'.file (d.name pathOld) = some f
    | (.throw, d') =>
      ((0 ∈ pathNew ∨ 0 ∈ pathOld ∨ d.file (d.name pathOld) = none) ∧ d' = d) ∨
      ((∃ j, σ j = .fail) ∧ (d' = d ∨ ∃ f p, d.file (d.name pathOld) = some f ∧ p <+: f.data ∧ Changed d d' pathNew ⟨p, d.modeOf pathNew 0o200⟩))
    | (.ub, _) => False := by
  unfold copy
  by_cases hp : 0 ∈ pathOld
  · rw [if_pos (by simp [safe, hp])]; exact .inl ⟨.inr (.inl hp), rfl⟩
  rw [if_neg (by simp [safe, hp])]
  cases h0 : σ 0 with
  | fail => exact .inr ⟨⟨0, h0⟩, .inl rfl⟩
  | upto k0 =>
    cases hf : d.file (d.name pathOld) with
    | none => exact .inl ⟨.inr (.inr rfl), rfl⟩
    | some f =>
      dsimp only
      by_cases hp' : 0 ∈ pathNew
      · rw [if_pos (by simp [safe, hp'])]; exact .inl ⟨.inl hp', rfl⟩
      rw [if_neg (by simp [safe, hp'])]
      cases h1 : σ 1 with
      | fail => exact .inr ⟨⟨1, h1⟩, .inl rfl⟩
      | upto k1 =>
        cases hc : d.create pathNew true false 0o200 with
        | none => exact absurd (create_none.1 hc).1 (by simp)
        | some d1 =>
          dsimp only
          have hch := (create_spec hc).1
          simp only [if_true] at hch
          have hold : d1.file (d.name pathOld) = some f := (hch.other _ fun h => hne h.symm).trans hf
          rw [hold]
          cases h2 : σ 2 with
          | fail => exact .inr ⟨⟨2, h2⟩, .inr ⟨f, [], rfl, by simp, hch⟩⟩
          | upto k2 =>
            dsimp only
            rcases copyLoop_spec σ pathNew (d.name pathOld) (blksize ||| 0x1000) (nbuf_pos _) f (d.modeOf pathNew 0o200) (f.data.length + 1) 3 0 d1
              (by rw [hch.name]; exact fun h => hne h.symm) hold (by rw [hch.name]; exact hch.file) (by omega) (by omega) with
              ⟨j, d2, h3, h4⟩ | ⟨p, d2, h3, h4, h5, h6⟩
            · rw [h3]
              dsimp only
              have h5 := hch.trans h4
              rw [hch.name, h5.file]
              cases hj : σ j with
              | fail => exact .inr ⟨⟨j, hj⟩, .inr ⟨f, f.data, rfl, List.prefix_refl _, h5⟩⟩
              | upto k =>
                dsimp only
                have h6 := h5.trans (changed_put d2 pathNew f)
                rw [h5.name] at h6
                exact ⟨hp', hp, f, rfl, h6, (h6.other _ fun h => hne h.symm).trans hf⟩
            · rw [h3]
              exact .inr ⟨h6, .inr ⟨f, p, rfl, h4, hch.trans h5⟩⟩

example : after (copy slow disk 512 [100] [97]) [100] = (true, some ⟨[1, 2, 3, 4, 5, 6, 7, 8, 9, 10], 0o640⟩) := by decide +kernel
example : after (copy slow disk 512 [98] [97]) [99] = (true, some ⟨[1, 2, 3, 4, 5, 6, 7, 8, 9, 10], 0o640⟩) := by decide +kernel
example : after (copy flaky disk 512 [100] [97]) [100] = (false, some ⟨[], 0o200⟩) := by decide +kernel
example : after (copy slow disk 512 [99] [98]) [98] = (true, some ⟨[], 0o644⟩) := by decide +kernel

end Asteria.Files
