import Verif.Spec.Files

/-!
# Lemmas about reading and writing files
-/

namespace Asteria.Files

theorem moved_le (k n : Nat) : moved k n ≤ n := by unfold moved; omega

theorem moved_zero {k n : Nat} : moved k n = 0 ↔ n = 0 := by unfold moved; omega

theorem batch_pos {nb : Nat} {l : Int} (hn : 0 < nb) (hl : 0 < l) : 0 < batch nb l := by
  unfold batch intMax
  split
  · omega
  · split <;> omega

theorem batch_le (nb : Nat) (l : Int) : batch nb l ≤ l.toNat := by
  unfold batch
  split
  · omega
  · split <;> omega

/-- The first `r` of the bytes at `l` in two pieces. -/
theorem take_split (c : Bytes) (p r n : Nat) (hn : n ≤ r) :
    (c.drop p).take n ++ (c.drop (p + n)).take (r - n) = (c.drop p).take r := by
  rw [← List.drop_drop, ← List.take_add, Nat.add_sub_cancel' hn]

theorem readLoop_spec (σ : Sys) (c : Bytes) (seek : Bool) (hc : c.length < 2 ^ 63) :
    ∀ (fuel i fpos : Nat) (roff rlimit : Int) (nb : Nat) (data : Bytes), 0 < nb → 0 ≤ roff → (seek = false → roff = fpos) → c.length - roff.toNat < fuel →
      readLoop σ c seek fuel i fpos roff rlimit nb data = .ok (data ++ (c.drop roff.toNat).take rlimit.toNat) ∨
      (readLoop σ c seek fuel i fpos roff rlimit nb data = .throw ∧ ∃ j, σ j = .fail) := by
  intro fuel
  induction fuel with
  | zero => intro i fpos roff rlimit nb data _ _ _ h; omega
  | succ fuel ih =>
    intro i fpos roff rlimit nb data hnb hro hse hf
    rw [readLoop]
    by_cases hl : rlimit ≤ 0
    · rw [if_pos hl, show rlimit.toNat = 0 by omega]; left; simp
    rw [if_neg hl]
    dsimp only
    cases hσ : σ i with
    | fail => exact .inr ⟨rfl, i, hσ⟩
    | upto k =>
      dsimp only
      have hp : (if seek = true then roff.toNat else fpos) = roff.toNat := by
        split
        · rfl
        · rename_i h
          have := hse (by simpa using h)
          omega
      rw [hp]
      have hb := batch_pos hnb (show 0 < rlimit by omega)
      have hb' := batch_le nb rlimit
      generalize hn : moved k (min (batch nb rlimit) (c.drop roff.toNat).length) = n
      have hle := moved_le k (min (batch nb rlimit) (c.drop roff.toNat).length)
      rw [hn] at hle
      by_cases h0 : n = 0
      · rw [if_pos h0]
        subst h0
        have := moved_zero.1 hn
        have hz : (c.drop roff.toNat).length = 0 := by omega
        rw [List.length_eq_zero_iff] at hz
        rw [hz]
        left; simp
      rw [if_neg h0]
      have hlen : (c.drop roff.toNat).length = c.length - roff.toNat := List.length_drop ..
      rw [if_neg (by unfold int64Max; omega)]
      rcases ih (i + 1) (if seek = true then fpos else fpos + n) (roff + n) (rlimit - n) (batch nb rlimit)
        (data ++ (c.drop roff.toNat).take n) hb (by omega)
        (by intro h; have := hse h; simp only [h, Bool.false_eq_true, if_false]; omega) (by omega) with h | h
      · left
        rw [h, show (roff + n).toNat = roff.toNat + n by omega, show (rlimit - n).toNat = rlimit.toNat - n by omega, List.append_assoc,
          take_split _ _ _ _ (by omega)]
      · exact .inr h

theorem part_take {c : Bytes} (hc : c.length < 2 ^ 63) (offset limit : Option Int) :
    (c.drop (offset.getD 0).toNat).take (limit.getD int64Max).toNat = part c offset limit := by
  unfold part
  cases limit with
  | some n => rfl
  | none =>
    rw [List.take_of_length_le]
    rw [List.length_drop]
    simp only [Option.getD_none]
    unfold int64Max
    omega

theorem deliver_cons {cb : Int → Bytes → S → Res Unit × S} {off : Int} {b : Bytes} {bs : List Bytes} {s s' : S} {u : Unit}
    (h : cb off b s = (.ok u, s')) : deliver cb off (b :: bs) s = deliver cb (off + b.length) bs s' := by
  rw [deliver, h]

theorem streamLoop_spec (σ : Sys) (c : Bytes) (cb : Int → Bytes → S → Res Unit × S) (seek : Bool) (offset : Int) (hc : c.length < 2 ^ 63) :
    ∀ (fuel i fpos : Nat) (roff rlimit : Int) (nb : Nat) (s : S), 0 < nb → 0 ≤ roff → (seek = false → roff = fpos) → c.length - roff.toNat < fuel →
      Streamed σ cb roff ((c.drop roff.toNat).take rlimit.toNat) (roff - offset + ((c.drop roff.toNat).take rlimit.toNat).length) s
        (streamLoop σ c cb seek offset fuel i fpos roff rlimit nb s) := by
  intro fuel
  induction fuel with
  | zero => intro i fpos roff rlimit nb data _ _ _ h; omega
  | succ fuel ih =>
    intro i fpos roff rlimit nb s hnb hro hse hf
    rw [streamLoop]
    by_cases hl : rlimit ≤ 0
    · rw [if_pos hl, show rlimit.toNat = 0 by omega]
      exact ⟨[], by simp, by simp, rfl, rfl, by simp, by simp⟩
    rw [if_neg hl]
    dsimp only
    cases hσ : σ i with
    | fail => exact ⟨[], by simp, by simp, rfl, .inr ⟨rfl, i, hσ⟩⟩
    | upto k =>
      dsimp only
      have hp : (if seek = true then roff.toNat else fpos) = roff.toNat := by
        split
        · rfl
        · rename_i h
          have := hse (by simpa using h)
          omega
      rw [hp]
      have hb := batch_pos hnb (show 0 < rlimit by omega)
      have hb' := batch_le nb rlimit
      generalize hn : moved k (min (batch nb rlimit) (c.drop roff.toNat).length) = n
      have hle := moved_le k (min (batch nb rlimit) (c.drop roff.toNat).length)
      rw [hn] at hle
      by_cases h0 : n = 0
      · rw [if_pos h0]
        subst h0
        have := moved_zero.1 hn
        have hz : (c.drop roff.toNat).length = 0 := by omega
        rw [List.length_eq_zero_iff] at hz
        rw [hz]
        exact ⟨[], by simp, by simp, rfl, rfl, by simp, by simp⟩
      rw [if_neg h0]
      have hlen : (c.drop roff.toNat).length = c.length - roff.toNat := List.length_drop ..
      have hsp := take_split c roff.toNat rlimit.toNat n (by omega)
      have hbl : ((c.drop roff.toNat).take n).length = n := by rw [List.length_take]; omega
      have hne : (c.drop roff.toNat).take n ≠ [] := by intro h; rw [h] at hbl; exact h0 hbl.symm
      rcases hcb : cb roff ((c.drop roff.toNat).take n) s with ⟨_ | _ | _, s'⟩
      · dsimp only
        rw [if_neg (by unfold int64Max; omega)]
        obtain ⟨bs, h1, h2, h3, h4⟩ := ih (i + 1) (if seek = true then fpos else fpos + n) (roff + n) (rlimit - n) (batch nb rlimit)
          s' hb (by omega) (by intro h; have := hse h; simp only [h, Bool.false_eq_true, if_false]; omega) (by omega)
        rw [show (roff + n).toNat = roff.toNat + n by omega, show (rlimit - n).toNat = rlimit.toNat - n by omega] at h2 h4
        have hd : deliver cb roff ((c.drop roff.toNat).take n :: bs) s = deliver cb (roff + n) bs s' := by
          rw [deliver_cons hcb, hbl]
        refine ⟨(c.drop roff.toNat).take n :: bs, ?_, ?_, ?_, ?_⟩
        · intro b hb
          rcases List.mem_cons.1 hb with rfl | hb
          · exact hne
          · exact h1 b hb
        · rw [List.flatten_cons, ← hsp]
          exact List.prefix_append_right_inj _ |>.2 h2
        · rw [hd, h3]
        · rw [hd]
          revert h4
          generalize streamLoop σ c cb seek offset fuel (i + 1) (if seek = true then fpos else fpos + n) (roff + n) (rlimit - n) (batch nb rlimit) s' = r
          rcases r with ⟨_ | _ | _, s2⟩
          · rintro ⟨h5, h6, h7⟩
            dsimp only
            refine ⟨h5, ?_, ?_⟩
            · rw [List.flatten_cons, h6, hsp]
            · rw [h7, ← hsp, List.length_append, hbl]; push_cast; omega
          · exact id
          · exact id
      · refine ⟨[(c.drop roff.toNat).take n], by simpa using hne, ?_, ?_, .inl ?_⟩
        · rw [List.flatten_cons, ← hsp]; simp
        · simp [deliver, hcb]
        · simp [deliver, hcb]
      · refine ⟨[(c.drop roff.toNat).take n], by simpa using hne, ?_, ?_, ?_⟩
        · rw [List.flatten_cons, ← hsp]; simp
        · simp [deliver, hcb]
        · simp [deliver, hcb]

/-! ### Writing -/

theorem changed_put (d : Disk) (path : Bytes) (f : File) : Changed d (d.put (d.name path) f) path f :=
  ⟨rfl, rfl, by simp [Disk.put], fun k hk => by simp [Disk.put, hk]⟩

theorem Changed.trans {d d' d'' : Disk} {path : Bytes} {f g : File} (h : Changed d d' path f) (h' : Changed d' d'' path g) : Changed d d'' path g := by
  have e := h.name
  exact ⟨h'.name.trans e, h'.umask.trans h.umask, by rw [← e]; exact h'.file,
    fun k hk => (h'.other k (by rw [e]; exact hk)).trans (h.other k hk)⟩

theorem changed_append {d : Disk} {path : Bytes} {f : File} (h : d.file (d.name path) = some f) (s : Bytes) :
    Changed d (d.append (d.name path) s) path ⟨f.data ++ s, f.mode⟩ := by
  unfold Disk.append
  rw [h]
  exact changed_put ..

theorem changed_truncate {d : Disk} {path : Bytes} {f : File} (h : d.file (d.name path) = some f) (off : Int) :
    Changed d (d.truncate (d.name path) off.toNat) path ⟨kept f.data (some off), f.mode⟩ := by
  unfold Disk.truncate
  rw [h]
  exact changed_put ..

theorem changed_self {d : Disk} {path : Bytes} {f : File} (h : d.file (d.name path) = some f) : Changed d d path f :=
  ⟨rfl, rfl, h, fun _ _ => rfl⟩

/-- `writeLoop` appends everything or, if a call fails, a part. -/
theorem writeLoop_spec (σ : Sys) (path : Bytes) : ∀ fuel i s d f, d.file (d.name path) = some f → s.length ≤ fuel →
    (∃ j d', writeLoop σ (d.name path) fuel i s d = (.ok j, d') ∧ Changed d d' path ⟨f.data ++ s, f.mode⟩) ∨
    (∃ p d', writeLoop σ (d.name path) fuel i s d = (.throw, d') ∧ p <+: s ∧ p ≠ s ∧ Changed d d' path ⟨f.data ++ p, f.mode⟩ ∧ ∃ j, σ j = .fail) := by
  intro fuel
  induction fuel with
  | zero =>
    intro i s d f hf hs
    have : s = [] := List.length_eq_zero_iff.1 (by omega)
    subst this
    exact .inl ⟨i, d, by simp [writeLoop], by simpa using changed_self hf⟩
  | succ fuel ih =>
    intro i s d f hf hs
    rw [writeLoop]
    by_cases h0 : s = []
    · subst h0
      exact .inl ⟨i, d, by simp, by simpa using changed_self hf⟩
    rw [if_neg h0]
    cases hσ : σ i with
    | fail => exact .inr ⟨[], d, rfl, by simp, fun h => h0 h.symm, by simpa using changed_self hf, i, hσ⟩
    | upto k =>
      dsimp only
      have hn : moved k s.length ≠ 0 := fun h => h0 (List.length_eq_zero_iff.1 (moved_zero.1 h))
      have hle := moved_le k s.length
      generalize moved k s.length = n at *
      have hch := changed_append hf (s.take n)
      have hf' : (d.append (d.name path) (s.take n)).file ((d.append (d.name path) (s.take n)).name path) =
          some ⟨f.data ++ s.take n, f.mode⟩ := by
        rw [hch.name]; exact hch.file
      have hlen : (s.drop n).length = s.length - n := List.length_drop ..
      rcases ih (i + 1) (s.drop n) _ _ hf' (by omega) with ⟨j, d', h1, h2⟩ | ⟨p, d', h1, h2, h3, h4, h5⟩
      · left
        rw [hch.name] at h1
        refine ⟨j, d', h1, ?_⟩
        have := hch.trans h2
        rwa [List.append_assoc, List.take_append_drop] at this
      · right
        rw [hch.name] at h1
        refine ⟨s.take n ++ p, d', h1, ?_, ?_, ?_, h5⟩
        · obtain ⟨t, ht⟩ := h2
          exact ⟨t, by rw [List.append_assoc, ht, List.take_append_drop]⟩
        · intro h
          exact h3 (List.append_cancel_left (h.trans (List.take_append_drop n s).symm))
        · have := hch.trans h4
          rwa [List.append_assoc] at this

/-- What opening a file for writing leaves. -/
theorem create_spec {d d' : Disk} {path : Bytes} {trunc excl : Bool} {mode : BitVec 12} (h : d.create path trunc excl mode = some d') :
    Changed d d' path ⟨if trunc then [] else d.contents path, d.modeOf path mode⟩ ∧ (excl = true → d.file (d.name path) = none) := by
  unfold Disk.create at h
  unfold Disk.contents Disk.modeOf
  cases hf : d.file (d.name path) with
  | none =>
    rw [hf] at h
    cases h
    refine ⟨?_, fun _ => rfl⟩
    simpa using changed_put ..
  | some f =>
    rw [hf] at h
    dsimp only at h
    split at h
    · cases h
    rename_i he
    cases h
    refine ⟨?_, fun h => absurd h he⟩
    cases trunc with
    | true => exact changed_put ..
    | false => exact changed_self hf

theorem create_none {d : Disk} {path : Bytes} {trunc excl : Bool} {mode : BitVec 12} :
    d.create path trunc excl mode = none ↔ excl = true ∧ d.file (d.name path) ≠ none := by
  unfold Disk.create
  cases d.file (d.name path) with
  | none => simp
  | some f => cases excl <;> simp

/-! ### Copying -/

theorem copyLoop_spec (σ : Sys) (path : Bytes) (old nbuf : Nat) (hb : 0 < nbuf) (f : File) (m : BitVec 12) : ∀ (fuel i fpos : Nat) (d : Disk),
    old ≠ d.name path → d.file old = some f → d.file (d.name path) = some ⟨f.data.take fpos, m⟩ → fpos ≤ f.data.length →
    f.data.length - fpos < fuel →
    (∃ j d', copyLoop σ old (d.name path) nbuf fuel i fpos d = (.ok j, d') ∧ Changed d d' path ⟨f.data, m⟩) ∨
    (∃ p d', copyLoop σ old (d.name path) nbuf fuel i fpos d = (.throw, d') ∧ p <+: f.data ∧ Changed d d' path ⟨p, m⟩ ∧ ∃ j, σ j = .fail) := by
  intro fuel
  induction fuel with
  | zero => intro i fpos d _ _ _ _ h; omega
  | succ fuel ih =>
    intro i fpos d hne ho hn hfp hf
    rw [copyLoop]
    cases hσ : σ i with
    | fail => exact .inr ⟨_, d, rfl, List.take_prefix .., changed_self hn, i, hσ⟩
    | upto k =>
      dsimp only
      rw [ho]
      simp only [Option.map_some, Option.getD_some]
      have hlen : (f.data.drop fpos).length = f.data.length - fpos := List.length_drop ..
      generalize hr : moved k (min nbuf (f.data.drop fpos).length) = n
      have hle := moved_le k (min nbuf (f.data.drop fpos).length)
      rw [hr] at hle
      by_cases h0 : n = 0
      · rw [if_pos h0]
        subst h0
        have := moved_zero.1 hr
        rw [List.take_of_length_le (by omega)] at hn
        exact .inl ⟨i + 1, d, rfl, changed_self hn⟩
      rw [if_neg h0]
      have htl : ((f.data.drop fpos).take n).length = n := by rw [List.length_take]; omega
      have hcat : f.data.take fpos ++ (f.data.drop fpos).take n = f.data.take (fpos + n) := (List.take_add ..).symm
      rcases writeLoop_spec σ path n (i + 1) ((f.data.drop fpos).take n) d _ hn (by omega) with
        ⟨j, d', h1, h2⟩ | ⟨p, d', h1, h2, _, h4, h5⟩
      · rw [h1]
        dsimp only at h2 ⊢
        rw [hcat] at h2
        have ho' : d'.file old = some f := (h2.other old hne).trans ho
        have hn' : d'.file (d'.name path) = some ⟨f.data.take (fpos + n), m⟩ := by rw [h2.name]; exact h2.file
        rcases ih j (fpos + n) d' (by rw [h2.name]; exact hne) ho' hn' (by omega) (by omega) with ⟨j', d'', h3, h4⟩ | ⟨p, d'', h3, h4, h5, h6⟩
        · rw [h2.name] at h3
          exact .inl ⟨j', d'', h3, h2.trans h4⟩
        · rw [h2.name] at h3
          exact .inr ⟨p, d'', h3, h4, h2.trans h5, h6⟩
      · rw [h1]
        dsimp only at h4 ⊢
        refine .inr ⟨_, d', rfl, ?_, h4, h5⟩
        obtain ⟨t, ht⟩ := h2
        rw [← ht] at hcat
        have h6 := List.take_prefix (fpos + n) f.data
        rw [← hcat, ← List.append_assoc] at h6
        exact (List.prefix_append ..).trans h6

theorem nbuf_pos (b : Nat) : 0 < b ||| 0x1000 := by
  have := @Nat.right_le_or b 0x1000
  omega

end Asteria.Files
