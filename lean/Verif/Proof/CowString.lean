import Verif.Spec.CowString
import Verif.Proof.CowVector
import Mathlib.Tactic.ByContra

/-! Lemmas about the model of `cow_string`. -/

namespace Asteria.CowString

theorem le_round (c : Cfg) (hc : c.Good) (n : Nat) : n ≤ maxNchar c (minNblk c n) ∧ maxNchar c (minNblk c n) < n + c.ssize := by
  obtain ⟨h1, _⟩ := hc
  unfold maxNchar minNblk
  rw [Nat.add_sub_cancel]
  have h4 := Nat.div_add_mod (n + c.ssize - 1) c.ssize
  have h5 := Nat.mod_lt (n + c.ssize - 1) h1
  rw [Nat.mul_comm] at h4
  omega

/-- A block of consistent size. -/
def Block.Ok (b : Block) : Prop := b.cells.length = b.cap + 1 ∧ b.cap < 2 ^ 64

namespace Heap

theorem get_of {H : Heap} {p : Nat} {b : Block} (h : H.blk p = some b) : H.get p = .ok b := by
  unfold get; rw [h]

theorem set_same (H : Heap) (p : Nat) (b) : (H.set p b).blk p = b := by simp [set]

theorem set_other (H : Heap) (p q : Nat) (b) (h : q ≠ p) : (H.set p b).blk q = H.blk q := by simp [set, h]

theorem set_set (H : Heap) (p : Nat) (a b) : (H.set p a).set p b = H.set p b := by
  unfold set
  congr 1
  funext q
  dsimp only
  split <;> rfl

theorem set_next (H : Heap) (p : Nat) (b) : (H.set p b).next = H.next := rfl

/-- The blocks after the reference in `m` has been dropped. -/
def release (H : Heap) (m : Option Nat) (r : Nat) : Option Block :=
  if m = some r then
    match H.blk r with
    | some b => if b.nref = 1 then none else some { b with nref := b.nref - 1 }
    | none => none
  else H.blk r

theorem release_none (H : Heap) (r : Nat) : H.release none r = H.blk r := by simp [release]

/-- Addresses from `next` on are free. -/
def Fresh (H : Heap) : Prop := ∀ p, H.next ≤ p → H.blk p = none

/-- What a handle refers to exists. -/
def Has (H : Heap) (m : Option Nat) : Prop := ∀ p, m = some p → ∃ b, H.blk p = some b ∧ 0 < b.nref ∧ b.Ok

theorem Has.none (H : Heap) : H.Has none := nofun

theorem decref_spec {H : Heap} {m : Option Nat} (h : H.Has m) :
    ∃ H', H.decref m = .ok H' ∧ H'.next = H.next ∧ ∀ r, H'.blk r = H.release m r := by
  cases m with
  | none => exact ⟨H, rfl, rfl, fun r => (release_none H r).symm⟩
  | some p =>
    obtain ⟨b, hb, h0, _⟩ := h p rfl
    unfold decref
    simp only [get_of hb, Res.ok_bind, if_neg (show ¬ b.nref = 0 by omega)]
    by_cases h1 : b.nref = 1
    · rw [if_pos h1]
      refine ⟨_, rfl, rfl, fun r => ?_⟩
      unfold release
      by_cases hr : p = r
      · subst hr; rw [if_pos rfl, hb]; simp [set, h1]
      · rw [if_neg (by simpa using hr), set_other _ _ _ _ (fun e => hr e.symm)]
    · rw [if_neg h1]
      refine ⟨_, rfl, rfl, fun r => ?_⟩
      unfold release
      by_cases hr : p = r
      · subst hr; rw [if_pos rfl, hb]; simp [set, h1]
      · rw [if_neg (by simpa using hr), set_other _ _ _ _ (fun e => hr e.symm)]

theorem incref_spec {H : Heap} {m : Option Nat} (h : H.Has m) :
    ∃ H', H.incref m = .ok H' ∧ H'.next = H.next ∧
      ∀ r, H'.blk r = if m = some r then (H.blk r).map fun b => { b with nref := b.nref + 1 } else H.blk r := by
  cases m with
  | none => exact ⟨H, rfl, rfl, fun r => by simp⟩
  | some p =>
    obtain ⟨b, hb, h0, _⟩ := h p rfl
    unfold incref
    simp only [get_of hb, Res.ok_bind, if_neg (show ¬ b.nref = 0 by omega)]
    refine ⟨_, rfl, rfl, fun r => ?_⟩
    by_cases hr : p = r
    · subst hr; rw [if_pos rfl, hb]; simp [set]
    · rw [if_neg (by simpa using hr), set_other _ _ _ _ (fun e => hr e.symm)]

theorem share_spec {H : Heap} {m k : Option Nat} (hm : H.Has m) (hk : H.Has k) :
    ∃ H', H.share m k = .ok H' ∧ H'.next = H.next ∧ ∀ r, H'.blk r =
      if m = k then H.blk r else if k = some r then (H.blk r).map fun b => { b with nref := b.nref + 1 } else H.release m r := by
  obtain ⟨H1, e1, n1, b1⟩ := incref_spec hk
  have hm1 : H1.Has m := by
    intro p hp
    obtain ⟨b, hb, h0, hok⟩ := hm p hp
    rw [b1]
    by_cases h : k = some p
    · rw [if_pos h, hb]; exact ⟨_, rfl, by simp, hok⟩
    · rw [if_neg h, hb]; exact ⟨_, rfl, h0, hok⟩
  obtain ⟨H2, e2, n2, b2⟩ := decref_spec hm1
  refine ⟨H2, by unfold share; rw [e1, Res.ok_bind, e2], by rw [n2, n1], fun r => ?_⟩
  rw [b2]
  unfold release
  rw [b1]
  by_cases h1 : m = some r
  · rw [if_pos h1]
    obtain ⟨b, hb, h0, hok⟩ := hm r h1
    rw [hb]
    by_cases h2 : k = some r
    · rw [if_pos h2, if_pos (h1.trans h2.symm)]
      simp only [Option.map_some]
      rw [if_neg (by omega)]
      simp
    · rw [if_neg h2, if_neg (by rw [h1]; exact fun e => h2 e.symm), if_neg h2, if_pos h1]
  · rw [if_neg h1, if_neg h1]
    by_cases h2 : m = k
    · rw [if_pos h2, if_neg (by rw [← h2]; exact h1)]
    · rw [if_neg h2]

/-- `write` in terms of the parts of the characters. -/
theorem write_spec {H : Heap} {p : Nat} {b : Block} (hb : H.blk p = some b) (h1 : b.nref = 1) {pre mid post bs : Bytes}
    (hc : b.cells = pre ++ (mid ++ post)) (hm : mid.length = bs.length) :
    H.write p pre.length bs = .ok (H.set p (some { b with cells := pre ++ (bs ++ post) })) := by
  unfold write
  rw [get_of hb, Res.ok_bind, if_neg (by rw [hc]; simp; omega)]
  congr 4
  unfold overwrite
  rw [hc]
  simp [← hm, List.drop_append]

theorem write_at {H : Heap} {p off : Nat} {b : Block} (hb : H.blk p = some b) (h1 : b.nref = 1) {pre mid post bs : Bytes}
    (hc : b.cells = pre ++ (mid ++ post)) (ho : off = pre.length) (hm : mid.length = bs.length) :
    H.write p off bs = .ok (H.set p (some { b with cells := pre ++ (bs ++ post) })) := by
  subst ho; exact write_spec hb h1 hc hm

/-! ### The text of a string -/

/-- String `s` has the text `l`. -/
structure View (H : Heap) (s : Str) (l : Bytes) : Prop where
  len : s.len = l.length
  has : H.Has s.sth
  lit : ∀ t, s.ptr = .lit t → t = l
  at_ : ∀ p o, s.ptr = .at p o → s.sth = some p ∧ ∀ b, H.blk p = some b → ∃ pre r, b.cells = pre ++ (l ++ 0 :: r) ∧ pre.length = o

theorem View.frame {H H' : Heap} {s : Str} {l : Bytes} (h : H.View s l)
    (hf : ∀ p b, s.sth = some p → H.blk p = some b → ∃ b', H'.blk p = some b' ∧ b'.cells = b.cells ∧ b'.cap = b.cap ∧ 0 < b'.nref) :
    H'.View s l := by
  refine ⟨h.len, ?_, h.lit, ?_⟩
  · intro p hp
    obtain ⟨b, hb, _, ho⟩ := h.has p hp
    obtain ⟨b', k1, k2, k3, k4⟩ := hf p b hp hb
    exact ⟨b', k1, k4, by rw [k2, k3]; exact ho.1, by rw [k3]; exact ho.2⟩
  · intro p o hp
    obtain ⟨h1, h2⟩ := h.at_ p o hp
    refine ⟨h1, fun b' hb' => ?_⟩
    obtain ⟨b, hb, _, ho⟩ := h.has p h1
    obtain ⟨b'', k1, k2, _⟩ := hf p b h1 hb
    rw [hb'] at k1
    cases k1
    rw [k2]
    exact h2 b hb

theorem View.read {H : Heap} {s : Str} {l : Bytes} (h : H.View s l) {off n : Nat} (hn : off + n ≤ l.length + 1) :
    H.read s.ptr off n = .ok (((l ++ [0]).drop off).take n) := by
  unfold Heap.read
  cases hp : s.ptr with
  | lit t =>
    dsimp only
    have := h.lit t hp
    subst this
    rw [if_pos hn]
  | «at» p o =>
    dsimp only
    obtain ⟨h1, h2⟩ := h.at_ p o hp
    obtain ⟨b, hb, h0, ho⟩ := h.has p h1
    obtain ⟨pre, r, hc, hl⟩ := h2 b hb
    rw [get_of hb, Res.ok_bind, hc]
    subst hl
    rw [if_pos (by simp; omega)]
    congr 1
    rw [List.drop_length_add_append]
    rw [show l ++ 0 :: r = (l ++ [0]) ++ r by simp, List.drop_append_of_le_length (by simp; omega),
      List.take_append_of_le_length (by simp; omega)]

theorem View.read_part {H : Heap} {s : Str} {l : Bytes} (h : H.View s l) {off n : Nat} (hn : off + n ≤ l.length) :
    H.read s.ptr off n = .ok ((l.drop off).take n) := by
  rw [h.read (by omega), List.drop_append_of_le_length (by omega), List.take_append_of_le_length (by simp; omega)]

/-- Reading does not depend on new blocks. -/
theorem read_mono {H H' : Heap} {q : Ptr} {off n : Nat} {bs : Bytes} (h : H.read q off n = .ok bs)
    (hf : ∀ p b, H.blk p = some b → H'.blk p = some b) : H'.read q off n = .ok bs := by
  unfold read at h ⊢
  cases q with
  | lit t => exact h
  | «at» p o =>
    dsimp only at h ⊢
    unfold get at h ⊢
    cases hb : H.blk p with
    | none => rw [hb] at h; cases h
    | some b => rw [hf p b hb]; rw [hb] at h; exact h

/-- What is fetched is the same in any heap with more blocks. -/
def Fetches (H : Heap) (fetch : Heap → Res Bytes) (bs : Bytes) : Prop :=
  ∀ H' : Heap, (∀ p b, H.blk p = some b → H'.blk p = some b) → fetch H' = .ok bs

theorem Fetches.self {H : Heap} {fetch} {bs} (h : H.Fetches fetch bs) : fetch H = .ok bs := h H fun _ _ h => h

theorem fetches_const (H : Heap) (bs : Bytes) : H.Fetches (fun _ => .ok bs) bs := fun _ _ => rfl

theorem fetches_read {H : Heap} {q off n} {bs} (h : H.read q off n = .ok bs) : H.Fetches (fun H => H.read q off n) bs :=
  fun _ hf => read_mono h hf

/-! ### What a member function may do to the heap -/

inductive Upd (H : Heap) (m : Option Nat) : Heap → Option Nat → Prop
  | same : Upd H m H m
  | inplace (p : Nat) (b b' : Block) (hm : m = some p) (hb : H.blk p = some b) (h1 : b.nref = 1) (h1' : b'.nref = 1) (ho : b'.Ok) :
      Upd H m (H.set p (some b')) m
  | fresh (H' : Heap) (q : Nat) (b' : Block) (h1' : b'.nref = 1) (ho : b'.Ok) (hq : H.next ≤ q) (hq' : q < H'.next)
      (hb : ∀ r, H'.blk r = if r = q then some b' else H.release m r) : Upd H m H' (some q)
  | gone (H' : Heap) (hn : H.next ≤ H'.next) (hb : ∀ r, H'.blk r = H.release m r) : Upd H m H' none

theorem release_ge {H : Heap} (hf : H.Fresh) (m : Option Nat) {r : Nat} (hr : H.next ≤ r) : H.release m r = none := by
  unfold release
  rw [hf r hr]
  split <;> rfl

theorem Upd.isFresh {H H' : Heap} {m m' : Option Nat} (h : Upd H m H' m') (hf : H.Fresh) : H'.Fresh := by
  cases h with
  | same => exact hf
  | inplace p b b' hm hb =>
    intro r hr
    have : r ≠ p := by rintro rfl; rw [hf r hr] at hb; cases hb
    rw [set_other _ _ _ _ this]; exact hf r hr
  | fresh _ q b' _ _ hq hq' hb =>
    intro r hr
    rw [hb, if_neg (by omega), release_ge hf m (by omega)]
  | gone _ hn hb => intro r hr; rw [hb, release_ge hf m (by omega)]

/-- A further change of the block. -/
theorem Upd.edit {H H' : Heap} {m : Option Nat} {p : Nat} (h : Upd H m H' (some p)) {b b' : Block} (hb : H'.blk p = some b) (h1 : b.nref = 1)
    (h1' : b'.nref = 1) (ho : b'.Ok) : Upd H m (H'.set p (some b')) (some p) := by
  cases h with
  | same => exact .inplace p b b' rfl hb h1 h1' ho
  | inplace p' b0 b1 hm hb0 k1 k1' ko =>
    cases hm
    rw [set_set]
    exact .inplace p b0 b' rfl hb0 k1 h1' ho
  | fresh _ q b1 k1' ko hq hq' kb =>
    refine .fresh _ p b' h1' ho hq hq' fun r => ?_
    by_cases hr : r = p
    · subst hr; rw [set_same, if_pos rfl]
    · rw [set_other _ _ _ _ hr, kb, if_neg hr, if_neg hr]

/-- Texts of strings at the beginning of their block. -/
theorem view_at {H : Heap} {p : Nat} {b : Block} {l r : Bytes} (hb : H.blk p = some b) (h0 : 0 < b.nref) (ho : b.Ok)
    (hc : b.cells = l ++ 0 :: r) : H.View ⟨.at p 0, l.length, some p⟩ l := by
  refine ⟨rfl, ?_, nofun, ?_⟩
  · intro q hq; cases hq; exact ⟨b, hb, h0, ho⟩
  · intro q o hq
    cases hq
    refine ⟨rfl, fun b' hb' => ?_⟩
    rw [hb] at hb'
    cases hb'
    exact ⟨[], r, by simpa using hc, rfl⟩

/-! ### Allocation -/

theorem realloc_spec {c : Cfg} (hc : c.Good) {H : Heap} (hf : H.Fresh) {self : Option Nat} (hs : H.Has self) {src : Ptr} {len add : Nat}
    {bs : Bytes} (hr : H.read src 0 len = .ok bs) (hl : bs.length = len) :
    (H.realloc c self src len add = .throw ∧ c.limit < len + add) ∨
    ∃ H' b r, H.realloc c self src len add = .ok (H', H.next) ∧ H'.next = H.next + 1 ∧
      (∀ x, H'.blk x = if x = H.next then some b else H.release self x) ∧
      b.nref = 1 ∧ b.Ok ∧ b.cells = bs ++ 0 :: r ∧ len + add ≤ b.cap := by
  unfold realloc checkSizeAdd
  by_cases hlim : len + add > c.limit
  · left; rw [if_pos hlim]; exact ⟨rfl, hlim⟩
  rw [if_neg hlim]
  right
  obtain ⟨g1, g2⟩ := le_round c hc (len + add)
  dsimp only [Res.ok_bind]
  generalize maxNchar c (minNblk c (len + add)) = rcap at *
  generalize hH1 : ({ H.set H.next (some ⟨1, rcap, List.replicate (rcap + 1) c.junk⟩) with next := H.next + 1 } : Heap) = H1
  have hb1 : H1.blk H.next = some ⟨1, rcap, List.replicate (rcap + 1) c.junk⟩ := by rw [← hH1]; simp [set]
  have hx : ∀ x, x ≠ H.next → H1.blk x = H.blk x := by intro x hx; rw [← hH1]; simp [set, hx]
  have hn1 : H1.next = H.next + 1 := by rw [← hH1]
  have w1 := write_at (H := H1) (off := len + add) (bs := [0]) hb1 rfl (pre := List.replicate (len + add) c.junk) (mid := [c.junk])
    (post := List.replicate (rcap - (len + add)) c.junk) (by
      rw [← List.replicate_one, List.replicate_append_replicate, List.replicate_append_replicate]; dsimp only; congr 1; omega) (by simp) rfl
  rw [w1, Res.ok_bind]
  generalize hcells : List.replicate (len + add) c.junk ++ ([0] ++ List.replicate (rcap - (len + add)) c.junk) = cells at w1
  have hcl : cells.length = rcap + 1 := by rw [← hcells]; simp; omega
  generalize hH2 : H1.set H.next (some { ({ nref := 1, cap := rcap, cells := List.replicate (rcap + 1) c.junk } : Block) with cells := cells }) = H2
  have hb2 : H2.blk H.next = some ⟨1, rcap, cells⟩ := by rw [← hH2]; simp [set]
  have hx2 : ∀ x, x ≠ H.next → H2.blk x = H.blk x := by intro x h; rw [← hH2, set_other _ _ _ _ h, hx x h]
  have hr2 : H2.read src 0 len = .ok bs := read_mono hr (by
    intro p b hb
    rw [hx2 p (by rintro rfl; rw [hf _ (Nat.le_refl _)] at hb; cases hb), hb])
  rw [hr2, Res.ok_bind]
  have w2 := write_at (H := H2) (off := 0) (bs := bs ++ [0]) hb2 rfl (pre := []) (mid := cells.take (len + 1)) (post := cells.drop (len + 1))
    (by simp) rfl (by simp; omega)
  rw [w2, Res.ok_bind]
  generalize hH3 : H2.set H.next _ = H3
  have hb3 : H3.blk H.next = some ⟨1, rcap, [] ++ (bs ++ [0] ++ cells.drop (len + 1))⟩ := by rw [← hH3]; simp [set]
  have hx3 : ∀ x, x ≠ H.next → H3.blk x = H.blk x := by intro x h; rw [← hH3, set_other _ _ _ _ h, hx2 x h]
  have hn3 : H3.next = H.next + 1 := by rw [← hH3, set_next, ← hH2, set_next, hn1]
  have hne : ∀ p, self = some p → p ≠ H.next := by
    rintro p hp rfl
    obtain ⟨b, hb, _⟩ := hs _ hp
    rw [hf _ (Nat.le_refl _)] at hb; cases hb
  have hs3 : H3.Has self := by
    intro p hp
    obtain ⟨b, hb, h⟩ := hs p hp
    exact ⟨b, by rw [hx3 p (hne p hp), hb], h⟩
  obtain ⟨H4, e4, n4, b4⟩ := decref_spec hs3
  rw [e4]
  refine ⟨H4, ⟨1, rcap, [] ++ (bs ++ [0] ++ cells.drop (len + 1))⟩, cells.drop (len + 1), rfl, by rw [n4, hn3], fun x => ?_, rfl, ?_, ?_, g1⟩
  · rw [b4]
    by_cases h : x = H.next
    · subst h
      rw [if_pos rfl]
      unfold release
      rw [if_neg (fun e => hne _ e rfl), hb3]
    · rw [if_neg h]
      unfold release
      rw [hx3 x h]
  · refine ⟨by simp; omega, ?_⟩
    have := hc.2
    simp only
    omega
  · simp


/-! ### The member functions -/

/-- The capacity of what a handle refers to. -/
def capOf (H : Heap) : Option Nat → Nat
  | none => 0
  | some p => ((H.blk p).map Block.cap).getD 0

theorem capacity_spec {H : Heap} {m : Option Nat} (h : H.Has m) : H.capacity m = .ok (H.capOf m) := by
  cases m with
  | none => rfl
  | some p =>
    obtain ⟨b, hb, _⟩ := h p rfl
    unfold capacity capOf
    dsimp only
    rw [get_of hb, hb]
    rfl

theorem mutDataOpt_spec {H : Heap} {m : Option Nat} (h : H.Has m) :
    H.mutDataOpt m = .ok none ∨
      ∃ p b, m = some p ∧ H.blk p = some b ∧ b.nref = 1 ∧ b.Ok ∧ H.mutDataOpt m = .ok (some p) := by
  cases m with
  | none => exact .inl rfl
  | some p =>
    obtain ⟨b, hb, _, ho⟩ := h p rfl
    unfold mutDataOpt
    dsimp only
    rw [get_of hb]
    by_cases h1 : b.nref = 1
    · exact .inr ⟨p, b, rfl, hb, h1, ho, by simp [Res.map, h1]⟩
    · exact .inl (by simp [Res.map, h1])

/-- A string that alone refers to its block, and is not empty, has its text at the beginning of the block. -/
def Aligned (H : Heap) (s : Str) : Prop :=
  ∀ p b, s.sth = some p → H.blk p = some b → b.nref = 1 → s.len = 0 ∨ s.ptr = .at p 0

/-- The same, whether there are other references or not. -/
def Strong (s : Str) : Prop := s.len = 0 ∨ ∀ p, s.sth = some p → s.ptr = .at p 0

theorem Strong.aligned {s : Str} (h : Strong s) (H : Heap) : H.Aligned s := by
  intro p b hp _ _
  rcases h with h | h
  · exact .inl h
  · exact .inr (h p hp)

theorem strong_at (p n : Nat) : Strong ⟨.at p 0, n, some p⟩ := .inr fun q hq => by cases hq; rfl

/-- The outcome of a member function that leaves the text `l'`; it may throw because of `why`. -/
def Out (H : Heap) (s : Str) (l' : Bytes) (why : Prop) (r : Res (Heap × Str)) : Prop :=
  (r = .throw ∧ why) ∨ ∃ H' s', r = .ok (H', s') ∧ Upd H s.sth H' s'.sth ∧ H'.View s' l' ∧ (Strong s → Strong s')

theorem setData_spec {H : Heap} {p : Nat} {b : Block} (hb : H.blk p = some b) (h1 : b.nref = 1) {l r : Bytes} {y : UInt8}
    (hc : b.cells = l ++ y :: r) {n : Nat} (hn : n = l.length) :
    H.setData p n = .ok (H.set p (some { b with cells := l ++ 0 :: r }), ⟨.at p 0, n, some p⟩) := by
  unfold setData
  rw [write_at hb h1 (bs := [0]) (pre := l) (mid := [y]) (post := r) (by simpa using hc) hn rfl]
  simp [Res.map]

/-- Characters are stored behind the text, and the size is set. -/
theorem fill_spec {H : Heap} {p : Nat} {b : Block} (hb : H.blk p = some b) (h1 : b.nref = 1) (ho : b.Ok) {l rest bs : Bytes}
    (hc : b.cells = l ++ rest) (hl : bs.length + 1 ≤ rest.length) {n m : Nat} (hn : n = l.length) (hm : m = n + bs.length) :
    ∃ b' r, b'.nref = 1 ∧ b'.Ok ∧ b'.cells = (l ++ bs) ++ 0 :: r ∧
      ((H.write p n bs).bind fun H => H.setData p m) = .ok (H.set p (some b'), ⟨.at p 0, m, some p⟩) := by
  have hs : ∃ y ys, rest = rest.take bs.length ++ y :: ys := by
    cases hd : rest.drop bs.length with
    | nil => have := congrArg List.length hd; simp at this; omega
    | cons y ys => exact ⟨y, ys, by rw [← hd, List.take_append_drop]⟩
  obtain ⟨y, ys, hr⟩ := hs
  have hlen : rest.length = bs.length + (ys.length + 1) := by
    have := congrArg List.length hr
    rw [List.length_append, List.length_take, List.length_cons] at this
    omega
  rw [write_at hb h1 (bs := bs) (pre := l) (mid := rest.take bs.length) (post := y :: ys) (by rw [hc, ← hr]) hn (by simp; omega), Res.ok_bind]
  rw [setData_spec (set_same _ _ _) (by exact h1) (l := l ++ bs) (y := y) (r := ys) (by simp) (by simp; omega), set_set]
  refine ⟨_, ys, ?_, ?_, ?_, rfl⟩
  · exact h1
  · refine ⟨?_, ho.2⟩
    have := ho.1
    rw [hc] at this
    simp only [List.length_append, List.length_cons] at this ⊢
    omega
  · rfl

/-- A new block takes the place of the old one. -/
theorem fresh_drop {H H2 : Heap} (hf : H.Fresh) {m : Option Nat} (hm : H.Has m) {q : Nat} {b : Block} (h1 : b.nref = 1) (ho : b.Ok)
    (hq : H.next ≤ q) (hn : q < H2.next) (hb : ∀ x, H2.blk x = if x = q then some b else H.blk x) :
    ∃ H3, H2.decref m = .ok H3 ∧ Upd H m H3 (some q) ∧ H3.blk q = some b := by
  have hne : ∀ p, m = some p → p ≠ q := by
    rintro p hp rfl
    obtain ⟨b, hb, _⟩ := hm _ hp
    rw [hf _ hq] at hb; cases hb
  have hs : H2.Has m := by
    intro p hp
    obtain ⟨b, hb', h⟩ := hm p hp
    exact ⟨b, by rw [hb, if_neg (hne p hp), hb'], h⟩
  obtain ⟨H3, e3, n3, b3⟩ := decref_spec hs
  have key : ∀ r, H3.blk r = if r = q then some b else H.release m r := by
    intro r
    rw [b3]
    unfold release
    rw [hb]
    by_cases h : r = q
    · subst h
      rw [if_pos rfl, if_pos rfl, if_neg (fun e => hne _ e rfl)]
    · rw [if_neg h, if_neg h]
  exact ⟨H3, e3, .fresh H3 q b h1 ho hq (by rw [n3]; exact hn) key, by rw [key, if_pos rfl]⟩

theorem View.cells {H : Heap} {s : Str} {l : Bytes} (h : H.View s l) {p : Nat} {b : Block} (hp : s.ptr = .at p 0) (hb : H.blk p = some b) :
    ∃ r, b.cells = l ++ 0 :: r := by
  obtain ⟨_, h2⟩ := h.at_ p 0 hp
  obtain ⟨pre, r, k1, k2⟩ := h2 b hb
  cases pre with
  | nil => exact ⟨r, k1⟩
  | cons => simp at k2

theorem View.rd {H : Heap} {s : Str} {l : Bytes} (h : H.View s l) : H.read s.ptr 0 s.len = .ok l := by
  rw [h.read_part (by rw [h.len]; omega), h.len]
  simp

theorem bind_pair {α β γ : Type} {x : Res α} {f : α → Res β} {y : β} (g : β → Res γ) (h : x.bind f = .ok y) :
    (x.bind fun a => (f a).bind g) = g y := by
  cases x with
  | ok a =>
    rw [Res.ok_bind] at h ⊢
    rw [h, Res.ok_bind]
  | throw => cases h
  | ub => cases h

theorem append_spec {c : Cfg} (hc : c.Good) {H : Heap} (hf : H.Fresh) {s : Str} {l bs : Bytes} (hv : H.View s l) {n : Nat} {fetch}
    (hfe : H.Fetches fetch bs) (hn : bs.length = n) (hal : n ≠ 0 → H.Aligned s) :
    H.Out s (l ++ bs) (c.limit < l.length + (n ||| H.capOf s.sth / 2)) (H.append c s n fetch) := by
  unfold append
  by_cases h0 : n = 0
  · rw [if_pos h0]
    have : bs = [] := List.length_eq_zero_iff.1 (by omega)
    subst this
    right
    exact ⟨H, s, rfl, .same, by simpa using hv, id⟩
  rw [if_neg h0, capacity_spec hv.has]
  have slow : H.Out s (l ++ bs) (c.limit < l.length + (n ||| H.capOf s.sth / 2))
      ((H.realloc c none s.ptr s.len (n ||| H.capOf s.sth / 2)).bind fun r =>
        (fetch r.1).bind fun bs => (r.1.write r.2 s.len bs).bind fun H => (H.setData r.2 (s.len + n)).bind fun r =>
          (r.1.decref s.sth).map fun H => (H, r.2)) := by
    rcases realloc_spec hc hf (Has.none H) (add := n ||| H.capOf s.sth / 2) hv.rd hv.len.symm with
      ⟨e, w⟩ | ⟨H1, b, r, e, n1, b1, h1, ho, hcl, hcap⟩
    · left; rw [e]; exact ⟨rfl, by rw [← hv.len]; exact w⟩
    · right
      have hb1 : ∀ x, H1.blk x = if x = H.next then some b else H.blk x := by intro x; rw [b1, release_none]
      have hext : ∀ p b', H.blk p = some b' → H1.blk p = some b' := by
        intro p b' hb'
        rw [hb1, if_neg (by rintro rfl; rw [hf _ (Nat.le_refl _)] at hb'; cases hb'), hb']
      have hle : n ≤ n ||| H.capOf s.sth / 2 := Nat.left_le_or
      have hlen := ho.1
      rw [hcl] at hlen
      have hvl := hv.len
      simp only [List.length_append, List.length_cons] at hlen
      obtain ⟨b', r', h1', ho', hcl', ew⟩ := fill_spec (H := H1) (by rw [hb1, if_pos rfl]) h1 ho hcl (bs := bs)
        (by simp only [List.length_cons]; omega) hvl rfl
      rw [hn] at ew
      obtain ⟨H3, e3, u3, k3⟩ := fresh_drop (H2 := H1.set H.next (some b')) hf hv.has h1' ho' (Nat.le_refl _) (by rw [set_next]; omega)
        (by
          intro x
          by_cases hx : x = H.next
          · subst hx; rw [set_same, if_pos rfl]
          · rw [set_other _ _ _ _ hx, hb1, if_neg hx, if_neg hx])
      refine ⟨H3, ⟨.at H.next 0, s.len + n, some H.next⟩, ?_, u3, ?_, fun _ => strong_at _ _⟩
      · rw [e, Res.ok_bind, hfe H1 hext, Res.ok_bind, bind_pair (fun r => (r.1.decref s.sth).map fun H => (H, r.2)) ew]
        dsimp only
        rw [e3]
        rfl
      · have := view_at k3 (by omega) ho' hcl'
        rw [List.length_append, hn, ← hvl] at this
        exact this
  rcases mutDataOpt_spec hv.has with e | ⟨p, b, hp, hb, h1, ho, e⟩
  · rw [e, Res.ok_bind, Res.ok_bind]
    exact slow
  · rw [e, Res.ok_bind, Res.ok_bind]
    by_cases hcmp : n ≤ (H.capOf s.sth + 2 ^ 64 - s.len) % 2 ^ 64
    · rw [decide_eq_true hcmp]
      have hrest : ∃ rest, b.cells = l ++ rest ∧ 1 ≤ rest.length := by
        rcases hal h0 p b hp hb h1 with h | h
        · have : l = [] := List.length_eq_zero_iff.1 (by rw [← hv.len]; exact h)
          subst this
          exact ⟨b.cells, rfl, by rw [ho.1]; omega⟩
        · obtain ⟨r, hr⟩ := hv.cells h hb
          exact ⟨_, hr, by simp⟩
      obtain ⟨rest, hr, hr1⟩ := hrest
      have hcapof : H.capOf s.sth = b.cap := by rw [hp]; simp [capOf, hb]
      have hlen := ho.1
      have hvl := hv.len
      rw [hr, List.length_append] at hlen
      have hlt := ho.2
      rw [hcapof] at hcmp
      have hsub : (b.cap + 2 ^ 64 - s.len) % 2 ^ 64 = b.cap - s.len := by
        rw [show b.cap + 2 ^ 64 - s.len = (b.cap - s.len) + 2 ^ 64 by omega, Nat.add_mod_right, Nat.mod_eq_of_lt (by omega)]
      rw [hsub] at hcmp
      obtain ⟨b', r', h1', ho', hcl', ew⟩ := fill_spec hb h1 ho hr (bs := bs) (by omega) hvl rfl
      rw [hn] at ew
      dsimp only
      rw [hfe.self, Res.ok_bind, ew]
      right
      refine ⟨_, _, rfl, ?_, ?_, fun _ => strong_at _ _⟩
      · dsimp only
        rw [hp]
        exact .inplace p b b' rfl hb h1 h1' ho'
      · have := view_at (set_same H p (some b')) (by omega) ho' hcl'
        rw [List.length_append, hn, ← hvl] at this
        exact this
    · rw [decide_eq_false hcmp]
      exact slow

theorem spLoop_spec {c : Cfg} (hc : c.Good) {H0 : Heap} (hf : H0.Fresh) (as : Bytes) : ∀ (H : Heap) (p : Nat) (b : Block) (l rest : Bytes),
    (∀ x, H.blk x = if x = p then some b else H0.blk x) → H0.next ≤ p → H.next = p + 1 → b.nref = 1 → b.Ok → 17 ≤ b.cap →
    b.cells = l ++ rest → 1 ≤ rest.length →
    (spLoop c as H p l.length = .throw ∧ c.limit < (l.length + as.length) + (l.length + as.length) / 2) ∨
    ∃ H' p' b' rest', spLoop c as H p l.length = .ok (H', p', l.length + as.length) ∧
      (∀ x, H'.blk x = if x = p' then some b' else H0.blk x) ∧ H0.next ≤ p' ∧ p' < H'.next ∧ b'.nref = 1 ∧ b'.Ok ∧
      b'.cells = (l ++ as) ++ rest' ∧ 1 ≤ rest'.length := by
  induction as with
  | nil =>
    intro H p b l rest hb hp hn h1 ho h17 hcl hr
    right
    exact ⟨H, p, b, rest, rfl, hb, hp, by omega, h1, ho, by simpa using hcl, hr⟩
  | cons a as ih =>
    intro H p b l rest hb hp hn h1 ho h17 hcl hr
    have hbp : H.blk p = some b := by rw [hb, if_pos rfl]
    have hlen := ho.1
    rw [hcl, List.length_append] at hlen
    unfold spLoop capacity
    dsimp only
    rw [get_of hbp]
    dsimp only [Res.map, Res.ok_bind]
    -- after the check of the capacity
    have cont : ∀ (H : Heap) (p : Nat) (b : Block) (rest : Bytes),
        (∀ x, H.blk x = if x = p then some b else H0.blk x) → H0.next ≤ p → H.next = p + 1 → b.nref = 1 → b.Ok → 17 ≤ b.cap →
        b.cells = l ++ rest → 2 ≤ rest.length →
        (((H.write p l.length [a]).bind fun H => spLoop c as H p (l.length + 1)) = .throw ∧
          c.limit < (l.length + (as.length + 1)) + (l.length + (as.length + 1)) / 2) ∨
        ∃ H' p' b' rest', ((H.write p l.length [a]).bind fun H => spLoop c as H p (l.length + 1)) = .ok (H', p', l.length + (as.length + 1)) ∧
          (∀ x, H'.blk x = if x = p' then some b' else H0.blk x) ∧ H0.next ≤ p' ∧ p' < H'.next ∧ b'.nref = 1 ∧ b'.Ok ∧
          b'.cells = (l ++ a :: as) ++ rest' ∧ 1 ≤ rest'.length := by
      intro H p b rest hb hp hn h1 ho h17 hcl hr
      have hbp : H.blk p = some b := by rw [hb, if_pos rfl]
      have hlen := ho.1
      rw [hcl, List.length_append] at hlen
      match rest, hr with
      | y :: ys, hr =>
        rw [write_at hbp h1 (bs := [a]) (pre := l) (mid := [y]) (post := ys) (by simpa using hcl) rfl rfl, Res.ok_bind]
        have := ih (H.set p (some { b with cells := l ++ ([a] ++ ys) })) p { b with cells := l ++ ([a] ++ ys) } (l ++ [a]) ys
          (by
            intro x
            by_cases hx : x = p
            · subst hx; rw [set_same, if_pos rfl]
            · rw [set_other _ _ _ _ hx, hb, if_neg hx, if_neg hx])
          hp hn h1 ⟨by simp at hlen ⊢; omega, ho.2⟩ h17 (by simp) (by simp at hr; omega)
        have e1 : (l ++ [a]).length = l.length + 1 := by simp
        have e2 : (l ++ [a]) ++ as = l ++ a :: as := by simp
        rw [e1, e2] at this
        rw [show l.length + 1 + as.length = l.length + (as.length + 1) by omega] at this
        exact this
    simp only [List.length_cons]
    by_cases hge : l.length ≥ b.cap
    · rw [if_pos hge]
      have hH : H.Fresh := by
        intro r hr'
        rw [hb, if_neg (by omega)]
        exact hf r (by omega)
      have hhas : H.Has (some p) := by intro q hq; cases hq; exact ⟨b, hbp, by omega, ho⟩
      have hrd : H.read (.at p 0) 0 l.length = .ok l := by
        unfold read
        dsimp only
        rw [get_of hbp, Res.ok_bind, if_pos (by rw [ho.1]; omega), hcl]
        simp
      rcases realloc_spec hc hH hhas (add := b.cap / 2) hrd rfl with ⟨e, w⟩ | ⟨H1, b1, r, e, n1, hb1, h11, ho1, hcl1, hcap1⟩
      · left
        rw [e]
        refine ⟨rfl, ?_⟩
        have : b.cap / 2 ≤ (l.length + (as.length + 1)) / 2 := Nat.div_le_div_right (by omega)
        omega
      · rw [e, Res.ok_bind]
        have h17' : 17 ≤ b1.cap := by omega
        refine cont H1 H.next b1 (0 :: r) ?_ (by omega) n1 h11 ho1 h17' hcl1 ?_
        · intro x
          rw [hb1]
          by_cases hx : x = H.next
          · rw [if_pos hx, if_pos hx]
          · rw [if_neg hx, if_neg hx]
            unfold release
            by_cases hxp : x = p
            · subst hxp
              rw [if_pos rfl, hbp]
              dsimp only
              rw [if_pos h1, hf _ hp]
            · rw [if_neg (by simpa using fun e => hxp e.symm), hb, if_neg hxp]
        · have := ho1.1
          rw [hcl1, List.length_append] at this
          omega
    · rw [if_neg hge, Res.ok_bind]
      exact cont H p b rest hb hp hn h1 ho h17 hcl (by omega)

theorem appendSP_spec {c : Cfg} (hc : c.Good) {H : Heap} (hf : H.Fresh) {s : Str} {l as : Bytes} (hv : H.View s l) :
    H.Out s (l ++ as) (c.limit < l.length + (17 ||| H.capOf s.sth / 2) ∨ c.limit < (l.length + as.length) + (l.length + as.length) / 2)
      (H.appendSP c s as) := by
  unfold appendSP
  by_cases h0 : as = []
  · subst h0
    rw [if_pos rfl]
    right
    exact ⟨H, s, rfl, .same, by simpa using hv, id⟩
  rw [if_neg h0, capacity_spec hv.has, Res.ok_bind]
  rcases realloc_spec hc hf (Has.none H) (add := 17 ||| H.capOf s.sth / 2) hv.rd hv.len.symm with
    ⟨e, w⟩ | ⟨H1, b, r, e, n1, b1, h1, ho, hcl, hcap⟩
  · left; rw [e]; exact ⟨rfl, .inl (by rw [← hv.len]; exact w)⟩
  rw [e, Res.ok_bind]
  have h17 : 17 ≤ 17 ||| H.capOf s.sth / 2 := Nat.left_le_or
  rcases spLoop_spec hc hf as H1 H.next b l (0 :: r) (by intro x; rw [b1, release_none]) (Nat.le_refl _) n1 h1 ho (by omega) hcl (by simp) with
    ⟨e2, w2⟩ | ⟨H2, p2, b2, rest2, e2, hb2, hp2, hn2, h12, ho2, hcl2, hr2⟩
  · left
    dsimp only
    rw [hv.len, e2]
    exact ⟨rfl, .inr w2⟩
  · right
    dsimp only
    rw [hv.len, e2, Res.ok_bind]
    match rest2, hr2 with
    | y :: ys, _ =>
      rw [setData_spec (p := p2) (by rw [hb2, if_pos rfl]) h12 hcl2 (by simp), Res.ok_bind]
      have ho3 : ({ b2 with cells := l ++ as ++ 0 :: ys } : Block).Ok := by
        refine ⟨?_, ho2.2⟩
        have := ho2.1
        rw [hcl2] at this
        simpa using this
      obtain ⟨H3, e3, u3, k3⟩ := fresh_drop (H2 := H2.set p2 (some { b2 with cells := l ++ as ++ 0 :: ys })) hf hv.has (q := p2)
        (b := { b2 with cells := l ++ as ++ 0 :: ys }) h12 ho3 hp2 hn2 (by
          intro x
          by_cases hx : x = p2
          · subst hx; rw [set_same, if_pos rfl]
          · rw [set_other _ _ _ _ hx, hb2, if_neg hx, if_neg hx])
      dsimp only
      rw [e3]
      refine ⟨H3, _, rfl, u3, ?_, fun _ => strong_at _ _⟩
      have := view_at k3 (by simp only; omega) ho3 rfl
      rw [List.length_append] at this
      exact this

/-- `mut_data` makes a string that alone refers to its block. -/
theorem mutData_spec {c : Cfg} (hc : c.Good) {H : Heap} (hf : H.Fresh) {s : Str} {l : Bytes} (hv : H.View s l) :
    (H.mutData c s = .throw ∧ c.limit < l.length) ∨
    ∃ H' p b r, H.mutData c s = .ok (H', ⟨.at p 0, s.len, some p⟩, p) ∧ Upd H s.sth H' (some p) ∧ H'.blk p = some b ∧ b.nref = 1 ∧ b.Ok ∧
      b.cells = l ++ 0 :: r := by
  unfold mutData
  have slow : ((H.realloc c s.sth s.ptr s.len 0).map fun r => (r.1, ({ s with ptr := .at r.2 0, sth := some r.2 } : Str), r.2)) = .throw ∧
        c.limit < l.length ∨
      ∃ H' p b r, ((H.realloc c s.sth s.ptr s.len 0).map fun r => (r.1, ({ s with ptr := .at r.2 0, sth := some r.2 } : Str), r.2)) =
          .ok (H', ⟨.at p 0, s.len, some p⟩, p) ∧ Upd H s.sth H' (some p) ∧ H'.blk p = some b ∧ b.nref = 1 ∧ b.Ok ∧ b.cells = l ++ 0 :: r := by
    rcases realloc_spec hc hf hv.has (add := 0) hv.rd hv.len.symm with ⟨e, w⟩ | ⟨H1, b, r, e, n1, b1, h1, ho, hcl, hcap⟩
    · left; rw [e]; exact ⟨rfl, by rw [← hv.len]; exact w⟩
    · right
      rw [e]
      exact ⟨H1, H.next, b, r, rfl, .fresh H1 H.next b h1 ho (Nat.le_refl _) (by omega) b1, by rw [b1, if_pos rfl], h1, ho, hcl⟩
  rcases mutDataOpt_spec hv.has with e | ⟨p, b, hp, hb, h1, ho, e⟩
  · rw [e, Res.ok_bind]
    exact slow
  · rw [e, Res.ok_bind]
    by_cases hd : some s.ptr = (some p).map (.at · 0)
    · rw [decide_eq_true hd]
      right
      simp only [Option.map_some, Option.some.injEq] at hd
      obtain ⟨r, hr⟩ := hv.cells hd hb
      refine ⟨H, p, b, r, ?_, ?_, hb, h1, ho, hr⟩
      · dsimp only
        rw [← hd, ← hp]
      · rw [hp]; exact .same
    · rw [decide_eq_false hd]
      exact slow

theorem rotate_spec {H : Heap} {p : Nat} {b : Block} (hb : H.blk p = some b) (h1 : b.nref = 1) {A B C rest : Bytes}
    (hc : b.cells = A ++ (B ++ (C ++ rest))) {i j e : Nat} (hi : i = A.length) (hj : j = A.length + B.length) (he : e = A.length + B.length + C.length) :
    H.rotate p i j e = .ok (H.set p (some { b with cells := A ++ (C ++ (B ++ rest)) })) := by
  have hk : b.cells = (A ++ B ++ C) ++ rest := by rw [hc]; simp
  have ht : b.cells.take e = A ++ B ++ C := by rw [hk, List.take_left' (by simp; omega)]
  have hd : b.cells.drop e = rest := by rw [hk, List.drop_left' (by simp; omega)]
  unfold rotate
  rw [get_of hb, Res.ok_bind, if_neg (by rw [hk]; simp; omega), ht, hd]
  have := CowVector.Heap.rotateRange_gen (A ++ B ++ C) i j (by omega) (by simp; omega)
  rw [show (A ++ B ++ C).length = e by simp; omega] at this
  rw [this]
  subst hi hj
  simp only [Res.map]
  congr 4
  rw [show A.length + B.length = (A ++ B).length by simp]
  rw [List.append_assoc A B C, List.take_left, ← List.append_assoc A B C, List.drop_left, List.take_left, List.drop_left]
  simp

theorem swizzle_spec {c : Cfg} (hc : c.Good) {H : Heap} (hf : H.Fresh) {s : Str} {A T B X : Bytes} (hv : H.View s (A ++ T ++ B ++ X)) {tpos tlen old : Nat}
    (h1 : tpos = A.length) (h2 : tlen = T.length) (h3 : old = A.length + T.length + B.length) :
    H.Out s (A ++ X ++ B) (c.limit < (A ++ T ++ B ++ X).length) (H.swizzle c s tpos tlen old) := by
  unfold swizzle
  rcases mutData_spec hc hf hv with ⟨e, w⟩ | ⟨H1, p, b, r, e, u, hb, k1, ho, hcl⟩
  · left; rw [e]; exact ⟨rfl, w⟩
  right
  rw [e, Res.ok_bind]
  have hlen := hv.len
  simp only [List.length_append] at hlen
  dsimp only
  rw [rotate_spec hb k1 (A := A) (B := T) (C := B ++ X ++ [0]) (rest := r) (by rw [hcl]; simp) h1 (by omega) (by simp; omega), Res.ok_bind]
  rw [rotate_spec (set_same _ _ _) (by exact k1) (A := A) (B := B) (C := X) (rest := 0 :: (T ++ r)) (by simp) h1 (by omega) (by omega), set_set]
  have ho' : ({ b with cells := A ++ (X ++ (B ++ 0 :: (T ++ r))) } : Block).Ok := by
    refine ⟨?_, ho.2⟩
    have := ho.1
    rw [hcl] at this
    simp at this ⊢
    omega
  refine ⟨_, _, rfl, u.edit hb k1 (b' := { b with cells := A ++ (X ++ (B ++ 0 :: (T ++ r))) }) k1 ho', ?_, fun _ => ?_⟩
  · have := view_at (set_same H1 p (some { b with cells := A ++ (X ++ (B ++ 0 :: (T ++ r))) })) (by simp only; omega) ho' (l := A ++ X ++ B) (r := T ++ r) (by simp)
    rw [show (A ++ X ++ B).length = s.len - tlen by simp; omega] at this
    exact this
  · exact strong_at _ _

theorem popBack_spec {c : Cfg} (hc : c.Good) {H : Heap} (hf : H.Fresh) {s : Str} {l : Bytes} (hv : H.View s l) {n : Nat} (hn : n ≤ l.length)
    (hal : H.Aligned s) : H.Out s (l.take (l.length - n)) (c.limit < l.length - n) (H.popBack c s n) := by
  have hlen := hv.len
  unfold popBack
  rw [if_neg (by omega)]
  by_cases h0 : s.len = 0
  · rw [if_pos h0]
    right
    refine ⟨H, s, rfl, .same, ?_, id⟩
    rw [List.take_of_length_le (by omega)] 
    exact hv
  rw [if_neg h0]
  rcases mutDataOpt_spec hv.has with e | ⟨p, b, hp, hb, h1, ho, e⟩
  · rw [e, Res.ok_bind]
    dsimp only
    have hrd : H.read s.ptr 0 (s.len - n) = .ok (l.take (l.length - n)) := by
      rw [hv.read_part (by omega), hlen]
      simp
    rcases realloc_spec hc hf hv.has (add := 0) hrd (by simp; omega) with ⟨e, w⟩ | ⟨H1, b, r, e, n1, b1, h1, ho, hcl, hcap⟩
    · left; rw [e]; exact ⟨rfl, by rw [hlen] at w; exact w⟩
    · right
      rw [e, Res.ok_bind]
      dsimp only
      have hb : H1.blk H.next = some b := by rw [b1, if_pos rfl]
      rw [setData_spec hb h1 hcl (by simp; omega)]
      have ho' : ({ b with cells := l.take (l.length - n) ++ 0 :: r } : Block).Ok := by rw [← hcl]; exact ho
      refine ⟨_, _, rfl, (Upd.fresh H1 H.next b h1 ho (Nat.le_refl _) (by omega) b1).edit hb h1 h1 ho', ?_, fun _ => strong_at _ _⟩
      have := view_at (set_same H1 H.next (some { b with cells := l.take (l.length - n) ++ 0 :: r })) (by simp only; omega) ho' rfl
      rw [show (l.take (l.length - n)).length = s.len - n by simp; omega] at this
      exact this
  · rw [e, Res.ok_bind]
    dsimp only
    have hptr : s.ptr = .at p 0 := (hal p b hp hb h1).resolve_left h0
    obtain ⟨r, hcl⟩ := hv.cells hptr hb
    have hs : ∃ y ys, b.cells = l.take (l.length - n) ++ y :: ys := by
      rw [hcl]
      cases hd : l.drop (l.length - n) with
      | nil => exact ⟨0, r, by rw [show l.take (l.length - n) = l by
          have := List.take_append_drop (l.length - n) l; rw [hd] at this; simpa using this]⟩
      | cons y ys => exact ⟨y, ys ++ 0 :: r, by
          have := List.take_append_drop (l.length - n) l; rw [hd] at this
          conv_lhs => rw [← this]
          simp⟩
    obtain ⟨y, ys, hys⟩ := hs
    rw [setData_spec hb h1 hys (by simp; omega)]
    have ho' : ({ b with cells := l.take (l.length - n) ++ 0 :: ys } : Block).Ok := by
      refine ⟨?_, ho.2⟩
      have := ho.1
      rw [hys] at this
      simpa using this
    right
    refine ⟨_, _, rfl, ?_, ?_, fun _ => strong_at _ _⟩
    · dsimp only
      rw [hp]
      exact .inplace p b _ rfl hb h1 h1 ho'
    · have := view_at (set_same H p (some { b with cells := l.take (l.length - n) ++ 0 :: ys })) (by simp only; omega) ho' rfl
      rw [show (l.take (l.length - n)).length = s.len - n by simp; omega] at this
      exact this

theorem setChar_spec {c : Cfg} (hc : c.Good) {H : Heap} (hf : H.Fresh) {s : Str} {l : Bytes} (hv : H.View s l) {pos : Nat} (hp : pos < l.length) (a : UInt8) :
    H.Out s (l.set pos a) (c.limit < l.length) (H.setChar c s pos a) := by
  have hlen := hv.len
  unfold setChar
  rw [if_neg (by omega)]
  rcases mutData_spec hc hf hv with ⟨e, w⟩ | ⟨H1, p, b, r, e, u, hb, k1, ho, hcl⟩
  · left; rw [e]; exact ⟨rfl, w⟩
  right
  rw [e, Res.ok_bind]
  dsimp only
  have hsplit : l = l.take pos ++ (l[pos] :: l.drop (pos + 1)) := by
    rw [← List.drop_eq_getElem_cons hp, List.take_append_drop]
  rw [write_at hb k1 (bs := [a]) (pre := l.take pos) (mid := [l[pos]]) (post := l.drop (pos + 1) ++ 0 :: r)
    (by rw [hcl, show ∀ x, l.take pos ++ ([l[pos]] ++ (l.drop (pos + 1) ++ x)) = (l.take pos ++ (l[pos] :: l.drop (pos + 1))) ++ x by
          intro x; simp only [List.append_assoc, List.cons_append, List.nil_append], ← hsplit]) (by simp; omega) rfl]
  have hset : l.set pos a = l.take pos ++ a :: l.drop (pos + 1) := List.set_eq_take_append_cons_drop.trans (if_pos hp)
  have ho' : ({ b with cells := l.take pos ++ ([a] ++ (l.drop (pos + 1) ++ 0 :: r)) } : Block).Ok := by
    refine ⟨?_, ho.2⟩
    have := ho.1
    rw [hcl] at this
    simp at this ⊢
    omega
  refine ⟨_, _, rfl, u.edit hb k1 k1 ho', ?_, fun _ => strong_at _ _⟩
  have := view_at (set_same H1 p (some { b with cells := l.take pos ++ ([a] ++ (l.drop (pos + 1) ++ 0 :: r)) })) (by simp only; omega) ho'
    (l := l.set pos a) (r := r) (by rw [hset]; simp)
  rw [List.length_set, ← hlen] at this
  exact this

theorem unique_spec {H : Heap} {m : Option Nat} (h : H.Has m) : ∃ u, H.unique m = .ok u := by
  unfold unique
  rcases mutDataOpt_spec h with e | ⟨p, b, hp, hb, h1, ho, e⟩ <;> rw [e] <;> exact ⟨_, rfl⟩

/-- The text is moved to a new block. -/
theorem move_spec {c : Cfg} (hc : c.Good) {H : Heap} (hf : H.Fresh) {s : Str} {l : Bytes} (hv : H.View s l) (add : Nat) :
    H.Out s l (c.limit < l.length + add) ((H.realloc c none s.ptr s.len add).bind fun r =>
      (r.1.decref s.sth).map fun H => (H, { s with ptr := .at r.2 0, sth := some r.2 })) := by
  rcases realloc_spec hc hf (Has.none H) (add := add) hv.rd hv.len.symm with ⟨e, w⟩ | ⟨H1, b, r, e, n1, b1, h1, ho, hcl, hcap⟩
  · left; rw [e]; exact ⟨rfl, by rw [← hv.len]; exact w⟩
  right
  rw [e, Res.ok_bind]
  obtain ⟨H3, e3, u3, k3⟩ := fresh_drop (H2 := H1) hf hv.has h1 ho (Nat.le_refl _) (by omega) (by intro x; rw [b1, release_none])
  dsimp only
  rw [e3]
  refine ⟨H3, _, rfl, u3, ?_, fun _ => strong_at _ _⟩
  have := view_at k3 (by omega) ho hcl
  rw [← hv.len] at this
  exact this

theorem drop_spec {H : Heap} {s : Str} {l : Bytes} (hv : H.View s l) (b : Bytes) :
    ∃ H', H.decref s.sth = .ok H' ∧ Upd H s.sth H' none ∧ H'.View ⟨.lit b, b.length, none⟩ b := by
  obtain ⟨H', e, n, k⟩ := decref_spec hv.has
  exact ⟨H', e, .gone H' (by omega) k, rfl, nofun, fun t h => by cases h; rfl, nofun⟩

theorem shrink_spec {c : Cfg} (hc : c.Good) {H : Heap} (hf : H.Fresh) {s : Str} {l : Bytes} (hv : H.View s l) :
    H.Out s l (c.limit < l.length) (H.shrink c s) := by
  have hlen := hv.len
  unfold shrink
  by_cases h0 : s.len = 0
  · rw [if_pos h0]
    have : l = [] := List.length_eq_zero_iff.1 (by omega)
    subst this
    obtain ⟨H', e, u, v⟩ := drop_spec hv []
    right
    rw [e]
    exact ⟨H', zstr, rfl, u, v, fun _ => .inl rfl⟩
  rw [if_neg h0]
  unfold roundUp checkSizeAdd
  by_cases hl : 0 + s.len > c.limit
  · rw [if_pos hl]; left; exact ⟨rfl, by omega⟩
  rw [if_neg hl]
  obtain ⟨u, hu⟩ := unique_spec hv.has
  dsimp only [Res.map, Res.ok_bind]
  rw [hu, capacity_spec hv.has]
  dsimp only [Res.ok_bind]
  split
  · right; exact ⟨H, s, rfl, .same, hv, id⟩
  · exact move_spec hc hf hv 0

theorem reserve_spec {c : Cfg} (hc : c.Good) {H : Heap} (hf : H.Fresh) {s : Str} {l : Bytes} (hv : H.View s l) (n : Nat) :
    H.Out s l (c.limit < maxNchar c (minNblk c (max l.length n))) (H.reserve c s n) := by
  have hlen := hv.len
  obtain ⟨g1, g2⟩ := le_round c hc (max l.length n)
  unfold reserve
  by_cases h0 : n = 0
  · rw [if_pos h0]
    rcases shrink_spec hc hf hv with ⟨e, w⟩ | h
    · exact .inl ⟨e, by omega⟩
    · exact .inr h
  rw [if_neg h0, hlen]
  unfold roundUp checkSizeAdd
  by_cases hl : 0 + max l.length n > c.limit
  · rw [if_pos hl]; left; exact ⟨rfl, by omega⟩
  rw [if_neg hl]
  obtain ⟨u, hu⟩ := unique_spec hv.has
  dsimp only [Res.map, Res.ok_bind]
  rw [hu, capacity_spec hv.has]
  dsimp only [Res.ok_bind]
  split
  · right; exact ⟨H, s, rfl, .same, hv, id⟩
  · rw [Nat.zero_add]
    rw [← hlen]
    rcases move_spec hc hf hv (maxNchar c (minNblk c (max s.len n)) - s.len) with ⟨e, w⟩ | h
    · refine .inl ⟨e, ?_⟩
      rw [hlen] at w ⊢
      omega
    · exact .inr h

end Heap

end Asteria.CowString
