import Verif.Spec.MemPool
import Mathlib.Data.Nat.Log

/-!
# Helper lemmas for the memory pools: the invariant
-/

namespace Asteria.MemPool

/-! ### Sizes -/

theorem pool_eq {n : Nat} (h : 32 < n) (h' : n ≤ 2 ^ 64) : pool n = Nat.log2 (n - 1) + 1 := by
  have h1 : Nat.log2 (n - 1) < 64 := (Nat.log2_lt (by omega)).mpr (by omega)
  unfold pool lzcnt64
  rw [if_pos (by omega), if_neg (by omega)]
  omega

theorem pool_ge {n : Nat} (h' : n ≤ 2 ^ 64) : 5 ≤ pool n := by
  by_cases h : 32 < n
  · rw [pool_eq h h']
    have : 5 ≤ Nat.log2 (n - 1) := by
      rw [Nat.le_log2 (by omega)]; omega
    omega
  · unfold pool; rw [if_neg (by omega)]

theorem le_pool {n : Nat} (h' : n ≤ 2 ^ 64) : n ≤ 2 ^ pool n := by
  by_cases h : 32 < n
  · rw [pool_eq h h']
    have := Nat.lt_log2_self (n := n - 1)
    omega
  · unfold pool; rw [if_neg (by omega)]; omega

theorem pool_le {n k : Nat} (h : n ≤ 2 ^ k) (h' : n ≤ 2 ^ 64) (hk : 5 ≤ k) : pool n ≤ k := by
  by_cases h1 : 32 < n
  · rw [pool_eq h1 h']
    have : Nat.log2 (n - 1) < k := (Nat.log2_lt (by omega)).mpr (by omega)
    omega
  · unfold pool; rw [if_neg (by omega)]; exact hk

theorem pool_lt_iff {n : Nat} (h' : n < 2 ^ 64) : pool n < 64 ↔ n ≤ 2 ^ 63 := by
  constructor
  · intro h
    have := le_pool (n := n) (by omega)
    have := Nat.pow_le_pow_right (n := 2) (by omega) (show pool n ≤ 63 by omega)
    omega
  · intro h
    have := pool_le h (by omega) (by omega)
    omega

/-! ### Lists of blocks -/

/-- The list that begins with a pointer. -/
inductive Chain (next : Addr → Option Addr) : Option Addr → List Addr → Prop
  | nil : Chain next none []
  | cons {a L} : Chain next (next a) L → Chain next (some a) (a :: L)

theorem Chain.det {next : Addr → Option Addr} {p : Option Addr} {L M : List Addr} (h : Chain next p L) (h' : Chain next p M) : L = M := by
  induction h generalizing M with
  | nil => cases h'; rfl
  | cons _ ih => cases h' with | cons h' => rw [ih h']

theorem Chain.tail {next : Addr → Option Addr} {p : Option Addr} {L : List Addr} (h : Chain next p L) {a : Addr} (ha : a ∈ L) :
    ∃ M, Chain next (some a) M ∧ M.length ≤ L.length := by
  induction h with
  | nil => cases ha
  | @cons b L h ih =>
    rcases List.mem_cons.mp ha with rfl | ha
    · exact ⟨a :: L, .cons h, Nat.le_refl _⟩
    · obtain ⟨M, h1, h2⟩ := ih ha
      exact ⟨M, h1, by simp; omega⟩

theorem Chain.not_mem {next : Addr → Option Addr} {a : Addr} {L : List Addr} (h : Chain next (next a) L) : a ∉ L := by
  intro ha
  obtain ⟨M, h1, h2⟩ := h.tail ha
  have := Chain.det h1 (.cons h)
  rw [this, List.length_cons] at h2
  omega

theorem Chain.congr {next next' : Addr → Option Addr} {p : Option Addr} {L : List Addr} (h : Chain next p L)
    (hn : ∀ a ∈ L, next' a = next a) : Chain next' p L := by
  induction h with
  | nil => exact .nil
  | cons _ ih => exact .cons (by rw [hn _ (.head _)]; exact ih fun a ha => hn a (.tail _ ha))

/-! ### The invariant -/

variable {T : Type} [DecidableEq T]

/-- A block has at least a size. -/
def Big (w : World T) (b : Addr) (n : Nat) : Prop := ∃ s, w.real b = some s ∧ n ≤ s

/-- A thread holds exactly some blocks. -/
def Exc (o : Addr → Owner T) (t : T) (L : List Addr) : Prop := ∀ a, o a = .thr t ↔ a ∈ L

/-- The request is not too large. -/
def Fits (q : Req) : Prop := q.bytes ≤ 2 ^ 63

/-- What is known of a thread. -/
def TInv (w : World T) (o : Addr → Owner T) (t : T) : Pc → Prop
  | .idle => Exc o t []
  | .take q _ => Exc o t [] ∧ Fits q
  | .test q b => ∃ L, Chain w.next (w.next b) L ∧ Exc o t (b :: L) ∧ (∀ a ∈ b :: L, Big w a (2 ^ pool q.bytes)) ∧ Fits q
  | .swap q b m => ∃ L, Chain w.next (some m) L ∧ b ∉ L ∧ Exc o t (b :: L) ∧ (∀ a ∈ b :: L, Big w a (2 ^ pool q.bytes)) ∧ Fits q
  | .new q => Exc o t [] ∧ Fits q
  | .drop q b => ∃ L, Chain w.next (w.next b) L ∧ Exc o t (b :: L) ∧ Big w b (2 ^ pool q.bytes) ∧ Fits q
  | .del p (.give q b) => ∃ L, Chain w.next p L ∧ b ∉ L ∧ Exc o t (b :: L) ∧ Big w b (2 ^ pool q.bytes) ∧ Fits q
  | .del p _ => ∃ L, Chain w.next p L ∧ Exc o t L
  | .give q b => Exc o t [b] ∧ Big w b (2 ^ pool q.bytes) ∧ Fits q
  | .free si b _ | .load si b | .cas si b | .flush si b => Exc o t [b] ∧ Big w b (2 ^ si) ∧ si < 64
  | .clean _ => Exc o t []

/-- What is known of a pool. -/
def PInv (w : World T) (o : Addr → Owner T) (si : Nat) : Prop :=
  ∃ L, Chain w.next (w.head si) L ∧ (∀ a, o a = .pool si ↔ a ∈ L) ∧ ∀ a ∈ L, Big w a (2 ^ si)

/-- The invariant. -/
structure Inv (w : World T) (o : Addr → Owner T) : Prop where
  live : ∀ a, o a = .free ↔ w.real a = none
  size : ∀ a s, w.real a = some s → 32 ≤ s
  user : ∀ a, o a = .user ↔ w.held a ≠ none
  big : ∀ a n, w.held a = some n → n ≤ 2 ^ 63 ∧ Big w a (2 ^ pool n)
  pool : ∀ si, PInv w o si
  top : ∀ si, 64 ≤ si → w.head si = none
  thr : ∀ t, TInv w o t (w.pc t)

omit [DecidableEq T] in
theorem Big.congr {w w' : World T} {b : Addr} {n : Nat} (h : Big w b n) (hr : w'.real b = w.real b) : Big w' b n := by
  obtain ⟨s, h1, h2⟩ := h
  exact ⟨s, by rw [hr, h1], h2⟩

omit [DecidableEq T] in
theorem Exc.congr {o o' : Addr → Owner T} {t : T} {L : List Addr} (h : Exc o t L) (ho : ∀ a, o' a = .thr t ↔ o a = .thr t) :
    Exc o' t L := fun a => (ho a).trans (h a)

omit [DecidableEq T] in
theorem TInv.congr {w w' : World T} {o o' : Addr → Owner T} {t : T} {p : Pc} (h : TInv w o t p)
    (ho : ∀ a, o' a = .thr t ↔ o a = .thr t) (hn : ∀ a, o a = .thr t → w'.next a = w.next a)
    (hr : ∀ a, o a = .thr t → w'.real a = w.real a) : TInv w' o' t p := by
  cases p with
  | idle => exact Exc.congr h ho
  | take q x => exact ⟨h.1.congr ho, h.2⟩
  | test q b =>
    obtain ⟨L, h1, h2, h3, h4⟩ := h
    refine ⟨L, ?_, h2.congr ho, fun a ha => (h3 a ha).congr (hr a ((h2 a).mpr ha)), h4⟩
    rw [hn b ((h2 b).mpr (.head _))]
    exact h1.congr fun a ha => hn a ((h2 a).mpr (.tail _ ha))
  | swap q b m =>
    obtain ⟨L, h1, h0, h2, h3, h4⟩ := h
    exact ⟨L, h1.congr fun a ha => hn a ((h2 a).mpr (.tail _ ha)), h0, h2.congr ho,
      fun a ha => (h3 a ha).congr (hr a ((h2 a).mpr ha)), h4⟩
  | new q => exact ⟨h.1.congr ho, h.2⟩
  | drop q b =>
    obtain ⟨L, h1, h2, h3, h4⟩ := h
    refine ⟨L, ?_, h2.congr ho, h3.congr (hr b ((h2 b).mpr (.head _))), h4⟩
    rw [hn b ((h2 b).mpr (.head _))]
    exact h1.congr fun a ha => hn a ((h2 a).mpr (.tail _ ha))
  | del p k =>
    cases k with
    | give q b =>
      obtain ⟨L, h1, h0, h2, h3, h4⟩ := h
      exact ⟨L, h1.congr fun a ha => hn a ((h2 a).mpr (.tail _ ha)), h0, h2.congr ho, h3.congr (hr b ((h2 b).mpr (.head _))), h4⟩
    | done =>
      obtain ⟨L, h1, h2⟩ := h
      exact ⟨L, h1.congr fun a ha => hn a ((h2 a).mpr ha), h2.congr ho⟩
    | clean si =>
      obtain ⟨L, h1, h2⟩ := h
      exact ⟨L, h1.congr fun a ha => hn a ((h2 a).mpr ha), h2.congr ho⟩
  | give q b => exact ⟨h.1.congr ho, h.2.1.congr (hr b ((h.1 b).mpr (.head _))), h.2.2⟩
  | free si b x => exact ⟨h.1.congr ho, h.2.1.congr (hr b ((h.1 b).mpr (.head _))), h.2.2⟩
  | load si b => exact ⟨h.1.congr ho, h.2.1.congr (hr b ((h.1 b).mpr (.head _))), h.2.2⟩
  | cas si b => exact ⟨h.1.congr ho, h.2.1.congr (hr b ((h.1 b).mpr (.head _))), h.2.2⟩
  | flush si b => exact ⟨h.1.congr ho, h.2.1.congr (hr b ((h.1 b).mpr (.head _))), h.2.2⟩
  | clean si => exact Exc.congr h ho

omit [DecidableEq T] in
theorem PInv.congr {w w' : World T} {o o' : Addr → Owner T} {si : Nat} (h : PInv w o si)
    (ho : ∀ a, o' a = .pool si ↔ o a = .pool si) (hh : w'.head si = w.head si)
    (hn : ∀ a, o a = .pool si → w'.next a = w.next a) (hr : ∀ a, o a = .pool si → w'.real a = w.real a) : PInv w' o' si := by
  obtain ⟨L, h1, h2, h3⟩ := h
  refine ⟨L, ?_, fun a => (ho a).trans (h2 a), fun a ha => (h3 a ha).congr (hr a ((h2 a).mpr ha))⟩
  rw [hh]
  exact h1.congr fun a ha => hn a ((h2 a).mpr ha)

omit [DecidableEq T] in
/-- A step changes what thread `t` and pool `S` hold. -/
theorem Inv.upd {w w' : World T} {o o' : Addr → Owner T} (h : Inv w o) (t : Option T) (S : Nat)
    (hpc : ∀ t', t ≠ some t' → w'.pc t' = w.pc t')
    (hthr : ∀ t', t ≠ some t' → ∀ a, o' a = .thr t' ↔ o a = .thr t')
    (hpool : ∀ si, si ≠ S → ∀ a, o' a = .pool si ↔ o a = .pool si)
    (hhead : ∀ si, si ≠ S → w'.head si = w.head si)
    (hmt : ∀ a t', t ≠ some t' → o a = .thr t' → w'.next a = w.next a ∧ w'.real a = w.real a)
    (hmp : ∀ a si, si ≠ S → o a = .pool si → w'.next a = w.next a ∧ w'.real a = w.real a)
    (live : ∀ a, o' a = .free ↔ w'.real a = none)
    (size : ∀ a s, w'.real a = some s → 32 ≤ s)
    (user : ∀ a, o' a = .user ↔ w'.held a ≠ none)
    (big : ∀ a n, w'.held a = some n → n ≤ 2 ^ 63 ∧ Big w' a (2 ^ MemPool.pool n))
    (pool : PInv w' o' S) (htop : 64 ≤ S → w'.head S = none)
    (thr : ∀ t', t = some t' → TInv w' o' t' (w'.pc t')) : Inv w' o' := by
  refine ⟨live, size, user, big, fun si => ?_, fun si hs' => ?_, fun t' => ?_⟩
  · by_cases hs : si = S
    · exact hs ▸ pool
    · exact (h.pool si).congr (hpool si hs) (hhead si hs) (fun a ha => (hmp a si hs ha).1) (fun a ha => (hmp a si hs ha).2)
  · by_cases hs : si = S
    · exact hs ▸ htop (hs ▸ hs')
    · rw [hhead si hs]; exact h.top si hs'
  · by_cases ht : t = some t'
    · exact thr t' ht
    · rw [hpc t' ht]
      exact (h.thr t').congr (hthr t' ht) (fun a ha => (hmt a t' ht ha).1) (fun a ha => (hmt a t' ht ha).2)

/-- A step that changes only where a thread is. -/
theorem Inv.goto {w : World T} {o : Addr → Owner T} (h : Inv w o) {t : T} {p : Pc} (hp : TInv w o t p) : Inv (w.goto t p) o := by
  refine h.upd (some t) 0 ?_ (fun _ _ _ => Iff.rfl) (fun _ _ _ => Iff.rfl) (fun _ _ => rfl) (fun _ _ _ _ => ⟨rfl, rfl⟩)
    (fun _ _ _ _ => ⟨rfl, rfl⟩) h.live h.size h.user h.big (h.pool 0) (fun h' => by omega) ?_
  · intro t' ht
    exact Function.update_of_ne (by rintro rfl; exact ht rfl) _ _
  · intro t' ht
    cases ht
    have : (w.goto t p).pc t = p := Function.update_self _ _ _
    rw [this]
    exact hp.congr (fun _ => Iff.rfl) (fun _ _ => rfl) (fun _ _ => rfl)

omit [DecidableEq T] in
theorem Inv.nopool {w : World T} {o : Addr → Owner T} (_ : Inv w o) {a : Addr} {t : T} (ha : o a = .thr t) {si : Nat} : o a ≠ .pool si := by
  rw [ha]; exact fun e => by cases e

/-- A step that sets the field `next` of a block that thread `t` holds. -/
theorem Inv.setNext {w : World T} {o : Addr → Owner T} (h : Inv w o) {t : T} {b : Addr} (hb : o b = .thr t) (x : Option Addr)
    {p : Pc} (hp : TInv (w.setNext b x) o t p) : Inv ((w.setNext b x).goto t p) o := by
  have key : ∀ a, o a ≠ .thr t → ((w.setNext b x).goto t p).next a = w.next a := by
    intro a ha
    exact Function.update_of_ne (by rintro rfl; exact ha hb) _ _
  refine h.upd (some t) 0 ?_ (fun _ _ _ => Iff.rfl) (fun _ _ _ => Iff.rfl) (fun _ _ => rfl) ?_ ?_ h.live h.size h.user h.big ?_ (fun h' => by omega) ?_
  · intro t' ht
    exact Function.update_of_ne (by rintro rfl; exact ht rfl) _ _
  · intro a t' ht ha
    exact ⟨key a (by rw [ha]; exact fun e => ht (by cases e; rfl)), rfl⟩
  · intro a si _ ha
    exact ⟨key a (by rw [ha]; exact fun e => by cases e), rfl⟩
  · exact (h.pool 0).congr (fun _ => Iff.rfl) rfl (fun a ha => key a (by rw [ha]; exact fun e => by cases e)) (fun _ _ => rfl)
  · intro t' ht
    cases ht
    have : ((w.setNext b x).goto t p).pc t = p := Function.update_self _ _ _
    rw [this]
    exact hp.congr (fun _ => Iff.rfl) (fun _ _ => rfl) (fun _ _ => rfl)

/-- All blocks of a pool go to a thread. -/
theorem Inv.grab {w : World T} {o : Addr → Owner T} (h : Inv w o) {t : T} {si : Nat} {K : List Addr} (hK : Exc o t K)
    (pre : World T → World T) (hpre : ∀ v : World T, pre v = v ∨ ∃ b x, b ∈ K ∧ pre v = v.setNext b x) (p : Pc)
    (hp : ∀ L o', Chain w.next (w.head si) L → (∀ a ∈ L, a ∉ K) → (∀ a ∈ L, Big w a (2 ^ si)) → Exc o' t (K ++ L) →
      TInv (pre (w.setHead si none)) o' t p) :
    ∃ o', Inv ((pre (w.setHead si none)).goto t p) o' := by
  obtain ⟨L, h1, h2, h3⟩ := h.pool si
  have hLK : ∀ a ∈ L, a ∉ K := by
    intro a ha hk
    have e1 := (h2 a).mpr ha
    have e2 := (hK a).mpr hk
    rw [e1] at e2; cases e2
  let o' : Addr → Owner T := fun a => if a ∈ L then .thr t else o a
  have ho : ∀ a, a ∈ L → o' a = .thr t := fun a ha => if_pos ha
  have ho2 : ∀ a, a ∉ L → o' a = o a := fun a ha => if_neg ha
  have hexc : Exc o' t (K ++ L) := by
    intro a
    by_cases ha : a ∈ L
    · simp [ho a ha, ha]
    · rw [ho2 a ha, hK a]; simp [ha]
  have hoL : ∀ (x : Owner T), x ≠ .thr t → x ≠ .pool si → ∀ a, o' a = x ↔ o a = x := by
    intro x hx hx' a
    by_cases ha : a ∈ L
    · rw [ho a ha, (h2 a).mpr ha]
      exact ⟨fun e => absurd e.symm hx, fun e => absurd e.symm hx'⟩
    · rw [ho2 a ha]
  have hpc : (pre (w.setHead si none)).pc = w.pc := by
    rcases hpre (w.setHead si none) with e | ⟨b, x, _, e⟩ <;> (rw [e]; rfl)
  have hhead : (pre (w.setHead si none)).head = (w.setHead si none).head := by
    rcases hpre (w.setHead si none) with e | ⟨b, x, _, e⟩ <;> rw [e] <;> rfl
  have hreal : (pre (w.setHead si none)).real = w.real := by
    rcases hpre (w.setHead si none) with e | ⟨b, x, _, e⟩ <;> rw [e] <;> rfl
  have hheld : (pre (w.setHead si none)).held = w.held := by
    rcases hpre (w.setHead si none) with e | ⟨b, x, _, e⟩ <;> rw [e] <;> rfl
  have hnext : ∀ a, o a ≠ .thr t → (pre (w.setHead si none)).next a = w.next a := by
    intro a ha
    rcases hpre (w.setHead si none) with e | ⟨b, x, hb, e⟩
    · rw [e]; rfl
    · rw [e]
      exact Function.update_of_ne (by rintro rfl; exact ha ((hK _).mpr hb)) _ _
  refine ⟨o', h.upd (some t) si ?_ ?_ ?_ ?_ ?_ ?_ ?_ ?_ ?_ ?_ ?_ (fun _ => by show (pre (w.setHead si none)).head si = none; rw [hhead]; exact Function.update_self _ _ _) ?_⟩
  · intro t' ht
    have : ((pre (w.setHead si none)).goto t p).pc t' = (pre (w.setHead si none)).pc t' :=
      Function.update_of_ne (by rintro rfl; exact ht rfl) _ _
    rw [this, hpc]
  · intro t' ht a
    exact hoL (.thr t') (fun e => ht (by cases e; rfl)) nofun a
  · intro si' hs a
    exact hoL (.pool si') nofun (fun e => hs (by cases e; rfl)) a
  · intro si' hs
    show (pre (w.setHead si none)).head si' = _
    rw [hhead]
    exact Function.update_of_ne hs _ _
  · intro a t' ht ha
    exact ⟨hnext a (by rw [ha]; exact fun e => ht (by cases e; rfl)), congrFun hreal a⟩
  · intro a si' _ ha
    exact ⟨hnext a (by rw [ha]; exact fun e => by cases e), congrFun hreal a⟩
  · intro a
    show _ ↔ (pre (w.setHead si none)).real a = none
    rw [hreal, hoL .free nofun nofun a]
    exact h.live a
  · intro a s hs
    exact h.size a s (by rw [← hs]; exact (congrFun hreal a).symm)
  · intro a
    show _ ↔ (pre (w.setHead si none)).held a ≠ none
    rw [hheld, hoL .user nofun nofun a]
    exact h.user a
  · intro a n hn
    have hn : w.held a = some n := by rw [← hn]; exact (congrFun hheld a).symm
    exact ⟨(h.big a n hn).1, (h.big a n hn).2.congr (congrFun hreal a)⟩
  · refine ⟨[], ?_, ?_, by simp⟩
    · have : ((pre (w.setHead si none)).goto t p).head si = none := by
        show (pre (w.setHead si none)).head si = none
        rw [hhead]; exact Function.update_self _ _ _
      rw [this]; exact .nil
    · intro a
      by_cases ha : a ∈ L
      · rw [ho a ha]; simp
      · rw [ho2 a ha, h2 a]; simp [ha]
  · intro t' ht
    cases ht
    have : ((pre (w.setHead si none)).goto t p).pc t = p := Function.update_self _ _ _
    rw [this]
    exact (hp L o' h1 hLK h3 hexc).congr (fun _ => Iff.rfl) (fun _ _ => rfl) (fun _ _ => rfl)

omit [DecidableEq T] in
theorem upd_iff {o : Addr → Owner T} {b : Addr} {x y : Owner T} (h1 : x ≠ y) (h2 : o b ≠ y) (a : Addr) :
    Function.update o b x a = y ↔ o a = y := by
  by_cases e : a = b
  · subst e
    rw [Function.update_self]
    exact ⟨fun e => absurd e h1, fun e => absurd e h2⟩
  · rw [Function.update_of_ne e]

omit [DecidableEq T] in
theorem touch_ok {w : World T} {b : Addr} {n : Nat} (h : Big w b n) (k : World T) : w.touch b n k = .ok k := by
  obtain ⟨s, h1, h2⟩ := h
  unfold World.touch
  rw [h1]
  exact if_pos h2

omit [DecidableEq T] in
theorem Inv.small {w : World T} {o : Addr → Owner T} (h : Inv w o) {b : Addr} (hb : o b ≠ .free) : Big w b 16 := by
  cases hr : w.real b with
  | none => exact absurd ((h.live b).mpr hr) hb
  | some s => exact ⟨s, hr, by have := h.size b s hr; omega⟩

theorem goto_pc (w : World T) (t : T) (p : Pc) : (w.goto t p).pc t = p := Function.update_self _ _ _

theorem goto_pc_ne (w : World T) {t t' : T} (p : Pc) (h : some t ≠ some t') : (w.goto t p).pc t' = w.pc t' :=
  Function.update_of_ne (by rintro rfl; exact h rfl) _ _

theorem TInv.goto {w : World T} {o : Addr → Owner T} {t u : T} {p q : Pc} (h : TInv w o t p) : TInv (w.goto u q) o t p :=
  h.congr (fun _ => Iff.rfl) (fun _ _ => rfl) (fun _ _ => rfl)

omit [DecidableEq T] in
/-- A block of which only one thread knows goes to someone else, or comes from someone else: `b` changes from `x` to `y`. -/
theorem Inv.move {w w' : World T} {o : Addr → Owner T} (h : Inv w o) (t : T) {b : Addr} {y : Owner T}
    (hx : o b = .thr t ∨ o b = .free ∨ o b = .user) (hy : y = .thr t ∨ y = .free ∨ y = .user)
    (hpc : ∀ t', some t ≠ some t' → w'.pc t' = w.pc t') (hhead : w'.head = w.head) (hnext : w'.next = w.next)
    (hreal : ∀ a, a ≠ b → w'.real a = w.real a) (hheld : ∀ a, a ≠ b → w'.held a = w.held a)
    (hlive : y = .free ↔ w'.real b = none) (hsize : ∀ s, w'.real b = some s → 32 ≤ s) (huser : y = .user ↔ w'.held b ≠ none)
    (hbig : ∀ n, w'.held b = some n → n ≤ 2 ^ 63 ∧ Big w' b (2 ^ MemPool.pool n))
    (hthr : TInv w' (Function.update o b y) t (w'.pc t)) :
    Inv w' (Function.update o b y) := by
  have hyp : ∀ si, y ≠ .pool si := by rintro si rfl; rcases hy with h | h | h <;> cases h
  have hxp : ∀ si, o b ≠ .pool si := by intro si e; rw [e] at hx; rcases hx with h | h | h <;> cases h
  have hyt : ∀ t', some t ≠ some t' → y ≠ .thr t' := by
    rintro t' ht rfl
    rcases hy with h | h | h
    · cases h; exact ht rfl
    · cases h
    · cases h
  have hxt : ∀ t', some t ≠ some t' → o b ≠ .thr t' := by
    intro t' ht e
    rw [e] at hx
    rcases hx with h | h | h
    · cases h; exact ht rfl
    · cases h
    · cases h
  refine h.upd (some t) 0 hpc ?_ ?_ (fun si _ => by rw [hhead]) ?_ ?_ ?_ ?_ ?_ ?_ ?_ (fun h' => by omega) ?_
  · intro t' ht a
    exact upd_iff (hyt t' ht) (hxt t' ht) a
  · intro si _ a
    exact upd_iff (hyp si) (hxp si) a
  · intro a t' ht ha
    refine ⟨by rw [hnext], hreal a ?_⟩
    rintro rfl
    exact hxt t' ht ha
  · intro a si _ ha
    refine ⟨by rw [hnext], hreal a ?_⟩
    rintro rfl
    exact hxp si ha
  · intro a
    by_cases e : a = b
    · subst e; rw [Function.update_self]; exact hlive
    · rw [Function.update_of_ne e, hreal a e]; exact h.live a
  · intro a s hs
    by_cases e : a = b
    · subst e; exact hsize s hs
    · exact h.size a s (by rw [← hreal a e]; exact hs)
  · intro a
    by_cases e : a = b
    · subst e; rw [Function.update_self]; exact huser
    · rw [Function.update_of_ne e, hheld a e]; exact h.user a
  · intro a n hn
    by_cases e : a = b
    · subst e; exact hbig n hn
    · rw [hheld a e] at hn
      exact ⟨(h.big a n hn).1, (h.big a n hn).2.congr (hreal a e)⟩
  · refine (h.pool 0).congr (fun a => upd_iff (hyp 0) (hxp 0) a) (by rw [hhead]) (fun a _ => by rw [hnext]) ?_
    intro a ha
    apply hreal
    rintro rfl
    exact hxp 0 ha
  · rintro t' ht
    cases ht
    exact hthr

/-- What `xmemalloc` tells is not more than what there is. -/
theorem got_le (q : Req) : q.esize * q.got ≤ 2 ^ pool q.bytes := by
  unfold Req.got
  split
  · exact Nat.mul_div_le _ _
  · rename_i h
    have : q.esize = 0 ∨ q.esize = 1 := by omega
    rcases this with e | e <;> rw [e]
    · rw [Nat.zero_mul]; exact Nat.zero_le _
    · rw [Nat.one_mul]

theorem pool_le_63 {q : Req} (hq : Fits q) : pool q.bytes ≤ 63 := by
  have h1 : q.bytes ≤ 2 ^ 63 := hq
  exact pool_le h1 (by omega) (by omega)

theorem pool_got {q : Req} (hq : Fits q) : q.esize * q.got ≤ 2 ^ 63 ∧ pool (q.esize * q.got) ≤ pool q.bytes := by
  have h1 := got_le q
  have h2 := pool_le_63 hq
  have h3 := Nat.pow_le_pow_right (n := 2) (by omega) h2
  have h4 : q.bytes ≤ 2 ^ 63 := hq
  exact ⟨by omega, pool_le h1 (by omega) (pool_ge (by omega))⟩

omit [DecidableEq T] in
theorem Big.mono {w : World T} {b : Addr} {n m : Nat} (h : Big w b n) (hm : m ≤ n) : Big w b m := by
  obtain ⟨s, h1, h2⟩ := h
  exact ⟨s, h1, by omega⟩

theorem two_pow_mono {a b : Nat} (h : a ≤ b) : 2 ^ a ≤ 2 ^ b := Nat.pow_le_pow_right (by omega) h

theorem step_inv {w : World T} {o : Addr → Owner T} (h : Inv w o) (t : T) (a : Option Addr) (s : Bool) :
    ∃ w', step w t a s = .ok w' ∧ ∃ o', Inv w' o' := by
  have ht := h.thr t
  unfold step
  cases hp : w.pc t with
  | idle => exact ⟨w, rfl, o, h⟩
  | take q x =>
    rw [hp] at ht
    obtain ⟨hE, hq⟩ := ht
    dsimp only
    cases hh : w.head (pool q.bytes) with
    | none =>
      have e : w.setHead (pool q.bytes) none = w := by
        unfold World.setHead; rw [← hh, Function.update_eq_self]
      exact ⟨_, rfl, o, by rw [e]; exact h.goto ⟨hE, hq⟩⟩
    | some b =>
      refine ⟨_, rfl, h.grab (si := pool q.bytes) (K := []) hE id (fun v => .inl rfl) _ ?_⟩
      intro L o' hc _ hb hx
      rw [hh] at hc
      cases hc with
      | @cons _ L hc =>
      split
      · exact ⟨L, hc, hx, hb, hq⟩
      · exact ⟨L, hc, hx, hb b (.head _), hq⟩
  | test q b =>
    rw [hp] at ht
    obtain ⟨L, hc, hE, hb, hq⟩ := ht
    have hl : o b ≠ .free := by rw [(hE b).mpr (.head _)]; exact fun e => by cases e
    refine ⟨_, touch_ok (h.small hl) _, o, h.goto ?_⟩
    cases hn : w.next b with
    | none => exact ⟨L, hc, hE, hb b (.head _), hq⟩
    | some m => exact ⟨L, hn ▸ hc, hc.not_mem, hE, hb, hq⟩
  | swap q b m =>
    rw [hp] at ht
    obtain ⟨L, hc, hbL, hE, hb, hq⟩ := ht
    have hob := (hE b).mpr (.head _)
    have hl : o b ≠ .free := by rw [hob]; exact fun e => by cases e
    refine ⟨_, touch_ok (h.small hl) _, ?_⟩
    generalize hsi : pool q.bytes = si at *
    obtain ⟨M, h1, h2, h3⟩ := h.pool si
    have hLM : ∀ a ∈ M, a ∉ b :: L := by
      intro a ha hk
      have e1 := (h2 a).mpr ha
      have e2 := (hE a).mpr hk
      rw [e1] at e2; cases e2
    have hbM : b ∉ M := fun hb => hLM b hb (.head _)
    let o' : Addr → Owner T := fun a => if a ∈ L then .pool si else if a ∈ M then .thr t else o a
    have hoL : ∀ a, a ∈ L → o' a = .pool si := fun a ha => if_pos ha
    have hoM : ∀ a, a ∈ M → o' a = .thr t := fun a ha => by
      show (if a ∈ L then Owner.pool si else if a ∈ M then .thr t else o a) = _
      rw [if_neg (by intro h; exact hLM a ha (.tail _ h)), if_pos ha]
    have hoN : ∀ a, a ∉ L → a ∉ M → o' a = o a := fun a h1 h2 => by
      show (if a ∈ L then Owner.pool si else if a ∈ M then .thr t else o a) = _
      rw [if_neg h1, if_neg h2]
    have hoO : ∀ x : Owner T, x ≠ .thr t → x ≠ .pool si → ∀ a, o' a = x ↔ o a = x := by
      intro x hx hx' a
      by_cases ha : a ∈ L
      · rw [hoL a ha, (hE a).mpr (.tail _ ha)]
        exact ⟨fun e => absurd e.symm hx', fun e => absurd e.symm hx⟩
      · by_cases ha' : a ∈ M
        · rw [hoM a ha', (h2 a).mpr ha']
          exact ⟨fun e => absurd e.symm hx, fun e => absurd e.symm hx'⟩
        · rw [hoN a ha ha']
    have hnext : ∀ a, a ≠ b → (((w.setHead si (some m)).setNext b (w.head si)).goto t (.drop q b)).next a = w.next a :=
      fun a ha => Function.update_of_ne ha _ _
    refine ⟨o', h.upd (some t) si ?_ ?_ ?_ ?_ ?_ ?_ ?_ h.size ?_ h.big ?_ (fun h' => by have := pool_le_63 hq; omega) ?_⟩
    · intro t' ht
      exact goto_pc_ne _ _ ht
    · intro t' ht
      exact hoO _ (fun e => ht (by cases e; rfl)) nofun
    · intro si' hs
      exact hoO _ nofun (fun e => hs (by cases e; rfl))
    · intro si' hs
      exact Function.update_of_ne hs _ _
    · intro a t' ht ha
      refine ⟨hnext a ?_, rfl⟩
      rintro rfl
      rw [hob] at ha; cases ha; exact ht rfl
    · intro a si' _ ha
      refine ⟨hnext a ?_, rfl⟩
      rintro rfl
      rw [hob] at ha; cases ha
    · intro a
      rw [hoO .free nofun nofun]
      exact h.live a
    · intro a
      rw [hoO .user nofun nofun]
      exact h.user a
    · refine ⟨L, ?_, ?_, fun a ha => hb a (.tail _ ha)⟩
      · have : (((w.setHead si (some m)).setNext b (w.head si)).goto t (.drop q b)).head si = some m := Function.update_self _ _ _
        rw [this]
        exact hc.congr fun a ha => hnext a (fun e => hbL (e ▸ ha))
      · intro a
        by_cases ha : a ∈ L
        · simp [hoL a ha, ha]
        · by_cases ha' : a ∈ M
          · rw [hoM a ha']; simp [ha]
          · rw [hoN a ha ha', h2 a]; simp [ha, ha']
    · intro t' ht
      cases ht
      rw [goto_pc]
      refine ⟨M, ?_, ?_, by rw [hsi]; exact hb b (.head _), hq⟩
      · have : (((w.setHead si (some m)).setNext b (w.head si)).goto t (.drop q b)).next b = w.head si := Function.update_self _ _ _
        rw [this]
        exact h1.congr fun a ha => hnext a (fun e => hbM (e ▸ ha))
      · intro a
        by_cases ha : a ∈ L
        · rw [hoL a ha]
          simp only [reduceCtorEq, List.mem_cons, false_iff, not_or]
          exact ⟨fun e => hbL (e ▸ ha), fun h' => hLM a h' (.tail _ ha)⟩
        · by_cases ha' : a ∈ M
          · simp [hoM a ha', ha']
          · rw [hoN a ha ha', hE a]; simp [ha, ha']
  | new q =>
    rw [hp] at ht
    obtain ⟨hE, hq⟩ := ht
    cases a with
    | none => exact ⟨_, rfl, o, h.goto hE⟩
    | some a =>
      dsimp only
      split
      · rename_i hr
        have hoa := (h.live a).mpr hr
        have hq' : q.bytes ≤ 2 ^ 63 := hq
        have h5 : 32 ≤ 2 ^ pool q.bytes := two_pow_mono (a := 5) (pool_ge (by omega))
        have hreal : Function.update w.real a (some (2 ^ pool q.bytes)) a = some (2 ^ pool q.bytes) := Function.update_self _ _ _
        have hheld : w.held a = none := by
          by_contra hc
          have := (h.user a).mpr hc
          rw [hoa] at this; cases this
        refine ⟨_, rfl, _, h.move t (b := a) (y := .thr t) (.inr (.inl hoa)) (.inl rfl) (fun t' ht => goto_pc_ne _ _ ht) rfl rfl
          (fun a' ha' => Function.update_of_ne ha' _ _) (fun _ _ => rfl) ?_ ?_ ?_ ?_ ?_⟩
        · simp [World.goto]
        · intro s hs
          have : Function.update w.real a (some (2 ^ pool q.bytes)) a = some s := hs
          rw [hreal] at this; cases this; exact h5
        · exact ⟨nofun, fun hc => absurd hheld hc⟩
        · intro n hn
          have : w.held a = some n := hn
          rw [hheld] at this; cases this
        · rw [goto_pc]
          refine ⟨?_, ⟨_, hreal, Nat.le_refl _⟩, hq⟩
          intro a'
          by_cases e : a' = a
          · subst e; simp
          · rw [Function.update_of_ne e, hE a']; simp [e]
      · exact ⟨w, rfl, o, h⟩
  | drop q b =>
    rw [hp] at ht
    obtain ⟨L, hc, hE, hb, hq⟩ := ht
    have hl : o b ≠ .free := by rw [(hE b).mpr (.head _)]; exact fun e => by cases e
    exact ⟨_, touch_ok (h.small hl) _, o, h.goto ⟨L, hc, hc.not_mem, hE, hb, hq⟩⟩
  | del p k =>
    rw [hp] at ht
    cases p with
    | none =>
      refine ⟨_, rfl, o, h.goto ?_⟩
      cases k with
      | give q b =>
        obtain ⟨L, hc, hn, hE, hb, hq⟩ := ht
        cases hc
        exact ⟨hE, hb, hq⟩
      | done =>
        obtain ⟨L, hc, hE⟩ := ht
        cases hc
        exact hE
      | clean si =>
        obtain ⟨L, hc, hE⟩ := ht
        cases hc
        unfold After.pc
        dsimp only
        split <;> exact hE
    | some p =>
      have key : ∀ K L, Chain w.next (w.next p) L → p ∉ K → Exc o t (K ++ p :: L) →
          (∀ w' o', w'.next = w.next → (∀ a, a ≠ p → w'.real a = w.real a) → Exc o' t (K ++ L) → TInv w' o' t (.del (w.next p) k)) →
          ∃ w', step w t a s = .ok w' ∧ ∃ o', Inv w' o' := by
        intro K L hc hK hE hT
        have hob := (hE p).mpr (by simp)
        have hl : o p ≠ .free := by rw [hob]; exact fun e => by cases e
        have hheld : w.held p = none := by
          by_contra hc
          have := (h.user p).mpr hc
          rw [hob] at this; cases this
        have hstep : step w t a s =
            .ok ({ w with real := Function.update w.real p none }.goto t (.del (w.next p) k)) := by
          unfold step
          rw [hp]
          exact touch_ok (h.small hl) _
        refine ⟨_, hstep, _, h.move t (b := p) (y := .free) (.inl hob) (.inr (.inl rfl)) (fun t' ht => goto_pc_ne _ _ ht) rfl rfl
          (fun a' ha' => Function.update_of_ne ha' _ _) (fun _ _ => rfl) ?_ ?_ ?_ ?_ ?_⟩
        · simp [World.goto]
        · intro s hs
          have : Function.update w.real p none p = some s := hs
          rw [Function.update_self] at this; cases this
        · exact ⟨nofun, fun hc => absurd hheld hc⟩
        · intro n hn
          have : w.held p = some n := hn
          rw [hheld] at this; cases this
        · rw [goto_pc]
          refine hT _ _ rfl (fun a' ha' => Function.update_of_ne ha' _ _) ?_
          intro a'
          by_cases e : a' = p
          · subst e
            rw [Function.update_self]
            simp [hK, hc.not_mem]
          · rw [Function.update_of_ne e, hE a']; simp [e]
      have key := key
      unfold step at key
      rw [hp] at key
      cases k with
      | give q b =>
        obtain ⟨L, hc, hn, hE, hb, hq⟩ := ht
        cases hc with
        | @cons _ L hc =>
        refine key [b] L hc (by simp at hn ⊢; exact fun e => hn.1 e.symm) hE ?_
        intro w' o' e1 e2 hE'
        simp at hn
        exact ⟨L, by rw [e1]; exact hc, hn.2, hE', hb.congr (e2 b hn.1), hq⟩
      | done =>
        obtain ⟨L, hc, hE⟩ := ht
        cases hc with
        | @cons _ L hc =>
        exact key [] L hc (by simp) hE fun w' o' e1 _ hE' => ⟨L, by rw [e1]; exact hc, hE'⟩
      | clean si =>
        obtain ⟨L, hc, hE⟩ := ht
        cases hc with
        | @cons _ L hc =>
        exact key [] L hc (by simp) hE fun w' o' e1 _ hE' => ⟨L, by rw [e1]; exact hc, hE'⟩
  | give q b =>
    rw [hp] at ht
    obtain ⟨hE, hb, hq⟩ := ht
    have hob := (hE b).mpr (.head _)
    obtain ⟨g1, g2⟩ := pool_got hq
    have hreal : w.real b ≠ none := by
      obtain ⟨s, h1, _⟩ := hb
      rw [h1]; simp
    have hheld : Function.update w.held b (some (q.esize * q.got)) b = some (q.esize * q.got) := Function.update_self _ _ _
    refine ⟨_, touch_ok hb _, _, h.move t (b := b) (y := .user) (.inl hob) (.inr (.inr rfl)) (fun t' ht => goto_pc_ne _ _ ht) rfl rfl
      (fun _ _ => rfl) (fun a' ha' => Function.update_of_ne ha' _ _) ?_ (h.size b) ?_ ?_ ?_⟩
    · exact ⟨nofun, fun hc => absurd hc hreal⟩
    · simp [World.goto]
    · intro n hn
      have : Function.update w.held b (some (q.esize * q.got)) b = some n := hn
      rw [hheld] at this; cases this
      exact ⟨g1, hb.mono (two_pow_mono g2)⟩
    · rw [goto_pc]
      intro a'
      by_cases e : a' = b
      · subst e; simp
      · rw [Function.update_of_ne e, hE a']; simp [e]
  | free si b x =>
    rw [hp] at ht
    obtain ⟨hE, hb, hlt⟩ := ht
    have hob := (hE b).mpr (.head _)
    refine ⟨_, touch_ok hb _, o, h.setNext hob none ?_⟩
    cases x with
    | use => exact ⟨hE, hb, hlt⟩
    | clear => exact ⟨hE, hb, hlt⟩
    | bypass =>
      refine ⟨[b], .cons ?_, hE⟩
      have : (w.setNext b none).next b = none := Function.update_self _ _ _
      rw [this]
      exact .nil
  | load si b =>
    rw [hp] at ht
    obtain ⟨hE, hb, hlt⟩ := ht
    have hob := (hE b).mpr (.head _)
    have hl : o b ≠ .free := by rw [hob]; exact fun e => by cases e
    exact ⟨_, touch_ok (h.small hl) _, o, h.setNext hob _ ⟨hE, hb, hlt⟩⟩
  | cas si b =>
    rw [hp] at ht
    obtain ⟨hE, hb, hlt⟩ := ht
    have hob := (hE b).mpr (.head _)
    have hl : o b ≠ .free := by rw [hob]; exact fun e => by cases e
    dsimp only
    split
    · rename_i hs
      refine ⟨_, touch_ok (h.small hl) _, ?_⟩
      obtain ⟨M, h1, h2, h3⟩ := h.pool si
      have hoO : ∀ x : Owner T, x ≠ .thr t → x ≠ .pool si → ∀ a, Function.update o b (.pool si) a = x ↔ o a = x := by
        intro x hx hx' a
        exact upd_iff (fun e => hx' e.symm) (by rw [hob]; exact fun e => hx e.symm) a
      refine ⟨_, h.upd (o' := Function.update o b (.pool si)) (some t) si ?_ ?_ ?_ ?_ (fun _ _ _ _ => ⟨rfl, rfl⟩) (fun _ _ _ _ => ⟨rfl, rfl⟩) ?_ h.size ?_ h.big ?_ (fun h' => by omega) ?_⟩
      · intro t' ht
        exact goto_pc_ne _ _ ht
      · intro t' ht
        exact hoO _ (fun e => ht (by cases e; rfl)) nofun
      · intro si' hs
        exact hoO _ nofun (fun e => hs (by cases e; rfl))
      · intro si' hs
        exact Function.update_of_ne hs _ _
      · intro a
        rw [hoO .free nofun nofun]
        exact h.live a
      · intro a
        rw [hoO .user nofun nofun]
        exact h.user a
      · refine ⟨b :: M, ?_, ?_, ?_⟩
        · have : ((w.setHead si (some b)).goto t .idle).head si = some b := Function.update_self _ _ _
          rw [this]
          refine .cons ?_
          show Chain w.next (w.next b) M
          rw [← hs.1]
          exact h1
        · intro a'
          by_cases e : a' = b
          · subst e; simp
          · rw [Function.update_of_ne e, h2 a']; simp [e]
        · intro a' ha'
          rcases List.mem_cons.mp ha' with rfl | ha'
          · exact hb
          · exact h3 a' ha'
      · intro t' ht
        cases ht
        rw [goto_pc]
        intro a'
        by_cases e : a' = b
        · subst e; simp
        · rw [Function.update_of_ne e, hE a']; simp [e]
    · refine ⟨_, touch_ok (h.small hl) _, o, ?_⟩
      have := h.setNext hob (w.head si) (p := .cas si b) ⟨hE, hb, hlt⟩
      have e : (w.setNext b (w.head si)).goto t (.cas si b) = w.setNext b (w.head si) := by
        unfold World.goto
        rw [← hp]
        show { (w.setNext b (w.head si)) with pc := Function.update w.pc t (w.pc t) } = _
        rw [Function.update_eq_self]
        rfl
      rw [e] at this
      exact this
  | flush si b =>
    rw [hp] at ht
    obtain ⟨hE, hb, hlt⟩ := ht
    have hob := (hE b).mpr (.head _)
    have hl : o b ≠ .free := by rw [hob]; exact fun e => by cases e
    refine ⟨_, touch_ok (h.small hl) _, h.grab (si := si) hE (fun v => v.setNext b (w.head si))
      (fun v => .inr ⟨b, _, .head _, rfl⟩) _ ?_⟩
    intro L o' hc hn _ hx
    refine ⟨b :: L, .cons ?_, hx⟩
    have : ((w.setHead si none).setNext b (w.head si)).next b = w.head si := Function.update_self _ _ _
    rw [this]
    exact hc.congr fun a ha => Function.update_of_ne (by rintro rfl; exact hn a ha (.head _)) _ _
  | clean si =>
    rw [hp] at ht
    refine ⟨_, rfl, h.grab (si := si) (K := []) ht id (fun v => .inl rfl) _ ?_⟩
    intro L o' hc _ _ hx
    exact ⟨L, hc, hx⟩

theorem exec_inv {w : World T} {o : Addr → Owner T} (h : Inv w o) (a : Act T) (ha : a.sane) :
    ∃ w', exec w a = .ok w' ∧ ∃ o', Inv w' o' := by
  unfold exec
  cases a with
  | alloc t q x =>
    dsimp only
    split
    · exact ⟨w, rfl, o, h⟩
    · rename_i hi
      rw [not_not] at hi
      have ht := h.thr t
      rw [hi] at ht
      split
      · exact ⟨w, rfl, o, h⟩
      · rename_i hlt
        have hq : q.bytes ≤ 2 ^ 63 := ha.resolve_right hlt
        rw [if_neg (by rw [ge_iff_le, not_le, pool_lt_iff (by omega)]; exact hq)]
        refine ⟨_, rfl, o, h.goto ?_⟩
        split
        · exact ⟨ht, hq⟩
        · exact ⟨ht, hq⟩
  | free t b q x =>
    dsimp only
    split
    · exact ⟨w, rfl, o, h⟩
    · rename_i hi
      rw [not_not] at hi
      have ht := h.thr t
      rw [hi] at ht
      cases hh : w.held b with
      | none => exact ⟨w, rfl, o, h⟩
      | some n =>
        dsimp only
        split
        · rename_i hn
          obtain ⟨g1, g2⟩ := h.big b n hh
          have hob := (h.user b).mpr (by rw [hh]; simp)
          have hreal : w.real b ≠ none := by
            obtain ⟨s, h1, _⟩ := g2
            rw [h1]; simp
          have hheld : Function.update w.held b none b = none := Function.update_self _ _ _
          refine ⟨_, rfl, _, h.move t (b := b) (y := .thr t) (.inr (.inr hob)) (.inl rfl) (fun t' ht => goto_pc_ne _ _ ht) rfl rfl
            (fun _ _ => rfl) (fun a' ha' => Function.update_of_ne ha' _ _) ?_ (h.size b) ?_ ?_ ?_⟩
          · exact ⟨nofun, fun hc => absurd hc hreal⟩
          · exact ⟨nofun, fun hc => absurd hheld hc⟩
          · intro n hn
            have : Function.update w.held b none b = some n := hn
            rw [hheld] at this; cases this
          · rw [goto_pc]
            have hpl : pool q.bytes ≤ pool n := pool_le (Nat.le_trans hn (le_pool (by omega))) (by omega) (pool_ge (by omega))
            refine ⟨?_, ?_, Nat.lt_of_le_of_lt hpl ((pool_lt_iff (by omega)).mpr g1)⟩
            · intro a'
              by_cases e : a' = b
              · subst e; simp
              · rw [Function.update_of_ne e, ht a']; simp [e]
            · exact Big.mono (n := 2 ^ pool n) (g2.congr rfl) (two_pow_mono hpl)
        · exact ⟨w, rfl, o, h⟩
  | clean t =>
    dsimp only
    split
    · exact ⟨w, rfl, o, h⟩
    · rename_i hi
      rw [not_not] at hi
      have ht := h.thr t
      rw [hi] at ht
      exact ⟨_, rfl, o, h.goto ht⟩
  | write b x =>
    dsimp only
    split
    · exact ⟨w, rfl, o, h⟩
    · rename_i hb
      have hob := (h.user b).mpr hb
      have hl : o b ≠ .free := by rw [hob]; exact fun e => by cases e
      refine ⟨_, touch_ok (h.small hl) _, o, ?_⟩
      have key : ∀ a, o a ≠ .user → (w.setNext b x).next a = w.next a :=
        fun a ha' => Function.update_of_ne (by rintro rfl; exact ha' hob) _ _
      refine h.upd none 0 (fun _ _ => rfl) (fun _ _ _ => Iff.rfl) (fun _ _ _ => Iff.rfl) (fun _ _ => rfl) ?_ ?_ h.live h.size h.user
        h.big ?_ (fun h' => by omega) (fun _ e => by cases e)
      · intro a t' _ ha
        exact ⟨key a (by rw [ha]; exact fun e => by cases e), rfl⟩
      · intro a si _ ha
        exact ⟨key a (by rw [ha]; exact fun e => by cases e), rfl⟩
      · exact (h.pool 0).congr (fun _ => Iff.rfl) rfl (fun a ha => key a (by rw [ha]; exact fun e => by cases e)) (fun _ _ => rfl)
  | step t a s => exact step_inv h t a s

omit [DecidableEq T] in
theorem inv_init : Inv (World.init T) fun _ => .free where
  live _ := ⟨fun _ => rfl, fun _ => rfl⟩
  size _ _ := nofun
  user _ := ⟨nofun, fun e => absurd rfl e⟩
  big _ _ := nofun
  pool _ := ⟨[], .nil, fun _ => ⟨nofun, nofun⟩, nofun⟩
  top _ _ := rfl
  thr _ _ := ⟨nofun, nofun⟩

/-- The invariant holds in all states that can be reached. -/
theorem run_inv : ∀ (as : List (Act T)) {w : World T} {o : Addr → Owner T}, Inv w o → (∀ a ∈ as, a.sane) →
    ∃ w', run w as = .ok w' ∧ ∃ o', Inv w' o'
  | [], w, o, h, _ => ⟨w, rfl, o, h⟩
  | a :: as, w, o, h, hs => by
    obtain ⟨w', h1, o', h2⟩ := exec_inv h a (hs a (.head _))
    obtain ⟨w'', h3, h4⟩ := run_inv as h2 fun b hb => hs b (.tail _ hb)
    exact ⟨w'', by rw [run, h1]; exact h3, h4⟩

omit [DecidableEq T] in
theorem Chain.linked {next : Addr → Option Addr} {p : Option Addr} {L : List Addr} (h : Chain next p L) (a : Addr) :
    Linked next p a ↔ a ∈ L := by
  induction h with
  | nil => exact ⟨nofun, nofun⟩
  | @cons b L _ ih =>
    constructor
    · intro h
      cases h with
      | here => exact .head _
      | there h => exact .tail _ (ih.mp h)
    · intro h
      rcases List.mem_cons.mp h with rfl | h
      · exact .here
      · exact .there (ih.mpr h)

omit [DecidableEq T] in
theorem TInv.uses {w : World T} {o : Addr → Owner T} {t : T} (h : TInv w o t (w.pc t)) (a : Addr) : o a = .thr t ↔ Uses w t a := by
  unfold Uses
  cases hp : w.pc t with
  | idle => rw [hp] at h; exact (h a).trans ⟨nofun, nofun⟩
  | take q x => rw [hp] at h; exact (h.1 a).trans ⟨nofun, nofun⟩
  | new q => rw [hp] at h; exact (h.1 a).trans ⟨nofun, nofun⟩
  | clean q => rw [hp] at h; exact (h a).trans ⟨nofun, nofun⟩
  | test q b =>
    rw [hp] at h
    obtain ⟨L, h1, h2, _⟩ := h
    exact (h2 a).trans (Chain.linked (.cons h1) a).symm
  | drop q b =>
    rw [hp] at h
    obtain ⟨L, h1, h2, _⟩ := h
    exact (h2 a).trans (Chain.linked (.cons h1) a).symm
  | swap q b m =>
    rw [hp] at h
    obtain ⟨L, h1, _, h2, _⟩ := h
    dsimp only
    rw [h2 a, h1.linked a, List.mem_cons]
  | del p k =>
    rw [hp] at h
    cases k with
    | give q b =>
      obtain ⟨L, h1, _, h2, _⟩ := h
      dsimp only
      rw [h2 a, h1.linked a, List.mem_cons]
      constructor
      · rintro (rfl | h)
        · exact .inr ⟨q, rfl⟩
        · exact .inl h
      · rintro (h | ⟨_, h⟩)
        · exact .inr h
        · cases h; exact .inl rfl
    | done =>
      obtain ⟨L, h1, h2⟩ := h
      dsimp only
      rw [h2 a, h1.linked a]
      exact ⟨.inl, fun h => h.elim id fun ⟨_, h⟩ => by cases h⟩
    | clean si =>
      obtain ⟨L, h1, h2⟩ := h
      dsimp only
      rw [h2 a, h1.linked a]
      exact ⟨.inl, fun h => h.elim id fun ⟨_, h⟩ => by cases h⟩
  | give q b => rw [hp] at h; exact (h.1 a).trans List.mem_singleton
  | free q b x => rw [hp] at h; exact (h.1 a).trans List.mem_singleton
  | load q b => rw [hp] at h; exact (h.1 a).trans List.mem_singleton
  | cas q b => rw [hp] at h; exact (h.1 a).trans List.mem_singleton
  | flush q b => rw [hp] at h; exact (h.1 a).trans List.mem_singleton

theorem reach_inv {w : World T} (h : Reach w) : ∃ o, Inv w o := by
  obtain ⟨as, h1, h2⟩ := h
  obtain ⟨w', h3, h4⟩ := run_inv as inv_init h1
  rw [h2] at h3
  cases h3
  exact h4

theorem run_append (as bs : List (Act T)) : ∀ w : World T, run w (as ++ bs) = (run w as).bind fun w => run w bs := by
  induction as with
  | nil => intro w; rfl
  | cons a as ih =>
    intro w
    rw [List.cons_append, run, run]
    cases exec w a with
    | ok w => exact ih w
    | throw => rfl
    | ub => rfl

theorem reach_exec {w w' : World T} (h : Reach w) {a : Act T} (ha : a.sane) (he : exec w a = .ok w') : Reach w' := by
  obtain ⟨as, h1, h2⟩ := h
  refine ⟨as ++ [a], ?_, ?_⟩
  · intro b hb
    rcases List.mem_append.mp hb with hb | hb
    · exact h1 b hb
    · rw [List.mem_singleton] at hb; exact hb ▸ ha
  · rw [run_append, h2]
    show (exec w a).bind _ = _
    rw [he]
    rfl

/-- Steps of one thread alone. -/
inductive Alone (t : T) : World T → World T → Prop
  | refl (w) : Alone t w w
  | step {w w' w''} : step w t none false = .ok w' → Alone t w' w'' → Alone t w w''

theorem Alone.trans {t : T} {u v w : World T} (h : Alone t u v) (h' : Alone t v w) : Alone t u w := by
  induction h with
  | refl => exact h'
  | step e _ ih => exact .step e (ih h')

theorem alone_reach {t : T} {w w' : World T} (h : Alone t w w') (hr : Reach w) : Reach w' := by
  induction h with
  | refl => exact hr
  | step e _ ih => exact ih (reach_exec hr (a := .step t none false) trivial e)

theorem alone_run {t : T} {w w' : World T} (h : Alone t w w') : ∃ n, run w (List.replicate n (.step t none false)) = .ok w' := by
  induction h with
  | refl w => exact ⟨0, rfl⟩
  | @step w w' w'' e _ ih =>
    obtain ⟨n, hn⟩ := ih
    refine ⟨n + 1, ?_⟩
    rw [List.replicate_succ, run]
    show (MemPool.step w t none false).bind _ = _
    rw [e]
    exact hn

/-- What stays as it is in `xmemclean`. -/
structure Same (t : T) (w w' : World T) : Prop where
  pc : ∀ t', t' ≠ t → w'.pc t' = w.pc t'
  held : w'.held = w.held

omit [DecidableEq T] in
theorem Same.trans {t : T} {u v w : World T} (h : Same t u v) (h' : Same t v w) : Same t u w :=
  ⟨fun t' ht => (h'.pc t' ht).trans (h.pc t' ht), h'.held.trans h.held⟩

theorem goto_ne (w : World T) {t t' : T} (p : Pc) (h : t' ≠ t) : (w.goto t p).pc t' = w.pc t' := Function.update_of_ne h _ _

theorem Same.of_goto {t : T} {w v : World T} {p : Pc} (h : v.pc = w.pc) (h' : v.held = w.held) : Same t w (v.goto t p) :=
  ⟨fun _ ht => (goto_ne _ _ ht).trans (congrFun h _), h'⟩

theorem Same.from_goto {t : T} {u v w : World T} {p : Pc} (hs : Same t (v.goto t p) u) (h : v.pc = w.pc) (h' : v.held = w.held) :
    Same t w u :=
  (Same.of_goto h h').trans hs

theorem del_alone {t : T} {k : After} (hk : ∀ q b, k ≠ .give q b) (L : List Addr) : ∀ (w : World T) (p : Option Addr), Reach w →
    w.pc t = .del p k → Chain w.next p L →
    ∃ w', Alone t w w' ∧ w'.pc t = k.pc ∧ w'.head = w.head ∧ Same t w w' := by
  induction L with
  | nil =>
    intro w p _ hp hc
    cases hc
    refine ⟨w.goto t k.pc, .step ?_ (.refl _), goto_pc _ _ _, rfl, fun t' ht => goto_ne _ _ ht, rfl⟩
    unfold MemPool.step
    rw [hp]
  | cons a L ih =>
    intro w p hr hp hc
    cases hc with
    | cons hc =>
    obtain ⟨o, h⟩ := reach_inv hr
    have hoa : o a = .thr t := by
      rw [(h.thr t).uses a, Uses, hp]
      exact .inl .here
    have hl : o a ≠ .free := by rw [hoa]; exact nofun
    have he : MemPool.step w t none false =
        .ok ({ w with real := Function.update w.real a none }.goto t (.del (w.next a) k)) := by
      unfold MemPool.step
      rw [hp]
      exact touch_ok (h.small hl) _
    obtain ⟨w', h1, h2, h3, h4⟩ := ih _ (w.next a) (reach_exec hr (a := .step t none false) trivial he) (goto_pc _ _ _) hc
    exact ⟨w', .step he h1, h2, h3, Same.from_goto h4 rfl rfl⟩

theorem clean_alone {t : T} (d : Nat) : ∀ (w : World T) (si : Nat), 64 - si = d + 1 → Reach w → w.pc t = .clean si →
    ∃ w', Alone t w w' ∧ w'.pc t = .idle ∧ (∀ j, si ≤ j → w'.head j = none) ∧ (∀ j, j < si → w'.head j = w.head j) ∧ Same t w w' := by
  induction d with
  | zero =>
    intro w si hd hr hp
    obtain ⟨o, h⟩ := reach_inv hr
    obtain ⟨L, hc, _⟩ := h.pool si
    have he : MemPool.step w t none false = .ok ((w.setHead si none).goto t (.del (w.head si) (.clean si))) := by
      unfold MemPool.step
      rw [hp]
    obtain ⟨w', h1, h2, h3, h4⟩ := del_alone (k := .clean si) nofun L _ _ (reach_exec hr (a := .step t none false) trivial he)
      (goto_pc _ _ _) hc
    refine ⟨w', .step he h1, ?_, ?_, ?_, Same.from_goto h4 rfl rfl⟩
    · rw [h2, After.pc]; exact if_neg (by omega)
    · intro j hj
      rw [h3]
      show Function.update w.head si none j = none
      by_cases e : j = si
      · rw [e, Function.update_self]
      · rw [Function.update_of_ne e]; exact h.top j (by omega)
    · intro j hj
      rw [h3]
      exact Function.update_of_ne (by omega) _ _
  | succ d ih =>
    intro w si hd hr hp
    obtain ⟨o, h⟩ := reach_inv hr
    obtain ⟨L, hc, _⟩ := h.pool si
    have he : MemPool.step w t none false = .ok ((w.setHead si none).goto t (.del (w.head si) (.clean si))) := by
      unfold MemPool.step
      rw [hp]
    have hr' := reach_exec hr (a := .step t none false) trivial he
    obtain ⟨w', h1, h2, h3, h4⟩ := del_alone (k := .clean si) nofun L _ _ hr' (goto_pc _ _ _) hc
    rw [After.pc, if_pos (by omega)] at h2
    obtain ⟨w'', g1, g2, g3, g4, g5⟩ := ih w' (si + 1) (by omega) (alone_reach h1 hr') h2
    refine ⟨w'', .step he (h1.trans g1), g2, ?_, ?_, Same.from_goto (h4.trans g5) rfl rfl⟩
    · intro j hj
      by_cases e : j = si
      · rw [g4 j (by omega), h3, e]
        exact Function.update_self _ _ _
      · exact g3 j (by omega)
    · intro j hj
      rw [g4 j (by omega), h3]
      exact Function.update_of_ne (by omega) _ _

end Asteria.MemPool
