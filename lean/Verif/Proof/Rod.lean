import Verif.Spec.Rod
import Verif.Proof.MemPool
import Mathlib.Data.List.Basic

/-!
# Rods as lists of nodes: the invariant
-/

namespace Asteria.Avm

open Spec (Node)
open MemPool (Req)

variable {R X L : Type} [DecidableEq R] [DecidableEq X]

/-- A node in memory: the number of cells after the header, and the address of the metadata. -/
structure PNode (X L : Type) where
  node : Node X L
  n : Nat
  info : Option Nat

def PNode.up (p : PNode X L) : Uparam := ⟨UInt8.ofNat p.n, match p.info with | none => 0 | some _ => 1, p.node.user⟩

def PNode.pv (p : PNode X L) : Pv := match p.info with
  | none => .exec p.node.exec
  | some m => .info m

def PNode.parts (p : PNode X L) : List (Cell X) := match p.node.obj with
  | none => []
  | some o => (List.range p.n).map (.part o)

/-- The cells of a node. -/
def PNode.enc (p : PNode X L) : List (Cell X) := .head p.up p.pv :: p.parts

/-- A node is as it should be. -/
structure PNode.Ok (metas : Nat → Option (Metadata L)) (p : PNode X L) : Prop where
  lt : p.n < 256
  obj : p.n = 0 ↔ p.node.obj = none
  bare : p.info = none → p.node.dtor = none ∧ p.node.coll = none ∧ p.node.sloc = none
  full : ∀ m, p.info = some m → metas m = some ⟨p.node.exec, p.node.dtor, p.node.coll, p.node.sloc⟩

def enc (ps : List (PNode X L)) : List (Cell X) := ps.flatMap PNode.enc

def ids (ps : List (PNode X L)) : List Nat := ps.filterMap PNode.info

def nodes (ps : List (PNode X L)) : List (Node X L) := ps.map PNode.node

omit [DecidableEq X] in
theorem PNode.Ok.length {metas : Nat → Option (Metadata L)} {p : PNode X L} (h : p.Ok metas) : p.enc.length = 1 + p.n := by
  unfold PNode.enc PNode.parts
  cases ho : p.node.obj with
  | none => rw [h.obj.mpr ho]; rfl
  | some o => simp only [List.length_cons, List.length_map, List.length_range]; omega

omit [DecidableEq X] in
theorem PNode.Ok.b0 {metas : Nat → Option (Metadata L)} {p : PNode X L} (h : p.Ok metas) : p.up.b0.toNat = p.n := by
  unfold PNode.up
  simp only [UInt8.toNat_ofNat']
  exact Nat.mod_eq_of_lt h.lt

theorem PNode.Ok.object {metas : Nat → Option (Metadata L)} {p : PNode X L} (h : p.Ok metas) (A B : List (Cell X)) :
    object (A ++ p.enc ++ B) A.length p.n = .ok p.node.obj := by
  unfold Avm.object
  cases ho : p.node.obj with
  | none => rw [if_pos (h.obj.mpr ho)]
  | some o =>
    have hn : p.n ≠ 0 := fun e => by rw [h.obj.mp e] at ho; cases ho
    rw [if_neg hn]
    have hd : (A ++ p.enc ++ B).drop (A.length + 1) = (List.range p.n).map (Cell.part o) ++ B := by
      have hpt : p.parts = (List.range p.n).map (Cell.part o) := by unfold PNode.parts; rw [ho]
      rw [List.append_assoc, List.drop_append, List.drop_eq_nil_of_le (by omega), List.nil_append, Nat.add_sub_cancel_left, ← hpt]
      rfl
    obtain ⟨k, hk⟩ := Nat.exists_eq_succ_of_ne_zero hn
    have h0 : (A ++ p.enc ++ B)[A.length + 1]? = some (.part o 0) := by
      have : (A ++ p.enc ++ B)[A.length + 1]? = ((A ++ p.enc ++ B).drop (A.length + 1))[0]? := by
        rw [List.getElem?_drop]
      rw [this, hd, hk, List.range_succ_eq_map]
      rfl
    rw [h0]
    show (if _ then _ else _) = _
    rw [if_pos]
    rw [hd, List.take_append_of_le_length (by simp)]
    exact List.take_of_length_le (by simp)

/-- The loop, over a list. -/
def walkL {S : Type} (f : Nat → Uparam → Pv → S → Res (Bool × S)) : Nat → List (PNode X L) → S → Res S
  | _, [], s => .ok s
  | i, p :: ps, s => (f i p.up p.pv s).bind fun (stop, s) => if stop then .ok s else walkL f (i + (1 + p.n)) ps s

omit [DecidableEq X] in
theorem walk_enc {S : Type} {metas : Nat → Option (Metadata L)} (f : Nat → Uparam → Pv → S → Res (Bool × S)) (B : List (Cell X)) :
    ∀ (ps : List (PNode X L)), (∀ p ∈ ps, p.Ok metas) → ∀ (A : List (Cell X)) (n : Nat) (s : S), ps.length < n →
    walk (A ++ enc ps ++ B) (A ++ enc ps).length f n A.length s = walkL f A.length ps s := by
  intro ps
  induction ps with
  | nil =>
    intro _ A n s hn
    obtain ⟨k, rfl⟩ := Nat.exists_eq_succ_of_ne_zero (show n ≠ 0 by omega)
    show walk _ _ _ (k + 1) _ _ = _
    rw [walk, if_pos (by simp [enc])]
    rfl
  | cons p ps ih =>
    intro hok A n s hn
    obtain ⟨k, rfl⟩ := Nat.exists_eq_succ_of_ne_zero (show n ≠ 0 by omega)
    have hp := hok p (.head _)
    have hl : (A ++ p.enc).length = A.length + (1 + p.n) := by rw [List.length_append, hp.length]
    have he : enc (p :: ps) = p.enc ++ enc ps := rfl
    show walk _ _ _ (k + 1) _ _ = _
    rw [walk, if_neg (by rw [he, ← List.append_assoc, List.length_append, hl]; omega)]
    have h0 : (A ++ enc (p :: ps) ++ B)[A.length]? = some (.head p.up p.pv) := by
      rw [he, List.append_assoc, List.getElem?_append_right (Nat.le_refl _), Nat.sub_self]
      rfl
    rw [h0]
    dsimp only
    rw [walkL, hp.b0]
    congr 1
    funext x
    obtain ⟨stop, s'⟩ := x
    dsimp only
    split
    · rfl
    · have := ih (fun q hq => hok q (.tail _ hq)) (A ++ p.enc) k s' (by simp only [List.length_cons] at hn; omega)
      rw [hl] at this
      rw [he, ← List.append_assoc]
      exact this

/-- What is in a rod. -/
structure Rep (rod : Rod X) (ps : List (PNode X L)) : Prop where
  cells : ∃ B, rod.cells = enc ps ++ B
  einit : rod.einit = (enc ps).length
  bound : rod.estor ≤ 2 ^ 27

structure Inv (s : State R X L) (P : R → List (PNode X L)) : Prop where
  rep : ∀ r, Rep (s.rod r) (P r)
  ok : ∀ r, ∀ p ∈ P r, p.Ok s.metas
  nodup : ∀ r, (ids (P r)).Nodup
  disj : ∀ r r' m, m ∈ ids (P r) → m ∈ ids (P r') → r = r'
  live : ∀ m, s.metas m ≠ none → ∃ r, m ∈ ids (P r)

omit [DecidableEq X] in
theorem cells_length (rod : Rod X) : rod.cells.length = rod.estor := by
  unfold Rod.cells Rod.estor
  cases rod.mem <;> rfl

omit [DecidableEq X] in
theorem length_le_enc {metas : Nat → Option (Metadata L)} {ps : List (PNode X L)} (h : ∀ p ∈ ps, p.Ok metas) :
    ps.length ≤ (enc ps).length := by
  induction ps with
  | nil => exact Nat.le_refl _
  | cons p ps ih =>
    have h1 := ih fun q hq => h q (.tail _ hq)
    show ps.length + 1 ≤ (p.enc ++ enc ps).length
    rw [List.length_append, (h p (.head _)).length]
    omega

omit [DecidableEq X] in
theorem walk_rod {S : Type} {metas : Nat → Option (Metadata L)} {rod : Rod X} {ps : List (PNode X L)} (h : Rep rod ps)
    (hok : ∀ p ∈ ps, p.Ok metas) (f : Nat → Uparam → Pv → S → Res (Bool × S)) (s : S) :
    walk rod.cells rod.einit f (rod.cells.length + 1) 0 s = walkL f 0 ps s := by
  obtain ⟨B, hB⟩ := h.cells
  have h1 := length_le_enc hok
  have h2 := walk_enc f B ps hok [] (rod.cells.length + 1) s (by rw [hB, List.length_append]; omega)
  rw [List.nil_append] at h2
  rw [h.einit, hB] at *
  exact h2

/-- Nodes with what is before them. -/
theorem object_at {metas : Nat → Option (Metadata L)} {ps qs : List (PNode X L)} {p : PNode X L} {mem B : List (Cell X)}
    (hm : mem = enc ps ++ (p.enc ++ (enc qs ++ B))) (hp : p.Ok metas) : object mem (enc ps).length p.up.b0.toNat = .ok p.node.obj := by
  rw [hm, hp.b0, ← List.append_assoc]
  exact hp.object _ _

theorem up_hasMeta (p : PNode X L) : p.up.hasMeta = p.info.isSome := by
  unfold PNode.up Uparam.hasMeta
  cases p.info with
  | none => simp
  | some m => simp

/-! ### The loops -/

theorem clearNode_eq {mem B : List (Cell X)} {ps qs : List (PNode X L)} {p : PNode X L} {s : State R X L}
    (hm : mem = enc ps ++ (p.enc ++ (enc qs ++ B))) (hp : p.Ok s.metas) :
    clearNode mem (enc ps).length p.up p.pv s = .ok (false, { s with
      metas := match p.info with
        | none => s.metas
        | some m => Function.update s.metas m none
      log := s.log ++ Spec.deaths [p.node] }) := by
  unfold clearNode
  rw [up_hasMeta p]
  cases hi : p.info with
  | none =>
    have := (hp.bare hi).1
    simp [Spec.deaths, this]
  | some m =>
    have h1 := hp.full m hi
    have hpv : p.pv = .info m := by unfold PNode.pv; rw [hi]
    simp only [Option.isSome_some, Bool.not_true, Bool.false_eq_true, if_false, hpv, State.info, h1, Res.bind]
    unfold bury
    cases hd : p.node.dtor with
    | none =>
      simp [Res.bind, State.delete, h1, Spec.deaths, hd]
    | some d =>
      dsimp only
      rw [object_at hm hp]
      simp [Res.bind, State.delete, h1, Spec.deaths, hd, PNode.up]

omit [DecidableEq X] in
theorem deaths_append (a b : List (Node X L)) : Spec.deaths (a ++ b) = Spec.deaths a ++ Spec.deaths b := List.filterMap_append

omit [DecidableEq X] in
theorem enc_append (a b : List (PNode X L)) : enc (a ++ b) = enc a ++ enc b := List.flatMap_append

omit [DecidableEq X] in
theorem ids_append (a b : List (PNode X L)) : ids (a ++ b) = ids a ++ ids b := List.filterMap_append

omit [DecidableEq X] in
theorem enc_single (p : PNode X L) : enc [p] = p.enc := List.append_nil _

theorem clear_loop {mem B : List (Cell X)} (qs : List (PNode X L)) : ∀ (ps : List (PNode X L)) (s : State R X L),
    mem = enc ps ++ (enc qs ++ B) → (∀ p ∈ qs, p.Ok s.metas) → (ids qs).Nodup →
    ∃ s', walkL (clearNode mem) (enc ps).length qs s = .ok s' ∧ s'.rod = s.rod ∧ s'.log = s.log ++ Spec.deaths (nodes qs) ∧
      (∀ m ∈ ids qs, s'.metas m = none) ∧ ∀ m, m ∉ ids qs → s'.metas m = s.metas m := by
  induction qs with
  | nil =>
    intro ps s _ _ _
    exact ⟨s, rfl, rfl, (List.append_nil _).symm, nofun, fun _ _ => rfl⟩
  | cons p qs ih =>
    intro ps s hm hok hnd
    have hp := hok p (.head _)
    have hm' : mem = enc ps ++ (p.enc ++ (enc qs ++ B)) := by
      rw [hm]; show _ ++ ((p.enc ++ enc qs) ++ B) = _; rw [List.append_assoc]
    rw [walkL, clearNode_eq hm' hp]
    dsimp only [Res.bind]
    rw [if_neg (by simp)]
    have hl : (enc ps).length + (1 + p.n) = (enc (ps ++ [p])).length := by
      rw [enc_append, enc_single, List.length_append, hp.length]
    rw [hl]
    have hmem : mem = enc (ps ++ [p]) ++ (enc qs ++ B) := by
      rw [hm', enc_append, enc_single]; simp only [List.append_assoc]
    have hlog : Spec.deaths (nodes (p :: qs)) = Spec.deaths [p.node] ++ Spec.deaths (nodes qs) := deaths_append [p.node] _
    cases hi : p.info with
    | none =>
      have hids : ids (p :: qs) = ids qs := by
        show List.filterMap _ _ = _
        rw [List.filterMap_cons, hi]
        rfl
      rw [hids] at hnd ⊢
      obtain ⟨s', h1, h2, h3, h4, h5⟩ := ih (ps ++ [p])
        { s with metas := s.metas, log := s.log ++ Spec.deaths [p.node] } hmem (fun q hq => hok q (.tail _ hq)) hnd
      exact ⟨s', h1, h2, by rw [h3, hlog, List.append_assoc], h4, h5⟩
    | some m =>
      have hids : ids (p :: qs) = m :: ids qs := by
        show List.filterMap _ _ = _
        rw [List.filterMap_cons, hi]
        rfl
      rw [hids] at hnd ⊢
      obtain ⟨hm1, hm2⟩ := List.nodup_cons.mp hnd
      have hok' : ∀ q ∈ qs, q.Ok (Function.update s.metas m none) := by
        intro q hq
        have h := hok q (.tail _ hq)
        refine ⟨h.lt, h.obj, h.bare, fun m' e => ?_⟩
        rw [Function.update_of_ne]
        · exact h.full m' e
        · rintro rfl
          exact hm1 (List.mem_filterMap.mpr ⟨q, hq, e⟩)
      obtain ⟨s', h1, h2, h3, h4, h5⟩ := ih (ps ++ [p])
        { s with metas := Function.update s.metas m none, log := s.log ++ Spec.deaths [p.node] } hmem hok' hm2
      refine ⟨s', h1, h2, by rw [h3, hlog, List.append_assoc], ?_, ?_⟩
      · intro m' hm'
        by_cases h : m' ∈ ids qs
        · exact h4 m' h
        · rw [h5 m' h]
          rcases List.mem_cons.mp hm' with rfl | h'
          · exact Function.update_self _ _ _
          · exact absurd h' h
      · intro m' hm'
        rw [List.mem_cons, not_or] at hm'
        rw [h5 m' hm'.2]
        exact Function.update_of_ne hm'.1 _ _

theorem executor_eq {p : PNode X L} {s : State R X L} (hp : p.Ok s.metas) : s.executor p.up p.pv = .ok (p.node.exec, p.node.sloc) := by
  unfold State.executor
  rw [up_hasMeta p]
  cases hi : p.info with
  | none =>
    have hpv : p.pv = .exec p.node.exec := by unfold PNode.pv; rw [hi]
    rw [hpv, (hp.bare hi).2.2]
    rfl
  | some m =>
    have hpv : p.pv = .info m := by unfold PNode.pv; rw [hi]
    simp only [Option.isSome_some, Bool.not_true, Bool.false_eq_true, if_false, hpv, State.info, hp.full m hi, Res.bind]

theorem exec_loop {C E : Type} (mc : Machine X L C E) (s : State R X L) {mem B : List (Cell X)} (qs : List (PNode X L)) :
    ∀ (ps : List (PNode X L)) (c : C), mem = enc ps ++ (enc qs ++ B) → (∀ p ∈ qs, p.Ok s.metas) →
    walkL (execNode mc s mem) (enc ps).length qs (c, none) = .ok (Spec.execute mc (nodes qs) c) := by
  induction qs with
  | nil => intro ps c _ _; rfl
  | cons p qs ih =>
    intro ps c hm hok
    have hp := hok p (.head _)
    have hm' : mem = enc ps ++ (p.enc ++ (enc qs ++ B)) := by
      rw [hm]; show _ ++ ((p.enc ++ enc qs) ++ B) = _; rw [List.append_assoc]
    have hl : (enc ps).length + (1 + p.n) = (enc (ps ++ [p])).length := by
      rw [enc_append, enc_single, List.length_append, hp.length]
    have hmem : mem = enc (ps ++ [p]) ++ (enc qs ++ B) := by
      rw [hm', enc_append, enc_single]; simp only [List.append_assoc]
    have hns : nodes (p :: qs) = p.node :: nodes qs := rfl
    have hu : p.up.user = p.node.user := rfl
    rw [walkL, execNode, executor_eq hp, hl, hns, Spec.execute]
    dsimp only [Res.bind]
    rw [object_at hm' hp, hu]
    dsimp only [Res.bind]
    cases mc.exec p.node.exec p.node.user p.node.obj c with
    | ret c' =>
      dsimp only
      cases hn : mc.next c' with
      | true => exact ih (ps ++ [p]) c' hmem fun q hq => hok q (.tail _ hq)
      | false => rfl
    | error c' e => rfl
    | other c' w => rfl

theorem coll_loop (s : State R X L) {mem B : List (Cell X)} (qs : List (PNode X L)) :
    ∀ (ps : List (PNode X L)) (cs : List (Death X)), mem = enc ps ++ (enc qs ++ B) → (∀ p ∈ qs, p.Ok s.metas) →
    walkL (collNode s mem) (enc ps).length qs cs = .ok (cs ++ Spec.visits (nodes qs)) := by
  induction qs with
  | nil => intro ps cs _ _; exact congrArg _ (List.append_nil _).symm
  | cons p qs ih =>
    intro ps cs hm hok
    have hp := hok p (.head _)
    have hm' : mem = enc ps ++ (p.enc ++ (enc qs ++ B)) := by
      rw [hm]; show _ ++ ((p.enc ++ enc qs) ++ B) = _; rw [List.append_assoc]
    have hl : (enc ps).length + (1 + p.n) = (enc (ps ++ [p])).length := by
      rw [enc_append, enc_single, List.length_append, hp.length]
    have hmem : mem = enc (ps ++ [p]) ++ (enc qs ++ B) := by
      rw [hm', enc_append, enc_single]; simp only [List.append_assoc]
    have hn : collNode s mem (enc ps).length p.up p.pv cs = .ok (false, cs ++ Spec.visits [p.node]) := by
      unfold collNode
      rw [up_hasMeta p]
      cases hi : p.info with
      | none =>
        have := (hp.bare hi).2.1
        simp [Spec.visits, this]
      | some m =>
        have h1 := hp.full m hi
        have hpv : p.pv = .info m := by unfold PNode.pv; rw [hi]
        simp only [Option.isSome_some, Bool.not_true, Bool.false_eq_true, if_false, hpv, State.info, h1, Res.bind]
        cases hd : p.node.coll with
        | none => simp [Spec.visits, hd]
        | some d =>
          dsimp only
          rw [object_at hm' hp]
          simp [Spec.visits, hd, PNode.up]
    rw [walkL, hn, hl]
    dsimp only [Res.bind]
    rw [if_neg (by simp), ih (ps ++ [p]) _ hmem fun q hq => hok q (.tail _ hq)]
    have : Spec.visits (nodes (p :: qs)) = Spec.visits [p.node] ++ Spec.visits (nodes qs) :=
      List.filterMap_append (l := [p.node])
    rw [this, List.append_assoc]

/-! ### The operations -/

theorem got_bounds {sz e : Nat} (hsz : 2 ≤ sz) (h : e < 0x7FFE0000 / sz) : e ≤ Req.got ⟨sz, e⟩ ∧ Req.got ⟨sz, e⟩ ≤ 2 ^ 31 / sz := by
  have h0 : (⟨sz, e⟩ : Req).bytes = sz * e := rfl
  have h1 : sz * e < 0x7FFE0000 := by
    have h2 := (Nat.le_div_iff_mul_le (by omega : 0 < sz)).mp (show e + 1 ≤ _ from h)
    rw [Nat.add_mul, Nat.mul_comm] at h2
    omega
  have h2 : sz * e ≤ 2 ^ MemPool.pool (sz * e) := MemPool.le_pool (by omega)
  have h3 : MemPool.pool (sz * e) ≤ 31 := MemPool.pool_le (by omega) (by omega) (by omega)
  have h4 : 2 ^ MemPool.pool (sz * e) ≤ 2 ^ 31 := Nat.pow_le_pow_right (by omega) h3
  unfold Req.got
  rw [if_pos (by omega : sz > 1), h0]
  constructor
  · exact (Nat.le_div_iff_mul_le (by omega : 0 < sz)).mpr (by rw [Nat.mul_comm]; exact h2)
  · exact Nat.div_le_div_right h4

omit [DecidableEq X] in
theorem Rep.einit_le {rod : Rod X} {ps : List (PNode X L)} (h : Rep rod ps) : rod.einit ≤ rod.estor := by
  obtain ⟨B, hB⟩ := h.cells
  rw [← cells_length, hB, h.einit, List.length_append]
  omega

omit [DecidableEq X] in
theorem reallocate_spec {rod : Rod X} {ps : List (PNode X L)} (h : Rep rod ps) {e : Nat} (he : rod.einit ≤ e) (good : Bool) :
    if e < 0x7FFE0000 / 16 ∧ good = true then ∃ rod', reallocate rod e good = .ok rod' ∧ Rep rod' ps ∧ e ≤ rod'.estor
    else reallocate rod e good = .throw := by
  unfold reallocate
  split
  · rename_i hg
    obtain ⟨h1, h2⟩ := got_bounds (sz := 16) (by omega) hg.1
    have hu : u32 (Req.got ⟨16, e⟩) = Req.got ⟨16, e⟩ := Nat.mod_eq_of_lt (by omega)
    rw [if_neg (by omega), if_neg (by omega), if_neg (by simp [hg.2]), hu]
    dsimp only
    cases hm : rod.mem with
    | none =>
      refine ⟨_, rfl, ⟨⟨List.replicate (Req.got ⟨16, e⟩) .junk, ?_⟩, h.einit, ?_⟩, ?_⟩
      · obtain ⟨B, hB⟩ := h.cells
        have : rod.cells = [] := by unfold Rod.cells; rw [hm]; rfl
        rw [this] at hB
        have h3 : enc ps = [] := by
          have := congrArg List.length hB
          rw [List.length_append] at this
          exact List.eq_nil_of_length_eq_zero (by simp only [List.length_nil] at this; omega)
        rw [h3]; rfl
      · simp only [Rod.estor, List.length_replicate]; omega
      · simp only [Rod.estor, List.length_replicate]; omega
    | some m =>
      have hc : rod.cells = m := by unfold Rod.cells; rw [hm]; rfl
      have hl : rod.estor = m.length := by rw [← cells_length, hc]
      have h3 := h.einit_le
      dsimp only
      rw [if_pos ⟨by omega, by omega⟩]
      have hlen : (m.take rod.einit ++ List.replicate (Req.got ⟨16, e⟩ - rod.einit) Cell.junk).length = Req.got ⟨16, e⟩ := by
        rw [List.length_append, List.length_take, List.length_replicate]; omega
      refine ⟨_, rfl, ⟨⟨List.replicate (Req.got ⟨16, e⟩ - rod.einit) .junk, ?_⟩, h.einit, ?_⟩, ?_⟩
      · obtain ⟨B, hB⟩ := h.cells
        show m.take rod.einit ++ _ = _
        rw [← hc, hB, h.einit, List.take_left]
      · simp only [Rod.estor, hlen]; omega
      · simp only [Rod.estor, hlen]; exact h1
  · rename_i hg
    by_cases h1 : e < 0x7FFE0000 / 16
    · rw [if_neg (by omega), if_neg (by omega), if_pos]
      cases good
      · rfl
      · exact absurd ⟨h1, rfl⟩ hg
    · rw [if_pos (by omega)]

theorem write_append {A : Type} (a cs z : List A) (h : cs.length ≤ z.length) :
    write (a ++ z) a.length cs = .ok (a ++ cs ++ z.drop cs.length) := by
  unfold write
  rw [if_pos (by rw [List.length_append]; omega), List.take_left, List.drop_append, List.drop_eq_nil_of_le (by omega),
    List.nil_append, Nat.add_sub_cancel_left]

/-- The node that is added, in memory. -/
def newNode (a : Arg X L) (k : Luck) : PNode X L := ⟨.of a, (a.size + 15) / 16, if a.needsMeta then some k.addr else none⟩

theorem construct_spec {rod : Rod X} {ps : List (PNode X L)} (h : Rep rod ps) (a : Arg X L) (k : Luck)
    (hs : a.size ≤ 255 * 16 - 1) (hroom : rod.einit + (1 + (a.size + 15) / 16) ≤ rod.estor) :
    ∃ rod', construct rod a (1 + (a.size + 15) / 16) (if a.needsMeta then some k.addr else none) =
      .ok (rod', decide (a.ctor = some none)) ∧ Rep rod' (if a.ctor = some none then ps else ps ++ [newNode a k]) := by
  obtain ⟨B, hB⟩ := h.cells
  have hl : rod.estor = (enc ps).length + B.length := by rw [← cells_length, hB, List.length_append]
  have he := h.einit
  have hb := h.bound
  unfold construct
  dsimp only
  rw [hB, he, write_append _ _ _ (by simp only [List.length_cons, List.length_nil]; omega)]
  dsimp only [Res.bind]
  by_cases hc : a.ctor = some none
  · rw [hc]
    refine ⟨_, rfl, ?_⟩
    rw [if_pos rfl]
    refine ⟨⟨_, List.append_assoc _ _ _⟩, rfl, ?_⟩
    simp only [Rod.estor, List.length_append, List.length_drop, List.length_cons, List.length_nil]
    omega
  · have hn : 1 + (a.size + 15) / 16 - 1 = (a.size + 15) / 16 := by omega
    have hlt : (a.size + 15) / 16 < 256 := by omega
    rw [if_neg hc, hn]
    have key : ∀ (o : Obj X), (newNode a k).node.obj = (if a.size = 0 then none else some o) →
        ∃ rod', ((write (enc ps ++ [Cell.head ⟨UInt8.ofNat ((a.size + 15) / 16), 0, a.up.user⟩ Pv.unset] ++ B.drop 1)
            ((enc ps).length + 1) ((List.range ((a.size + 15) / 16)).map (Cell.part o))).bind fun c =>
          (write c (enc ps).length [match (if a.needsMeta then some k.addr else none) with
            | none => Cell.head ⟨UInt8.ofNat ((a.size + 15) / 16), 0, a.up.user⟩ (.exec a.exec)
            | some m => .head ⟨UInt8.ofNat ((a.size + 15) / 16), 0 ||| 1, a.up.user⟩ (.info m)]).bind fun c =>
            .ok (⟨some c, u32 ((enc ps).length + (1 + (a.size + 15) / 16))⟩, false)) = Res.ok (rod', false) ∧
          Rep rod' (ps ++ [newNode a k]) := by
      intro o ho
      have h1 : (enc ps ++ [Cell.head ⟨UInt8.ofNat ((a.size + 15) / 16), 0, a.up.user⟩ Pv.unset]).length = (enc ps).length + 1 := by
        rw [List.length_append]; rfl
      rw [← h1, write_append _ _ _ (by simp only [List.length_map, List.length_range, List.length_drop]; omega)]
      dsimp only [Res.bind]
      rw [List.append_assoc, List.append_assoc, write_append _ _ _ (by simp)]
      dsimp only [Res.bind]
      refine ⟨_, rfl, ?_⟩
      have henc : enc (ps ++ [newNode a k]) = enc ps ++ ([match (if a.needsMeta then some k.addr else none) with
            | none => Cell.head ⟨UInt8.ofNat ((a.size + 15) / 16), 0, a.up.user⟩ (.exec a.exec)
            | some m => .head ⟨UInt8.ofNat ((a.size + 15) / 16), 0 ||| 1, a.up.user⟩ (.info m)] ++
            (List.range ((a.size + 15) / 16)).map (Cell.part o)) := by
        rw [enc_append, enc_single]
        congr 1
        unfold PNode.enc
        show _ :: _ = _ :: _
        congr 1
        · unfold PNode.up PNode.pv newNode
          dsimp only
          cases a.needsMeta <;> rfl
        · unfold PNode.parts
          rw [ho]
          by_cases hz : a.size = 0
          · rw [if_pos hz, hz]; rfl
          · rw [if_neg hz]; rfl
      have hlen := congrArg List.length henc
      simp only [List.length_append, List.length_map, List.length_range, List.length_cons, List.length_nil] at hlen
      refine ⟨⟨(B.drop 1).drop ((List.range ((a.size + 15) / 16)).map (Cell.part o)).length, ?_⟩, ?_, ?_⟩
      · rw [henc]
        simp only [Rod.cells, Option.getD, List.append_assoc, List.length_cons, List.length_nil, List.cons_append, List.nil_append,
          List.drop_succ_cons, List.drop_zero, Nat.zero_add]
      · rw [hlen]
        exact (Nat.mod_eq_of_lt (by omega)).trans (by omega)
      · simp only [Rod.estor, List.length_append, List.length_drop, List.length_cons, List.length_nil, List.length_map,
          List.length_range]
        omega
    cases hct : a.ctor with
    | none =>
      refine (key .zero ?_).imp fun rod' h => ⟨h.1.trans (by simp), h.2⟩
      simp [newNode, Node.of, hct]
    | some x =>
      cases x with
      | none => exact absurd hct hc
      | some x =>
        refine (key (.made x) ?_).imp fun rod' h => ⟨h.1.trans (by simp), h.2⟩
        simp [newNode, Node.of, hct]

omit [DecidableEq X] in
theorem newNode_ok {a : Arg X L} {k : Luck} {metas : Nat → Option (Metadata L)} (hs : a.size ≤ 255 * 16 - 1)
    (hm : a.needsMeta = true → metas k.addr = some ⟨a.exec, a.dtor, a.coll, a.sloc⟩) : (newNode a k).Ok metas := by
  refine ⟨?_, ?_, ?_, ?_⟩
  · show (a.size + 15) / 16 < 256; omega
  · show (a.size + 15) / 16 = 0 ↔ (if a.size = 0 then none else _) = none
    constructor
    · intro h; rw [if_pos (by omega)]
    · intro h
      by_cases hz : a.size = 0
      · omega
      · rw [if_neg hz] at h; cases h
  · intro h
    have hn : a.needsMeta = false := by
      cases hn : a.needsMeta with
      | false => rfl
      | true => simp [newNode, hn] at h
    simp only [Arg.needsMeta, Bool.or_eq_false_iff, Option.isSome_eq_false_iff, Option.isNone_iff_eq_none] at hn
    exact ⟨hn.1.1.2, hn.1.2, hn.2⟩
  · intro m h
    cases hn : a.needsMeta with
    | false => simp [newNode, hn] at h
    | true =>
      simp only [newNode, hn, if_true, Option.some.injEq] at h
      rw [← h]
      exact hm hn

omit [DecidableEq X] in
theorem Rep.of_rod {rod rod' : Rod X} {ps : List (PNode X L)} (h : Rep rod ps) (e : rod' = rod) : Rep rod' ps := e ▸ h

theorem push_inv {s : State R X L} {P : R → List (PNode X L)} (h : Inv s P) (dbg : Bool) (r : R) (a : Arg X L) (k : Luck) :
    ∃ s' b, push dbg s r a k = .ok (s', b) ∧ s'.log = s.log ∧
      Inv s' (if b = true then P else Function.update P r (P r ++ [newNode a k])) ∧
      (b = false ↔ a.size ≤ 255 * 16 - 1 ∧ (a.needsMeta = true → k.info = true ∧ s.metas k.addr = none) ∧ a.ctor ≠ some none ∧
        ((dbg = false ∧ (s.rod r).einit + (1 + (a.size + 15) / 16) ≤ (s.rod r).estor) ∨
          k.nodes = true ∧ (if dbg then (s.rod r).einit + (1 + (a.size + 15) / 16) else
            (s.rod r).einit * 2 + (1 + (a.size + 15) / 16) + 5) < 0x7FFE0000 / 16)) := by
  unfold push
  by_cases h1 : a.size > 255 * 16 - 1
  · rw [if_pos h1]
    exact ⟨s, true, rfl, rfl, h, ⟨nofun, fun hc => by omega⟩⟩
  rw [if_neg h1]
  by_cases h2 : a.needsMeta = true ∧ (k.info = false ∨ s.metas k.addr ≠ none)
  · rw [if_pos h2]
    refine ⟨s, true, rfl, rfl, h, ⟨nofun, fun hc => ?_⟩⟩
    obtain ⟨g1, g2⟩ := hc.2.1 h2.1
    rcases h2.2 with g | g
    · rw [g1] at g; cases g
    · exact absurd g2 g
  rw [if_neg h2]
  have h2' : a.needsMeta = true → k.info = true ∧ s.metas k.addr = none := by
    intro hn
    refine ⟨?_, ?_⟩
    · cases hk : k.info with
      | true => rfl
      | false => exact absurd ⟨hn, .inl hk⟩ h2
    · by_contra hc
      exact h2 ⟨hn, .inr hc⟩
  have hrep := h.rep r
  have hle := hrep.einit_le
  have hb := hrep.bound
  have hp1 : u32 (1 + (a.size + 16 - 1) / 16) = 1 + (a.size + 15) / 16 := Nat.mod_eq_of_lt (by omega)
  dsimp only
  rw [hp1]
  have hsub : sub32 (s.rod r).estor (s.rod r).einit = (s.rod r).estor - (s.rod r).einit := by
    unfold sub32 u32
    rw [show (s.rod r).estor + 2 ^ 32 - (s.rod r).einit = (s.rod r).estor - (s.rod r).einit + 2 ^ 32 by omega,
      Nat.add_mod_right, Nat.mod_eq_of_lt (by omega)]
  have hu1 : u32 ((s.rod r).einit + (1 + (a.size + 15) / 16)) = (s.rod r).einit + (1 + (a.size + 15) / 16) :=
    Nat.mod_eq_of_lt (by omega)
  have hu2 : u32 ((s.rod r).einit * 2 + (1 + (a.size + 15) / 16) + 5) = (s.rod r).einit * 2 + (1 + (a.size + 15) / 16) + 5 :=
    Nat.mod_eq_of_lt (by omega)
  rw [hsub, hu1, hu2]
  -- growth
  have hg : ((¬ ((dbg = false ∧ (s.rod r).einit + (1 + (a.size + 15) / 16) ≤ (s.rod r).estor) ∨
          k.nodes = true ∧ (if dbg then (s.rod r).einit + (1 + (a.size + 15) / 16) else
            (s.rod r).einit * 2 + (1 + (a.size + 15) / 16) + 5) < 0x7FFE0000 / 16)) ∧
        (if dbg then reallocate (s.rod r) ((s.rod r).einit + (1 + (a.size + 15) / 16)) k.nodes
        else if 1 + (a.size + 15) / 16 > (s.rod r).estor - (s.rod r).einit then
          reallocate (s.rod r) ((s.rod r).einit * 2 + (1 + (a.size + 15) / 16) + 5) k.nodes
        else .ok (s.rod r)) = .throw) ∨
      (((dbg = false ∧ (s.rod r).einit + (1 + (a.size + 15) / 16) ≤ (s.rod r).estor) ∨
          k.nodes = true ∧ (if dbg then (s.rod r).einit + (1 + (a.size + 15) / 16) else
            (s.rod r).einit * 2 + (1 + (a.size + 15) / 16) + 5) < 0x7FFE0000 / 16) ∧
        ∃ rod, (if dbg then reallocate (s.rod r) ((s.rod r).einit + (1 + (a.size + 15) / 16)) k.nodes
          else if 1 + (a.size + 15) / 16 > (s.rod r).estor - (s.rod r).einit then
            reallocate (s.rod r) ((s.rod r).einit * 2 + (1 + (a.size + 15) / 16) + 5) k.nodes
          else .ok (s.rod r)) = .ok rod ∧ Rep rod (P r) ∧ rod.einit + (1 + (a.size + 15) / 16) ≤ rod.estor) := by
    cases dbg with
    | true =>
      simp only [if_true]
      have := reallocate_spec hrep (e := (s.rod r).einit + (1 + (a.size + 15) / 16)) (by omega) k.nodes
      split at this
      · rename_i hc
        obtain ⟨rod, g1, g2, g3⟩ := this
        exact .inr ⟨.inr ⟨hc.2, hc.1⟩, rod, g1, g2, by rw [g2.einit, ← hrep.einit]; exact g3⟩
      · rename_i hc
        refine .inl ⟨?_, this⟩
        rintro (⟨hd, _⟩ | hd)
        · cases hd
        · exact hc ⟨hd.2, hd.1⟩
    | false =>
      simp only [Bool.false_eq_true, if_false]
      by_cases hr : 1 + (a.size + 15) / 16 > (s.rod r).estor - (s.rod r).einit
      · rw [if_pos hr]
        have := reallocate_spec hrep (e := (s.rod r).einit * 2 + (1 + (a.size + 15) / 16) + 5) (by omega) k.nodes
        split at this
        · rename_i hc
          obtain ⟨rod, g1, g2, g3⟩ := this
          exact .inr ⟨.inr ⟨hc.2, hc.1⟩, rod, g1, g2, by rw [g2.einit, ← hrep.einit]; omega⟩
        · rename_i hc
          refine .inl ⟨?_, this⟩
          rintro (⟨_, hd⟩ | hd)
          · omega
          · exact hc ⟨hd.2, hd.1⟩
      · rw [if_neg hr]
        exact .inr ⟨.inl ⟨trivial, by omega⟩, _, rfl, hrep, by omega⟩
  rcases hg with ⟨hg, ht⟩ | ⟨hg, rod, hok, hrep', hroom⟩
  · rw [ht]
    exact ⟨s, true, rfl, rfl, h, ⟨nofun, fun hc => absurd hc.2.2.2 hg⟩⟩
  rw [hok]
  dsimp only
  obtain ⟨rod', hc, hrep''⟩ := construct_spec hrep' a k (by omega) hroom
  rw [hc]
  dsimp only [Res.bind]
  by_cases hct : a.ctor = some none
  · rw [if_pos (by simp [hct])]
    rw [if_pos hct] at hrep''
    refine ⟨_, true, rfl, rfl, ?_, ⟨nofun, fun hc => absurd hct hc.2.2.1⟩⟩
    rw [if_pos rfl]
    refine ⟨fun r' => ?_, h.ok, h.nodup, h.disj, h.live⟩
    by_cases e : r' = r
    · subst e
      exact hrep''.of_rod (Function.update_self _ _ _)
    · exact (h.rep r').of_rod (Function.update_of_ne e _ _)
  rw [if_neg (by simp [hct])]
  rw [if_neg hct] at hrep''
  have hiff : (false = false ↔ a.size ≤ 255 * 16 - 1 ∧ (a.needsMeta = true → k.info = true ∧ s.metas k.addr = none) ∧
        a.ctor ≠ some none ∧
        ((dbg = false ∧ (s.rod r).einit + (1 + (a.size + 15) / 16) ≤ (s.rod r).estor) ∨
          k.nodes = true ∧ (if dbg then (s.rod r).einit + (1 + (a.size + 15) / 16) else
            (s.rod r).einit * 2 + (1 + (a.size + 15) / 16) + 5) < 0x7FFE0000 / 16)) :=
    ⟨fun _ => ⟨by omega, h2', hct, hg⟩, fun _ => rfl⟩
  have hids : ids [newNode a k] = if a.needsMeta then [k.addr] else [] := by
    cases hn : a.needsMeta <;> simp [ids, newNode, hn]
  have hrepU : ∀ r', Rep ((s.set r rod').rod r') (Function.update P r (P r ++ [newNode a k]) r') := by
    intro r'
    by_cases e : r' = r
    · subst e
      rw [Function.update_self]
      exact hrep''.of_rod (Function.update_self _ _ _)
    · rw [Function.update_of_ne e]
      exact (h.rep r').of_rod (Function.update_of_ne e _ _)
  by_cases hn : a.needsMeta = true
  · rw [if_pos hn]
    obtain ⟨_, hfree⟩ := h2' hn
    rw [if_pos hn] at hids
    have hnot : ∀ r', k.addr ∉ ids (P r') := by
      intro r' hm
      obtain ⟨p, hp, e⟩ := List.mem_filterMap.mp hm
      have := (h.ok r' p hp).full _ e
      rw [hfree] at this
      cases this
    have hmem : ∀ r' m, m ∈ ids (Function.update P r (P r ++ [newNode a k]) r') ↔ m ∈ ids (P r') ∨ r' = r ∧ m = k.addr := by
      intro r' m
      by_cases e : r' = r
      · subst e
        rw [Function.update_self, ids_append, hids, List.mem_append, List.mem_singleton]
        simp
      · rw [Function.update_of_ne e]
        simp [e]
    refine ⟨_, false, rfl, rfl, ?_, hiff⟩
    rw [if_neg (by simp)]
    refine ⟨hrepU, ?_, ?_, ?_, ?_⟩
    · intro r' p hp
      have hold : ∀ r', ∀ p ∈ P r', p.Ok (Function.update (s.set r rod').metas k.addr (some ⟨a.exec, a.dtor, a.coll, a.sloc⟩)) := by
        intro r' p hp
        have g := h.ok r' p hp
        refine ⟨g.lt, g.obj, g.bare, fun m e => ?_⟩
        rw [Function.update_of_ne]
        · exact g.full m e
        · rintro rfl
          exact hnot r' (List.mem_filterMap.mpr ⟨p, hp, e⟩)
      by_cases e : r' = r
      · subst e
        rw [Function.update_self] at hp
        rcases List.mem_append.mp hp with hp | hp
        · exact hold r' p hp
        · rw [List.mem_singleton] at hp
          subst hp
          exact newNode_ok (by omega) fun _ => Function.update_self _ _ _
      · rw [Function.update_of_ne e] at hp
        exact hold r' p hp
    · intro r'
      by_cases e : r' = r
      · subst e
        rw [Function.update_self, ids_append, hids]
        refine List.nodup_append.mpr ⟨h.nodup r', by simp, ?_⟩
        intro x hx y hy
        rw [List.mem_singleton] at hy
        rintro rfl
        exact hnot r' (hy ▸ hx)
      · rw [Function.update_of_ne e]; exact h.nodup r'
    · intro r1 r2 m g1 g2
      rcases (hmem r1 m).mp g1 with g1 | ⟨e1, g1⟩ <;> rcases (hmem r2 m).mp g2 with g2 | ⟨e2, g2⟩
      · exact h.disj r1 r2 m g1 g2
      · exact absurd (g2 ▸ g1) (hnot r1)
      · exact absurd (g1 ▸ g2) (hnot r2)
      · rw [e1, e2]
    · intro m hm
      by_cases e : m = k.addr
      · exact ⟨r, (hmem r m).mpr (.inr ⟨rfl, e⟩)⟩
      · have : s.metas m ≠ none := by
          intro hz
          apply hm
          show Function.update _ _ _ m = _
          rw [Function.update_of_ne e]
          exact hz
        obtain ⟨r', g⟩ := h.live m this
        exact ⟨r', (hmem r' m).mpr (.inl g)⟩
  · rw [if_neg hn]
    have hids' : ∀ r', ids (Function.update P r (P r ++ [newNode a k]) r') = ids (P r') := by
      intro r'
      by_cases e : r' = r
      · subst e
        rw [Function.update_self, ids_append, hids, if_neg hn, List.append_nil]
      · rw [Function.update_of_ne e]
    refine ⟨_, false, rfl, rfl, ?_, hiff⟩
    rw [if_neg (by simp)]
    refine ⟨hrepU, ?_, ?_, ?_, ?_⟩
    · intro r' p hp
      by_cases e : r' = r
      · subst e
        rw [Function.update_self] at hp
        rcases List.mem_append.mp hp with hp | hp
        · exact h.ok r' p hp
        · rw [List.mem_singleton] at hp
          subst hp
          exact newNode_ok (by omega) fun g => absurd g hn
      · rw [Function.update_of_ne e] at hp
        exact h.ok r' p hp
    · intro r'; rw [hids']; exact h.nodup r'
    · intro r1 r2 m; rw [hids', hids']; exact h.disj r1 r2 m
    · intro m hm
      obtain ⟨r', g⟩ := h.live m hm
      exact ⟨r', by rw [hids']; exact g⟩

omit [DecidableEq X] in
theorem enc_nil : enc ([] : List (PNode X L)) = [] := rfl

theorem clear_inv {s : State R X L} {P : R → List (PNode X L)} (h : Inv s P) (r : R) :
    ∃ s', clear s r = .ok s' ∧ s'.log = s.log ++ Spec.deaths (nodes (P r)) ∧ Inv s' (Function.update P r []) ∧
      s'.rod r = ⟨(s.rod r).mem, 0⟩ := by
  have hrep := h.rep r
  obtain ⟨B, hB⟩ := hrep.cells
  obtain ⟨s', h1, h2, h3, h4, h5⟩ := clear_loop (mem := (s.rod r).cells) (B := B) (P r) [] s hB (h.ok r) (h.nodup r)
  have hmetas : ∀ r' p, r' ≠ r → p ∈ P r' → p.Ok s'.metas := by
    intro r' p e hp
    have g := h.ok r' p hp
    refine ⟨g.lt, g.obj, g.bare, fun m hm => ?_⟩
    rw [h5]
    · exact g.full m hm
    · intro hc
      exact e (h.disj r' r m (List.mem_filterMap.mpr ⟨p, hp, hm⟩) hc)
  refine ⟨s'.set r ⟨(s.rod r).mem, 0⟩, ?_, h3, ⟨?_, ?_, ?_, ?_, ?_⟩, Function.update_self _ _ _⟩
  · unfold clear
    dsimp only
    rw [walk_rod hrep (h.ok r)]
    have h1' : walkL (clearNode (s.rod r).cells) 0 (P r) s = .ok s' := h1
    rw [h1']
    rfl
  · intro r'
    by_cases e : r' = r
    · subst e
      rw [Function.update_self]
      exact Rep.of_rod (rod := ⟨(s.rod r').mem, 0⟩) ⟨⟨(s.rod r').cells, rfl⟩, rfl, hrep.bound⟩ (Function.update_self _ _ _)
    · rw [Function.update_of_ne e]
      refine (h.rep r').of_rod ?_
      show Function.update s'.rod r _ r' = _
      rw [Function.update_of_ne e, h2]
  · intro r' p hp
    by_cases e : r' = r
    · subst e
      rw [Function.update_self] at hp
      cases hp
    · rw [Function.update_of_ne e] at hp
      exact hmetas r' p e hp
  · intro r'
    by_cases e : r' = r
    · subst e; rw [Function.update_self]; exact List.nodup_nil
    · rw [Function.update_of_ne e]; exact h.nodup r'
  · intro r1 r2 m g1 g2
    by_cases e1 : r1 = r
    · subst e1; rw [Function.update_self] at g1; cases g1
    · by_cases e2 : r2 = r
      · subst e2; rw [Function.update_self] at g2; cases g2
      · rw [Function.update_of_ne e1] at g1
        rw [Function.update_of_ne e2] at g2
        exact h.disj r1 r2 m g1 g2
  · intro m hm
    have hm' : s'.metas m ≠ none := hm
    by_cases hi : m ∈ ids (P r)
    · exact absurd (h4 m hi) hm'
    · rw [h5 m hi] at hm'
      obtain ⟨r', g⟩ := h.live m hm'
      refine ⟨r', ?_⟩
      rw [Function.update_of_ne (by rintro rfl; exact hi g)]
      exact g

theorem destroy_inv {s : State R X L} {P : R → List (PNode X L)} (h : Inv s P) (r : R) :
    ∃ s', destroy s r = .ok s' ∧ s'.log = s.log ++ Spec.deaths (nodes (P r)) ∧ Inv s' (Function.update P r []) ∧
      s'.rod r = Rod.new X := by
  unfold destroy
  cases hm : (s.rod r).mem with
  | none =>
    have hP : P r = [] := by
      obtain ⟨B, hB⟩ := (h.rep r).cells
      have h0 : (s.rod r).cells = [] := by unfold Rod.cells; rw [hm]; rfl
      rw [h0] at hB
      have h1 := length_le_enc (h.ok r)
      have h2 := congrArg List.length hB
      rw [List.length_append, List.length_nil] at h2
      exact List.eq_nil_of_length_eq_zero (by omega)
    have hu : Function.update P r [] = P := by rw [← hP]; exact Function.update_eq_self _ _
    have he := (h.rep r).einit
    rw [hP] at he
    refine ⟨s, rfl, by rw [hP]; exact (List.append_nil _).symm, by rw [hu]; exact h, ?_⟩
    cases hr : s.rod r with
    | mk mem e =>
      rw [hr] at hm he
      cases hm
      cases he
      rfl
  | some m =>
    obtain ⟨s', h1, h2, h3, h4⟩ := clear_inv h r
    dsimp only
    rw [h1]
    refine ⟨_, rfl, h2, ?_, ?_⟩
    · refine ⟨fun r' => ?_, h3.ok, h3.nodup, h3.disj, h3.live⟩
      by_cases e : r' = r
      · subst e
        rw [Function.update_self]
        exact Rep.of_rod (rod := ⟨none, 0⟩) ⟨⟨[], rfl⟩, rfl, Nat.zero_le _⟩ (by
          show Function.update s'.rod r' _ r' = _
          rw [Function.update_self, h4])
      · exact (h3.rep r').of_rod (Function.update_of_ne e _ _)
    · show Function.update s'.rod r _ r = _
      rw [Function.update_self, h4]
      rfl

omit [DecidableEq X] in
theorem swap_inv {s : State R X L} {P : R → List (PNode X L)} (h : Inv s P) (r r' : R) :
    Inv (swap s r r') (Function.update (Function.update P r (P r')) r' (P r)) := by
  -- a permutation of the rods
  have key : ∃ σ : R → R, Function.Injective σ ∧ (∀ x, (swap s r r').rod x = s.rod (σ x)) ∧
      (∀ x, Function.update (Function.update P r (P r')) r' (P r) x = P (σ x)) ∧ ∀ x, ∃ y, σ y = x := by
    refine ⟨fun x => if x = r' then r else if x = r then r' else x, ?_, ?_, ?_, ?_⟩
    · intro x y hxy
      dsimp only at hxy
      split at hxy <;> split at hxy <;> (try split at hxy) <;> (try split at hxy) <;> grind
    · intro x
      show Function.update (Function.update s.rod r (s.rod r')) r' (s.rod r) x = _
      by_cases e : x = r'
      · subst e; simp
      · rw [Function.update_of_ne e]; dsimp only; rw [if_neg e]
        by_cases e' : x = r
        · subst e'; rw [Function.update_self, if_pos rfl]
        · rw [Function.update_of_ne e', if_neg e']
    · intro x
      by_cases e : x = r'
      · subst e; simp
      · rw [Function.update_of_ne e]; dsimp only; rw [if_neg e]
        by_cases e' : x = r
        · subst e'; rw [Function.update_self, if_pos rfl]
        · rw [Function.update_of_ne e', if_neg e']
    · intro x
      by_cases e : x = r
      · exact ⟨r', by simp [e]⟩
      · by_cases e' : x = r'
        · by_cases e2 : r = r'
          · exact absurd (e'.trans e2.symm) e
          · exact ⟨r, by simp [e2, e']⟩
        · exact ⟨x, by simp [e, e']⟩
  obtain ⟨σ, hinj, h1, h2, hsurj⟩ := key
  refine ⟨fun x => ?_, fun x p hp => ?_, fun x => ?_, fun x y m g1 g2 => ?_, fun m hm => ?_⟩
  · rw [h2]; exact (h.rep _).of_rod (h1 x)
  · rw [h2] at hp; exact h.ok _ p hp
  · rw [h2]; exact h.nodup _
  · rw [h2] at g1 g2; exact hinj (h.disj _ _ m g1 g2)
  · obtain ⟨x, hx⟩ := h.live m hm
    obtain ⟨y, rfl⟩ := hsurj x
    exact ⟨y, by rw [h2]; exact hx⟩

omit [DecidableEq X] [DecidableEq R] in
theorem inv_init : Inv (State.init R X L) (fun _ => []) :=
  ⟨fun _ => ⟨⟨[], rfl⟩, rfl, Nat.zero_le _⟩, fun _ _ h => (nomatch h), fun _ => List.nodup_nil, fun _ _ _ h => (nomatch h),
    fun _ h => absurd rfl h⟩

/-- Memory and lists agree. -/
def Agree (s : State R X L) (w : Spec.World R X L) : Prop := ∃ P, Inv s P ∧ (∀ r, nodes (P r) = w.rods r) ∧ s.log = w.log

variable (R X L) in
omit [DecidableEq X] [DecidableEq R] in
theorem agree_init : Agree (State.init R X L) (Spec.World.init R X L) := ⟨fun _ => [], inv_init, fun _ => rfl, rfl⟩

theorem apply_agree {s : State R X L} {w : Spec.World R X L} (h : Agree s w) (dbg : Bool) (o : Op R X L) :
    ∃ s' b, apply dbg s o = .ok (s', b) ∧ Agree s' (w.apply (o, b)) := by
  obtain ⟨P, hI, hn, hl⟩ := h
  have hupd : ∀ (r : R) (x : List (PNode X L)), ∀ r', nodes (Function.update P r x r') = Function.update w.rods r (nodes x) r' := by
    intro r x r'
    by_cases e : r' = r
    · subst e; rw [Function.update_self, Function.update_self]
    · rw [Function.update_of_ne e, Function.update_of_ne e]; exact hn r'
  cases o with
  | push r a k =>
    obtain ⟨s', b, h1, h2, h3, _⟩ := push_inv hI dbg r a k
    refine ⟨s', b, h1, ?_⟩
    cases b with
    | true => exact ⟨P, h3, hn, h2.trans hl⟩
    | false =>
      refine ⟨_, h3, fun r' => ?_, h2.trans hl⟩
      rw [if_neg (by simp), hupd]
      have : nodes (P r ++ [newNode a k]) = w.rods r ++ [Node.of a] := by
        unfold nodes
        rw [List.map_append]
        exact congrArg (· ++ _) (hn r)
      rw [this]
      rfl
  | clear r =>
    obtain ⟨s', h1, h2, h3, _⟩ := clear_inv hI r
    refine ⟨s', false, by simp [apply, h1, Res.bind], _, h3, fun r' => hupd r [] r', ?_⟩
    rw [h2, hl, hn]; rfl
  | destroy r =>
    obtain ⟨s', h1, h2, h3, _⟩ := destroy_inv hI r
    refine ⟨s', false, by simp [apply, h1, Res.bind], _, h3, fun r' => hupd r [] r', ?_⟩
    rw [h2, hl, hn]; rfl
  | swap r r' =>
    refine ⟨_, false, rfl, _, swap_inv hI r r', fun x => ?_, hl⟩
    show nodes (Function.update (Function.update P r (P r')) r' (P r) x) =
      Function.update (Function.update w.rods r (w.rods r')) r' (w.rods r) x
    by_cases e : x = r'
    · subst e; rw [Function.update_self, Function.update_self, hn]
    · rw [Function.update_of_ne e, Function.update_of_ne e, hupd, hn]

theorem run_agree (dbg : Bool) (os : List (Op R X L)) : ∀ {s : State R X L} {w : Spec.World R X L}, Agree s w →
    ∃ s' bs, run dbg s os = .ok (s', bs) ∧ bs.length = os.length ∧ Agree s' ((os.zip bs).foldl Spec.World.apply w) := by
  induction os with
  | nil => intro s w h; exact ⟨s, [], rfl, rfl, h⟩
  | cons o os ih =>
    intro s w h
    obtain ⟨s1, b, h1, h2⟩ := apply_agree h dbg o
    obtain ⟨s2, bs, h3, h4, h5⟩ := ih h2
    refine ⟨s2, b :: bs, ?_, by rw [List.length_cons, List.length_cons, h4], h5⟩
    rw [run, h1]
    dsimp only [Res.bind]
    rw [h3]

end Asteria.Avm
