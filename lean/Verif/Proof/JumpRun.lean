import Verif.Spec.Jump
import Verif.Proof.Jump
import Verif.Proof.ScopeRun

/-!
# Execution of code in which every jump has a place to go to

Helper lemmas for `Verif.Props.Jump`.
-/

namespace Asteria.Exec.Jump

open Syntax (Around)
open Scope (Sim)

variable {P : Type}

/-- Jumps in functions and deferred expressions have a place to go to. -/
structure Inv (st : State P) : Prop where
  funcs : ∀ f ∈ st.funcs, ∀ ps va b, f = .inst ps va b → OkNs [] b
  defers : ∀ s ∈ st.scopes, ∀ d ∈ s.defers, OkNs [] d.2
  ptcs : ∀ p ∈ st.ptcs, ∀ d ∈ p.defers, OkNs [] d.2

section
variable {st : State P}

theorem Inv.same (h : Inv st) {st' : State P} (hs : st'.scopes = st.scopes) (hf : st'.funcs = st.funcs)
    (hp : st'.ptcs = st.ptcs) : Inv st' := ⟨by rw [hf]; exact h.funcs, by rw [hs]; exact h.defers, by rw [hp]; exact h.ptcs⟩

theorem Inv.setStack (h : Inv st) (l : List Ref) : Inv (st.setStack l) := by
  unfold State.setStack; split <;> exact h.same rfl rfl rfl

theorem Inv.setAlt (h : Inv st) (l : List Ref) : Inv (st.setAlt l) := by
  unfold State.setAlt; split <;> exact h.same rfl rfl rfl

theorem Inv.push (h : Inv st) (r : Ref) : Inv (st.push r) := h.setStack _
theorem Inv.setStatus (h : Inv st) (s : Status) : Inv (st.setStatus s) := h.same rfl rfl rfl
theorem Inv.log (h : Inv st) (e : Event) : Inv (st.log e) := h.same rfl rfl rfl
theorem Inv.newVar (h : Inv st) : Inv (newVar st).2 := h.same rfl rfl rfl
theorem Inv.initVar (h : Inv st) (id : Nat) (v : Value) (b : Bool) : Inv (initVar st id v b) := h.same rfl rfl rfl

theorem Inv.modScope (h : Inv st) (f : Scope P → Scope P) (hf : ∀ s ∈ st.scopes, ∀ d ∈ (f s).defers, OkNs [] d.2) :
    Inv (st.modScope f) := by
  unfold State.modScope
  split
  · exact h
  · rename_i s ss hs
    refine ⟨h.funcs, ?_, h.ptcs⟩
    intro s' hs'
    rcases List.mem_cons.1 hs' with rfl | hs'
    · exact hf s (by simp [hs])
    · exact h.defers s' (by simp [hs, hs'])

theorem Inv.swap (h : Inv st) : Inv (st.modScope fun s => { s with swapped := !s.swapped }) :=
  h.modScope _ h.defers

theorem Inv.setName (h : Inv st) (n : Name) (r : Ref) :
    Inv (st.modScope fun s => { s with names := setName n r s.names }) := h.modScope _ h.defers

@[simp] theorem status_setStack (l : List Ref) : (st.setStack l).status = st.status := by
  unfold State.setStack; split <;> rfl
@[simp] theorem status_setAlt (l : List Ref) : (st.setAlt l).status = st.status := by
  unfold State.setAlt; split <;> rfl
@[simp] theorem status_push (r : Ref) : (st.push r).status = st.status := status_setStack _
@[simp] theorem status_setStatus (s : Status) : (st.setStatus s).status = s := rfl
@[simp] theorem status_log (e : Event) : (st.log e).status = st.status := rfl
@[simp] theorem status_newVar : (newVar st).2.status = st.status := rfl
@[simp] theorem status_initVar (id : Nat) (v : Value) (b : Bool) : (initVar st id v b).status = st.status := rfl
@[simp] theorem status_modScope (f : Scope P → Scope P) : (st.modScope f).status = st.status := by
  unfold State.modScope; split <;> rfl

end

/-! ### Pieces -/

/-- What is known about a piece that is executed within some statements. -/
def ST : List Around → Task P → Prop
  | l, .rod c => OkNs l c
  | l, .seq c => OkNs l c
  | l, .node n => OkN l n
  | l, .within _ t => ST l t
  | l, .exitN _ s => Allowed l s
  | l, .find _ rest _ _ all => OkCs (.switch :: l) rest ∧ OkCs (.switch :: l) all
  | l, .clauses cs => OkCs (.switch :: l) cs
  | l, .doL b _ c k => OkNs (.while :: l) b ∧ OkNs [] c ∧ OkNs l k
  | l, .whileL _ c b k => OkNs [] c ∧ OkNs (.while :: l) b ∧ OkNs l k
  | l, .eachInit _ _ i b k => OkNs [] i ∧ OkNs (.for :: l) b ∧ OkNs l k
  | l, .eachL _ _ _ _ b k => OkNs (.for :: l) b ∧ OkNs l k
  | l, .forInit i c s b k => OkNs [] i ∧ OkNs [] c ∧ OkNs [] s ∧ OkNs (.for :: l) b ∧ OkNs l k
  | l, .forL c s b k => OkNs [] c ∧ OkNs [] s ∧ OkNs (.for :: l) b ∧ OkNs l k
  | _, .sub _ c => OkNs [] c
  | _, .call _ b => OkNs [] b
  | _, _ => True

/-- The pieces that begin with any status: they set it before they look at it, or throw. -/
def fresh : Task P → Bool
  | .rod _ | .exitE _ | .framesE _ _ => true
  | .within _ t => fresh t
  | _ => false

/-- The state before a piece or after it. -/
structure G (l : List Around) (st : State P) : Prop where
  inv : Inv st
  ok : Allowed l st.status

/-- What is known about an outcome. -/
def Q (l : List Around) : Out P → Prop
  | .ok st => G l st
  | .exc _ st => Inv st
  | .ub => True

section
variable {l : List Around} {st : State P}

theorem G.next (h : Inv st) (hs : st.status = .next) : G l st := ⟨h, by rw [hs]; trivial⟩
theorem G.to (h : G l st) {st' : State P} (hi : Inv st') (hs : st'.status = st.status) : G l st' :=
  ⟨hi, by rw [hs]; exact h.ok⟩
theorem G.up (h : G [] st) : G l st := ⟨h.inv, h.ok.mono⟩
theorem G.setStack (h : G l st) (r : List Ref) : G l (st.setStack r) := h.to (h.inv.setStack _) (by simp)
theorem G.push (h : G l st) (r : Ref) : G l (st.push r) := h.to (h.inv.push _) (by simp)
theorem G.log (h : G l st) (e : Event) : G l (st.log e) := h.to (h.inv.log _) (by simp)

theorem Sim.ub : Sim (Q (P := P) l) (some .ub) (some .ub) := Sim.of trivial
theorem Sim.exc {e : Value} (h : Inv st) : Sim (Q l) (some (.exc e st)) (some (.exc e st)) := Sim.of h
theorem Sim.ok (h : G l st) : Sim (Q l) (some (.ok st)) (some (.ok st)) := Sim.of h

theorem Sim.up {g e : Option (Out P)} (h : Sim (Q []) g e) : Sim (Q l) g e :=
  h.imp fun o ho => by
    cases o with
    | ok s => exact G.up ho
    | exc v s => exact ho
    | ub => trivial

theorem Sim.andThen {l' : List Around} {g e : Option (Out P)} {k k' : State P → Option (Out P)} (ho : Sim (Q l') g e)
    (hk : ∀ st, G l' st → Sim (Q l) (k st) (k' st)) : Sim (Q l) (andThen g k) (andThen e k') :=
  Scope.Sim.onOut ho (fun st h => hk st h) (fun _ _ h => Sim.exc h) trivial

theorem Sim.withValue {r : Res Value} {k k' : Value → Option (Out P)} (hst : Inv st)
    (hk : ∀ v, Sim (Q l) (k v) (k' v)) : Sim (Q l) (withValue st r k) (withValue st r k') := by
  cases r with
  | ok v => exact hk v
  | throw => exact Sim.exc hst
  | ub => exact Sim.ub

theorem Sim.withTop {k k' : Ref → List Ref → Option (Out P)}
    (hk : ∀ r r', Sim (Q l) (k r r') (k' r r')) : Sim (Q l) (withTop st k) (withTop st k') := by
  unfold Exec.withTop
  split
  · exact Sim.ub
  · exact hk _ _

theorem Sim.expectNext {k k' : Option (Out P)} (hk : st.status = .next → Sim (Q l) k k') :
    Sim (Q l) (expectNext st k) (expectNext st k') := by
  unfold Exec.expectNext
  split
  · rename_i h; exact hk h
  · exact Sim.ub

end

/-- What is known about the pieces of a step. -/
def Rec (g e : Task P → State P → Option (Out P)) : Prop :=
  ∀ l t st, ST l t → Inv st → (fresh t = false → Allowed l st.status) → Sim (Q l) (g t st) (e t st)

section
variable {l : List Around} {g e : Task P → State P → Option (Out P)}

theorem Rec.run (hr : Rec g e) {t : Task P} {st : State P} (h : G l st) (ht : ST l t) : Sim (Q l) (g t st) (e t st) :=
  hr l t st ht h.inv fun _ => h.ok

theorem Rec.any (hr : Rec g e) {t : Task P} {st : State P} (h : Inv st) (ht : ST l t) (hf : fresh t = true) :
    Sim (Q l) (g t st) (e t st) := hr l t st ht h fun h => by rw [hf] at h; cases h

theorem Rec.aside (hr : Rec g e) {t : Task P} {st : State P} (h : G l st) (ht : ST l t) :
    Sim (Q l) (Exec.aside g t st) (Exec.aside e t st) := by
  unfold Exec.aside
  split
  · exact Sim.ub
  · rename_i s ss hs
    have h0 : G l { st with scopes := ss } :=
      ⟨⟨h.inv.funcs, fun s' hs' => h.inv.defers s' (by simp [hs, hs']), h.inv.ptcs⟩, h.ok⟩
    have h1 : ∀ st', Inv st' → Inv { st' with scopes := s :: st'.scopes } := fun st' h' => by
      refine ⟨h'.funcs, fun s' hs' => ?_, h'.ptcs⟩
      rcases List.mem_cons.1 hs' with rfl | hs'
      · exact h.inv.defers _ (by simp [hs])
      · exact h'.defers _ hs'
    exact Scope.Sim.onOut (hr.run h0 ht) (fun st' h' => Sim.ok ⟨h1 _ (G.inv h'), G.ok (st := st') h'⟩)
      (fun v st' h' => Sim.exc (h1 _ h')) trivial

end

open Scope (Sim.ite Sim.onOut)

theorem runNode_sim (sem : Sem P) {g e : Task P → State P → Option (Out P)} (hr : Rec g e) (l : List Around) (n : Node P)
    (st : State P) (hn : OkN l n) (hG : G l st) : Sim (Q l) (runNode sem g n st) (runNode sem e n st) := by
  have hi := hG.inv
  cases n with
  | clearStack => exact Sim.ok (hG.setStack _)
  | block b => exact hr.run hG (t := block b) (by simpa only [ST, block, OkN] using hn)
  | declareVar n => exact Sim.ok (G.push (hG.to (hi.newVar.setName n _) (by simp)) _)
  | initVar imm =>
    simp only [runNode]
    split
    · refine Sim.withValue hi fun v => ?_
      split
      · exact Sim.ub
      · split
        · exact Sim.ok (hG.to ((hi.initVar _ _ _).setStack _) (by simp))
        · exact Sim.ub
    · exact Sim.ub
  | ifS neg t f =>
    simp only [OkN] at hn
    exact Sim.withTop fun r _ => Sim.withValue hi fun v => Sim.ite (fun _ => hr.run hG (t := block t) hn.1)
      (fun _ => hr.run hG (t := block f) hn.2)
  | switchS cs =>
    simp only [OkN] at hn
    exact Sim.withTop fun r _ => Sim.withValue hi fun v => hr.run hG (t := .find v cs 0 none cs) ⟨hn, hn⟩
  | doWhile b neg c k => exact hr.run hG (t := .doL b neg c k) (by simpa only [ST, OkN] using hn)
  | whileS neg c b k => exact hr.run hG (t := .whileL neg c b k) (by simpa only [ST, OkN] using hn)
  | forEach kn mn i b k =>
    simp only [OkN] at hn
    exact hr.run hG (t := .within _ (.eachInit kn mn i b k)) hn
  | forS i c s b k =>
    simp only [OkN] at hn
    exact hr.run hG (t := .within [] (.forInit i c s b k)) hn
  | tryS b n h =>
    simp only [OkN] at hn
    refine Sim.onOut (R := Q l) ?_ (fun st' h' => Sim.ok h') (fun v st' h' => ?_) trivial
    · refine Sim.andThen (hr.run hG (t := block b) hn.1) fun st' h' => ?_
      refine Sim.ite (fun _ => Sim.withTop fun r _ => Sim.andThen (hr.run h' (t := .check r) trivial) fun st'' h'' =>
        Sim.ok (h''.setStack _)) (fun _ => Sim.ok h')
    · exact hr.any h' (t := .within [(n, .temp v [])] (.rod h)) hn.2 rfl
  | throwS =>
    refine Sim.withTop fun r _ => Sim.withValue hi fun v => ?_
    split
    · exact Sim.exc hi
    · exact Sim.exc (hi.setStack _)
  | assertS => exact Sim.withTop fun r _ => Sim.withValue hi fun v => Sim.ite (fun _ => Sim.ok hG) (fun _ => Sim.exc hi)
  | simpleStatus s => exact Sim.ok ⟨hi.setStatus _, by simpa only [OkN, status_setStatus] using hn⟩
  | checkArg byRef =>
    exact Sim.withTop fun r _ => Sim.ite (fun _ => Sim.withValue hi fun _ => Sim.ok hG)
      (fun _ => Sim.withValue hi fun _ => Sim.ok (hG.setStack _))
  | pushLocal d n =>
    simp only [runNode]
    split
    · exact Sim.ub
    · split
      · exact Sim.exc hi
      · exact Sim.exc hi
      · exact Sim.ok (hG.push _)
  | pushBound r => exact Sim.ok (hG.push _)
  | pushConst v => exact Sim.ok (hG.push _)
  | defineFunc ps va b =>
    simp only [OkN] at hn
    simp only [runNode]
    split
    · rename_i b' hb'
      refine Sim.ok (G.push (st := { st with funcs := st.funcs ++ [.inst ps va b'] }) ⟨⟨?_, hi.defers, hi.ptcs⟩, hG.ok⟩ _)
      intro f hf ps' va' b'' hf'
      rcases List.mem_append.1 hf with hf | hf
      · exact hi.funcs f hf ps' va' b'' hf'
      · simp only [List.mem_singleton] at hf
        subst hf
        cases hf'
        exact cap_seq b hn hb'
    · exact Sim.exc hi
    · exact Sim.ub
  | branchE t f a =>
    simp only [OkN] at hn
    refine Sim.withTop fun r _ => Sim.withValue hi fun v => hr.run hG (t := .sub a _) ?_
    split
    · exact hn.1
    · exact hn.2
  | coalesceE c a =>
    simp only [OkN] at hn
    refine Sim.withTop fun r _ => Sim.withValue hi fun v => ?_
    split
    · exact hr.run hG (t := .sub a c) hn
    · exact Sim.ok hG
  | funcCall n ptc =>
    simp only [runNode]
    refine Sim.ite (fun _ => Sim.ub) fun _ => ?_
    have h1 : G l ((st.setAlt (st.stack.take n)).setStack (st.stack.drop n)) :=
      hG.to ((hi.setAlt _).setStack _) (by simp)
    refine Sim.withTop fun r _ => Sim.withValue h1.inv fun v => ?_
    split
    · exact hr.run (h1.setStack _) (t := .tailOrCall ptc _) trivial
    · exact Sim.exc h1.inv
  | altClear => exact Sim.ok (G.setStack (hG.to hi.swap (by simp)) _)
  | altCall ptc =>
    simp only [runNode]
    have h1 : G l (st.modScope fun s => { s with swapped := !s.swapped }) := hG.to hi.swap (by simp)
    refine Sim.withTop fun r _ => Sim.withValue h1.inv fun v => ?_
    split
    · exact hr.run (h1.setStack _) (t := .tailOrCall ptc _) trivial
    · exact Sim.exc h1.inv
  | deferE b =>
    simp only [OkN] at hn
    simp only [runNode]
    split
    · rename_i b' hb'
      refine Sim.ok (G.log (hG.to (hi.modScope _ fun s hs d hd => ?_) (by simp)) _)
      rcases List.mem_append.1 hd with hd | hd
      · exact hi.defers s hs d hd
      · simp only [List.mem_singleton] at hd
        subst hd
        exact cap_seq b hn hb'
    · exact Sim.exc hi
    · exact Sim.ub
  | catchE b =>
    simp only [OkN] at hn
    exact Sim.onOut (R := Q []) (hr.any (hi.setStack []) (t := .rod b) hn rfl)
      (fun st' h' => Sim.expectNext fun _ => Sim.ok (G.next (((G.inv h').setStack _).setStatus _) rfl))
      (fun v st' h' => Sim.ok (G.next (Inv.setStatus (Inv.setStack h' _) _) rfl)) trivial
  | returnS byRef isVoid =>
    refine Sim.ite (fun _ => Sim.ok ⟨hi.setStatus _, trivial⟩) fun _ => Sim.withTop fun r _ => ?_
    split
    · exact Sim.ok ⟨hi.setStatus _, trivial⟩
    · exact Sim.ite (fun _ => Sim.withValue hi fun _ => Sim.ok ⟨hi.setStatus _, trivial⟩)
        (fun _ => Sim.withValue hi fun _ => Sim.ok ⟨(hi.setStack _).setStatus _, trivial⟩)
  | returnConst v => exact Sim.ok ⟨(hi.push _).setStatus _, trivial⟩
  | defineNull imm n => exact Sim.ok (hG.to ((hi.newVar.setName n _).initVar _ _ _) (by simp))
  | declareRef n => exact Sim.ok (hG.to (hi.setName n _) (by simp))
  | initRef n => exact Sim.withTop fun r _ => Sim.ok (G.setStack (hG.to (hi.setName n r) (by simp)) _)
  | prim p =>
    simp only [runNode]
    have h1 : ∀ w : World, G l { st with world := w } := fun w => hG.to (hi.same rfl rfl rfl) rfl
    split
    · exact Sim.ok ((h1 _).setStack _)
    · exact Sim.exc ((h1 _).setStack _).inv
    · exact Sim.ub

theorem Inv.frame {st : State P} (h : Inv st) {st' : State P} (h' : Inv st') : Inv (restore st st') :=
  ⟨h'.funcs, h.defers, h'.ptcs⟩

theorem Inv.setKey {st : State P} (h : Inv st) (n : Name) (v : Value) : Inv (setKey st n v) := by
  unfold Exec.setKey
  split
  · exact h.initVar _ _ _
  · exact (h.newVar.setName n _).initVar _ _ _

@[simp] theorem status_setKey {st : State P} (n : Name) (v : Value) : (setKey st n v).status = st.status := by
  unfold Exec.setKey
  split <;> simp

theorem G.bindElement {l : List Around} {st : State P} (h : G l st) (kn : Option Name) (mn : Name) (r : Ref)
    (x : Value × Subscript.Sub) : G l (bindElement kn mn r x st) := by
  unfold Exec.bindElement
  cases kn with
  | none => exact h.to (h.inv.setName mn _) (by simp)
  | some n => exact h.to ((h.inv.setKey n _).setName mn _) (by simp)

/-- A context is left. -/
theorem Inv.pop {st : State P} (h : Inv st) : Inv ({ st with scopes := st.scopes.tail } : State P) :=
  ⟨h.funcs, fun s hs => h.defers s (List.mem_of_mem_tail hs), h.ptcs⟩

/-- The last deferred expression of the current context is taken. -/
theorem Inv.takeDefer {st : State P} (h : Inv st) {s : Scope P} {ss : List (Scope P)}
    (hs : st.scopes = s :: ss) {d : List (Nat × List (Node P))} (hd : ∀ x ∈ d, OkNs [] x.2) :
    Inv ({ st with scopes := { s with defers := d } :: ss } : State P) := by
  refine ⟨h.funcs, fun s' hs' => ?_, h.ptcs⟩
  rcases List.mem_cons.1 hs' with rfl | hs'
  · exact hd
  · exact h.defers s' (by simp [hs, hs'])

theorem modify_defers {l : List (PtcArgs P)} (h : ∀ p ∈ l, ∀ d ∈ p.defers, OkNs [] d.2) (id : Nat)
    (f : PtcArgs P → PtcArgs P) (hf : ∀ p ∈ l, ∀ d ∈ (f p).defers, OkNs [] d.2) :
    ∀ p ∈ l.modify id f, ∀ d ∈ p.defers, OkNs [] d.2 := by
  intro p hp
  obtain ⟨i, hi⟩ := List.mem_iff_getElem?.1 hp
  rw [List.getElem?_modify] at hi
  split at hi
  · have hi' : Option.map f l[i]? = some p := hi
    rw [Option.map_eq_some_iff] at hi'
    obtain ⟨q, hq, rfl⟩ := hi'
    exact hf q (List.mem_of_getElem? hq)
  · exact h p (List.mem_of_getElem? (by simpa using hi))

/-- The state in which the deferred expressions of a tail call are run. -/
theorem Inv.resume {st : State P} (h : Inv st) {id : Nat} {p : PtcArgs P} (hp : st.ptcs[id]? = some p)
    (ev : Event) : G [] (({ st with
          ptcs := st.ptcs.modify id fun p => { p with defers := [] },
          scopes := [⟨[], p.defers, false⟩], stk0 := [], stk1 := [], status := .next } : State P).log ev) := by
  refine ⟨⟨h.funcs, ?_, modify_defers h.ptcs _ _ (by simp)⟩, trivial⟩
  intro s hs
  simp only [State.log, List.mem_singleton] at hs
  subst hs
  exact h.ptcs p (List.mem_of_getElem? hp)

/-- After the body of a loop. -/
theorem G.afterBody {l : List Around} {st : State P} {a : Around} {c b : Status} (h : G (a :: l) st)
    (ha : a = .while ∧ c = .contWhile ∧ b = .brkWhile ∨ a = .for ∧ c = .contFor ∧ b = .brkFor) :
    G l (st.setStatus (afterBody st.status c b).2) := by
  refine ⟨h.inv.setStatus _, ?_⟩
  have h1 := h.ok
  simp only [status_setStatus]
  rcases ha with ⟨rfl, rfl, rfl⟩ | ⟨rfl, rfl, rfl⟩ <;>
    (generalize st.status = s at h1 ⊢; cases s <;> simp_all [Allowed, Exec.afterBody])

theorem okCs_drop {l : List Around} : ∀ (cs : List (Clause P)) (k : Nat), OkCs l cs → OkCs l (cs.drop k)
  | [], k, h => by simpa using h
  | c :: cs, 0, h => h
  | .mk _ _ _ _ :: cs, k + 1, h => by simp only [OkCs] at h; exact okCs_drop cs k h.2

theorem step_sim (sem : Sem P) (bad : Option (Out P)) {g e : Task P → State P → Option (Out P)} (hr : Rec g e)
    (l : List Around) (t : Task P) (st : State P) (ht : ST l t) (hi : Inv st) (hf : fresh t = false → Allowed l st.status) :
    Sim (Q l) (stepJump sem bad g t st) (step sem e t st) := by
  cases t with
  | rod code => exact hr.run (G.next (hi.setStatus .next) rfl) (t := .seq code) ht
  | seq code =>
    have hG : G l st := ⟨hi, hf rfl⟩
    cases code with
    | nil => exact Sim.ok hG
    | cons n ns =>
      simp only [ST, OkNs] at ht
      exact Sim.andThen (hr.run hG (t := .node n) ht.1) fun st' h' => Sim.ite (fun hs => hr.run h' (t := .seq ns) ht.2)
        fun hs => Sim.ok h'
  | node n => exact runNode_sim sem hr l n st ht ⟨hi, hf rfl⟩
  | within names t =>
    have h0 : Inv (({ st with scopes := ⟨names, [], st.swapped⟩ :: st.scopes } : State P).log .enter) := by
      refine ⟨hi.funcs, fun s hs => ?_, hi.ptcs⟩
      rcases List.mem_cons.1 hs with rfl | hs
      · simp
      · exact hi.defers s hs
    refine Sim.onOut (R := Q l) (hr l t _ ht h0 hf) (fun st' h' => ?_) (fun v st' h' => ?_) trivial
    · exact Sim.onOut (R := Q l) (hr.run (G.log h' _) (t := .exit) trivial)
        (fun st'' h'' => Sim.ok ⟨((G.inv h'').pop).log _, G.ok (st := st'') h''⟩) (fun v st'' h'' => Sim.exc (Inv.log (Inv.pop h'') _)) trivial
    · exact Sim.onOut (R := Q l) (hr.any (Inv.log h' _) (t := .exitE v) trivial rfl)
        (fun st'' h'' => Sim.ok ⟨((G.inv h'').pop).log _, G.ok (st := st'') h''⟩) (fun v st'' h'' => Sim.exc (Inv.log (Inv.pop h'') _)) trivial
  | exit =>
    have hG : G l st := ⟨hi, hf rfl⟩
    simp only [stepJump, step]
    split
    · exact Sim.ub
    · rename_i s ss hs
      refine Sim.ite (fun _ => Sim.ok hG) fun _ => Sim.ite (fun _ => Sim.withTop fun r r' => ?_) fun _ => ?_
      · split
        · refine Sim.ite (fun _ => Sim.ok ⟨⟨hi.funcs, ?_, ?_⟩, hG.ok⟩) fun _ => Sim.ub
          · exact (hi.takeDefer hs (by simp)).defers
          · refine modify_defers hi.ptcs _ _ fun p hp d hd => ?_
            rcases List.mem_append.1 hd with hd | hd
            · exact hi.ptcs p hp d hd
            · exact hi.defers s (by simp [hs]) d hd
        · exact Sim.ub
        · exact hr.run (hG.setStack _) (t := .exitN _ _) hG.ok
      · exact hr.run hG (t := .exitN _ _) hG.ok
  | exitN saved status =>
    simp only [stepJump, step]
    split
    · exact Sim.ub
    · rename_i s ss hs
      split
      · refine Sim.ok ⟨Inv.setStatus ?_ _, ht⟩
        split
        · exact hi
        · exact hi.push _
      · rename_i d hd
        have hd' := List.mem_of_getLast? hd
        have h1 := hi.takeDefer hs (d := s.defers.dropLast) fun x hx =>
          hi.defers s (by simp [hs]) x (List.dropLast_subset _ hx)
        have h2 := hi.defers s (by simp [hs]) d hd'
        exact Sim.onOut (R := Q []) (hr.any (h1.log _) (t := .rod d.2) h2 rfl)
          (fun st' h' => Sim.expectNext fun _ => hr.run (G.up h') (t := .exitN saved status) ht)
          (fun v st' h' => hr.any h' (t := .exitE v) trivial rfl) trivial
  | exitE v =>
    simp only [stepJump, step]
    split
    · exact Sim.ub
    · rename_i s ss hs
      split
      · exact Sim.exc hi
      · rename_i d hd
        have hd' := List.mem_of_getLast? hd
        have h1 := hi.takeDefer hs (d := s.defers.dropLast) fun x hx =>
          hi.defers s (by simp [hs]) x (List.dropLast_subset _ hx)
        have h2 := hi.defers s (by simp [hs]) d hd'
        exact Sim.onOut (R := Q []) (hr.any (h1.log _) (t := .rod d.2) h2 rfl)
          (fun st' h' => Sim.expectNext fun _ => hr.any (G.inv h') (t := .exitE v) trivial rfl)
          (fun v st' h' => hr.any h' (t := .exitE v) trivial rfl) trivial
  | find v rest k target all =>
    have hG : G l st := ⟨hi, hf rfl⟩
    cases rest with
    | nil =>
      simp only [stepJump, step]
      split
      · exact Sim.ok hG
      · rename_i k
        exact hr.run hG (t := .within _ (.clauses (all.drop k))) (okCs_drop all k ht.2)
    | cons c cs =>
      obtain ⟨kind, la, b, names⟩ := c
      have ht1 := ht.1
      simp only [OkCs] at ht1
      simp only [stepJump, step]
      split
      · exact hr.run hG (t := .find v cs (k + 1) (some k) all) ⟨ht1.2, ht.2⟩
      · refine Sim.andThen (hr.any hi (l := []) (t := .rod la) ht1.1.1 rfl) fun st' h' => Sim.expectNext fun _ => ?_
        split
        · exact Sim.ub
        · exact Sim.ub
        · exact Sim.exc h'.inv
        · exact hr.run h'.up (t := .find v [] k (some k) all) ⟨by simp only [OkCs], ht.2⟩
        · exact hr.run h'.up (t := .find v cs (k + 1) target all) ⟨ht1.2, ht.2⟩
  | clauses cs =>
    have hG : G l st := ⟨hi, hf rfl⟩
    cases cs with
    | nil => exact Sim.ok hG
    | cons c cs =>
      obtain ⟨kind, la, b, names⟩ := c
      simp only [ST, OkCs] at ht
      refine Sim.andThen (hr.any hi (l := .switch :: l) (t := .rod b) ht.1.2 rfl) fun st' h' => Sim.ite
        (fun hs => hr.run (G.next h'.inv hs) (t := .clauses cs) ht.2) fun hs => ?_
      split
      · exact Sim.ok (G.next (h'.inv.setStatus _) rfl)
      · rename_i hb
        refine Sim.ok ⟨h'.inv, ?_⟩
        have h1 := h'.ok
        generalize st'.status = s at h1 hb
        cases s <;> simp_all [Allowed]
  | doL b neg c k =>
    have hG : G l st := ⟨hi, hf rfl⟩
    simp only [ST] at ht
    simp only [stepJump, step]
    refine Sim.andThen (hr.any hi (t := block b) ht.1 rfl) fun st' h' => ?_
    have h1 : G l (st'.setStatus (afterBody st'.status .contWhile .brkWhile).2) := h'.afterBody (.inl ⟨rfl, rfl, rfl⟩)
    refine Sim.ite (fun _ => ?_) fun _ => Sim.ok h1
    refine Sim.andThen (hr.any h1.inv (l := []) (t := .rod c) ht.2.1 rfl) fun st'' h'' =>
      Sim.expectNext fun _ => Sim.withTop fun r _ => Sim.withValue h''.inv fun v => Sim.ite (fun _ => ?_) fun _ => ?_
    · exact hr.run h''.up (t := block k) ht.2.2
    · exact hr.run h''.up (t := .doL b neg c k) ht
  | whileL neg c b k =>
    simp only [ST] at ht
    simp only [stepJump, step]
    refine Sim.andThen (hr.any hi (l := []) (t := .rod c) ht.1 rfl) fun st' h' =>
      Sim.expectNext fun _ => Sim.withTop fun r _ => Sim.withValue h'.inv fun v => Sim.ite (fun _ => ?_) fun _ => ?_
    · exact hr.run h'.up (t := block k) ht.2.2
    · refine Sim.andThen (hr.any h'.inv (t := block b) ht.2.1 rfl) fun st'' h'' => ?_
      have h1 : G l (st''.setStatus (afterBody st''.status .contWhile .brkWhile).2) := h''.afterBody (.inl ⟨rfl, rfl, rfl⟩)
      exact Sim.ite (fun _ => hr.run h1 (t := .whileL neg c b k) ht) fun _ => Sim.ok h1
  | eachInit kn mn i b k =>
    simp only [ST] at ht
    simp only [stepJump, step]
    refine Sim.andThen (hr.any hi (l := []) (t := .rod i) ht.1 rfl) fun st' h' =>
      Sim.expectNext fun _ => Sim.withTop fun r r' => ?_
    have h1 : G l ((st'.modScope fun s => { s with names := setName mn r s.names }).setStack (.invalid :: r')) :=
      G.setStack (h'.up.to (h'.inv.setName mn r) (by simp)) _
    refine Sim.withValue h1.inv fun v => ?_
    split
    · exact Sim.ok h1
    · split
      · exact Sim.exc h1.inv
      · exact hr.run h1 (t := .eachL _ kn mn r b k) ht.2
  | eachL es kn mn r b k =>
    have hG : G l st := ⟨hi, hf rfl⟩
    simp only [ST] at ht
    cases es with
    | nil => exact hr.aside hG (t := block k) ht.2
    | cons x es =>
      have h1 := hG.bindElement kn mn r x
      refine Sim.withValue h1.inv fun _ => Sim.andThen (hr.any h1.inv (t := block b) ht.1 rfl) fun st' h' => ?_
      have h2 : G l (st'.setStatus (afterBody st'.status .contFor .brkFor).2) := h'.afterBody (.inr ⟨rfl, rfl, rfl⟩)
      exact Sim.ite (fun _ => hr.run h2 (t := .eachL es kn mn r b k) ht) fun _ => Sim.ok h2
  | forInit i c s b k =>
    simp only [ST] at ht
    exact Sim.andThen (hr.any hi (l := []) (t := .rod i) ht.1 rfl) fun st' h' => Sim.expectNext fun hs =>
      hr.run h'.up (t := .forL c s b k) ht.2
  | forL c s b k =>
    simp only [ST] at ht
    simp only [stepJump, step]
    refine Sim.andThen (hr.any hi (l := []) (t := .rod c) ht.1 rfl) fun st' h' => Sim.expectNext fun _ => ?_
    have body : ∀ st', G [] st' → Sim (Q l)
        (andThen (g (block b) st') fun st =>
          if (afterBody st.status .contFor .brkFor).1 = true then
            andThen (g (.rod s) (st.setStatus (afterBody st.status .contFor .brkFor).2)) fun st =>
              expectNext st (g (.forL c s b k) st)
          else some (.ok (st.setStatus (afterBody st.status .contFor .brkFor).2)))
        (andThen (e (block b) st') fun st =>
          if (afterBody st.status .contFor .brkFor).1 = true then
            andThen (e (.rod s) (st.setStatus (afterBody st.status .contFor .brkFor).2)) fun st =>
              expectNext st (e (.forL c s b k) st)
          else some (.ok (st.setStatus (afterBody st.status .contFor .brkFor).2))) := fun st' h' => by
      refine Sim.andThen (hr.any h'.inv (t := block b) ht.2.2.1 rfl) fun st'' h'' => ?_
      have h2 : G l (st''.setStatus (afterBody st''.status .contFor .brkFor).2) := h''.afterBody (.inr ⟨rfl, rfl, rfl⟩)
      refine Sim.ite (fun _ => ?_) fun _ => Sim.ok h2
      exact Sim.andThen (hr.any h2.inv (l := []) (t := .rod s) ht.2.1 rfl) fun st3 h3 =>
        Sim.expectNext fun _ => hr.run h3.up (t := .forL c s b k) ht
    split
    · exact body st' h'
    · exact Sim.withValue h'.inv fun v => Sim.ite (fun _ => body st' h') fun _ => hr.aside h'.up (t := block k) ht.2.2.2
  | sub assign code =>
    have hG : G l st := ⟨hi, hf rfl⟩
    simp only [ST] at ht
    simp only [stepJump, step]
    split
    · exact Sim.expectNext fun _ => Sim.ok hG
    · refine Sim.ite (fun _ => ?_) fun _ => Sim.withTop fun r r' => ?_
      · refine Sim.andThen (hr.any hi (l := []) (t := .rod code) ht rfl) fun st' h' =>
          Sim.expectNext fun _ => Sim.withTop fun r r' => Sim.withValue h'.inv fun v => ?_
        split
        · exact Sim.ub
        · have h1 : ∀ w : World, G l { st' with world := w } := fun w => G.to h'.up (h'.inv.same rfl rfl rfl) rfl
          split
          · exact Sim.ok ((h1 _).setStack _)
          · exact Sim.exc (h1 _).inv
          · exact Sim.ub
      · exact Sim.up (hr.any (hi.setStack _) (l := []) (t := .rod code) ht rfl)
  | tailOrCall ptc f =>
    have hG : G l st := ⟨hi, hf rfl⟩
    simp only [stepJump, step]
    refine Sim.withTop fun r r' => Sim.ite (fun _ => ?_) fun _ => ?_
    · exact Sim.andThen (hr.run hG (t := .enter f r st.alt.reverse) trivial) fun st' h' =>
        Sim.andThen (hr.run h' (t := .check st'.result) trivial) fun st'' h'' =>
          Sim.expectNext fun _ => Sim.ok (h''.to ((h''.inv.setStack _).setAlt _) (by simp))
    · refine Sim.ok ⟨Inv.setStatus (Inv.setAlt (Inv.setStack (st := { st with ptcs := st.ptcs ++ [⟨ptc, f, r, st.alt.reverse, []⟩] })
        ⟨hi.funcs, hi.defers, ?_⟩ _) _) _, trivial⟩
      intro p hp
      rcases List.mem_append.1 hp with hp | hp
      · exact hi.ptcs p hp
      · simp only [List.mem_singleton] at hp; subst hp; simp
  | call names body =>
    simp only [ST] at ht
    simp only [stepJump, step]
    refine Sim.andThen (hr.any hi (l := []) (t := .within names (.rod body)) ht rfl) fun st' h' => ?_
    have h1 : st'.status.jump = false := by
      have := h'.ok
      generalize st'.status = s at this
      cases s <;> simp_all [Allowed, Status.jump]
    rw [h1]
    simp only [Bool.false_eq_true, if_false]
    unfold functionResult
    split
    · exact Sim.ok (G.up (h'.to (h'.inv.same rfl rfl rfl) rfl))
    · exact Sim.ok (G.up (h'.to (h'.inv.same rfl rfl rfl) rfl))
    · exact Sim.withTop fun r _ => Sim.ok (G.up (h'.to (h'.inv.same rfl rfl rfl) rfl))
    · exact Sim.exc h'.inv
  | enter f self args =>
    have hG : G l st := ⟨hi, hf rfl⟩
    simp only [stepJump, step]
    split
    · exact Sim.ub
    · split
      · exact Sim.ok (hG.to (hi.same rfl rfl rfl) rfl)
      · exact Sim.exc (hi.same rfl rfl rfl)
      · exact Sim.ub
    · rename_i ps va body hf
      split
      · exact Sim.exc hi
      · have h0 : G [] ({ st with scopes := [], stk0 := args.map fun _ => .invalid, stk1 := [], status := .next } : State P) :=
          ⟨⟨hi.funcs, by simp, hi.ptcs⟩, trivial⟩
        have h1 := hi.funcs _ (List.mem_of_getElem? hf) ps va body rfl
        exact Sim.onOut (R := Q []) (hr.run h0 (t := .call _ body) h1)
          (fun st' h' => Sim.ok (hG.to (hi.frame (G.inv h')) rfl)) (fun v st' h' => Sim.exc (hi.frame h')) trivial
  | check self =>
    have hG : G l st := ⟨hi, hf rfl⟩
    simp only [stepJump, step]
    split
    · exact Sim.andThen (hr.run hG (t := .unpack _ []) trivial) fun st' h' =>
        Sim.ite (fun _ => Sim.ok h') fun _ => Sim.exc h'.inv
    · exact Sim.ite (fun _ => Sim.ok (hG.to (hi.same rfl rfl rfl) rfl)) fun _ => Sim.exc hi
  | unpack self frames =>
    have hG : G l st := ⟨hi, hf rfl⟩
    simp only [stepJump, step]
    split
    · split
      · exact Sim.ub
      · rename_i id p hp
        exact Sim.onOut (R := Q l) (hr.run hG (t := .enter p.target p.self p.args) trivial)
          (fun st' h' => hr.run h' (t := .unpack st'.result (_ :: frames)) trivial)
          (fun v st' h' => hr.any h' (t := .framesE (_ :: frames) v) trivial rfl) trivial
    · split
      · exact Sim.ub
      · split
        · exact Sim.ub
        · have h1 : ∀ r : Ref, G l { st with result := r } := fun r => hG.to (hi.same rfl rfl rfl) rfl
          refine Sim.ite (fun _ => hr.run (h1 _) (t := .framesN _ none) trivial) fun _ => ?_
          split
          · exact hr.run (h1 _) (t := .framesN _ none) trivial
          · split
            · exact hr.run (h1 _) (t := .framesN _ (some _)) trivial
            · exact hr.any hi (t := .framesE _ message) trivial rfl
            · exact Sim.ub
  | framesN frames value =>
    have hG : G l st := ⟨hi, hf rfl⟩
    simp only [stepJump, step]
    split
    · exact Sim.ok hG
    · split
      · exact Sim.ub
      · rename_i id frames _ p hp
        have key : ∀ s : State P, G l s → s.ptcs = st.ptcs → Sim (Q l)
            (onOut (g (.exitN .invalid .next) (({ s with
              ptcs := s.ptcs.modify id fun p => { p with defers := [] },
              scopes := [⟨[], p.defers, false⟩], stk0 := [], stk1 := [], status := .next } : State P).log (.resume id)))
              (fun st' => g (.framesN frames none) ({ restore s st' with result := s.result }.log .leave))
              fun e st' => g (.framesE frames e) ((restore s st').log .leave))
            (onOut (e (.exitN .invalid .next) (({ s with
              ptcs := s.ptcs.modify id fun p => { p with defers := [] },
              scopes := [⟨[], p.defers, false⟩], stk0 := [], stk1 := [], status := .next } : State P).log (.resume id)))
              (fun st' => e (.framesN frames none) ({ restore s st' with result := s.result }.log .leave))
              fun v st' => e (.framesE frames v) ((restore s st').log .leave)) := fun s hs hp' => by
          exact Sim.onOut (R := Q []) (hr.run (hs.inv.resume (id := id) (p := p) (by rw [hp', hp]) _) (t := .exitN .invalid .next) trivial)
            (fun st' h' => hr.run (G.log (st := { restore s st' with result := s.result })
              (hs.to ((hs.inv.frame (G.inv h')).same rfl rfl rfl) rfl) _) (t := .framesN frames none) trivial)
            (fun v st' h' => hr.any (Inv.log (hs.inv.frame h') _) (t := .framesE frames v) trivial rfl) trivial
        cases p.aware <;> cases value <;> first
          | exact key st hG rfl
          | exact key { st with result := _ } (hG.to (hi.same rfl rfl rfl) rfl) rfl
  | framesE frames v =>
    simp only [stepJump, step]
    split
    · exact Sim.exc hi
    · split
      · exact Sim.ub
      · rename_i id frames _ p hp
        exact Sim.onOut (R := Q []) (hr.any (hi.resume hp _).inv (t := .exitE v) trivial rfl) (fun _ _ => Sim.ub)
          (fun v' st' h' => hr.any (Inv.log (hi.frame h') _) (t := .framesE frames v') trivial rfl) trivial

theorem tested_rec (sem : Sem P) (bad : Option (Out P)) (n : Nat) : Rec (jumpTested sem bad n) (exec sem n) := by
  induction n with
  | zero => intro l t st _ _ _; exact ⟨rfl, fun o h => by simp [exec] at h⟩
  | succ n ih => intro l t st ht hi hf; exact step_sim sem bad ih l t st ht hi hf

end Asteria.Exec.Jump
