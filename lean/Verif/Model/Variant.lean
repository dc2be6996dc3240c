import Verif.Model.Basic

/-!
# `variant`: lifetimes of alternatives
-/

namespace Asteria.Variant

/-- The alternative types of a `variant`, /repo/asteria/rocket/variant.hpp:17-23: how many there are; which of
them are trivial; which of them are copied without exceptions; what a value-initialized one of the first type
is; and what moving leaves behind.

Simplification: `is_trivial` and the `is_trivially_…` traits are one. -/
structure Sig where
  n : Nat
  triv : Nat → Bool
  nothrow : Nat → Bool
  dflt : Nat
  moved : Nat → Nat → Nat

/-- `conjunction<is_nothrow_copy_constructible<altsT>...>`, variant.hpp:210. -/
def Sig.all (T : Sig) : Bool := (List.range T.n).all T.nothrow

/-- An object of an alternative type; `val` is its value. -/
structure Obj where
  alt : Nat
  val : Nat
deriving DecidableEq

/-- `m_stor`, variant.hpp:39-44: an object, or bytes without one. -/
abbrev Stor := Option Obj

/-- All variants: whether they exist, `m_index` and `m_stor`. -/
structure State where
  alive : Nat → Bool
  idx : Nat → Nat
  stor : Nat → Stor

/-- Writing to one of them. -/
def upd {α : Type} (f : Nat → α) (i : Nat) (x : α) : Nat → α := fun j => if j = i then x else f j

/-- `noadl::construct`: where there is an object that has a destructor, it would never be destroyed, which
counts as undefined behaviour here. -/
def construct (T : Sig) (k v : Nat) (s : Stor) : Res Stor :=
  match s with
  | none => .ok (some ⟨k, v⟩)
  | some o => if T.triv o.alt then .ok (some ⟨k, v⟩) else .ub

/-- `dispatch_destroy`, /repo/asteria/rocket/details/variant.ipp:265-280: nothing is done for trivial types; for others
there shall be an object of that type. -/
def destroy (T : Sig) (k : Nat) (s : Stor) : Res Stor :=
  if T.triv k then .ok s
  else match s with
    | none => .ub
    | some o => if o.alt = k then .ok none else .ub

/-- `memcpy` in the functions below, for trivial types.  Bytes without an object may be copied.  An object
with a destructor shall not be overwritten. -/
def bytes (T : Sig) (k : Nat) (d s : Stor) : Res Stor :=
  match d with
  | some o => if T.triv o.alt then (match s with
      | none => .ok none
      | some p => if p.alt = k then .ok s else .ub) else .ub
  | none => match s with
    | none => .ok none
    | some p => if p.alt = k then .ok s else .ub

/-- `dispatch_copy_construct`, variant.ipp:193-215; `fail` is whether a copy constructor that may throw does, and
`none` is that it has thrown. -/
def copyConstruct (T : Sig) (fail : Bool) (k : Nat) (d s : Stor) : Res (Option Stor) :=
  if T.triv k then (bytes T k d s).map some
  else match s with
    | none => .ub
    | some o =>
      if o.alt = k then
        if fail = true ∧ T.nothrow k = false then .ok none else (construct T k o.val d).map some
      else .ub

/-- `dispatch_move_construct`, variant.ipp:217-239: the new object and what is left. -/
def moveConstruct (T : Sig) (k : Nat) (d s : Stor) : Res (Stor × Stor) :=
  if T.triv k then (bytes T k d s).map fun d => (d, s)
  else match s with
    | none => .ub
    | some o => if o.alt = k then (construct T k o.val d).map fun d => (d, some ⟨k, T.moved k o.val⟩) else .ub

/-- `dispatch_move_then_destroy`, variant.ipp:241-263.  Simplification: bytes that are left by `memcpy` are no
object of any type any more. -/
def moveThenDestroy (T : Sig) (k : Nat) (d s : Stor) : Res (Stor × Stor) :=
  if T.triv k then (bytes T k d s).map fun d => (d, none)
  else match s with
    | none => .ub
    | some o => if o.alt = k then (construct T k o.val d).map fun d => (d, none) else .ub

/-- A local array of storages goes out of scope: an object with a destructor in it would never be destroyed. -/
def discard {α : Type} (T : Sig) (s : Stor) (x : α) : Res α :=
  match s with
  | none => .ok x
  | some o => if T.triv o.alt then .ok x else .ub

/-- Where the argument of an assignment is: elsewhere, or in something that the present alternative of the
variant owns. -/
inductive Src where
  | free (v : Nat)
  | owned (v : Nat)

/-- Reading the argument; `gone` is whether the alternative that might own it has been destroyed. -/
def Src.read (gone : Bool) : Src → Res Nat
  | .free v => .ok v
  | .owned v => if gone then .ub else .ok v

/-- What an operation leaves, and whether it has thrown. -/
abbrev Out := Res (State × Bool)

/-- `variant()`, variant.hpp:73-77. -/
def State.make (T : Sig) (st : State) (d : Nat) : Out :=
  .ok (⟨upd st.alive d true, upd st.idx d 0, upd st.stor d (some ⟨0, T.dflt⟩)⟩, false)

/-- `variant(paramT&&)`, variant.hpp:79-92. -/
def State.makeParam (T : Sig) (st : State) (d k v : Nat) (fail : Bool) : Out :=
  if fail = true ∧ T.nothrow k = false then .ok (st, true)
  else .ok (⟨upd st.alive d true, upd st.idx d k, upd st.stor d (some ⟨k, v⟩)⟩, false)

/-- `variant(const variant&)`, variant.hpp:94-105. -/
def State.makeCopy (T : Sig) (st : State) (d s : Nat) (fail : Bool) : Out :=
  (copyConstruct T fail (st.idx s) none (st.stor s)).map fun r =>
  match r with
  | none => (st, true)
  | some x => (⟨upd st.alive d true, upd st.idx d (st.idx s), upd st.stor d x⟩, false)

/-- `variant(variant&&)`, variant.hpp:107-128. -/
def State.makeMove (T : Sig) (st : State) (d s : Nat) : Out :=
  if T.triv 0 then
    (moveThenDestroy T (st.idx s) none (st.stor s)).map fun r =>
    (⟨upd st.alive d true, upd (upd st.idx d (st.idx s)) s 0, upd (upd st.stor d r.1) s r.2⟩, false)
  else
    (moveConstruct T (st.idx s) none (st.stor s)).map fun r =>
    (⟨upd st.alive d true, upd st.idx d (st.idx s), upd (upd st.stor d r.1) s r.2⟩, false)

/-- `operator=` of an object of alternative type `k`: the storage shall have one, or bytes if
it is trivial. -/
def assign (T : Sig) (k v : Nat) (s : Stor) : Res Stor :=
  match s with
  | none => if T.triv k then .ok (some ⟨k, v⟩) else .ub
  | some o => if o.alt = k then .ok (some ⟨k, v⟩) else .ub

/-- Replacing the alternative without a backup: `operator=(const paramT&)`, variant.hpp:144-150, and `emplace`,
variant.hpp:457-466. -/
def State.replaceNow (T : Sig) (st : State) (d k : Nat) (src : Src) : Out :=
  (destroy T (st.idx d) (st.stor d)).bind fun x =>
  (src.read (!T.triv (st.idx d))).bind fun v =>
  (construct T k v x).map fun x => (⟨st.alive, upd st.idx d k, upd st.stor d x⟩, false)

/-- Replacing the alternative with a backup: variant.hpp:151-169, 467-484. -/
def State.replaceKept (T : Sig) (st : State) (d k : Nat) (src : Src) (fail : Bool) : Out :=
  let old := st.idx d
  (moveThenDestroy T old none (st.stor d)).bind fun r =>
  (src.read false).bind fun v =>
  if fail then
    (moveThenDestroy T old r.2 r.1).bind fun r =>
    discard T r.2 (⟨st.alive, st.idx, upd st.stor d r.1⟩, true)
  else
    (construct T k v r.2).bind fun x =>
    (destroy T old r.1).bind fun b =>
    discard T b (⟨st.alive, upd st.idx d k, upd st.stor d x⟩, false)

/-- Replacing the alternative by one that is constructed from an argument: the two latter branches of
`operator=(const paramT&)`, variant.hpp:144-169, and of `emplace`, variant.hpp:455-484. -/
def State.replace (T : Sig) (st : State) (d k : Nat) (src : Src) (fail : Bool) : Out :=
  if T.nothrow k then st.replaceNow T d k src else st.replaceKept T d k src fail

/-- `operator=(const paramT&)`, variant.hpp:130-172.  Assignment of an object to itself or to a part of it is
left to its type; if its assignment operator throws, `left` is the value that it leaves. -/
def State.asgParam (T : Sig) (st : State) (d k : Nat) (src : Src) (fail : Bool) (left : Nat) : Out :=
  if st.idx d = k then
    (src.read false).bind fun v =>
    if fail = true ∧ T.nothrow k = false then
      (assign T k left (st.stor d)).map fun x => (⟨st.alive, st.idx, upd st.stor d x⟩, true)
    else (assign T k v (st.stor d)).map fun x => (⟨st.alive, st.idx, upd st.stor d x⟩, false)
  else st.replace T d k src fail

/-- `operator=(paramT&&)`, variant.hpp:174-195. -/
def State.asgParamMove (T : Sig) (st : State) (d k : Nat) (src : Src) : Out :=
  if st.idx d = k then
    (src.read false).bind fun v =>
    (assign T k v (st.stor d)).map fun x => (⟨st.alive, st.idx, upd st.stor d x⟩, false)
  else st.replaceNow T d k src

/-- `emplace`, variant.hpp:449-486. -/
def State.emplace (T : Sig) (st : State) (d k : Nat) (src : Src) (fail : Bool) : Out := st.replace T d k src fail

/-- `dispatch_copy_assign` and `dispatch_move_assign`, variant.ipp:282-336, where the value is `v` and the
source is not the destination; trivial types are copied as bytes. -/
def assignFrom (T : Sig) (k v : Nat) (d s : Stor) : Res Stor := if T.triv k then bytes T k d s else assign T k v d

/-- The value in a storage that has an object of type `k`. -/
def valueOf (T : Sig) (k : Nat) (s : Stor) : Res Nat :=
  match s with
  | none => if T.triv k then .ok 0 else .ub
  | some o => if o.alt = k then .ok o.val else .ub

/-- `operator=(const variant&)`, variant.hpp:197-239.  If the type of both
alternatives is the same and its assignment operator throws, `left` is the value that it leaves. -/
def State.asgCopy (T : Sig) (st : State) (d s : Nat) (fail : Bool) (left : Nat) : Out :=
  let old := st.idx d
  let new := st.idx s
  if old = new then
    if d = s then .ok (st, false)
    else
      (valueOf T new (st.stor s)).bind fun v =>
      if fail = true ∧ T.nothrow new = false then
        (assign T new left (st.stor d)).map fun x => (⟨st.alive, st.idx, upd st.stor d x⟩, true)
      else (assignFrom T new v (st.stor d) (st.stor s)).map fun x => (⟨st.alive, st.idx, upd st.stor d x⟩, false)
  else if T.all then
    (destroy T old (st.stor d)).bind fun x =>
    (copyConstruct T fail new x (st.stor s)).bind fun r =>
    match r with
    | none => .ub
    | some x => .ok (⟨st.alive, upd st.idx d new, upd st.stor d x⟩, false)
  else
    (moveThenDestroy T old none (st.stor d)).bind fun b =>
    (copyConstruct T fail new b.2 (st.stor s)).bind fun r =>
    match r with
    | none =>
      (moveThenDestroy T old b.2 b.1).bind fun b =>
      discard T b.2 (⟨st.alive, st.idx, upd st.stor d b.1⟩, true)
    | some x =>
      (destroy T old b.1).bind fun b => discard T b (⟨st.alive, upd st.idx d new, upd st.stor d x⟩, false)

/-- `operator=(const variant&)`, variant.hpp:197-239, where the other variant is in something that the present
alternative owns, and holds `v` of alternative type `k`. -/
def State.asgInner (T : Sig) (st : State) (d k v : Nat) (fail : Bool) (left : Nat) : Out :=
  if st.idx d = k then st.asgParam T d k (.owned v) fail left
  else if T.all then st.replaceNow T d k (.owned v)
  else st.replaceKept T d k (.owned v) (fail && !T.nothrow k)

/-- `operator=(variant&&)`, variant.hpp:241-273. -/
def State.asgMove (T : Sig) (st : State) (d s : Nat) : Out :=
  let old := st.idx d
  let new := st.idx s
  if old = new then
    if d = s then .ok (st, false)
    else
      (valueOf T new (st.stor s)).bind fun v =>
      (assignFrom T new v (st.stor d) (st.stor s)).map fun x =>
      (⟨st.alive, st.idx, upd (upd st.stor d x) s (if T.triv new then st.stor s else some ⟨new, T.moved new v⟩)⟩, false)
  else if T.triv 0 then
    (destroy T old (st.stor d)).bind fun x =>
    (moveThenDestroy T new x (st.stor s)).map fun r =>
    (⟨st.alive, upd (upd st.idx d new) s 0, upd (upd st.stor d r.1) s r.2⟩, false)
  else
    (destroy T old (st.stor d)).bind fun x =>
    (moveConstruct T new x (st.stor s)).map fun r =>
    (⟨st.alive, upd st.idx d new, upd (upd st.stor d r.1) s r.2⟩, false)

/-- `swap`, variant.hpp:275-302. -/
def State.swap (T : Sig) (st : State) (d s : Nat) : Out :=
  let old := st.idx d
  let new := st.idx s
  if old = new then
    if d = s then .ok (st, false)
    else
      (valueOf T old (st.stor d)).bind fun _ =>
      (valueOf T old (st.stor s)).map fun _ =>
      (⟨st.alive, st.idx, upd (upd st.stor d (st.stor s)) s (st.stor d)⟩, false)
  else
    (moveThenDestroy T old none (st.stor d)).bind fun b =>
    (moveThenDestroy T new b.2 (st.stor s)).bind fun c =>
    (moveThenDestroy T old c.2 b.1).bind fun e =>
    discard T e.2 (⟨st.alive, upd (upd st.idx d new) s old, upd (upd st.stor d c.1) s e.1⟩, false)

/-- `~variant`, variant.hpp:304-315. -/
def State.drop (T : Sig) (st : State) (d : Nat) : Out :=
  (destroy T (st.idx d) (st.stor d)).bind fun x =>
  discard T x (⟨upd st.alive d false, st.idx, upd st.stor d none⟩, false)

/-- The operations. -/
inductive Cmd where
  | make (d : Nat)
  | makeParam (d k v : Nat) (fail : Bool)
  | makeCopy (d s : Nat) (fail : Bool)
  | makeMove (d s : Nat)
  | asgParam (d k : Nat) (src : Src) (fail : Bool) (left : Nat)
  | asgParamMove (d k : Nat) (src : Src)
  | asgCopy (d s : Nat) (fail : Bool) (left : Nat)
  | asgInner (d k v : Nat) (fail : Bool) (left : Nat)
  | asgMove (d s : Nat)
  | swap (d s : Nat)
  | emplace (d k : Nat) (src : Src) (fail : Bool)
  | drop (d : Nat)

/-- One operation, variant.hpp:72-315, 449-486. -/
def State.exec (T : Sig) (st : State) : Cmd → Out
  | .make d => st.make T d
  | .makeParam d k v fail => st.makeParam T d k v fail
  | .makeCopy d s fail => st.makeCopy T d s fail
  | .makeMove d s => st.makeMove T d s
  | .asgParam d k src fail left => st.asgParam T d k src fail left
  | .asgParamMove d k src => st.asgParamMove T d k src
  | .asgCopy d s fail left => st.asgCopy T d s fail left
  | .asgInner d k v fail left => st.asgInner T d k v fail left
  | .asgMove d s => st.asgMove T d s
  | .swap d s => st.swap T d s
  | .emplace d k src fail => st.emplace T d k src fail
  | .drop d => st.drop T d

/-- `as`, variant.hpp:387-396: throws if the alternative is another one; `none` is an indeterminate value. -/
def State.get (st : State) (s k : Nat) : Res (Option Nat) :=
  if st.idx s ≠ k then .throw
  else match st.stor s with
    | none => .ok none
    | some o => if o.alt = k then .ok (some o.val) else .ub

end Asteria.Variant
