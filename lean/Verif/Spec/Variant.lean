import Verif.Model.Variant

/-!
# What operations on variants shall do
-/

namespace Asteria.Variant.Spec

open Asteria.Variant

/-- There are alternative types, and trivial ones are copied without exceptions. -/
structure Sane (T : Sig) : Prop where
  pos : 0 < T.n
  triv : ∀ k, T.triv k = true → T.nothrow k = true

/-- A variant has an object of the alternative type that its index tells.  What has been moved away from
may have none, if its first alternative type is trivial; then this is the one. -/
def Good (T : Sig) (st : State) (i : Nat) : Prop :=
  st.idx i < T.n ∧
    ((∃ v, st.stor i = some ⟨st.idx i, v⟩) ∨ (st.stor i = none ∧ st.idx i = 0 ∧ T.triv 0 = true))

/-- All variants are so. -/
def AllGood (T : Sig) (st : State) : Prop := ∀ i, st.alive i = true → Good T st i

/-- An argument that does not belong to what is destroyed before it is read: the alternative stays, or is
kept as a backup because the new one might throw when it is constructed. -/
def Apart (T : Sig) (k : Nat) (inPlace : Prop) : Src → Prop
  | .free _ => True
  | .owned _ => inPlace ∨ T.nothrow k = false

/-- The value of an argument. -/
def arg : Src → Nat
  | .free v => v
  | .owned v => v

/-- What programs may do: construct what does not exist, use what exists, name alternatives that there are. -/
def Allowed (T : Sig) (st : State) : Cmd → Prop
  | .make d => st.alive d = false
  | .makeParam d k _ _ => st.alive d = false ∧ k < T.n
  | .makeCopy d s _ => st.alive d = false ∧ st.alive s = true
  | .makeMove d s => st.alive d = false ∧ st.alive s = true
  | .asgParam d k src _ _ => st.alive d = true ∧ k < T.n ∧ Apart T k (st.idx d = k) src
  | .asgParamMove d k src => st.alive d = true ∧ k < T.n ∧ (st.idx d = k ∨ ∃ v, src = .free v)
  | .asgCopy d s _ _ => st.alive d = true ∧ st.alive s = true
  | .asgInner d k _ _ _ => st.alive d = true ∧ k < T.n ∧ (st.idx d = k ∨ ∃ j, j < T.n ∧ T.nothrow j = false)
  | .asgMove d s => st.alive d = true ∧ st.alive s = true
  | .swap d s => st.alive d = true ∧ st.alive s = true
  | .emplace d k src _ => st.alive d = true ∧ k < T.n ∧ Apart T k False src
  | .drop d => st.alive d = true

/-- A variant exists and holds a value of an alternative type. -/
def Holds (st : State) (i k v : Nat) : Prop := st.alive i = true ∧ st.idx i = k ∧ st.stor i = some ⟨k, v⟩

/-- A variant is now what a variant was. -/
def Became (st : State) (j : Nat) (st' : State) (i : Nat) : Prop :=
  st'.alive i = true ∧ st'.idx i = st.idx j ∧ st'.stor i = st.stor j

/-- A variant is as it was. -/
def Kept (st st' : State) (i : Nat) : Prop :=
  st'.alive i = st.alive i ∧ st'.idx i = st.idx i ∧ st'.stor i = st.stor i

/-- Nothing has changed. -/
def Unchanged (st st' : State) : Prop := ∀ i, Kept st st' i

/-- Nothing has changed but perhaps some. -/
def Except (l : List Nat) (st st' : State) : Prop := ∀ i, i ∉ l → Kept st st' i

/-- What a variant is after it has been moved away from: as it was if its alternative type is trivial, and
otherwise an object of the same type with what moving leaves. -/
def MovedFrom (T : Sig) (st st' : State) (s : Nat) : Prop :=
  st'.alive s = true ∧ st'.idx s = st.idx s ∧
    if T.triv (st.idx s) = true then st'.stor s = st.stor s
    else ∃ v, st.stor s = some ⟨st.idx s, v⟩ ∧ st'.stor s = some ⟨st.idx s, T.moved (st.idx s) v⟩

/-- Its first alternative, with an indeterminate value. -/
def Emptied (st' : State) (s : Nat) : Prop := st'.alive s = true ∧ st'.idx s = 0 ∧ st'.stor s = none

/-- What each operation does; the last argument is whether it throws. -/
def Effect (T : Sig) (st st' : State) (threw : Bool) : Cmd → Prop
  | .make d => threw = false ∧ Holds st' d 0 T.dflt ∧ Except [d] st st'
  | .makeParam d k v fail => threw = (fail && !T.nothrow k) ∧
      (threw = true → Unchanged st st') ∧ (threw = false → Holds st' d k v ∧ Except [d] st st')
  | .makeCopy d s fail => threw = (fail && !T.nothrow (st.idx s)) ∧
      (threw = true → Unchanged st st') ∧ (threw = false → Became st s st' d ∧ Except [d] st st')
  | .makeMove d s => threw = false ∧ Became st s st' d ∧ Except [d, s] st st' ∧
      if T.triv 0 = true then Emptied st' s else MovedFrom T st st' s
  | .asgParam d k src fail _ => threw = (fail && !T.nothrow k) ∧
      (threw = true → st.idx d ≠ k → Unchanged st st') ∧ (threw = true → st.idx d = k → st'.idx d = k ∧ Except [d] st st') ∧
      (threw = false → Holds st' d k (arg src) ∧ Except [d] st st')
  | .asgParamMove d k src => threw = false ∧ Holds st' d k (arg src) ∧ Except [d] st st'
  | .asgCopy d s fail _ => threw = (fail && !T.nothrow (st.idx s) && !decide (d = s)) ∧
      (threw = true → st.idx d ≠ st.idx s → Unchanged st st') ∧
      (threw = true → st.idx d = st.idx s → st'.idx d = st.idx s ∧ Except [d] st st') ∧
      (threw = false → Became st s st' d ∧ Except [d] st st')
  | .asgInner d k v fail _ => threw = (fail && !T.nothrow k) ∧
      (threw = true → st.idx d ≠ k → Unchanged st st') ∧ (threw = true → st.idx d = k → st'.idx d = k ∧ Except [d] st st') ∧
      (threw = false → Holds st' d k v ∧ Except [d] st st')
  | .asgMove d s => threw = false ∧ Became st s st' d ∧ Except [d, s] st st' ∧
      (d = s ∨ if st.idx d ≠ st.idx s ∧ T.triv 0 = true then Emptied st' s else MovedFrom T st st' s)
  | .swap d s => threw = false ∧ Became st s st' d ∧ Became st d st' s ∧ Except [d, s] st st'
  | .emplace d k src fail => threw = (fail && !T.nothrow k) ∧
      (threw = true → Unchanged st st') ∧ (threw = false → Holds st' d k (arg src) ∧ Except [d] st st')
  | .drop d => threw = false ∧ st'.alive d = false ∧ Except [d] st st'

/-- What programs get to. -/
inductive Reached (T : Sig) : State → Prop
  | init (st : State) (h : ∀ i, st.alive i = false) : Reached T st
  | step {st st' : State} {threw : Bool} (h : Reached T st) (c : Cmd) (ha : Allowed T st c)
      (he : st.exec T c = .ok (st', threw)) : Reached T st'

end Asteria.Variant.Spec
