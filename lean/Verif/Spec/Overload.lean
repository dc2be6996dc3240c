import Verif.Model.ArgReader

/-!
# What it means for an overload to fit

The parameters of an overload are a list.  The first takes the first argument, and so on.  No states, counters or texts
occur here.
-/

namespace Asteria.ArgReader.Spec

/-- `HasTy ofInt t v w`: the value `v` is of type `t`, and reads as `w`.  An integer is also a real. -/
inductive HasTy (ofInt : Int → Dbl) : Ty → Value → Value → Prop where
  | boolean b : HasTy ofInt .boolean (.bool b) (.bool b)
  | integer i : HasTy ofInt .integer (.int i) (.int i)
  | real d : HasTy ofInt .real (.real d) (.real d)
  | integral i : HasTy ofInt .real (.int i) (.real (ofInt i))
  | string s : HasTy ofInt .string (.str s) (.str s)
  | opaque i : HasTy ofInt .opaque (.opaque i) (.opaque i)
  | function i : HasTy ofInt .function (.func i) (.func i)
  | array l : HasTy ofInt .array (.arr l) (.arr l)
  | object l : HasTy ofInt .object (.obj l) (.obj l)

/-- `Takes ofInt deref p a o`: the parameter `p` takes the argument `a`, which may be missing, and receives `o`. -/
inductive Takes (ofInt : Int → Dbl) (deref : A → Res Value) : Param → Option A → Out A → Prop where
  | noReference : Takes ofInt deref .optReference none .empty
  | noValue : Takes ofInt deref .optValue none .empty
  | noArgument t : Takes ofInt deref (.opt t) none .empty
  | reference a : Takes ofInt deref .optReference (some a) (.reference a)
  | value a v : deref a = .ok v → Takes ofInt deref .optValue (some a) (.value v)
  | null a t : deref a = .ok .null → Takes ofInt deref (.opt t) (some a) .empty
  | optional a t v w : deref a = .ok v → HasTy ofInt t v w → Takes ofInt deref (.opt t) (some a) (.value w)
  | required a t v w : deref a = .ok v → HasTy ofInt t v w → Takes ofInt deref (.req t) (some a) (.value w)

/-- Every parameter takes its argument. -/
def Fits (ofInt : Int → Dbl) (deref : A → Res Value) (args : List A) (ps : List Param) : Prop :=
  ∀ (i : Nat) p, ps[i]? = some p → ∃ o, Takes ofInt deref p args[i]? o

/-- The overload accepts the arguments: every parameter takes its argument, and there are no more of them. -/
def Accepts (ofInt : Int → Dbl) (deref : A → Res Value) (args : List A) (ps : List Param) (e : Ending) : Prop :=
  Fits ofInt deref args ps ∧ (e = .fixed → args.length ≤ ps.length)

/-- What the variadic arguments are delivered as. -/
inductive Vargs (deref : A → Res Value) : Ending → List A → List (Out A) → Prop where
  | fixed l : Vargs deref .fixed l []
  | references l : Vargs deref .references l (l.map .reference)
  | values l vs : List.Forall₂ (fun a v => deref a = .ok v) l vs → Vargs deref .values l (vs.map .value)

/-- The text of an overload: the names of its parameters, and an ellipsis if it is variadic. -/
def text (ps : List Param) (e : Ending) : Bytes :=
  [44, 32].intercalate (ps.map Param.name ++ if e = .fixed then [] else [[46, 46, 46]])

/-- Where a native function is: the parameters that have been read for the current overload, whether it has been
started at all, and whether it has ended. -/
structure Trail where
  live : Bool := false
  ps : List Param := []
  ended : Bool := false

/-- The overload may still match. -/
def Trail.Viable (ofInt : Int → Dbl) (deref : A → Res Value) (args : List A) (t : Trail) : Prop :=
  t.live = true ∧ Fits ofInt deref args t.ps

/-- How it ends: the number of the overload that has been accepted, the variables and the variadic arguments, or the
texts of the overloads, none of which matched. -/
inductive Outcome (A : Type) where
  | accept (k : Nat) (vars : Nat → Out A) (vargs : List (Out A))
  | noMatch (texts : List Bytes)

/-- `Runs … ops t saved texts k vars r`: the native function, which is to make the calls `ops`, has `r` as its outcome.
`saved` are the trails that have been saved. -/
inductive Runs (ofInt : Int → Dbl) (deref : A → Res Value) (args : List A) :
    List Op → Trail → List Trail → List Bytes → Nat → (Nat → Out A) → Res (Outcome A) → Prop where
  | none t sv tx k vars : Runs ofInt deref args [] t sv tx k vars (.ok (.noMatch tx))
  | start ops t sv tx k vars r : Runs ofInt deref args ops { live := true } sv tx k vars r →
      Runs ofInt deref args (.start :: ops) t sv tx k vars r
  | takes x p ops t sv tx k vars r o : t.ended = false → t.Viable ofInt deref args →
      Takes ofInt deref p args[t.ps.length]? o →
      Runs ofInt deref args ops { t with ps := t.ps ++ [p] } sv tx k (Function.update vars x o) r →
      Runs ofInt deref args (.read x p :: ops) t sv tx k vars r
  | rejects x p ops t sv tx k vars r : t.ended = false →
      (t.Viable ofInt deref args → (∀ o, ¬ Takes ofInt deref p args[t.ps.length]? o) ∧
        ∀ a, args[t.ps.length]? = some a → ∃ v, deref a = .ok v) →
      Runs ofInt deref args ops { t with ps := t.ps ++ [p] } sv tx k (Function.update vars x .empty) r →
      Runs ofInt deref args (.read x p :: ops) t sv tx k vars r
  | throws x p ops t sv tx k vars a : t.ended = false → t.Viable ofInt deref args → p ≠ .optReference →
      args[t.ps.length]? = some a → deref a = .throw →
      Runs ofInt deref args (.read x p :: ops) t sv tx k vars .throw
  | ended x p ops t sv tx k vars : t.ended = true → Runs ofInt deref args (.read x p :: ops) t sv tx k vars .throw
  | save i ops t sv tx k vars r sv' : sv'.length = max sv.length (i + 1) → sv'[i]? = some t →
      (∀ j, j ≠ i → j < sv.length → sv'[j]? = sv[j]?) →
      (∀ j, j ≠ i → sv.length ≤ j → j < sv'.length → sv'[j]? = some {}) →
      Runs ofInt deref args ops t sv' tx k vars r → Runs ofInt deref args (.save i :: ops) t sv tx k vars r
  | load i ops t sv tx k vars r t' : sv[i]? = some t' → Runs ofInt deref args ops t' sv tx k vars r →
      Runs ofInt deref args (.load i :: ops) t sv tx k vars r
  | unsaved i ops t sv tx k vars : sv.length ≤ i → Runs ofInt deref args (.load i :: ops) t sv tx k vars .throw
  | accept e ops t sv tx k vars vargs : t.ended = false → t.live = true → Accepts ofInt deref args t.ps e →
      Vargs deref e (args.drop t.ps.length) vargs →
      Runs ofInt deref args (.fin e :: ops) t sv tx k vars (.ok (.accept k vars vargs))
  | acceptThrows ops t sv tx k vars a : t.ended = false → t.live = true → Accepts ofInt deref args t.ps .values →
      a ∈ args.drop t.ps.length → deref a = .throw →
      Runs ofInt deref args (.fin .values :: ops) t sv tx k vars .throw
  | reject e ops t sv tx k vars r : t.ended = false → ¬ (t.live = true ∧ Accepts ofInt deref args t.ps e) →
      Runs ofInt deref args ops { t with ended := true } sv (tx ++ [text t.ps e]) (k + 1) vars r →
      Runs ofInt deref args (.fin e :: ops) t sv tx k vars r
  | endedTwice e ops t sv tx k vars : t.ended = true → Runs ofInt deref args (.fin e :: ops) t sv tx k vars .throw

end Asteria.ArgReader.Spec
