import Verif.Spec.Opt
import Verif.Proof.SafeGen
import Mathlib.Data.List.Forall2

/-! Pairs of code that do the same. -/

namespace Asteria.Exec.Opt

variable {P : Type}

/-! ### The relation -/

/-- What an expression may contain: `simple` ones have no calls, `plain` ones no calls on the alternative stack. -/
inductive Mode where
  | simple | plain | any
deriving DecidableEq

/-- The code of a call whose `n` arguments have the code `A`: on the stack, or on the alternative stack. -/
def Form (n : Nat) (ptc : Ptc) (A x : List (Node P)) : Prop :=
  x = A ++ [.funcCall n ptc] ∨ x = .altClear :: (A ++ [.altCall ptc])

/-- The code that returns a constant. -/
def Ret (sem : Sem P) (v : Value) (x : List (Node P)) : Prop :=
  x = [.returnConst v] ∨ ∃ a byRef, SameCode sem 0 1 a [.pushConst v] ∧ x = a ++ [.returnS byRef false]

mutual
/-- Expressions that push `k` operands and do the same. -/
inductive E (sem : Sem P) : Mode → Nat → List (Node P) → List (Node P) → Prop
  | nil (m : Mode) : E sem m 0 [] []
  | pure {m : Mode} {k₀ k k' : Nat} {c d a b : List (Node P)} : E sem m (k₀ + k) c d → SameCode sem k k' a b →
      E sem m (k₀ + k') (c ++ a) (d ++ b)
  | loc {m : Mode} {k : Nat} {c d : List (Node P)} (dp : Nat) (n : Name) : E sem m k c d →
      E sem m (k + 1) (c ++ [.pushLocal dp n]) (d ++ [.pushLocal dp n])
  | bound {m : Mode} {k : Nat} {c d : List (Node P)} (r : Ref) : E sem m k c d →
      E sem m (k + 1) (c ++ [.pushBound r]) (d ++ [.pushBound r])
  | func {m : Mode} {k : Nat} {c d b b' : List (Node P)} (ps : List Name) (va : Bool) : E sem m k c d → Body sem b b' →
      E sem m (k + 1) (c ++ [.defineFunc ps va b]) (d ++ [.defineFunc ps va b'])
  | branch {m : Mode} {k : Nat} {c d t f t' f' : List (Node P)} (a : Bool) : E sem m (k + 1) c d → Arm sem m t t' →
      Arm sem m f f' → E sem m (k + 1) (c ++ [.branchE t f a]) (d ++ [.branchE t' f' a])
  | coal {m : Mode} {k : Nat} {c d t t' : List (Node P)} (a : Bool) : E sem m (k + 1) c d → Arm sem m t t' →
      E sem m (k + 1) (c ++ [.coalesceE t a]) (d ++ [.coalesceE t' a])
  | check {m : Mode} {k : Nat} {c d : List (Node P)} (r : Bool) : E sem m (k + 1) c d →
      E sem m (k + 1) (c ++ [.checkArg r]) (d ++ [.checkArg r])
  | call {m : Mode} {k n : Nat} {c d : List (Node P)} (ptc : Ptc) : m ≠ .simple → E sem m (k + 1 + n) c d →
      E sem m (k + 1) (c ++ [.funcCall n ptc]) (d ++ [.funcCall n ptc])
  | alt {k n : Nat} {c d A A' x y : List (Node P)} (ptc : Ptc) : E sem .any (k + 1) c d → E sem .simple n A A' →
      Form n ptc A x → Form n ptc A' y → E sem .any (k + 1) (c ++ x) (d ++ y)
  | catchE {m : Mode} {k j : Nat} {c d b b' : List (Node P)} : m ≠ .simple → E sem m k c d → E sem .plain j b b' →
      E sem m (k + 1) (c ++ [.catchE b]) (d ++ [.catchE b'])

/-- The code of a branch. -/
inductive Arm (sem : Sem P) : Mode → List (Node P) → List (Node P) → Prop
  | nil (m : Mode) : Arm sem m [] []
  | code {m : Mode} {t t' : List (Node P)} : t ≠ [] → t' ≠ [] → E sem m 1 t t' → Arm sem m t t'

/-- An expression that is executed as a whole. -/
inductive Ex (sem : Sem P) : Nat → List (Node P) → List (Node P) → Prop
  | mk {k : Nat} {c d : List (Node P)} : E sem .any k c d → Ex sem k (.clearStack :: c) (.clearStack :: d)

/-- Statements that do the same and leave the same `k` operands at the top of the stack. -/
inductive St (sem : Sem P) : Nat → List (Node P) → List (Node P) → Prop
  | nil : St sem 0 [] []
  | clear {k : Nat} {c d : List (Node P)} : St sem k c d → St sem 0 (c ++ [.clearStack]) (d ++ [.clearStack])
  | expr {k k' : Nat} {c d a b : List (Node P)} : St sem k c d → E sem .any k' a b → St sem (k + k') (c ++ a) (d ++ b)
  | pure {k₀ k k' : Nat} {c d a b : List (Node P)} : St sem (k₀ + k) c d → SameCode sem k k' a b →
      St sem (k₀ + k') (c ++ a) (d ++ b)
  | declareVar {k : Nat} {c d : List (Node P)} (n : Name) : St sem k c d →
      St sem (k + 1) (c ++ [.declareVar n]) (d ++ [.declareVar n])
  | initVar {k : Nat} {c d : List (Node P)} (imm : Bool) : St sem (k + 2) c d →
      St sem k (c ++ [.initVar imm]) (d ++ [.initVar imm])
  | defineNull {k : Nat} {c d : List (Node P)} (imm : Bool) (n : Name) : St sem k c d →
      St sem k (c ++ [.defineNull imm n]) (d ++ [.defineNull imm n])
  | declareRef {k : Nat} {c d : List (Node P)} (n : Name) : St sem k c d →
      St sem k (c ++ [.declareRef n]) (d ++ [.declareRef n])
  | initRef {k : Nat} {c d : List (Node P)} (n : Name) : St sem (k + 1) c d →
      St sem k (c ++ [.initRef n]) (d ++ [.initRef n])
  | block {k : Nat} {c d b b' : List (Node P)} : St sem k c d → Body sem b b' → St sem 0 (c ++ [.block b]) (d ++ [.block b'])
  | ifS {k : Nat} {c d t t' f f' : List (Node P)} (neg : Bool) : St sem (k + 1) c d → Body sem t t' → Body sem f f' →
      St sem 0 (c ++ [.ifS neg t f]) (d ++ [.ifS neg t' f'])
  | switchS {k : Nat} {c d : List (Node P)} {cs cs' : List (Clause P)} : St sem (k + 1) c d → Cl sem cs cs' →
      St sem 0 (c ++ [.switchS cs]) (d ++ [.switchS cs'])
  | doWhile {k : Nat} {c d b b' x x' q q' : List (Node P)} (neg : Bool) : St sem k c d → Body sem b b' → Ex sem 1 x x' →
      Body sem q q' → St sem 0 (c ++ [.doWhile b neg x q]) (d ++ [.doWhile b' neg x' q'])
  | whileS {k : Nat} {c d b b' x x' q q' : List (Node P)} (neg : Bool) : St sem k c d → Ex sem 1 x x' → Body sem b b' →
      Body sem q q' → St sem 0 (c ++ [.whileS neg x b q]) (d ++ [.whileS neg x' b' q'])
  | forEach {k : Nat} {c d b b' x x' q q' : List (Node P)} (kn : Option Name) (mn : Name) : St sem k c d → Ex sem 1 x x' →
      Body sem b b' → Body sem q q' → St sem 0 (c ++ [.forEach kn mn x b q]) (d ++ [.forEach kn mn x' b' q'])
  | forS {k j j' : Nat} {c d i i' x x' s s' b b' q q' : List (Node P)} : St sem k c d → Body sem i i' → Ex sem j x x' →
      Ex sem j' s s' → Body sem b b' → Body sem q q' → St sem 0 (c ++ [.forS i x s b q]) (d ++ [.forS i' x' s' b' q'])
  | tryS {k : Nat} {c d b b' h h' : List (Node P)} (n : Name) : St sem k c d → Body sem b b' → Body sem h h' →
      St sem 0 (c ++ [.tryS b n h]) (d ++ [.tryS b' n h'])
  | throwS {k : Nat} {c d : List (Node P)} : St sem (k + 1) c d → St sem 0 (c ++ [.throwS]) (d ++ [.throwS])
  | assertS {k : Nat} {c d : List (Node P)} : St sem (k + 1) c d → St sem 0 (c ++ [.assertS]) (d ++ [.assertS])
  | status {k : Nat} {c d : List (Node P)} (s : Status) : s ≠ .ret → St sem k c d →
      St sem 0 (c ++ [.simpleStatus s]) (d ++ [.simpleStatus s])
  | deferE {k j : Nat} {c d b b' : List (Node P)} : St sem k c d → Ex sem j b b' → St sem 0 (c ++ [.deferE b]) (d ++ [.deferE b'])
  | ret {k : Nat} {c d : List (Node P)} (r : Bool) : St sem (k + 1) c d →
      St sem 0 (c ++ [.returnS r false]) (d ++ [.returnS r false])
  | retVoid {k : Nat} {c d : List (Node P)} (r : Bool) : St sem k c d →
      St sem 0 (c ++ [.returnS r true]) (d ++ [.returnS r true])
  | retConst {k : Nat} {c d x y : List (Node P)} (v : Value) : St sem k c d → Ret sem v x → Ret sem v y →
      St sem 0 (c ++ x) (d ++ y)

/-- Statements that are executed in a context of their own. -/
inductive Body (sem : Sem P) : List (Node P) → List (Node P) → Prop
  | mk {k : Nat} {c d : List (Node P)} : St sem k c d → Body sem c d

/-- The clauses of a `switch` statement. -/
inductive Cl (sem : Sem P) : List (Clause P) → List (Clause P) → Prop
  | nil : Cl sem [] []
  | default {l l' b b' : List (Node P)} {cs cs' : List (Clause P)} (ns : List Name) : Lab sem l l' → Body sem b b' →
      Cl sem cs cs' → Cl sem (.mk .default l b ns :: cs) (.mk .default l' b' ns :: cs')
  | case {l l' b b' : List (Node P)} {cs cs' : List (Clause P)} (ns : List Name) : Ex sem 1 l l' → Body sem b b' →
      Cl sem cs cs' → Cl sem (.mk .case l b ns :: cs) (.mk .case l' b' ns :: cs')
  | each {l l' b b' : List (Node P)} {cs cs' : List (Clause P)} (lc uc : Bool) (ns : List Name) : Ex sem 2 l l' → Body sem b b' →
      Cl sem cs cs' → Cl sem (.mk (.each lc uc) l b ns :: cs) (.mk (.each lc uc) l' b' ns :: cs')

/-- The labels of a `default` clause. -/
inductive Lab (sem : Sem P) : List (Node P) → List (Node P) → Prop
  | nil : Lab sem [] []
end

/-! ### It is symmetric -/

theorem same_symm {k : Nat} {B B' : List Ref} {a b : PrimOut} (h : a.Same k B B' b) : b.Same k B' B a := by
  cases a <;> cases b <;> simp only [PrimOut.Same] at h ⊢
  · obtain ⟨rfl, Y, h1, h2, h3⟩ := h; exact ⟨rfl, Y, h1, h3, h2⟩
  · exact ⟨h.1.symm, h.2.symm⟩

theorem _root_.Asteria.Exec.SameCode.symm {sem : Sem P} {k k' : Nat} {a b : List (Node P)} (h : SameCode sem k k' a b) : SameCode sem k k' b a :=
  ⟨h.right, h.left, fun w X B B' hX => same_symm (h.same w X B' B hX)⟩

mutual
theorem E.symm {sem : Sem P} {m : Mode} {k : Nat} {c d : List (Node P)} : E sem m k c d → E sem m k d c
  | .nil _ => .nil _
  | .pure h hs => .pure h.symm hs.symm
  | .loc dp n h => .loc dp n h.symm
  | .bound r h => .bound r h.symm
  | .func ps va h hb => .func ps va h.symm hb.symm
  | .branch a h ht hf => .branch a h.symm ht.symm hf.symm
  | .coal a h ht => .coal a h.symm ht.symm
  | .check r h => .check r h.symm
  | .call ptc hm h => .call ptc hm h.symm
  | .alt ptc h hA hx hy => .alt ptc h.symm hA.symm hy hx
  | .catchE hm h hb => .catchE hm h.symm hb.symm

theorem Arm.symm {sem : Sem P} {m : Mode} {c d : List (Node P)} : Arm sem m c d → Arm sem m d c
  | .nil _ => .nil _
  | .code h1 h2 h => .code h2 h1 h.symm

theorem Ex.symm {sem : Sem P} {k : Nat} {c d : List (Node P)} : Ex sem k c d → Ex sem k d c
  | .mk h => .mk h.symm

theorem St.symm {sem : Sem P} {k : Nat} {c d : List (Node P)} : St sem k c d → St sem k d c
  | .nil => .nil
  | .clear h => .clear h.symm
  | .expr h he => .expr h.symm he.symm
  | .pure h hs => .pure h.symm hs.symm
  | .declareVar n h => .declareVar n h.symm
  | .initVar i h => .initVar i h.symm
  | .defineNull i n h => .defineNull i n h.symm
  | .declareRef n h => .declareRef n h.symm
  | .initRef n h => .initRef n h.symm
  | .block h hb => .block h.symm hb.symm
  | .ifS neg h ht hf => .ifS neg h.symm ht.symm hf.symm
  | .switchS h hc => .switchS h.symm hc.symm
  | .doWhile neg h h1 h2 h3 => .doWhile neg h.symm h1.symm h2.symm h3.symm
  | .whileS neg h h1 h2 h3 => .whileS neg h.symm h1.symm h2.symm h3.symm
  | .forEach kn mn h h1 h2 h3 => .forEach kn mn h.symm h1.symm h2.symm h3.symm
  | .forS h h1 h2 h3 h4 h5 => .forS h.symm h1.symm h2.symm h3.symm h4.symm h5.symm
  | .tryS n h h1 h2 => .tryS n h.symm h1.symm h2.symm
  | .throwS h => .throwS h.symm
  | .assertS h => .assertS h.symm
  | .status s hs h => .status s hs h.symm
  | .deferE h hb => .deferE h.symm hb.symm
  | .ret r h => .ret r h.symm
  | .retVoid r h => .retVoid r h.symm
  | .retConst v h hx hy => .retConst v h.symm hy hx

theorem Body.symm {sem : Sem P} {c d : List (Node P)} : Body sem c d → Body sem d c
  | .mk h => .mk h.symm

theorem Cl.symm {sem : Sem P} {c d : List (Clause P)} : Cl sem c d → Cl sem d c
  | .nil => .nil
  | .default ns hl hb h => .default ns hl.symm hb.symm h.symm
  | .case ns hl hb h => .case ns hl.symm hb.symm h.symm
  | .each lc uc ns hl hb h => .each lc uc ns hl.symm hb.symm h.symm

theorem Lab.symm {sem : Sem P} {c d : List (Node P)} : Lab sem c d → Lab sem d c
  | .nil => .nil
end

end Asteria.Exec.Opt
