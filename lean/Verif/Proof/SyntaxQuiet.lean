import Verif.Spec.Syntax

/-!
# Source in which no operand of `catch` calls a function

For such source it does not matter whether it is optimized.
-/

namespace Asteria.Syntax

open Compile

section
variable {X : Type} {o o' : Opts} {ar : X → Nat}

mutual
theorem quietU : ∀ {x : XUnit X}, WfU o ar x → QuietU x → WfU o' ar x
  | .closure _ _ _, h, q => by simp only [WfU, QuietU] at *; exact quietSs h q
  | .branch _ _, h, q => by simp only [WfU, QuietU] at *; exact quietBs h q
  | .call _, h, q => by simp only [WfU, QuietU] at *; exact quietAs h q
  | .catchE _, h, q => by simp only [WfU, QuietU] at *; exact ⟨quietUs h.1 q.1, h.2.1, .inr q.2⟩
  | .literal _, _, _ | .localRef _, _, _ | .globalRef _, _, _ | .op _ _, _, _ | .array _, _, _ | .object _, _, _
  | .checkArg _, _, _ => by simp only [WfU]
termination_by structural x => x

theorem quietUs : ∀ {x : List (XUnit X)}, WfUs o ar x → QuietUs x → WfUs o' ar x
  | [], _, _ => trivial
  | _ :: _, h, q => by simp only [WfUs, QuietUs] at *; exact ⟨quietU h.1 q.1, quietUs h.2 q.2⟩
termination_by structural x => x

theorem quietBs : ∀ {x : List (Branch X)}, WfBs o ar x → QuietBs x → WfBs o' ar x
  | [], _, _ => trivial
  | .mk _ _ :: _, h, q => by simp only [WfBs, QuietBs] at *; exact ⟨⟨quietUs h.1.1 q.1, h.1.2⟩, quietBs h.2 q.2⟩
termination_by structural x => x

theorem quietAs : ∀ {x : List (Arg X)}, WfAs o ar x → QuietAs x → WfAs o' ar x
  | [], _, _ => trivial
  | .mk _ :: _, h, q => by simp only [WfAs, QuietAs] at *; exact ⟨⟨quietUs h.1.1 q.1, h.1.2⟩, quietAs h.2 q.2⟩
termination_by structural x => x

theorem quietS : ∀ {x : Stmt X}, WfS o ar x → QuietS x → WfS o' ar x
  | .expr _, h, q => by simp only [WfS, QuietS] at *; exact ⟨quietUs h.1 q, h.2⟩
  | .block _, h, q => by simp only [WfS, QuietS] at *; exact quietSs h q
  | .vars _ _, h, q => by simp only [WfS, QuietS] at *; exact quietDs h q
  | .func _ _ _ _, h, q => by simp only [WfS, QuietS] at *; exact quietSs h q
  | .ifS _ _ _ _, h, q => by
    simp only [WfS, QuietS] at *; exact ⟨⟨quietUs h.1.1 q.1, h.1.2⟩, quietSs h.2.1 q.2.1, quietSs h.2.2 q.2.2⟩
  | .switchS _ _, h, q => by simp only [WfS, QuietS] at *; exact ⟨⟨quietUs h.1.1 q.1, h.1.2⟩, quietCs h.2 q.2⟩
  | .doWhile _ _ _ _, h, q => by
    simp only [WfS, QuietS] at *; exact ⟨quietSs h.1 q.1, ⟨quietUs h.2.1.1 q.2.1, h.2.1.2⟩, quietSs h.2.2 q.2.2⟩
  | .whileS _ _ _ _, h, q => by
    simp only [WfS, QuietS] at *; exact ⟨⟨quietUs h.1.1 q.1, h.1.2⟩, quietSs h.2.1 q.2.1, quietSs h.2.2 q.2.2⟩
  | .forEach _ _ _ _ _, h, q => by
    simp only [WfS, QuietS] at *; exact ⟨⟨quietUs h.1.1 q.1, h.1.2⟩, quietSs h.2.1 q.2.1, quietSs h.2.2 q.2.2⟩
  | .forS _ _ _ _ _, h, q => by
    simp only [WfS, QuietS] at *
    exact ⟨⟨quietSs h.1.1 q.1, h.1.2⟩, ⟨quietUs h.2.1.1 q.2.1, h.2.1.2⟩, ⟨quietUs h.2.2.1.1 q.2.2.1, h.2.2.1.2⟩,
      quietSs h.2.2.2.1 q.2.2.2.1, quietSs h.2.2.2.2 q.2.2.2.2⟩
  | .tryS _ _ _, h, q => by simp only [WfS, QuietS] at *; exact ⟨quietSs h.1 q.1, quietSs h.2 q.2⟩
  | .throwS _, h, q => by simp only [WfS, QuietS] at *; exact ⟨quietUs h.1 q, h.2⟩
  | .returnS _ _, h, q => by simp only [WfS, QuietS] at *; exact ⟨quietUs h.1 q, h.2⟩
  | .assertS _, h, q => by simp only [WfS, QuietS] at *; exact ⟨quietUs h.1 q, h.2⟩
  | .deferS _, h, q => by simp only [WfS, QuietS] at *; exact ⟨quietUs h.1 q, h.2⟩
  | .refs _, h, q => by simp only [WfS, QuietS] at *; exact quietRs h q
  | .breakS _, _, _ | .contS _, _, _ => by simp only [WfS]
termination_by structural x => x

theorem quietSs : ∀ {x : List (Stmt X)}, WfSs o ar x → QuietSs x → WfSs o' ar x
  | [], _, _ => trivial
  | _ :: _, h, q => by simp only [WfSs, QuietSs] at *; exact ⟨quietS h.1 q.1, quietSs h.2 q.2⟩
termination_by structural x => x

theorem quietCs : ∀ {x : List (SClause X)}, WfCs o ar x → QuietCs x → WfCs o' ar x
  | [], _, _ => trivial
  | .mk k _ _ _ :: _, h, q => by
    simp only [WfCs, QuietCs] at *
    exact ⟨⟨⟨quietUs h.1.1.1 q.1.1, quietUs h.1.1.2 q.1.2.1⟩, h.1.2.1, quietSs h.1.2.2 q.1.2.2⟩, quietCs h.2 q.2⟩
termination_by structural x => x

theorem quietDs : ∀ {x : List (Decl X)}, WfDs o ar x → QuietDs x → WfDs o' ar x
  | [], _, _ => trivial
  | .scalar _ _ :: _, h, q => by simp only [WfDs, QuietDs] at *; exact ⟨⟨quietUs h.1.1 q.1, h.1.2⟩, quietDs h.2 q.2⟩
  | .array _ _ :: _, h, q => by simp only [WfDs, QuietDs] at *; exact ⟨⟨quietUs h.1.1 q.1, h.1.2⟩, quietDs h.2 q.2⟩
  | .object _ _ :: _, h, q => by simp only [WfDs, QuietDs] at *; exact ⟨⟨quietUs h.1.1 q.1, h.1.2⟩, quietDs h.2 q.2⟩
termination_by structural x => x

theorem quietRs : ∀ {x : List (RefDecl X)}, WfRs o ar x → QuietRs x → WfRs o' ar x
  | [], _, _ => trivial
  | .mk _ _ :: _, h, q => by simp only [WfRs, QuietRs] at *; exact ⟨⟨quietUs h.1.1 q.1, h.1.2⟩, quietRs h.2 q.2⟩
termination_by structural x => x
end
end

end Asteria.Syntax
