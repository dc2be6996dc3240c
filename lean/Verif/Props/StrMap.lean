import Verif.Proof.StrMap
import Verif.Props.CowString

/-!
# C117: `std.string.to_upper`, `to_lower` and `translate`
-/

namespace Asteria.StrMap

open CowString CowString.Heap Spec.StrMap

/-- The texts after `copy`. -/
theorem copy_step {c : Cfg} (hc : c.Good) {S : State} {env : List Bytes} (hi : Inv S env) {r t : Nat} (hr : r < env.length) {l : Bytes} (hl : env[t]? = some l) :
    ∃ S', S.step c (.copy r t) = .ok S' ∧ Inv S' (env.set r l) := by
  have h := agrees hc hi (.copy r t) trivial
  unfold Agrees Op.spec at h
  dsimp only at h
  rw [textOf_of (List.getElem?_eq_getElem hr), Res.ok_bind, textOf_of hl, Res.ok_bind] at h
  rcases h with ⟨_, h⟩ | ⟨S', e, k, _⟩
  · exact h.elim
  · exact ⟨S', e, k⟩

theorem case_gen {c : Cfg} (hc : c.Good) {S : State} {env : List Bytes} (hi : Inv S env) (f : UInt8 → UInt8) {r t : Nat} (hr : r < env.length) {l : Bytes}
    (hl : env[t]? = some l) : (mapCase c f S r t = .throw ∧ c.limit < l.length) ∨
    ∃ S', mapCase c f S r t = .ok S' ∧ Inv S' (env.set r (l.map f)) := by
  obtain ⟨S1, e, hi1⟩ := copy_step hc hi hr hl
  have hl1 : (env.set r l)[r]? = some l := List.getElem?_set_self hr
  obtain ⟨s, hs⟩ := hi1.str hl1
  have hlen := (hi1.view r s l hs hl1).len
  have := caseLoop_spec hc f r s.len S1 (env.set r l) none [] l hi1 hl1 hlen nofun
  rw [List.set_set] at this
  unfold mapCase
  rw [e, Res.ok_bind, str_of hs, Res.ok_bind]
  exact this

/-- **C117 (`to_upper`).** In every state of the strings of a program, `to_upper` of string `t` makes a string with each of the
characters from `a` to `z` replaced by its counterpart; no other string changes, even if it shares storage with it.  The only
exception is for a text that is longer than the limit. -/
theorem C117_to_upper (c : Cfg) (hc : c.Good) (S : State) (env : List Bytes) (hi : Inv S env) (r t : Nat) (hr : r < env.length) (l : Bytes)
    (hl : env[t]? = some l) : (mapCase c toUpper S r t = .throw ∧ c.limit < l.length) ∨
    ∃ S', mapCase c toUpper S r t = .ok S' ∧ Inv S' (env.set r (l.map upper)) := by
  have := case_gen hc hi toUpper hr hl
  rwa [funext toUpper_spec] at this ⊢

/-- **C117 (`to_lower`).** Likewise. -/
theorem C117_to_lower (c : Cfg) (hc : c.Good) (S : State) (env : List Bytes) (hi : Inv S env) (r t : Nat) (hr : r < env.length) (l : Bytes)
    (hl : env[t]? = some l) : (mapCase c toLower S r t = .throw ∧ c.limit < l.length) ∨
    ∃ S', mapCase c toLower S r t = .ok S' ∧ Inv S' (env.set r (l.map lower)) := by
  have := case_gen hc hi toLower hr hl
  rwa [funext toLower_spec] at this ⊢

/-- **C117 (`translate`).** In every state of the strings of a program, `translate(text, inputs, outputs)` makes a string in which each
character of the text that is in `inputs` is replaced by the one at its first place there in `outputs`, or removed if there is
none; no other string changes, even if strings share storage.  The pointer got from `mut_data()` remains valid when characters
are erased. -/
theorem C117_translate (c : Cfg) (hc : c.Good) (S : State) (env : List Bytes) (hi : Inv S env) (r t u : Nat) (hr : r < env.length) (l inp : Bytes)
    (hl : env[t]? = some l) (hu : env[u]? = some inp) (hru : r ≠ u) (hin : inp.length < 2 ^ 64) (o : Option Nat) (out : Option Bytes)
    (ho : (o = none ∧ out = none) ∨ ∃ v k, o = some v ∧ out = some k ∧ r ≠ v ∧ env[v]? = some k) :
    (translate c S r t u o = .throw ∧ c.limit < l.length) ∨
    ∃ S', translate c S r t u o = .ok S' ∧ Inv S' (env.set r (l.flatMap (image inp out))) := by
  obtain ⟨S1, e, hi1⟩ := copy_step hc hi hr hl
  have hl1 : (env.set r l)[r]? = some l := List.getElem?_set_self hr
  obtain ⟨s, hs⟩ := hi1.str hl1
  have hlen := (hi1.view r s l hs hl1).len
  have hp : Params env r u o inp out := ⟨hru, hu, ho⟩
  have := trLoop_spec hc r u o inp out hin s.len S1 (env.set r l) none [] l hi1 (hp.set l) hl1 hlen nofun
  rw [List.set_set] at this
  unfold translate
  rw [e, Res.ok_bind, str_of hs, Res.ok_bind]
  exact this

/-! A case: `text` is a proper end of a string, taken with `substr`, and shares its storage with it; `inputs` is the same string
as `text`; the result is another one. -/

/-- After `a.append("hello world")`, `b = a.substr(6)`, and `c` from a literal `"WO"`, with `d` still empty: a state with these
texts. -/
theorem demo : ∃ S, State.run cfg64 [.append 0 (.ext hello), .substr 1 0 6 5, .literal 2 [87, 79]] (State.start 4) = .ok S ∧
    Inv S [hello, [119, 111, 114, 108, 100], [87, 79], []] := by
  have hc : cfg64.Good := by unfold cfg64 Cfg.Good; norm_num
  obtain ⟨_, h1⟩ := C115_step_partial hc (inv_start 4) (.append 0 (.ext hello)) (by
    intro _ s hs p b hp
    cases hs
    cases hp)
  rcases h1 [hello, [], [], []] rfl with ⟨_, l, bs, k1, k2, k3⟩ | ⟨S1, e1, i1⟩
  · exfalso
    cases k1; cases k2
    revert k3
    decide +kernel
  obtain ⟨_, h2⟩ := C115_step_partial hc i1 (.substr 1 0 6 5) trivial
  rcases h2 [hello, [119, 111, 114, 108, 100], [], []] rfl with ⟨_, k⟩ | ⟨S2, e2, i2⟩
  · exfalso
    revert k
    show ¬ (cfg64.limit < 5)
    decide +kernel
  obtain ⟨_, h3⟩ := C115_step_partial hc i2 (.literal 2 [87, 79]) trivial
  rcases h3 [hello, [119, 111, 114, 108, 100], [87, 79], []] rfl with ⟨_, k⟩ | ⟨S3, e3, i3⟩
  · exact k.elim
  refine ⟨S3, ?_, i3⟩
  simp only [State.run]
  rw [e1, Res.ok_bind, e2, Res.ok_bind, e3, Res.ok_bind]

/-- `d = std.string.translate(b, b, c)` is `"WO"`, as `r`, `l` and `d` are removed, and then `a` and `b` are as before. -/
example : ∃ S S', State.run cfg64 [.append 0 (.ext hello), .substr 1 0 6 5, .literal 2 [87, 79]] (State.start 4) = .ok S ∧
    translate cfg64 S 3 1 1 (some 2) = .ok S' ∧ S'.text 3 = .ok [87, 79, 0] ∧ S'.text 0 = .ok (hello ++ [0]) ∧
    S'.text 1 = .ok [119, 111, 114, 108, 100, 0] := by
  obtain ⟨S, e, hi⟩ := demo
  have hc : cfg64.Good := by unfold cfg64 Cfg.Good; norm_num
  rcases C117_translate cfg64 hc S _ hi 3 1 1 (by decide) _ _ rfl rfl (by decide) (by decide) (some 2) (some [87, 79])
    (.inr ⟨2, _, rfl, rfl, by decide, rfl⟩) with ⟨_, k⟩ | ⟨S', e', hi'⟩
  · exfalso; revert k; decide +kernel
  · exact ⟨S, S', e, e', C115_text (l := [87, 79]) hi' rfl, C115_text hi' rfl,
      C115_text (l := [119, 111, 114, 108, 100]) hi' rfl⟩

example : ∃ S S', State.run cfg64 [.append 0 (.ext hello), .substr 1 0 6 5, .literal 2 [87, 79]] (State.start 4) = .ok S ∧
    mapCase cfg64 toUpper S 3 1 = .ok S' ∧ S'.text 3 = .ok [87, 79, 82, 76, 68, 0] ∧ S'.text 0 = .ok (hello ++ [0]) := by
  obtain ⟨S, e, hi⟩ := demo
  have hc : cfg64.Good := by unfold cfg64 Cfg.Good; norm_num
  rcases C117_to_upper cfg64 hc S _ hi 3 1 (by decide) _ rfl with ⟨_, k⟩ | ⟨S', e', hi'⟩
  · exfalso; revert k; decide +kernel
  · exact ⟨S, S', e, e', C115_text (l := [87, 79, 82, 76, 68]) hi' (by decide +kernel), C115_text hi' rfl⟩

end Asteria.StrMap
