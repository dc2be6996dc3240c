import Verif.Proof.CowStringState
import Mathlib.Tactic.NormNum

/-!
# C115: strings that share storage behave as independent values

They do not: see `C115_false`.  What holds is stated first.
-/

namespace Asteria.CowString

open Heap

/-! ### What excludes the exceptions -/

/-- The capacity of string `v`. -/
def State.cap (S : State) (v : Nat) : Nat :=
  match S.vec[v]? with
  | some s => S.heap.capOf s.sth
  | none => 0

/-- The reason for a `length_error`: `max_size()` is less than the number of characters asked for, together with the spare
capacity that the function tries to allocate. -/
def Op.tooLong (c : Cfg) (S : State) (env : List Bytes) : Op → Prop
  | .append v src | .replace v _ _ src => ∃ l bs, env[v]? = some l ∧ src.value env = .ok bs ∧
      c.limit < l.length + (bs.length ||| S.cap v / 2)
  | .fill v n _ | .replaceFill v _ _ n _ => ∃ l, env[v]? = some l ∧ c.limit < l.length + (n ||| S.cap v / 2)
  | .appendSP v as => ∃ l, env[v]? = some l ∧ (c.limit < l.length + (17 ||| S.cap v / 2) ∨
      c.limit < (l.length + as.length) + (l.length + as.length) / 2)
  | .popBack v n => ∃ l, env[v]? = some l ∧ c.limit < l.length - n
  | .substr _ _ _ tn => c.limit < tn
  | .setChar v _ _ | .shrink v => ∃ l, env[v]? = some l ∧ c.limit < l.length
  | .resize v n _ => ∃ l, env[v]? = some l ∧ (c.limit < l.length + ((n - l.length) ||| S.cap v / 2) ∨ c.limit < n)
  | .reserve v n => ∃ l, env[v]? = some l ∧ c.limit < maxNchar c (minNblk c (max l.length n))
  | _ => False

/-- The operations that store characters without looking at where the text is need it at the beginning of the block, if the
string alone refers to the block. -/
def Op.fair (S : State) (env : List Bytes) : Op → Prop
  | .append v src | .replace v _ _ src => src.value env ≠ .ok [] → ∀ s, S.vec[v]? = some s → S.heap.Aligned s
  | .fill v n _ | .replaceFill v _ _ n _ => n ≠ 0 → ∀ s, S.vec[v]? = some s → S.heap.Aligned s
  | .popBack v _ | .resize v _ _ => ∀ s, S.vec[v]? = some s → S.heap.Aligned s
  | _ => True

/-- The operations that do not make a text elsewhere than at the beginning of a block: no reference to a literal is assigned
to a string, and no proper end of a string is taken with `substr`. -/
def Op.tame (env : List Bytes) : Op → Prop
  | .shallow _ b => b = []
  | .substr _ w tpos tn => ∀ l, env[w]? = some l → tpos = 0 ∨ tpos = l.length ∨ tpos + tn < l.length
  | _ => True

/-! ### One operation -/

/-- An operation does what it does to independent texts, or throws an exception because of a length. -/
def Agrees (c : Cfg) (S : State) (env : List Bytes) (op : Op) : Prop :=
  match op.spec env with
  | .ub => True
  | .throw => S.step c op = .throw
  | .ok env' => Outcome S env' (op.tooLong c S env) (op.tame env) (S.step c op)

theorem Outcome.imp {S : State} {env' : List Bytes} {why why' tame tame' : Prop} {r : Res State} (h : Outcome S env' why tame r)
    (hw : why → why') (ht : tame' → tame) : Outcome S env' why' tame' r := by
  rcases h with ⟨e, w⟩ | ⟨S', e, hi, hs⟩
  · exact .inl ⟨e, hw w⟩
  · exact .inr ⟨S', e, hi, fun t => hs (ht t)⟩

theorem cap_of {S : State} {v : Nat} {s : Str} (h : S.vec[v]? = some s) : S.cap v = S.heap.capOf s.sth := by
  unfold State.cap; rw [h]

theorem set_same {env : List Bytes} {v : Nat} {l : Bytes} (h : env[v]? = some l) : env.set v l = env := by
  obtain ⟨h1, h2⟩ := List.getElem?_eq_some_iff.1 h
  rw [← h2]; exact List.set_getElem_self h1

theorem agrees {c : Cfg} (hc : c.Good) {S : State} {env : List Bytes} (hi : Inv S env) (op : Op) (hfair : op.fair S env) : Agrees c S env op := by
  unfold Agrees
  cases op with
  | literal v b =>
    unfold Op.spec update State.step
    dsimp only
    cases hl : env[v]? with
    | none => trivial
    | some l =>
      obtain ⟨s, hs⟩ := hi.str hl
      obtain ⟨H', e, hu, hv⟩ := drop_spec (hi.view v s l hs hl) b
      rw [str_of hs, Res.ok_bind, e]
      exact .inr ⟨_, rfl, hi.upd hs hl hu hv, fun _ h => h.set hs (x := ⟨.lit b, b.length, none⟩) (fun _ => .inr nofun) H'⟩
  | shallow v b =>
    unfold Op.spec update State.step
    dsimp only
    cases hl : env[v]? with
    | none => trivial
    | some l =>
      obtain ⟨s, hs⟩ := hi.str hl
      have hv := hi.view v s l hs hl
      rw [str_of hs]
      refine .inr ⟨_, rfl, hi.upd hs hl (s' := ⟨.lit b, b.length, s.sth⟩) .same ⟨rfl, hv.has, fun t h => by cases h; rfl, nofun⟩, fun ht h => ?_⟩
      refine h.set hs (fun _ => .inl ?_) S.heap
      have : b = [] := ht
      subst this; rfl
  | copy v w =>
    unfold Op.spec State.step
    dsimp only
    cases hl : env[v]? with
    | none => unfold textOf; rw [hl]; trivial
    | some l =>
      cases hlw : env[w]? with
      | none => rw [textOf_of hl, Res.ok_bind]; unfold textOf; rw [hlw]; trivial
      | some lw =>
        obtain ⟨s, hs⟩ := hi.str hl
        obtain ⟨t, ht⟩ := hi.str hlw
        rw [textOf_of hl, textOf_of hlw, str_of hs, str_of ht]
        dsimp only [Res.ok_bind]
        obtain ⟨H', e, hi'⟩ := hi.share hs hl ht hlw (hi.view w t lw ht hlw) rfl
        rw [e]
        exact .inr ⟨_, rfl, hi', fun _ h => h.set hs (fun _ => h t (List.mem_of_getElem? ht)) H'⟩
  | move v w =>
    unfold Op.spec State.step
    dsimp only
    cases hl : env[v]? with
    | none => unfold textOf; rw [hl]; trivial
    | some l =>
      cases hlw : env[w]? with
      | none => rw [textOf_of hl, Res.ok_bind]; unfold textOf; rw [hlw]; trivial
      | some lw =>
        obtain ⟨s, hs⟩ := hi.str hl
        obtain ⟨t, ht⟩ := hi.str hlw
        rw [textOf_of hl, textOf_of hlw, str_of hs, str_of ht]
        dsimp only [Res.ok_bind, Res.map]
        by_cases hvw : v = w
        · rw [if_pos hvw, if_pos hvw]
          exact .inr ⟨S, rfl, hi, fun _ h => h⟩
        · rw [if_neg hvw, if_neg hvw]
          refine .inr ⟨_, rfl, hi.exchange hs ht hvw rfl rfl (hi.view w t lw ht hlw)
            ⟨rfl, (hi.view v s l hs hl).has, fun t h => by cases h; rfl, nofun⟩, fun _ h => ?_⟩
          intro x hx
          rcases List.mem_or_eq_of_mem_set hx with h1 | h1
          · rcases List.mem_or_eq_of_mem_set h1 with h2 | h2
            · exact h x h2
            · subst h2; exact h x (List.mem_of_getElem? ht)
          · subst h1; exact .inl rfl
  | swap v w =>
    unfold Op.spec State.step
    dsimp only
    cases hl : env[v]? with
    | none => unfold textOf; rw [hl]; trivial
    | some l =>
      cases hlw : env[w]? with
      | none => rw [textOf_of hl, Res.ok_bind]; unfold textOf; rw [hlw]; trivial
      | some lw =>
        obtain ⟨s, hs⟩ := hi.str hl
        obtain ⟨t, ht⟩ := hi.str hlw
        rw [textOf_of hl, textOf_of hlw, str_of hs, str_of ht]
        dsimp only [Res.ok_bind, Res.map]
        refine .inr ⟨_, rfl, ?_, fun _ h => ?_⟩
        · by_cases hvw : v = w
          · subst hvw
            rw [hs] at ht
            cases ht
            rw [hl] at hlw
            cases hlw
            rw [List.set_set, List.set_set, set_same hl]
            obtain ⟨h1, h2⟩ := List.getElem?_eq_some_iff.1 hs
            rw [← h2, List.set_getElem_self h1]
            exact hi
          · exact hi.exchange hs ht hvw rfl rfl (hi.view w t lw ht hlw) (hi.view v s l hs hl)
        · intro x hx
          rcases List.mem_or_eq_of_mem_set hx with h1 | h1
          · rcases List.mem_or_eq_of_mem_set h1 with h2 | h2
            · exact h x h2
            · subst h2; exact h x (List.mem_of_getElem? ht)
          · subst h1; exact h x (List.mem_of_getElem? hs)
  | append v src =>
    unfold Op.spec State.step
    dsimp only
    cases hl : env[v]? with
    | none => unfold textOf; rw [hl]; trivial
    | some l =>
      obtain ⟨s, hs⟩ := hi.str hl
      rw [textOf_of hl, str_of hs, Res.ok_bind, Res.ok_bind]
      rcases hi.src src with e | ⟨e, e'⟩ | ⟨bs, q, off, e, e', hr⟩
      · rw [e]; trivial
      · rw [e, e']; rfl
      · rw [e, e']
        dsimp only [Res.ok_bind]
        refine (hi.out hs hl (append_spec hc hi.fresh (hi.view v s l hs hl) (fetches_read hr) rfl fun h0 =>
          hfair (by rw [e]; intro he; cases he; exact h0 rfl) s hs)).imp (fun h => ?_) fun _ => trivial
        exact ⟨l, bs, hl, e, by rw [cap_of hs]; exact h⟩
  | fill v n a =>
    unfold Op.spec update State.step
    dsimp only
    cases hl : env[v]? with
    | none => trivial
    | some l =>
      obtain ⟨s, hs⟩ := hi.str hl
      rw [str_of hs, Res.ok_bind]
      refine (hi.out hs hl (append_spec hc hi.fresh (hi.view v s l hs hl) (fetches_const _ _) (List.length_replicate ..) fun h0 =>
          hfair h0 s hs)).imp (fun h => ?_) fun _ => trivial
      exact ⟨l, hl, by rw [cap_of hs]; exact h⟩
  | appendSP v as =>
    unfold Op.spec update State.step
    dsimp only
    cases hl : env[v]? with
    | none => trivial
    | some l =>
      obtain ⟨s, hs⟩ := hi.str hl
      rw [str_of hs, Res.ok_bind]
      refine (hi.out hs hl (appendSP_spec hc hi.fresh (hi.view v s l hs hl))).imp (fun h => ?_) fun _ => trivial
      exact ⟨l, hl, by rw [cap_of hs]; exact h⟩
  | replace v tpos tn src =>
    unfold Op.spec State.step
    dsimp only
    cases hl : env[v]? with
    | none => unfold textOf; rw [hl]; trivial
    | some l =>
      obtain ⟨s, hs⟩ := hi.str hl
      have hlen := (hi.view v s l hs hl).len
      rw [textOf_of hl, str_of hs, Res.ok_bind, Res.ok_bind]
      rcases hi.src src with e | ⟨e, e'⟩ | ⟨bs, q, off, e, e', hr⟩
      · rw [e]; trivial
      · rw [e, e']; rfl
      · rw [e, e']
        dsimp only [Res.ok_bind]
        unfold replaced
        by_cases ht : tpos ≤ l.length
        · rw [if_pos ht]
          dsimp only [Res.map]
          refine (hi.replace hc hs hl (fetches_read hr) rfl (fun h0 =>
            hfair (by rw [e]; intro he; cases he; exact h0 rfl) s hs) ht).imp (fun h => ?_) fun _ => trivial
          refine ⟨l, bs, hl, e, ?_⟩
          rw [cap_of hs]
          have : bs.length ≤ bs.length ||| S.heap.capOf s.sth / 2 := Nat.left_le_or
          omega
        · rw [if_neg ht]
          unfold Heap.replace
          rw [if_pos (by omega)]
          rfl
  | replaceFill v tpos tn n a =>
    unfold Op.spec update State.step
    dsimp only
    cases hl : env[v]? with
    | none => trivial
    | some l =>
      obtain ⟨s, hs⟩ := hi.str hl
      have hlen := (hi.view v s l hs hl).len
      rw [str_of hs, Res.ok_bind]
      unfold replaced
      dsimp only
      by_cases ht : tpos ≤ l.length
      · rw [if_pos ht]
        dsimp only [Res.map]
        refine (hi.replace hc hs hl (fetches_const _ _) (List.length_replicate ..) (fun h0 => hfair h0 s hs) ht).imp (fun h => ?_) fun _ => trivial
        refine ⟨l, hl, ?_⟩
        rw [cap_of hs]
        have : n ≤ n ||| S.heap.capOf s.sth / 2 := Nat.left_le_or
        omega
      · rw [if_neg ht]
        unfold Heap.replace
        rw [if_pos (by omega)]
        rfl
  | popBack v n =>
    unfold Op.spec update State.step
    dsimp only
    cases hl : env[v]? with
    | none => trivial
    | some l =>
      obtain ⟨s, hs⟩ := hi.str hl
      rw [str_of hs, Res.ok_bind]
      dsimp only
      by_cases hn : n ≤ l.length
      · rw [if_pos hn]
        refine (hi.out hs hl (popBack_spec hc hi.fresh (hi.view v s l hs hl) hn (hfair s hs))).imp (fun h => ?_) fun _ => trivial
        exact ⟨l, hl, h⟩
      · rw [if_neg hn]; trivial
  | substr v w tpos tn =>
    unfold Op.spec State.step
    dsimp only
    cases hl : env[v]? with
    | none => unfold textOf; rw [hl]; trivial
    | some l =>
      cases hlw : env[w]? with
      | none => rw [textOf_of hl, Res.ok_bind]; unfold textOf; rw [hlw]; trivial
      | some lw =>
        obtain ⟨s, hs⟩ := hi.str hl
        obtain ⟨t, ht⟩ := hi.str hlw
        have hlen := (hi.view w t lw ht hlw).len
        rw [textOf_of hl, textOf_of hlw, str_of hs, str_of ht]
        dsimp only [Res.ok_bind]
        unfold part
        by_cases hp : tpos ≤ lw.length
        · rw [if_pos hp]
          dsimp only [Res.map]
          exact (hi.substr hc hs hl ht hlw hp).imp (fun h => h) fun h => h lw hlw
        · rw [if_neg hp]
          unfold Heap.substr
          rw [if_pos (by omega)]
          rfl
  | setChar v pos a =>
    unfold Op.spec update State.step
    dsimp only
    cases hl : env[v]? with
    | none => trivial
    | some l =>
      obtain ⟨s, hs⟩ := hi.str hl
      have hlen := (hi.view v s l hs hl).len
      rw [str_of hs, Res.ok_bind]
      dsimp only
      by_cases hp : pos < l.length
      · rw [if_pos hp]
        refine (hi.out hs hl (setChar_spec hc hi.fresh (hi.view v s l hs hl) hp a)).imp (fun h => ?_) fun _ => trivial
        exact ⟨l, hl, h⟩
      · rw [if_neg hp]
        unfold Heap.setChar
        rw [if_pos (by omega)]
        rfl
  | resize v n a =>
    unfold Op.spec update State.step
    dsimp only
    cases hl : env[v]? with
    | none => trivial
    | some l =>
      obtain ⟨s, hs⟩ := hi.str hl
      have hv := hi.view v s l hs hl
      have hlen := hv.len
      rw [str_of hs, Res.ok_bind]
      unfold Heap.resize
      dsimp only [Res.map]
      by_cases hn : s.len < n
      · rw [if_pos hn, List.take_of_length_le (by omega), ← hlen]
        refine (hi.out hs hl (append_spec hc hi.fresh hv (fetches_const _ _) (List.length_replicate ..) fun _ => hfair s hs)).imp (fun h => ?_) fun _ => trivial
        exact ⟨l, hl, .inl (by rw [cap_of hs, ← hlen]; rw [← hlen] at h; exact h)⟩
      · rw [if_neg hn, show n - l.length = 0 by omega]
        have := popBack_spec hc hi.fresh hv (n := s.len - n) (by omega) (hfair s hs)
        rw [show l.length - (s.len - n) = n by omega] at this
        rw [List.replicate_zero, List.append_nil]
        exact (hi.out hs hl this).imp (fun h => ⟨l, hl, .inr h⟩) fun _ => trivial
  | clear v =>
    unfold Op.spec update State.step
    dsimp only
    cases hl : env[v]? with
    | none => trivial
    | some l =>
      obtain ⟨s, hs⟩ := hi.str hl
      have hv := hi.view v s l hs hl
      rw [str_of hs]
      exact .inr ⟨_, rfl, hi.upd hs hl (s' := ⟨.lit [], 0, s.sth⟩) .same ⟨rfl, hv.has, fun t h => by cases h; rfl, nofun⟩, fun _ h =>
        h.set hs (fun _ => .inl rfl) S.heap⟩
  | shrink v =>
    unfold Op.spec update State.step
    dsimp only
    cases hl : env[v]? with
    | none => trivial
    | some l =>
      obtain ⟨s, hs⟩ := hi.str hl
      rw [str_of hs, Res.ok_bind]
      exact (hi.out hs hl (shrink_spec hc hi.fresh (hi.view v s l hs hl))).imp (fun h => ⟨l, hl, h⟩) fun _ => trivial
  | reserve v n =>
    unfold Op.spec update State.step
    dsimp only
    cases hl : env[v]? with
    | none => trivial
    | some l =>
      obtain ⟨s, hs⟩ := hi.str hl
      rw [str_of hs, Res.ok_bind]
      exact (hi.out hs hl (reserve_spec hc hi.fresh (hi.view v s l hs hl) n)).imp (fun h => ⟨l, hl, h⟩) fun _ => trivial

/-! ### The theorems -/

/-- **C115 (one operation; partial).** In any state that represents some texts, an operation on strings that share storage
does to them what it does to independent texts, copies and parts of strings included: it changes only the string that it is
called on, and the state again represents the texts.  It throws an exception if it has to, or if a length exceeds the
limit.  It does nothing undefined, nor does it write to storage that is shared.  What is missing: the operations that store
characters behind a text, or cut it short, have to be called on a string whose text is at the beginning of its storage,
unless the storage is shared or the string is empty (`Op.fair`). -/
theorem C115_step_partial {c : Cfg} (hc : c.Good) {S : State} {env : List Bytes} (hi : Inv S env) (op : Op) (hf : op.fair S env) :
    (op.spec env = .throw → S.step c op = .throw) ∧
    ∀ env', op.spec env = .ok env' →
      (S.step c op = .throw ∧ op.tooLong c S env) ∨ ∃ S', S.step c op = .ok S' ∧ Inv S' env' := by
  have h := agrees hc hi op hf
  unfold Agrees at h
  constructor
  · intro he; rw [he] at h; exact h
  · intro env' he
    rw [he] at h
    rcases h with h | ⟨S', e, h, _⟩
    · exact .inl h
    · exact .inr ⟨S', e, h⟩

/-- **C115 (reading).** In a state that represents some texts, `c_str()` has the characters of the text and a null terminator. -/
theorem C115_text {S : State} {env : List Bytes} (hi : Inv S env) {v : Nat} {l : Bytes} (hl : env[v]? = some l) : S.text v = .ok (l ++ [0]) := by
  obtain ⟨s, hs⟩ := hi.str hl
  have hv := hi.view v s l hs hl
  unfold State.text
  rw [str_of hs, Res.ok_bind, hv.len, hv.read (by omega), List.drop_zero, List.take_of_length_le (by simp)]

/-- **C115 (no leak).** In a state that represents some texts, every storage block is one that some string refers to, and its
reference count is the number of these strings. -/
theorem C115_no_leak {S : State} {env : List Bytes} (hi : Inv S env) {p : Nat} {b : Block} (hb : S.heap.blk p = some b) :
    (∃ s ∈ S.vec, s.sth = some p) ∧ b.nref = (S.vec.map Str.sth).count (some p) := by
  obtain ⟨h1, h2⟩ := hi.cnt p b hb
  refine ⟨?_, h1⟩
  rw [h1, List.count_pos_iff] at h2
  obtain ⟨s, hs, e⟩ := List.mem_map.1 h2
  exact ⟨s, hs, e⟩

theorem inv_start (n : Nat) : Inv (State.start n) (List.replicate n []) := by
  refine ⟨by simp [State.start], fun _ _ => rfl, ?_, ?_⟩
  · intro v s l hs hl
    have h1 := List.eq_of_mem_replicate (List.mem_of_getElem? hs)
    have h2 := List.eq_of_mem_replicate (List.mem_of_getElem? hl)
    subst h1; subst h2
    exact ⟨rfl, nofun, fun t h => by cases h; rfl, nofun⟩
  · intro p b hb; cases hb

/-- No operation of a program makes a text elsewhere than at the beginning of a block. -/
def Tame : List Op → List Bytes → Prop
  | [], _ => True
  | op :: ops, env => op.tame env ∧ ∀ env', op.spec env = .ok env' → Tame ops env'

/-- Some operation of a program asks for too much storage. -/
def SomeTooLong (c : Cfg) : List Op → State → List Bytes → Prop
  | [], _, _ => False
  | op :: ops, S, env => op.tooLong c S env ∨
      ∃ S' env', S.step c op = .ok S' ∧ op.spec env = .ok env' ∧ SomeTooLong c ops S' env'

theorem fair_of_strong {S : State} (h : AllStrong S) (env : List Bytes) (op : Op) : op.fair S env := by
  have key : ∀ v s, S.vec[v]? = some s → S.heap.Aligned s := fun v s hs => (h s (List.mem_of_getElem? hs)).aligned _
  cases op <;> first | trivial | exact fun _ => key _ | exact key _

theorem history {c : Cfg} (hc : c.Good) : ∀ (ops : List Op) (S : State) (env : List Bytes), Inv S env → AllStrong S → Tame ops env →
    (specAll ops env = .throw → State.run c ops S = .throw) ∧
    ∀ env', specAll ops env = .ok env' → (State.run c ops S = .throw ∧ SomeTooLong c ops S env) ∨
      ∃ S', State.run c ops S = .ok S' ∧ Inv S' env' := by
  intro ops
  induction ops with
  | nil =>
    intro S env hi _ _
    exact ⟨nofun, fun env' h => .inr ⟨S, rfl, by cases h; exact hi⟩⟩
  | cons op ops ih =>
    intro S env hi hs ht
    have h := agrees hc hi op (fair_of_strong hs env op)
    unfold Agrees at h
    unfold specAll State.run
    cases hsp : op.spec env with
    | ub => exact ⟨nofun, nofun⟩
    | throw =>
      rw [hsp] at h
      dsimp only at h
      exact ⟨fun _ => by rw [h]; rfl, nofun⟩
    | ok env1 =>
      rw [hsp] at h
      rcases h with ⟨e, w⟩ | ⟨S1, e, hi1, hs1⟩
      · rw [e]
        exact ⟨fun _ => rfl, fun _ _ => .inl ⟨rfl, .inl w⟩⟩
      · rw [e, Res.ok_bind, Res.ok_bind]
        obtain ⟨h1, h2⟩ := ih S1 env1 hi1 (hs1 ht.1 hs) (ht.2 env1 hsp)
        refine ⟨h1, fun env' h => ?_⟩
        rcases h2 env' h with ⟨k1, k2⟩ | k
        · exact .inl ⟨k1, .inr ⟨S1, env1, e, hsp, k2⟩⟩
        · exact .inr k

/-- **C115 (programs; partial).** A program that works with any number of strings, all empty at first, and that neither
assigns references to literals to them nor takes proper ends of them with `substr`, does to them what it does to independent
texts, and throws an exception only where that is called for or a length exceeds the limit.  What is missing: programs with
these two operations; for them the claim is false. -/
theorem C115_history_partial {c : Cfg} (hc : c.Good) (ops : List Op) (n : Nat) (ht : Tame ops (List.replicate n [])) :
    (specAll ops (List.replicate n []) = .throw → State.run c ops (State.start n) = .throw) ∧
    ∀ env, specAll ops (List.replicate n []) = .ok env →
      (State.run c ops (State.start n) = .throw ∧ SomeTooLong c ops (State.start n) (List.replicate n [])) ∨
      ∃ S, State.run c ops (State.start n) = .ok S ∧ ∀ (v : Nat) l, env[v]? = some l → S.text v = .ok (l ++ [0]) := by
  have hs : AllStrong (State.start n) := by
    intro s hs
    have := List.eq_of_mem_replicate hs
    subst this; exact .inl rfl
  obtain ⟨h1, h2⟩ := history hc ops _ _ (inv_start n) hs ht
  refine ⟨h1, fun env he => ?_⟩
  rcases h2 env he with h | ⟨S, e, hi⟩
  · exact .inl h
  · exact .inr ⟨S, e, fun v l hl => C115_text hi hl⟩

/-! ### Where they do not -/

/-- The constants on a system with 64-bit addresses: `sizeof(basic_storage)` is 24; memory that has not been written to is as
in a debug build. -/
def cfg64 : Cfg := ⟨24, (2 ^ 63 / 24 / 2 - 1) * 24, 0x2A⟩

example : cfg64.Good := by unfold cfg64 Cfg.Good; norm_num

/-- What the program leaves in string `v`. -/
def after (ops : List Op) (n v : Nat) : Res Bytes := (State.run cfg64 ops (State.start n)).bind fun S => S.text v

/-- `"hello world"` -/
def hello : Bytes := [0x68, 0x65, 0x6C, 0x6C, 0x6F, 0x20, 0x77, 0x6F, 0x72, 0x6C, 0x64]

/-- **C115 is false.** `s.append("hello world"); s = s.substr(6); s.append("!");` leaves `"hello!"`, not `"world!"`; so does
`s.resize(s.size())`, which should change nothing, in place of `s.append("!")`: `"hello"`, not `"world"`. -/
theorem C115_false :
    specAll [.append 0 (.ext hello), .substr 0 0 6 100, .append 0 (.ext [0x21])] [[]] = .ok [[0x77, 0x6F, 0x72, 0x6C, 0x64, 0x21]] ∧
    after [.append 0 (.ext hello), .substr 0 0 6 100, .append 0 (.ext [0x21])] 1 0 = .ok [0x68, 0x65, 0x6C, 0x6C, 0x6F, 0x21, 0] ∧
    specAll [.append 0 (.ext hello), .substr 0 0 6 100, .resize 0 5 0] [[]] = .ok [[0x77, 0x6F, 0x72, 0x6C, 0x64]] ∧
    after [.append 0 (.ext hello), .substr 0 0 6 100, .resize 0 5 0] 1 0 = .ok [0x68, 0x65, 0x6C, 0x6C, 0x6F, 0] := by
  decide +kernel

/-- **C115 is false for references to literals, too.** `s.append("abc"); s = shallow("xyz"); s.append("!");` leaves `"abc!"`, not
`"xyz!"`; and with a literal longer than the capacity, the characters are stored outside of the block. -/
theorem C115_shallow_false :
    specAll [.append 0 (.ext [0x61, 0x62, 0x63]), .shallow 0 [0x78, 0x79, 0x7A], .append 0 (.ext [0x21])] [[]] =
      .ok [[0x78, 0x79, 0x7A, 0x21]] ∧
    after [.append 0 (.ext [0x61, 0x62, 0x63]), .shallow 0 [0x78, 0x79, 0x7A], .append 0 (.ext [0x21])] 1 0 =
      .ok [0x61, 0x62, 0x63, 0x21, 0] ∧
    specAll [.append 0 (.ext [0x61, 0x62, 0x63]), .shallow 0 (List.replicate 30 0x78), .append 0 (.ext [0x21])] [[]] =
      .ok [List.replicate 30 0x78 ++ [0x21]] ∧
    after [.append 0 (.ext [0x61, 0x62, 0x63]), .shallow 0 (List.replicate 30 0x78), .append 0 (.ext [0x21])] 1 0 = .ub := by
  decide +kernel

/-! ### Concrete cases -/

/-- A program with sharing, a part of a string, and a string copied into itself. -/
def demo : List Op :=
  [.append 0 (.ext hello), .copy 1 0, .replace 1 5 1 (.sub 0 0 2), .substr 2 0 3 4, .append 0 (.sub 0 9 100), .setChar 1 0 0x48,
   .appendSP 2 [0x61, 0x62], .move 3 1, .popBack 3 2, .shrink 0]

example : Tame demo (List.replicate 4 []) := by
  unfold demo
  refine ⟨trivial, fun e1 h1 => ?_⟩
  cases h1
  refine ⟨trivial, fun e2 h2 => ?_⟩
  cases h2
  refine ⟨trivial, fun e3 h3 => ?_⟩
  cases h3
  refine ⟨fun l hl => ?_, fun e4 _ => ⟨trivial, fun e5 _ => ⟨trivial, fun e6 _ => ⟨trivial, fun e7 _ => ⟨trivial, fun e8 _ => ⟨trivial, fun e9 _ =>
    ⟨trivial, fun _ _ => trivial⟩⟩⟩⟩⟩⟩⟩
  cases hl
  exact .inr (.inr (by decide +kernel))

example : after demo 4 0 = .ok (hello ++ [0x6C, 0x64, 0]) := by decide +kernel

example : after demo 4 3 = .ok ([0x48, 0x65, 0x6C, 0x6C, 0x6F, 0x68, 0x65, 0x77, 0x6F, 0x72] ++ [0]) := by decide +kernel

example : after demo 4 2 = .ok [0x6C, 0x6F, 0x20, 0x77, 0x61, 0x62, 0] := by decide +kernel

example : after demo 4 1 = .ok [0] := by decide +kernel

/-- An operation on an end of a string that is fair, since the storage is shared. -/
example : after [.append 0 (.ext hello), .substr 1 0 6 100, .append 1 (.ext [0x21])] 2 1 = .ok [0x77, 0x6F, 0x72, 0x6C, 0x64, 0x21, 0] := by
  decide +kernel

end Asteria.CowString
