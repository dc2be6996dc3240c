import Verif.Proof.SafeRun

/-! The nodes. -/

namespace Asteria.Exec.Safe

variable {P : Type} {sem : Sem P} {sig : P → Sig}

/-- What is known about every piece. -/
def After (sem : Sem P) (t : Task P) (st : State P) (o : Out P) : Prop :=
  ∀ st', o.state? = some st' → st'.Defined sem ∧ (t.whole = true → st'.scopes = st.scopes) ∧
    ((t.whole || t.inside || t.exits) = true → ∀ s ss, st.scopes = s :: ss → ∃ s', st'.scopes = s' :: ss)

/-- What is known about the pieces of a step. -/
structure R (sem : Sem P) (sig : P → Sig) (rec : Task P → State P → Option (Out P)) : Prop where
  claim : ∀ {t st Q}, Claim sig t st Q → Sat (rec t st) Q
  good : Good False rec
  post : ∀ t st o, rec t st = some o → ∀ st', o.state? = some st' → st'.Defined sem

theorem R.run {rec : Task P → State P → Option (Out P)} (hr : R sem sig rec) {t : Task P} {st : State P} {Q : Out P → Prop}
    (hc : Claim sig t st Q) : Sat (rec t st) fun o => Q o ∧ After sem t st o := by
  refine ⟨fun o ho => ⟨(hr.claim hc).app o ho, fun st' hs => ⟨hr.post t st o ho st' hs, fun hw => ?_, fun hl s ss hss => ?_⟩⟩⟩
  · have h := (hr.good.whole t [] st hw (fun hf => hf.elim)).app o ho
    cases o with
    | ok s => cases hs; exact h.1
    | exc e s => cases hs; exact h.1
    | ub => cases hs
  · by_cases hwi : (t.whole || t.inside) = true
    · have h := (hr.good.loc (fl := true) (X := []) (ss := ss) t hwi ⟨s, hss, fun hf => hf.elim⟩).app o ho
      cases o with
      | ok s' => cases hs; obtain ⟨s1, h1, _⟩ := h; exact ⟨s1, h1⟩
      | exc e s' => cases hs; obtain ⟨s1, h1, _⟩ := h; exact ⟨s1, h1⟩
      | ub => cases hs
    · have he : t.exits = true := by
        cases hx : t.exits with
        | true => rfl
        | false => simp [hx] at hl; simp [hl] at hwi
      have h := (hr.good.exits t [] ss st he ⟨s, hss, fun hf => hf.elim⟩).app o ho
      cases o with
      | ok s' => cases hs; obtain ⟨s1, h1, _⟩ := h; exact ⟨s1, h1⟩
      | exc e s' => cases hs; obtain ⟨s1, h1, _⟩ := h; exact ⟨s1, h1⟩
      | ub => cases hs

theorem After.ne {t : Task P} {st st' : State P} {o : Out P} (h : After sem t st o) (hs : o.state? = some st')
    (ht : (t.whole || t.inside || t.exits) = true) (hne : st.scopes ≠ []) : st'.scopes ≠ [] := by
  cases hc : st.scopes with
  | nil => exact absurd hc hne
  | cons s ss =>
    obtain ⟨s', h1⟩ := (h st' hs).2.2 ht s ss hc
    simp [h1]

section
variable {Q : Out P → Prop} {st : State P}

theorem sat_value {r : Res Value} {k : Value → Option (Out P)} (hu : r ≠ .ub) (hq : r = .throw → Q (.exc message st))
    (hk : ∀ v, r = .ok v → Sat (k v) Q) : Sat (withValue st r k) Q := by
  cases r with
  | ok v => exact hk v rfl
  | throw => exact Sat.exc (hq rfl)
  | ub => exact absurd rfl hu

theorem sat_top {r : Ref} {l : List Ref} {k : Ref → List Ref → Option (Out P)} (h : st.stack = r :: l) (hk : Sat (k r l) Q) :
    Sat (withTop st k) Q := by
  unfold withTop; rw [h]; exact hk

theorem sat_next {k : Option (Out P)} (h : st.status = .next) (hk : Sat k Q) : Sat (expectNext st k) Q := by
  unfold expectNext; rw [if_pos h]; exact hk

/-- Continues after a piece. -/
theorem sat_onOut {o : Option (Out P)} {R : Out P → Prop} {k : State P → Option (Out P)}
    {h : Value → State P → Option (Out P)} (ho : Sat o R) (hu : ¬ R .ub) (hk : ∀ st, R (.ok st) → Sat (k st) Q)
    (hh : ∀ e st, R (.exc e st) → Sat (h e st) Q) : Sat (Exec.onOut o k h) Q := by
  refine ⟨fun x hx => ?_⟩
  rcases o with _ | o
  · simp [Exec.onOut] at hx
  · cases o with
    | ok st => exact (hk st (ho.app _ rfl)).app x hx
    | exc e st => exact (hh e st (ho.app _ rfl)).app x hx
    | ub => exact absurd (ho.app _ rfl) hu

end

section
variable {na : Prop} {j : Mode} {b : Bool} {T T' : Ty} {ids : List Nat} {st st' : State P} {o : Out P}

theorem QC.next (hs : st'.status = .next) (hI : Inv sig st') (hk : Kept ids st.world st'.world)
    (hn : j = .expr → headNames st' = headNames st) {ids' : List Nat} (h : Sh T' b ids' st')
    (hi : ∀ i ∈ ids', i ∈ ids ∨ st.world.nvars ≤ i) : QC sig na j b T' ids st (.ok st') :=
  ⟨hI, hk, hn, .inl ⟨hs, ids', h, hi⟩⟩

theorem QC.set (hs : st.status = .next) (hI : Inv sig st) {l : List Ref} (h : Sh T' b ids (st.setStack l)) :
    QC sig na j b T' ids st (.ok (st.setStack l)) :=
  QC.next (by simpa using hs) (hI.setStack l) (by simpa using Kept.refl ids _) (fun _ => by simp [headNames]) h
    fun i hi => .inl hi

theorem QC.back {e : Value} (hI : Inv sig st) : QC sig na j b T' ids st (.exc e st) :=
  ⟨hI, Kept.refl _ _, fun _ => rfl, fun _ => rfl⟩

theorem QC.from {st₁ : State P} (h : QC sig na j b T' ids st₁ o) (hw : st₁.world = st.world)
    (hn : headNames st₁ = headNames st) (hs : na → st₁.swapped = st.swapped) : QC sig na j b T' ids st o := by
  cases o with
  | ok st' =>
    obtain ⟨h1, h2, h3, h4⟩ := h
    rw [hw] at h2 h4
    exact ⟨h1, h2, fun hj => (h3 hj).trans hn, h4⟩
  | exc e st' =>
    obtain ⟨h1, h2, h3, h4⟩ := h
    rw [hw] at h2
    exact ⟨h1, h2, fun ha => (h3 ha).trans (hs ha), fun hj => (h4 hj).trans hn⟩
  | ub => exact h

/-- Code that ends with its own stacks. -/
theorem QC.toX (ha : T'.alt = none) (h : QC sig na j b T' [] st o) : QX sig b st.world o := by
  cases o with
  | ok st' =>
    obtain ⟨h1, h2, _, h4⟩ := h
    rcases h4 with ⟨h5, ids', h6, _⟩ | ⟨_, _, _, h5, h6⟩
    · exact ⟨h1, h2, h6.flag ha, fun hr => by rw [h5] at hr; cases hr⟩
    · exact ⟨h1, h2, h5, h6⟩
  | exc e st' => exact ⟨h.1, h.2.1⟩
  | ub => exact h

/-- A statement. -/
theorem QX.toC (hb : st.swapped = b) (h : QX sig st.swapped st.world o)
    (hne : ∀ st', o.state? = some st' → st'.scopes ≠ []) (hsw : ∀ st', o.state? = some st' → na → st'.swapped = st.swapped) :
    QC sig na .stmt b T0 ids st o := by
  cases o with
  | ok st' =>
    obtain ⟨h1, h2, h3, h4⟩ := h
    refine ⟨h1, h2.any, nofun, ?_⟩
    by_cases hs : st'.status = .next
    · exact .inl ⟨hs, [], Sh.zero (hne _ rfl) (h3.trans hb), by simp⟩
    · exact .inr ⟨hs, rfl, hne _ rfl, h3.trans hb, h4⟩
  | exc e st' => exact ⟨h.1, h.2.any, hsw _ rfl, nofun⟩
  | ub => exact h

theorem QX.trans {w w' : World} (h : QX sig b w' o) (hk : Kept [] w w') : QX sig b w o := by
  cases o with
  | ok st' => exact ⟨h.1, hk.trans' h.2.1, h.2.2⟩
  | exc e st' => exact ⟨h.1, hk.trans' h.2⟩
  | ub => exact h

end

theorem Inv.entered {st : State P} (h : Inv sig st) (names : List (Name × Ref)) : Inv sig (entered names st) := by
  refine ⟨h.funcs, fun s hs => ?_, h.ptcs, h.clean⟩
  have hs' : s ∈ (⟨names, [], st.swapped⟩ : Scope P) :: st.scopes := hs
  rcases List.mem_cons.1 hs' with rfl | hs'
  · simp
  · exact h.defers s hs'

section
variable {rec : Task P → State P → Option (Out P)}

theorem Claim.scope {names : List (Name × Ref)} {b : List (Node P)} {st : State P} (hI : Inv sig st) (hb : Body sig b) :
    Claim sig (.within names (.rod b)) st (QX sig st.swapped st.world) :=
  Claim.within hI (Claim.rod (na := False) (hI.entered names) hb.1 (Sh.zero (by simp [entered, State.log]) rfl) fun h => h.elim)
    (fun _ ho => QC.toX (st := entered names st) hb.2 ho) rfl

theorem Claim.block {b : List (Node P)} {st : State P} (hI : Inv sig st) (hb : Body sig b) :
    Claim sig (block b) st (QX sig st.swapped st.world) := Claim.scope hI hb

theorem whole_swapped {t : Task P} {st st' : State P} {o : Out P} (h : After sem t st o) (hs : o.state? = some st')
    (hw : t.whole = true) : st'.swapped = st.swapped := by
  unfold State.swapped; rw [(h st' hs).2.1 hw]

/-- A statement that is a whole piece. -/
theorem R.stmt (hr : R sem sig rec) {na : Prop} {b : Bool} {ids : List Nat} {t : Task P} {st : State P}
    (hc : Claim sig t st (QX sig st.swapped st.world)) (hw : t.whole = true) (hne : st.scopes ≠ []) (hb : st.swapped = b) :
    Sat (rec t st) (QC sig na .stmt b T0 ids st) :=
  (hr.run hc).imp fun _ ho => QX.toC hb ho.1 (fun st' hs => ho.2.ne hs (by simp [hw]) hne) fun st' hs _ =>
    whole_swapped ho.2 hs hw

/-- A statement that runs in the current context. -/
theorem R.loop (hr : R sem sig rec) {b : Bool} {na : Prop} {ids : List Nat} {t : Task P} {st : State P}
    (hc : Claim sig t st (QX sig st.swapped st.world)) (hw : t.inside = true) (hne : st.scopes ≠ []) (hb : st.swapped = b)
    (hna : ¬ na) : Sat (rec t st) (QC sig na .stmt b T0 ids st) :=
  (hr.run hc).imp fun _ ho => QX.toC hb ho.1 (fun st' hs => ho.2.ne hs (by simp [hw]) hne) fun st' hs h => absurd h hna

/-- A function call. -/
theorem R.invoke (hr : R sem sig rec) {na : Prop} {j : Mode} {b : Bool} {T : Ty} {ids : List Nat} {st : State P} {r : Ref}
    {l : List Ref} {ptc : Ptc} (f : Nat) (hI : Inv sig st) (hs : st.status = .next) (h : Sh T b ids st) (ha : T.alt = none)
    (hk : 1 ≤ T.k) (hst : st.stack = r :: l) (hp : ptc ≠ .none → j = .stmt) :
    Sat (rec (.tailOrCall ptc f) st) (QC sig na j b T ids st) := by
  have hc : 1 ≤ T.cur := by rw [Ty.cur_none ha]; exact hk
  by_cases h0 : ptc = .none
  · subst h0
    refine (hr.run (Claim.call (f := f) hI hs hst)).imp fun o ho => ?_
    cases o with
    | ok st' =>
      obtain ⟨⟨h1, h2, h3, h4, r', h5⟩, _⟩ := ho
      have hsw : st'.swapped = st.swapped := by unfold State.swapped; rw [h3]
      refine QC.next h4 h1 h2.any (fun _ => by unfold headNames; rw [h3]) (ids' := ids) ?_ fun i hi => .inl hi
      exact Sh.moveNone (h.swapTop hst hc r') ha (by rw [h3]; exact h.ne) (by simpa using hsw) (by simpa using h5)
        (js := []) (by simpa using h2) (by simp)
    | exc e st' =>
      obtain ⟨⟨h1, h2, h3⟩, _⟩ := ho
      exact ⟨h1, h2.any, fun _ => by unfold State.swapped; rw [h3], fun _ => by unfold headNames; rw [h3]⟩
    | ub => exact ho.1
  · refine (hr.run (Claim.tail (f := f) hI h0 hst)).imp fun o ho => ?_
    cases o with
    | ok st' =>
      obtain ⟨⟨h1, h2, h3, h4, h5⟩, _⟩ := ho
      refine ⟨h1, by rw [h2]; exact Kept.refl _ _, fun _ => by unfold headNames; rw [h3], .inr ⟨by simp [h4], hp h0, ?_, ?_,
        fun _ => h5⟩⟩
      · rw [h3]; exact h.ne
      · have : st'.swapped = st.swapped := by unfold State.swapped; rw [h3]
        rw [this]; exact h.flag ha
    | exc e st' => exact ho.1.elim
    | ub => exact ho.1.elim

theorem headNames_swap (st : State P) : headNames (st.modScope fun s => { s with swapped := !s.swapped }) = headNames st := by
  unfold headNames State.modScope
  split
  · rfl
  · rename_i s ss h; simp [h]

theorem slots_take {w : World} {l : List Ref} {k : Nat} (h : k ≤ l.length) : Slots k [] w l :=
  ⟨⟨l.take k, [], l.drop k, by simp, by simpa using h, rfl⟩, by simp, by simp⟩

theorem lookupName_fresh (n : Name) : ∀ (l : List (Name × Ref)), (∀ p ∈ l, p.2 = .invalid) →
    (lookupName n l).bind Ref.var? = none
  | [], _ => rfl
  | (m, r) :: l, h => by
    unfold lookupName
    split
    · have h1 : r = .invalid := h (m, r) (by simp)
      rw [h1]; rfl
    · exact lookupName_fresh n l fun p hp => h p (by simp [hp])

theorem runNode_safe (hsem : SafeSem sem sig) (hr : R sem sig rec) {na : Prop} {j : Mode} {T : Ty} {b : Bool} {ids : List Nat}
    {n : Node P} {st : State P} (hI : Inv sig st) (hs : st.status = .next) (ht : Typed sig j T n) (h : Sh T b ids st)
    (hna : na → NoAlt n) (hd : st.Defined sem) (hl : LocalsFound (.node n) st) :
    Sat (runNode sem rec n st) (QC sig na j b (out sig T n) ids st) := by
  have hdef : ∀ r ∈ st.stack, r.Defined sem st.world := defined_stack hd
  cases n with
  | clearStack =>
    unfold Typed at ht
    refine Sat.ok (QC.next (by simpa using hs) (hI.setStack _) (by simpa using Kept.refl ids _) (fun _ => by simp [headNames])
      (ids' := []) ?_ (by simp))
    exact Sh.zero (by simpa using h.ne) (by simpa using h.flag ht)
  | block bd =>
    unfold Typed at ht
    obtain ⟨rfl, ha, hb⟩ := ht
    exact hr.stmt (Claim.block hI hb) rfl h.ne (h.flag ha)
  | declareVar nm =>
    unfold Typed at ht
    obtain ⟨hj, ha⟩ := ht
    refine Sat.ok ?_
    have hw : ∀ s : Scope P, ({ s with names := setName nm (.var (newVar st).1 []) s.names } : Scope P).swapped = s.swapped :=
      fun _ => rfl
    have hstk : ((newVar st).2.modScope fun s => { s with names := setName nm (.var (newVar st).1 []) s.names }).stack = st.stack :=
      modScope_stack _ hw
    refine QC.next (by simpa [newVar] using hs) ?_ ?_ (fun hj' => absurd hj' hj)
      (ids' := if T.k = 0 then st.world.nvars :: ids else [st.world.nvars]) ?_ ?_
    · have h1 : Inv sig (newVar st).2 := hI.kept rfl rfl rfl (kept_newVar st)
      refine Inv.push (Inv.modScope h1 ?_) _
      exact fun _ => rfl
    · rw [push_world, modScope_world]; exact (kept_newVar st).any
    · have hfl := h.flag ha
      refine ⟨by simpa [newVar] using h.ne, ?_, ?_, by simp [out], ?_⟩
      · rw [push_swapped, modScope_swapped _ hw]
        show st.swapped = _
        simpa [out] using hfl
      · show _ = if T.k = 0 then T.m + 1 else 1
        split <;> simp [h.m]
      · simp only [out, Option.isSome_none, Bool.false_eq_true, if_false, push_stack, hstk, push_world, modScope_world]
        have hnew : ((newVar st).2.world.env st.world.nvars).value = none := by simp [newVar]
        split
        · rename_i hk
          have hm := h.main
          simp only [ha, Option.isSome_none, Bool.false_eq_true, if_false, hk] at hm
          have hm' := hm.world (kept_newVar st) (by simp)
          obtain ⟨⟨top, fr, rest, h1, h2, h3⟩, h4, h5⟩ := hm'
          have htop : top = [] := List.length_eq_zero_iff.1 h2
          subst htop
          refine ⟨⟨[], .var st.world.nvars [] :: fr, rest, ?_, rfl, ?_⟩, ?_, ?_⟩
          · simpa [newVar] using h1
          · simp [h3, Ref.var?]
          · refine List.nodup_cons.2 ⟨fun hm => ?_, h4⟩
            have := (hm : st.world.nvars ∈ ids)
            have := (h.main.2.2 _ this).1
            omega
          · intro i hi
            rcases List.mem_cons.1 hi with rfl | hi
            · exact ⟨Nat.lt_succ_self _, hnew⟩
            · exact h5 i hi
        · refine ⟨⟨[], [.var st.world.nvars []], st.stack, rfl, rfl, rfl⟩, by simp, ?_⟩
          intro i hi
          simp only [List.mem_singleton] at hi
          subst hi
          exact ⟨Nat.lt_succ_self _, hnew⟩
    · intro i hi
      split at hi
      · rcases List.mem_cons.1 hi with rfl | hi
        · exact .inr (Nat.le_refl _)
        · exact .inl hi
      · simp only [List.mem_singleton] at hi
        exact .inr (by omega)
  | initVar imm =>
    unfold Typed at ht
    obtain ⟨hj, ha, hk, hm⟩ := ht
    have hmain := h.main
    simp only [ha, Option.isSome_none, Bool.false_eq_true, if_false, hk] at hmain
    obtain ⟨⟨top, fr, rest, h1, h2, h3⟩, h4, h5⟩ := hmain
    obtain ⟨r, rfl⟩ := List.length_eq_one_iff.1 h2
    cases ids with
    | nil => have := h.m; simp at this; omega
    | cons id ids' =>
      cases fr with
      | nil => simp at h3
      | cons r1 fr' =>
        simp only [List.map_cons, List.cons.injEq] at h3
        unfold runNode
        simp only [h1, List.cons_append, List.nil_append]
        have hr : r.Defined sem st.world := hdef r (by rw [h1]; simp)
        refine sat_value hr.1 (fun _ => QC.back hI) fun v _ => ?_
        simp only [h3.1]
        rw [if_pos (h5 id (by simp)).2]
        have hkp := kept_initVar st v imm (h5 id (by simp)).1
        refine Sat.ok (QC.next (by simpa [initVar] using hs) ?_ ?_ (fun hj' => absurd hj' hj) (ids' := ids') ?_ ?_)
        · exact (hI.kept (st' := initVar st id v imm) rfl rfl rfl hkp).setStack _
        · rw [setStack_world]; exact hkp.mono (by simp)
        · refine ⟨by simpa [initVar] using h.ne, ?_, ?_, by simp [out, ha], ?_⟩
          · rw [setStack_swapped]
            show st.swapped = _
            simpa [out, ha] using h.flag ha
          · have := h.m; simp [out] at this ⊢; omega
          · simp only [out, ha, Option.isSome_none, Bool.false_eq_true, if_false, setStack_stack, setStack_world, hk]
            refine Slots.world (w := st.world) ⟨⟨[], fr', rest, rfl, rfl, h3.2⟩, (List.nodup_cons.1 h4).2,
              fun i hi => h5 i (by simp [hi])⟩ hkp ?_
            intro i hi hi'
            simp only [List.mem_singleton] at hi'
            subst hi'
            exact (List.nodup_cons.1 h4).1 hi
        · intro i hi; exact .inl (by simp [hi])
  | ifS neg t f =>
    unfold Typed at ht
    obtain ⟨rfl, ha, hk, h1, h2⟩ := ht
    obtain ⟨r, l, hst⟩ := h.top (by rw [Ty.cur_none ha]; exact hk)
    unfold runNode
    dsimp only
    refine sat_top hst (sat_value (hdef r (by simp [hst])).1 (fun _ => QC.back hI) fun v _ => ?_)
    split
    · exact hr.stmt (Claim.block hI h1) rfl h.ne (h.flag ha)
    · exact hr.stmt (Claim.block hI h2) rfl h.ne (h.flag ha)
  | switchS cs =>
    unfold Typed at ht
    obtain ⟨rfl, ha, hk, h1⟩ := ht
    obtain ⟨r, l, hst⟩ := h.top (by rw [Ty.cur_none ha]; exact hk)
    unfold runNode
    dsimp only
    refine sat_top hst (sat_value (hdef r (by simp [hst])).1 (fun _ => QC.back hI) fun v _ => ?_)
    exact hr.loop (Claim.find hI h.ne hs h1 h1) rfl h.ne (h.flag ha) fun hn => by have := hna hn; unfold NoAlt at this; exact this
  | doWhile bd neg c k =>
    unfold Typed at ht
    obtain ⟨rfl, ha, h1, h2, h3⟩ := ht
    exact hr.loop (Claim.doL hI h.ne h1 ⟨h2.1, h2.2.1⟩ h2.2.2 h3) rfl h.ne (h.flag ha) fun hn => by
      have := hna hn; unfold NoAlt at this; exact this
  | whileS neg c bd k =>
    unfold Typed at ht
    obtain ⟨rfl, ha, h2, h1, h3⟩ := ht
    exact hr.loop (Claim.whileL hI h.ne h1 ⟨h2.1, h2.2.1⟩ h2.2.2 h3) rfl h.ne (h.flag ha) fun hn => by
      have := hna hn; unfold NoAlt at this; exact this
  | forEach kn mn i bd k =>
    unfold Typed at ht
    obtain ⟨rfl, ha, h2, h1, h3⟩ := ht
    refine hr.stmt (Claim.within hI (Claim.eachInit (hI.entered _) (by simp [entered, State.log]) rfl ?_ ⟨h2.1, h2.2.1⟩ h2.2.2 h1 h3)
      (fun _ ho => ho) rfl) rfl h.ne (h.flag ha)
    intro l hl' n
    simp only [headNames, entered, State.log, List.head?_cons, Option.map_some, Option.some.injEq] at hl'
    rw [← hl']
    refine lookupName_fresh n _ fun p hp => ?_
    rcases List.mem_append.1 hp with hp | hp
    · cases kn <;> simp at hp; simp [hp]
    · simp at hp; simp [hp]
  | forS i c s bd k =>
    unfold Typed at ht
    obtain ⟨rfl, ha, h1, h2, h3, h4, h5⟩ := ht
    exact hr.stmt (Claim.within hI (Claim.forInit (hI.entered _) (by simp [entered, State.log]) rfl h1.1 h1.2 h2 h3 h4 h5)
      (fun _ ho => ho) rfl) rfl h.ne (h.flag ha)
  | tryS bd nm hd' =>
    unfold Typed at ht
    obtain ⟨rfl, ha, h1, h2⟩ := ht
    have hb := h.flag ha
    unfold runNode
    dsimp only
    have hhand : ∀ (e : Value) (st' : State P), Inv sig st' → Kept [] st.world st'.world → st'.scopes = st.scopes →
        Sat (rec (.within [(nm, .temp e [])] (.rod hd')) st') (QC sig na .stmt b T0 ids st) := by
      intro e st' hI' hk' hsc
      have hsw : st'.swapped = st.swapped := by unfold State.swapped; rw [hsc]
      refine (hr.run (Claim.scope hI' h2)).imp fun o ho => ?_
      refine QX.toC hb ?_ (fun s hs' => ho.2.ne hs' rfl (by rw [hsc]; exact h.ne)) fun s hs' _ =>
        (whole_swapped ho.2 hs' rfl).trans hsw
      rw [← hsw]; exact ho.1.trans hk'
    refine sat_onOut (R := fun o => QC sig False .stmt b T0 [] st o ∧ ∀ s, o.state? = some s → s.scopes = st.scopes) ?_
      (fun hu => hu.1) (fun st' ho => Sat.ok ⟨ho.1.1, ho.1.2.1.any, ho.1.2.2.1, ?_⟩) fun e st' ho => hhand e st' ho.1.1 ho.1.2.1 (ho.2 _ rfl)
    · refine sat_onOut (hr.run (Claim.block hI h1)) (fun hu => hu.1) ?_ fun e st' ho => Sat.exc ⟨?_, ?_⟩
      · intro st' ho
        have hsc : st'.scopes = st.scopes := (ho.2 st' rfl).2.1 rfl
        have hst : QC sig False .stmt b T0 [] st (.ok st') := QX.toC hb ho.1 (fun s hs' => ho.2.ne hs' rfl h.ne) fun _ _ hf => hf.elim
        split
        · rename_i hret
          obtain ⟨r, l, h3, h4⟩ := ho.1.2.2.2 hret
          refine sat_top h3 ?_
          refine sat_onOut (hr.run (Claim.check (r := r) ho.1.1)) (fun hu => hu.1.1) ?_ fun e st'' ho' => Sat.exc ⟨⟨?_, ?_, ?_, ?_⟩, ?_⟩
          · intro st'' ho'
            obtain ⟨⟨⟨h5, h6, h7, h8, h9⟩, h10⟩, h11⟩ := ho'
            have hsc' : st''.scopes = st'.scopes := (h11 st'' rfl).2.1 rfl
            refine Sat.ok ⟨⟨h5.setStack _, ?_, nofun, .inr ⟨?_, rfl, ?_, ?_, fun _ => ?_⟩⟩, ?_⟩
            · rw [setStack_world]; exact ho.1.2.1.trans' h6
            · rw [setStack_status, h9, hret]; simp
            · rw [setStack_scopes, hsc', hsc]; exact h.ne
            · rw [setStack_swapped]; unfold State.swapped; rw [hsc', hsc]; exact hb
            · refine ⟨st''.result, _, setStack_stack _ _, fun hi => ?_⟩
              have := h10 st'' rfl
              rw [hi] at this
              cases this
            · intro s hs'; cases hs'; rw [setStack_scopes, hsc', hsc]
          · exact ho'.1.1.1
          · exact ho.1.2.1.trans' ho'.1.1.2
          · exact fun hf => hf.elim
          · exact nofun
          · intro s hs'; cases hs'; exact ((ho'.2 _ rfl).2.1 rfl).trans hsc
        · exact Sat.ok ⟨hst, fun s hs' => by cases hs'; exact hsc⟩
      · exact ⟨ho.1.1, ho.1.2, fun hf => hf.elim, nofun⟩
      · intro s hs'; cases hs'; exact (ho.2 _ rfl).2.1 rfl
    · rcases ho.1.2.2.2 with ⟨h3, ids', h4, h5⟩ | h3
      · refine .inl ⟨h3, [], ?_, by simp⟩
        exact Sh.zero h4.ne (h4.flag rfl)
      · exact .inr h3
  | throwS =>
    unfold Typed at ht
    obtain ⟨rfl, ha, hk⟩ := ht
    obtain ⟨r, l, hst⟩ := h.top (by rw [Ty.cur_none ha]; exact hk)
    unfold runNode
    dsimp only
    refine sat_top hst (sat_value (hdef r (by simp [hst])).copy (fun _ => QC.back hI) fun v _ => ?_)
    split
    · exact Sat.exc (QC.back hI)
    · exact Sat.exc ⟨hI.setStack _, by simpa using Kept.refl ids _, fun _ => by simp, nofun⟩
  | assertS =>
    unfold Typed at ht
    obtain ⟨rfl, ha, hk⟩ := ht
    obtain ⟨r, l, hst⟩ := h.top (by rw [Ty.cur_none ha]; exact hk)
    unfold runNode
    dsimp only
    refine sat_top hst (sat_value (hdef r (by simp [hst])).1 (fun _ => QC.back hI) fun v _ => ?_)
    split
    · exact Sat.ok (QC.next hs hI (Kept.refl _ _) (fun _ => rfl) h fun i hi => .inl hi)
    · exact Sat.exc (QC.back hI)
  | simpleStatus s =>
    unfold Typed at ht
    obtain ⟨rfl, ha, h1, h2⟩ := ht
    exact Sat.ok ⟨hI.setStatus _, Kept.refl _ _, fun _ => rfl, .inr ⟨h2, rfl, h.ne, h.flag ha, fun hr => absurd hr h1⟩⟩
  | checkArg byRef =>
    unfold Typed at ht
    obtain ⟨r, l, hst⟩ := h.top ht
    unfold runNode
    dsimp only
    refine sat_top hst ?_
    have hrd := hdef r (by simp [hst])
    split
    · exact sat_value hrd.1 (fun _ => QC.back hI) fun v _ =>
        Sat.ok (QC.next hs hI (Kept.refl _ _) (fun _ => rfl) h fun i hi => .inl hi)
    · exact sat_value hrd.copy (fun _ => QC.back hI) fun v _ => Sat.ok (QC.set hs hI (h.swapTop hst ht _))
  | pushLocal d nm =>
    unfold runNode
    dsimp only
    obtain ⟨s, hs1, hs2⟩ := hl
    simp only [hs1]
    split
    · exact Sat.exc (QC.back hI)
    · exact Sat.exc (QC.back hI)
    · exact Sat.ok (QC.set hs hI (h.push _))
  | pushBound r => exact Sat.ok (QC.set hs hI (h.push _))
  | pushConst v => exact Sat.ok (QC.set hs hI (h.push _))
  | defineFunc ps va bd =>
    unfold Typed at ht
    unfold runNode
    dsimp only
    have hne : rebindAll (none :: contexts st) bd ≠ .ub := hl
    cases hrb : rebindAll (none :: contexts st) bd with
    | ok b' =>
      have hlike := rebindAll_like sig _ bd b' hrb
      refine Sat.ok (QC.next (by simpa using hs) ?_ ?_ (fun _ => by simp [headNames]) (ids' := ids) ?_ fun i hi => .inl hi)
      · refine Inv.push (st := { st with funcs := st.funcs ++ [.inst ps va b'] })
          ⟨fun f hf ps' va' b'' he => ?_, hI.defers, hI.ptcs, hI.clean⟩ _
        rcases List.mem_append.1 hf with hf | hf
        · exact hI.funcs f hf ps' va' b'' he
        · simp only [List.mem_singleton] at hf
          rw [hf] at he
          cases he
          exact hlike.both ht
      · rw [push_world]; exact Kept.refl _ _
      · exact Sh.push (st := { st with funcs := st.funcs ++ [.inst ps va b'] }) ⟨h.ne, h.sw, h.m, h.alt, h.main⟩ _
    | throw => exact Sat.exc (QC.back hI)
    | ub => exact absurd hrb hne
  | branchE t f a =>
    unfold Typed at ht
    obtain ⟨hc, h1, h2⟩ := ht
    obtain ⟨r, l, hst⟩ := h.top hc
    unfold runNode
    dsimp only
    refine sat_top hst (sat_value (hdef r (by simp [hst])).1 (fun _ => QC.back hI) fun v _ => ?_)
    refine hr.claim ?_
    split
    · exact Claim.sub hI hs h hc h1 fun hn => by have := hna hn; unfold NoAlt at this; exact this.1
    · exact Claim.sub hI hs h hc h2 fun hn => by have := hna hn; unfold NoAlt at this; exact this.2
  | coalesceE c a =>
    unfold Typed at ht
    obtain ⟨hc, h1⟩ := ht
    obtain ⟨r, l, hst⟩ := h.top hc
    unfold runNode
    dsimp only
    refine sat_top hst (sat_value (hdef r (by simp [hst])).1 (fun _ => QC.back hI) fun v _ => ?_)
    split
    · exact hr.claim (Claim.sub hI hs h hc h1 fun hn => by have := hna hn; unfold NoAlt at this; exact this)
    · exact Sat.ok (QC.next hs hI (Kept.refl _ _) (fun _ => rfl) h fun i hi => .inl hi)
  | funcCall k ptc =>
    unfold Typed at ht
    obtain ⟨ha, hk, hp⟩ := ht
    have hcur := h.cur
    rw [Ty.cur_none ha] at hcur
    unfold runNode
    dsimp only
    rw [if_neg (by omega)]
    obtain ⟨r, l, hdrop⟩ : ∃ r l, st.stack.drop k = r :: l := by
      cases hdr : st.stack.drop k with
      | nil => have := List.drop_eq_nil_iff.1 hdr; omega
      | cons r l => exact ⟨r, l, rfl⟩
    have hrm : r ∈ st.stack := List.mem_of_mem_drop (by rw [hdrop]; simp)
    have hrd := hdef r hrm
    have hst1 : ((st.setAlt (st.stack.take k)).setStack (st.stack.drop k)).stack = r :: l := by rw [setStack_stack, hdrop]
    have hI1 : Inv sig ((st.setAlt (st.stack.take k)).setStack (st.stack.drop k)) := (hI.setAlt _).setStack _
    refine sat_top hst1 (sat_value (by simpa using hrd.1) (fun _ => QC.from (QC.back hI1) (by simp) (by simp [headNames]) fun _ => by simp)
      fun v _ => ?_)
    have hsh : Sh (T.setCur (T.cur - k)) b ids
        (((st.setAlt (st.stack.take k)).setStack (st.stack.drop k)).setStack (r.popSub :: l)) := by
      have e1 : st.stack = (st.stack.take k ++ [r]) ++ l := by
        conv_lhs => rw [← List.take_append_drop k st.stack]
        rw [hdrop]; simp
      have e2 : (st.stack.take k ++ [r]).length = k + 1 := by
        rw [List.length_append, List.length_take]; simp; omega
      have h1 := h.replace (c := [r.popSub]) e1 (by rw [e2, Ty.cur_none ha]; omega)
      rw [e2] at h1
      have e3 : T.cur - (k + 1) + [r.popSub].length = T.cur - k := by
        rw [Ty.cur_none ha]; simp; omega
      rw [e3] at h1
      exact Sh.moveNone h1 (by simp [ha]) (by simpa using h.ne) (by simp) (by simp) (js := []) (by simpa using Kept.refl [] _) (by simp)
    split
    · refine (hr.invoke _ (Inv.setStack hI1 _) (by simpa using hs) hsh (by simp [ha]) ?_ (setStack_stack _ _) hp).imp fun o ho =>
        QC.from ho (by simp) (by simp [headNames]) fun _ => by simp
      rw [Ty.setCur_none ha, Ty.cur_none ha]; show 1 ≤ T.k - k; omega
    · exact Sat.exc (QC.from (QC.back hI1) (by simp) (by simp [headNames]) fun _ => by simp)
  | altClear =>
    unfold Typed at ht
    unfold runNode
    dsimp only
    refine Sat.ok (QC.next (by simpa using hs) ?_ ?_ (fun _ => ?_) (ids' := ids) ?_ fun i hi => .inl hi)
    · refine Inv.setStack (Inv.modScope hI ?_) _
      exact fun _ => rfl
    · simpa using Kept.refl ids _
    · show headNames _ = _
      rw [← headNames_swap st]; simp [headNames]
    · have hfl := h.flag ht
      refine ⟨by simpa using h.ne, ?_, h.m, ?_, ?_⟩
      · rw [setStack_swapped, flip_swapped _ h.ne, hfl]; simp [out]
      · intro a ha'; simp [out] at ha'; omega
      · have hm := h.main
        simp only [ht, Option.isSome_none, Bool.false_eq_true, if_false] at hm
        simp only [out, Option.isSome_some, if_true, setStack_alt, flip_alt _ h.ne, setStack_world, modScope_world]
        exact hm
  | altCall ptc =>
    unfold Typed at ht
    obtain ⟨ha, hk, hp⟩ := ht
    obtain ⟨a, ha⟩ := Option.isSome_iff_exists.1 ha
    have hno : ¬ na := fun hn => by have := hna hn; unfold NoAlt at this; exact this
    unfold runNode
    dsimp only
    have hI1 : Inv sig (st.modScope fun s => { s with swapped := !s.swapped }) := hI.modScope fun _ => rfl
    have hsh : Sh ⟨T.k, T.m, none⟩ b ids (st.modScope fun s => { s with swapped := !s.swapped }) := by
      refine ⟨by simpa using h.ne, ?_, h.m, by simp, ?_⟩
      · rw [flip_swapped _ h.ne, h.sw, ha]; simp
      · have hm := h.main
        simp only [ha, Option.isSome_some, if_true] at hm
        simp only [Option.isSome_none, Bool.false_eq_true, if_false, flip_stack _ h.ne, modScope_world]
        exact hm
    obtain ⟨r, l, hst⟩ := hsh.top hk
    have hrd : r.Defined sem st.world := by
      rw [flip_stack _ h.ne] at hst
      refine hd r ?_
      have : r ∈ st.alt := by rw [hst]; simp
      unfold State.alt at this
      split at this
      · exact .inl this
      · exact .inr this
    refine sat_top hst (sat_value (by simpa using hrd.1) (fun _ => QC.from (QC.back hI1) (by simp) (headNames_swap st) fun hn => absurd hn hno)
      fun v _ => ?_)
    split
    · refine (hr.invoke _ (Inv.setStack hI1 _) (by simpa using hs) (hsh.swapTop hst hk _) rfl hk (setStack_stack _ _) hp).imp fun o ho =>
        QC.from ho (by simp) ?_ fun hn => absurd hn hno
      rw [← headNames_swap st]; simp [headNames]
    · exact Sat.exc (QC.from (QC.back hI1) (by simp) (headNames_swap st) fun hn => absurd hn hno)
  | deferE bd =>
    unfold Typed at ht
    obtain ⟨rfl, ha, hb⟩ := ht
    unfold runNode
    dsimp only
    have hne : rebindAll (contexts st) bd ≠ .ub := hl
    cases hrb : rebindAll (contexts st) bd with
    | ok b' =>
      have hlike := rebindAll_like sig _ bd b' hrb
      have hw : ∀ s : Scope P, ({ s with defers := s.defers ++ [(st.trace.length, b')] } : Scope P).swapped = s.swapped := fun _ => rfl
      refine Sat.ok (QC.next (by simpa [State.log] using hs) ?_ ?_ (nofun) (ids' := ids) ?_ fun i hi => .inl hi)
      · refine Inv.log ⟨by simpa using hI.funcs, ?_, by simpa using hI.ptcs, by simpa using hI.clean⟩ _
        unfold State.modScope
        split
        · exact hI.defers
        · rename_i s ss hsc
          intro s' hs' d hd'
          rcases List.mem_cons.1 hs' with rfl | hs'
          · rcases List.mem_append.1 hd' with hd' | hd'
            · exact hI.defers s (by simp [hsc]) d hd'
            · simp only [List.mem_singleton] at hd'
              subst hd'
              exact hlike.both hb
          · exact hI.defers s' (by simp [hsc, hs']) d hd'
      · show Kept ids st.world (State.modScope _ _).world
        rw [modScope_world]; exact Kept.refl _ _
      · exact h.move (js := []) (by simpa [State.log] using h.ne) (modScope_swapped _ hw) (modScope_stack _ hw) (modScope_alt _ hw)
          (by simpa [State.log] using Kept.refl [] st.world) (by simp)
    | throw => exact Sat.exc (QC.back hI)
    | ub => exact absurd hrb hne
  | catchE bd =>
    unfold Typed at ht
    obtain ⟨ha, h1, h2, h3⟩ := ht
    unfold runNode
    dsimp only
    have hback : ∀ (v : Value) (st' : State P), Inv sig st' → Kept [] st.world st'.world → st'.swapped = st.swapped →
        st'.scopes ≠ [] → headNames st' = headNames st →
        QC sig na j b (T.setCur (T.cur + 1)) ids st (.ok ((st'.setStack (.temp v [] :: st.stack)).setStatus .next)) := by
      intro v st' hI' hk' hsw hne hn
      refine QC.next rfl (Inv.setStatus (hI'.setStack _) _) ?_ (fun _ => ?_) (ids' := ids) ?_ fun i hi => .inl hi
      · show Kept ids _ (st'.setStack _).world
        rw [setStack_world]; exact hk'.any
      · rw [← hn]; simp [headNames, State.setStatus]
      · refine Sh.setStatus ?_ _
        exact Sh.moveNone (h.push (.temp v [])) (by simp [ha]) (by simpa using hne) (by simpa using hsw) (by simp) (js := [])
          (by simpa using hk') (by simp)
    refine sat_onOut (hr.run (Claim.rod (na := True) (ids := []) (b := st.swapped) (hI.setStack []) h1
      (Sh.zero (by simpa using h.ne) (by simp)) fun _ => h3)) (fun hu => hu.1) ?_ ?_
    · intro st' ho
      obtain ⟨⟨h4, h5, h6, h7⟩, h8⟩ := ho
      rcases h7 with ⟨h9, ids', h10, _⟩ | ⟨_, h9, _⟩
      · refine sat_next h9 (Sat.ok (hback _ st' h4 (by simpa using h5) (h10.flag h2) h10.ne ?_))
        rw [h6 rfl]; simp [headNames]
      · cases h9
    · intro e st' ho
      obtain ⟨⟨h4, h5, h6, h7⟩, h8⟩ := ho
      refine Sat.ok (hback _ st' h4 (by simpa using h5) (by simpa using h6 trivial) (h8.ne rfl rfl (by simpa using h.ne)) ?_)
      rw [h7 rfl]; simp [headNames]
  | returnS byRef isVoid =>
    unfold Typed at ht
    obtain ⟨rfl, ha, hv⟩ := ht
    have hfl := h.flag ha
    unfold runNode
    dsimp only
    have fin : ∀ st' : State P, Inv sig st' → st'.world = st.world → st'.scopes = st.scopes → RetTop st' →
        QC sig na .stmt b (out sig T (.returnS byRef isVoid)) ids st (.ok (st'.setStatus .ret)) := by
      intro st' hI' hw hsc hrt
      refine ⟨hI'.setStatus _, ?_, nofun, .inr ⟨by simp [State.setStatus], rfl, ?_, ?_, fun _ => hrt⟩⟩
      · show Kept ids _ st'.world
        rw [hw]; exact Kept.refl _ _
      · show st'.scopes ≠ []
        rw [hsc]; exact h.ne
      · show st'.swapped = b
        unfold State.swapped; rw [hsc]; exact hfl
    split
    · exact Sat.ok ⟨hI.setStatus _, Kept.refl _ _, fun _ => rfl, .inr ⟨by simp [State.setStatus], rfl, h.ne, hfl, fun hx => by
        simp [State.setStatus] at hx⟩⟩
    · rename_i hnv
      obtain ⟨r, l, hst⟩ := h.top (by rw [Ty.cur_none ha]; exact hv.resolve_left hnv)
      have hrd := hdef r (by simp [hst])
      refine sat_top hst ?_
      split
      · exact Sat.ok (fin st hI rfl rfl ⟨_, _, hst, by simp⟩)
      · split
        · refine sat_value hrd.1 (fun _ => QC.back hI) fun v hv' => Sat.ok (fin st hI rfl rfl ⟨_, _, hst, fun hi => ?_⟩)
          subst hi
          simp [deref, Ref.toSub, Subscript.Ref.readonly] at hv'
        · exact sat_value hrd.copy (fun _ => QC.back hI) fun v hv' => Sat.ok (fin _ (hI.setStack _) (by simp) (by simp)
            ⟨_, _, setStack_stack _ _, by simp⟩)
  | returnConst v =>
    unfold Typed at ht
    obtain ⟨rfl, ha⟩ := ht
    have hfl := h.flag ha
    refine Sat.ok ⟨(hI.push _).setStatus _, ?_, nofun, .inr ⟨by simp [State.setStatus], rfl, ?_, ?_, fun _ => ?_⟩⟩
    · show Kept ids _ (st.push _).world
      rw [push_world]; exact Kept.refl _ _
    · show (st.push _).scopes ≠ []
      simpa using h.ne
    · show (st.push _).swapped = b
      simpa using hfl
    · exact ⟨_, _, push_stack _ _, by simp⟩
  | defineNull imm nm =>
    unfold Typed at ht
    unfold runNode
    dsimp only
    have hw : ∀ s : Scope P, ({ s with names := setName nm (.var (newVar st).1 []) s.names } : Scope P).swapped = s.swapped :=
      fun _ => rfl
    have hk := kept_newInit st (fun s => { s with names := setName nm (.var (newVar st).1 []) s.names }) .null imm
    have hI1 : Inv sig ((newVar st).2.modScope fun s => { s with names := setName nm (.var (newVar st).1 []) s.names }) :=
      Inv.modScope (hI.kept (st' := (newVar st).2) rfl rfl rfl (kept_newVar st)) fun _ => rfl
    refine Sat.ok (QC.next ?_ ?_ hk.any (fun hj => absurd hj ht) (ids' := ids) ?_ fun i hi => .inl hi)
    · show (State.modScope _ _).status = _
      rw [modScope_status]; exact hs
    · exact ⟨hI1.funcs, hI1.defers, hI1.ptcs, hk.clean hI.clean⟩
    · refine h.move (js := []) ?_ (modScope_swapped (newVar st).2 hw) (modScope_stack (newVar st).2 hw)
        (modScope_alt (newVar st).2 hw) hk (by simp)
      show (State.modScope _ _).scopes ≠ []
      simpa [newVar] using h.ne
  | declareRef nm =>
    unfold Typed at ht
    unfold runNode
    dsimp only
    have hw : ∀ s : Scope P, ({ s with names := setName nm .invalid s.names } : Scope P).swapped = s.swapped := fun _ => rfl
    refine Sat.ok (QC.next (by simpa using hs) (hI.modScope fun _ => rfl) (by simpa using Kept.refl ids _) (fun hj => absurd hj ht)
      (ids' := ids) ?_ fun i hi => .inl hi)
    exact h.move (js := []) (by simpa using h.ne) (modScope_swapped _ hw) (modScope_stack _ hw) (modScope_alt _ hw)
      (by simpa using Kept.refl [] _) (by simp)
  | initRef nm =>
    unfold Typed at ht
    obtain ⟨hj, ha, hk⟩ := ht
    have hc : 1 ≤ T.cur := by rw [Ty.cur_none ha]; exact hk
    obtain ⟨r, l, hst⟩ := h.top hc
    unfold runNode
    dsimp only
    have hw : ∀ s : Scope P, ({ s with names := setName nm r s.names } : Scope P).swapped = s.swapped := fun _ => rfl
    have hI1 : Inv sig (st.modScope fun s => { s with names := setName nm r s.names }) := hI.modScope fun _ => rfl
    refine sat_top hst (Sat.ok (QC.next (by simpa using hs) (hI1.setStack _) (by simpa using Kept.refl ids _)
      (fun hj' => absurd hj' hj) (ids' := ids) ?_ fun i hi => .inl hi))
    exact (h.pop hst hc).move (js := []) (by simpa using h.ne) (by simpa using modScope_swapped _ hw) (by simp)
      (by simpa using modScope_alt _ hw) (by simpa using Kept.refl [] _) (by simp)
  | prim p =>
    unfold Typed at ht
    obtain ⟨hc, hf⟩ := ht
    unfold runNode
    dsimp only
    have hcur := h.cur
    rcases hf with hf | ⟨ha, hk, hf⟩
    · have hp := hsem.prim p st.world st.stack [] (by simpa using hf) (slots_take (by omega)) hdef
      cases hpr : sem.prim p st.world st.stack with
      | ok w' l' =>
        rw [hpr] at hp
        obtain ⟨hk, top, htop, rfl⟩ := hp
        have e1 : st.stack = st.stack.take (sig p).pops ++ st.stack.drop ((sig p).pops + (sig p).fresh) := by
          rw [hf]; simp
        have e2 : (st.stack.take (sig p).pops).length = (sig p).pops := by simp; omega
        have h1 := h.replace (c := top) e1 (by rw [e2]; exact hc)
        rw [e2, htop] at h1
        refine Sat.ok (QC.next (by simpa using hs) (Inv.setStack (hI.kept (st' := { st with world := w' }) rfl rfl rfl hk) _)
          (by simpa using hk.any) (fun _ => by simp [headNames]) (ids' := ids) ?_ fun i hi => .inl hi)
        have h2 : Sh (T.setCur (T.cur - (sig p).pops + (sig p).pushes)) b ids
            (({ st with world := w' } : State P).setStack (top ++ st.stack.drop ((sig p).pops + (sig p).fresh))) :=
          h1.move (js := []) (by simpa using h.ne) (by rw [setStack_swapped, setStack_swapped]; rfl) (by simp)
            (by rw [setStack_alt, setStack_alt]; rfl) (by simpa using hk) (by simp)
        have e3 : out sig T (.prim p) = T.setCur (T.cur - (sig p).pops + (sig p).pushes) := by
          simp only [out, hf, Nat.sub_zero]
        rw [e3]; exact h2
      | throw e w' l' =>
        rw [hpr] at hp
        exact Sat.exc ⟨Inv.setStack (hI.kept (st' := { st with world := w' }) rfl rfl rfl hp) _, by simpa using Kept.any hp,
          fun _ => by rw [setStack_swapped]; rfl, fun _ => by simp [headNames]⟩
      | ub => rw [hpr] at hp; exact hp.elim
    · have hmain := h.main
      simp only [ha, Option.isSome_none, Bool.false_eq_true, if_false, hk] at hmain
      have hp := hsem.prim p st.world st.stack ids (by rw [hf, h.m]) hmain hdef
      cases hpr : sem.prim p st.world st.stack with
      | ok w' l' =>
        rw [hpr] at hp
        obtain ⟨hkp, top, htop, rfl⟩ := hp
        refine Sat.ok (QC.next (by simpa using hs) (Inv.setStack (hI.kept (st' := { st with world := w' }) rfl rfl rfl hkp) _)
          (by simpa using hkp) (fun _ => by simp [headNames]) (ids' := []) ?_ (by simp))
        have e1 : out sig T (.prim p) = ⟨(sig p).pushes, 0, none⟩ := by
          simp [out, Ty.setCur_none ha, Ty.cur_none ha, hk, hf]
        rw [e1]
        refine ⟨by simpa using h.ne, ?_, rfl, by simp, ?_⟩
        · rw [setStack_swapped]; have hfl := h.flag ha; show st.swapped = _; simpa using hfl
        · simp only [Option.isSome_none, Bool.false_eq_true, if_false, setStack_stack]
          exact ⟨⟨top, [], _, rfl, htop, rfl⟩, by simp, by simp⟩
      | throw e w' l' =>
        rw [hpr] at hp
        exact Sat.exc ⟨Inv.setStack (hI.kept (st' := { st with world := w' }) rfl rfl rfl hp) _, by simpa using hp,
          fun _ => by rw [setStack_swapped]; rfl, fun _ => by simp [headNames]⟩
      | ub => rw [hpr] at hp; exact hp.elim

end

end Asteria.Exec.Safe
