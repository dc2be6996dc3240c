import Verif.Spec.Zlib

/-!
# The loops of zlib.cpp end, and with what
-/

namespace Asteria.Zlib

variable {σ : Type} {F : Format} {L : Lib σ} {took gave : σ → Bytes} {closed done : σ → Prop}

theorem doOutput_eq (L : Lib σ) (o : Obj σ) (inp : Bytes) (f : Flush) :
    doOutput L o inp f = (⟨(L.call o.strm inp 4096 f).next, o.output ++ (L.call o.strm inp 4096 f).produced⟩, (L.call o.strm inp 4096 f).consumed,
      (L.call o.strm inp 4096 f).code) := by
  unfold doOutput
  dsimp only
  rw [List.take_left' (by simp)]

theorem take_intMax_ne {rest : Bytes} (h : ¬ (rest.take intMax).length = 0) : rest.take intMax ≠ [] := fun e => h (by rw [e]; rfl)

theorem take_intMax_nil {rest : Bytes} (h : (rest.take intMax).length = 0) : rest = [] := by
  cases rest with
  | nil => rfl
  | cons b t => simp [intMax] at h

/-- What `took` becomes, if a part of `rest` is passed. -/
theorem took_step (c : Counts L took gave) (s : σ) (rest : Bytes) (n : Nat) (f : Flush) :
    took (L.call s (rest.take intMax) n f).next ++ rest.drop (L.call s (rest.take intMax) n f).consumed = took s ++ rest := by
  have hc := c.consumed_le s (rest.take intMax) n f
  rw [c.took_call, List.append_assoc, List.take_take, Nat.min_eq_left (by simp at hc; omega), List.take_append_drop]

/-! ### Compression -/

section
variable {todo : σ → Flush → Nat}

/-- The object goes on from `base`. -/
structure Goes (gave : σ → Bytes) (closed : σ → Prop) (base : Bytes) (o : Obj σ) : Prop where
  out : o.output = base ++ gave o.strm
  opened : ¬ closed o.strm

theorem out_step (c : Counts L took gave) {base : Bytes} {o : Obj σ} (h : o.output = base ++ gave o.strm) (inp : Bytes) (f : Flush) :
    o.output ++ (L.call o.strm inp 4096 f).produced = base ++ gave (L.call o.strm inp 4096 f).next := by
  rw [h, c.gave_call, List.append_assoc]

theorem deflUpdate_ends (D : Deflates F L took gave closed done todo) (base : Bytes) : ∀ (k t : Nat) (o : Obj σ) (rest : Bytes), rest.length = k → todo o.strm .no = t →
    Goes gave closed base o → ∃ o', Ends (fun n => deflUpdate L n o rest) (.ok (), o') ∧ Goes gave closed base o' ∧ took o'.strm = took o.strm ++ rest := by
  intro k
  induction k using Nat.strongRecOn with
  | ind k ihk =>
    intro t
    induction t using Nat.strongRecOn with
    | ind t iht =>
      intro o rest hk ht g
      by_cases h0 : (rest.take intMax).length = 0
      · refine ⟨o, ⟨1, fun m hm => ?_⟩, g, by rw [take_intMax_nil h0, List.append_nil]⟩
        obtain ⟨m, rfl⟩ : ∃ j, m = j + 1 := ⟨m - 1, by omega⟩
        dsimp only
        unfold deflUpdate
        dsimp only
        rw [if_pos h0]
      · have hne := take_intMax_ne h0
        obtain ⟨h1, h2, h3⟩ := D.no_ok o.strm (rest.take intMax) 4096 g.opened hne (by decide)
        have hcl := D.counts.consumed_le o.strm (rest.take intMax) 4096 .no
        have hts := took_step D.counts o.strm rest 4096 .no
        have hl : (rest.take intMax).length ≤ rest.length := by simp; omega
        have g' : Goes gave closed base ⟨(L.call o.strm (rest.take intMax) 4096 .no).next, o.output ++ (L.call o.strm (rest.take intMax) 4096 .no).produced⟩ :=
          ⟨out_step D.counts g.out _ _, h2⟩
        have hrec : ∃ o', Ends (fun n => deflUpdate L n ⟨(L.call o.strm (rest.take intMax) 4096 .no).next, o.output ++ (L.call o.strm (rest.take intMax) 4096 .no).produced⟩
              (rest.drop (L.call o.strm (rest.take intMax) 4096 .no).consumed)) (.ok (), o') ∧ Goes gave closed base o' ∧
            took o'.strm = took (L.call o.strm (rest.take intMax) 4096 .no).next ++ rest.drop (L.call o.strm (rest.take intMax) 4096 .no).consumed := by
          by_cases hz : (L.call o.strm (rest.take intMax) 4096 .no).consumed = 0
          · exact iht _ (by rw [← ht]; exact h3 hz) _ _ (by rw [hz, List.drop_zero, hk]) rfl g'
          · exact ihk (rest.drop (L.call o.strm (rest.take intMax) 4096 .no).consumed).length (by rw [List.length_drop, ← hk]; omega) _ _ _ rfl rfl g'
        obtain ⟨o', ⟨n, hn⟩, g'', ht'⟩ := hrec
        refine ⟨o', ⟨n + 1, fun m hm => ?_⟩, g'', by rw [ht', hts]⟩
        obtain ⟨m, rfl⟩ : ∃ j, m = j + 1 := ⟨m - 1, by omega⟩
        dsimp only
        unfold deflUpdate
        dsimp only
        rw [if_neg h0, doOutput_eq]
        dsimp only
        rw [if_neg (by rw [h1]; simp)]
        exact hn m (by omega)

theorem deflFlush_ends (D : Deflates F L took gave closed done todo) (base : Bytes) : ∀ (t : Nat) (o : Obj σ), todo o.strm .sync = t →
    Goes gave closed base o → ∃ o', Ends (fun n => deflFlush L n o) (.ok (), o') ∧ Goes gave closed base o' ∧ took o'.strm = took o.strm ∧
      F.shown (gave o'.strm) = took o'.strm := by
  intro t
  induction t using Nat.strongRecOn with
  | ind t iht =>
    intro o ht g
    obtain ⟨h1, h2⟩ := D.sync_ok o.strm 4096 g.opened (by decide)
    have htk : took (L.call o.strm [] 4096 .sync).next = took o.strm := by rw [D.counts.took_call]; simp
    have g' : Goes gave closed base ⟨(L.call o.strm [] 4096 .sync).next, o.output ++ (L.call o.strm [] 4096 .sync).produced⟩ :=
      ⟨out_step D.counts g.out _ _, h1⟩
    rcases h2 with ⟨h2, h3⟩ | h2
    · obtain ⟨o', ⟨n, hn⟩, g'', ht', hs⟩ := iht _ (by rw [← ht]; exact h3) _ rfl g'
      refine ⟨o', ⟨n + 1, fun m hm => ?_⟩, g'', by rw [ht']; exact htk, hs⟩
      obtain ⟨m, rfl⟩ : ∃ j, m = j + 1 := ⟨m - 1, by omega⟩
      dsimp only
      unfold deflFlush
      rw [doOutput_eq]
      dsimp only
      rw [h2, if_neg (by decide), if_neg (by decide)]
      exact hn m (by omega)
    · refine ⟨_, ⟨1, fun m hm => ?_⟩, g', htk, D.sync_all _ _ g.opened (by decide) h2⟩
      obtain ⟨m, rfl⟩ : ∃ j, m = j + 1 := ⟨m - 1, by omega⟩
      dsimp only
      unfold deflFlush
      rw [doOutput_eq]
      dsimp only
      rw [h2, if_pos rfl]

theorem deflFinish_ends (D : Deflates F L took gave closed done todo) (base : Bytes) : ∀ (t : Nat) (o : Obj σ), todo o.strm .finish = t →
    o.output = base ++ gave o.strm → ∃ o', Ends (fun n => deflFinish L n o) (.ok (), o') ∧ o'.output = base ++ gave o'.strm ∧ took o'.strm = took o.strm ∧
      gave o.strm <+: gave o'.strm ∧ done o'.strm := by
  intro t
  induction t using Nat.strongRecOn with
  | ind t iht =>
    intro o ht g
    have h2 := D.finish_ok o.strm 4096 (by decide)
    have htk : took (L.call o.strm [] 4096 .finish).next = took o.strm := by rw [D.counts.took_call]; simp
    have hgv : gave o.strm <+: gave (L.call o.strm [] 4096 .finish).next := by rw [D.counts.gave_call]; exact List.prefix_append _ _
    have g' := out_step D.counts g [] .finish
    rcases h2 with ⟨h2, h3⟩ | h2
    · obtain ⟨o', ⟨n, hn⟩, g'', ht', hg', hs⟩ := iht _ (by rw [← ht]; exact h3) ⟨(L.call o.strm [] 4096 .finish).next, o.output ++ (L.call o.strm [] 4096 .finish).produced⟩ rfl g'
      refine ⟨o', ⟨n + 1, fun m hm => ?_⟩, g'', by rw [ht']; exact htk, hgv.trans hg', hs⟩
      obtain ⟨m, rfl⟩ : ∃ j, m = j + 1 := ⟨m - 1, by omega⟩
      dsimp only
      unfold deflFinish
      rw [doOutput_eq]
      dsimp only
      rw [h2, if_neg (by decide), if_neg (by decide)]
      exact hn m (by omega)
    · refine ⟨⟨(L.call o.strm [] 4096 .finish).next, o.output ++ (L.call o.strm [] 4096 .finish).produced⟩, ⟨1, fun m hm => ?_⟩, g', htk, hgv, D.finish_end _ _ (by decide) h2⟩
      obtain ⟨m, rfl⟩ : ∃ j, m = j + 1 := ⟨m - 1, by omega⟩
      dsimp only
      unfold deflFinish
      rw [doOutput_eq]
      dsimp only
      rw [h2, if_pos rfl]

/-- Calls of `update` and `flush` return, and all has gone in. -/
theorem deflOps_end (D : Deflates F L took gave closed done todo) (base : Bytes) : ∀ (ops : List Op) (o : Obj σ), Feeds ops → Goes gave closed base o →
    ∃ o', Ends (fun n => runOps (deflOp L n) o ops) (.ok (), o') ∧ Goes gave closed base o' ∧ took o'.strm = took o.strm ++ fed ops
  | [], o, _, g => ⟨o, ⟨0, fun _ _ => rfl⟩, g, by simp [fed]⟩
  | op :: ops, o, hf, g => by
    have hf' : Feeds ops := fun x hx => hf x (List.mem_cons_of_mem _ hx)
    have h1 : ∃ o₁, Ends (fun n => deflOp L n o op) (.ok (), o₁) ∧ Goes gave closed base o₁ ∧ took o₁.strm ++ fed ops = took o.strm ++ fed (op :: ops) := by
      rcases hf op List.mem_cons_self with rfl | ⟨data, rfl⟩
      · obtain ⟨o₁, he, g₁, ht, _⟩ := deflFlush_ends D base _ o rfl g
        exact ⟨o₁, he, g₁, by rw [ht]; rfl⟩
      · obtain ⟨o₁, he, g₁, ht⟩ := deflUpdate_ends D base _ _ o data rfl rfl g
        exact ⟨o₁, he, g₁, by rw [ht, List.append_assoc]; rfl⟩
    obtain ⟨o₁, ⟨n₁, he⟩, g₁, ht⟩ := h1
    obtain ⟨o₂, ⟨n₂, he₂⟩, g₂, ht₂⟩ := deflOps_end D base ops o₁ hf' g₁
    refine ⟨o₂, ⟨max n₁ n₂, fun m hm => ?_⟩, g₂, by rw [ht₂, ht]⟩
    dsimp only at he he₂ ⊢
    unfold runOps
    rw [he m (by omega)]
    exact he₂ m (by omega)

end

/-- Calls that return, and then others. -/
theorem runOps_append (f : Obj σ → Op → Option (Res Unit × Obj σ)) : ∀ (ops ops' : List Op) (o o' : Obj σ), runOps f o ops = some (.ok (), o') →
    runOps f o (ops ++ ops') = runOps f o' ops'
  | [], _, o, o', h => by cases h; rfl
  | op :: ops, ops', o, o', h => by
    rw [List.cons_append, runOps]
    rw [runOps] at h
    cases hf : f o op with
    | none => rw [hf] at h; cases h
    | some p =>
      obtain ⟨e, o₁⟩ := p
      rw [hf] at h
      cases e with
      | ok u => exact runOps_append f ops ops' o₁ o' h
      | throw => cases h
      | ub => cases h

theorem runOps_one (f : Obj σ → Op → Option (Res Unit × Obj σ)) (o o' : Obj σ) (op : Op) (e : Res Unit) (h : f o op = some (e, o')) : runOps f o [op] = some (e, o') := by
  unfold runOps
  rw [h]
  cases e <;> rfl

/-- Calls that throw, and then others. -/
theorem runOps_throw (f : Obj σ → Op → Option (Res Unit × Obj σ)) : ∀ (ops ops' : List Op) (o o' : Obj σ), runOps f o ops = some (.throw, o') →
    runOps f o (ops ++ ops') = some (.throw, o')
  | [], _, o, o', h => by cases h
  | op :: ops, ops', o, o', h => by
    rw [List.cons_append, runOps]
    rw [runOps] at h
    cases hf : f o op with
    | none => rw [hf] at h; cases h
    | some p =>
      obtain ⟨e, o₁⟩ := p
      rw [hf] at h
      cases e with
      | ok u => exact runOps_throw f ops ops' o₁ o' h
      | throw => exact h
      | ub => cases h

theorem Ends.append {f : Nat → Obj σ → Op → Option (Res Unit × Obj σ)} {ops ops' : List Op} {o o' : Obj σ} {r : Res Unit × Obj σ}
    (h : Ends (fun n => runOps (f n) o ops) (.ok (), o')) (h' : Ends (fun n => runOps (f n) o' ops') r) : Ends (fun n => runOps (f n) o (ops ++ ops')) r := by
  obtain ⟨n, hn⟩ := h
  obtain ⟨n', hn'⟩ := h'
  exact ⟨max n n', fun m hm => by dsimp only at hn hn' ⊢; rw [runOps_append _ _ _ _ _ (hn m (by omega))]; exact hn' m (by omega)⟩

theorem Ends.one {f : Nat → Obj σ → Op → Option (Res Unit × Obj σ)} {op : Op} {o o' : Obj σ} {e : Res Unit}
    (h : Ends (fun n => f n o op) (e, o')) : Ends (fun n => runOps (f n) o [op]) (e, o') := by
  obtain ⟨n, hn⟩ := h
  exact ⟨n, fun m hm => runOps_one _ _ _ _ _ (hn m hm)⟩

theorem Ends.unique {f : Nat → Option α} {r r' : α} (h : Ends f r) (h' : Ends f r') : r = r' := by
  obtain ⟨n, hn⟩ := h
  obtain ⟨n', hn'⟩ := h'
  have h1 := hn (max n n') (by omega)
  rw [hn' (max n n') (by omega)] at h1
  exact (Option.some.inj h1).symm

/-! ### Decompression -/

section
variable {todo : σ → Nat}

/-- `Inflator::update` always ends: all of the input has been read, or the stream has ended within it, or there is an exception. -/
theorem inflUpdate_ends (I : Inflates F L took gave done todo) (base : Bytes) : ∀ (k t : Nat) (o : Obj σ) (rest : Bytes), rest.length = k → todo o.strm = t →
    o.output = base ++ gave o.strm → ∃ e o' l, Ends (fun n => inflUpdate L n o rest) (e, o') ∧ o'.output = base ++ gave o'.strm ∧ took o'.strm ++ l = took o.strm ++ rest ∧
      (e = .ok () ∧ (l = [] ∨ done o'.strm) ∨ e = .throw) ∧
      (∀ z, F.ends z → took o.strm <+: z → (took o.strm ++ rest <+: z ∨ z <+: took o.strm ++ rest) → e = .ok () ∧ took o'.strm <+: z) ∧
      took o.strm <+: took o'.strm ∧ (done o.strm → done o'.strm) := by
  intro k
  induction k using Nat.strongRecOn with
  | ind k ihk =>
    intro t
    induction t using Nat.strongRecOn with
    | ind t iht =>
      intro o rest hk ht g
      by_cases h0 : (rest.take intMax).length = 0
      · refine ⟨.ok (), o, [], ⟨1, fun m hm => ?_⟩, g, by rw [take_intMax_nil h0], .inl ⟨rfl, .inl rfl⟩, fun _ _ h _ => ⟨rfl, h⟩, List.prefix_refl _, id⟩
        obtain ⟨m, rfl⟩ : ∃ j, m = j + 1 := ⟨m - 1, by omega⟩
        dsimp only
        unfold inflUpdate
        dsimp only
        rw [if_pos h0]
      · have hne := take_intMax_ne h0
        have hcl := I.counts.consumed_le o.strm (rest.take intMax) 4096 .no
        have hts := took_step I.counts o.strm rest 4096 .no
        have hpg := I.progress o.strm (rest.take intMax) 4096 .no (by decide)
        have hse := I.stream_end o.strm (rest.take intMax) 4096 .no (by decide)
        have hok := fun z => I.no_ok o.strm (rest.take intMax) 4096 z (by decide) hne
        have hl : (rest.take intMax).length ≤ rest.length := by simp; omega
        have g' := out_step I.counts g (rest.take intMax) .no
        have htp : took o.strm <+: took (L.call o.strm (rest.take intMax) 4096 .no).next := by rw [I.counts.took_call]; exact List.prefix_append _ _
        have hds : done o.strm → (L.call o.strm (rest.take intMax) 4096 .no).code = .streamEnd := fun h => (I.done_stays _ _ _ _ h).1
        have hcmp : ∀ z, (took o.strm ++ rest <+: z ∨ z <+: took o.strm ++ rest) → took o.strm ++ rest.take intMax <+: z ∨ z <+: took o.strm ++ rest.take intMax := by
          intro z hz
          have hp : took o.strm ++ rest.take intMax <+: took o.strm ++ rest := (List.prefix_append_right_inj _).2 (List.take_prefix _ _)
          rcases hz with hz | hz
          · exact .inl (hp.trans hz)
          · exact List.prefix_or_prefix_of_prefix hp hz
        cases hcode : (L.call o.strm (rest.take intMax) 4096 .no).code with
        | streamEnd =>
          refine ⟨.ok (), ⟨(L.call o.strm (rest.take intMax) 4096 .no).next, o.output ++ (L.call o.strm (rest.take intMax) 4096 .no).produced⟩, _, ⟨1, fun m hm => ?_⟩, g', hts,
            .inl ⟨rfl, .inr (hse hcode)⟩, fun z hz hp hz' => ⟨rfl, (hok z hz hp (hcmp z hz')).2⟩, htp, fun _ => hse hcode⟩
          obtain ⟨m, rfl⟩ : ∃ j, m = j + 1 := ⟨m - 1, by omega⟩
          dsimp only
          unfold inflUpdate
          dsimp only
          rw [if_neg h0, doOutput_eq]
          dsimp only
          rw [if_pos hcode]
        | ok =>
          have hrec : ∃ e o' l, Ends (fun n => inflUpdate L n ⟨(L.call o.strm (rest.take intMax) 4096 .no).next, o.output ++ (L.call o.strm (rest.take intMax) 4096 .no).produced⟩
                (rest.drop (L.call o.strm (rest.take intMax) 4096 .no).consumed)) (e, o') ∧ o'.output = base ++ gave o'.strm ∧
              took o'.strm ++ l = took (L.call o.strm (rest.take intMax) 4096 .no).next ++ rest.drop (L.call o.strm (rest.take intMax) 4096 .no).consumed ∧
              (e = .ok () ∧ (l = [] ∨ done o'.strm) ∨ e = .throw) ∧
              (∀ z, F.ends z → took (L.call o.strm (rest.take intMax) 4096 .no).next <+: z →
                (took (L.call o.strm (rest.take intMax) 4096 .no).next ++ rest.drop (L.call o.strm (rest.take intMax) 4096 .no).consumed <+: z ∨
                z <+: took (L.call o.strm (rest.take intMax) 4096 .no).next ++ rest.drop (L.call o.strm (rest.take intMax) 4096 .no).consumed) →
                e = .ok () ∧ took o'.strm <+: z) ∧
              took (L.call o.strm (rest.take intMax) 4096 .no).next <+: took o'.strm ∧ (done (L.call o.strm (rest.take intMax) 4096 .no).next → done o'.strm) := by
            by_cases hz : (L.call o.strm (rest.take intMax) 4096 .no).consumed = 0
            · exact iht _ (by rw [← ht]; exact hpg hcode hz) ⟨_, _⟩ _ (by rw [hz, List.drop_zero, hk]) rfl g'
            · exact ihk (rest.drop (L.call o.strm (rest.take intMax) 4096 .no).consumed).length (by rw [List.length_drop, ← hk]; omega) _ ⟨_, _⟩ _ rfl rfl g'
          obtain ⟨e, o', l, ⟨n, hn⟩, h1, h2, h3, h4, h5, h6⟩ := hrec
          refine ⟨e, o', l, ⟨n + 1, fun m hm => ?_⟩, h1, by rw [h2, hts], h3, fun z hz hp hz' => h4 z hz (hok z hz hp (hcmp z hz')).2 (by rw [hts]; exact hz'),
            htp.trans h5, fun h => by rw [hds h] at hcode; cases hcode⟩
          obtain ⟨m, rfl⟩ : ∃ j, m = j + 1 := ⟨m - 1, by omega⟩
          dsimp only
          unfold inflUpdate
          dsimp only
          rw [if_neg h0, doOutput_eq]
          dsimp only
          rw [if_neg (by rw [hcode]; decide), if_neg (by rw [hcode]; decide)]
          exact hn m (by omega)
        | bufError =>
          refine ⟨.throw, ⟨(L.call o.strm (rest.take intMax) 4096 .no).next, o.output ++ (L.call o.strm (rest.take intMax) 4096 .no).produced⟩, _, ⟨1, fun m hm => ?_⟩, g', hts,
            .inr rfl, fun z hz hp hz' => ?_, htp, fun h => by rw [hds h] at hcode; cases hcode⟩
          · obtain ⟨m, rfl⟩ : ∃ j, m = j + 1 := ⟨m - 1, by omega⟩
            dsimp only
            unfold inflUpdate
            dsimp only
            rw [if_neg h0, doOutput_eq]
            dsimp only
            rw [if_neg (by rw [hcode]; decide), if_pos (by rw [hcode]; decide)]
          · have := (hok z hz hp (hcmp z hz')).1
            rw [hcode] at this
            rcases this with h | h <;> cases h
        | other =>
          refine ⟨.throw, ⟨(L.call o.strm (rest.take intMax) 4096 .no).next, o.output ++ (L.call o.strm (rest.take intMax) 4096 .no).produced⟩, _, ⟨1, fun m hm => ?_⟩, g', hts,
            .inr rfl, fun z hz hp hz' => ?_, htp, fun h => by rw [hds h] at hcode; cases hcode⟩
          · obtain ⟨m, rfl⟩ : ∃ j, m = j + 1 := ⟨m - 1, by omega⟩
            dsimp only
            unfold inflUpdate
            dsimp only
            rw [if_neg h0, doOutput_eq]
            dsimp only
            rw [if_neg (by rw [hcode]; decide), if_pos (by rw [hcode]; decide)]
          · have := (hok z hz hp (hcmp z hz')).1
            rw [hcode] at this
            rcases this with h | h <;> cases h

/-- `Inflator::flush` always ends. -/
theorem inflFlush_ends (I : Inflates F L took gave done todo) (base : Bytes) : ∀ (t : Nat) (o : Obj σ), todo o.strm = t → o.output = base ++ gave o.strm →
    ∃ e o', Ends (fun n => inflFlush L n o) (e, o') ∧ o'.output = base ++ gave o'.strm ∧ took o'.strm = took o.strm ∧ (e = .ok () ∨ e = .throw) ∧
      ((∃ z, F.ends z ∧ took o.strm <+: z) → e = .ok () ∧ gave o'.strm = F.shown (took o'.strm)) ∧ (done o.strm → done o'.strm) := by
  intro t
  induction t using Nat.strongRecOn with
  | ind t iht =>
    intro o ht g
    have htk : took (L.call o.strm [] 4096 .sync).next = took o.strm := by rw [I.counts.took_call]; simp
    have hcz : (L.call o.strm [] 4096 .sync).consumed = 0 := by have := I.counts.consumed_le o.strm [] 4096 .sync; simpa using this
    have g' := out_step I.counts g [] .sync
    have hds : done o.strm → (L.call o.strm [] 4096 .sync).code = .streamEnd := fun h => (I.done_stays _ _ _ _ h).1
    have hse := I.stream_end o.strm [] 4096 .sync (by decide)
    cases hcode : (L.call o.strm [] 4096 .sync).code with
    | streamEnd =>
      refine ⟨.ok (), ⟨(L.call o.strm [] 4096 .sync).next, o.output ++ (L.call o.strm [] 4096 .sync).produced⟩, ⟨1, fun m hm => ?_⟩, g', htk, .inl rfl,
        fun _ => ⟨rfl, (I.done_stream _ (hse hcode)).2.symm⟩, fun _ => hse hcode⟩
      obtain ⟨m, rfl⟩ : ∃ j, m = j + 1 := ⟨m - 1, by omega⟩
      dsimp only
      unfold inflFlush
      rw [doOutput_eq]
      dsimp only
      rw [if_pos (.inr hcode)]
    | bufError =>
      refine ⟨.ok (), ⟨(L.call o.strm [] 4096 .sync).next, o.output ++ (L.call o.strm [] 4096 .sync).produced⟩, ⟨1, fun m hm => ?_⟩, g', htk, .inl rfl,
        fun ⟨z, hz, hz'⟩ => ⟨rfl, I.sync_all _ _ z (by decide) hz hz' hcode⟩, fun h => by rw [hds h] at hcode; cases hcode⟩
      obtain ⟨m, rfl⟩ : ∃ j, m = j + 1 := ⟨m - 1, by omega⟩
      dsimp only
      unfold inflFlush
      rw [doOutput_eq]
      dsimp only
      rw [if_pos (.inl hcode)]
    | other =>
      refine ⟨.throw, ⟨(L.call o.strm [] 4096 .sync).next, o.output ++ (L.call o.strm [] 4096 .sync).produced⟩, ⟨1, fun m hm => ?_⟩, g', htk, .inr rfl,
        fun ⟨z, hz, hz'⟩ => absurd hcode (I.sync_ok _ _ z (by decide) hz hz'), fun h => by rw [hds h] at hcode; cases hcode⟩
      obtain ⟨m, rfl⟩ : ∃ j, m = j + 1 := ⟨m - 1, by omega⟩
      dsimp only
      unfold inflFlush
      rw [doOutput_eq]
      dsimp only
      rw [if_neg (by rw [hcode]; decide), if_pos (by rw [hcode]; decide)]
    | ok =>
      obtain ⟨e, o', ⟨n, hn⟩, h1, h2, h3, h4, _⟩ := iht _ (by rw [← ht]; exact I.progress _ _ _ _ (by decide) hcode hcz)
        ⟨(L.call o.strm [] 4096 .sync).next, o.output ++ (L.call o.strm [] 4096 .sync).produced⟩ rfl g'
      refine ⟨e, o', ⟨n + 1, fun m hm => ?_⟩, h1, by rw [h2]; exact htk, h3, fun ⟨z, hz, hz'⟩ => h4 ⟨z, hz, by dsimp only; rw [htk]; exact hz'⟩,
        fun h => by rw [hds h] at hcode; cases hcode⟩
      obtain ⟨m, rfl⟩ : ∃ j, m = j + 1 := ⟨m - 1, by omega⟩
      dsimp only
      unfold inflFlush
      rw [doOutput_eq]
      dsimp only
      rw [if_neg (by rw [hcode]; decide), if_neg (by rw [hcode]; decide)]
      exact hn m (by omega)

/-- `Inflator::finish` always ends, and after one call of the library. -/
theorem inflFinish_ends (I : Inflates F L took gave done todo) (base : Bytes) (o : Obj σ) (g : o.output = base ++ gave o.strm) :
    ∃ e o', Ends (fun n => inflFinish L n o) (e, o') ∧ o'.output = base ++ gave o'.strm ∧ took o'.strm = took o.strm ∧
      (e = .ok () ∧ done o'.strm ∨ e = .throw) ∧ (done o.strm → e = .ok ()) ∧
      (F.ends (took o.strm) → (e = .ok () ↔ (done o.strm ∨ (F.shown (took o.strm)).length ≤ (gave o.strm).length + 4096))) := by
  have htk : took (L.call o.strm [] 4096 .finish).next = took o.strm := by rw [I.counts.took_call]; simp
  have g' := out_step I.counts g [] .finish
  have hse := I.stream_end o.strm [] 4096 .finish (by decide)
  have hne := I.finish_less o.strm 4096 (by decide)
  have hfin := I.finish_ok o.strm 4096 (by decide)
  have hds : done o.strm → (L.call o.strm [] 4096 .finish).code = .streamEnd := fun h => (I.done_stays _ _ _ _ h).1
  by_cases hcode : (L.call o.strm [] 4096 .finish).code = .streamEnd
  · refine ⟨.ok (), ⟨(L.call o.strm [] 4096 .finish).next, o.output ++ (L.call o.strm [] 4096 .finish).produced⟩, ⟨1, fun m hm => ?_⟩, g', htk, .inl ⟨rfl, hse hcode⟩,
      fun _ => rfl, fun h => ⟨fun _ => .inr ?_, fun _ => rfl⟩⟩
    · obtain ⟨m, rfl⟩ : ∃ j, m = j + 1 := ⟨m - 1, by omega⟩
      dsimp only
      unfold inflFinish
      rw [doOutput_eq]
      dsimp only
      rw [if_pos hcode]
    · have := hfin h
      rw [hcode] at this
      exact Decidable.byContradiction fun hn => by rw [if_neg hn] at this; cases this
  · refine ⟨.throw, ⟨(L.call o.strm [] 4096 .finish).next, o.output ++ (L.call o.strm [] 4096 .finish).produced⟩, ⟨1, fun m hm => ?_⟩, g', htk, .inr rfl,
      fun h => absurd (hds h) hcode, fun h => ⟨(fun h' => by cases h'), fun h' => ?_⟩⟩
    · obtain ⟨m, rfl⟩ : ∃ j, m = j + 1 := ⟨m - 1, by omega⟩
      dsimp only
      unfold inflFinish
      rw [doOutput_eq]
      dsimp only
      rw [if_neg hcode, if_pos hne]
    · rcases h' with h' | h'
      · exact absurd (hds h') hcode
      · exact absurd (by rw [hfin h, if_pos h']) hcode

/-- Calls of `update` and `flush` end; if none throws, all of the input has been read, or a stream has ended within it. -/
theorem inflOps_end (I : Inflates F L took gave done todo) (base : Bytes) : ∀ (ops : List Op) (o : Obj σ), Feeds ops → o.output = base ++ gave o.strm →
    ∃ e o', Ends (fun n => runOps (inflOp L n) o ops) (e, o') ∧ o'.output = base ++ gave o'.strm ∧ took o.strm <+: took o'.strm ∧ (done o.strm → done o'.strm) ∧
      (e = .ok () ∧ (done o'.strm ∧ took o'.strm <+: took o.strm ++ fed ops ∨ took o'.strm = took o.strm ++ fed ops) ∨ e = .throw) ∧
      (∀ z, F.ends z → took o.strm <+: z → (took o.strm ++ fed ops <+: z ∨ z <+: took o.strm ++ fed ops) → e = .ok () ∧ took o'.strm <+: z)
  | [], o, _, g => ⟨.ok (), o, ⟨0, fun _ _ => rfl⟩, g, List.prefix_refl _, id, .inl ⟨rfl, .inr (by simp [fed])⟩, fun _ _ h _ => ⟨rfl, h⟩⟩
  | op :: ops, o, hf, g => by
    have hf' : Feeds ops := fun x hx => hf x (List.mem_cons_of_mem _ hx)
    have h1 : ∃ e o₁ l, Ends (fun n => inflOp L n o op) (e, o₁) ∧ o₁.output = base ++ gave o₁.strm ∧ took o₁.strm ++ l ++ fed ops = took o.strm ++ fed (op :: ops) ∧
        (e = .ok () ∧ (l = [] ∨ done o₁.strm) ∨ e = .throw) ∧
        (∀ z, F.ends z → took o.strm <+: z → (took o.strm ++ fed (op :: ops) <+: z ∨ z <+: took o.strm ++ fed (op :: ops)) → e = .ok () ∧ took o₁.strm <+: z) ∧
        took o.strm <+: took o₁.strm ∧ (done o.strm → done o₁.strm) := by
      rcases hf op List.mem_cons_self with rfl | ⟨data, rfl⟩
      · obtain ⟨e, o₁, he, h2, h3, h4, h5, h6⟩ := inflFlush_ends I base _ o rfl g
        exact ⟨e, o₁, [], he, h2, by rw [h3, List.append_nil]; rfl, h4.imp (fun h => ⟨h, .inl rfl⟩) id, fun z hz hp _ => ⟨(h5 ⟨z, hz, hp⟩).1, by rw [h3]; exact hp⟩,
          by rw [h3]; exact List.prefix_refl _, h6⟩
      · obtain ⟨e, o₁, l, he, h2, h3, h4, h5, h6, h7⟩ := inflUpdate_ends I base _ _ o data rfl rfl g
        refine ⟨e, o₁, l, he, h2, by rw [h3, List.append_assoc]; rfl, h4, fun z hz hp hc => h5 z hz hp ?_, h6, h7⟩
        have hp' : took o.strm ++ data <+: took o.strm ++ fed (.update data :: ops) := by
          show _ <+: _ ++ (data ++ fed ops)
          rw [← List.append_assoc]
          exact List.prefix_append _ _
        rcases hc with hc | hc
        · exact .inl (hp'.trans hc)
        · exact List.prefix_or_prefix_of_prefix hp' hc
    obtain ⟨e, o₁, l, ⟨n₁, he⟩, hg, ht, hl, hv, hp, hd⟩ := h1
    rcases hl with ⟨rfl, hl⟩ | rfl
    · obtain ⟨e₂, o₂, ⟨n₂, he₂⟩, hg₂, hp₂, hd₂, hr₂, hv₂⟩ := inflOps_end I base ops o₁ hf' hg
      refine ⟨e₂, o₂, ⟨max n₁ n₂, fun m hm => ?_⟩, hg₂, hp.trans hp₂, fun h => hd₂ (hd h), ?_, fun z hz hpz hc => ?_⟩
      · dsimp only at he he₂ ⊢
        unfold runOps
        rw [he m (by omega)]
        exact he₂ m (by omega)
      · rcases hr₂ with ⟨rfl, hr₂⟩ | rfl
        · refine .inl ⟨rfl, ?_⟩
          rcases hl with rfl | hl
          · rw [← ht, List.append_nil]
            exact hr₂
          · refine .inl ⟨hd₂ hl, ?_⟩
            have e1 : took o₁.strm = took o₂.strm := F.prefixFree _ _ (I.done_stream _ hl).1 (I.done_stream _ (hd₂ hl)).1 hp₂
            rw [← e1, ← ht, List.append_assoc]
            exact List.prefix_append _ _
        · exact .inr rfl
      · have hpz₁ := (hv z hz hpz hc).2
        rcases hl with rfl | hl
        · rw [← ht, List.append_nil] at hc
          exact hv₂ z hz hpz₁ hc
        · have e1 : took o₁.strm = z := F.prefixFree _ _ (I.done_stream _ hl).1 hz hpz₁
          exact hv₂ z hz hpz₁ (.inr (by rw [← e1]; exact List.prefix_append _ _))
    · refine ⟨.throw, o₁, ⟨n₁, fun m hm => ?_⟩, hg, hp, hd, .inr rfl, fun z hz hpz hc => by cases (hv z hz hpz hc).1⟩
      dsimp only at he ⊢
      unfold runOps
      rw [he m hm]

end

end Asteria.Zlib
