import Verif.Proof.CowHashMap
import Verif.Props.Dictionary

/-!
# C38, C77: `cow_hashmap` is a finite map
-/

namespace Asteria.HashMap

open Asteria.Hash

variable {K V : Type} [DecidableEq K]

/-! ## The specification -/

/-- Add a key unless it exists. -/
def addNew (m : AMap K V) (e : K × V) : AMap K V := if (m.get e.1).isNone then m.put e.1 e.2 else m

/-- The operations; `sh` tells whether the storage is shared with other maps when the operation begins. -/
inductive Op (K V : Type) where
  | get (k : K)
  | size
  | tryEmplace (sh : Bool) (k : K) (v : V)
  | insertOrAssign (sh : Bool) (k : K) (v : V)
  | findAndAssign (sh : Bool) (k : K) (v : V)
  | erase (sh : Bool) (k : K)
  | eraseRange (sh : Bool) (tpos tlen : Nat)
  | insertRange (sh : Bool) (es : List (K × V))
  | clear (sh : Bool)
  | reserve (sh : Bool) (n : Nat)
  | shrink (sh : Bool)
  | rehash (n : Nat)

/-- What an operation returns.  `gone` is what iteration from `first` to `last` shows before
`erase(first, last)`. -/
inductive Out (K V : Type) where
  | val (v : Option V)
  | flag (b : Bool)
  | num (n : Nat)
  | gone (l : List (K × V))
  | done
deriving DecidableEq

/-- One operation.  There are no iterators to erase between if there is no storage or the positions are
not positions of buckets. -/
def Op.run (c : Cfg) (hash : K → Nat) (h : Map K V) : Op K V → Res (Out K V × Map K V)
  | .get k => (HashMap.get hash h k).map fun v => (.val v, h)
  | .size => .ok (.num (HashMap.size h), h)
  | .tryEmplace sh k v => (HashMap.tryEmplace c hash sh h k v).map fun r => (.flag r.1.2, r.2)
  | .insertOrAssign sh k v => (HashMap.insertOrAssign c hash sh h k v).map fun r => (.flag r.1, r.2)
  | .findAndAssign sh k v => (HashMap.findAndAssign hash sh h k v).map fun r => (.flag r.1, r.2)
  | .erase sh k => (HashMap.erase hash sh h k).map fun r => (.flag r.1, r.2)
  | .eraseRange sh tpos tlen =>
    match h with
    | none => .ok (.done, none)
    | some st =>
      if tpos + tlen ≤ st.bkts.length then
        (eraseUnchecked hash sh h tpos tlen).map fun h =>
          (.gone (((st.bkts.drop tpos).take tlen).filterMap id), h)
      else .ok (.done, h)
  | .insertRange sh es => (HashMap.insertRange c hash sh h es).map fun h => (.done, h)
  | .clear sh => (HashMap.clear hash sh h).map fun h => (.done, h)
  | .reserve sh n => (HashMap.reserve c hash sh h n).map fun h => (.done, h)
  | .shrink sh => (HashMap.shrink c hash sh h).map fun h => (.done, h)
  | .rehash n => (HashMap.rehash c hash h n).map fun h => (.done, h)

/-- What an operation may return, given the map before it, and the map after it.  Erasing a range is the
only operation that is not determined: it erases some pairs, which are the ones it reports. -/
def Op.spec (m : AMap K V) (out : Out K V) (m' : AMap K V) : Op K V → Prop
  | .get k => out = .val (m.get k) ∧ m' = m
  | .size => out = .num m.length ∧ m' = m
  | .tryEmplace _ k v => out = .flag (m.get k).isNone ∧ m' = addNew m (k, v)
  | .insertOrAssign _ k v => out = .flag (m.get k).isNone ∧ m' = m.put k v
  | .findAndAssign _ k v => out = .flag (m.get k).isSome ∧ m' = if (m.get k).isSome then m.put k v else m
  | .erase _ k => out = .flag (m.get k).isSome ∧ m' = m.del k
  | .eraseRange _ _ _ =>
    (out = .done ∧ m' = m) ∨ ∃ l, out = .gone l ∧ m.Perm (l ++ m')
  | .insertRange _ es => out = .done ∧ m' = es.foldl addNew m
  | .clear _ => out = .done ∧ m' = []
  | .reserve _ _ => out = .done ∧ m' = m
  | .shrink _ => out = .done ∧ m' = m
  | .rehash _ => out = .done ∧ m' = m

/-- The map represents the finite map. -/
def Repr (hash : K → Nat) (h : Map K V) (m : AMap K V) : Prop := Inv hash h ∧ (elemsOf h).Perm m

omit [DecidableEq K] in
theorem Repr.nodup {hash : K → Nat} {h : Map K V} {m : AMap K V} (r : Repr hash h m) :
    (m.map Prod.fst).Nodup := (r.2.map Prod.fst).nodup_iff.1 (nodup_elemsOf hash h r.1)

omit [DecidableEq K] in
theorem Repr.size_eq {hash : K → Nat} {h : Map K V} {m : AMap K V} (r : Repr hash h m) :
    HashMap.size h = m.length := by rw [HashMap.size_eq hash h r.1, r.2.length_eq]

theorem addNew_absent {m : AMap K V} {k : K} (v : V) (h : ∀ w, (k, w) ∉ m) : addNew m (k, v) = (k, v) :: m := by
  have h1 : m.get k = none := (get_eq_none k).2 h
  have h2 := del_absent h
  unfold AMap.del at h2
  simp only [addNew, h1, Option.isNone_none, if_true, AMap.put, h2]

theorem addNew_present {m : AMap K V} {k : K} {w : V} (v : V) (hn : (m.map Prod.fst).Nodup) (h : (k, w) ∈ m) :
    addNew m (k, v) = m := by
  have h1 : m.get k = some w := (get_eq_some hn k w).2 h
  simp [addNew, h1]

/-! ## Single operations -/

theorem get_refines {hash : K → Nat} {h : Map K V} {m : AMap K V} (r : Repr hash h m) (k : K) :
    HashMap.get hash h k = .ok (m.get k) := by
  unfold HashMap.get
  rcases findPos_spec hash h r.1 k with ⟨q, v, st, h1, rfl, h3⟩ | ⟨h1, h2⟩
  · rw [h1, Res.ok_bind]
    simp only
    rw [h3]
    have : m.get k = some v := (get_eq_some r.nodup k v).2 (r.2.mem_iff.1 (mem_elems.2 ⟨q, h3⟩))
    rw [this]
  · rw [h1, Res.ok_bind]
    have : m.get k = none := (get_eq_none k).2 (fun v hv => h2 v (r.2.mem_iff.2 hv))
    rw [this]

/-- `try_emplace`: also, the iterator points to the element with the key. -/
theorem tryEmplace_refines (c : Cfg) (hc : c.Ok) {hash : K → Nat} {h : Map K V} {m : AMap K V}
    (r : Repr hash h m) (sh : Bool) (k : K) (v : V) :
    (m.length + (17 ||| capacity h / 2) > c.limit ∧ tryEmplace c hash sh h k v = .throw) ∨
    ∃ q h', tryEmplace c hash sh h k v = .ok ((q, (m.get k).isNone), h') ∧ Repr hash h' (addNew m (k, v)) ∧
      ((m.get k).isNone = false → h' = h ∧ ∃ w st, h = some st ∧ st.bkts[q]? = some (some (k, w))) := by
  have hslow : ∀ x, x = ((findPos hash h k).bind fun
      | some q => (mutBuckets sh h).map fun h => ((q, false), h)
      | none =>
        (reserveNew c hash h false (17 ||| capacity h / 2)).bind fun st =>
          (st.tryEmplace hash k v).bind fun r =>
            (finishNew hash h r.2).map fun st => ((r.1.1, true), some st)) →
      (m.length + (17 ||| capacity h / 2) > c.limit ∧ x = .throw) ∨
      ∃ q h', x = .ok ((q, (m.get k).isNone), h') ∧ Repr hash h' (addNew m (k, v)) ∧
        ((m.get k).isNone = false → h' = h ∧ ∃ w st, h = some st ∧ st.bkts[q]? = some (some (k, w))) := by
    rintro x rfl
    rcases findPos_spec hash h r.1 k with ⟨q, w, st, h1, h2, h3⟩ | ⟨h1, h2⟩
    · right
      rw [h1, Res.ok_bind]
      simp only
      rw [mutBuckets_spec hash sh h r.1, Res.ok_map]
      have hmem : (k, w) ∈ m := r.2.mem_iff.1 (by rw [h2]; exact mem_elems.2 ⟨q, h3⟩)
      have hg : m.get k = some w := (get_eq_some r.nodup k w).2 hmem
      refine ⟨q, h, by rw [hg]; rfl, ?_, fun _ => ⟨rfl, w, st, h2, h3⟩⟩
      rw [addNew_present v r.nodup hmem]; exact r
    · have habs : ∀ w, (k, w) ∉ m := fun w hw => h2 w (r.2.mem_iff.2 hw)
      have hg : m.get k = none := (get_eq_none k).2 habs
      rw [h1, Res.ok_bind]
      simp only
      rcases reserveNew_spec c hc hash h r.1 false (17 ||| capacity h / 2) with ⟨g1, g2⟩ | ⟨st, g1, g2, g3, g4⟩
      · left
        rw [g2]
        rw [r.size_eq] at g1
        exact ⟨g1, rfl⟩
      · right
        rw [g1, Res.ok_bind]
        have h17 : 17 ≤ 17 ||| capacity h / 2 := Nat.left_le_or
        have he : elems st.bkts = [] := List.perm_nil.1 (by simpa using g4)
        have hn0 : st.nelem = 0 := by rw [g2.nelem, he]; rfl
        rcases Storage.tryEmplace_spec hash st k v g2 (by omega) with ⟨q, w, e1, e2⟩ | ⟨q, st', e1, -, e3, e4, e5, e6, e7⟩
        · have := mem_elems.2 ⟨q, e2⟩
          rw [he] at this; cases this
        · rw [e1, Res.ok_bind]
          rw [he] at e4
          obtain ⟨st2, f1, f2, f3⟩ := finishNew_spec hash h r.1 st' e3 (by
              refine (((e4.map Prod.fst).append_left _).nodup_iff).2 ?_
              rw [List.nodup_append]
              refine ⟨nodup_elemsOf hash h r.1, by simp, ?_⟩
              intro a ha b hb
              simp only [List.map_cons, List.map_nil, List.mem_singleton] at hb
              rintro rfl
              subst hb
              obtain ⟨⟨k', w⟩, hm, rfl⟩ := List.mem_map.1 ha
              exact h2 w hm) (by omega)
          simp only
          rw [f1, Res.ok_map]
          refine ⟨q, some st2, by rw [hg]; rfl, ⟨f2, ?_⟩, by rw [hg]; simp⟩
          rw [addNew_absent v habs]
          refine f3.trans ?_
          refine (e4.append_left _).trans ?_
          refine (List.perm_append_comm).trans ?_
          exact (List.perm_cons _).2 r.2
  cases h with
  | none => exact hslow _ rfl
  | some st =>
    unfold tryEmplace
    simp only
    by_cases hf : (!sh && decide (st.nelem < capacity (some st))) = true
    · rw [if_pos hf]
      right
      rw [Bool.and_eq_true, decide_eq_true_iff] at hf
      rcases Storage.tryEmplace_spec hash st k v r.1 hf.2 with ⟨q, w, e1, e2⟩ | ⟨q, st', e1, e2, e3, e4, -⟩
      · have hmem : (k, w) ∈ m := r.2.mem_iff.1 (mem_elems.2 ⟨q, e2⟩)
        have hg : m.get k = some w := (get_eq_some r.nodup k w).2 hmem
        rw [e1, Res.ok_map]
        refine ⟨q, some st, by rw [hg]; rfl, ?_, fun _ => ⟨rfl, w, st, rfl, e2⟩⟩
        rw [addNew_present v r.nodup hmem]; exact r
      · have habs : ∀ w, (k, w) ∉ m := fun w hw => e2 w (r.2.mem_iff.2 hw)
        have hg : m.get k = none := (get_eq_none k).2 habs
        rw [e1, Res.ok_map]
        refine ⟨q, some st', by rw [hg]; rfl, ⟨e3, ?_⟩, by rw [hg]; simp⟩
        rw [addNew_absent v habs]
        exact e4.trans ((List.perm_cons _).2 r.2)
    · rw [if_neg hf]
      exact hslow _ rfl

theorem assignAt_refines {hash : K → Nat} {st : Storage K V} {m : AMap K V} (r : Repr hash (some st) m)
    (q : Nat) (k : K) (v w : V) (hq : st.bkts[q]? = some (some (k, w))) :
    ∃ h', assignAt (some st) q v = .ok h' ∧ Repr hash h' (m.put k v) := by
  obtain ⟨h1, l, h2, h3⟩ := wf_assign hash st.bkts k w v q r.1.wf hq
  unfold assignAt
  simp only
  rw [hq]
  refine ⟨_, rfl, ⟨h1, ?_, ?_, ?_, ?_⟩, ?_⟩
  · simp only; rw [r.1.nelem, h2.length_eq, h3.length_eq]; simp
  · simp only [List.length_set]; exact r.1.load
  · simp only [List.length_set]; exact r.1.pos
  · simp only [List.length_set]; exact r.1.bound
  · have hp : m.Perm ((k, w) :: l) := r.2.symm.trans h2
    exact h3.trans ((List.perm_cons _).2 (del_perm r.nodup hp).symm)

theorem insertOrAssign_refines (c : Cfg) (hc : c.Ok) {hash : K → Nat} {h : Map K V} {m : AMap K V}
    (r : Repr hash h m) (sh : Bool) (k : K) (v : V) :
    (m.length + (17 ||| capacity h / 2) > c.limit ∧ insertOrAssign c hash sh h k v = .throw) ∨
    ∃ h', insertOrAssign c hash sh h k v = .ok ((m.get k).isNone, h') ∧ Repr hash h' (m.put k v) := by
  unfold insertOrAssign
  rcases tryEmplace_refines c hc r sh k v with ⟨h1, h2⟩ | ⟨q, h', h1, h2, h3⟩
  · exact Or.inl ⟨h1, by rw [h2]; rfl⟩
  · right
    rw [h1, Res.ok_bind]
    cases hg : m.get k with
    | none =>
      simp only [Option.isNone_none, if_true]
      refine ⟨h', rfl, ?_⟩
      have : addNew m (k, v) = m.put k v := by simp [addNew, hg]
      rw [← this]; exact h2
    | some w =>
      obtain ⟨rfl, w', st, rfl, h5⟩ := h3 (by rw [hg]; rfl)
      obtain ⟨h'', g1, g2⟩ := assignAt_refines r q k v w' h5
      simp only [Option.isNone_some, Bool.false_eq_true, if_false]
      rw [g1]
      exact ⟨h'', rfl, g2⟩

theorem findAndAssign_refines {hash : K → Nat} {h : Map K V} {m : AMap K V}
    (r : Repr hash h m) (sh : Bool) (k : K) (v : V) :
    ∃ h', findAndAssign hash sh h k v = .ok ((m.get k).isSome, h') ∧
      Repr hash h' (if (m.get k).isSome then m.put k v else m) := by
  unfold findAndAssign
  rcases findPos_spec hash h r.1 k with ⟨q, w, st, h1, rfl, h3⟩ | ⟨h1, h2⟩
  · rw [h1, Res.ok_bind]
    simp only
    rw [mutBuckets_spec hash sh _ r.1, Res.ok_bind]
    have hg : m.get k = some w := (get_eq_some r.nodup k w).2 (r.2.mem_iff.1 (mem_elems.2 ⟨q, h3⟩))
    obtain ⟨h'', g1, g2⟩ := assignAt_refines r q k v w h3
    rw [g1, hg]
    exact ⟨h'', rfl, g2⟩
  · rw [h1, Res.ok_bind]
    have hg : m.get k = none := (get_eq_none k).2 (fun w hw => h2 w (r.2.mem_iff.2 hw))
    rw [hg]
    exact ⟨h, rfl, r⟩

omit [DecidableEq K] in
theorem eraseUnchecked_refines {hash : K → Nat} {st : Storage K V} {m : AMap K V}
    (r : Repr hash (some st) m) (sh : Bool) (tpos tlen : Nat) (hr : tpos + tlen ≤ st.bkts.length) :
    ∃ h' m', eraseUnchecked hash sh (some st) tpos tlen = .ok h' ∧ Repr hash h' m' ∧
      m.Perm (elems ((st.bkts.drop tpos).take tlen) ++ m') := by
  unfold eraseUnchecked
  rw [mutBuckets_spec hash sh _ r.1, Res.ok_bind]
  simp only
  obtain ⟨st', h1, h2, h3, h4⟩ := Storage.eraseRange_spec hash st tpos tlen r.1 hr
  rw [h1]
  exact ⟨some st', elems st'.bkts, rfl, ⟨h2, List.Perm.refl _⟩, r.2.symm.trans h4⟩

theorem erase_refines {hash : K → Nat} {h : Map K V} {m : AMap K V} (r : Repr hash h m) (sh : Bool) (k : K) :
    ∃ h', erase hash sh h k = .ok ((m.get k).isSome, h') ∧ Repr hash h' (m.del k) := by
  unfold erase
  rcases findPos_spec hash h r.1 k with ⟨q, w, st, h1, rfl, h3⟩ | ⟨h1, h2⟩
  · rw [h1, Res.ok_bind]
    simp only
    have hql : q < st.bkts.length := (List.getElem?_eq_some_iff.1 h3).1
    have hg : m.get k = some w := (get_eq_some r.nodup k w).2 (r.2.mem_iff.1 (mem_elems.2 ⟨q, h3⟩))
    obtain ⟨h', m', g1, g2, g3⟩ := eraseUnchecked_refines r sh q 1 (by omega)
    have hone : elems ((st.bkts.drop q).take 1) = [(k, w)] := by
      rw [List.drop_eq_getElem_cons hql]
      rw [List.getElem?_eq_getElem hql] at h3
      simp only [Option.some.injEq] at h3
      rw [h3]; simp [elems]
    rw [hone] at g3
    rw [g1, hg]
    refine ⟨h', rfl, g2.1, ?_⟩
    exact g2.2.trans (del_perm r.nodup g3).symm
  · rw [h1, Res.ok_bind]
    have habs : ∀ w, (k, w) ∉ m := fun w hw => h2 w (r.2.mem_iff.2 hw)
    have hg : m.get k = none := (get_eq_none k).2 habs
    rw [hg, del_absent habs]
    exact ⟨h, rfl, r⟩

omit [DecidableEq K] in
theorem clear_refines {hash : K → Nat} {h : Map K V} {m : AMap K V} (r : Repr hash h m) (sh : Bool) :
    ∃ h', clear hash sh h = .ok h' ∧ Repr hash h' ([] : AMap K V) := by
  unfold clear
  cases h with
  | none => exact ⟨none, rfl, trivial, List.Perm.refl _⟩
  | some st =>
    simp only
    cases sh with
    | true => exact ⟨none, rfl, trivial, List.Perm.refl _⟩
    | false =>
      simp only [Bool.false_eq_true, if_false]
      obtain ⟨st', h1, h2, h3, h4⟩ := Storage.eraseRange_spec hash st 0 st.bkts.length r.1 (by omega)
      rw [h1]
      refine ⟨some st', rfl, h2, ?_⟩
      rw [List.drop_zero, List.take_length] at h4
      have := h4.length_eq
      rw [List.length_append] at this
      rw [List.perm_nil]
      exact List.length_eq_zero_iff.1 (by simp only [elemsOf]; omega)

omit [DecidableEq K] in
theorem reserveNew_refines (c : Cfg) (hc : c.Ok) {hash : K → Nat} {h : Map K V} {m : AMap K V}
    (r : Repr hash h m) (add : Nat) :
    (m.length + add > c.limit ∧ (reserveNew c hash h true add).map some = .throw) ∨
    ∃ h', (reserveNew c hash h true add).map some = .ok h' ∧ Repr hash h' m := by
  rcases reserveNew_spec c hc hash h r.1 true add with ⟨h1, h2⟩ | ⟨st, h1, h2, -, h4⟩
  · left; rw [h2]; rw [r.size_eq] at h1; exact ⟨h1, rfl⟩
  · right; rw [h1]; exact ⟨some st, rfl, h2, h4.trans r.2⟩

omit [DecidableEq K] in
theorem shrink_refines (c : Cfg) (hc : c.Ok) {hash : K → Nat} {h : Map K V} {m : AMap K V}
    (r : Repr hash h m) (sh : Bool) :
    (m.length > c.limit ∧ shrink c hash sh h = .throw) ∨
    ∃ h', shrink c hash sh h = .ok h' ∧ Repr hash h' m := by
  unfold shrink roundUp
  rw [r.size_eq]
  by_cases h0 : m.length = 0
  · rw [if_pos h0]
    rw [List.length_eq_zero_iff.1 h0]
    exact Or.inr ⟨none, rfl, trivial, List.Perm.refl _⟩
  · rw [if_neg h0]
    by_cases hl : m.length > c.limit
    · rw [if_pos hl]; exact Or.inl ⟨hl, rfl⟩
    · rw [if_neg hl, Res.ok_bind]
      generalize (sh || decide (capacity h ≤ maxNbkt c (minNblk c (m.length * 2)) / 2)) = b
      cases b with
      | true => exact Or.inr ⟨h, rfl, r⟩
      | false =>
        simp only [Bool.false_eq_true, if_false]
        rcases reserveNew_refines c hc r 0 with ⟨h1, _⟩ | h1
        · omega
        · exact Or.inr h1

omit [DecidableEq K] in
/-- `reserve` and `rehash`: the common part. -/
theorem grow_refines (c : Cfg) (hc : c.Ok) {hash : K → Nat} {h : Map K V} {m : AMap K V}
    (r : Repr hash h m) (n : Nat) (keep : Nat → Bool) :
    (max m.length n + c.ssize > c.limit ∧
      ((roundUp c (max m.length n)).bind fun rcap =>
        if keep rcap then .ok h else (reserveNew c hash h true (rcap - m.length)).map some) = .throw) ∨
    ∃ h', ((roundUp c (max m.length n)).bind fun rcap =>
        if keep rcap then .ok h else (reserveNew c hash h true (rcap - m.length)).map some) = .ok h' ∧
      Repr hash h' m := by
  have hb := hc.bpos
  have hlt := hc.lt
  unfold roundUp
  by_cases hl : max m.length n > c.limit
  · rw [if_pos hl]; exact Or.inl ⟨by omega, rfl⟩
  · rw [if_neg hl, Res.ok_bind]
    have hcap : maxNbkt c (minNblk c (max m.length n * 2)) / 2 ≤ max m.length n + c.ssize := by
      unfold maxNbkt minNblk
      rw [Nat.add_sub_cancel]
      generalize max m.length n = k
      generalize hx : k * 2 * c.bsize + c.ssize - 1 - c.bsize = x
      have h1 : x / c.ssize * c.ssize ≤ x := Nat.div_mul_le_self _ _
      have h4 : x / c.ssize * c.ssize < (2 * k + c.ssize) * c.bsize := by
        rw [Nat.add_mul]
        have e1 : k * 2 * c.bsize = 2 * k * c.bsize := by rw [Nat.mul_comm k 2]
        have : c.ssize * 1 ≤ c.ssize * c.bsize := Nat.mul_le_mul_left _ hb
        omega
      have := (Nat.div_lt_iff_lt_mul hb).2 h4
      omega
    generalize maxNbkt c (minNblk c (max m.length n * 2)) / 2 = rcap at hcap ⊢
    cases keep rcap with
    | true => exact Or.inr ⟨h, rfl, r⟩
    | false =>
      simp only [Bool.false_eq_true, if_false]
      rcases reserveNew_refines c hc r (rcap - m.length) with ⟨h1, h2⟩ | h1
      · exact Or.inl ⟨by omega, h2⟩
      · exact Or.inr h1

theorem emplaceAll_refines {hash : K → Nat} (es : List (K × V)) (st : Storage K V) (m : AMap K V)
    (r : Repr hash (some st) m) (hroom : st.nelem + es.length ≤ st.bkts.length / 2) :
    ∃ st', emplaceAll hash es st = .ok st' ∧ Repr hash (some st') (es.foldl addNew m) := by
  induction es generalizing st m with
  | nil => exact ⟨st, rfl, r⟩
  | cons e es ih =>
    obtain ⟨k, v⟩ := e
    simp only [List.length_cons] at hroom
    simp only [emplaceAll, List.foldl_cons]
    rcases Storage.tryEmplace_spec hash st k v r.1 (by omega) with ⟨q, w, e1, e2⟩ | ⟨q, st', e1, e2, e3, e4, e5, e6, -⟩
    · rw [e1, Res.ok_bind, addNew_present v r.nodup (r.2.mem_iff.1 (mem_elems.2 ⟨q, e2⟩))]
      exact ih st m r (by omega)
    · rw [e1, Res.ok_bind, addNew_absent v (fun w hw => e2 w (r.2.mem_iff.2 hw))]
      exact ih st' _ ⟨e3, e4.trans ((List.perm_cons _).2 r.2)⟩ (by omega)

theorem emplaceMissing_refines {hash : K → Nat} (h : Map K V) (hi : Inv hash h) (es : List (K × V))
    (st : Storage K V) (m : AMap K V) (hs : st.Inv hash) (hp : (elemsOf h ++ elems st.bkts).Perm m)
    (hn : (m.map Prod.fst).Nodup)
    (hroom : st.nelem + es.length + size h ≤ st.bkts.length / 2) :
    ∃ st', emplaceMissing hash h es st = .ok st' ∧ st'.Inv hash ∧
      (elemsOf h ++ elems st'.bkts).Perm (es.foldl addNew m) ∧ ((es.foldl addNew m).map Prod.fst).Nodup ∧
      st'.nelem + size h ≤ st'.bkts.length / 2 := by
  induction es generalizing st m with
  | nil => exact ⟨st, rfl, hs, hp, hn, by simpa using hroom⟩
  | cons e es ih =>
    obtain ⟨k, v⟩ := e
    simp only [List.length_cons] at hroom
    simp only [emplaceMissing, List.foldl_cons]
    rcases findPos_spec hash h hi k with ⟨q, w, st0, h1, h2, h3⟩ | ⟨h1, h2⟩
    · rw [h1, Res.ok_bind]
      simp only
      have hmem : (k, w) ∈ m := hp.mem_iff.1 (List.mem_append_left _ (by rw [h2]; exact mem_elems.2 ⟨q, h3⟩))
      rw [addNew_present v hn hmem]
      exact ih st m hs hp hn (by omega)
    · rw [h1, Res.ok_bind]
      simp only
      rcases Storage.tryEmplace_spec hash st k v hs (by omega) with ⟨q, w, e1, e2⟩ | ⟨q, st', e1, e2, e3, e4, e5, e6, -⟩
      · have hmem : (k, w) ∈ m := hp.mem_iff.1 (List.mem_append_right _ (mem_elems.2 ⟨q, e2⟩))
        rw [e1, Res.ok_bind, addNew_present v hn hmem]
        exact ih st m hs hp hn (by omega)
      · have habs : ∀ w, (k, w) ∉ m := by
          intro w hw
          rcases List.mem_append.1 (hp.mem_iff.2 hw) with hw | hw
          · exact h2 w hw
          · exact e2 w hw
        rw [e1, Res.ok_bind, addNew_absent v habs]
        refine ih st' _ e3 ?_ ?_ (by omega)
        · refine (e4.append_left _).trans ?_
          exact List.perm_middle.trans ((List.perm_cons _).2 hp)
        · rw [List.map_cons, List.nodup_cons]
          refine ⟨?_, hn⟩
          intro hk
          obtain ⟨⟨k', w⟩, hm, rfl⟩ := List.mem_map.1 hk
          exact habs w hm

theorem insertRange_refines (c : Cfg) (hc : c.Ok) {hash : K → Nat} {h : Map K V} {m : AMap K V}
    (r : Repr hash h m) (sh : Bool) (es : List (K × V)) :
    (m.length + (es.length ||| capacity h / 2) > c.limit ∧ insertRange c hash sh h es = .throw) ∨
    ∃ h', insertRange c hash sh h es = .ok h' ∧ Repr hash h' (es.foldl addNew m) := by
  unfold insertRange
  by_cases h0 : es.length = 0
  · rw [if_pos h0]
    rw [List.length_eq_zero_iff.1 h0]
    exact Or.inr ⟨h, rfl, r⟩
  · rw [if_neg h0]
    have hslow : ∀ x, x = ((reserveNew c hash h false (es.length ||| capacity h / 2)).bind fun st =>
        (emplaceMissing hash h es st).bind fun st => (finishNew hash h st).map some) →
        (m.length + (es.length ||| capacity h / 2) > c.limit ∧ x = .throw) ∨
        ∃ h', x = .ok h' ∧ Repr hash h' (es.foldl addNew m) := by
      rintro x rfl
      rcases reserveNew_spec c hc hash h r.1 false (es.length ||| capacity h / 2) with ⟨g1, g2⟩ | ⟨st, g1, g2, g3, g4⟩
      · left; rw [g2]; rw [r.size_eq] at g1; exact ⟨g1, rfl⟩
      · right
        rw [g1, Res.ok_bind]
        have hge : es.length ≤ es.length ||| capacity h / 2 := Nat.left_le_or
        have he : elems st.bkts = [] := List.perm_nil.1 (by simpa using g4)
        have hn0 : st.nelem = 0 := by rw [g2.nelem, he]; rfl
        obtain ⟨st1, e1, e2, e3, e4, e5⟩ := emplaceMissing_refines h r.1 es st m g2
          (by rw [he, List.append_nil]; exact r.2) r.nodup (by omega)
        rw [e1, Res.ok_bind]
        obtain ⟨st2, f1, f2, f3⟩ := finishNew_spec hash h r.1 st1 e2
          (by rw [← List.map_append]; exact ((e3.map Prod.fst).nodup_iff).2 e4) (by omega)
        rw [f1]
        exact ⟨some st2, rfl, f2, f3.trans e3⟩
    cases h with
    | none => exact hslow _ rfl
    | some st =>
      simp only
      by_cases hf : (!sh && decide (es.length ≤ capacity (some st) - size (some st))) = true
      · rw [if_pos hf]
        right
        rw [Bool.and_eq_true, decide_eq_true_iff] at hf
        have h2 := hf.2
        simp only [capacity, bucketCount, size] at h2
        obtain ⟨st', g1, g2⟩ := emplaceAll_refines es st m r (by omega)
        rw [g1]
        exact ⟨some st', rfl, g2⟩
      · rw [if_neg hf]
        exact hslow _ rfl

/-! ## C38 -/

/-- How many elements the storage is asked to hold, at most. -/
def Op.demand (c : Cfg) (h : Map K V) (m : AMap K V) : Op K V → Nat
  | .tryEmplace _ _ _ => m.length + (17 ||| capacity h / 2)
  | .insertOrAssign _ _ _ => m.length + (17 ||| capacity h / 2)
  | .insertRange _ es => m.length + (es.length ||| capacity h / 2)
  | .reserve _ n => max m.length n + c.ssize
  | .rehash n => max m.length n + c.ssize
  | .shrink _ => m.length
  | _ => 0

/-- C38: every operation does to the represented map what is specified, whether or not the storage is
shared; it does not fail an assertion, and throws only when the length limit would be exceeded. -/
theorem C38_step (c : Cfg) (hc : c.Ok) (hash : K → Nat) (h : Map K V) (m : AMap K V) (r : Repr hash h m)
    (op : Op K V) :
    (op.demand c h m > c.limit ∧ op.run c hash h = .throw) ∨
    ∃ out h' m', op.run c hash h = .ok (out, h') ∧ op.spec m out m' ∧ Repr hash h' m' := by
  cases op with
  | get k =>
    refine Or.inr ⟨.val (m.get k), h, m, ?_, ⟨rfl, rfl⟩, r⟩
    simp only [Op.run]; rw [get_refines r]; rfl
  | size =>
    refine Or.inr ⟨.num m.length, h, m, ?_, ⟨rfl, rfl⟩, r⟩
    simp only [Op.run]; rw [r.size_eq]
  | tryEmplace sh k v =>
    simp only [Op.run, Op.demand]
    rcases tryEmplace_refines c hc r sh k v with ⟨h1, h2⟩ | ⟨q, h', h1, h2, -⟩
    · exact Or.inl ⟨h1, by rw [h2]; rfl⟩
    · exact Or.inr ⟨_, h', _, by rw [h1]; rfl, ⟨rfl, rfl⟩, h2⟩
  | insertOrAssign sh k v =>
    simp only [Op.run, Op.demand]
    rcases insertOrAssign_refines c hc r sh k v with ⟨h1, h2⟩ | ⟨h', h1, h2⟩
    · exact Or.inl ⟨h1, by rw [h2]; rfl⟩
    · exact Or.inr ⟨_, h', _, by rw [h1]; rfl, ⟨rfl, rfl⟩, h2⟩
  | findAndAssign sh k v =>
    obtain ⟨h', h1, h2⟩ := findAndAssign_refines r sh k v
    exact Or.inr ⟨_, h', _, by simp only [Op.run]; rw [h1]; rfl, ⟨rfl, rfl⟩, h2⟩
  | erase sh k =>
    obtain ⟨h', h1, h2⟩ := erase_refines r sh k
    exact Or.inr ⟨_, h', _, by simp only [Op.run]; rw [h1]; rfl, ⟨rfl, rfl⟩, h2⟩
  | eraseRange sh a n =>
    right
    simp only [Op.run]
    cases h with
    | none => exact ⟨.done, none, m, rfl, Or.inl ⟨rfl, rfl⟩, r⟩
    | some st =>
      simp only
      by_cases hr : a + n ≤ st.bkts.length
      · rw [if_pos hr]
        obtain ⟨h', m', h1, h2, h3⟩ := eraseUnchecked_refines r sh a n hr
        exact ⟨_, h', m', by rw [h1]; rfl, Or.inr ⟨_, rfl, h3⟩, h2⟩
      · rw [if_neg hr]
        exact ⟨.done, some st, m, rfl, Or.inl ⟨rfl, rfl⟩, r⟩
  | insertRange sh es =>
    simp only [Op.run, Op.demand]
    rcases insertRange_refines c hc r sh es with ⟨h1, h2⟩ | ⟨h', h1, h2⟩
    · exact Or.inl ⟨h1, by rw [h2]; rfl⟩
    · exact Or.inr ⟨_, h', _, by rw [h1]; rfl, ⟨rfl, rfl⟩, h2⟩
  | clear sh =>
    obtain ⟨h', h1, h2⟩ := clear_refines r sh
    exact Or.inr ⟨_, h', _, by simp only [Op.run]; rw [h1]; rfl, ⟨rfl, rfl⟩, h2⟩
  | shrink sh =>
    simp only [Op.run, Op.demand]
    rcases shrink_refines c hc r sh with ⟨h1, h2⟩ | ⟨h', h1, h2⟩
    · exact Or.inl ⟨h1, by rw [h2]; rfl⟩
    · exact Or.inr ⟨_, h', _, by rw [h1]; rfl, ⟨rfl, rfl⟩, h2⟩
  | reserve sh n =>
    simp only [Op.run, Op.demand]
    unfold reserve
    by_cases h0 : n = 0
    · rw [if_pos h0]
      rcases shrink_refines c hc r sh with ⟨h1, h2⟩ | ⟨h', h1, h2⟩
      · exact Or.inl ⟨by omega, by rw [h2]; rfl⟩
      · exact Or.inr ⟨_, h', _, by rw [h1]; rfl, ⟨rfl, rfl⟩, h2⟩
    · rw [if_neg h0, r.size_eq]
      rcases grow_refines c hc r n (fun rcap => h.isSome && !sh && decide (capacity h ≥ rcap)) with
        ⟨h1, h2⟩ | ⟨h', h1, h2⟩
      · exact Or.inl ⟨h1, by rw [h2]; rfl⟩
      · exact Or.inr ⟨_, h', _, by rw [h1]; rfl, ⟨rfl, rfl⟩, h2⟩
  | rehash n =>
    simp only [Op.run, Op.demand]
    unfold rehash
    rw [r.size_eq]
    have hk := grow_refines c hc r n (fun rcap => decide (capacity h = rcap))
    simp only [decide_eq_true_eq] at hk
    rcases hk with ⟨h1, h2⟩ | ⟨h', h1, h2⟩
    · exact Or.inl ⟨h1, by rw [h2]; rfl⟩
    · exact Or.inr ⟨_, h', _, by rw [h1]; rfl, ⟨rfl, rfl⟩, h2⟩

/-- A history of operations. -/
def runAll (c : Cfg) (hash : K → Nat) : List (Op K V) → Map K V → Res (List (Out K V))
  | [], _ => .ok []
  | op :: ops, h => (op.run c hash h).bind fun r => (runAll c hash ops r.2).map (r.1 :: ·)

/-- The outputs of a history on finite maps. -/
inductive SpecAll : List (Op K V) → AMap K V → List (Out K V) → Prop
  | nil (m) : SpecAll [] m []
  | cons {op ops m out m' outs} : op.spec m out m' → SpecAll ops m' outs → SpecAll (op :: ops) m (out :: outs)

/-- C38: the outputs of every history, starting with an empty map, are those of a finite map, unless an
operation throws because of the length limit. -/
theorem C38_history (c : Cfg) (hc : c.Ok) (hash : K → Nat) (ops : List (Op K V)) :
    runAll c hash ops none = .throw ∨
    ∃ outs, runAll c hash ops none = .ok outs ∧ SpecAll ops [] outs := by
  have key : ∀ (h : Map K V) (m : AMap K V), Repr hash h m →
      runAll c hash ops h = .throw ∨ ∃ outs, runAll c hash ops h = .ok outs ∧ SpecAll ops m outs := by
    induction ops with
    | nil => exact fun h m _ => Or.inr ⟨[], rfl, .nil m⟩
    | cons op ops ih =>
      intro h m r
      simp only [runAll]
      rcases C38_step c hc hash h m r op with ⟨-, h1⟩ | ⟨out, h', m', h1, h2, h3⟩
      · left; rw [h1]; rfl
      · rw [h1, Res.ok_bind]
        rcases ih h' m' h3 with g | ⟨outs, g1, g2⟩
        · left; simp only; rw [g]; rfl
        · right; simp only; rw [g1]; exact ⟨out :: outs, rfl, .cons h2 g2⟩
  exact key none [] ⟨trivial, List.Perm.refl _⟩

/-- C38: `erase(first, last)` erases exactly the elements between the iterators. -/
theorem C38_erase_range (hash : K → Nat) (st : Storage K V) (m : AMap K V) (r : Repr hash (some st) m)
    (sh : Bool) (tpos tlen : Nat) (hr : tpos + tlen ≤ st.bkts.length) :
    ∃ h' m', eraseUnchecked hash sh (some st) tpos tlen = .ok h' ∧ Repr hash h' m' ∧
      ∀ k, m'.get k = if (AMap.get (((st.bkts.drop tpos).take tlen).filterMap id) k).isSome then none
        else m.get k := by
  obtain ⟨h', m', h1, h2, h3⟩ := eraseUnchecked_refines r sh tpos tlen hr
  refine ⟨h', m', h1, h2, ?_⟩
  intro k
  have hn := (h3.map Prod.fst).nodup_iff.1 r.nodup
  rw [List.map_append, List.nodup_append] at hn
  obtain ⟨n1, n2, n3⟩ := hn
  unfold elems at h3 n1 n3
  generalize ((st.bkts.drop tpos).take tlen).filterMap id = l at h3 n1 n3
  cases hl : AMap.get l k with
  | some w =>
    have hm := (get_eq_some n1 k w).1 hl
    rw [Option.isSome_some, if_pos rfl, get_eq_none]
    intro v hv
    exact n3 k (List.mem_map.2 ⟨_, hm, rfl⟩) k (List.mem_map.2 ⟨_, hv, rfl⟩) rfl
  | none =>
    rw [if_neg (by simp)]
    have hnl := (get_eq_none k).1 hl
    cases hm : m.get k with
    | none =>
      rw [get_eq_none] at hm ⊢
      exact fun v hv => hm v (h3.mem_iff.2 (List.mem_append_right _ hv))
    | some w =>
      rw [get_eq_some r.nodup] at hm
      rw [get_eq_some n2]
      rcases List.mem_append.1 (h3.mem_iff.1 hm) with h | h
      · exact absurd h (hnl w)
      · exact h

/-- C38: what `addNew` means. -/
theorem C38_spec_add (m : AMap K V) (k j : K) (v : V) :
    (addNew m (k, v)).get j = if j = k ∧ m.get k = none then some v else m.get j := by
  unfold addNew
  cases hg : m.get k with
  | none => simp [get_put]
  | some w => simp

/-- The hash of examples. -/
def h0 (n : Nat) : Nat := n % 3

/-- Constants of examples. -/
def c0 : Cfg := ⟨8, 48, 1000⟩

theorem c0_ok : c0.Ok := ⟨by decide, by decide, by decide, by decide⟩

-- a history with collisions, sharing and a range
example : runAll c0 h0 [.tryEmplace false 1 10, .insertRange false [(4, 40), (7, 70), (2, 20), (4, 41)],
    .insertOrAssign true 4 44, .erase true 1, .eraseRange false 0 15, .size, .get 4, .get 7, .get 2, .get 1]
      none = .ok [.flag true, .done, .flag false, .flag true, .gone [(2, 20)], .num 2, .val (some 44),
        .val (some 70), .val none, .val none] := by decide +kernel

/-! ## C77: ranges of single-pass iterators -/

theorem emplaceGrowing_small (c : Cfg) {hash : K → Nat} (h : Map K V) (es : List (K × V)) (st : Storage K V)
    (hs : st.Inv hash) (hi : Inv hash h) (hroom : st.nelem + es.length ≤ st.bkts.length / 2) :
    emplaceGrowing c hash h es st = emplaceMissing hash h es st := by
  induction es generalizing st with
  | nil => rfl
  | cons e es ih =>
    simp only [List.length_cons] at hroom
    simp only [emplaceGrowing, emplaceMissing]
    rw [if_neg (by simp only [capacity, bucketCount]; omega), Res.ok_bind]
    rcases findPos_spec hash h hi e.1 with ⟨q, w, st0, h1, h2, h3⟩ | ⟨h1, h2⟩
    · rw [h1, Res.ok_bind, Res.ok_bind]
      exact ih st hs (by omega)
    · rw [h1, Res.ok_bind, Res.ok_bind]
      simp only
      rcases Storage.tryEmplace_spec hash st e.1 e.2 hs (by omega) with ⟨q, w, e1, e2⟩ | ⟨q, st', e1, e2, e3, e4, e5, e6, -⟩
      · rw [e1, Res.ok_bind, Res.ok_bind]; exact ih st hs (by omega)
      · rw [e1, Res.ok_bind, Res.ok_bind]; exact ih st' e3 (by omega)

/-- C77, up to 17 elements: inserting a range of single-pass iterators adds the elements whose keys are
new.  Missing: longer ranges, for which the claim is false (`C77_false`). -/
theorem C77_partial (c : Cfg) (hc : c.Ok) (hash : K → Nat) (h : Map K V) (m : AMap K V) (r : Repr hash h m)
    (es : List (K × V)) (hes : es.length ≤ 17) :
    (m.length + (17 ||| capacity h / 2) > c.limit ∧ insertStream c hash h es = .throw) ∨
    ∃ h', insertStream c hash h es = .ok h' ∧ Repr hash h' (es.foldl addNew m) := by
  unfold insertStream
  by_cases h0 : es.length = 0
  · rw [if_pos h0]
    rw [List.length_eq_zero_iff.1 h0]
    exact Or.inr ⟨h, rfl, r⟩
  · rw [if_neg h0]
    rcases reserveNew_spec c hc hash h r.1 false (17 ||| capacity h / 2) with ⟨g1, g2⟩ | ⟨st, g1, g2, g3, g4⟩
    · left; rw [g2]; rw [r.size_eq] at g1; exact ⟨g1, rfl⟩
    · right
      rw [g1, Res.ok_bind]
      have hge : 17 ≤ 17 ||| capacity h / 2 := Nat.left_le_or
      have he : elems st.bkts = [] := List.perm_nil.1 (by simpa using g4)
      have hn0 : st.nelem = 0 := by rw [g2.nelem, he]; rfl
      rw [emplaceGrowing_small c h es st g2 r.1 (by omega)]
      obtain ⟨st1, e1, e2, e3, e4, e5⟩ := emplaceMissing_refines h r.1 es st m g2
        (by rw [he, List.append_nil]; exact r.2) r.nodup (by omega)
      rw [e1, Res.ok_bind]
      obtain ⟨st2, f1, f2, f3⟩ := finishNew_spec hash h r.1 st1 e2
        (by rw [← List.map_append]; exact ((e3.map Prod.fst).nodup_iff).2 e4) (by omega)
      rw [f1]
      exact ⟨some st2, rfl, f2, f3.trans e3⟩

example : insertStream c0 h0 none [(1, 10), (4, 40), (1, 11)] ≠ .throw ∧
    ((insertStream c0 h0 none [(1, 10), (4, 40), (1, 11)]).bind fun h => get h0 h 4) = .ok (some 40) := by
  decide +kernel

/-- C77 is false of the code: inserting 19 different keys into an empty map through single-pass iterators
loses the first 18 when the new storage grows, because the existing size of the map instead of `true` is
passed for `finish`. -/
theorem C77_false :
    (insertStream c0 h0 (none : Map Nat Nat) ((List.range 19).map fun i => (i, i))).map (fun h => elemsOf h) =
      .ok [(18, 18)] := by decide +kernel

omit [DecidableEq K] in
/-- `erase(begin(), end())` on a map that has never had storage fails the assertion that there is
storage. -/
theorem C77_erase_empty (hash : K → Nat) (sh : Bool) :
    eraseUnchecked hash sh (none : Map K V) 0 0 = .ub := rfl

end Asteria.HashMap
