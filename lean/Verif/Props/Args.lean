import Verif.Model.Args
import Verif.Proof.Subscript
import Verif.Proof.Exec
import Verif.Model.Args

/-!
# C51: arguments; C52: literals
-/

namespace Asteria.Exec

theorem lookup_setName (n m : Name) (r : Ref) (l : List (Name × Ref)) :
    lookupName n (setName m r l) = if m = n then some r else lookupName n l := by
  induction l with
  | nil =>
    simp only [setName, lookupName]
  | cons p l ih =>
    obtain ⟨k, q⟩ := p
    simp only [setName]
    by_cases hk : k = m
    · subst hk
      simp only [if_true, lookupName]
      split <;> simp_all
    · rw [if_neg hk]
      simp only [lookupName]
      rw [ih]
      by_cases hkn : k = n
      · rw [if_pos hkn, if_pos hkn, if_neg (by rintro rfl; exact hk hkn)]
      · rw [if_neg hkn, if_neg hkn]

theorem bindParams_spec (ps : List (Option Name)) (args : List Ref) (names : List (Name × Ref)) (e : Bool) :
    (bindParams names e ps args).2 = (e || ps.contains none, args.drop (ps.filterMap id).length) ∧
    (∀ p, p ∉ ps.filterMap id → lookupName p (bindParams names e ps args).1 = lookupName p names) ∧
    ((ps.filterMap id).Nodup → ∀ (i : Nat) (p : Name), (ps.filterMap id)[i]? = some p →
      lookupName p (bindParams names e ps args).1 = some (args[i]?.getD (.temp .null []))) := by
  induction ps generalizing args names e with
  | nil => simp [bindParams]
  | cons q ps ih =>
    cases q with
    | none =>
      obtain ⟨h1, h2, h3⟩ := ih args names true
      refine ⟨?_, ?_, ?_⟩
      · simpa [bindParams] using h1
      · simpa [bindParams] using h2
      · simpa [bindParams] using h3
    | some q =>
      simp only [List.filterMap_cons, id, List.length_cons]
      have main : ∀ (r : Ref) (as : List Ref), as = args.drop 1 → r = args[0]?.getD (.temp .null []) →
          bindParams names e (some q :: ps) args = bindParams (setName q r names) e ps as →
          (bindParams names e (some q :: ps) args).2 =
            (e || (some q :: ps).contains none, args.drop ((ps.filterMap id).length + 1)) ∧
          (∀ p, p ∉ q :: ps.filterMap id → lookupName p (bindParams names e (some q :: ps) args).1 = lookupName p names) ∧
          ((q :: ps.filterMap id).Nodup → ∀ (i : Nat) (p : Name), (q :: ps.filterMap id)[i]? = some p →
            lookupName p (bindParams names e (some q :: ps) args).1 = some (args[i]?.getD (.temp .null []))) := by
        intro r as has hr hb
        obtain ⟨h1, h2, h3⟩ := ih as (setName q r names) e
        rw [hb]
        refine ⟨?_, ?_, ?_⟩
        · rw [h1, has, List.drop_drop]
          simp [Nat.add_comm]
        · intro p hp
          rw [List.mem_cons, not_or] at hp
          rw [h2 p hp.2, lookup_setName, if_neg (fun h => hp.1 h.symm)]
        · intro hnd i p hi
          rw [List.nodup_cons] at hnd
          cases i with
          | zero =>
            simp only [List.getElem?_cons_zero, Option.some.injEq] at hi
            subst hi
            rw [h2 q hnd.1, lookup_setName, if_pos rfl, hr]
          | succ i =>
            simp only [List.getElem?_cons_succ] at hi
            rw [h3 hnd.2 i p hi, has]
            simp
      cases args with
      | nil => exact main _ _ rfl rfl rfl
      | cons a as => exact main _ _ (by simp) (by simp) rfl

/-- **C51.**  Parameter `i` of a call is bound to argument `i`, or to null if there are not so many; the arguments that
remain are those of `__varg`, in order; and there must be none unless the function is variadic. -/
theorem C51_binding (params : List (Option Name)) (args : List Ref) :
    let ps := params.filterMap id
    (ps.length < args.length ∧ none ∉ params → bindCall params args = .throw) ∧
    (args.length ≤ ps.length ∨ none ∈ params → ∃ names, bindCall params args = .ok (names, args.drop ps.length) ∧
      (ps.Nodup → ∀ (i : Nat) (p : Name), ps[i]? = some p → lookupName p names = some (args[i]?.getD (.temp .null []))) ∧
      ∀ p, p ∉ ps → lookupName p names = none) := by
  intro ps
  obtain ⟨h1, h2, h3⟩ := bindParams_spec params args [] false
  have h1a : (bindParams [] false params args).2.1 = params.contains none := by rw [h1]; simp
  have h1b : (bindParams [] false params args).2.2 = args.drop ps.length := by rw [h1]
  unfold bindCall
  simp only
  rw [h1a, h1b]
  have hlen : (args.drop ps.length).length = args.length - ps.length := List.length_drop
  constructor
  · rintro ⟨hlt, hno⟩
    rw [if_pos (by omega), if_neg (by simpa using hno)]
  · intro h
    refine ⟨(bindParams [] false params args).1, ?_, h3, fun p hp => ?_⟩
    · split
      · have hin : none ∈ params := by
          rcases h with h | h
          · omega
          · exact h
        rw [if_pos (by simpa using hin)]
      · rename_i h0
        have : args.drop ps.length = [] := List.eq_nil_of_length_eq_zero (by omega)
        rw [this]
    · rw [h2 p hp]
      rfl

/-- `f(a, b, ...)` with one and with four arguments. -/
example : (bindCall [some 1, some 2, none] [.var 7 []] matches .ok ([(1, .var 7 []), (2, .temp .null [])], [])) ∧
    (bindCall [some 1, some 2, none] [.var 7 [], .var 8 [], .var 9 [], .var 5 []] matches
      .ok ([(1, .var 7 []), (2, .var 8 [])], [.var 9 [], .var 5 []])) ∧
    (bindCall [some 1, some 2] [.var 7 [], .var 8 [], .var 9 []] matches .throw) := by decide

/-- `__varg()` is the number of extra arguments; `__varg(k)` is the `k`-th one, from the end if `k` is negative. -/
theorem C51_varg (vargs : List Ref) (hn : vargs.length < 2 ^ 63) :
    varg vargs none = .ok (.temp (.int vargs.length) []) ∧
    (∀ k : Nat, ∀ r, vargs[k]? = some r → varg vargs (some (k : Int)) = .ok r) ∧
    (∀ k : Nat, 1 ≤ k → ∀ r, vargs.reverse[k - 1]? = some r → varg vargs (some (-(k : Int))) = .ok r) := by
  have hf : Subscript.fits (vargs.length : Int) := by unfold Subscript.fits; omega
  refine ⟨rfl, fun k r hk => ?_, fun k h1 r hk => ?_⟩
  · have hlt := (List.getElem?_eq_some_iff.1 hk).1
    unfold varg
    simp only
    rw [Subscript.wrap_in (i := (k : Int)) hf (by omega) (by omega)]
    simp [hk]
  · have hlt := (List.getElem?_eq_some_iff.1 hk).1
    rw [List.length_reverse] at hlt
    rw [List.getElem?_reverse (by omega)] at hk
    unfold varg
    simp only
    rw [Subscript.wrap_in (i := -(k : Int)) hf (by omega) (by omega)]
    rw [if_neg (show ¬ (0 : Int) ≤ -(k : Int) by omega)]
    have : (-(k : Int) + vargs.length).toNat = vargs.length - 1 - (k - 1) := by omega
    rw [this]
    simp [hk]

example : (varg [.var 7 [], .var 8 [], .var 9 []] (some (-1)) matches .ok (.var 9 [])) ∧
    (varg [.var 7 [], .var 8 [], .var 9 []] (some 1) matches .ok (.var 8 [])) := by decide

/-- An index that is out of range yields null; the extreme indices are excluded if there is no extra argument (see C41). -/
theorem C51_varg_null (vargs : List Ref) (hn : vargs.length < 2 ^ 63) (i : Int) (hi : -2 ^ 63 ≤ i ∧ i < 2 ^ 63)
    (hx : vargs.length ≠ 0 ∨ (i ≠ 2 ^ 63 - 1 ∧ i ≠ -2 ^ 63)) (ho : i < -vargs.length ∨ vargs.length ≤ i) :
    varg vargs (some i) = .ok (.temp .null []) := by
  obtain ⟨w, hw⟩ := Subscript.wrap_def (n := vargs.length) (i := i) (by unfold Subscript.fits; omega)
    (by unfold Subscript.fits; omega) hx
  obtain ⟨_, _, h1, h2⟩ := Subscript.wrap_ok hw
  unfold varg
  simp only
  rw [hw]
  simp only [Res.bind]
  rw [if_pos (by omega)]

example : (varg [.var 7 []] (some 1) matches .ok (.temp .null [])) ∧ (varg [] (some 0) matches .ok (.temp .null [])) := by
  decide

/-- What a call does with its arguments is what `Exec.bindArgs` says; the ellipsis, if any, is the last parameter
(/repo/asteria/src/compiler/statement_sequence.cpp). -/
theorem C51_bindArgs (ps : List Name) (va : Bool) (args : List Ref) :
    bindArgs va [] ps args = match bindCall (ps.map some ++ if va then [none] else []) args with
      | .ok r => some r.1
      | _ => none := by
  have key : ∀ (ps : List Name) (args : List Ref) (names : List (Name × Ref)),
      bindArgs va names ps args =
        if args.length ≤ ps.length ∨ va = true
        then some (bindParams names false (ps.map some ++ if va then [none] else []) args).1 else none := by
    intro ps
    induction ps with
    | nil =>
      intro args names
      cases args <;> cases va <;> simp [bindArgs, bindParams]
    | cons p ps ih =>
      intro args names
      cases args with
      | nil => simp only [bindArgs, List.map_cons, List.cons_append, bindParams, ih]; simp
      | cons a as => simp only [bindArgs, List.map_cons, List.cons_append, bindParams, ih]; simp
  rw [key]
  have h1 := (bindParams_spec (ps.map some ++ if va then [none] else []) args [] false).1
  have hfm : (ps.map some ++ if va then [none] else []).filterMap id = ps := by
    cases va <;> simp [List.filterMap_append]
  have hc : (ps.map some ++ if va then [none] else []).contains none = va := by
    cases va <;> simp
  rw [hfm, hc] at h1
  unfold bindCall
  simp only
  rw [h1]
  simp only [List.length_drop, Bool.false_or]
  cases va with
  | true =>
    simp only [or_true, if_true]
    by_cases h : args.length - ps.length ≠ 0
    · rw [if_pos h]
    · rw [if_neg h]
  | false =>
    simp only [Bool.false_eq_true, or_false, if_false]
    by_cases h : args.length ≤ ps.length
    · rw [if_pos h, if_neg (by omega)]
    · rw [if_neg h, if_pos (by omega)]

/-- The example above. -/
example : bindArgs true [] [1, 2] [.var 7 [], .var 8 [], .var 9 []] matches some [(1, .var 7 []), (2, .var 8 [])] := by decide

/-! ## C52 -/

/-- The values of references. -/
inductive Values (w : World) : List Ref → List Value → Prop where
  | nil : Values w [] []
  | cons {r : Ref} {v : Value} {rs : List Ref} {vs : List Value} : deref w r = .ok v → Values w rs vs →
      Values w (r :: rs) (v :: vs)

theorem takeElements_spec (w : World) (rs : List Ref) (vs : List Value) (h : Values w rs vs) (rest : List Ref)
    (acc : List Value) : takeElements w rs.length (rs ++ rest) acc = .ok (vs.reverse ++ acc, rest) := by
  induction h generalizing acc with
  | nil => rfl
  | cons hr _ ih =>
    simp only [List.length_cons, List.cons_append, takeElements, hr, Res.bind, ih]
    simp

/-- **C52.**  `[e1, ..., en]`: the elements have been pushed from left to right (`es.reverse` is on the stack); the result
is the array of their values, in order. -/
theorem C52_array (w : World) (es : List Ref) (vs : List Value) (h : Values w es.reverse vs.reverse) (rest : List Ref) :
    pushArray w es.length (es.reverse ++ rest) = .ok (.temp (.arr vs) [] :: rest) := by
  unfold pushArray
  have := takeElements_spec w es.reverse vs.reverse h rest []
  rw [List.length_reverse] at this
  rw [this]
  simp

example (w : World) : pushArray w 2 [.temp (.int 5) [], .temp .null [], .void] = .ok [.temp (.arr [.null, .int 5]) [], .void] :=
  C52_array w [.temp .null [], .temp (.int 5) []] [.null, .int 5] (.cons rfl (.cons rfl .nil)) [.void]

/-- The value of the last occurrence of a key. -/
def rightmost (k : Bytes) : List Bytes → List Value → Option Value
  | k' :: ks, v :: vs => match rightmost k ks vs with
    | some x => some x
    | none => if k' = k then some v else none
  | _, _ => none

theorem lookup_tryEmplace (k k' : Bytes) (v : Value) (l : List (Bytes × Value)) :
    Subscript.lookup k (tryEmplace k' v l) = (Subscript.lookup k l).or (if k' = k then some v else none) := by
  unfold tryEmplace
  cases h : Subscript.lookup k' l with
  | some x =>
    simp only
    by_cases hk : k' = k
    · subst hk; rw [h]; rfl
    · rw [if_neg hk]; simp
  | none =>
    simp only
    rw [Subscript.lookup_append]
    simp only [Subscript.lookup]

/-- The value of the first occurrence of a key. -/
def leftmost (k : Bytes) : List Bytes → List Value → Option Value
  | k' :: ks, v :: vs => if k' = k then some v else leftmost k ks vs
  | _, _ => none

theorem takeFields_spec (w : World) (rs : List Ref) (vs : List Value) (h : Values w rs vs) (ks : List Bytes)
    (hk : ks.length = rs.length) (rest : List Ref) (acc : List (Bytes × Value)) :
    ∃ l, takeFields w ks (rs ++ rest) acc = .ok (l, rest) ∧
      (∀ k, Subscript.lookup k l = (Subscript.lookup k acc).or (leftmost k ks vs)) ∧
      ((acc.map Prod.fst).Nodup → (l.map Prod.fst).Nodup) := by
  induction h generalizing acc ks with
  | nil =>
    have : ks = [] := List.eq_nil_of_length_eq_zero hk
    subst this
    exact ⟨acc, rfl, fun k => by simp [leftmost], id⟩
  | cons hr _ ih =>
    rename_i r v rs vs _
    cases ks with
    | nil => simp at hk
    | cons k' ks =>
      obtain ⟨l, h1, h2, h3⟩ := ih ks (by simpa using hk) (tryEmplace k' v acc)
      refine ⟨l, ?_, fun k => ?_, fun hnd => h3 ?_⟩
      · simp only [List.cons_append, takeFields, hr, Res.bind, h1]
      · rw [h2, lookup_tryEmplace, leftmost]
        cases Subscript.lookup k acc <;> by_cases hkk : k' = k <;> simp [hkk]
      · unfold tryEmplace
        cases hl : Subscript.lookup k' acc with
        | some x => exact hnd
        | none =>
          have := (Subscript.lookup_none k' acc).1 hl
          simp only [List.map_append, List.map_cons, List.map_nil]
          rw [List.nodup_append]
          exact ⟨hnd, by simp, by intro a ha b hb; simp at hb; subst hb; rintro rfl; exact this ha⟩

theorem leftmost_append (k : Bytes) (a b : List Bytes) (va vb : List Value) (h : a.length = va.length) :
    leftmost k (a ++ b) (va ++ vb) = (leftmost k a va).or (leftmost k b vb) := by
  induction a generalizing va with
  | nil =>
    cases va with
    | nil => simp [leftmost]
    | cons => simp at h
  | cons x a ih =>
    cases va with
    | nil => simp at h
    | cons v va =>
      simp only [List.cons_append, leftmost]
      split
      · rfl
      · exact ih va (by simpa using h)

theorem leftmost_reverse (k : Bytes) (ks : List Bytes) (vs : List Value) (h : ks.length = vs.length) :
    leftmost k ks.reverse vs.reverse = rightmost k ks vs := by
  induction ks generalizing vs with
  | nil => cases vs <;> simp [leftmost, rightmost]
  | cons x ks ih =>
    cases vs with
    | nil => simp at h
    | cons v vs =>
      have h' : ks.length = vs.length := by simpa using h
      simp only [List.reverse_cons]
      rw [leftmost_append k _ _ _ _ (by simp [h']), ih vs h']
      simp only [leftmost, rightmost]
      cases rightmost k ks vs <;> rfl

theorem Values.length {w : World} {rs : List Ref} {vs : List Value} (h : Values w rs vs) : rs.length = vs.length := by
  induction h with
  | nil => rfl
  | cons _ _ ih => simp [ih]

/-- `{ k1: e1, ..., kn: en }`: the result is an object with each of the keys once, and the value of each key is that of
its last occurrence. -/
theorem C52_object (w : World) (ks : List Bytes) (es : List Ref) (vs : List Value) (hk : ks.length = es.length)
    (h : Values w es.reverse vs.reverse) (rest : List Ref) :
    ∃ l, pushObject w ks (es.reverse ++ rest) = .ok (.temp (.obj l) [] :: rest) ∧ (l.map Prod.fst).Nodup ∧
      ∀ k, Subscript.lookup k l = rightmost k ks vs := by
  have hl := h.length
  simp only [List.length_reverse] at hl
  obtain ⟨l, h1, h2, h3⟩ := takeFields_spec w es.reverse vs.reverse h ks.reverse (by simp [hk]) rest []
  refine ⟨l, ?_, h3 (by simp), fun k => ?_⟩
  · unfold pushObject
    rw [h1]
    rfl
  · rw [h2, leftmost_reverse k ks vs (by omega)]
    rfl

/-- `{ a: 1, b: 2, a: 3 }`. -/
example : rightmost [97] [[97], [98], [97]] [.int 1, .int 2, .int 3] matches some (.int 3) := by decide

end Asteria.Exec
