import Verif.Spec.Overload
import Mathlib.Data.List.Forall2

namespace Asteria.ArgReader

open Spec

variable {A : Type} {ofInt : Int → Dbl} {deref : A → Res Value} {args : List A}

theorem cast_iff {t : Ty} {v w : Value} : t.cast ofInt v = some w ↔ HasTy ofInt t v w := by
  constructor
  · intro h
    cases t <;> cases v <;> simp [Ty.cast] at h <;> subst h <;> constructor
  · intro h
    cases h <;> rfl

/-- The text of the parameters that have been read, with a comma after each. -/
def running (names : List Bytes) : Bytes := names.flatMap (· ++ [44, 32])

theorem running_snoc (names : List Bytes) (n : Bytes) : running (names ++ [n]) = running names ++ (n ++ [44, 32]) := by
  simp [running]

theorem running_eq : ∀ {names : List Bytes}, names ≠ [] → running names = [44, 32].intercalate names ++ [44, 32]
  | [], h => absurd rfl h
  | [n], _ => by simp [running, List.intercalate, List.intersperse]
  | n :: m :: l, _ => by
    have := running_eq (names := m :: l) (by simp)
    simp only [running, List.flatMap_cons, List.intercalate, List.intersperse, List.flatten_cons] at this ⊢
    rw [this]
    simp

theorem name_length (p : Param) : p.name.length ≤ 11 := by
  cases p with
  | opt t => cases t <;> decide
  | req t => cases t <;> decide
  | _ => decide

theorem name_noBar (p : Param) : (124 : UInt8) ∉ p.name := by
  cases p with
  | opt t => cases t <;> decide
  | req t => cases t <;> decide
  | _ => decide

theorem running_length : ∀ ps : List Param, (running (ps.map Param.name)).length ≤ 13 * ps.length
  | [] => by simp [running]
  | p :: ps => by
    have h1 := running_length ps
    have h2 := name_length p
    simp only [running, List.map_cons, List.flatMap_cons, List.length_append, List.length_cons, List.length_nil] at h1 ⊢
    omega

/-- A state of the reader stands for a trail. -/
structure Rel (ofInt : Int → Dbl) (deref : A → Res Value) (args : List A) (s : State) (t : Trail) : Prop where
  params : t.ended = false → s.params = running (t.ps.map Param.name)
  nparams : t.ended = false → s.nparams = t.ps.length
  finish : s.finish = t.ended
  matched : t.ended = false → (s.matched = true ↔ t.Viable ofInt deref args)

theorem fits_snoc {ps : List Param} {p : Param} :
    Fits ofInt deref args (ps ++ [p]) ↔ Fits ofInt deref args ps ∧ ∃ o, Takes ofInt deref p args[ps.length]? o := by
  constructor
  · intro h
    refine ⟨fun i q hq => h i q ?_, h ps.length p (by simp)⟩
    have := (List.getElem?_eq_some_iff.mp hq).1
    rw [List.getElem?_append_left this]; exact hq
  · rintro ⟨h1, h2⟩ i q hq
    by_cases hi : i < ps.length
    · rw [List.getElem?_append_left hi] at hq; exact h1 i q hq
    · rw [List.getElem?_append_right (by omega)] at hq
      have : i = ps.length := by
        have := (List.getElem?_eq_some_iff.mp hq).1
        simp at this; omega
      subst this
      simp at hq; subst hq; exact h2

theorem peek_spec {s : State} {n : Nat} (hm : s.matched = true) (hn : s.nparams = n + 1)
    (hb : args.length + (n + 1) < 2 ^ 32) : peek args s = .ok args[n]? := by
  unfold peek
  rw [if_neg (by simp [hm]), hn]
  by_cases h : n + 1 ≤ args.length
  · have : (args.length + (2 ^ 32 - (n + 1))) % 2 ^ 32 = args.length - (n + 1) := by omega
    simp only [this]
    rw [if_neg (by omega), top, if_pos (by omega)]
    have : args.length - 1 - (args.length - (n + 1)) = n := by omega
    rw [this, List.getElem?_eq_getElem (by omega)]; rfl
  · have : (args.length + (2 ^ 32 - (n + 1))) % 2 ^ 32 = args.length + (2 ^ 32 - (n + 1)) := by omega
    simp only [this]
    rw [if_pos (by omega), List.getElem?_eq_none (by omega)]

theorem prepare_spec {s : State} {n : Nat} {name : Bytes} (hf : s.finish = false) (hn : s.nparams = n)
    (hb : n + 1 < 2 ^ 32) :
    prepare name s = .ok { s with params := s.params ++ (name ++ [44, 32]), nparams := n + 1 } := by
  unfold prepare
  rw [hf, hn, Nat.mod_eq_of_lt hb]; rfl

/-- The trail after one more parameter. -/
def push (t : Trail) (p : Param) : Trail := { t with ps := t.ps ++ [p] }

theorem read_spec {s : State} {t : Trail} (p : Param) (hr : Rel ofInt deref args s t) (he : t.ended = false)
    (hb : args.length + (t.ps.length + 1) < 2 ^ 32) (hd : ∀ a ∈ args, deref a ≠ .ub) :
    (∃ s' o, read ofInt deref args p s = .ok (s', o) ∧ Rel ofInt deref args s' (push t p) ∧
      ((t.Viable ofInt deref args ∧ Takes ofInt deref p args[t.ps.length]? o) ∨
        (o = .empty ∧ (t.Viable ofInt deref args → (∀ o, ¬ Takes ofInt deref p args[t.ps.length]? o) ∧
          ∀ a, args[t.ps.length]? = some a → ∃ v, deref a = .ok v)))) ∨
    (read ofInt deref args p s = .throw ∧ t.Viable ofInt deref args ∧ p ≠ .optReference ∧
      ∃ a, args[t.ps.length]? = some a ∧ deref a = .throw) := by
  have hf : s.finish = false := by rw [hr.finish, he]
  have hn := hr.nparams he
  have hm := hr.matched he
  unfold read
  rw [prepare_spec hf hn (by omega)]
  simp only [Res.bind]
  -- what the relation needs in each case
  have hrel : ∀ b : Bool, (b = true ↔ (push t p).Viable ofInt deref args) →
      Rel ofInt deref args ⟨s.params ++ (p.name ++ [44, 32]), t.ps.length + 1, s.finish, b⟩ (push t p) := by
    intro b hbv
    refine ⟨fun _ => ?_, fun _ => by simp [push], by simp [push, hf, he], fun _ => hbv⟩
    simp only [push, List.map_append, List.map_cons, List.map_nil, running_snoc, hr.params he]
  have hpush : (push t p).Viable ofInt deref args ↔
      t.Viable ofInt deref args ∧ ∃ o, Takes ofInt deref p args[t.ps.length]? o := by
    simp only [Trail.Viable, push, fits_snoc]; tauto
  by_cases hv : t.Viable ofInt deref args
  · have hm1 : s.matched = true := hm.mpr hv
    have hpk := peek_spec (args := args)
      (s := { s with params := s.params ++ (p.name ++ [44, 32]), nparams := t.ps.length + 1 }) hm1 rfl hb
    rw [hpk]
    have hyes : ∀ o, Takes ofInt deref p args[t.ps.length]? o → Rel ofInt deref args
        ⟨s.params ++ (p.name ++ [44, 32]), t.ps.length + 1, s.finish, s.matched⟩ (push t p) :=
      fun o ho => hrel _ ⟨fun _ => hpush.mpr ⟨hv, o, ho⟩, fun _ => hm1⟩
    have hno : (∀ o, ¬ Takes ofInt deref p args[t.ps.length]? o) → Rel ofInt deref args
        ⟨s.params ++ (p.name ++ [44, 32]), t.ps.length + 1, s.finish, false⟩ (push t p) :=
      fun ho => hrel _ ⟨fun h => absurd h (by simp), fun h => by
        obtain ⟨_, o, h⟩ := hpush.mp h; exact absurd h (ho o)⟩
    revert hyes hno
    cases ha : args[t.ps.length]? with
    | none =>
      intro hyes hno
      left
      cases p with
      | optReference => exact ⟨_, _, rfl, hyes _ .noReference, .inl ⟨hv, .noReference⟩⟩
      | optValue => exact ⟨_, _, rfl, hyes _ .noValue, .inl ⟨hv, .noValue⟩⟩
      | opt ty => exact ⟨_, _, rfl, hyes _ (.noArgument ty), .inl ⟨hv, .noArgument ty⟩⟩
      | req ty =>
        have hnt : ∀ o, ¬ Takes ofInt deref (.req ty) (none : Option A) o := by intro o h; cases h
        exact ⟨_, _, rfl, hno hnt, .inr ⟨rfl, fun _ => ⟨hnt, by simp⟩⟩⟩
    | some a =>
      intro hyes hno
      have hmem : a ∈ args := List.mem_of_getElem? ha
      cases p with
      | optReference => exact .inl ⟨_, _, rfl, hyes _ (.reference a), .inl ⟨hv, .reference a⟩⟩
      | optValue =>
        simp only
        cases hda : deref a with
        | ub => exact absurd hda (hd a hmem)
        | throw => exact .inr ⟨rfl, hv, by simp, a, rfl, hda⟩
        | ok v => exact .inl ⟨_, _, rfl, hyes _ (.value a v hda), .inl ⟨hv, .value a v hda⟩⟩
      | opt ty =>
        simp only
        cases hda : deref a with
        | ub => exact absurd hda (hd a hmem)
        | throw => exact .inr ⟨rfl, hv, by simp, a, rfl, hda⟩
        | ok v =>
          left
          by_cases hnull : v = .null
          · subst hnull
            exact ⟨_, _, rfl, hyes _ (.null a ty hda), .inl ⟨hv, .null a ty hda⟩⟩
          · have : ∀ (x y : Res (State × Out A)), (match v with | .null => x | _ => y) = y := by
              intro x y; cases v <;> first | exact absurd rfl hnull | rfl
            cases hc : ty.cast ofInt v with
            | none =>
              have hnt : ∀ o, ¬ Takes ofInt deref (.opt ty) (some a) o := by
                intro o h
                cases h with
                | null _ _ h => rw [hda] at h; exact hnull (by injection h)
                | optional _ _ v' w h h' =>
                  rw [hda] at h; injection h with h; subst h
                  rw [← cast_iff, hc] at h'; simp at h'
              refine ⟨_, _, ?_, hno hnt, .inr ⟨rfl, fun _ => ⟨hnt, fun a' ha' => ?_⟩⟩⟩
              · cases v <;> first | exact absurd rfl hnull | simp only [hc]
              · injection ha' with ha'; subst ha'; exact ⟨v, hda⟩
            | some w =>
              have htk : Takes ofInt deref (.opt ty) (some a) (.value w) := .optional a ty v w hda (cast_iff.mp hc)
              refine ⟨_, _, ?_, hyes _ htk, .inl ⟨hv, htk⟩⟩
              cases v <;> first | exact absurd rfl hnull | simp only [hc]
      | req ty =>
        simp only
        cases hda : deref a with
        | ub => exact absurd hda (hd a hmem)
        | throw => exact .inr ⟨rfl, hv, by simp, a, rfl, hda⟩
        | ok v =>
          left
          simp only
          cases hc : ty.cast ofInt v with
          | none =>
            have hnt : ∀ o, ¬ Takes ofInt deref (.req ty) (some a) o := by
              intro o h
              cases h with
              | required _ _ v' w h h' =>
                rw [hda] at h; injection h with h; subst h
                rw [← cast_iff, hc] at h'; simp at h'
            exact ⟨_, _, rfl, hno hnt, .inr ⟨rfl, fun _ => ⟨hnt, fun a' ha' => by
              injection ha' with ha'; subst ha'; exact ⟨v, hda⟩⟩⟩⟩
          | some w =>
            have htk : Takes ofInt deref (.req ty) (some a) (.value w) := .required a ty v w hda (cast_iff.mp hc)
            exact ⟨_, _, rfl, hyes _ htk, .inl ⟨hv, htk⟩⟩
  · have hm0 : s.matched = false := by
      cases h : s.matched with
      | false => rfl
      | true => exact absurd (hm.mp h) hv
    have hnv : ¬ (push t p).Viable ofInt deref args := fun h => hv (hpush.mp h).1
    left
    have hpk : peek args { s with params := s.params ++ (p.name ++ [44, 32]), nparams := t.ps.length + 1 } = .ok none := by
      unfold peek; rw [if_pos (by simp [hm0])]
    rw [hpk]
    have hrl := hrel false ⟨fun h => absurd h (by simp), fun h => absurd h hnv⟩
    have hrl' := hrl
    rw [← hm0] at hrl'
    cases p with
    | req ty => exact ⟨_, _, rfl, hrl, .inr ⟨rfl, fun h => absurd h hv⟩⟩
    | optReference => exact ⟨_, _, rfl, hrl', .inr ⟨rfl, fun h => absurd h hv⟩⟩
    | optValue => exact ⟨_, _, rfl, hrl', .inr ⟨rfl, fun h => absurd h hv⟩⟩
    | opt ty => exact ⟨_, _, rfl, hrl', .inr ⟨rfl, fun h => absurd h hv⟩⟩

theorem take_running (names : List Bytes) (hb : (running names).length < 2 ^ 64) :
    (running names).take (((running names).length + (2 ^ 64 - 2)) % 2 ^ 64) = [44, 32].intercalate names := by
  by_cases hn : names = []
  · subst hn; simp [running, List.intercalate]
  · have h := running_eq hn
    have hl : (running names).length = ([44, 32].intercalate names).length + 2 := by rw [h]; simp
    have : ((running names).length + (2 ^ 64 - 2)) % 2 ^ 64 = ([44, 32].intercalate names).length := by omega
    rw [this, h]; simp

theorem takeVargs_spec {B : Type} (f : A → Res B) (hd : ∀ a ∈ args, f a ≠ .ub) : ∀ (n : Nat) (out : List B), n ≤ args.length →
    (∃ l, takeVargs f args n out = .ok (out ++ l) ∧
      List.Forall₂ (fun a b => f a = .ok b) (args.drop (args.length - n)) l) ∨
    (takeVargs f args n out = .throw ∧ ∃ a ∈ args.drop (args.length - n), f a = .throw)
  | 0, out, _ => by
    left
    exact ⟨[], by simp [takeVargs], by simp⟩
  | n + 1, out, hn => by
    have hlt : args.length - (n + 1) < args.length := by omega
    have hdrop : args.drop (args.length - (n + 1)) = args[args.length - (n + 1)] :: args.drop (args.length - n) := by
      rw [List.drop_eq_getElem_cons hlt]
      congr 2; omega
    have htop : top args n = .ok args[args.length - (n + 1)] := by
      unfold top
      rw [if_pos (by omega)]
      have : args.length - 1 - n = args.length - (n + 1) := by omega
      rw [this, List.getElem?_eq_getElem hlt]
    have hmem : args[args.length - (n + 1)] ∈ args := List.getElem_mem hlt
    simp only [takeVargs, htop, Res.bind, hdrop]
    cases hf : f args[args.length - (n + 1)] with
    | ub => exact absurd hf (hd _ hmem)
    | throw => exact .inr ⟨rfl, _, List.mem_cons_self, hf⟩
    | ok b =>
      rcases takeVargs_spec f hd n (out ++ [b]) (by omega) with ⟨l, h1, h2⟩ | ⟨h1, a, h2, h3⟩
      · left
        exact ⟨b :: l, by simp only [h1]; simp, .cons hf h2⟩
      · right
        exact ⟨h1, a, List.mem_cons_of_mem _ h2, h3⟩

/-- The overloads so far, as `m_overloads` has them. -/
def joined (tx : List Bytes) : Bytes := tx.flatMap (· ++ [124])

theorem joined_snoc (tx : List Bytes) (t : Bytes) : joined (tx ++ [t]) = joined tx ++ (t ++ [124]) := by
  simp [joined]

theorem signatures_joined : ∀ tx : List Bytes, (∀ t ∈ tx, (124 : UInt8) ∉ t) → signatures (joined tx) = tx
  | [], _ => by simp [signatures, joined, listing]
  | t :: tx, h => by
    have ht : (124 : UInt8) ∉ t := h t List.mem_cons_self
    have ih := signatures_joined tx (fun t ht => h t (List.mem_cons_of_mem _ ht))
    have hj : joined (t :: tx) = t ++ 124 :: joined tx := by simp [joined]
    have hc : (t ++ 124 :: joined tx).count 124 = (joined tx).count 124 + 1 := by
      simp [List.count_append, List.count_eq_zero_of_not_mem ht]
    have hall : ∀ x ∈ t, (decide (x ≠ 124)) = true := by
      intro x hx; simp; rintro rfl; exact ht hx
    unfold signatures at ih ⊢
    rw [hj, hc, listing, List.takeWhile_append_of_pos hall, List.dropWhile_append_of_pos hall]
    simp [ih]

theorem intercalate_noBar : ∀ names : List Bytes, (∀ n ∈ names, (124 : UInt8) ∉ n) →
    (124 : UInt8) ∉ [44, 32].intercalate names
  | [], _ => by simp [List.intercalate]
  | [n], h => by simpa [List.intercalate] using h n (by simp)
  | n :: m :: l, h => by
    have ih := intercalate_noBar (m :: l) (fun n hn => h n (List.mem_cons_of_mem _ hn))
    have hn := h n List.mem_cons_self
    simp only [List.intercalate, List.intersperse, List.flatten_cons, List.mem_append] at ih ⊢
    simp only [not_or]
    exact ⟨hn, by decide, ih⟩

theorem text_noBar (ps : List Param) (e : Ending) : (124 : UInt8) ∉ text ps e := by
  apply intercalate_noBar
  intro n hn
  rw [List.mem_append] at hn
  rcases hn with hn | hn
  · obtain ⟨p, _, rfl⟩ := List.mem_map.mp hn
    exact name_noBar p
  · split at hn
    · simp at hn
    · simp at hn; subst hn; decide

/-- The states that have been saved stand for trails. -/
def RelList (ofInt : Int → Dbl) (deref : A → Res Value) (args : List A) (l : List State) (sv : List Trail) : Prop :=
  List.Forall₂ (Rel ofInt deref args) l sv

theorem rel_default : Rel ofInt deref args ({} : State) ({} : Trail) :=
  ⟨fun _ => rfl, fun _ => rfl, rfl, fun _ => ⟨fun h => absurd h (by simp), fun h => absurd h.1 (by simp)⟩⟩

theorem forall₂_set {R : α → β → Prop} {l : List α} {m : List β} (h : List.Forall₂ R l m) (i : Nat) {a : α} {b : β}
    (hab : R a b) : List.Forall₂ R (l.set i a) (m.set i b) := by
  induction h generalizing i with
  | nil => simp
  | cons h1 h2 ih =>
    cases i with
    | zero => exact .cons hab h2
    | succ i => exact .cons h1 (ih i)

/-- The trails after one of them has been saved. -/
def saveTrail (i : Nat) (t : Trail) (sv : List Trail) : List Trail :=
  (sv ++ List.replicate (i + 1 - sv.length) ({} : Trail)).set i t

theorem save_spec {r : Reader} {t : Trail} {sv : List Trail} (i : Nat) (h1 : Rel ofInt deref args r.state t)
    (h2 : RelList ofInt deref args r.saved sv) : RelList ofInt deref args (save i r).saved (saveTrail i t sv) := by
  have hl : r.saved.length = sv.length := h2.length_eq
  unfold save saveTrail RelList
  simp only [hl]
  refine forall₂_set (List.rel_append h2 ?_) i h1
  rw [List.forall₂_iff_get]
  simp [rel_default]

/-- What the outcome of the model stands for. -/
def Result.outcome : Result A → Outcome A
  | .accept k vars vargs => .accept k vars vargs
  | .noMatch ov => .noMatch (signatures ov)

theorem saveTrail_length (i : Nat) (t : Trail) (sv : List Trail) :
    (saveTrail i t sv).length = max sv.length (i + 1) := by
  simp [saveTrail]; omega

theorem saveTrail_same (i : Nat) (t : Trail) (sv : List Trail) : (saveTrail i t sv)[i]? = some t := by
  unfold saveTrail
  rw [List.getElem?_set_self]
  simp; omega

theorem saveTrail_old (i : Nat) (t : Trail) (sv : List Trail) (j : Nat) (hj : j ≠ i) (hl : j < sv.length) :
    (saveTrail i t sv)[j]? = sv[j]? := by
  unfold saveTrail
  rw [List.getElem?_set_ne (Ne.symm hj), List.getElem?_append_left hl]

theorem saveTrail_new (i : Nat) (t : Trail) (sv : List Trail) (j : Nat) (hj : j ≠ i) (hl : sv.length ≤ j)
    (hl' : j < (saveTrail i t sv).length) : (saveTrail i t sv)[j]? = some {} := by
  rw [saveTrail_length] at hl'
  unfold saveTrail
  rw [List.getElem?_set_ne (Ne.symm hj), List.getElem?_append_right hl, List.getElem?_replicate, if_pos (by omega)]

theorem saveTrail_mem {i : Nat} {t : Trail} {sv : List Trail} {u : Trail} (h : u ∈ saveTrail i t sv) :
    u ∈ sv ∨ u = t ∨ u = {} := by
  rcases List.mem_or_eq_of_mem_set h with h | h
  · rw [List.mem_append] at h
    rcases h with h | h
    · exact .inl h
    · exact .inr (.inr (List.eq_of_mem_replicate h))
  · exact .inr (.inl h)

/-- The end of an overload that is not variadic. -/
theorem endFixed_spec {r : Reader} {t : Trail} {tx : List Bytes} (hr : Rel ofInt deref args r.state t)
    (he : t.ended = false) (hb : t.ps.length < 2 ^ 32) (ho : r.overloads = joined tx) :
    ∃ s' b, endFixed args r = .ok ({ r with state := s', overloads := joined (tx ++ [text t.ps .fixed]) }, b) ∧
      Rel ofInt deref args s' { t with ended := true } ∧
      (b = true ↔ t.live = true ∧ Accepts ofInt deref args t.ps .fixed) := by
  have hf : r.state.finish = false := by rw [hr.finish, he]
  have hl := running_length t.ps
  have htx : r.state.params.take ((r.state.params.length + (2 ^ 64 - 2)) % 2 ^ 64) = text t.ps .fixed := by
    rw [hr.params he, take_running _ (by omega)]; simp [text]
  have hm := hr.matched he
  unfold endFixed terminate
  rw [hf, htx, ho, ← joined_snoc]
  simp only [Bool.false_eq_true, if_false, Res.bind]
  have hrel : ∀ b : Bool, Rel ofInt deref args ⟨r.state.params, r.state.nparams, true, b⟩ { t with ended := true } :=
    fun b => ⟨fun h => absurd h (by simp), fun h => absurd h (by simp), rfl, fun h => absurd h (by simp)⟩
  by_cases hmt : r.state.matched = true
  · rw [if_neg (by simp [hmt]), hr.nparams he]
    have hv := hm.mp hmt
    by_cases hc : args.length > t.ps.length
    · rw [if_pos hc]
      refine ⟨_, false, rfl, ?_, ?_⟩
      · have := hrel false; rw [hr.nparams he] at this; exact this
      · refine ⟨fun h => absurd h (by simp), fun h => ?_⟩
        have := h.2.2 rfl; omega
    · rw [if_neg hc]
      refine ⟨_, true, rfl, ?_, ?_⟩
      · have := hrel r.state.matched; rw [hr.nparams he] at this; exact this
      · exact ⟨fun _ => ⟨hv.1, hv.2, fun _ => by omega⟩, fun _ => rfl⟩
  · rw [if_pos hmt]
    refine ⟨_, false, rfl, hrel _, ?_⟩
    exact ⟨fun h => absurd h (by simp), fun h => absurd (hm.mpr ⟨h.1, h.2.1⟩) hmt⟩

/-- The end of an overload that is variadic. -/
theorem endVariadic_spec {B : Type} {r : Reader} {t : Trail} {tx : List Bytes} {e : Ending} (hev : e ≠ .fixed)
    (f : A → Res B) (hfu : ∀ a ∈ args, f a ≠ .ub)
    (hr : Rel ofInt deref args r.state t) (he : t.ended = false) (hb : args.length + (t.ps.length + 1) < 2 ^ 32)
    (ho : r.overloads = joined tx) :
    (∃ s' l, endVariadic f args r = .ok ({ r with state := s', overloads := joined (tx ++ [text t.ps e]) }, some l) ∧
      t.live = true ∧ Accepts ofInt deref args t.ps e ∧
      List.Forall₂ (fun a b => f a = .ok b) (args.drop t.ps.length) l) ∨
    (endVariadic f args r = .throw ∧ t.live = true ∧ Accepts ofInt deref args t.ps e ∧
      ∃ a ∈ args.drop t.ps.length, f a = .throw) ∨
    (∃ s', endVariadic f args r = .ok ({ r with state := s', overloads := joined (tx ++ [text t.ps e]) }, none) ∧
      Rel ofInt deref args s' { t with ended := true } ∧ ¬ (t.live = true ∧ Accepts ofInt deref args t.ps e)) := by
  have hf : r.state.finish = false := by rw [hr.finish, he]
  have hl := running_length t.ps
  have hm := hr.matched he
  have hp : r.state.params ++ ([46, 46, 46] ++ [44, 32]) = running (t.ps.map Param.name ++ [[46, 46, 46]]) := by
    rw [running_snoc, hr.params he]
  have hlen : (running (t.ps.map Param.name ++ [[46, 46, 46]])).length = (running (t.ps.map Param.name)).length + 5 := by
    rw [running_snoc]; simp
  have htx : (running (t.ps.map Param.name ++ [[46, 46, 46]])).take
      (((running (t.ps.map Param.name ++ [[46, 46, 46]])).length + (2 ^ 64 - 2)) % 2 ^ 64) = text t.ps e := by
    rw [take_running _ (by omega)]; simp [text, hev]
  have hacc : Fits ofInt deref args t.ps → Accepts ofInt deref args t.ps e := fun h => ⟨h, fun h' => absurd h' hev⟩
  unfold endVariadic
  rw [prepare_spec hf (hr.nparams he) (by omega)]
  simp only [Res.bind]
  rw [hp]
  unfold terminate
  simp only [hf, htx, ho, Bool.false_eq_true, if_false]
  rw [← joined_snoc]
  by_cases hmt : r.state.matched = true
  · have hv := hm.mp hmt
    rw [if_neg (by simp [hmt])]
    have hnp : (t.ps.length + 1 + (2 ^ 32 - 1)) % 2 ^ 32 = t.ps.length := by omega
    simp only [hnp]
    by_cases hc : args.length > t.ps.length
    · rw [if_pos hc]
      have hsub : args.length - (args.length - t.ps.length) = t.ps.length := by omega
      rcases takeVargs_spec f hfu (args.length - t.ps.length) [] (by omega) with ⟨l, h1, h2⟩ | ⟨h1, a, h2, h3⟩
      · left
        rw [h1]
        rw [hsub] at h2
        exact ⟨_, l, rfl, hv.1, hacc hv.2, h2⟩
      · right; left
        rw [h1]
        rw [hsub] at h2
        exact ⟨rfl, hv.1, hacc hv.2, a, h2, h3⟩
    · rw [if_neg hc]
      left
      refine ⟨_, [], rfl, hv.1, hacc hv.2, ?_⟩
      rw [List.drop_eq_nil_of_le (by omega)]
      exact .nil
  · right; right
    rw [if_pos hmt]
    refine ⟨_, rfl, ⟨fun h => absurd h (by simp), fun h => absurd h (by simp), rfl, fun h => absurd h (by simp)⟩, ?_⟩
    intro h
    exact hmt (hm.mpr ⟨h.1, h.2.1⟩)

theorem forall₂_get {R : α → β → Prop} {l : List α} {m : List β} (h : List.Forall₂ R l m) (i : Nat) :
    (∃ a b, l[i]? = some a ∧ m[i]? = some b ∧ R a b) ∨ (l[i]? = none ∧ m.length ≤ i) := by
  induction h generalizing i with
  | nil => exact .inr ⟨by simp, by simp⟩
  | cons h1 h2 ih =>
    cases i with
    | zero => exact .inl ⟨_, _, rfl, rfl, h1⟩
    | succ i =>
      rcases ih i with ⟨a, b, h3, h4, h5⟩ | ⟨h3, h4⟩
      · exact .inl ⟨a, b, by simpa using h3, by simpa using h4, h5⟩
      · exact .inr ⟨by simpa using h3, by simp; omega⟩

theorem forall₂_ref : ∀ {l : List A} {m : List (Out A)},
    List.Forall₂ (fun a b => Res.ok (Out.reference a) = Res.ok b) l m → m = l.map .reference
  | _, _, .nil => rfl
  | _, _, .cons h1 h2 => by injection h1 with h1; subst h1; rw [forall₂_ref h2]; rfl

theorem forall₂_val : ∀ {l : List A} {m : List (Out A)},
    List.Forall₂ (fun a b => (deref a).map Out.value = Res.ok b) l m →
      ∃ vs, m = vs.map Out.value ∧ List.Forall₂ (fun a v => deref a = .ok v) l vs
  | _, _, .nil => ⟨[], rfl, .nil⟩
  | a :: _, _, .cons h1 h2 => by
    obtain ⟨vs, h3, h4⟩ := forall₂_val h2
    cases hd : deref a with
    | ok v =>
      rw [hd] at h1; simp only [Res.map] at h1; injection h1 with h1; subst h1
      exact ⟨v :: vs, by rw [h3]; rfl, .cons hd h4⟩
    | throw => rw [hd] at h1; simp at h1
    | ub => rw [hd] at h1; simp at h1

theorem run_spec (hd : ∀ a ∈ args, deref a ≠ .ub) : ∀ (ops : List Op) (r : Reader) (t : Trail) (sv : List Trail)
    (tx : List Bytes) (k : Nat) (vars : Nat → Out A),
    Rel ofInt deref args r.state t → RelList ofInt deref args r.saved sv → r.overloads = joined tx →
    (∀ x ∈ tx, (124 : UInt8) ∉ x) → args.length + (t.ps.length + ops.length) < 2 ^ 32 →
    (∀ u ∈ sv, args.length + (u.ps.length + ops.length) < 2 ^ 32) →
    Runs ofInt deref args ops t sv tx k vars ((run ofInt deref args ops r k vars).map Result.outcome)
  | [], r, t, sv, tx, k, vars, _, _, ho, hnb, _, _ => by
    simp only [run, Res.map, Result.outcome, ho, signatures_joined tx hnb]
    exact .none ..
  | .start :: ops, r, t, sv, tx, k, vars, hr, hs, ho, hnb, hb, hbs => by
    rw [run]
    refine .start _ _ _ _ _ _ _ (run_spec hd ops (start r) _ sv tx k vars ?_ hs ho hnb ?_ ?_)
    · refine ⟨fun _ => rfl, fun _ => rfl, rfl, fun _ => ⟨fun _ => ⟨rfl, ?_⟩, fun _ => rfl⟩⟩
      intro i p hp; simp at hp
    · simp only [List.length_cons, List.length_nil] at hb ⊢; omega
    · intro u hu; have := hbs u hu; simp only [List.length_cons] at this; omega
  | .read x p :: ops, r, t, sv, tx, k, vars, hr, hs, ho, hnb, hb, hbs => by
    rw [run]
    simp only [List.length_cons] at hb hbs
    by_cases he : t.ended = true
    · have : read ofInt deref args p r.state = .throw := by
        unfold read prepare; rw [if_pos (by rw [hr.finish, he])]; rfl
      rw [this]
      exact .ended _ _ _ _ _ _ _ _ he
    · have he : t.ended = false := by simpa using he
      rcases read_spec p hr he (by omega) hd with ⟨s', o, h1, h2, h3⟩ | ⟨h1, h2, h3, a, h4, h5⟩
      · rw [h1]
        simp only [Res.bind]
        have ih := fun vars => run_spec hd ops { r with state := s' } (push t p) sv tx k vars h2 hs ho hnb
          (by simp only [push, List.length_append, List.length_cons, List.length_nil]; omega)
          (fun u hu => by have := hbs u hu; omega)
        rcases h3 with ⟨h3, h4⟩ | ⟨h3, h4⟩
        · exact .takes _ _ _ _ _ _ _ _ _ o he h3 h4 (ih _)
        · subst h3
          exact .rejects _ _ _ _ _ _ _ _ _ he h4 (ih _)
      · rw [h1]
        exact .throws _ _ _ _ _ _ _ _ a he h2 h3 h4 h5
  | .save i :: ops, r, t, sv, tx, k, vars, hr, hs, ho, hnb, hb, hbs => by
    rw [run]
    simp only [List.length_cons] at hb hbs
    refine .save i ops t sv tx k vars _ (saveTrail i t sv) (saveTrail_length ..) (saveTrail_same ..)
      (fun j h1 h2 => saveTrail_old _ _ _ j h1 h2) (fun j h1 h2 h3 => saveTrail_new _ _ _ j h1 h2 h3)
      (run_spec hd ops (save i r) t _ tx k vars hr (save_spec i hr hs) ho hnb (by omega) ?_)
    intro u hu
    rcases saveTrail_mem hu with h | h | h
    · have := hbs u h; omega
    · subst h; omega
    · subst h; simp only [List.length_nil]; omega
  | .load i :: ops, r, t, sv, tx, k, vars, hr, hs, ho, hnb, hb, hbs => by
    rw [run]
    simp only [List.length_cons] at hb hbs
    rcases forall₂_get hs i with ⟨s, u, h1, h2, h3⟩ | ⟨h1, h2⟩
    · simp only [load, h1, Res.bind]
      have hu := hbs u (List.mem_of_getElem? h2)
      exact .load i ops t sv tx k vars _ u h2 (run_spec hd ops { r with state := s } u sv tx k vars h3 hs ho hnb (by omega)
        (fun u hu => by have := hbs u hu; omega))
    · simp only [load, h1, Res.bind]
      exact .unsaved _ _ _ _ _ _ _ h2
  | .fin e :: ops, r, t, sv, tx, k, vars, hr, hs, ho, hnb, hb, hbs => by
    simp only [List.length_cons] at hb hbs
    by_cases he : t.ended = true
    · have hfin : r.state.finish = true := by rw [hr.finish, he]
      have : run ofInt deref args (.fin e :: ops) r k vars = .throw := by
        cases e <;> rw [run] <;> simp [endFixed, endVariadic, terminate, prepare, hfin]
      rw [this]
      exact .endedTwice _ _ _ _ _ _ _ he
    · have he : t.ended = false := by simpa using he
      have hnb' : ∀ x ∈ tx ++ [text t.ps e], (124 : UInt8) ∉ x := by
        intro x hx
        rw [List.mem_append, List.mem_singleton] at hx
        rcases hx with hx | hx
        · exact hnb x hx
        · subst hx; exact text_noBar _ _
      have ih := fun s' (h : Rel ofInt deref args s' { t with ended := true }) =>
        run_spec hd ops { r with state := s', overloads := joined (tx ++ [text t.ps e]) } { t with ended := true } sv
          (tx ++ [text t.ps e]) (k + 1) vars h hs rfl hnb' (by simp only; omega)
          (fun u hu => by have := hbs u hu; omega)
      cases e with
      | fixed =>
        rw [run]
        obtain ⟨s', b, h1, h2, h3⟩ := endFixed_spec hr he (by omega) ho
        rw [h1]
        cases b with
        | true =>
          have h := h3.mp rfl
          exact .accept _ _ _ _ _ _ _ _ he h.1 h.2 (.fixed _)
        | false =>
          have h : ¬ _ := fun h => absurd (h3.mpr h) (by simp)
          exact .reject _ _ _ _ _ _ _ _ he h (ih s' h2)
      | references =>
        rw [run]
        rcases endVariadic_spec (e := .references) (by simp) (fun a => .ok (Out.reference a)) (by simp) hr he (by omega) ho
          with ⟨s', l, h1, h2, h3, h4⟩ | ⟨h1, h2, h3, a, h4, h5⟩ | ⟨s', h1, h2, h3⟩
        · rw [h1]
          rw [forall₂_ref h4]
          exact .accept _ _ _ _ _ _ _ _ he h2 h3 (.references _)
        · simp at h5
        · rw [h1]
          exact .reject _ _ _ _ _ _ _ _ he h3 (ih s' h2)
      | values =>
        rw [run]
        have hu : ∀ a ∈ args, (deref a).map (Out.value : Value → Out A) ≠ .ub := by
          intro a ha h
          cases hda : deref a with
          | ub => exact hd a ha hda
          | ok v => rw [hda] at h; simp at h
          | throw => rw [hda] at h; simp at h
        rcases endVariadic_spec (e := .values) (by simp) (fun a => (deref a).map (Out.value : Value → Out A)) hu hr he (by omega) ho
          with ⟨s', l, h1, h2, h3, h4⟩ | ⟨h1, h2, h3, a, h4, h5⟩ | ⟨s', h1, h2, h3⟩
        · rw [h1]
          obtain ⟨vs, h5, h6⟩ := forall₂_val h4
          subst h5
          exact .accept _ _ _ _ _ _ _ _ he h2 h3 (.values _ _ h6)
        · rw [h1]
          refine .acceptThrows _ _ _ _ _ _ a he h2 h3 h4 ?_
          cases hda : deref a with
          | throw => rfl
          | ok v => rw [hda] at h5; simp at h5
          | ub => rw [hda] at h5; simp at h5
        · rw [h1]
          exact .reject _ _ _ _ _ _ _ _ he h3 (ih s' h2)

end Asteria.ArgReader
