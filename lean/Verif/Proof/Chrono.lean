import Verif.Model.Chrono
import Verif.Spec.Chrono

/-!
# Dates and their text
-/

namespace Asteria.Chrono

theorem daysBefore_succ (y : Int) : daysBefore (y + 1) = daysBefore y + (if leap y then 366 else 365) := by
  unfold daysBefore leap
  by_cases h4 : y % 4 = 0 <;> by_cases h100 : y % 100 = 0 <;> by_cases h400 : y % 400 = 0 <;> simp [h4, h100, h400] <;> omega

/-- The year has been found. -/
theorem findYear_spec (n : Int) : daysBefore (findYear n) ≤ n ∧ n < daysBefore (findYear n + 1) := by
  unfold findYear
  simp only
  generalize hd : n % 146097 = d
  generalize hq : d / 366 = q
  generalize he : n / 146097 = e
  have h1 : 0 ≤ d ∧ d < 146097 := by omega
  have hn : n = 146097 * e + d := by omega
  have hper : ∀ y, daysBefore (400 * e + y) = 146097 * e + daysBefore y := by
    intro y; unfold daysBefore; omega
  have hq1 : 366 * q ≤ d ∧ d < 366 * q + 366 := by omega
  have hq2 : 0 ≤ q ∧ q ≤ 399 := by omega
  have hA : daysBefore q ≤ d := by unfold daysBefore; omega
  have hB : d < daysBefore (q + 2) := by unfold daysBefore; omega
  split
  · rename_i h
    rw [Int.add_assoc, hper, hper]
    exact ⟨by omega, by rw [show q + 1 + 1 = q + 2 by omega]; omega⟩
  · rename_i h
    rw [Int.add_assoc, hper, hper]
    exact ⟨by omega, by omega⟩

theorem findMonth_spec : ∀ (ls : List Int) (d : Int), 0 ≤ d → d < ls.sum → (∀ x ∈ ls, 0 < x) →
    0 ≤ (findMonth ls d).1 ∧ (findMonth ls d).1 < ls.length ∧ 0 ≤ (findMonth ls d).2 ∧
      (∃ x, ls[(findMonth ls d).1.toNat]? = some x ∧ (findMonth ls d).2 < x) ∧
      (ls.take (findMonth ls d).1.toNat).sum + (findMonth ls d).2 = d
  | [], d, h0, h1, _ => by simp at h1; omega
  | n :: ns, d, h0, h1, h2 => by
    rw [findMonth]
    split
    · rename_i h
      refine ⟨by simp, by simp only [List.length_cons]; omega, h0, ⟨n, by simp, h⟩, by simp⟩
    · rename_i h
      have ih := findMonth_spec ns (d - n) (by omega) (by simp at h1; omega) (fun x hx => h2 x (by simp [hx]))
      simp only
      generalize findMonth ns (d - n) = r at ih ⊢
      obtain ⟨i1, i2, i3, ⟨x, i4, i5⟩, i6⟩ := ih
      have hN : (r.1 + 1).toNat = r.1.toNat + 1 := by omega
      refine ⟨by omega, by simp only [List.length_cons]; omega, i3, ⟨x, by rw [hN]; simpa using i4, i5⟩, ?_⟩
      rw [hN, List.take_succ_cons, List.sum_cons]
      omega

theorem monthLens_pos (y : Int) : ∀ x ∈ monthLens y, 0 < x := by
  unfold monthLens
  intro x hx
  simp only [List.mem_cons, List.not_mem_nil, or_false] at hx
  rcases hx with h | h | h | h | h | h | h | h | h | h | h | h <;> rw [h] <;> first | omega | (split <;> omega)

theorem monthLens_sum (y : Int) : (monthLens y).sum = if leap y then 366 else 365 := by
  unfold monthLens
  cases leap y <;> decide

/-- Bounds on what is found, and that the day is found back. -/
theorem gmtime_spec (tp : Int) : (let t := gmtime tp
    t.year = findYear (tp / 86400 + 719528) ∧ 1 ≤ t.mon ∧ t.mon ≤ 12 ∧ 1 ≤ t.day ∧ t.day ≤ 31 ∧ 0 ≤ t.hour ∧ t.hour < 24 ∧
      0 ≤ t.min ∧ t.min < 60 ∧ 0 ≤ t.sec ∧ t.sec < 60 ∧
      (∃ x, (monthLens t.year)[(t.mon - 1).toNat]? = some x ∧ t.day ≤ x) ∧
      daysBefore t.year + ((monthLens t.year).take (t.mon - 1).toNat).sum + (t.day - 1) = tp / 86400 + 719528 ∧
      t.hour * 3600 + t.min * 60 + t.sec = tp % 86400) := by
  simp only [gmtime]
  generalize tp / 86400 + 719528 = n
  have hy := findYear_spec n
  rw [daysBefore_succ] at hy
  generalize findYear n = y at hy ⊢
  have hm := findMonth_spec (monthLens y) (n - daysBefore y) (by omega) (by rw [monthLens_sum]; omega) (monthLens_pos y)
  generalize findMonth (monthLens y) (n - daysBefore y) = r at hm ⊢
  obtain ⟨h1, h2, h3, ⟨x, h4, h5⟩, h6⟩ := hm
  have e : r.1 + 1 - 1 = r.1 := by omega
  rw [e]
  have hx : x ≤ 31 := by
    have := List.mem_of_getElem? h4
    unfold monthLens at this
    simp only [List.mem_cons, List.not_mem_nil, or_false] at this
    rcases this with h | h | h | h | h | h | h | h | h | h | h | h <;> rw [h] <;> first | omega | (split <;> omega)
  have hl : (monthLens y).length = 12 := rfl
  refine ⟨trivial, by omega, by omega, by omega, by omega, by omega, by omega, by omega, by omega, by omega, by omega, ⟨x, h4, by omega⟩, by omega, by omega⟩

/-- `timegm` is the inverse of `gmtime_r`. -/
theorem timegm_gmtime (tp : Int) : timegm (gmtime tp) = tp := by
  have h := gmtime_spec tp
  simp only at h
  unfold timegm
  simp only
  generalize gmtime tp = t at h ⊢
  obtain ⟨_, h2, h3, _, _, _, _, _, _, _, _, _, h13, h14⟩ := h
  have e1 : (t.mon - 1) / 12 = 0 := by omega
  have e2 : (t.mon - 1) % 12 = t.mon - 1 := by omega
  rw [e1, e2, Int.add_zero, h13]
  omega

theorem gmtime_year {tp : Int} (h1 : -86400 ≤ tp) (h2 : tp < 253370851200) : 0 ≤ (gmtime tp).year ∧ (gmtime tp).year < 10000 := by
  have h := gmtime_spec tp
  simp only at h
  have hy := findYear_spec (tp / 86400 + 719528)
  rw [← h.1] at hy
  have ha : 719527 ≤ tp / 86400 + 719528 := by omega
  have hb : tp / 86400 + 719528 < 3652061 := by omega
  generalize tp / 86400 + 719528 = n at hy ha hb
  generalize (gmtime tp).year = y at hy ⊢
  unfold daysBefore at hy
  omega

/-! ### Text -/

theorem find_two : ∀ k : Fin 100, ∃ x y, two (k.val : Int) = .ok [x, y] ∧
    (List.range 100).find? (fun (j : Nat) => decide (two (j : Int) = .ok [x, y])) = some k.val := by
  have : ∀ k : Fin 100, (match two (k.val : Int) with
      | .ok [x, y] => decide ((List.range 100).find? (fun (j : Nat) => decide (two (j : Int) = .ok [x, y])) = some k.val)
      | _ => false) = true := by decide +kernel
  intro k
  have h := this k
  split at h
  · rename_i x y e
    exact ⟨x, y, e, of_decide_eq_true h⟩
  · cases h

/-- Two digits are written and read back. -/
theorem two_match (n : Int) (h0 : 0 ≤ n) (h1 : n < 100) : ∃ x y, two n = .ok [x, y] ∧ 48 ≤ x ∧ x ≤ 57 ∧ 48 ≤ y ∧ y ≤ 57 ∧
    ∀ s, match2 (some (x :: y :: s)) = .ok (n, some s) := by
  obtain ⟨x, y, h2, h3⟩ := find_two ⟨n.toNat, by omega⟩
  have e : ((n.toNat : Nat) : Int) = n := by omega
  simp only [e] at h2 h3
  refine ⟨x, y, h2, ?_⟩
  have hd : ∀ k : Fin 10, 48 ≤ 48 + UInt8.ofNat k.val ∧ 48 + UInt8.ofNat k.val ≤ 57 := by decide +kernel
  unfold two at h2
  rw [if_pos ⟨h0, h1⟩] at h2
  cases h2
  have ha := hd ⟨n.toNat / 10, by omega⟩
  have hb := hd ⟨n.toNat % 10, by omega⟩
  refine ⟨ha.1, ha.2, hb.1, hb.2, ?_⟩
  intro s
  rw [match2, h3]
  simp only [e]

theorem match1_hit (c : UInt8) (s : Bytes) : match1 c (some (c :: s)) = some s := by simp [match1]

/-- What follows a fraction. -/
theorem ms_read (ms : Int) (h0 : 0 ≤ ms) (h1 : ms < 1000) (s : Bytes) (hs : ∀ x t, s = x :: t → ¬ (48 ≤ x ∧ x ≤ 57)) :
    ∃ m, msText ms = .ok m ∧ readMs (some (m ++ s)) = (ms, some s) := by
  have hd : ∀ k : Fin 1000, (match msText (k.val : Int) with
      | .ok [a, x, y, z] => decide (a = 0x2E ∧ 48 ≤ x ∧ x ≤ 57 ∧ 48 ≤ y ∧ y ≤ 57 ∧ 48 ≤ z ∧ z ≤ 57 ∧
        ((x.toNat - 48 : Int) * 100 + (y.toNat - 48) * 10 + (z.toNat - 48)) = (k.val : Int))
      | _ => false) = true := by decide +kernel
  have h := hd ⟨ms.toNat, by omega⟩
  have e : ((ms.toNat : Nat) : Int) = ms := by omega
  simp only [e] at h
  split at h
  · rename_i a x y z em
    obtain ⟨rfl, hx1, hx2, hy1, hy2, hz1, hz2, hv⟩ := of_decide_eq_true h
    refine ⟨_, em, ?_⟩
    simp only [List.cons_append, List.nil_append, readMs]
    rw [fraction, if_pos ⟨hx1, hx2⟩, fraction, if_pos ⟨hy1, hy2⟩, fraction, if_pos ⟨hz1, hz2⟩]
    have hend : ∀ v w, fraction v w s = (v, s) := by
      intro v w
      cases s with
      | nil => rfl
      | cons x t => rw [fraction, if_neg (hs x t rfl)]
    rw [hend]
    have e1 : (100 : Int) / 10 = 10 := by decide
    have e2 : (10 : Int) / 10 = 1 := by decide
    rw [e1, e2]
    congr 1
    omega
  · cases h

/-- The offset is written and read back. -/
theorem offset_read (neg : Bool) (a : Int) (h0 : 0 ≤ a) (h1 : a < 6000) : ∃ x t, offsetText neg a = .ok (0x20 :: x :: t) ∧
    readOffset (some (0x20 :: x :: t)) = .ok (if neg ∧ a ≠ 0 then -1 else 1, a, some []) := by
  unfold offsetText
  split
  · rename_i h
    subst h
    refine ⟨_, _, rfl, ?_⟩
    cases neg <;> decide +kernel
  · rename_i h
    obtain ⟨x1, x2, e1, _, _, _, _, m1⟩ := two_match (a / 60) (by omega) (by omega)
    obtain ⟨y1, y2, e2, _, _, _, _, m2⟩ := two_match (a % 60) (by omega) (by omega)
    rw [e1, e2]
    simp only [Res.bind, Res.map, List.cons_append, List.nil_append]
    refine ⟨_, _, rfl, ?_⟩
    rw [readOffset]
    have hs : ∀ c : UInt8, c = 0x2B ∨ c = 0x2D → ¬ (List.take 3 (c :: [x1, x2, y1, y2]) = [0x47, 0x4D, 0x54] ∨
        List.take 3 (c :: [x1, x2, y1, y2]) = [0x55, 0x54, 0x43]) := by
      rintro c (rfl | rfl) h <;> simp at h
    rw [if_neg (hs _ (by cases neg <;> simp)), if_pos (by cases neg <;> simp), m1]
    simp only [Res.bind]
    rw [m2]
    simp only [Res.map, Res.ok.injEq, Prod.mk.injEq, and_true]
    refine ⟨by cases neg <;> simp [h], by omega⟩

/-- What is written is read back. -/
theorem parse_text (mk : Tm → Int) (t : Tm) (ms : Int) (withMs neg : Bool) (a : Int) (hy : 0 ≤ t.year ∧ t.year < 10000)
    (hmo : 0 ≤ t.mon ∧ t.mon < 100) (hd : 0 ≤ t.day ∧ t.day < 100) (hh : 0 ≤ t.hour ∧ t.hour < 100) (hmi : 0 ≤ t.min ∧ t.min < 100)
    (hs : 0 ≤ t.sec ∧ t.sec < 100) (hms : 0 ≤ ms ∧ ms < 1000) (ha : 0 ≤ a ∧ a < 6000) :
    ∃ s, text t ms withMs neg a = .ok s ∧
      parse mk s = .ok (assemble mk t (if withMs then ms else 0) (if neg ∧ a ≠ 0 then -1 else 1) a) := by
  obtain ⟨year, mon, day, hour, min, sec⟩ := t
  simp only at hy hmo hd hh hmi hs
  obtain ⟨a1, a2, ea, ha1, ha2, _, _, ma⟩ := two_match (year / 100) (by omega) (by omega)
  obtain ⟨b1, b2, eb, _, _, _, _, mb⟩ := two_match (year % 100) (by omega) (by omega)
  obtain ⟨c1, c2, ec, _, _, _, _, mc⟩ := two_match mon hmo.1 hmo.2
  obtain ⟨d1, d2, ed, _, _, _, _, md⟩ := two_match day hd.1 hd.2
  obtain ⟨e1, e2, ee, _, _, _, _, me⟩ := two_match hour hh.1 hh.2
  obtain ⟨f1, f2, ef, _, _, _, _, mf⟩ := two_match min hmi.1 hmi.2
  obtain ⟨g1, g2, eg, _, _, _, _, mg⟩ := two_match sec hs.1 hs.2
  obtain ⟨x, u, eo, ro⟩ := offset_read neg a ha.1 ha.2
  have hm : ∃ m, (if withMs then msText ms else .ok []) = .ok m ∧
      readMs (some (m ++ (0x20 :: x :: u))) = (if withMs then ms else 0, some (0x20 :: x :: u)) := by
    cases withMs with
    | false => exact ⟨[], rfl, rfl⟩
    | true =>
      obtain ⟨m, h1, h2⟩ := ms_read ms hms.1 hms.2 (0x20 :: x :: u) (by rintro y t h; cases h; decide)
      exact ⟨m, h1, h2⟩
  obtain ⟨m, em, rm⟩ := hm
  unfold text
  simp only [ea, eb, ec, ed, ee, ef, eg, em, eo, Res.bind, Res.map, List.cons_append, List.nil_append]
  refine ⟨_, rfl, ?_⟩
  unfold parse
  have hns : ¬ (decide (a1 = 0x20)) = true := by
    intro h
    have : a1 = 0x20 := of_decide_eq_true h
    subst this
    exact absurd ha1 (by decide)
  have hdw : ∀ s : Bytes, (a1 :: s).dropWhile (fun x => decide (x = 0x20)) = a1 :: s := fun s => List.dropWhile_cons_of_neg hns
  simp only [hdw, ma, mb, mc, md, me, mf, mg, match1_hit, rm, ro, Res.bind, Option.map_some, List.dropWhile_nil, if_true]
  have : year / 100 * 100 + year % 100 = year := by omega
  rw [this]

/-! ### The calendar -/

theorem daysBefore_mono {a b : Int} (h : a + 1 ≤ b) : daysBefore (a + 1) ≤ daysBefore b := by
  unfold daysBefore; omega

theorem findYear_eq {n y : Int} (h1 : daysBefore y ≤ n) (h2 : n < daysBefore (y + 1)) : findYear n = y := by
  have h := findYear_spec n
  generalize findYear n = z at h
  by_cases ha : z + 1 ≤ y
  · have := daysBefore_mono ha; omega
  by_cases hb : y + 1 ≤ z
  · have := daysBefore_mono hb; omega
  omega

theorem findMonth_eq : ∀ (ls : List Int) (m : Nat) (d x : Int), (∀ x ∈ ls, 0 < x) → ls[m]? = some x → 0 ≤ d → d < x →
    findMonth ls ((ls.take m).sum + d) = ((m : Int), d)
  | [], m, d, x, _, h, _, _ => by cases h
  | n :: ns, 0, d, x, _, h, h0, h1 => by
    simp only [List.getElem?_cons_zero, Option.some.injEq] at h
    simp only [List.take_zero, List.sum_nil, Int.zero_add]
    rw [findMonth, if_pos (by omega)]
    rfl
  | n :: ns, m + 1, d, x, hp, h, h0, h1 => by
    simp only [List.getElem?_cons_succ] at h
    simp only [List.take_succ_cons, List.sum_cons]
    have hs : ∀ (l : List Int), (∀ x ∈ l, 0 < x) → 0 ≤ l.sum := by
      intro l
      induction l with
      | nil => simp
      | cons y l ih =>
        intro hl
        have := ih fun x hx => hl x (by simp [hx])
        have := hl y (by simp)
        simp only [List.sum_cons]; omega
    have h2 := hs (ns.take m) fun x hx => hp x (by simp [List.mem_of_mem_take hx])
    rw [findMonth, if_neg (by omega)]
    have e : n + (ns.take m).sum + d - n = (ns.take m).sum + d := by omega
    rw [e, findMonth_eq ns m d x (fun x hx => hp x (by simp [hx])) h h0 h1]
    simp

/-- A date, as `gmtime_r` gives it. -/
theorem civil_eq {n y : Int} {m : Nat} {d x : Int} (hx : (monthLens y)[m]? = some x) (h0 : 0 ≤ d) (h1 : d < x)
    (hn : daysBefore y + ((monthLens y).take m).sum + d = n) :
    findYear n = y ∧ findMonth (monthLens y) (n - daysBefore y) = ((m : Int), d) := by
  have hm : m < 12 := by
    have := (List.getElem?_eq_some_iff.1 hx).1
    simpa [monthLens] using this
  have hb : 0 ≤ ((monthLens y).take m).sum ∧ ((monthLens y).take m).sum + x ≤ (monthLens y).sum := by
    have : ∀ b : Bool, ∀ m : Fin 12, (let l : List Int := [31, if b then 29 else 28, 31, 30, 31, 30, 31, 31, 30, 31, 30, 31]
        0 ≤ (l.take m.val).sum ∧ ∀ x ∈ l[m.val]?, (l.take m.val).sum + x ≤ l.sum) := by decide +kernel
    have := this (leap y) ⟨m, hm⟩
    exact ⟨this.1, this.2 x hx⟩
  rw [monthLens_sum] at hb
  refine ⟨findYear_eq (by omega) (by rw [daysBefore_succ]; omega), ?_⟩
  have e : n - daysBefore y = ((monthLens y).take m).sum + d := by omega
  rw [e]
  exact findMonth_eq _ m d x (monthLens_pos y) hx h0 h1

theorem leap_iff (y : Nat) : leap (y : Int) = decide (Calendar.Leap y) := by
  rw [Bool.eq_iff_iff, decide_eq_true_iff]
  unfold leap Calendar.Leap
  simp only [Bool.and_eq_true, Bool.or_eq_true, decide_eq_true_eq]
  constructor
  · rintro ⟨h1, h2 | h2⟩
    · exact ⟨by omega, fun h => absurd (by omega) h2⟩
    · exact ⟨by omega, fun h => by omega⟩
  · rintro ⟨h1, h2⟩
    refine ⟨by omega, ?_⟩
    by_cases h : y % 100 = 0
    · exact .inr (by have := h2 h; omega)
    · exact .inl (by omega)

theorem monthLens_get (y : Nat) {m : Nat} (h1 : 1 ≤ m) (h2 : m ≤ 12) :
    (monthLens (y : Int))[m - 1]? = some (Calendar.monthLen y m : Int) := by
  have : m = 1 ∨ m = 2 ∨ m = 3 ∨ m = 4 ∨ m = 5 ∨ m = 6 ∨ m = 7 ∨ m = 8 ∨ m = 9 ∨ m = 10 ∨ m = 11 ∨ m = 12 := by omega
  rcases this with h | h | h | h | h | h | h | h | h | h | h | h <;> subst h <;> simp only [monthLens, Calendar.monthLen, leap_iff]
  case inr.inl => by_cases hl : Calendar.Leap y <;> simp [hl]
  all_goals rfl

theorem take_succ_sum (ls : List Int) (m : Nat) (x : Int) (h : ls[m]? = some x) : (ls.take (m + 1)).sum = (ls.take m).sum + x := by
  rw [List.take_add_one, h]
  simp [List.sum_append]

/-- The number of a date. -/
def number (t : Calendar.Date) : Int := daysBefore t.y + ((monthLens t.y).take (t.m - 1)).sum + (t.d - 1)

theorem number_next (t : Calendar.Date) (h : t.Valid) : t.next.Valid ∧ number t.next = number t + 1 := by
  obtain ⟨y, m, d⟩ := t
  obtain ⟨h1, h2, h3, h4⟩ := h
  simp only at h1 h2 h3 h4
  unfold Calendar.Date.next
  simp only
  have hpos : ∀ y m, 1 ≤ Calendar.monthLen y m := by
    intro y m; unfold Calendar.monthLen; split
    · split <;> omega
    · split <;> omega
  split
  · rename_i h
    refine ⟨⟨h1, h2, by simp, h⟩, ?_⟩
    unfold number; simp only; omega
  · rename_i hd
    have hg := monthLens_get y h1 h2
    have hs := take_succ_sum _ _ _ hg
    have e : m - 1 + 1 = m := by omega
    rw [e] at hs
    split
    · rename_i h
      refine ⟨⟨by simp, h, by simp, by simpa using hpos _ _⟩, ?_⟩
      unfold number
      simp only [Nat.add_sub_cancel]
      omega
    · rename_i h
      refine ⟨⟨by simp, by simp, by simp, by simpa using hpos _ _⟩, ?_⟩
      have hm : m = 12 := by omega
      subst hm
      unfold number
      have hd12 : d = 31 := by
        have : Calendar.monthLen y 12 = 31 := by simp [Calendar.monthLen]
        omega
      subst hd12
      have hs31 : ((monthLens (y : Int)).take 11).sum + 31 = if leap y then 366 else 365 := by
        unfold monthLens
        cases leap (y : Int) <;> decide
      have hd : daysBefore ((y + 1 : Nat) : Int) = daysBefore y + (if leap y then 366 else 365) := by
        rw [Int.natCast_add, Int.natCast_one, daysBefore_succ]
      simp only [Nat.sub_self, List.take_zero, List.sum_nil]
      rw [hd, ← hs31]
      simp only [show (12 : Nat) - 1 = 11 from rfl]
      omega

theorem date_number : ∀ n, (Calendar.date n).Valid ∧ number (Calendar.date n) = n
  | 0 => by
    refine ⟨⟨by decide, by decide, by decide, by decide +kernel⟩, by decide +kernel⟩
  | n + 1 => by
    have ih := date_number n
    have := number_next _ ih.1
    rw [Calendar.date]
    exact ⟨this.1, by rw [this.2, ih.2]; simp⟩

end Asteria.Chrono
