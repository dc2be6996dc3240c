import Verif.Spec.Globals
import Verif.Proof.Globals

/-!
# C161, C162 and C163: recursion, the standard library and global variables
-/

namespace Asteria.Globals

/-! ### C161: the stack does not overflow -/

/-- **C161, one sentry.** Copying a sentry throws an exception exactly if the copy is 1 MiB or more below the base, or more than 1 MiB above
it, wherever they are. -/
theorem C161_sentry (base self : Addr) (hb : base.toNat < 2 ^ 63) (hs : self.toNat < 2 ^ 63) :
    (validate base self = .ok () ↔ base.toNat < self.toNat + 2 ^ 20 ∧ self.toNat ≤ base.toNat + 2 ^ 20) ∧
    (validate base self = .throw ↔ self.toNat + 2 ^ 20 ≤ base.toNat ∨ base.toNat + 2 ^ 20 < self.toNat) := by
  have h := validate_iff base self
  rw [toInt_sub hb hs] at h
  have h1 : validate base self = .ok () ↔ base.toNat < self.toNat + 2 ^ 20 ∧ self.toNat ≤ base.toNat + 2 ^ 20 := by
    rw [h]
    omega
  refine ⟨h1, ?_⟩
  rcases validate_cases base self with e | e
  · have := h1.1 e
    rw [e]
    constructor
    · intro h
      cases h
    · omega
  · have : ¬ (base.toNat < self.toNat + 2 ^ 20 ∧ self.toNat ≤ base.toNat + 2 ^ 20) := by
      rw [← h1, e]
      simp
    rw [e]
    constructor
    · intro _
      omega
    · intro _
      rfl

example : validate 0x7FFD00100000 0x7FFD00000001 = .ok () ∧ validate 0x7FFD00100000 0x7FFD00000000 = .throw :=
  ⟨(C161_sentry _ _ (by decide) (by decide)).1.2 (by decide), (C161_sentry _ _ (by decide) (by decide)).2.2 (by decide)⟩

theorem nest_sentries (base : Addr) (hb : base.toNat < 2 ^ 63) : ∀ (as : List Addr), (∀ a ∈ as, a.toNat ≤ base.toNat) →
    (nest base (as.map .sentry) = .ok base ∧ ∀ a ∈ as, base.toNat < a.toNat + 2 ^ 20) ∨
    (nest base (as.map .sentry) = .throw ∧ ∃ a ∈ as, a.toNat + 2 ^ 20 ≤ base.toNat) := by
  intro as
  induction as with
  | nil => intro _; exact .inl ⟨rfl, by simp⟩
  | cons a as ih =>
    intro h
    have ha := h a (by simp)
    obtain ⟨h1, h2⟩ := C161_sentry base a hb (by omega)
    rw [List.map_cons]
    unfold nest
    rcases validate_cases base a with e | e
    · rw [e]
      have hlt := (h1.1 e).1
      rcases ih fun a' ha' => h a' (List.mem_cons_of_mem _ ha') with ⟨e', h'⟩ | ⟨e', a', hm, h'⟩
      · refine .inl ⟨e', fun a' hm => ?_⟩
        rcases List.mem_cons.1 hm with rfl | hm
        · exact hlt
        · exact h' a' hm
      · exact .inr ⟨e', a', List.mem_cons_of_mem _ hm, h'⟩
    · rw [e]
      refine .inr ⟨rfl, a, by simp, ?_⟩
      have := h2.1 e
      omega

theorem descends_le {f : Nat} : ∀ {as : List Nat} {top : Nat}, Descends f top as → ∀ a ∈ as, a + f ≤ top := by
  intro as
  induction as with
  | nil => intro top _ a ha; cases ha
  | cons b as ih =>
    intro top h a ha
    obtain ⟨h1, h2⟩ := h
    rcases List.mem_cons.1 ha with rfl | ha
    · exact h1
    · have := ih h2 a ha
      omega

theorem descends_last {f : Nat} : ∀ {as : List Nat} {top : Nat}, Descends f top as → ∀ h : as ≠ [], as.getLast h + as.length * f ≤ top := by
  intro as
  induction as with
  | nil => intro top _ h; exact absurd rfl h
  | cons b as ih =>
    intro top h hne
    obtain ⟨h1, h2⟩ := h
    by_cases ha : as = []
    · subst ha
      simpa using h1
    · have := ih h2 ha
      rw [List.getLast_cons ha, List.length_cons, Nat.add_mul]
      omega

/-- **C161, recursion.** On a stack that grows down by at least `f` bytes with each call, calls within calls go on exactly as long as all sentries are
less than 1 MiB below the base; so if there are `n` calls and no exception, `n * f` is less than 1 MiB. -/
theorem C161_recursion (f : Nat) (base : Addr) (hb : base.toNat < 2 ^ 63) (as : List Addr) (hd : Descends f base.toNat (as.map (·.toNat))) :
    ((∀ a ∈ as, base.toNat < a.toNat + 2 ^ 20) → nest base (as.map .sentry) = .ok base) ∧
    ((∃ a ∈ as, a.toNat + 2 ^ 20 ≤ base.toNat) → nest base (as.map .sentry) = .throw) ∧
    (nest base (as.map .sentry) ≠ .throw → as.length * f < 2 ^ 20) := by
  have hle : ∀ a ∈ as, a.toNat ≤ base.toNat := fun a ha => by
    have := descends_le hd a.toNat (List.mem_map_of_mem ha)
    omega
  rcases nest_sentries base hb as hle with ⟨e, h⟩ | ⟨e, a, ha, h⟩
  · refine ⟨fun _ => e, fun ⟨a, ha, h'⟩ => ?_, fun _ => ?_⟩
    · have := h a ha
      omega
    · by_cases hne : as = []
      · subst hne
        simp
      · have hm : as.map (·.toNat) ≠ [] := by simpa using hne
        have h1 := descends_last hd hm
        rw [List.length_map] at h1
        obtain ⟨a, ha, hl⟩ := List.mem_map.1 (List.getLast_mem hm)
        have h2 := h a ha
        rw [← hl] at h1
        omega
  · refine ⟨fun h' => ?_, fun _ => e, fun hne => absurd e hne⟩
    have := h' a ha
    omega

/-- Two calls with 4 KiB each. -/
example : nest 0x10000000 ([0xFFFF000, 0xFFFE000].map .sentry) = .ok 0x10000000 :=
  (C161_recursion 4096 0x10000000 (by decide) [0xFFFF000, 0xFFFE000] ⟨by decide, by decide, trivial⟩).1
    fun a ha => by
      rcases List.mem_cons.1 ha with rfl | ha
      · decide
      · rw [List.mem_singleton] at ha
        subst ha
        decide

/-- **C161, in general**: the claim is that calls within calls which do not throw use less than 1 MiB of the stack, from where the first
script is executed, also if functions of the host execute scripts with the same context. -/
def C161_claim : Prop := ∀ (base : Addr) (es : List Event) (b : Addr), base.toNat < 2 ^ 63 → Descends 1 base.toNat (es.map (·.addr.toNat)) →
  nest base es = .ok b → ∀ e ∈ es, base.toNat < e.addr.toNat + 2 ^ 20

/-- **C161 is false in general**: `Simple_Script::execute` moves the base (and does not restore it), so each such call within a call
allows another 1 MiB. -/
theorem C161_false : ¬ C161_claim := by
  intro h
  have := h 0x10000000 [.execute 0xFF80000, .sentry 0xFE90000] 0xFF80000 (by decide) ⟨by decide, by decide, trivial⟩ (by decide +kernel)
    (.sentry 0xFE90000) (by simp)
  exact absurd this (by decide)

/-- **C161 (partial).** The claim for calls within calls none of which executes a script with the same context.  What is missing: those that do, see
`C161_false`. -/
theorem C161_partial (base : Addr) (es : List Event) (b : Addr) (hb : base.toNat < 2 ^ 63) (hd : Descends 1 base.toNat (es.map (·.addr.toNat)))
    (he : ∀ e ∈ es, ∀ a, e ≠ .execute a) (hn : nest base es = .ok b) : b = base ∧ ∀ e ∈ es, base.toNat < e.addr.toNat + 2 ^ 20 := by
  obtain ⟨as, rfl⟩ : ∃ as : List Addr, es = as.map .sentry := by
    refine ⟨es.map (·.addr), ?_⟩
    rw [List.map_map]
    symm
    apply (List.map_congr_left ?_).trans (List.map_id es)
    intro e hm
    cases e with
    | sentry a => rfl
    | execute a => exact absurd rfl (he _ hm a)
  have hle : ∀ a ∈ as, a.toNat ≤ base.toNat := fun a ha => by
    have := descends_le hd a.toNat (by
      rw [List.map_map]
      exact List.mem_map.2 ⟨a, ha, rfl⟩)
    omega
  rcases nest_sentries base hb as hle with ⟨e, h⟩ | ⟨e, _⟩
  · rw [e] at hn
    cases hn
    refine ⟨rfl, fun e hm => ?_⟩
    obtain ⟨a, ha, rfl⟩ := List.mem_map.1 hm
    exact h a ha
  · rw [e] at hn
    cases hn

example : nest 0x10000000 [.sentry 0xFFFF000] = .ok 0x10000000 := by decide +kernel

/-! ### C162: the standard library has the version that is requested -/

/-- **C162, for any table.** For a table that is sorted by version, in which no name occurs twice, `std` has exactly the modules that are not
newer than what is requested, in the order of the table, and all of them are told the version of the newest of them. -/
theorem C162_table (ms : List Module) (hs : ms.Pairwise (fun a b => a.version ≤ b.version)) (hn : (ms.map (·.name)).Nodup) (req : UInt32) :
    ∃ v, construct ms req = .ok ((ms.filter (fun m => m.version ≤ req)).map fun m => (m.name, v)) ∧
      ((∃ m ∈ ms, m.version ≤ req) → v ≤ req ∧ (∃ m ∈ ms, m.version = v) ∧ ∀ m ∈ ms, m.version ≤ req → m.version ≤ v) := by
  obtain ⟨h1, h2, h3⟩ := sorted_split req ms hs
  have hub := upperBound_spec ms req _ (List.length_filter_le _ ms) h1 h2 ms.length 0 (Nat.zero_le _) (by simpa using List.length_filter_le _ ms) (by simp)
  unfold construct
  rw [hub]
  dsimp only
  by_cases h0 : (ms.filter (fun m => m.version ≤ req)).length = 0
  · rw [if_pos h0]
    have hnil := List.eq_nil_of_length_eq_zero h0
    refine ⟨0, by rw [hnil]; rfl, fun ⟨m, hm, hv⟩ => ?_⟩
    rw [List.filter_eq_nil_iff] at hnil
    exact absurd (by simpa using hv) (hnil m hm)
  · rw [if_neg h0]
    have hlt : (ms.filter (fun m => m.version ≤ req)).length - 1 < ms.length := by
      have := List.length_filter_le (fun m : Module => decide (m.version ≤ req)) ms
      omega
    have hlast : ms[(ms.filter (fun m => m.version ≤ req)).length - 1]? = some ms[(ms.filter (fun m => m.version ≤ req)).length - 1] :=
      List.getElem?_eq_getElem hlt
    rw [hlast]
    dsimp only
    refine ⟨ms[(ms.filter (fun m => m.version ≤ req)).length - 1].version, ?_, fun _ => ⟨h1 _ _ hlast (by omega), ⟨_, List.getElem_mem hlt, rfl⟩, ?_⟩⟩
    · rw [h3, foldl_add _ _ [] ((List.filter_sublist.map _).nodup hn) (fun _ _ => rfl), List.nil_append]
    · intro m hm hv
      obtain ⟨i, hi, rfl⟩ := List.getElem_of_mem hm
      have hic : i < (ms.filter (fun m => m.version ≤ req)).length := by
        apply Nat.lt_of_not_le
        intro hle
        have := h2 i _ (List.getElem?_eq_getElem hi) hle
        exact absurd (UInt32.lt_of_lt_of_le this hv) (UInt32.lt_irrefl _)
      by_cases he : i = (ms.filter (fun m => m.version ≤ req)).length - 1
      · subst he
        exact UInt32.le_refl _
      · exact List.pairwise_iff_getElem.1 hs i _ hi hlt (by omega)

theorem modules_sorted : modules.Pairwise (fun a b => a.version ≤ b.version) := by decide +kernel

theorem modules_nodup : (modules.map (·.name)).Nodup := by decide +kernel

example : modules.Pairwise (fun a b => a.version ≤ b.version) ∧ (modules.map (·.name)).Nodup := ⟨modules_sorted, modules_nodup⟩

/-- **C162, as documented.** For every requested version, `std` has exactly the documented modules that are not newer, and `std.version` is the version
of the newest of them: 0.0 for no library, 1.0, or 2.0 for everything. -/
theorem C162_library (req : UInt32) : ∃ o v, construct modules req = .ok o ∧
    o.map (·.1) = available (req.toNat / 0x10000) (req.toNat % 0x10000) ∧ (∀ e ∈ o, e.2 = v) ∧ ("version", v) ∈ o ∧
    versionBindings v = (min 2 (req.toNat / 0x10000), 0) := by
  obtain ⟨v, hc, hv⟩ := C162_table modules modules_sorted modules_nodup req
  obtain ⟨h1, h2, h3⟩ := hv ⟨⟨0, "version"⟩, by simp [modules], UInt32.le_iff_toNat_le.2 (Nat.zero_le _)⟩
  have e1 : ((0 : UInt32) ≤ req) ↔ True := by simp [UInt32.le_iff_toNat_le]
  have e2 : ((0x10000 : UInt32) ≤ req) ↔ 1 ≤ req.toNat / 0x10000 := by
    rw [UInt32.le_iff_toNat_le]
    show 0x10000 ≤ req.toNat ↔ _
    omega
  have e3 : ((0x20000 : UInt32) ≤ req) ↔ 2 ≤ req.toNat / 0x10000 := by
    rw [UInt32.le_iff_toNat_le]
    show 0x20000 ≤ req.toNat ↔ _
    omega
  have hm : ("version", v) ∈ (modules.filter (fun m => m.version ≤ req)).map fun m => (m.name, v) :=
    List.mem_map.2 ⟨⟨0, "version"⟩, List.mem_filter.2 ⟨by simp [modules], by simp [e1]⟩, rfl⟩
  refine ⟨_, v, hc, ?_, fun e he => ?_, hm, ?_⟩
  · rw [List.map_map]
    unfold available documented modules
    have a0 : ∀ n : Nat, (0 < n ∨ (0 = n ∧ 0 ≤ req.toNat % 0x10000)) ↔ True := fun n => by simp only [Nat.zero_le, and_true, iff_true]; omega
    have a1 : ∀ n : Nat, (1 < n ∨ (1 = n ∧ 0 ≤ req.toNat % 0x10000)) ↔ 1 ≤ n := fun n => by simp only [Nat.zero_le, and_true]; omega
    have a2 : ∀ n : Nat, (2 < n ∨ (2 = n ∧ 0 ≤ req.toNat % 0x10000)) ↔ 2 ≤ n := fun n => by simp only [Nat.zero_le, and_true]; omega
    by_cases c1 : 1 ≤ req.toNat / 0x10000
    · by_cases c2 : 2 ≤ req.toNat / 0x10000
      · simp only [List.filter_cons, List.filter_nil, e1, e2, e3, a0, a1, a2, c1, c2, decide_true, if_true]
        rfl
      · simp only [List.filter_cons, List.filter_nil, e1, e2, e3, a0, a1, a2, c1, c2, decide_true, decide_false, if_true, Bool.false_eq_true, if_false]
        rfl
    · have c2 : ¬ 2 ≤ req.toNat / 0x10000 := by omega
      simp only [List.filter_cons, List.filter_nil, e1, e2, e3, a0, a1, a2, c1, c2, decide_true, decide_false, if_true, Bool.false_eq_true, if_false]
      rfl
  · obtain ⟨m, _, rfl⟩ := List.mem_map.1 he
    rfl
  · obtain ⟨m, hmem, rfl⟩ := h2
    have hver : m.version = 0 ∨ m.version = 0x10000 ∨ m.version = 0x20000 := by
      have : ∀ m ∈ modules, m.version = 0 ∨ m.version = 0x10000 ∨ m.version = 0x20000 := by decide +kernel
      exact this m hmem
    have g2 : (0x10000 : UInt32) ≤ req → (0x10000 : UInt32) ≤ m.version := h3 ⟨0x10000, "gc"⟩ (by simp [modules])
    have g3 : (0x20000 : UInt32) ≤ req → (0x20000 : UInt32) ≤ m.version := h3 ⟨0x20000, "rsa"⟩ (by simp [modules])
    rcases hver with e | e | e
    · rw [e] at h1 g2 ⊢
      have c1 : ¬ 1 ≤ req.toNat / 0x10000 := fun c => absurd (g2 (e2.2 c)) (by decide)
      rw [show req.toNat / 0x10000 = 0 by omega]
      rfl
    · rw [e] at h1 g3 ⊢
      have c1 := e2.1 h1
      have c2 : ¬ 2 ≤ req.toNat / 0x10000 := fun c => absurd (g3 (e3.2 c)) (by decide)
      rw [show req.toNat / 0x10000 = 1 by omega]
      rfl
    · rw [e] at h1 ⊢
      have c2 := e3.1 h1
      rw [show min 2 (req.toNat / 0x10000) = 2 by omega]
      rfl

/-- The newest version is 2.0, which is what one gets by requesting it. -/
theorem C162_max (v : UInt32) (h : maxVersion modules = some v) : versionBindings v = (2, 0) ∧ ∃ o, construct modules v = .ok o ∧ o.length = modules.length := by
  have : v = 0x20000 := by
    have e : maxVersion modules = some 0x20000 := by decide +kernel
    rw [e] at h
    exact (Option.some.inj h).symm
  subst this
  refine ⟨rfl, ?_⟩
  obtain ⟨v, hc, _⟩ := C162_table modules modules_sorted modules_nodup 0x20000
  exact ⟨_, hc, by rw [List.length_map]; decide +kernel⟩

example : maxVersion modules = some 0x20000 := by decide +kernel

/-! ### C163: global variables -/

/-- **C163.** `open_global_variable` returns a variable which `get_global_variable_opt` returns from then on, and which opening it again
returns; it is new exactly if there was none.  `erase_global_variable` tells whether there was something with the name, and
afterwards there is nothing.  Other names are not affected. -/
theorem C163_globals (N : Names) (fresh : Nat) (x : Name) :
    getGlobal (openGlobal N fresh x).2 x = some (openGlobal N fresh x).1 ∧
    (openGlobal N fresh x).1 = (getGlobal N x).getD fresh ∧
    (∀ fresh', (openGlobal (openGlobal N fresh x).2 fresh' x).1 = (openGlobal N fresh x).1) ∧
    (∀ y, y ≠ x → (openGlobal N fresh x).2 y = N y ∧ (eraseGlobal N x).2 y = N y) ∧
    ((eraseGlobal N x).1 = true ↔ N x ≠ none) ∧ (eraseGlobal N x).2 x = none ∧
    (eraseGlobal (openGlobal N fresh x).2 x).1 = true ∧ getGlobal (eraseGlobal N x).2 x = none := by
  unfold openGlobal eraseGlobal getGlobal
  cases h : N x with
  | none => simp +contextual [unphase]
  | some r => cases r <;> simp +contextual [unphase]

/-- Another name than `x` leads to the variable 5. -/
example : getGlobal (openGlobal (fun y => if y = [121] then some (.variable 5) else none) 9 [120]).2 [120] = some 9 ∧
    getGlobal (openGlobal (fun y => if y = [121] then some (.variable 5) else none) 9 [120]).2 [121] = some 5 ∧
    (openGlobal (fun y => if y = [121] then some (.variable 5) else none) 9 [121]).1 = 5 := by decide

/-- **C163, temporaries.** A name that leads to no variable, as `std` does, is taken over: the value it had is lost. -/
theorem C163_temporary (N : Names) (fresh : Nat) (x : Name) (h : N x = some .temporary) : (openGlobal N fresh x).2 x = some (.variable fresh) := by
  unfold openGlobal
  simp [h, unphase]

example : (openGlobal (fun _ => some .temporary) 9 [115, 116, 100]).2 [115, 116, 100] = some (.variable 9) := C163_temporary _ 9 _ rfl

end Asteria.Globals
