import Verif.Proof.Dirs

/-!
# C159 and C160: directories, links and properties of files
-/

namespace Asteria.Dirs
open Asteria.Remove

/-! ### C159: what is changed -/

/-- **C159, `create_directory`.** When nothing else happens: if there is nothing where the path leads, and its parent is a directory,
then there is an empty directory afterwards, nothing else has changed, and the result is 1; if the path leads to a directory, maybe
through links, then nothing has changed and the result is 0; otherwise there is an exception and nothing has changed. -/
theorem C159_create (S : Sys) (hS : S.Quiet) (root : Node) (path : Path) :
    (∀ q, resolve root false maxLinks path = .ok q → kindAt root q = none → kindAt root q.dropLast = some .dir →
      ∃ root', createDirectory S root path = (.ok 1, root') ∧ Added root root' q .dir) ∧
    (∀ q, resolve root false maxLinks path = .ok q → kindAt root q = none → kindAt root q.dropLast ≠ some .dir →
      createDirectory S root path = (.throw, root)) ∧
    (∀ q, resolve root false maxLinks path = .ok q → kindAt root q ≠ none → LeadsToDirectory root path →
      createDirectory S root path = (.ok 0, root)) ∧
    (∀ q, resolve root false maxLinks path = .ok q → kindAt root q ≠ none → ¬ LeadsToDirectory root path →
      createDirectory S root path = (.throw, root)) ∧
    (∀ e, resolve root false maxLinks path = .error e → createDirectory S root path = (.throw, root)) := by
  have hex : ∀ q, resolve root false maxLinks path = .ok q → kindAt root q ≠ none → create root path (.dir []) = .error .eexist := by
    intro q hr hk
    rcases create_spec root path q (.dir []) hr (.inr (.inr rfl)) with h | h | h
    · exact h.2
    · exact absurd h.1 hk
    · exact absurd h.1 hk
  unfold createDirectory
  simp only [call_quiet hS, hS.2]
  refine ⟨fun q hr hk hd => ?_, fun q hr hk hd => ?_, fun q hr hk hd => ?_, fun q hr hk hd => ?_, fun e hr => ?_⟩
  · rcases create_spec root path q (.dir []) hr (.inr (.inr rfl)) with h | h | h
    · exact absurd hk h.1
    · obtain ⟨_, _, root', e, ha⟩ := h
      rw [e]
      exact ⟨root', rfl, ha⟩
    · exact absurd hd h.2.1
  · rcases create_spec root path q (.dir []) hr (.inr (.inr rfl)) with h | h | h
    · exact absurd hk h.1
    · exact absurd h.2.1 hd
    · rw [h.2.2]
  · rw [hex q hr hk]
    exact (second_call rfl).1 hd
  · rw [hex q hr hk]
    exact (second_call rfl).2 hd
  · unfold create
    rw [hr]
    cases e <;> rfl

/-- `/d` is a directory, `/l` is a link to it. -/
def sample : Node := .dir [([100], .dir [([102], .file)]), ([108], .link [[100]])]

/-- A system in which nothing else happens. -/
def calm : Sys := ⟨fun _ => false, fun _ n => n, [⟨[46], 2, some .dir⟩, ⟨[100], 7, none⟩, ⟨[46, 46], 2, none⟩, ⟨[108], 9, some .lnk⟩], false⟩

theorem calm_quiet : calm.Quiet := ⟨fun _ => rfl, fun _ _ => rfl⟩

/-- `/l/x` can be created, `/l` leads to a directory, `/d/f` is a file. -/
example : (∃ root', createDirectory calm sample [[108], [120]] = (.ok 1, root') ∧ Added sample root' [[100], [120]] .dir) ∧
    createDirectory calm sample [[108]] = (.ok 0, sample) ∧ (createDirectory calm sample [[100], [102]]).1 = .throw :=
  ⟨(C159_create calm calm_quiet sample [[108], [120]]).1 [[100], [120]] rfl rfl rfl,
    (C159_create calm calm_quiet sample [[108]]).2.2.1 [[108]] rfl (by simp [kindAt, sample, lookup, Node.kind, List.lookup_cons]) ⟨[[100]], rfl, rfl⟩, rfl⟩

/-- **C159, `create_directory`, whatever else happens.** If other processes change files and calls fail, a normal return still means
that there is a directory: one that has been made and nothing else, or one that exists at the last call; and an exception
that this process has changed nothing. -/
theorem C159_create_any (S : Sys) (root : Node) (path : Path) (r : Res Int) (root' : Node) (h : createDirectory S root path = (r, root')) :
    (r = .ok 1 ∧ ∃ q, resolve (S.change 0 root) false maxLinks path = .ok q ∧ Added (S.change 0 root) root' q .dir) ∨
    (r = .ok 0 ∧ root' = S.change 1 (S.change 0 root) ∧ LeadsToDirectory root' path) ∨
    (r = .throw ∧ (root' = S.change 0 root ∨ root' = S.change 1 (S.change 0 root))) := by
  unfold createDirectory at h
  rcases call_cases S 0 (create (S.change 0 root) path (.dir [])) with e | ⟨_, e⟩
  · rw [e] at h
    cases hr : resolve (S.change 0 root) false maxLinks path with
    | error er =>
      have : create (S.change 0 root) path (.dir []) = .error (ofErr er) := by
        unfold create
        rw [hr]
      rw [this] at h
      cases er <;> (cases h; exact .inr (.inr ⟨rfl, .inl rfl⟩))
    | ok q =>
      rcases create_spec (S.change 0 root) path q (.dir []) hr (.inr (.inr rfl)) with hc | hc | hc
      · rw [hc.2] at h
        dsimp only at h
        rcases call_cases S 1 (nodeAt (S.change 1 (S.change 0 root)) true path) with e1 | ⟨_, e1⟩
        · by_cases hl : LeadsToDirectory (S.change 1 (S.change 0 root)) path
          · replace h := ((second_call e1).1 hl).symm.trans h
            cases h
            exact .inr (.inl ⟨rfl, rfl, hl⟩)
          · replace h := ((second_call e1).2 hl).symm.trans h
            cases h
            exact .inr (.inr ⟨rfl, .inr rfl⟩)
        · rw [e1] at h
          cases h
          exact .inr (.inr ⟨rfl, .inr rfl⟩)
      · obtain ⟨_, _, root'', e', ha⟩ := hc
        rw [e'] at h
        cases h
        exact .inl ⟨rfl, q, rfl, ha⟩
      · rw [hc.2.2] at h
        cases h
        exact .inr (.inr ⟨rfl, .inl rfl⟩)
  · rw [e] at h
    cases h
    exact .inr (.inr ⟨rfl, .inl rfl⟩)

/-- A system in which another process makes the directory just before. -/
def rival : Sys := ⟨fun _ => false, fun i n => if i = 0 then insert n [[120]] (.dir []) else n, [], false⟩

example : (createDirectory rival sample [[120]]).1 = .ok 0 ∧ (createDirectory rival sample [[120]]).2 = rival.change 1 (rival.change 0 sample) := ⟨rfl, rfl⟩

/-- **C159, `remove_directory` and `remove`.** Whatever other processes do, and if the call does not fail for other reasons: where the
path leads at the time of the call, an empty directory is removed by `remove_directory`, and a file or a link itself by `remove`,
and nothing else, with the result 1; if there is nothing, the result is 0; otherwise there is an exception.  In both of the
latter cases nothing has changed. -/
theorem C159_remove (S : Sys) (root now : Node) (hn : now = S.change 0 root) (hf : S.fails 0 = false) (path q : Path)
    (hr : resolve now false maxLinks path = .ok q) :
    (kindAt now q = none → removeDirectory S root path = (.ok 0, now) ∧ removeFile S root path = (.ok 0, now)) ∧
    (kindAt now q = some .dir → removeFile S root path = (.throw, now) ∧
      ((∀ x, kindAt now (q ++ [x]) = none) → q ≠ [] → ∃ root', removeDirectory S root path = (.ok 1, root') ∧ Gone now root' q) ∧
      ((∃ x, kindAt now (q ++ [x]) ≠ none) → removeDirectory S root path = (.throw, now))) ∧
    ((∃ k, kindAt now q = some k ∧ k ≠ .dir) → removeDirectory S root path = (.throw, now) ∧
      ∃ root', removeFile S root path = (.ok 1, root') ∧ (q ≠ [] → Gone now root' q)) := by
  subst hn
  have hc : ∀ r : Except Errno Node, S.call 0 r = r := by
    intro r
    unfold Sys.call
    rw [hf]
    rfl
  unfold removeDirectory removeFile rmdir unlink
  simp only [hc, hr]
  refine ⟨fun hk => ?_, fun hk => ⟨?_, fun he hq => ?_, fun he => ?_⟩, fun hk => ?_⟩
  · rw [kindAt_none] at hk
    rw [hk]
    exact ⟨rfl, rfl⟩
  · obtain ⟨es, hes⟩ := kindAt_dir'.1 hk
    rw [hes]
    rfl
  · obtain ⟨es, hes⟩ := kindAt_dir'.1 hk
    have : es = [] := by
      cases es with
      | nil => rfl
      | cons e es =>
        have h := he e.1
        rw [kindAt_none, lookup_append, hes, Option.bind_some, lookup_one] at h
        simp at h
    subst this
    rw [hes]
    dsimp only
    rw [if_neg hq]
    exact ⟨_, rfl, remove_gone _ q hq⟩
  · obtain ⟨es, hes⟩ := kindAt_dir'.1 hk
    obtain ⟨x, hx⟩ := he
    rw [Ne, kindAt_none, lookup_append, hes, Option.bind_some, lookup_one] at hx
    cases es with
    | nil => exact absurd rfl hx
    | cons e es =>
      rw [hes]
      rfl
  · obtain ⟨k, hk, hkd⟩ := hk
    obtain ⟨n, hl, rfl⟩ := kindAt_some hk
    rw [hl]
    cases n with
    | dir es => exact absurd rfl hkd
    | file => exact ⟨rfl, _, rfl, fun hq => remove_gone _ q hq⟩
    | link t => exact ⟨rfl, _, rfl, fun hq => remove_gone _ q hq⟩

/-- Removing `/l` removes the link and not the directory; `/d` is not empty. -/
example : (∃ root', removeFile calm sample [[108]] = (.ok 1, root') ∧ ([[108]] ≠ ([] : Path) → Gone sample root' [[108]])) ∧
    removeDirectory calm sample [[100]] = (.throw, sample) :=
  ⟨((C159_remove calm sample sample rfl rfl [[108]] [[108]] rfl).2.2 ⟨.link [[100]], rfl, by simp⟩).2,
    ((C159_remove calm sample sample rfl rfl [[100]] [[100]] rfl).2.1 rfl).2.2 ⟨[102], by decide⟩⟩

/-- **C159, failures of `remove_directory` and `remove`.** If the path cannot be followed because something is missing, the result is 0; if
it cannot be followed for another reason, or the call fails, there is an exception; nothing has changed. -/
theorem C159_remove_error (S : Sys) (root : Node) (path : Path) :
    (S.fails 0 = false → resolve (S.change 0 root) false maxLinks path = .error .enoent →
      removeDirectory S root path = (.ok 0, S.change 0 root) ∧ removeFile S root path = (.ok 0, S.change 0 root)) ∧
    ((S.fails 0 = true ∨ ∃ e, e ≠ .enoent ∧ resolve (S.change 0 root) false maxLinks path = .error e) →
      removeDirectory S root path = (.throw, S.change 0 root) ∧ removeFile S root path = (.throw, S.change 0 root)) := by
  unfold removeDirectory removeFile rmdir unlink Sys.call
  refine ⟨fun hf hr => ?_, fun h => ?_⟩
  · simp only [hf, hr]
    exact ⟨rfl, rfl⟩
  · cases hf : S.fails 0 with
    | true => exact ⟨rfl, rfl⟩
    | false =>
      rw [hf] at h
      obtain ⟨e, he, hr⟩ := h.resolve_left (by simp)
      simp only [hr]
      cases e with
      | enoent => exact absurd rfl he
      | eisdir => exact ⟨rfl, rfl⟩
      | other => exact ⟨rfl, rfl⟩

/-- `/x/y` is missing and `/d/f/y` is below a file. -/
example : removeFile calm sample [[120], [121]] = (.ok 0, sample) ∧ removeFile calm sample [[100], [102], [121]] = (.throw, sample) :=
  ⟨((C159_remove_error calm sample _).1 rfl rfl).2, ((C159_remove_error calm sample _).2 (.inr ⟨.other, by simp, rfl⟩)).2⟩

/-- **C159, `symlink`.** Whatever else happens: if the function returns, there is a link to `target` where `path_new` leads, where there has been
nothing, and nothing else has changed; if it throws, this process has changed nothing.  It returns if there is nothing at that
place, in a directory that exists, and the call does not fail. -/
theorem C159_symlink (S : Sys) (root now : Node) (hn : now = S.change 0 root) (pathNew target : Path) :
    (∀ root', symlink S root pathNew target = (.ok (), root') → ∃ q, resolve now false maxLinks pathNew = .ok q ∧ Added now root' q (.link target)) ∧
    (∀ r root', symlink S root pathNew target = (r, root') → r ≠ .ok () → r = .throw ∧ root' = now) ∧
    (∀ q, S.fails 0 = false → resolve now false maxLinks pathNew = .ok q → kindAt now q = none → kindAt now q.dropLast = some .dir →
      (symlink S root pathNew target).1 = .ok ()) := by
  subst hn
  unfold symlink
  refine ⟨fun root' h => ?_, fun r root' h hne => ?_, fun q hf hr hk hd => ?_⟩
  · rcases call_cases S 0 (create (S.change 0 root) pathNew (.link target)) with e | ⟨_, e⟩
    · rw [e] at h
      cases hr : resolve (S.change 0 root) false maxLinks pathNew with
      | error er =>
        have : create (S.change 0 root) pathNew (.link target) = .error (ofErr er) := by
          unfold create
          rw [hr]
        rw [this] at h
        cases h
      | ok q =>
        rcases create_spec (S.change 0 root) pathNew q (.link target) hr (.inr (.inl ⟨_, rfl⟩)) with hc | hc | hc
        · rw [hc.2] at h
          cases h
        · obtain ⟨_, _, root'', e', ha⟩ := hc
          rw [e'] at h
          cases h
          exact ⟨q, rfl, ha⟩
        · rw [hc.2.2] at h
          cases h
    · rw [e] at h
      cases h
  · cases hc : S.call 0 (create (S.change 0 root) pathNew (.link target)) with
    | ok n =>
      rw [hc] at h
      cases h
      exact absurd rfl hne
    | error e =>
      rw [hc] at h
      cases h
      exact ⟨rfl, rfl⟩
  · have hc : S.call 0 (create (S.change 0 root) pathNew (.link target)) = create (S.change 0 root) pathNew (.link target) := by
      unfold Sys.call
      rw [hf]
      rfl
    rw [hc]
    rcases create_spec (S.change 0 root) pathNew q (.link target) hr (.inr (.inl ⟨_, rfl⟩)) with h | h | h
    · exact absurd hk h.1
    · obtain ⟨_, _, root', e, _⟩ := h
      rw [e]
    · exact absurd hd h.2.1

example : (symlink calm sample [[108], [120]] [[121]]).1 = .ok () := (C159_symlink calm sample sample rfl [[108], [120]] [[121]]).2.2 [[100], [120]] rfl rfl rfl rfl

/-- **C159, `move`.** Whatever else happens: if the function returns, what has been at the place that `path_old` leads to is at the place that
`path_new` leads to, with everything below it, and no longer at the former unless these are the same; nothing else has changed except for
what has been at `path_new`; if it throws, this process has changed nothing. -/
theorem C159_move (S : Sys) (root now : Node) (hn : now = S.change 0 root) (pathNew pathOld p q : Path)
    (hp : resolve now false maxLinks pathOld = .ok p) (hq : resolve now false maxLinks pathNew = .ok q) :
    (∀ root', move S root pathNew pathOld = (.ok (), root') → kindAt now p ≠ none ∧ ((p = q ∧ root' = now) ∨ (p ≠ q ∧ Moved now root' p q))) ∧
    (∀ r root', move S root pathNew pathOld = (r, root') → r ≠ .ok () → r = .throw ∧ root' = now) ∧
    (S.fails 0 = false → kindAt now p ≠ none → kindAt now q = none → kindAt now q.dropLast = some .dir → ¬ p <+: q →
      (move S root pathNew pathOld).1 = .ok ()) := by
  subst hn
  unfold move
  refine ⟨fun root' h => ?_, fun r root' h hne => ?_, fun hf h1 h2 h3 h4 => ?_⟩
  · rcases call_cases S 0 (rename (S.change 0 root) pathOld pathNew) with e | ⟨_, e⟩
    · rw [e] at h
      cases hc : rename (S.change 0 root) pathOld pathNew with
      | error e => rw [hc] at h; cases h
      | ok n =>
        rw [hc] at h
        cases h
        exact rename_spec hp hq hc
    · rw [e] at h
      cases h
  · cases hc : S.call 0 (rename (S.change 0 root) pathOld pathNew) with
    | ok n =>
      rw [hc] at h
      cases h
      exact absurd rfl hne
    | error e =>
      rw [hc] at h
      cases h
      exact ⟨rfl, rfl⟩
  · unfold Sys.call rename
    rw [hf, hp, hq]
    rw [Ne, kindAt_none] at h1
    rw [kindAt_none] at h2
    obtain ⟨es, h3⟩ := kindAt_dir'.1 h3
    have hpq : p ≠ q := by
      rintro rfl
      exact h4 (List.prefix_refl _)
    have hq0 : ¬ (p <+: q ∨ q = []) := by
      rintro (h | rfl)
      · exact h4 h
      · exact lookup_root _ h2
    cases hl : lookup (S.change 0 root) p with
    | none => exact absurd hl h1
    | some n => simp [hl, h2, h3, hpq, hq0]

/-- `/d` can be moved to `/e` with the file in it. -/
example : (move calm sample [[101]] [[100]]).1 = .ok () ∧ ∀ root', move calm sample [[101]] [[100]] = (.ok (), root') → Moved sample root' [[100]] [[101]] :=
  ⟨(C159_move calm sample sample rfl [[101]] [[100]] [[100]] [[101]] rfl rfl).2.2 rfl (by decide) rfl rfl (by decide),
    fun root' h => (((C159_move calm sample sample rfl [[101]] [[100]] [[100]] [[101]] rfl rfl).1 root' h).2.resolve_left fun h => absurd h.1 (by decide)).2⟩

/-! ### C160: what is reported -/

/-- **C160, `list`, as documented.** When no other process changes the files, `std.filesystem.list(path)` returns all entries of the
directory other than `.` and `..`, each with its number and type, or throws an exception.  What `readdir()` returns is true, and
complete unless it has failed. -/
def C160_claim : Prop := ∀ (S : Sys), (∀ i n, S.change i n = n) →
  ∀ (root : Node) (path q : Path) (ino : Name → Nat), resolve root true maxLinks path = .ok q → kindAt root q = some .dir →
    Truthful root q ino S.dirents → (S.broken = false → Complete root q S.dirents) →
    list S root path = .throw ∨ ∃ o, list S root path = .ok (some o) ∧ Listed root q ino o

/-- A system in which `readdir()` fails at once. -/
def torn : Sys := ⟨fun _ => false, fun _ n => n, [], true⟩

/-- **C160 is false**: a failure of `readdir()` is taken for the end of the directory, and the entries that have not been read are
missing without notice. -/
theorem C160_false : ¬ C160_claim := by
  intro h
  have hl : list torn sample [] = .ok (some []) := rfl
  rcases h torn (fun _ _ => rfl) sample [] [] (fun _ => 0) rfl rfl (fun d hd => by cases hd) (fun hb => by cases hb) with h | ⟨o, h, h2⟩
  · rw [hl] at h
    cases h
  · rw [hl] at h
    cases h
    exact absurd (h2 [100]) (by decide)

/-- **C160 (partial), `list`.** When no other process changes the files and `readdir()` does not fail, `list` returns all entries other than
`.` and `..`, each with its number and type, whether or not `readdir()` tells types and in which order, and though it may return
an entry twice; unless another call has failed: then there is an exception.  What is missing: failures of `readdir()`, see
`C160_false`. -/
theorem C160_list_partial (S : Sys) (hS : ∀ i n, S.change i n = n) (root : Node) (path q : Path) (ino : Name → Nat)
    (hr : resolve root true maxLinks path = .ok q) (hq : kindAt root q = some .dir) (ht : Truthful root q ino S.dirents)
    (hc : Complete root q S.dirents) :
    (list S root path = .throw ∧ ∃ j, S.fails j = true) ∨ ∃ o, list S root path = .ok (some o) ∧ Listed root q ino o := by
  obtain ⟨es, hes⟩ := kindAt_dir'.1 hq
  have hn : nodeAt root true path = .ok (.dir es) := by
    unfold nodeAt
    rw [hr]
    dsimp only
    rw [hes]
  unfold list
  rw [hS, hn]
  rcases call_cases S 0 (Except.ok (Node.dir es) : Except Errno Node) with e | ⟨hf, e⟩
  · rw [e]
    dsimp only
    rcases listLoop_spec hS hr hes S.dirents [] 1 [] ht (fun x => by simp) with ⟨h, h2⟩ | ⟨o, h, h2⟩
    · rw [h]
      exact .inl ⟨rfl, h2⟩
    · rw [h]
      refine .inr ⟨o, rfl, fun x => ?_⟩
      rw [h2 x, List.nil_append]
      by_cases hx : Special x
      · rw [if_pos hx, if_pos hx]
      · rw [if_neg hx, if_neg hx]
        by_cases hex : ∃ d ∈ S.dirents, d.name = x
        · rw [if_pos hex]
        · rw [if_neg hex]
          cases hk : kindAt root (q ++ [x]) with
          | none => rfl
          | some k => exact absurd (hc x hx (by rw [hk]; simp)) hex
  · rw [e]
    exact .inl ⟨rfl, 0, hf⟩

/-- The root has the directory `d` and the link `l`. -/
example : ∃ o, list calm sample [] = .ok (some o) ∧ o.lookup [100] = some ⟨7, true, false⟩ ∧ o.lookup [108] = some ⟨9, false, true⟩ := by
  have ht : Truthful sample [] (fun x => if x = [100] then 7 else 9) calm.dirents := by
    intro d hd hs
    simp only [calm, List.mem_cons, List.not_mem_nil, or_false] at hd
    rcases hd with rfl | rfl | rfl | rfl
    · exact absurd (.inl rfl) hs
    · exact ⟨rfl, .dir, rfl, by simp⟩
    · exact absurd (.inr rfl) hs
    · exact ⟨rfl, .link [[100]], rfl, by simp [typeOf]⟩
  have hc : Complete sample [] calm.dirents := by
    intro x hx hk
    simp only [List.nil_append, Ne, kindAt_none] at hk
    unfold sample at hk
    rw [lookup_one] at hk
    by_cases h1 : x = [100]
    · exact ⟨⟨[100], 7, none⟩, by simp [calm], h1.symm⟩
    · by_cases h2 : x = [108]
      · exact ⟨⟨[108], 9, some .lnk⟩, by simp [calm], h2.symm⟩
      · have e1 : (x == [100]) = false := by simpa using h1
        have e2 : (x == [108]) = false := by simpa using h2
        simp [List.lookup_cons, e1, e2] at hk
  rcases C160_list_partial calm (fun _ _ => rfl) sample [] [] _ rfl rfl ht hc with ⟨_, j, hj⟩ | ⟨o, h, h2⟩
  · cases hj
  · exact ⟨o, h, by rw [h2]; decide, by rw [h2]; decide⟩

/-- **C160, `list` without a directory.** If the path leads nowhere because something is missing, the result is `null`; if it leads to
something that is no directory, or cannot be followed for another reason, there is an exception. -/
theorem C160_list_absent (S : Sys) (hS : S.Quiet) (root : Node) (path : Path) :
    (resolve root true maxLinks path = .error .enoent → list S root path = .ok none) ∧
    (∀ e, e ≠ .enoent → resolve root true maxLinks path = .error e → list S root path = .throw) ∧
    (∀ q, resolve root true maxLinks path = .ok q → kindAt root q = none → list S root path = .ok none) ∧
    (∀ q k, resolve root true maxLinks path = .ok q → kindAt root q = some k → k ≠ .dir → list S root path = .throw) := by
  unfold list nodeAt
  simp only [call_quiet hS, hS.2]
  refine ⟨fun hr => by rw [hr]; rfl, fun e he hr => ?_, fun q hr hk => ?_, fun q k hr hk hd => ?_⟩
  · rw [hr]
    cases e with
    | enoent => exact absurd rfl he
    | eisdir => rfl
    | other => rfl
  · rw [kindAt_none] at hk
    rw [hr]
    simp only [hk]
  · obtain ⟨n, hn, rfl⟩ := kindAt_some hk
    rw [hr]
    simp only [hn]
    cases n with
    | dir es => exact absurd rfl hd
    | file => rfl
    | link t => rfl

example : list calm sample [[120]] = .ok none ∧ list calm sample [[100], [102]] = .throw :=
  ⟨(C160_list_absent calm calm_quiet sample [[120]]).2.2.1 [[120]] rfl rfl,
    (C160_list_absent calm calm_quiet sample [[100], [102]]).2.2.2 [[100], [102]] .file rfl rfl (by decide)⟩

/-- **C160, `get_properties`, as documented**: the fields of `struct stat`, the type of the file (bits 12 to 15 of the mode), the sizes in bytes, and
the times in milliseconds, rounded down, also before 1970. -/
def C160_properties_claim : Prop := ∀ s : Stat, 0 ≤ s.ansec ∧ s.ansec < 1000000000 → 0 ≤ s.mnsec ∧ s.mnsec < 1000000000 →
  0 ≤ s.blocks ∧ s.blocks < 2 ^ 54 → -2 ^ 63 ≤ s.asec ∧ s.asec < 2 ^ 63 → -2 ^ 63 ≤ s.msec ∧ s.msec < 2 ^ 63 →
  getProperties (.ok s) = .ok (some [("device", .int (vInteger s.dev)), ("inode", .int (vInteger s.ino)), ("link_count", .int (vInteger s.nlink)),
    ("is_directory", .bool (s.mode / 4096 % 16 = 4)), ("is_symlink", .bool (s.mode / 4096 % 16 = 10)), ("size", .int s.size),
    ("size_on_disk", .int (s.blocks * 512)), ("time_accessed", .int (nanos s.asec s.ansec / 1000000)),
    ("time_modified", .int (nanos s.msec s.mnsec / 1000000))])

/-- **C160 is false for times far away**: the number of milliseconds may overflow, which is undefined. -/
theorem C160_properties_false : ¬ C160_properties_claim := by
  intro h
  have := h ⟨0, 0, 1, 0x81A4, 0, 0, 0, 0, 9223372036854776, 0⟩ (by decide) (by decide) (by decide) (by decide) (by decide)
  have e : getProperties (.ok ⟨0, 0, 1, 0x81A4, 0, 0, 0, 0, 9223372036854776, 0⟩) = .ub := by decide +kernel
  rw [e] at this
  cases this

/-- **C160 (partial), `get_properties`.** The properties are as documented if the times are less than 292 million years from 1970.  A path that
does not exist yields `null` and any other error an exception.  What is missing: times beyond, see `C160_properties_false`. -/
theorem C160_properties_partial (s : Stat) (ha : 0 ≤ s.ansec ∧ s.ansec < 1000000000) (hm : 0 ≤ s.mnsec ∧ s.mnsec < 1000000000)
    (hb : 0 ≤ s.blocks ∧ s.blocks < 2 ^ 54) (has : -9223372036854775 ≤ s.asec ∧ s.asec < 9223372036854775)
    (hms : -9223372036854775 ≤ s.msec ∧ s.msec < 9223372036854775) :
    getProperties (.ok s) = .ok (some [("device", .int (vInteger s.dev)), ("inode", .int (vInteger s.ino)), ("link_count", .int (vInteger s.nlink)),
      ("is_directory", .bool (s.mode / 4096 % 16 = 4)), ("is_symlink", .bool (s.mode / 4096 % 16 = 10)), ("size", .int s.size),
      ("size_on_disk", .int (s.blocks * 512)), ("time_accessed", .int (nanos s.asec s.ansec / 1000000)),
      ("time_modified", .int (nanos s.msec s.mnsec / 1000000))]) ∧
    getProperties (.error .enoent) = .ok none ∧ ∀ e, e ≠ .enoent → getProperties (.error e) = .throw := by
  refine ⟨?_, rfl, fun e he => ?_⟩
  · have h1 : (s.mode &&& 0xF000 = 0x4000) = (s.mode / 4096 % 16 = 4) := by
      rw [and_type]
      apply propext
      omega
    have h2 : (s.mode &&& 0xF000 = 0xA000) = (s.mode / 4096 % 16 = 10) := by
      rw [and_type]
      apply propext
      omega
    unfold getProperties
    dsimp only
    rw [int64_ok (by omega), stamp_ok ha.1 ha.2 (by omega) (by omega), stamp_ok hm.1 hm.2 (by omega) (by omega)]
    simp only [h1, h2]
    rfl
  · cases e with
    | enoent => exact absurd rfl he
    | eexist => rfl
    | other => rfl

/-- A directory that was modified half a millisecond before 1970. -/
example : ∃ o, getProperties (.ok ⟨1, 2, 3, 0x41ED, 4096, 8, 1, 999999999, -1, 999500000⟩) = .ok (some o) ∧ o.lookup "is_directory" = some (.bool true) ∧
    o.lookup "time_modified" = some (.int (-1)) ∧ o.lookup "time_accessed" = some (.int 1999) ∧ o.lookup "size_on_disk" = some (.int 4096) :=
  ⟨_, (C160_properties_partial ⟨1, 2, 3, 0x41ED, 4096, 8, 1, 999999999, -1, 999500000⟩ (by decide) (by decide) (by decide) (by decide) (by decide)).1,
    by decide +kernel, by decide +kernel, by decide +kernel, by decide +kernel⟩

end Asteria.Dirs
