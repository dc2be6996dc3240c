import Verif.Model.Logf
import Verif.Props.Log
import Verif.Props.Format
import Verif.Props.Print

/-!
# C166: `std.debug.logf`
-/

namespace Asteria.Logf
open Asteria.Print (Texts Fits)
open Asteria.FormatSpec (Piece Outs)

/-- How a value stands in a message. -/
def shown (T : Texts) : Value → Bytes
  | .str s => s
  | v => Print.text T v

theorem inserters_shown (T : Texts) (vs : List Value) (h : ∀ v ∈ vs, Fits v) : inserters T vs = .ok (vs.map (shown T)) := by
  induction vs with
  | nil => rfl
  | cons v vs ih =>
    have hv : inserted T v = .ok (shown T v) := by
      have hf := h v (by simp)
      cases v with
      | str s => rfl
      | _ => exact Print.C158_print T _ hf
    unfold inserters
    rw [hv, ih fun w hw => h w (by simp [hw])]
    rfl

theorem format_total (env : Format.Env) (templ : Bytes) (args : List Bytes) (ha : args.length < 2 ^ 32 - 1) :
    Format.format env templ args = .throw ∨ ∃ o, Format.format env templ args = .ok o := by
  by_cases h0 : 0 ∈ templ
  · exact .inl (by simp [Format.format, h0])
  · unfold Format.format Format.formatv
    rw [if_neg h0]
    rcases Format.loop_sound env templ args (by omega) _ templ rfl _ (Nat.lt_succ_self _) [] with h | ⟨ps, o, h1, h2, h3, h4⟩
    · exact .inl h
    · exact .inr ⟨_, h4⟩

theorem logf_eq (env : Format.Env) (T : Texts) (write : Bytes → Int) (t : Log.Time) (file func : Bytes) (line : Nat) (templ : Bytes)
    (values : List Value) (hv : ∀ v ∈ values, Fits v) :
    logf env T write t file func line templ values = (Format.format env templ (values.map (shown T))).bind fun msg =>
      .ok (Log.message t file func line msg,
        if write (Log.message t file func line msg) < 0 then none else some (write (Log.message t file func line msg))) := by
  unfold logf
  rw [inserters_shown T values hv]
  rfl

/-- **C166, errors.** `std.debug.logf` throws exactly if the template has null bytes or is not made of characters and placeholders; otherwise it
returns, and nothing is undefined. -/
theorem C166_error (env : Format.Env) (T : Texts) (write : Bytes → Int) (t : Log.Time) (file func : Bytes) (line : Nat) (templ : Bytes)
    (values : List Value) (hv : ∀ v ∈ values, Fits v) (hn : values.length < 2 ^ 32 - 1) :
    (logf env T write t file func line templ values = .throw ↔ 0 ∈ templ ∨ ¬ ∃ ps : List Piece, (∀ p ∈ ps, p.Ok) ∧ FormatSpec.text ps = templ)
    ∧ logf env T write t file func line templ values ≠ .ub := by
  have hn' : (values.map (shown T)).length < 2 ^ 32 - 1 := by simpa using hn
  rw [← Format.C68_error env templ (values.map (shown T)) hn', logf_eq env T write t file func line templ values hv]
  rcases format_total env templ (values.map (shown T)) hn' with h | ⟨o, h⟩
  · rw [h]
    exact ⟨⟨fun _ => rfl, fun _ => rfl⟩, nofun⟩
  · rw [h]
    exact ⟨⟨nofun, nofun⟩, nofun⟩

/-- **C166, contents.** If it returns, then the message is the template where strings stand as they are and other values as `print_to` prints them, it
is passed to `write` as one line that has no other line feed and no control characters but tabs and `ESC E`, and the result is what `write` returns,
or null if that is negative. -/
theorem C166_contents (env : Format.Env) (T : Texts) (write : Bytes → Int) (t : Log.Time) (ht : t.Valid) (file func : Bytes) (line : Nat)
    (hl : line < 2 ^ 64) (hf : ∀ c ∈ file, Log.Plain c) (hg : ∀ c ∈ func, Log.Plain c) (templ : Bytes)
    (values : List Value) (hv : ∀ v ∈ values, Fits v) (hn : values.length < 2 ^ 32 - 1) (data : Bytes) (result : Option Int)
    (h : logf env T write t file func line templ values = .ok (data, result)) :
    (∃ (ps : List Piece) (msg : Bytes), (∀ p ∈ ps, p.Ok) ∧ FormatSpec.text ps = templ
        ∧ Outs env.errno env.strerror env.localTime env.utcTime templ (values.map (shown T)) ps msg ∧ data = Log.message t file func line msg)
    ∧ (∃ r, data = r ++ [0x0A] ∧ 0x0A ∉ r ∧ Log.Tame r)
    ∧ (write data < 0 → result = none) ∧ (0 ≤ write data → result = some (write data)) := by
  have hn' : (values.map (shown T)).length < 2 ^ 32 - 1 := by simpa using hn
  rw [logf_eq env T write t file func line templ values hv] at h
  cases e : Format.format env templ (values.map (shown T)) with
  | throw => rw [e] at h; cases h
  | ub => rw [e] at h; cases h
  | ok msg =>
    rw [e] at h
    obtain ⟨rfl, rfl⟩ := Prod.mk.inj (Res.ok.inj h)
    have h0 : 0 ∉ templ := by
      intro h0
      rw [Format.format, if_pos h0] at e
      cases e
    obtain ⟨ps, h1, h2, h3⟩ := (Format.C68_format env templ _ h0 hn' msg).1 e
    exact ⟨⟨ps, msg, h1, h2, h3, rfl⟩, Log.C164_safe t ht file func line hl hf hg msg, fun hw => if_pos hw, fun hw => if_neg (by omega)⟩

/-- `std.debug.logf("a$1$2", "\n\e", [1])` if 99 bytes are written, and if there is an error. -/
example : logf Format.env0 Print.someTexts (fun _ => 99) Log.sampleTime (Log.text "debug.cpp") (Log.text "f") 31 (Log.text "a$1$2")
      [.str [0x0A, 0x1B], .arr [.int 1]]
      = .ok (Log.text "2024-01-01 00:00:00.500000000 (f) @ debug.cpp:31\x1BE\ta\x1BE\t[ESC][ 1 ]\x1BE\n", some 99)
    ∧ (logf Format.env0 Print.someTexts (fun _ => -1) Log.sampleTime [] [] 31 (Log.text "a") []).map Prod.snd = .ok none
    ∧ logf Format.env0 Print.someTexts (fun _ => 99) Log.sampleTime [] [] 31 (Log.text "$") [] = .throw := by
  decide +kernel

example : ∀ v ∈ [Value.str [0x0A, 0x1B], .arr [.int 1]], Fits v := by simp [Fits, Print.FitsList]

end Asteria.Logf
