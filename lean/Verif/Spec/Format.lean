import Verif.Model.Basic

/-!
# What a template means

/repo/doc/standard-library.md:906-920, with the built-in placeholders and the limit of numbers that the code has beyond that.
-/

namespace Asteria.FormatSpec

/-- A piece of a template. -/
inductive Piece where
  /-- a character that is not `$` -/
  | char (c : UInt8)
  /-- `$$` -/
  | dollar
  /-- `$N` -/
  | digit (n : Nat)
  /-- `${…}` -/
  | braced (body : Bytes)

/-- A piece that can be written in a template. -/
def Piece.Ok : Piece → Prop
  | .char c => c ≠ 0x24
  | .dollar => True
  | .digit n => n < 10
  | .braced body => 0x7D ∉ body

/-- How a piece is written. -/
def Piece.text : Piece → Bytes
  | .char c => [c]
  | .dollar => [0x24, 0x24]
  | .digit n => [0x24, UInt8.ofNat (0x30 + n)]
  | .braced body => 0x24 :: 0x7B :: body ++ [0x7D]

def text (ps : List Piece) : Bytes := ps.flatMap Piece.text

/-- The value of decimal numerals. -/
def number (ds : List Nat) : Nat := ds.foldl (fun n d => n * 10 + d) 0

def numerals (ds : List Nat) : Bytes := ds.map fun d => UInt8.ofNat (0x30 + d)

/-- The text of the N-th argument.  The zeroth is the template. -/
def Nth (templ : Bytes) (args : List Bytes) (n : Nat) (out : Bytes) : Prop :=
  (n = 0 ∧ out = templ) ∨ (1 ≤ n ∧ args[n - 1]? = some out) ∨ (args.length < n ∧ out = "(no arg)".toUTF8.toList)

/-- What a pair of braces is replaced with.  `errno`, `strerror`, `now` and `utc` are what the environment says. -/
inductive Braced (errno strerror now utc : Bytes) (templ : Bytes) (args : List Bytes) : Bytes → Bytes → Prop where
  | nothing : Braced errno strerror now utc templ args [] []
  | errno : Braced errno strerror now utc templ args "errno".toUTF8.toList errno
  | errnoStr : Braced errno strerror now utc templ args "errno:str".toUTF8.toList strerror
  | errnoFull : Braced errno strerror now utc templ args "errno:full".toUTF8.toList
      (strerror ++ " (errno ".toUTF8.toList ++ errno ++ ")".toUTF8.toList)
  | time : Braced errno strerror now utc templ args "time".toUTF8.toList now
  | timeUtc : Braced errno strerror now utc templ args "time:utc".toUTF8.toList utc
  /-- decimal numerals, whose value is at most 655349 -/
  | num {ds : List Nat} {out : Bytes} (h : ds ≠ []) (hd : ∀ d ∈ ds, d < 10) (hn : number ds < 655350)
      (hout : Nth templ args (number ds) out) : Braced errno strerror now utc templ args (numerals ds) out
  /-- anything else -/
  | other {body : Bytes} (h0 : body ≠ [])
      (h1 : body ∉ ["errno", "errno:str", "errno:full", "time", "time:utc"].map fun s => s.toUTF8.toList)
      (h2 : ¬ ∃ ds, ds ≠ [] ∧ (∀ d ∈ ds, d < 10) ∧ number ds < 655350 ∧ body = numerals ds) :
      Braced errno strerror now utc templ args body "(no arg)".toUTF8.toList

/-- What a piece is replaced with. -/
inductive Out (errno strerror now utc : Bytes) (templ : Bytes) (args : List Bytes) : Piece → Bytes → Prop where
  | char {c : UInt8} : Out errno strerror now utc templ args (.char c) [c]
  | dollar : Out errno strerror now utc templ args .dollar [0x24]
  | digit {n : Nat} {out : Bytes} (h : Nth templ args n out) : Out errno strerror now utc templ args (.digit n) out
  | braced {body out : Bytes} (h : Braced errno strerror now utc templ args body out) :
      Out errno strerror now utc templ args (.braced body) out

/-- What pieces are replaced with, in order. -/
inductive Outs (errno strerror now utc : Bytes) (templ : Bytes) (args : List Bytes) : List Piece → Bytes → Prop where
  | nil : Outs errno strerror now utc templ args [] []
  | cons {p : Piece} {ps : List Piece} {a b : Bytes} (h : Out errno strerror now utc templ args p a)
      (hs : Outs errno strerror now utc templ args ps b) : Outs errno strerror now utc templ args (p :: ps) (a ++ b)

end Asteria.FormatSpec
