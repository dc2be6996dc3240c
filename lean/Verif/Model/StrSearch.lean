import Verif.Model.Slice

/-!
# Model of the searching functions in /repo/asteria/src/library/string.cpp

A text range and a pattern are lists of bytes read by index; reading outside is undefined behaviour.
The functions are templates over iterators: with reverse iterators the lists are the reversed ones,
and the only other difference is the order in which a word is loaded (`do_xload_word`).
-/

namespace Asteria.StrSearch
open Asteria.Slice

/-- `it[i]`: undefined outside the range. -/
def rd (l : Bytes) (i : Nat) : Res UInt8 :=
  match l[i]? with
  | some b => .ok b
  | none => .ub

/-- The `m_bcr_offsets` table, BMH_Searcher constructor, string.cpp:79-84. -/
def bcrTable (p : Bytes) : UInt8 → Int :=
  (List.range (p.length - 1)).foldl
    (fun tbl (k : Nat) => fun c => if p[k]? = some c then (p.length : Int) - 1 - k else tbl c)
    (fun _ => p.length)

/-- Little-endian value of a byte list. -/
def leWord : Bytes → Nat
  | [] => 0
  | b :: bs => b.toNat + 256 * leWord bs

/-- `do_xload_word`, string.cpp:88-106 (64-bit target): eight bytes from `tcur` on.  Through a reverse
iterator they are loaded in the opposite order.  Reading outside the range is undefined. -/
def loadWord (rev : Bool) (t : Bytes) (tcur : Nat) : Res Nat :=
  let bs := (t.drop tcur).take 8
  if bs.length = 8 then .ok (leWord (if rev then bs.reverse else bs)) else .ub

/-- `bmask`, string.cpp:122. -/
def bmask : Nat := 0x0101010101010101

/-- The test at string.cpp:132-137, in 64-bit arithmetic: may the word contain byte `c`? -/
def wordHas (w : Nat) (c : UInt8) : Bool :=
  let bcomp := bmask * c.toNat % 2 ^ 64
  let btext := w ^^^ bcomp
  ((btext + 2 ^ 64 - bmask) % 2 ^ 64) &&& (btext ^^^ (bmask <<< 7)) &&& (bmask <<< 7) ≠ 0

/-- The first loop of `search_opt`, string.cpp:129-142; `fin` is `tfinalcand`. -/
def wordSkip (rev : Bool) (t : Bytes) (c : UInt8) (fin tcur : Nat) : Res Nat :=
  if tcur + 8 ≤ fin then
    (loadWord rev t tcur).bind fun w =>
      if wordHas w c then .ok tcur else wordSkip rev t c fin (tcur + 8)
  else .ok tcur
termination_by fin + 8 - tcur

/-- The inner loop of `search_opt`, string.cpp:149-154: `none` if the candidate matches, otherwise the
proposed offset. -/
def compareAt (t p : Bytes) (tbl : UInt8 → Int) (tcur : Nat) : Nat → Int → Res (Option Int)
  | tml, off =>
    (rd t (tcur + tml)).bind fun a => (rd p tml).bind fun b =>
      if a = b then
        match tml with
        | 0 => .ok none
        | tml' + 1 =>
          (rd t (tcur + tml')).bind fun c =>
            compareAt t p tbl tcur tml' (max off (tbl c - ((p.length : Int) - 1 - tml')))
      else .ok (some off)

/-- The second loop of `search_opt`, string.cpp:144-161.  An offset that is not positive would not
terminate (or leave the range on the left); it is mapped to `ub`. -/
def bmhLoop (t p : Bytes) (tbl : UInt8 → Int) (fin tcur : Nat) : Res (Option Nat) :=
  if tcur ≤ fin then
    (rd t (tcur + (p.length - 1))).bind fun c =>
      (compareAt t p tbl tcur (p.length - 1) (tbl c)).bind fun
        | none => .ok (some tcur)
        | some off => if 0 < off.toNat then bmhLoop t p tbl fin (tcur + off.toNat) else .ub
  else .ok none
termination_by fin + 1 - tcur

/-- `BMH_Searcher` construction and `search_opt`, string.cpp:71-85, 108-162: the offset of the match in
the range. -/
def bmhSearch (rev : Bool) (t p : Bytes) : Res (Option Nat) :=
  if p.length = 0 then .throw
  else if t.length < p.length then .ok none
  else
    let fin := t.length - p.length
    (rd p 0).bind fun c =>
      (wordSkip rev t c fin 0).bind fun tcur => bmhLoop t p (bcrTable p) fin tcur

/-- `do_find_opt`, string.cpp:165-181. -/
def doFindOpt (rev : Bool) (t p : Bytes) : Res (Option Nat) :=
  if p.length = 0 then .ok (some 0)
  else if t.length = 0 then .ok none
  else bmhSearch rev t p

/-- `std_string_find`, string.cpp:795-801. -/
def find (text : Bytes) (from? length : Option Int) (pattern : Bytes) : Res (Option Int) :=
  (doSlice text.length from? length).bind fun (b, e) =>
    (doFindOpt false (sub text b e) pattern).map fun q => q.map fun i => (b : Int) + i

/-- `std_string_rfind`, string.cpp:803-811.  A match at offset `i` from the reversed beginning `e` has
`text.rend() - *qit = e - i`. -/
def rfind (text : Bytes) (from? length : Option Int) (pattern : Bytes) : Res (Option Int) :=
  (doSlice text.length from? length).bind fun (b, e) =>
    (doFindOpt true (sub text b e).reverse pattern.reverse).map fun q =>
      q.map fun i => (e : Int) - i - pattern.length

/-- The loop for an empty pattern, string.cpp:826-831. -/
def insertBeside (repl : Bytes) : Bytes → Bytes
  | [] => repl
  | c :: cs => repl ++ c :: insertBeside repl cs

/-- The loop for a non-empty pattern, string.cpp:837-842; `t` is the rest of the range, the result does
not include what follows the range.  A match without progress is mapped to `ub`. -/
def replaceLoop (p repl : Bytes) (t : Bytes) : Res Bytes :=
  match bmhSearch false t p with
  | .ok (some i) =>
    if 0 < p.length ∧ i + p.length ≤ t.length then
      (replaceLoop p repl (t.drop (i + p.length))).map fun r => t.take i ++ repl ++ r
    else .ub
  | .ok none => .ok t
  | .throw => .throw
  | .ub => .ub
termination_by t.length
decreasing_by simp only [List.length_drop]; omega

/-- `std_string_replace`, string.cpp:813-845. -/
def replace (text : Bytes) (from? length : Option Int) (pattern repl : Bytes) : Res Bytes :=
  (doSlice text.length from? length).bind fun (b, e) =>
    if b = e then .ok text
    else if pattern.length = 0 then
      .ok (sub text 0 b ++ insertBeside repl (sub text b e) ++ sub text e text.length)
    else
      (replaceLoop pattern repl (sub text b e)).map fun r =>
        sub text 0 b ++ r ++ sub text e text.length

/-- `do_find_of_opt`, string.cpp:183-197: the table contains the bytes of `set`. -/
def doFindOf (set : Bytes) (isMatch : Bool) : Bytes → Option Nat
  | [] => none
  | c :: cs => if decide (c ∈ set) = isMatch then some 0 else (doFindOf set isMatch cs).map (· + 1)

/-- `std_string_find_any_of` (`isMatch = true`), `std_string_find_not_of` (`false`), string.cpp:847-861. -/
def findOf (isMatch : Bool) (text : Bytes) (from? length : Option Int) (set : Bytes) : Res (Option Int) :=
  (doSlice text.length from? length).map fun (b, e) =>
    (doFindOf set isMatch (sub text b e)).map fun i => (b : Int) + i

/-- `std_string_rfind_any_of`, `std_string_rfind_not_of`, string.cpp:863-879. -/
def rfindOf (isMatch : Bool) (text : Bytes) (from? length : Option Int) (set : Bytes) : Res (Option Int) :=
  (doSlice text.length from? length).map fun (b, e) =>
    (doFindOf set isMatch (sub text b e).reverse).map fun i => (e : Int) - i - 1

/-- `do_get_reject`, string.cpp:199-206. -/
def getReject (reject : Option Bytes) : Bytes := reject.getD [0x20, 0x09]

/-- `text.find_not_of(rchars)`, rocket/cow_string.hpp:1688-1718 (`npos` is `none`). -/
def findNotOf (rchars text : Bytes) : Option Nat := doFindOf rchars false text

/-- `text.rfind_not_of(rchars) + 1`, rocket/cow_string.hpp:1801-1831 (`npos + 1` is 0). -/
def rfindNotOfSucc (rchars text : Bytes) : Nat :=
  match doFindOf rchars false text.reverse with
  | some i => text.length - i
  | none => 0

/-- `std_string_trim`, string.cpp:888-908. -/
def trim (text : Bytes) (reject : Option Bytes) : Bytes :=
  let rchars := getReject reject
  if rchars.length = 0 then text
  else
    match findNotOf rchars text with
    | none => []
    | some bpos =>
      let epos := rfindNotOfSucc rchars text
      if bpos = 0 ∧ epos = text.length then text else (text.drop bpos).take (epos - bpos)

/-- `std_string_triml`, string.cpp:910-926. -/
def triml (text : Bytes) (reject : Option Bytes) : Bytes :=
  let rchars := getReject reject
  if rchars.length = 0 then text
  else
    match findNotOf rchars text with
    | none => []
    | some bpos => if bpos = 0 then text else text.drop bpos

/-- `std_string_trimr`, string.cpp:928-944. -/
def trimr (text : Bytes) (reject : Option Bytes) : Bytes :=
  let rchars := getReject reject
  if rchars.length = 0 then text
  else
    let epos := rfindNotOfSucc rchars text
    if epos = 0 then [] else if epos = text.length then text else text.take epos

/-- `do_get_padding`, string.cpp:208-218. -/
def getPadding (padding : Option Bytes) : Res Bytes :=
  match padding with
  | none => .ok [0x20]
  | some p => if p = [] then .throw else .ok p

/-- The loop of `std_string_padl`, string.cpp:956-957: `pre` is what precedes the original text in
`res`, i.e. `res = pre ++ text`, and the insertion point is right before `text`.  An empty padding
would not terminate; the model stops there. -/
def padLoopL (pad text : Bytes) (length : Nat) (pre : Bytes) : Bytes :=
  if 0 < pad.length ∧ pre.length + text.length + pad.length ≤ length then
    padLoopL pad text length (pre ++ pad)
  else pre ++ text
termination_by length + 1 - pre.length
decreasing_by simp only [List.length_append]; omega

/-- `std_string_padl`, string.cpp:946-959. -/
def padl (text : Bytes) (length : Int) (padding : Option Bytes) : Res Bytes :=
  (getPadding padding).map fun pad =>
    if length ≤ 0 then text else padLoopL pad text length.toNat []

/-- The loop of `std_string_padr`, string.cpp:971-972. -/
def padLoopR (pad : Bytes) (length : Nat) (res : Bytes) : Bytes :=
  if 0 < pad.length ∧ res.length + pad.length ≤ length then padLoopR pad length (res ++ pad) else res
termination_by length + 1 - res.length
decreasing_by simp only [List.length_append]; omega

/-- `std_string_padr`, string.cpp:961-974. -/
def padr (text : Bytes) (length : Int) (padding : Option Bytes) : Res Bytes :=
  (getPadding padding).map fun pad =>
    if length ≤ 0 then text else padLoopR pad length.toNat text

/-- The loop of `std_string_explode` without a delimiter, string.cpp:1068-1075; `n` is
`segments.size()`, `rlimit` is `none` for `UINT64_MAX` (never reached). -/
def explodeBytes (rlimit : Option Nat) (n : Nat) : Bytes → List Bytes
  | [] => []
  | c :: cs =>
    if rlimit.all (n + 1 < ·) then [c] :: explodeBytes rlimit (n + 1) cs else [c :: cs]

/-- The loop of `std_string_explode` with a delimiter, string.cpp:1081-1086. -/
def explodeLoop (delim : Bytes) (rlimit : Option Nat) (n : Nat) (t : Bytes) : Res (List Bytes) :=
  if rlimit.all (n + 1 < ·) then
    match bmhSearch false t delim with
    | .ok (some i) =>
      if 0 < delim.length ∧ i + delim.length ≤ t.length then
        (explodeLoop delim rlimit (n + 1) (t.drop (i + delim.length))).map (t.take i :: ·)
      else .ub
    | .ok none => .ok [t]
    | .throw => .throw
    | .ub => .ub
  else .ok [t]
termination_by t.length
decreasing_by simp only [List.length_drop]; omega

/-- `std_string_explode`, string.cpp:1046-1089. -/
def explode (text : Bytes) (delim : Option Bytes) (limit : Option Int) : Res (List Bytes) :=
  if limit.any (· ≤ 0) then .throw
  else
    let rlimit := limit.map Int.toNat
    if text.length = 0 then .ok []
    else if delim.all (·.length = 0) then .ok (explodeBytes rlimit 0 text)
    else explodeLoop (delim.getD []) rlimit 0 text

/-- The loop of `std_string_implode`, string.cpp:1104-1108. -/
def implodeTail (delim : Option Bytes) : List Bytes → Bytes
  | [] => []
  | s :: ss => delim.getD [] ++ s ++ implodeTail delim ss

/-- `std_string_implode`, string.cpp:1091-1110, on an array of strings (`as_string()` of other values
throws; not represented). -/
def implode (segments : List Bytes) (delim : Option Bytes) : Bytes :=
  match segments with
  | [] => []
  | s :: ss => s ++ implodeTail delim ss

end Asteria.StrSearch
