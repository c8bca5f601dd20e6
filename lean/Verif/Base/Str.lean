import Verif.Common
/-
Model of `src/base/String.cpp`, `src/base/Character.cpp` and of the string methods in
`src/core/object/StringScriptObjectZs.cpp`.

A `String` is its heap buffer (bytes, allocated cells only), `_size` and `count`. Reads and writes
outside the buffer, and C-library calls on unterminated memory, are `Out.ub`; a thrown exception is
`Out.err`. `zs_malloc` zero-fills (`src/base/Memory.cpp` 9-19). C library functions (`strlen`,
`strcmp`, `strstr`, ...) are modelled by their contracts. Simplifications: allocation succeeds; the
`int` counters do not overflow (strings shorter than 2^31); a `Vector<String>` result is a list;
moved-from strings are not modelled.
-/
namespace Verif.Str
open Verif

abbrev Bytes := List UInt8

/-- `src/base/String.h` 148-160: `buf`, `_size`, `count`. -/
structure S where
  buf : Option Bytes
  size : Int
  count : Int
  deriving Repr, DecidableEq

/-! ### C memory and C library contracts -/

/-- Read one byte of a buffer. -/
def chr (b : Bytes) (i : Int) : Out UInt8 :=
  if i < 0 then .ub else match b[i.toNat]? with
    | some c => .ok c
    | none => .ub

/-- Bytes up to (not including) the first NUL. -/
def cstrFrom : Bytes → Out Bytes
  | [] => .ub
  | c :: cs => if c = 0 then .ok [] else (cstrFrom cs).map (c :: ·)

/-- The C string at `b + off`. -/
def cstr (b : Bytes) (off : Int) : Out Bytes :=
  if 0 ≤ off ∧ off ≤ b.length then cstrFrom (b.drop off.toNat) else .ub

/-- `malloc` + `memset 0`. -/
def alloc (n : Int) : Out Bytes := if n < 0 then .ub else .ok (List.replicate n.toNat 0)

/-- Store `src` at `b + off`. -/
def blit (b : Bytes) (off : Int) (src : Bytes) : Out Bytes :=
  if 0 ≤ off ∧ off + src.length ≤ b.length then
    .ok (b.take off.toNat ++ src ++ b.drop (off.toNat + src.length))
  else .ub

/-- Load `n` bytes from `b + off`. -/
def slice (b : Bytes) (off n : Int) : Out Bytes :=
  if 0 ≤ off ∧ 0 ≤ n ∧ off + n ≤ b.length then .ok ((b.drop off.toNat).take n.toNat) else .ub

def memcpy (dst : Bytes) (doff : Int) (src : Bytes) (soff n : Int) : Out Bytes :=
  (slice src soff n).bind (blit dst doff)

/-- The `n` bytes `strncpy` stores when copying from the given memory: stop at NUL and pad. -/
def strncpyBytes : Bytes → Nat → Out Bytes
  | _, 0 => .ok []
  | [], _+1 => .ub
  | c :: cs, n+1 => if c = 0 then .ok (List.replicate (n+1) 0) else (strncpyBytes cs n).map (c :: ·)

def strncpy (dst : Bytes) (doff : Int) (src : Bytes) (soff n : Int) : Out Bytes :=
  if 0 ≤ soff ∧ soff ≤ src.length ∧ 0 ≤ n then
    (strncpyBytes (src.drop soff.toNat) n.toNat).bind (blit dst doff)
  else .ub

def strcpy (dst : Bytes) (doff : Int) (src : Bytes) (soff : Int) : Out Bytes :=
  (cstr src soff).bind fun s => blit dst doff (s ++ [0])

def strcat (dst : Bytes) (doff : Int) (src : Bytes) : Out Bytes :=
  (cstr dst doff).bind fun d => (cstr src 0).bind fun s => blit dst (doff + d.length) (s ++ [0])

/-- `strstr` on two C strings: offset of the first occurrence. -/
def strstr (h needle : Bytes) : Option Nat :=
  if needle.isPrefixOf h then some 0 else
    match h with
    | [] => none
    | _ :: t => (strstr t needle).map (· + 1)

/-- `strchr`: offset of the first occurrence, the terminator counts as a character. -/
def strchr : Bytes → UInt8 → Option Nat
  | [], c => if c = 0 then some 0 else none
  | x :: xs, c => if x = c then some 0 else (strchr xs c).map (· + 1)

/-- `strncmp(a,b,n)==0`. -/
def strncmpEq : Bytes → Bytes → Nat → Bool
  | _, _, 0 => true
  | [], [], _+1 => true
  | a :: as, b :: bs, n+1 => a == b && strncmpEq as bs n
  | _, _, _+1 => false

/-! ### `String` -/

/-- Memory behind `buf` (`NULL` has none). -/
def S.mem (s : S) : Bytes := s.buf.getD []

/-- `toConstChar`, `String.h` 142-144. -/
def S.cc (s : S) : Bytes := s.buf.getD [0]

/-- `String()`, `String.cpp` 95-101. -/
def S.empty : S := ⟨none, 0, 0⟩

/-- Result of `set(const char*)` for a C string with these characters, `String.cpp` 73-88. -/
def ofChars (l : Bytes) : S := ⟨some (l ++ List.replicate 17 0), l.length + 16, l.length⟩

/-- `set(const char *)`, `String.cpp` 73-88 (`b` is the memory the pointer points into). -/
def setC (b : Bytes) : Out S := (cstr b 0).map ofChars

/-- `set(const String &)` / copy construction, `String.cpp` 91-93, 110-115. -/
def copy (s : S) : Out S := setC s.cc

/-- `inc_slots`, `String.cpp` 60-71 (`count*1.5` is exact and truncated). -/
def incSlots (s : S) (n : Int) : Out S :=
  if s.size ≤ s.count + n then
    let size := s.count + n + s.count * 3 / 2
    (slice s.mem 0 s.count).bind fun keep =>
    (alloc (size + 1 - s.count)).bind fun z =>
    .ok ⟨some (keep ++ z), size, s.count + n⟩
  else .ok { s with count := s.count + n }

/-- `append(const char *,int)`, `String.cpp` 665-669. -/
def appendN (s : S) (src : Bytes) (len : Int) : Out S :=
  (incSlots s len).bind fun s' =>
  (memcpy s'.mem s.count src 0 len).bind fun b => .ok { s' with buf := some b }

/-- `append(const char *)`, `String.cpp` 675-680; `none` is the NULL pointer. -/
def appendC (s : S) (src : Option Bytes) : Out S :=
  match src with
  | none => .err
  | some b => (cstr b 0).bind fun l => appendN s b l.length

/-- `append(const String &)` and `operator+=`, `String.cpp` 159-162, 671-673: passes `buf`, which may be NULL. -/
def append (s t : S) : Out S := appendC s t.buf

/-- `append(char)`, `String.cpp` 682-687. -/
def appendChar (s : S) (c : UInt8) : Out S :=
  (incSlots s 1).bind fun s' =>
  (blit s'.mem s'.count [0]).bind fun b =>
  (blit b (s'.count - 1) [c]).bind fun b => .ok { s' with buf := some b }

/-- `newFromTwo` / `operator+`, `String.cpp` 203-261 (`NULL` counts as empty). -/
def concat (s t : S) : Out S :=
  (cstr s.cc 0).bind fun a => (cstr t.cc 0).bind fun b =>
  if a.length + b.length > 0 then setC (a ++ b ++ [0]) else .ok S.empty

/-- `operator==`, `String.cpp` 265-268 (`strcmp(..)==0`). -/
def eqS (s t : S) : Out Bool :=
  (cstr s.cc 0).bind fun a => (cstr t.cc 0).bind fun b => .ok (a == b)

/-- `operator[]`/`at`, `String.cpp` 174-197. -/
def at' (s : S) (i : Int) : Out UInt8 :=
  if i < 0 ∨ i ≥ s.count then .err else chr s.mem i

/-- Assignment through `operator[]`. -/
def setAt (s : S) (i : Int) (c : UInt8) : Out S :=
  if i < 0 ∨ i ≥ s.count then .err else (blit s.mem i [c]).map fun b => { s with buf := some b }

/-- `getSubstring`, `String.cpp` 448-474 (`len = -1` is `npos`). -/
def getSubstring (s : S) (pos len : Int) : Out S :=
  let len := if len = -1 then s.count - pos else len
  if len < 0 then .err
  else if pos + len > s.count then .err
  else
    (alloc (len + 1)).bind fun cut =>
    (strncpy cut 0 s.mem pos len).bind fun cut => setC cut

/-- `setSubstring`, `String.cpp` 495-522. -/
def setSubstring (s : S) (pos len : Int) (t : S) : Out S :=
  if pos ≥ s.count then .err else
  let newSize := s.count + (t.count - len)
  if newSize ≤ 0 then .err else
  (alloc (newSize + 1)).bind fun nb =>
  (if pos > 0 then strncpy nb 0 s.mem 0 pos else .ok nb).bind fun nb =>
  (strcat nb pos t.cc).bind fun nb =>
  (strcpy nb (pos + t.count) s.mem (pos + len)).bind fun nb =>
  .ok ⟨some nb, newSize, newSize⟩

/-- `insert(int,char)`, `String.cpp` 529-551. -/
def insertChar (s : S) (pos : Int) (c : UInt8) : Out S :=
  if pos ≥ s.count then .err else
  let newSize := s.count + 1
  (alloc (newSize + 1)).bind fun nb =>
  (if pos > 0 then strncpy nb 0 s.mem 0 pos else .ok nb).bind fun nb =>
  (blit nb pos [c]).bind fun nb =>
  (strcpy nb (pos + 1) s.mem pos).bind fun nb =>
  .ok ⟨some nb, newSize, newSize⟩

/-- `insert(int,const String &)`, `String.cpp` 553-572. -/
def insertStr (s : S) (pos : Int) (t : S) : Out S :=
  if pos ≥ s.count then .err else
  let newSize := s.count + t.count
  (alloc (newSize + 1)).bind fun nb =>
  (if pos > 0 then strncpy nb 0 s.mem 0 pos else .ok nb).bind fun nb =>
  (strcat nb pos t.cc).bind fun nb =>
  (strncpy nb (pos + t.count) s.mem pos (s.count - pos)).bind fun nb =>
  .ok ⟨some nb, newSize, newSize⟩

/-- `erase(int,int)`, `String.cpp` 574-601. -/
def erase (s : S) (pos len : Int) : Out S :=
  if pos ≥ s.count then .err else
  if pos + len > s.count then .err else
  let newSize := s.count - len
  (alloc (newSize + 1)).bind fun nb =>
  (if pos > 0 then memcpy nb 0 s.mem 0 pos else .ok nb).bind fun nb =>
  (memcpy nb pos s.mem (pos + len) (s.count - len - pos)).bind fun nb =>
  .ok ⟨some nb, newSize, newSize⟩

/-- Inner loop of `find`, `String.cpp` 612-617. -/
def matchLoop (b : Bytes) (idx : Int) : Bytes → Nat → Out Bool
  | [], _ => .ok true
  | c :: cs, i => (chr b (idx + i)).bind fun x => if c ≠ x then .ok false else matchLoop b idx cs (i + 1)

/-- Outer loop of `find`, `String.cpp` 609-626 (`n` bounds the rounds). -/
def findLoop (b : Bytes) (count : Int) (needle : Bytes) : Nat → Int → Out Int
  | 0, _ => .ok (-1)
  | n+1, idx => (matchLoop b idx needle 0).bind fun m =>
      if m then .ok idx
      else if idx + 1 < count then findLoop b count needle n (idx + 1) else .ok (-1)

/-- `find(const char *,int)`, `String.cpp` 603-630; `needle` are the `strlen` characters of `_s`.
The start position is only used in the guard. -/
def findC (s : S) (needle : Bytes) (pos : Int) : Out Int :=
  if pos < s.count ∧ (needle.length : Int) ≤ s.count then findLoop s.mem s.count needle s.count.toNat 0
  else .ok (-1)

/-- `find(const String &,int)`, `String.cpp` 632-634. -/
def find (s t : S) (pos : Int := 0) : Out Int := (cstr t.cc 0).bind fun n => findC s n pos

/-- Loop of `findLastOf`, `String.cpp` 647-655. -/
def lastLoop (b : Bytes) (set : Bytes) : Nat → Int → Out Int
  | 0, _ => .ok (-1)
  | n+1, idx => (chr b idx).bind fun c =>
      if c ∈ set then .ok idx
      else if idx - 1 ≥ 0 then lastLoop b set n (idx - 1) else .ok (-1)

/-- `findLastOf(const char *,int)`, `String.cpp` 636-659. -/
def findLastOf (s : S) (set : Bytes) (pos : Int := -1) : Out Int :=
  let pos := if pos = -1 then s.count - 1 else pos
  if pos < s.count then
    let idx := min pos (s.count - 1)
    lastLoop s.mem set (idx.toNat + 1) idx
  else .ok (-1)

/-- Loop of `split(char)`, `String.cpp` 316-321; offsets are relative to the buffer; `none` = the loop
has not ended within `fuel` rounds. -/
def splitCharLoop (s : S) (d : UInt8) : (fuel : Nat) → (pos last : Int) → Option (Out (List S))
  | 0, _, _ => none
  | fuel+1, pos, last =>
    match cstr s.cc pos with
    | .ub => some .ub
    | .err => some .err
    | .ok h =>
      match strchr h d with
      | some k =>
        match getSubstring s last (pos + k - last) with
        | .ok tok => (splitCharLoop s d fuel (pos + k + 1) (pos + k + 1)).map fun o => o.map (tok :: ·)
        | .err => some .err
        | .ub => some .ub
      | none => some ((getSubstring s last (s.count - last)).map fun tok => [tok])

/-- `split(char)`, `String.cpp` 309-328. -/
def splitChar (s : S) (d : UInt8) (fuel : Nat) : Option (Out (List S)) := splitCharLoop s d fuel 0 0

/-- `split(const String &)`, `String.cpp` 330-343. -/
def splitStr (d : S) : (fuel : Nat) → S → Option (Out (List S))
  | 0, _ => none
  | fuel+1, s =>
    match find s d with
    | .ub => some .ub
    | .err => some .err
    | .ok pos =>
      if pos ≠ -1 then
        match getSubstring s 0 pos, erase s 0 (pos + d.count) with
        | .ok tok, .ok s' => (splitStr d fuel s').map fun o => o.map (tok :: ·)
        | .err, _ => some .err
        | .ub, _ => some .ub
        | _, .err => some .err
        | _, .ub => some .ub
      else some ((copy s).map fun t => [t])

/-- Loop of `replace`, `String.cpp` 439-443. -/
def replaceLoop (old new : S) : (fuel : Nat) → S → Int → Option (Out S)
  | 0, _, _ => none
  | fuel+1, s, idx =>
    match cstr s.cc idx, cstr old.cc 0 with
    | .ok h, .ok o =>
      match strstr h o with
      | some k =>
        match setSubstring s (idx + k) old.count new with
        | .ok s' => replaceLoop old new fuel s' (idx + k + new.count)
        | .err => some .err
        | .ub => some .ub
      | none => some (.ok s)
    | .err, _ => some .err
    | .ub, _ => some .ub
    | _, .err => some .err
    | _, .ub => some .ub

/-- `replace`, `String.cpp` 434-446. -/
def replace (s old new : S) (fuel : Nat) : Option (Out S) :=
  match copy s with
  | .ok s' => replaceLoop old new fuel s' 0
  | .err => some .err
  | .ub => some .ub

/-- `Character::toLowerCase`, `Character.cpp` 9-15. -/
def lowerChar (c : UInt8) : UInt8 := if 65 ≤ c ∧ c ≤ 90 then 97 + (c - 65) else c

/-- `Character::toUpperCase`, `Character.cpp` 17-23. -/
def upperChar (c : UInt8) : UInt8 := if 97 ≤ c ∧ c ≤ 122 then 65 + (c - 97) else c

/-- Successor of the `short` loop counter (wraps, implementation-defined before C++20). -/
def shortSucc (l : Int) : Int := if l = 32767 then -32768 else l + 1

/-- Loop of `toLowerCase`/`toUpperCase`, `String.cpp` 349-351, 358-360. -/
def caseLoop (f : UInt8 → UInt8) : (fuel : Nat) → S → Int → Option (Out S)
  | 0, _, _ => none
  | fuel+1, s, l =>
    if l < s.count then
      match at' s l with
      | .ok c =>
        match setAt s l (f c) with
        | .ok s' => caseLoop f fuel s' (shortSucc l)
        | .err => some .err
        | .ub => some .ub
      | .err => some .err
      | .ub => some .ub
    else some (.ok s)

/-- `toLowerCase`, `String.cpp` 346-353. -/
def toLowerCase (s : S) (fuel : Nat) : Option (Out S) :=
  match copy s with
  | .ok s' => caseLoop lowerChar fuel s' 0
  | .err => some .err
  | .ub => some .ub

/-- `toUpperCase`, `String.cpp` 355-362. -/
def toUpperCase (s : S) (fuel : Nat) : Option (Out S) :=
  match copy s with
  | .ok s' => caseLoop upperChar fuel s' 0
  | .err => some .err
  | .ub => some .ub

/-- `endsWith`, `String.cpp` 364-374. -/
def endsWith (s t : S) : Out Bool :=
  if t.count ≤ s.count then
    (cstr s.cc (s.count - t.count)).bind fun a => (cstr t.cc 0).bind fun b => .ok (a == b)
  else .ok false

/-- `startsWith`, `String.cpp` 376-381. -/
def startsWith (s t : S) : Out Bool :=
  if s.count ≥ t.count then
    (cstr s.cc 0).bind fun a => (cstr t.cc 0).bind fun b => .ok (strncmpEq a b t.count.toNat)
  else .ok false

/-- `contains(const String &)` with the default comparer, `String.cpp` 393-407. -/
def contains (s t : S) : Out Bool :=
  (copy s).bind fun s1 => (copy t).bind fun s2 => (find s1 s2).bind fun i => .ok (i ≠ -1)

/-- Loop of `unescape`, `String.cpp` 413-425, over the characters from `it` to `end`; gives the
characters appended to the result. -/
def unescapeChars : Bytes → Bytes
  | [] => []
  | [c] => [c]
  | c :: e :: rest =>
    if c = 92 then
      if e = 92 then 92 :: unescapeChars rest
      else if e = 110 then 10 :: unescapeChars rest
      else if e = 116 then 9 :: unescapeChars rest
      else if e = 34 then 34 :: unescapeChars rest
      else if e = 39 then 39 :: unescapeChars rest
      else unescapeChars rest
    else c :: unescapeChars (e :: rest)

/-- Append characters one by one (`res += c`). -/
def appendAll (s : S) : Bytes → Out S
  | [] => .ok s
  | c :: cs => (appendChar s c).bind fun s' => appendAll s' cs

/-- `unescape`, `String.cpp` 409-427. -/
def unescape (s : S) : Out S :=
  (slice s.cc 0 s.count).bind fun l => appendAll S.empty (unescapeChars l)

/-! ### Script string objects: every result passes through `StringScriptObject::set` -/

/-- `StringScriptObject::set`, `StringScriptObject.cpp` 301-303. -/
def soSet (t : S) : Out S := unescape t

/-- `StringScriptObjectZs_substring`, `StringScriptObjectZs.cpp` 151-173. -/
def soSubstring (s : S) (start stop : Int) : Out S :=
  if start < 0 then .err else
  let stop := if stop < 0 then s.count + stop else stop
  let stop := if stop ≥ s.count then s.count - 1 else stop
  (if start ≤ stop then getSubstring s start (stop - start + 1) else .ok (ofChars [])).bind soSet

/-- `StringScriptObjectZs_eraseAt`, `StringScriptObjectZs.cpp` 37-41. -/
def soEraseAt (s : S) (i : Int) : Out S := erase s i 1

/-- `StringScriptObjectZs_insertAt`, `StringScriptObjectZs.cpp` 49-53. -/
def soInsertAt (s : S) (i : Int) (t : S) : Out S := insertStr s i t

end Verif.Str
