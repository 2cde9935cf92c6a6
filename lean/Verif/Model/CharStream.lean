import Verif.Model.StrTools
import Verif.Model.StrNum

/-!
`char_stream` (/repo/xo/serialization/char_stream.h, /repo/xo/serialization/char_stream.cpp): numbers, single characters, lines and positions. Tokens are in
Model/Lexer.lean and, for any settings, in Model/Tokens.lean. A text is followed by a zero; a look behind that is undefined. `long` has 64 bits.
-/
namespace Xo.CharS
open Xo

/-- A stream (char_stream.h:74-86): the text from `buffer` to `buffer_end`, the distance of `cur_pos` from `buffer`, and the flags. -/
structure Stream where
  text : Str
  pos : Nat
  fail : Bool
  eof : Bool
  delims : Str
  deriving DecidableEq

/-- Constructors and `initialize` (char_stream.cpp:11-26, 153-160). -/
def make (text delims : Str) : Stream := ⟨text, 0, false, false, delims⟩

/-- `good` (char_stream.h:61). -/
def Stream.good (s : Stream) : Bool := !(s.fail || s.eof)

/-- The text from `cur_pos` on. -/
def Stream.rest (s : Stream) : Str := s.text.drop s.pos

/-- `*cur_pos`. -/
def Stream.cur (s : Stream) : Res Char :=
  if s.pos ≤ s.text.length then .ok (s.rest.headD (Char.ofNat 0)) else .ub

/-- `test_eof` (char_stream.h:71). -/
def Stream.testEof (s : Stream) : Bool × Stream :=
  if s.pos = s.text.length then (true, { s with eof := true }) else (false, s)

/-- `strchr( delimiters_.c_str(), c )`: it also finds zero. -/
def isDelim (delims : Str) (c : Char) : Bool := (cstr delims).contains c || c = Char.ofNat 0

/-- `skip_delimiters` (char_stream.h:70). -/
def Stream.skip (s : Stream) : Res Stream :=
  if s.pos ≤ s.text.length then
    let n := (s.rest.takeWhile (isDelim s.delims)).length
    .ok ({ s with pos := s.pos + n } : Stream).testEof.2
  else .ub

/-- The types of integers. -/
inductive Kind where
  | long
  | ulong
  | int
  | uint
  | short
  | ushort
  deriving DecidableEq

/-- Conversion to `short`: the low 16 bits. -/
def toInt16 (v : Int) : Int := (v + 2 ^ 15) % 2 ^ 16 - 2 ^ 15

/-- The value that is stored (char_stream.h:35-42): `strtol` or `strtoul`, and the conversion to the type. Where there is no number the value is 0. -/
def conv (k : Kind) (s : Str) : Int :=
  match k with
  | .long => (strtol s).getD 0
  | .ulong => ((strtoul s).getD 0 : Nat)
  | .int => toInt32 ((strtol s).getD 0)
  | .uint => (((strtoul s).getD 0 % 2 ^ 32 : Nat) : Int)
  | .short => toInt16 ((strtol s).getD 0)
  | .ushort => (((strtoul s).getD 0 % 2 ^ 16 : Nat) : Int)

/-- The text behind a sign. -/
def unsign : Str → Str
  | '-' :: t => t
  | '+' :: t => t
  | t => t

/-- The text behind the number. -/
def behind (s : Str) : Str := (unsign (s.dropWhile isSpaceC)).dropWhile isDigitC

/-- How many characters `strtol` takes. -/
def taken (s : Str) : Nat := if (readInt s).isSome then s.length - (behind s).length else 0

/-- `process_end_pos` (char_stream.h:72), `n` characters behind `cur_pos`. -/
def Stream.endPos (s : Stream) (n : Nat) : Stream := if n = 0 then { s with fail := true } else { s with pos := s.pos + n }

/-- `operator>>` for integers (char_stream.h:35-42). -/
def Stream.num (s : Stream) (k : Kind) : Res (Int × Stream) :=
  s.skip.bind fun s => .ok (conv k s.rest, s.endPos (taken s.rest))

/-- `operator>>( optional< T >& )` (char_stream.h:45). -/
def Stream.optNum (s : Stream) (k : Kind) : Res (Option Int × Stream) :=
  (s.num k).bind fun r => .ok (if r.2.fail then none else some r.1, r.2)

/-- `getc` (char_stream.h:53). -/
def Stream.getc (s : Stream) : Res (Char × Stream) :=
  let r := s.testEof
  if r.1 then .ok (Char.ofNat 0, r.2) else r.2.cur.bind fun c => .ok (c, { r.2 with pos := r.2.pos + 1 })

/-- `peekc` (char_stream.h:54). -/
def Stream.peekc (s : Stream) : Res (Char × Stream) :=
  let r := s.testEof
  if r.1 then .ok (Char.ofNat 0, r.2) else r.2.cur.bind fun c => .ok (c, r.2)

/-- `strncmp( a, b, n ) == 0`; a zero follows each of the texts. -/
def eqN : Nat → Str → Str → Bool
  | 0, _, _ => true
  | n + 1, a, b =>
    let x := a.headD (Char.ofNat 0)
    let y := b.headD (Char.ofNat 0)
    if x ≠ y then false else if x = Char.ofNat 0 then true else eqN n a.tail b.tail

/-- `try_get( const string& )` (char_stream.cpp:162-170). -/
def Stream.tryStr (s : Stream) (t : Str) : Res (Bool × Stream) :=
  if s.pos ≤ s.text.length then
    if eqN t.length s.rest t then .ok (true, { s with pos := s.pos + t.length }) else .ok (false, s)
  else if t = [] then .ok (true, s) else .ub

/-- `try_get( char )` (char_stream.cpp:172-180). -/
def Stream.tryChar (s : Stream) (c : Char) : Res (Bool × Stream) :=
  s.cur.bind fun x => if x = c then .ok (true, { s with pos := s.pos + 1 }) else .ok (false, s)

/-- `seek` (char_stream.cpp:127-140). -/
def Stream.seek (s : Stream) (t : Str) : Res (Bool × Stream) :=
  if s.good then
    if s.pos ≤ s.text.length then
      match strFind (cstr s.rest) (cstr t) 0 with
      | some i => .ok (true, { s with pos := s.pos + i })
      | none => .ok (false, { s with fail := true })
    else .ub
  else .ok (false, { s with fail := true })

/-- `seek_past` (char_stream.cpp:142-151). -/
def Stream.seekPast (s : Stream) (t : Str) : Res (Bool × Stream) :=
  (s.seek t).bind fun r =>
    if r.1 then .ok (true, ({ r.2 with pos := r.2.pos + t.length } : Stream).testEof.2) else .ok (false, r.2)

/-- `strcspn( cur_pos, "\r\n" )`. -/
def lineLen (s : Str) : Nat := (s.takeWhile fun c => c ≠ '\r' && c ≠ '\n' && c ≠ Char.ofNat 0).length

/-- `get_line` (char_stream.cpp:45-59). -/
def Stream.getLine (s : Stream) : Res (Str × Stream) :=
  let r := s.testEof
  if r.1 then .ok ([], r.2)
  else if s.pos ≤ s.text.length then
    let n := lineLen s.rest
    .ok (s.rest.take n, if n > 0 then s.endPos n else s)
  else .ub

/-- The loop of `line_number` (char_stream.cpp:119-125), over the characters before `cur_pos`. -/
def countLines : Nat → Str → Nat
  | num, [] => num
  | num, c :: cs => countLines (num + if c = '\n' then 1 else 0) cs

/-- `line_number` (char_stream.cpp:119-125). -/
def Stream.lineNumber (s : Stream) : Nat := countLines 1 (s.text.take s.pos)

/-- What a program can do with a stream. -/
inductive Op where
  | num (k : Kind)
  | optNum (k : Kind)
  | getc
  | peekc
  | tryStr (t : Str)
  | tryChar (c : Char)
  | seek (t : Str)
  | seekPast (t : Str)
  | getLine

def Stream.step (s : Stream) : Op → Res Stream
  | .num k => (s.num k).bind fun r => .ok r.2
  | .optNum k => (s.optNum k).bind fun r => .ok r.2
  | .getc => s.getc.bind fun r => .ok r.2
  | .peekc => s.peekc.bind fun r => .ok r.2
  | .tryStr t => (s.tryStr t).bind fun r => .ok r.2
  | .tryChar c => (s.tryChar c).bind fun r => .ok r.2
  | .seek t => (s.seek t).bind fun r => .ok r.2
  | .seekPast t => (s.seekPast t).bind fun r => .ok r.2
  | .getLine => s.getLine.bind fun r => .ok r.2

def Stream.run (s : Stream) : List Op → Res Stream
  | [] => .ok s
  | o :: os => (s.step o).bind fun s => s.run os

/-- Reads numbers, one after the other: the values. -/
def Stream.nums (s : Stream) (k : Kind) : Nat → Res (List Int × Stream)
  | 0 => .ok ([], s)
  | n + 1 => (s.num k).bind fun r => (r.2.nums k n).bind fun q => .ok (r.1 :: q.1, q.2)

/-- `while ( str.good() ) out += str.getc()`, at most `n` times. -/
def Stream.drain (s : Stream) : Nat → Res (Str × Stream)
  | 0 => .ok ([], s)
  | n + 1 => if s.good then s.getc.bind fun r => (r.2.drain n).bind fun q => .ok (r.1 :: q.1, q.2) else .ok ([], s)

end Xo.CharS
