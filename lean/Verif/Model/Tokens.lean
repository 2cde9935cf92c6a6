import Verif.Model.Lexer

/-!
Tokens of `char_stream` (/repo/xo/serialization/char_stream.cpp) with any delimiters, quotation marks and operators. (Model/Lexer.lean has them for ZML.) The
state is the text from `cur_pos` on. `none` is a loop that never ends.
-/
namespace Xo.Tok
open Xo.Zml (quoteLoop quoteLoop_le)

/-- The settings of a stream (char_stream.cpp:11-43). -/
structure Cfg where
  delims : Str
  quotes : Str
  ops : List Str
  deriving DecidableEq

/-- `strchr( delimiters_.c_str(), c )` (char_stream.h:70, char_stream.cpp:68): it also finds zero. -/
def Cfg.isDelim (g : Cfg) (c : Char) : Bool := (cstr g.delims).contains c || c = Char.ofNat 0

/-- `strchr( quotations_.c_str(), c )` (char_stream.cpp:75), for a character that is no delimiter, thus not zero. -/
def Cfg.isQuote (g : Cfg) (c : Char) : Bool := (cstr g.quotes).contains c

/-- Into a list that is sorted by length, longest first. -/
def insertOp (op : Str) : List Str → List Str
  | [] => [op]
  | o :: os => if op.length < o.length then o :: insertOp op os else op :: o :: os

/-- `set_operators` (char_stream.cpp:28-33). `std::sort` may order operators of equal length differently, but a text begins with at most one of them. -/
def sortOps (ops : List Str) : List Str := ops.foldr insertOp []

/-- `check_operator` (char_stream.cpp:182-190), for operators without zeros. -/
def Cfg.check (g : Cfg) (s : Str) : Option Str := (sortOps g.ops).find? fun op => op.isPrefixOf s

/-- The loop of `get_token` (char_stream.cpp:66-114): the token so far, the text between `cur_pos` and `cur_pos_end`, and the text from there. -/
def tokLoop (g : Cfg) (acc pend s : Str) : Option (Str × Str) :=
  match s with
  | [] => some (acc ++ pend, [])
  | c :: cs =>
    if g.isDelim c then some (acc ++ pend, c :: cs)
    else if g.isQuote c then
      match _h : quoteLoop c acc cs with
      | some (acc', s') => tokLoop g acc' [] s'
      | none => none
    else match g.check (c :: cs) with
      | some op => if pend.isEmpty && acc.isEmpty then some (op, (c :: cs).drop op.length) else some (acc ++ pend, c :: cs)
      | none => tokLoop g acc (pend ++ [c]) cs
termination_by s.length
decreasing_by
  · have := quoteLoop_le _h
    simp only [List.length_cons]; omega
  · simp

/-- `get_token` (char_stream.cpp:61-117). -/
def getToken (g : Cfg) (s : Str) : Option (Str × Str) := tokLoop g [] [] (s.dropWhile g.isDelim)

/-- So many tokens, one after the other. -/
def getTokens (g : Cfg) : Nat → Str → Option (List Str × Str)
  | 0, s => some ([], s)
  | n + 1, s => (getToken g s).bind fun r => (getTokens g n r.2).map fun q => (r.1 :: q.1, q.2)

end Xo.Tok
