import Verif.Model.PropNode
import Verif.Model.StrTools

/-!
Model of the INI reader and writer (/repo/xo/serialization/prop_node_serializer_ini.cpp).
-/
namespace Xo
namespace Ini

/-- The lines of a group (prop_node_serializer_ini.cpp:18-19). -/
def writeKids : PropNode.Kids → Str
  | [] => []
  | (k, c) :: cs => k ++ '=' :: c.value ++ '\n' :: writeKids cs

/-- `write_stream` (prop_node_serializer_ini.cpp:10-25). -/
def write : PropNode.Kids → Str
  | [] => []
  | (k, c) :: cs =>
    (if c.kids ≠ [] then '[' :: k ++ ']' :: '\n' :: writeKids c.kids
    else if c.hasValue then k ++ '=' :: c.value ++ ['\n'] else []) ++ write cs

/-- The lines of a text, without the line ends; the last one is what follows the last line end. -/
def lines : Str → List Str
  | [] => [[]]
  | c :: cs => if c = '\n' then [] :: lines cs else match lines cs with
    | [] => [[c]]
    | l :: ls => (c :: l) :: ls

/-- What is read so far: the root, whether a group was begun (`cur_group` is then the last child of the root), and whether an error
was reported to the `error_code`. -/
structure St where
  root : PropNode
  grouped : Bool
  failed : Bool

/-- `cur_group->set( key, value )` (prop_node_serializer_ini.cpp:56). -/
def assign (st : St) (k v : Str) : St :=
  if st.grouped then { st with root := st.root.withKids (st.root.kids.modify (st.root.kids.length - 1) fun e => (e.1, e.2.set k (.leaf v))) }
  else { st with root := st.root.set k (.leaf v) }

/-- One line (prop_node_serializer_ini.cpp:39-56). `line` is the text up to the first NUL. -/
def readLine (st : St) (line : Str) : Res St :=
  if line = [] then .ok st
  else if line.head? = some ';' then .ok st
  else if line.length > 2 ∧ line.head? = some '[' ∧ line.getLast? = some ']' then
    .ok { st with root := st.root.addChild ((line.drop 1).take (line.length - 2)) .empty, grouped := true }
  else match makeKeyValue line ['='] with
    | .ok (k, v) => if k = line then .err else .ok (assign st k v)
    | .err => .err | .ub => .ub

/-- The loop of `read_stream` (prop_node_serializer_ini.cpp:32-58). A line with more than 1023 characters does not fit the buffer; it is
thrown or reported to the `error_code` and ends the loop (lines 35-37). -/
def readLoop (throws : Bool) : St → List Str → Res St
  | st, [] => .ok st
  | st, l :: ls =>
    if l.length > 1023 then if throws then .err else .ok { st with failed := true }
    else (readLine st (cstr l)).bind fun st => readLoop throws st ls

/-- `read_stream` into an empty node: the tree and whether an error was reported. `throws` : there is no `error_code`. -/
def read (throws : Bool) (text : Str) : Res (PropNode × Bool) :=
  (readLoop throws ⟨.empty, false, false⟩ (lines text)).map fun st => (st.root, st.failed)

end Ini
end Xo
