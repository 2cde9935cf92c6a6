import Verif.Model.Zml
import Verif.Model.StrTools

/-!
Model of the XML reader and writer (/repo/xo/serialization/prop_node_serializer_xml.cpp:25-75) with the parts of
rapidxml that they use (/repo/contrib/rapidxml-1.13/rapidxml.hpp, `parse<0>`, and rapidxml_print.hpp, `operator<<`).

Characters are bytes (code points 0 to 255). Rapidxml works in place on a zero-terminated buffer; the terminators that it
writes behind names and values are not represented, names and values are lists of characters. Thrown
`rapidxml::parse_error`s are `err`. The recursion over nested elements is bounded by fuel; `div` stands for fuel that is used
up, and C97 proves that it never is. Stack overflow and memory are not modelled.
-/
namespace Xo.Xml

/-- `lookup_whitespace` (rapidxml.hpp:2308-2326). -/
def isWs (c : Char) : Bool := c == ' ' || c == '\t' || c == '\n' || c == '\r'

/-- `lookup_node_name` (rapidxml.hpp:2331-2349): anything but white space `/ > ?` and zero. -/
def isName (c : Char) : Bool := !(isWs c || c == '/' || c == '>' || c == '?' || c == Char.ofNat 0)

/-- `lookup_attribute_name` (rapidxml.hpp:2425-2443): anything but white space `! / < = > ?` and zero. -/
def isAttrName (c : Char) : Bool :=
  !(isWs c || c == '!' || c == '/' || c == '<' || c == '=' || c == '>' || c == '?' || c == Char.ofNat 0)

/-- `lookup_digits` (rapidxml.hpp:2540-2558): hexadecimal digits of both cases. -/
def digit (c : Char) : Option Nat :=
  if '0' ≤ c ∧ c ≤ '9' then some (c.toNat - 48)
  else if 'a' ≤ c ∧ c ≤ 'f' then some (c.toNat - 87)
  else if 'A' ≤ c ∧ c ≤ 'F' then some (c.toNat - 55)
  else none

/-- A continuation byte: `( code | 0x80 ) & 0xBF` cast to `unsigned char` (rapidxml.hpp:1531). -/
def contByte (code : Nat) : Nat := 128 + code % 64

/-- `insert_coded_character` (rapidxml.hpp:1511-1553); `none` : the code is refused. -/
def insertCoded (code : Nat) : Option Str :=
  if code < 0x80 then some [Char.ofNat code]
  else if code < 0x800 then some [Char.ofNat (0xC0 + code / 64), Char.ofNat (contByte code)]
  else if code < 0x10000 then
    some [Char.ofNat (0xE0 + code / 4096), Char.ofNat (contByte (code / 64)), Char.ofNat (contByte code)]
  else if code < 0x110000 then
    some [Char.ofNat (0xF0 + code / 262144), Char.ofNat (contByte (code / 4096)), Char.ofNat (contByte (code / 64)),
      Char.ofNat (contByte code)]
  else none

/-- The digit loops (rapidxml.hpp:1655-1662, 1669-1676). `unsigned long` has 64 bits. -/
def readDigits (base : Nat) : Nat → Str → Nat × Str
  | code, [] => (code, [])
  | code, c :: r => match digit c with
    | some d => readDigits base ((code * base + d) % 2 ^ 64) r
    | none => (code, c :: r)

/-- What follows an ampersand. -/
inductive Ent where
  /-- no reference: the ampersand stands for itself -/
  | plain
  /-- a reference to these characters, and what follows it -/
  | repl (out : Str) (rest : Str)
  /-- an exception -/
  | bad
  deriving DecidableEq, Repr

/-- The code of `&#...;` (rapidxml.hpp:1647-1676), given what follows `&#`, and what follows the digits. -/
def numCode : Str → Nat × Str
  | 'x' :: r => readDigits 16 0 r
  | r => readDigits 10 0 r

/-- `&#...;` (rapidxml.hpp:1646-1685), given what follows `&#`. -/
def numeric (s : Str) : Ent :=
  match insertCoded (numCode s).1 with
  | none => .bad
  | some cs => match (numCode s).2 with
    | ';' :: r => .repl cs r
    | _ => .bad

/-- What follows `pat` in a text that starts with it. -/
def after (pat s : Str) : Option Str := if pat.isPrefixOf s then some (s.drop pat.length) else none

/-- The references (rapidxml.hpp:1593-1691), given what follows the ampersand. -/
def entity (s : Str) : Ent :=
  match after ['a', 'm', 'p', ';'] s with
  | some r => .repl ['&'] r
  | none => match after ['a', 'p', 'o', 's', ';'] s with
  | some r => .repl ['\''] r
  | none => match after ['q', 'u', 'o', 't', ';'] s with
  | some r => .repl ['"'] r
  | none => match after ['g', 't', ';'] s with
  | some r => .repl ['>'] r
  | none => match after ['l', 't', ';'] s with
  | some r => .repl ['<'] r
  | none => match s with
  | '#' :: r => numeric r
  | _ => .plain

/-- `skip_and_expand_character_refs` (rapidxml.hpp:1570-1718) with flags 0: the text up to the first character that does
not satisfy `go`, with references replaced, and what follows. `n` bounds the number of steps. -/
def expand (go : Char → Bool) : Nat → Str → Out (Str × Str)
  | 0, _ => .div
  | _ + 1, [] => .ok ([], [])
  | n + 1, c :: r =>
    if go c then
      if c = '&' then
        match entity r with
        | .plain => expand go n r >>= fun p => .ok (c :: p.1, p.2)
        | .repl o t => expand go n t >>= fun p => .ok (o ++ p.1, p.2)
        | .bad => .err
      else expand go n r >>= fun p => .ok (c :: p.1, p.2)
    else .ok ([], c :: r)

/-- One round of `parse_node_attributes` (rapidxml.hpp:2240-2302): name and value, and what follows. -/
def parseAttr (s : Str) : Out ((Str × Str) × Str) :=
  match (s.dropWhile isAttrName).dropWhile isWs with
  | '=' :: r => match r.dropWhile isWs with
    | q :: r =>
      if q = '\'' ∨ q = '"' then
        expand (· ≠ q) (r.length + 1) r >>= fun p => match p.2 with
          | _ :: r => .ok ((s.takeWhile isAttrName, p.1), r.dropWhile isWs)
          | [] => .err
      else .err
    | [] => .err
  | _ => .err

/-- `parse_node_attributes` (rapidxml.hpp:2237-2303). -/
def parseAttrs : Nat → Str → Out (List (Str × Str) × Str)
  | 0, _ => .div
  | _ + 1, [] => .ok ([], [])
  | n + 1, c :: r =>
    if isAttrName c then
      parseAttr (c :: r) >>= fun a => parseAttrs n a.2 >>= fun p => .ok (a.1 :: p.1, p.2)
    else .ok ([], c :: r)

/-- The loops that look for the end of a comment, an instruction, a character data section or a declaration
(rapidxml.hpp:1748-1755, 1779-1786, 1920-1928, 2016-2021, 2152-2158): the text before the mark and the text behind it;
`none` : there is no mark. -/
def upTo (mark : Str) : Str → Option (Str × Str)
  | [] => none
  | c :: r =>
    if mark.isPrefixOf (c :: r) then some ([], (c :: r).drop mark.length)
    else (upTo mark r).map fun p => (c :: p.1, p.2)

/-- `parse_doctype` (rapidxml.hpp:1814-1876): behind the next `>` that is not between brackets; the first argument is
the number of open brackets. -/
def docType : Nat → Str → Option Str
  | _, [] => none
  | 0, c :: r => if c = '>' then some r else if c = '[' then docType 1 r else docType 0 r
  | d + 1, c :: r => if c = '[' then docType (d + 2) r else if c = ']' then docType d r else docType (d + 1) r

/-- `xml_node`. An element has a name, attributes, a value and children; data and character data have a value only. -/
inductive XNode where
  | elem (name : Str) (attrs : List (Str × Str)) (value : Str) (kids : List XNode)
  | data (value : Str)
  | cdata (value : Str)

/-- A node that was read, if any, and what follows it. -/
abbrev NodeRes := Out (Option XNode × Str)
/-- Value and children of an element, and what follows its closing tag. -/
abbrev ContRes := Out (Str × List XNode × Str)

/-- The part of the loop of `parse_node_contents` for a text that starts with `<` (rapidxml.hpp:2190-2219), given the
functions for a node and for the rest of the contents. Closing names are not compared (no `parse_validate_closing_tags`). -/
def tagStep (node : Str → NodeRes) (cont : Str → Str → List XNode → ContRes) (s : Str) (v : Str) (ks : List XNode) : ContRes :=
  match s with
  | '<' :: '/' :: r => match (r.dropWhile isName).dropWhile isWs with
    | '>' :: r => .ok (v, ks, r)
    | _ => .err
  | '<' :: r => node r >>= fun p => cont p.2 v (ks ++ p.1.toList)
  | _ => .err

/-- One round of `parse_node_contents` with `parse_and_append_data` (rapidxml.hpp:2170-2233, 1940-1994). -/
def contStep (node : Str → NodeRes) (cont : Str → Str → List XNode → ContRes) (s : Str) (v : Str) (ks : List XNode) : ContRes :=
  match s.dropWhile isWs with
  | [] => .err
  | c :: r =>
    if c = '<' then tagStep node cont (c :: r) v ks
    else expand (· ≠ '<') (s.length + 1) s >>= fun p =>
      tagStep node cont p.2 (if (cstr v).isEmpty then p.1 else v) (ks ++ [.data p.1])

/-- `parse_element` (rapidxml.hpp:2037-2077), given the function for the contents. -/
def elemStep (cont : Str → Str → List XNode → ContRes) (s : Str) : NodeRes :=
  if (s.takeWhile isName).isEmpty then .err
  else parseAttrs (s.length + 1) ((s.dropWhile isName).dropWhile isWs) >>= fun a =>
    match a.2 with
    | '>' :: r => cont r [] [] >>= fun p => .ok (some (.elem (s.takeWhile isName) a.1 p.1 p.2.1), p.2.2)
    | '/' :: '>' :: r => .ok (some (.elem (s.takeWhile isName) a.1 [] []), r)
    | _ => .err

/-- What is skipped without a node. -/
def skipped : Option Str → NodeRes
  | some r => .ok (none, r)
  | none => .err

/-- `<!...` (rapidxml.hpp:2113-2160), given what follows `<!`. -/
def bang (r : Str) : NodeRes :=
  match after ['-', '-'] r with
  | some t => skipped ((upTo ['-', '-', '>'] t).map Prod.snd)
  | none => match after ['[', 'C', 'D', 'A', 'T', 'A', '['] r with
  | some t => match upTo [']', ']', '>'] t with
    | some p => .ok (some (.cdata p.1), p.2)
    | none => .err
  | none => match after ['D', 'O', 'C', 'T', 'Y', 'P', 'E'] r with
  | some (w :: t) => if isWs w then skipped (docType 0 t) else skipped ((upTo ['>'] r).map Prod.snd)
  | _ => skipped ((upTo ['>'] r).map Prod.snd)

/-- `parse_node` (rapidxml.hpp:2081-2163), given what follows `<` and the function for contents. An XML declaration and
another processing instruction are both skipped up to the next `?>` (the five characters `?xml ` contain none). -/
def nodeStep (cont : Str → Str → List XNode → ContRes) (s : Str) : NodeRes :=
  match s with
  | '?' :: r => skipped ((upTo ['?', '>'] r).map Prod.snd)
  | '!' :: r => bang r
  | s => elemStep cont s

mutual
/-- `parse_node` (rapidxml.hpp:2081-2163). -/
def parseNode : Nat → Str → NodeRes
  | 0, _ => .div
  | n + 1, s => nodeStep (parseContents n) s
/-- `parse_node_contents` (rapidxml.hpp:2167-2233). -/
def parseContents : Nat → Str → Str → List XNode → ContRes
  | 0, _, _, _ => .div
  | n + 1, s, v, ks => contStep (parseNode n) (parseContents n) s v ks
end

/-- The loop of `parse` (rapidxml.hpp:1393-1410). -/
def parseTop : Nat → Str → Out (List XNode)
  | 0, _ => .div
  | n + 1, s => match s.dropWhile isWs with
    | [] => .ok []
    | c :: r =>
      if c = '<' then parseNode n r >>= fun p => parseTop n p.2 >>= fun ks => .ok (p.1.toList ++ ks)
      else .err

/-- `parse_bom` (rapidxml.hpp:1725-1735). -/
def skipBom (s : Str) : Str :=
  if [Char.ofNat 0xEF, Char.ofNat 0xBB, Char.ofNat 0xBF].isPrefixOf s then s.drop 3 else s

/-- `xml_document::parse<0>` (rapidxml.hpp:1381-1412). The text ends at its first zero. -/
def parse (text : Str) : Out (List XNode) :=
  let s := skipBom (cstr text)
  parseTop (s.length + 1) s

/-- `name()`. -/
def XNode.name : XNode → Str
  | .elem n _ _ _ => n
  | _ => []

mutual
/-- `get_rapid_xml_node` (prop_node_serializer_xml.cpp:27-45). Values are passed as `char*`. -/
def toPn : XNode → PropNode
  | .elem _ as v ks => .mk (cstr v) (as.map (fun a => (a.1, PropNode.leaf (cstr a.2))) ++ toPnKids ks) false
  | .data v => .leaf (cstr v)
  | .cdata v => .leaf (cstr v)
/-- The loop over the children (prop_node_serializer_xml.cpp:37-42): children without a name are left out. -/
def toPnKids : List XNode → PropNode.Kids
  | [] => []
  | n :: ns => if n.name.isEmpty then toPnKids ns else (n.name, toPn n) :: toPnKids ns
end

/-- `read_stream` (prop_node_serializer_xml.cpp:59-68): the first top-level node is added to `pn`. -/
def read (pn : PropNode) (text : Str) : Out PropNode :=
  parse text >>= fun ns => match ns with
    | [] => .ok pn
    | n :: _ => .ok (pn.addChild n.name (toPn n))

mutual
/-- An element of `set_rapid_xml_node` (prop_node_serializer_xml.cpp:47-57). -/
def fromPn (k : Str) : PropNode → XNode
  | .mk v ks _ => .elem (if k.isEmpty then ['_'] else cstr k) [] (cstr v) (fromPnKids ks)
/-- The loop of `set_rapid_xml_node` (prop_node_serializer_xml.cpp:52-56). -/
def fromPnKids : PropNode.Kids → List XNode
  | [] => []
  | (k, c) :: cs => fromPn k c :: fromPnKids cs
end

/-- The references of `copy_and_expand_chars` (rapidxml_print.hpp:47-80) with `noexpand` zero. -/
def escChar (c : Char) : Str :=
  if c = '<' then ['&', 'l', 't', ';']
  else if c = '>' then ['&', 'g', 't', ';']
  else if c = '\'' then ['&', 'a', 'p', 'o', 's', ';']
  else if c = '"' then ['&', 'q', 'u', 'o', 't', ';']
  else if c = '&' then ['&', 'a', 'm', 'p', ';']
  else [c]

/-- `copy_and_expand_chars` (rapidxml_print.hpp:47-80). -/
def esc (s : Str) : Str := s.flatMap escChar

/-- `fill_chars` with tabs (rapidxml_print.hpp:83-89). -/
def tabs (n : Nat) : Str := List.replicate n '\t'

mutual
/-- `print_node` and `print_element_node` (rapidxml_print.hpp:105-155, 227-279). The nodes that the writer builds are
elements without attributes; attributes are not printed here. -/
def printNode (ind : Nat) : XNode → Str
  | .elem name _ v ks =>
    tabs ind ++ '<' :: name ++
    (if v.isEmpty && ks.isEmpty then ['/', '>']
     else '>' :: (if ks.isEmpty then esc v else '\n' :: printNodes (ind + 1) ks ++ tabs ind) ++ '<' :: '/' :: name ++ ['>']) ++
    ['\n']
  | .data v => tabs ind ++ esc v ++ ['\n']
  | .cdata v => tabs ind ++ "<![CDATA[".toList ++ v ++ "]]>".toList ++ ['\n']
/-- `print_children` (rapidxml_print.hpp:158-164). -/
def printNodes (ind : Nat) : List XNode → Str
  | [] => []
  | n :: ns => printNode ind n ++ printNodes ind ns
end

/-- `write_stream` (prop_node_serializer_xml.cpp:70-75): the children of the document, each followed by a line break, and
the line break that follows the document. The value of the document is not printed. -/
def write (pn : PropNode) : Str := printNodes 0 (fromPnKids pn.kids) ++ ['\n']

end Xo.Xml
