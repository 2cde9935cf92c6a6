import Verif.Model.PropNode

/-!
What an XML text means, independently of the code that reads it: the parts that a text is composed of, how they are
written, and the tree of properties that they stand for.
-/
namespace Xo.Xml.Spec

/-- White space. -/
def Blank (s : Str) : Prop := ∀ c ∈ s, c = ' ' ∨ c = '\t' ∨ c = '\n' ∨ c = '\r'

instance (s : Str) : Decidable (Blank s) := by unfold Blank; infer_instance

/-- The bytes of a Unicode character. -/
def utf8 (c : Char) : Str := (String.utf8EncodeChar c).map fun b => Char.ofNat b.toNat

/-- A part of a text or of an attribute: a character as it is, one of the five named references, or a reference by number,
decimal, or hexadecimal with small or with capital letters. -/
inductive Piece where
  | chr (c : Char)
  | amp | lt | gt | quot | apos
  | dec (c : Char)
  | hex (c : Char)
  | hexUp (c : Char)
  deriving DecidableEq

namespace Piece
/-- How it is written. -/
def render : Piece → Str
  | chr c => [c]
  | amp => "&amp;".toList
  | lt => "&lt;".toList
  | gt => "&gt;".toList
  | quot => "&quot;".toList
  | apos => "&apos;".toList
  | dec c => "&#".toList ++ Nat.toDigits 10 c.toNat ++ ";".toList
  | hex c => "&#x".toList ++ Nat.toDigits 16 c.toNat ++ ";".toList
  | hexUp c => "&#x".toList ++ (Nat.toDigits 16 c.toNat).map Char.toUpper ++ ";".toList

/-- What it stands for. -/
def meaning : Piece → Str
  | chr c => [c]
  | amp => ['&']
  | lt => ['<']
  | gt => ['>']
  | quot => ['"']
  | apos => ['\'']
  | dec c => utf8 c
  | hex c => utf8 c
  | hexUp c => utf8 c

/-- It may stand in a text that ends at `stop`. -/
def Ok (stop : Char) : Piece → Prop
  | chr c => c ≠ stop ∧ c ≠ '&' ∧ c.toNat ≠ 0
  | dec c => c.toNat ≠ 0
  | hex c => c.toNat ≠ 0
  | hexUp c => c.toNat ≠ 0
  | _ => True

instance (stop : Char) (p : Piece) : Decidable (Ok stop p) := by cases p <;> unfold Ok <;> infer_instance

/-- It is white space as it is written. -/
def IsBlank : Piece → Prop
  | chr c => c = ' ' ∨ c = '\t' ∨ c = '\n' ∨ c = '\r'
  | _ => False

instance (p : Piece) : Decidable (IsBlank p) := by cases p <;> unfold IsBlank <;> infer_instance
end Piece

/-- How a text is written. -/
def renderText (ps : List Piece) : Str := ps.flatMap Piece.render
/-- What a text stands for. -/
def textOf (ps : List Piece) : Str := ps.flatMap Piece.meaning

/-- An attribute: the white space before it, its name, white space around the equality sign, its quote and its value. -/
structure Attr where
  before : Str
  name : Str
  left : Str
  right : Str
  quote : Char
  value : List Piece

namespace Attr
def render (a : Attr) : Str :=
  a.before ++ a.name ++ a.left ++ '=' :: a.right ++ a.quote :: renderText a.value ++ [a.quote]

def NameChar (c : Char) : Prop := c ∉ [' ', '\t', '\n', '\r', '!', '/', '<', '=', '>', '?'] ∧ c.toNat ≠ 0

instance (c : Char) : Decidable (NameChar c) := by unfold NameChar; infer_instance

structure Ok (a : Attr) : Prop where
  before : Blank a.before ∧ a.before ≠ []
  name : (∀ c ∈ a.name, NameChar c) ∧ a.name ≠ []
  left : Blank a.left
  right : Blank a.right
  quote : a.quote = '\'' ∨ a.quote = '"'
  value : ∀ p ∈ a.value, p.Ok a.quote
end Attr

/-- What a document and the contents of an element are composed of. -/
inductive Item where
  /-- text -/
  | text (ps : List Piece)
  /-- `<name attrs/>` -/
  | single (name : Str) (attrs : List Attr) (pad : Str)
  /-- `<name attrs> ... </name>` -/
  | pair (name : Str) (attrs : List Attr) (pad : Str) (items : List Item) (padClose : Str)
  /-- `<!-- ... -->` -/
  | comment (s : Str)
  /-- `<? ... ?>` -/
  | instr (s : Str)
  /-- `<![CDATA[ ... ]]>` -/
  | cdata (s : Str)
  /-- `<!DOCTYPE ... >` -/
  | docType (s : Str)

namespace Item

mutual
/-- How an item is written. -/
def render : Item → Str
  | text ps => renderText ps
  | single n as w => '<' :: n ++ as.flatMap Attr.render ++ w ++ ['/', '>']
  | pair n as w is w' => '<' :: n ++ as.flatMap Attr.render ++ w ++ '>' :: renderAll is ++ '<' :: '/' :: n ++ w' ++ ['>']
  | comment s => ['<', '!', '-', '-'] ++ s ++ ['-', '-', '>']
  | instr s => ['<', '?'] ++ s ++ ['?', '>']
  | cdata s => ['<', '!', '[', 'C', 'D', 'A', 'T', 'A', '['] ++ s ++ [']', ']', '>']
  | docType s => ['<', '!', 'D', 'O', 'C', 'T', 'Y', 'P', 'E', ' '] ++ s ++ ['>']
def renderAll : List Item → Str
  | [] => []
  | i :: is => render i ++ renderAll is
end

def isText : Item → Bool
  | text _ => true
  | _ => false

/-- Texts are separated by something else. -/
def Separated : List Item → Prop
  | i :: j :: is => (i.isText = true → j.isText = false) ∧ Separated (j :: is)
  | _ => True

def NameChar (c : Char) : Prop := c ∉ [' ', '\t', '\n', '\r', '/', '>', '?'] ∧ c.toNat ≠ 0

instance (c : Char) : Decidable (NameChar c) := by unfold NameChar; infer_instance

/-- The name of an element. -/
structure NameOk (n : Str) : Prop where
  chars : ∀ c ∈ n, NameChar c
  start : n ≠ [] ∧ n.head? ≠ some '!'

def NoZero (s : Str) : Prop := ∀ c ∈ s, c.toNat ≠ 0

/-- A text whose square brackets come in pairs. -/
inductive Paired : Str → Prop
  | nil : Paired []
  | chr {c : Char} {s : Str} (h1 : c ≠ '[') (h2 : c ≠ ']') (hs : Paired s) : Paired (c :: s)
  | group {a s : Str} (ha : Paired a) (hs : Paired s) : Paired ('[' :: a ++ ']' :: s)

/-- What stands in a document type: no `>` except between brackets. -/
inductive DocText : Str → Prop
  | nil : DocText []
  | chr {c : Char} {s : Str} (h1 : c ≠ '[') (h2 : c ≠ '>') (hs : DocText s) : DocText (c :: s)
  | group {a s : Str} (ha : Paired a) (hs : DocText s) : DocText ('[' :: a ++ ']' :: s)

mutual
/-- The item is well-formed. -/
def Ok : Item → Prop
  | text ps => ∀ p ∈ ps, p.Ok '<'
  | single n as w => NameOk n ∧ (∀ a ∈ as, a.Ok) ∧ Blank w
  | pair n as w is w' => NameOk n ∧ (∀ a ∈ as, a.Ok) ∧ Blank w ∧ AllOk is ∧ Separated is ∧ Blank w'
  | comment s => NoZero s ∧ ¬ ['-', '-', '>'] <:+: s
  | instr s => NoZero s ∧ ¬ ['?', '>'] <:+: s
  | cdata s => NoZero s ∧ ¬ [']', ']', '>'] <:+: s
  | docType s => NoZero s ∧ DocText s
def AllOk : List Item → Prop
  | [] => True
  | i :: is => Ok i ∧ AllOk is
end

/-- The attributes as children. -/
def attrKids (as : List Attr) : PropNode.Kids := as.map fun a => (a.name, .leaf (textOf a.value))

/-- The value of an element: its first text that is not blank. (Text behind it and character data sections do not count, see
`C97_split_text_violated` and `C97_cdata_violated`.) -/
def firstText : List Item → Str
  | [] => []
  | text ps :: is => if ∀ p ∈ ps, p.IsBlank then firstText is else textOf ps
  | _ :: is => firstText is

mutual
/-- What an item adds to the children of the element that it is in: an element adds itself, with its name as key, its text as
value, and its attributes and elements as children. -/
def adds : Item → PropNode.Kids
  | single n as _ => [(n, .mk [] (attrKids as) false)]
  | pair n as _ is _ => [(n, .mk (firstText is) (attrKids as ++ addsAll is) false)]
  | _ => []
def addsAll : List Item → PropNode.Kids
  | [] => []
  | i :: is => adds i ++ addsAll is
end

/-- May stand outside of all elements. -/
def TopLevel : Item → Prop
  | text ps => ∀ p ∈ ps, p.IsBlank
  | cdata _ => False
  | _ => True

end Item
mutual
/-- A node that a text can hold: it has a value or children but not both, its value is not blank and contains no zero, and the
same holds for its children, whose keys are names. -/
def Kept : PropNode → Prop
  | .mk v ks _ => (v = [] ∨ ks = []) ∧ (v = [] ∨ ¬ Blank v) ∧ Item.NoZero v ∧ KeptKids ks
def KeptKids : PropNode.Kids → Prop
  | [] => True
  | (k, c) :: cs => Item.NameOk k ∧ Kept c ∧ KeptKids cs
end

end Xo.Xml.Spec
