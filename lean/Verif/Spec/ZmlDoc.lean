import Verif.Model.PropNode

/-!
The meaning of a ZML document with macros and included files, stated on its structure alone (C80).
-/
namespace Xo
namespace Zml
namespace Spec

/-- A value: a text, possibly with inline macros `${name}`, or a macro `$name`. -/
inductive Val
  | text (t : Str)
  | copy (name : Str)

/-- A document is a sequence of items. Separators are `=`, `: `, or none (the empty text). In arrays, items have no label and no
separator. `arr` : the body is an array `[ ... ]` and not a group `{ ... }`. -/
inductive Doc
  | nil
  /-- `label = value` -/
  | leaf (label sep : Str) (v : Val) (rest : Doc)
  /-- `label { ... }` -/
  | group (label sep : Str) (arr : Bool) (body rest : Doc)
  /-- `label = value { ... }` -/
  | extend (label sep : Str) (v : Val) (arr : Bool) (body rest : Doc)
  /-- `$name = value` -/
  | define (name sep : Str) (v : Val) (rest : Doc)
  /-- `$name { ... }` -/
  | defineGroup (name sep : Str) (arr : Bool) (body rest : Doc)
  /-- `<< file >>` -/
  | incl (file : Str) (rest : Doc)

/-- The macros in scope, the latest first. A macro whose definition is being read has no meaning yet. -/
abbrev Scope := List (Str × Option PropNode)

/-- The meaning of a name: that of the latest definition in scope; an error if there is none; unspecified inside its own definition. -/
def lookup (s : Scope) (name : Str) : Res PropNode :=
  match s with
  | [] => .err
  | (k, n) :: s => if k = name then Res.ofOptionUb n else lookup s name

/-- Replace every `${name}` by the meaning of the name. The first argument is the name read so far, inside `${ }`. -/
def expand (look : Str → Res Str) : Option Str → Str → Res Str
  | none, [] => .ok []
  | some _, [] => .err
  | some n, c :: r =>
    if c = '}' then (look n).bind fun v => (expand look none r).bind fun t => .ok (v ++ t)
    else expand look (some (n ++ [c])) r
  | none, '$' :: '{' :: r => expand look (some []) r
  | none, c :: r => (expand look none r).bind fun t => .ok (c :: t)

/-- The node that a value stands for. -/
def evalVal (s : Scope) : Val → Res PropNode
  | .text t => (expand (fun n => (lookup s ('$' :: n)).map PropNode.value) none t).bind fun v => .ok (.mk v [] false)
  | .copy name => (lookup s name).bind fun n => .ok (.mk n.value n.kids false)

/-- The children that a document describes. A macro is visible behind its definition, up to the end of the group. -/
def eval (inc : Str → Res PropNode.Kids) (s : Scope) : Doc → Res PropNode.Kids
  | .nil => .ok []
  | .leaf label _ v rest => (evalVal s v).bind fun n => (eval inc s rest).bind fun ks => .ok ((label, n) :: ks)
  | .group label _ _ body rest =>
    (eval inc s body).bind fun b => (eval inc s rest).bind fun ks => .ok ((label, .mk [] b false) :: ks)
  | .extend label _ v _ body rest =>
    (evalVal s v).bind fun n => (eval inc s body).bind fun b => (eval inc s rest).bind fun ks =>
      .ok ((label, .mk n.value (n.kids ++ b) false) :: ks)
  | .define name _ v rest => (evalVal ((name, none) :: s) v).bind fun n => eval inc ((name, some n) :: s) rest
  | .defineGroup name _ _ body rest =>
    (eval inc ((name, none) :: s) body).bind fun b => eval inc ((name, some (.mk [] b false)) :: s) rest
  | .incl f rest => (inc f).bind fun a => (eval inc s rest).bind fun ks => .ok (a ++ ks)

/-- The meaning of a file, where `docs` are the documents in the files, `path file f` is the file that `f` names in `file`, and the
number bounds the depth of includes. A file that does not exist is an error. -/
def evalFile {Path : Type} (docs : Path → Option Doc) (path : Path → Str → Res Path) : Nat → Path → Res PropNode.Kids
  | 0, _ => .ub
  | n + 1, file => match docs file with
    | none => .err
    | some d => eval (fun f => (path file f).bind (evalFile docs path n)) [] d

/-! ## Tokens -/

def Val.tok : Val → Str
  | .text t => t
  | .copy name => name

def bracket (arr : Bool) : Str := if arr then ['['] else ['{']
def unbracket (arr : Bool) : Str := if arr then [']'] else ['}']

/-- The tokens of a separator. -/
def sepToks (sep : Str) : List Str := if sep = [] then [] else [sep]

/-- The tokens of a document. -/
def Doc.toks (inArr : Bool) : Doc → List Str
  | .nil => []
  | .leaf label sep v rest => (if inArr then [] else label :: sepToks sep) ++ v.tok :: rest.toks inArr
  | .group label sep arr body rest =>
    (if inArr then [] else label :: sepToks sep) ++ bracket arr :: (body.toks arr ++ unbracket arr :: rest.toks inArr)
  | .extend label sep v arr body rest =>
    label :: (sepToks sep ++ v.tok :: bracket arr :: (body.toks arr ++ unbracket arr :: rest.toks inArr))
  | .define name sep v rest => name :: (sepToks sep ++ v.tok :: rest.toks inArr)
  | .defineGroup name sep arr body rest =>
    name :: (sepToks sep ++ bracket arr :: (body.toks arr ++ unbracket arr :: rest.toks inArr))
  | .incl f rest => ['<', '<'] :: f :: ['>', '>'] :: rest.toks inArr

/-- A label begins with a visible character other than `$`, and is not a bracket or `<<`. -/
def LabelOk (s : Str) : Prop :=
  (∃ c, s.head? = some c ∧ 33 ≤ c.toNat ∧ c.toNat ≤ 126 ∧ c ≠ '$') ∧
  s ≠ ['{'] ∧ s ≠ ['}'] ∧ s ≠ ['['] ∧ s ≠ ['<', '<']

/-- `=` or `: `. -/
def SepOk (s : Str) : Prop := s = ['='] ∨ s = [':', ' ']

/-- A text does not look like a reference `@...`, a macro `$name` or a bracket; in an array, also not like the end of the array, and
it is not empty. -/
def Val.Ok (inArr : Bool) : Val → Prop
  | .text t => t.head? ≠ some '@' ∧ (t.head? = some '$' → t = ['$'] ∨ t[1]? = some '{') ∧ t ≠ ['{'] ∧ t ≠ ['['] ∧
      (inArr = true → t ≠ [] ∧ t ≠ [']'] ∧ t ≠ ['<', '<'])
  | .copy name => name.head? = some '$' ∧ 2 ≤ name.length ∧ name[1]? ≠ some '{'

/-- Well-formed documents. Values with children and definitions of macros occur only where items have labels, definitions not inside
the definition of a macro (`inMacro`). -/
def Doc.Ok (inArr inMacro : Bool) : Doc → Prop
  | .nil => True
  | .leaf label sep v rest =>
    (if inArr then label = [] else LabelOk label ∧ SepOk sep) ∧ v.Ok inArr ∧ rest.Ok inArr inMacro
  | .group label sep arr body rest =>
    (if inArr then label = [] else LabelOk label ∧ (sep = [] ∨ SepOk sep)) ∧ body.Ok arr inMacro ∧ rest.Ok inArr inMacro
  | .extend label sep v arr body rest =>
    inArr = false ∧ LabelOk label ∧ SepOk sep ∧ v.Ok false ∧ body.Ok arr inMacro ∧ rest.Ok inArr inMacro
  | .define name sep v rest =>
    inArr = false ∧ inMacro = false ∧ name.head? = some '$' ∧ SepOk sep ∧ v.Ok false ∧ rest.Ok inArr inMacro
  | .defineGroup name sep arr body rest =>
    inArr = false ∧ inMacro = false ∧ name.head? = some '$' ∧ (sep = [] ∨ SepOk sep) ∧ body.Ok arr true ∧ rest.Ok inArr inMacro
  | .incl _ rest => rest.Ok inArr inMacro

end Spec
end Zml
end Xo
