import Verif.Spec.ZmlDoc
import Verif.Lemmas.PropPath

/-!
The meaning of a ZML document with references `@path` to what was read before, stated on its structure alone (C80).
-/
namespace Xo
namespace Zml
namespace Spec
open Xo.Spec

/-- A document with references. The path `@k.k1.k2` is given by its first key and the others. -/
inductive RefDoc
  | nil
  /-- Items without references. -/
  | plain (d : Doc) (rest : RefDoc)
  /-- `label = @path` -/
  | ref (label sep k : Str) (ks : List Str) (rest : RefDoc)
  /-- `label = @path { ... }`, without references in the braces -/
  | refExtend (label sep k : Str) (ks : List Str) (arr : Bool) (body : Doc) (rest : RefDoc)
  /-- `$name = @path` -/
  | defineRef (name sep k : Str) (ks : List Str) (rest : RefDoc)
  /-- `label { ... }` -/
  | group (label sep : Str) (body rest : RefDoc)

/-- The macros in scope behind items without references. -/
def scopeAfter (inc : Str → Res PropNode.Kids) (s : Scope) : Doc → Scope
  | .nil => s
  | .leaf _ _ _ rest => scopeAfter inc s rest
  | .group _ _ _ _ rest => scopeAfter inc s rest
  | .extend _ _ _ _ _ rest => scopeAfter inc s rest
  | .define name _ v rest =>
    match evalVal ((name, none) :: s) v with
    | .ok n => scopeAfter inc ((name, some n) :: s) rest
    | _ => s
  | .defineGroup name _ _ body rest =>
    match eval inc ((name, none) :: s) body with
    | .ok b => scopeAfter inc ((name, some (.mk [] b false)) :: s) rest
    | _ => s
  | .incl _ rest => scopeAfter inc s rest

/-- The node at a path, in a tree. An error if there is none. -/
def target (root : PropNode) (k : Str) (ks : List Str) : Res PropNode :=
  match root.lookup (k :: ks) with
  | some n => .ok (.mk n.value n.kids false)
  | none => .err

/-- The children of a group, where `acc` are the ones before the document, and `up` tells the whole tree from the children of this
group. A reference stands for a copy of what is at the path in the tree as it is at the reference: everything before it, in every
group that is still open, and the item itself, which is empty. -/
def evalRef (inc : Str → Res PropNode.Kids) (up : PropNode.Kids → PropNode) (s : Scope) (acc : PropNode.Kids) :
    RefDoc → Res PropNode.Kids
  | .nil => .ok acc
  | .plain d rest => (eval inc s d).bind fun ks => evalRef inc up (scopeAfter inc s d) (acc ++ ks) rest
  | .ref label _ k ks rest =>
    (target (up (acc ++ [(label, .empty)])) k ks).bind fun n => evalRef inc up s (acc ++ [(label, n)]) rest
  | .refExtend label _ k ks _ body rest =>
    (target (up (acc ++ [(label, .empty)])) k ks).bind fun n => (eval inc s body).bind fun b =>
      evalRef inc up s (acc ++ [(label, .mk n.value (n.kids ++ b) false)]) rest
  | .defineRef name _ k ks rest =>
    (target (up acc) k ks).bind fun n => evalRef inc up ((name, some n) :: s) acc rest
  | .group label _ body rest =>
    (evalRef inc (fun ks => up (acc ++ [(label, .mk [] ks false)])) s [] body).bind fun b =>
      evalRef inc up s (acc ++ [(label, .mk [] b false)]) rest

/-- The token of a reference. -/
def refTok (k : Str) (ks : List Str) : Str := '@' :: pathStr '.' k ks

def RefDoc.toks : RefDoc → List Str
  | .nil => []
  | .plain d rest => d.toks false ++ rest.toks
  | .ref label sep k ks rest => label :: (sepToks sep ++ refTok k ks :: rest.toks)
  | .refExtend label sep k ks arr body rest =>
    label :: (sepToks sep ++ refTok k ks :: bracket arr :: (body.toks arr ++ unbracket arr :: rest.toks))
  | .defineRef name sep k ks rest => name :: (sepToks sep ++ refTok k ks :: rest.toks)
  | .group label sep body rest => label :: (sepToks sep ++ bracket false :: (body.toks ++ unbracket false :: rest.toks))

/-- Keys in a path contain no dot and do not begin with `#`. -/
def PathOk (k : Str) (ks : List Str) : Prop := PathKeys '.' k ks ∧ ∀ x ∈ k :: ks, PlainKey x

def RefDoc.Ok : RefDoc → Prop
  | .nil => True
  | .plain d rest => d.Ok false false ∧ rest.Ok
  | .ref label sep k ks rest => LabelOk label ∧ SepOk sep ∧ PathOk k ks ∧ rest.Ok
  | .refExtend label sep k ks arr body rest => LabelOk label ∧ SepOk sep ∧ PathOk k ks ∧ body.Ok arr false ∧ rest.Ok
  | .defineRef name sep k ks rest => name.head? = some '$' ∧ SepOk sep ∧ PathOk k ks ∧ rest.Ok
  | .group label sep body rest => LabelOk label ∧ (sep = [] ∨ SepOk sep) ∧ body.Ok ∧ rest.Ok

end Spec
end Zml
end Xo
