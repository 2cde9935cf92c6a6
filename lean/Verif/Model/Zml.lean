import Verif.Model.Lexer
import Verif.Model.PropNode

/-!
Model of the ZML reader and writers (/repo/xo/serialization/prop_node_serializer_zml.cpp).

The reader gets everything it knows about the text through `get_zml_token`, so it is modelled on the list of tokens of the
text (`Zml.lexAll`) and what follows the last one.
Accessed flags of the nodes read are not tracked (they are all `false`).
`error_code` messages are not represented, only whether an error was set.
-/
namespace Xo

/-- Outcome of a call that may also fail to return. `div` : the call does not return, or needs more steps than allowed. -/
inductive Out (α : Type) where
  | ok (a : α)
  | err
  | ub
  | div
  deriving Repr, DecidableEq, Inhabited

namespace Out
def bind {α β} : Out α → (α → Out β) → Out β
  | ok a, f => f a
  | err, _ => err
  | ub, _ => ub
  | div, _ => div

instance : Monad Out where
  pure := ok
  bind := bind

@[simp] theorem pure_eq {α} (a : α) : (pure a : Out α) = ok a := rfl
@[simp] theorem bind_ok {α β} (a : α) (f : α → Out β) : (ok a >>= f) = f a := rfl
@[simp] theorem bind_err {α β} (f : α → Out β) : ((err : Out α) >>= f) = err := rfl
@[simp] theorem bind_ub {α β} (f : α → Out β) : ((ub : Out α) >>= f) = ub := rfl
@[simp] theorem bind_div {α β} (f : α → Out β) : ((div : Out α) >>= f) = div := rfl
end Out

namespace Zml

/-- What is constant while a text is read. `throws` : there is no `error_code` to report to, so that errors are thrown
(`set_error_or_throw`). `inc f` : the children of the file that `<< f >>` names, and whether an error was set while loading it. -/
structure Env where
  throws : Bool
  inc : Str → Out (PropNode.Kids × Bool)

/-- What changes: the remaining tokens, what follows them, the macros in scope, and whether an error was set. -/
structure St where
  toks : List Str
  fin : LexEnd
  macros : PropNode.Kids
  failed : Bool

/-- `get_zml_token( str, ec )`. Behind the last token every further token is empty. An unclosed comment is reported once. -/
def next (env : Env) (st : St) : Out (Str × St) :=
  match st.toks with
  | t :: ts => .ok (t, { st with toks := ts })
  | [] => match st.fin with
    | .eof => .ok ([], st)
    | .bad => if env.throws then .err else .ok ([], { st with fin := .eof, failed := true })
    | .div => .div

/-- `return zml_error( ... )` from `read_zml_layer`. -/
def fail (env : Env) (p : PropNode) (st : St) : Out (PropNode × St) :=
  if env.throws then .err else .ok (p, { st with failed := true })

/-- Which node `next_parent` points to: the last child of `parent`, or the macro with this index. -/
inductive Target
  | last
  | mac (i : Nat)

/-- `next_parent` points to a macro. -/
def Target.isMac : Target → Bool
  | .mac _ => true
  | .last => false

/-- Replace the last child. -/
def setLast (p : PropNode) (c : PropNode) : PropNode :=
  p.withKids (p.kids.modify (p.kids.length - 1) fun e => (e.1, c))

/-- Write the node that `next_parent` points to. -/
def put (tg : Target) (p : PropNode) (ms : PropNode.Kids) (c : PropNode) : PropNode × PropNode.Kids :=
  match tg with
  | .last => (setLast p c, ms)
  | .mac i => (p, ms.modify i fun e => (e.1, c))

/-- The node that `next_parent` points to. -/
def fetch (tg : Target) (p : PropNode) (ms : PropNode.Kids) : PropNode :=
  match tg with
  | .last => (p.kids.getLast?.map Prod.snd).getD .empty
  | .mac i => (ms[i]?.map Prod.snd).getD .empty

/-- The whole tree and the macros, from the node `parent` and the macros as far as they are known to the current call. -/
abbrev View := PropNode → PropNode.Kids → PropNode × PropNode.Kids

/-- The view of the call that reads the node `next_parent`. -/
def subView (view : View) (tg : Target) (p : PropNode) : View := fun c ms => view (put tg p ms c).1 (put tg p ms c).2

/-- `isgraph( c )` in the C locale; a `char` with a negative value (for which `isgraph` is undefined) counts as not graphical. -/
def isGraph (c : Char) : Bool := decide (33 ≤ c.toNat ∧ c.toNat ≤ 126)

/-- What is decided before the value is read. -/
inductive Head
  | stop (p : PropNode) (st : St)
  | go (tg : Target) (p : PropNode) (st : St) (t : Str)

/-- Leaving `read_zml_layer` with an error. -/
def stopHead (env : Env) (p : PropNode) (st : St) : Out Head :=
  if env.throws then .err else .ok (.stop p { st with failed := true })

/-- Reading `=` or `: ` and the value after a label (prop_node_serializer_zml.cpp:85-90). -/
def headLabel (env : Env) (tg : Target) (p : PropNode) (st : St) : Out Head :=
  match next env st with
  | .ok (t, st) =>
    if t = ['='] ∨ t = [':', ' '] then
      match next env st with
      | .ok (t, st) => .ok (.go tg p st t)
      | .err => .err | .ub => .ub | .div => .div
    else if t ≠ ['{'] ∧ t ≠ ['['] then stopHead env p st
    else .ok (.go tg p st t)
  | .err => .err | .ub => .ub | .div => .div

/-- prop_node_serializer_zml.cpp:70-100. A macro that is added while the body of a macro is read may reallocate `macros`
and leave the reference `parent` dangling. Whether it does depends on the capacity of a vector; the model takes it as
undefined behaviour in every case. -/
def head (env : Env) (inMacro : Bool) (close t : Str) (p : PropNode) (st : St) : Out Head :=
  if close ≠ [']'] then
    if t ≠ ['{'] ∧ t ≠ ['['] then
      if t.head? = some '$' then
        if inMacro then .ub
        else headLabel env (.mac st.macros.length) p { st with macros := st.macros ++ [(t, .empty)] }
      else if !(t.head?.map isGraph).getD false then stopHead env p st
      else headLabel env .last (p.addChild t .empty) st
    else if p.kids = [] then stopHead env p st
    else .ok (.go .last p st t)
  else .ok (.go .last (p.addChild [] .empty) st t)

/-- `*next_parent = *source`, where `look` finds the source. The members are copied one after the other: first the value, then the
children. The source may be a node that contains `next_parent`. -/
def copyFrom (look : PropNode × PropNode.Kids → Option PropNode) (view : View) (tg : Target) (p : PropNode)
    (ms : PropNode.Kids) : Option (PropNode × PropNode.Kids) :=
  (look (view p ms)).map fun src =>
    let m := put tg p ms (.mk src.value [] false)
    let src' := (look (view m.1 m.2)).getD src
    put tg p ms (.mk src.value src'.kids false)

/-- The last macro with this name (prop_node_serializer_zml.cpp:117, 129-130). -/
def findMacro (name : Str) (ms : PropNode.Kids) : Option PropNode := (ms.reverse.find? fun m => m.1 = name).map Prod.snd

/-- The loop that replaces inline macros (prop_node_serializer_zml.cpp:125-139), on the text behind the last replacement. -/
def inlineMacros (ms : PropNode.Kids) (t : Str) : Option Str :=
  match strFind t ['$', '{'] 0 with
  | none => some t
  | some i =>
    match strFind t ['}'] i with
    | none => none
    | some j =>
      if _h : i + 2 ≤ j ∧ j < t.length then
        match findMacro ('$' :: (t.drop (i + 2)).take (j - (i + 2))) ms with
        | none => none
        | some m => (inlineMacros ms (t.drop (j + 1))).map fun r => t.take i ++ m.value ++ r
      else none
termination_by t.length
decreasing_by simp only [List.length_drop]; omega

/-- The values that are not groups or arrays (prop_node_serializer_zml.cpp:107-143); `none` : an error. -/
def assign (view : View) (tg : Target) (p : PropNode) (ms : PropNode.Kids) (t : Str) : Option (PropNode × PropNode.Kids) :=
  if t.head? = some '@' then copyFrom (fun v => v.1.tryGetQuery (t.drop 1) '.') view tg p ms
  else if t.length ≥ 2 ∧ t.head? = some '$' ∧ t[1]? ≠ some '{' then copyFrom (fun v => findMacro t v.2) view tg p ms
  else (inlineMacros (view p ms).2 t).map fun v => put tg p ms (.mk v (fetch tg p ms).kids false)

/-- The closing token of the layer that `t` opens (prop_node_serializer_zml.cpp:103-106). -/
def opens (t : Str) : Option Str := if t = ['{'] then some ['}'] else if t = ['['] then some [']'] else none

/-- `read_zml_layer` (prop_node_serializer_zml.cpp:46-150) with a bound on the number of items and levels. `base` is
`macro_count`. -/
def layer (env : Env) : Nat → Str → View → Bool → Nat → PropNode → St → Out (PropNode × St)
  | 0, _, _, _, _, _, _ => .div
  | n + 1, close, view, inMacro, base, p, st =>
    match next env st with
    | .ok (t, st) =>
      if t = close then .ok (p, { st with macros := st.macros.take base })
      else if t = [] then fail env p st
      else if t = ['<', '<'] then
        match next env st with
        | .ok (f, st) =>
          match next env st with
          | .ok (e, st) =>
            if env.throws ∧ e ≠ ['>', '>'] then .err
            else match env.inc f with
              | .ok (ks, bad) =>
                layer env n close view inMacro base (p.withKids (p.kids ++ ks))
                  { st with failed := st.failed || bad || decide (e ≠ ['>', '>']) }
              | .err => .err | .ub => .ub | .div => .div
          | .err => .err | .ub => .ub | .div => .div
        | .err => .err | .ub => .ub | .div => .div
      else match head env inMacro close t p st with
        | .ok (.stop p st) => .ok (p, st)
        | .ok (.go tg p st t) =>
          match opens t with
          | some cl =>
            match layer env n cl (subView view tg p)
                (inMacro || tg.isMac) st.macros.length (fetch tg p st.macros) st with
            | .ok (c, st) => layer env n close view inMacro base (put tg p st.macros c).1 { st with macros := (put tg p st.macros c).2 }
            | .err => .err | .ub => .ub | .div => .div
          | none =>
            match assign view tg p st.macros t with
            | some (p', ms') => layer env n close view inMacro base p' { st with macros := ms' }
            | none => fail env p st
        | .err => .err | .ub => .ub | .div => .div
    | .err => .err | .ub => .ub | .div => .div

/-- `parse_zml( str, ec, folder, included_files )` (prop_node_serializer_zml.cpp:152-161): the tree and whether an error was set. The
bound is sufficient (`C21_bound`). -/
def parse (env : Env) (text : Str) : Out (PropNode × Bool) :=
  match layer env ((lexAll text).1.length + 1) [] (fun p ms => (p, ms)) false 0 .empty
      { toks := (lexAll text).1, fin := (lexAll text).2, macros := [], failed := false } with
  | .ok (p, st) => .ok (p, st.failed)
  | .err => .err | .ub => .ub | .div => .div

/-- Reading returned a tree that is equal (`operator==`) to `n`, without an error. -/
def readsAs (o : Out (PropNode × Bool)) (n : PropNode) : Bool :=
  match o with
  | .ok (m, bad) => !bad && m.eq n
  | _ => false

/-- Reading reported an error: an exception, or an `error_code`. -/
def reportsError (o : Out (PropNode × Bool)) : Bool :=
  match o with
  | .ok (_, bad) => bad
  | .err => true
  | _ => false

/-! ### Writers -/

/-- The characters that make `try_quoted` quote a string (prop_node_serializer_zml.cpp:175, 179). -/
def special : Str := "{}[]#<>\\/".toList

/-- `write_zml_kvp` (prop_node_serializer_zml.cpp:169-180). -/
def writeKvp (label value : Str) (noKids : Bool) (eqs : Str) (inArr : Bool) : Res Str :=
  let showLabel := !label.isEmpty
  let showValue := !value.isEmpty || noKids
  if !showLabel && showValue && !inArr then .err
  else .ok ((if showLabel then tryQuoted special label else []) ++ (if showLabel && showValue then eqs else []) ++
    (if showValue then tryQuoted special value else []))

def opn (arr : Bool) : Char := if arr then '[' else '{'
def cls (arr : Bool) : Char := if arr then ']' else '}'

mutual
/-- `write_zml_node_one_line` (prop_node_serializer_zml.cpp:182-201). -/
def writeOneLine (label : Str) (inArr : Bool) : PropNode → Res Str
  | .mk v ks _ =>
    let arr := ks.all (fun p => p.1.isEmpty)
    (writeKvp label v ks.isEmpty " = ".toList inArr).bind fun h =>
    if ks.isEmpty then .ok h
    else (writeOneLineKids arr ks).bind fun b =>
      .ok (h ++ (if label.isEmpty then [] else [' ']) ++ [opn arr, ' '] ++ b ++ [' ', cls arr])
def writeOneLineKids (arr : Bool) : PropNode.Kids → Res Str
  | [] => .ok []
  | (k, c) :: cs => (writeOneLine k arr c).bind fun a =>
    (writeOneLineKids arr cs).bind fun b => .ok (a ++ (if cs.isEmpty then [] else [' ']) ++ b)
end

mutual
/-- `write_zml_node` (prop_node_serializer_zml.cpp:203-246). The one-line form is written with `is_array` of the node itself
as `inside_array` (line 222). -/
def writeNode (label : Str) (level : Nat) (inArr : Bool) : PropNode → Res Str
  | .mk v ks a =>
    let tabs : Str := List.replicate (level - 1) '\t'
    if ks.isEmpty then (writeKvp label v true " = ".toList inArr).bind fun h => .ok (tabs ++ h)
    else
      let arr := ks.all (fun p => p.1.isEmpty)
      let full : Res Str :=
        (writeKvp label v false " = ".toList inArr).bind fun h =>
        (writeNodeKids (level + 1) arr ks).bind fun b =>
        .ok (tabs ++ h ++ (if label.isEmpty then [] else [' ']) ++ (if level = 0 then [] else [opn arr, '\n']) ++ b ++
          (if level = 0 then [] else tabs ++ [cls arr]))
      if level ≠ 0 ∧ PropNode.countLayers (.mk v ks a) ≤ 2 ∧ PropNode.countChildren (.mk v ks a) ≤ 5 then
        (writeOneLine label arr (.mk v ks a)).bind fun o =>
        if level + label.length + 1 + o.length ≤ 80 then .ok (tabs ++ o) else full
      else full
def writeNodeKids (level : Nat) (arr : Bool) : PropNode.Kids → Res Str
  | [] => .ok []
  | (k, c) :: cs => (writeNode k level arr c).bind fun a => (writeNodeKids level arr cs).bind fun b => .ok (a ++ ['\n'] ++ b)
end

mutual
/-- `write_zml_node_concise` (prop_node_serializer_zml.cpp:248-263). `top` : the level is 0. -/
def writeConcise (label : Str) (top : Bool) (inArr : Bool) : PropNode → Res Str
  | .mk v ks _ =>
    let arr := ks.all (fun p => p.1.isEmpty)
    (writeKvp label v ks.isEmpty ['='] inArr).bind fun h =>
    if ks.isEmpty then .ok h
    else (writeConciseKids arr ks).bind fun b =>
      .ok (h ++ (if top then [] else [opn arr]) ++ b ++ (if top then [] else [cls arr]))
def writeConciseKids (arr : Bool) : PropNode.Kids → Res Str
  | [] => .ok []
  | (k, c) :: cs => (writeConcise k false arr c).bind fun a =>
    (writeConciseKids arr cs).bind fun b => .ok (a ++ (if cs.isEmpty then [] else [' ']) ++ b)
end

/-- `prop_node_serializer_zml::write_stream` (prop_node_serializer_zml.cpp:274-280). `empty()` : neither value nor children
(prop_node.h:125). -/
def write (pn : PropNode) : Res Str :=
  if pn.value.isEmpty && pn.kids.isEmpty then .ok [] else writeNode [] 0 false pn

/-- `prop_node_serializer_zml_concise::write_stream` (prop_node_serializer_zml.cpp:282-287). -/
def writeC (pn : PropNode) : Res Str := writeConcise [] true false pn

end Zml
end Xo
