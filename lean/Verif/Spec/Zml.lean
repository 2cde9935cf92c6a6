import Verif.Model.PropNode

/-!
Which trees can be written as ZML and read back (C20), stated on the tree alone.
-/
namespace Xo
namespace Zml
namespace Spec

/-- The text contains a character that makes the writer quote it: a blank or control character, or one of `"{}[]#<>\/`; or it
is empty. -/
def Quoted (s : Str) : Prop := s = [] ∨ ∃ c ∈ s, c.toNat < 33 ∨ c ∈ "\"{}[]#<>\\/".toList

/-- Texts that are read as one token after they were written. Excluded are: characters outside 1 to 127; texts that are not quoted
and contain `'` or `=` or end with a colon; and the texts that begin comments. -/
def SafeText (s : Str) : Prop :=
  (∀ c ∈ s, 1 ≤ c.toNat ∧ c.toNat ≤ 127) ∧
  (Quoted s ∨ ((∀ c ∈ s, c ≠ '\'' ∧ c ≠ '=') ∧ s.getLast? ≠ some ':')) ∧
  s ≠ ['#'] ∧ s ≠ ['/', '/'] ∧ s ≠ ['/', '*']

/-- Keys that keep their meaning: they begin with a visible character other than `$`, and are not `{`, `}`, `[` or `<<`. -/
def SafeKey (s : Str) : Prop :=
  SafeText s ∧ (∃ c, s.head? = some c ∧ 33 ≤ c.toNat ∧ c.toNat ≤ 126 ∧ c ≠ '$') ∧
  s ≠ ['{'] ∧ s ≠ ['}'] ∧ s ≠ ['['] ∧ s ≠ ['<', '<']

/-- Values that keep their meaning: they are not references (`@`), macros (`$`, `${`), `{` or `[`. -/
def SafeValue (s : Str) : Prop :=
  SafeText s ∧ s.head? ≠ some '@' ∧ (s.head? = some '$' → s = ['$']) ∧ (∀ x y, s ≠ x ++ '$' :: '{' :: y) ∧
  s ≠ ['{'] ∧ s ≠ ['[']

/-- Values that keep their meaning as element of an array: moreover they are not empty and not `]` or `<<`. -/
def SafeElem (s : Str) : Prop := SafeValue s ∧ s ≠ [] ∧ s ≠ [']'] ∧ s ≠ ['<', '<']

mutual
/-- The node `c` with the key `k` can be written as item of a group (`arr = false`) or of an array (`arr = true`). Items of arrays have
no key, and not both a value and children. The children of a node either all have a key, or none has. -/
def SafeItem (arr : Bool) (k : Str) : PropNode → Prop
  | .mk v ks _ =>
    (match arr with
      | true => k = [] ∧ (if ks = [] then SafeElem v else v = [])
      | false => SafeKey k ∧ SafeValue v) ∧
    SafeKids (ks.all fun p => p.1.isEmpty) ks
def SafeKids (arr : Bool) : PropNode.Kids → Prop
  | [] => True
  | (k, c) :: cs => SafeItem arr k c ∧ SafeKids arr cs
end

/-- The root has no value and its children have keys. -/
def SafeRoot (n : PropNode) : Prop := n.value = [] ∧ SafeKids false n.kids

mutual
/-- No node without children has an empty value. -/
def NoEmpty : PropNode → Prop
  | .mk v ks _ => (ks = [] → v ≠ []) ∧ NoEmptyKids ks
def NoEmptyKids : PropNode.Kids → Prop
  | [] => True
  | (_, c) :: cs => NoEmpty c ∧ NoEmptyKids cs
end

end Spec
end Zml
end Xo
