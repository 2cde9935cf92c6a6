import Verif.Lemmas.ZmlRef
import Verif.Props.C80_ZmlMacros

/-!
C80: what references `@path` in a ZML text mean, and that a reference to nothing is an error.

The meaning of a document with references is `Spec.evalRef` (Verif/Spec/ZmlRef.lean). It does not refer to the reader.
-/
namespace Xo
namespace Zml
open Spec

/-- **C80 (references).** Reading the tokens of a document with references gives the tree that the document describes: `@path` stands for
a copy of what is at the path in the tree as it is at the reference, with the groups that are still open. (partial: keys in a path are
names, no references in arrays, in definitions with braces, or in the braces behind a value) -/
theorem C80_references_partial (env : Env) (inc : Str → Res PropNode.Kids) (hinc : Loads env inc) (d : RefDoc) (hd : d.Ok) (text : Str)
    (ht : lexAll text = (d.toks, .eof)) (ks : PropNode.Kids) (h : evalRef inc (fun ks => .mk [] ks false) [] [] d = .ok ks) :
    parse env text = .ok (.mk [] ks false, false) := by
  obtain ⟨defs, hr⟩ := (steps_ref hinc d hd (close := []) (.inl rfl) (view := fun p ms => (p, ms)) (base := 0) (acc := [])
    (rest := []) (fin := .eof) (ms := []) (f := false) (s := []) sees_root (fun _ _ => rfl) .root).1 ks h
  obtain ⟨m, hm, e⟩ := hr (d.toks.length + 1) (by simp)
  obtain ⟨m, rfl⟩ : ∃ k, m = k + 1 := ⟨m - 1, by simp at hm; omega⟩
  unfold parse
  rw [ht]
  simp only [List.append_nil] at e
  dsimp only
  rw [show PropNode.empty = PropNode.mk [] [] false from rfl, e, layer.eq_def]
  rfl

/-- **C80 (errors in references).** A document with a reference to a path at which nothing was read before, or with an undefined name
or an unreadable file, is not accepted. -/
theorem C80_reference_error (env : Env) (inc : Str → Res PropNode.Kids) (hinc : Loads env inc) (d : RefDoc) (hd : d.Ok) (text : Str)
    (ht : lexAll text = (d.toks, .eof)) (h : evalRef inc (fun ks => .mk [] ks false) [] [] d = .err) :
    (env.throws = true → parse env text = .err) ∧ ∀ t, parse env text ≠ .ok (t, false) := by
  have := (steps_ref hinc d hd (close := []) (.inl rfl) (view := fun p ms => (p, ms)) (base := 0) (acc := [])
    (rest := []) (fin := .eof) (ms := []) (f := false) (s := []) sees_root (fun _ _ => rfl) .root).2 h (d.toks.length + 1) (by simp)
  rw [List.append_nil] at this
  unfold parse
  rw [ht]
  dsimp only
  constructor
  · intro hth
    rw [show PropNode.empty = PropNode.mk [] [] false from rfl, this.1 hth]
  · intro t he
    split at he
    · next p st hl =>
      have := this.2 p st hl
      simp_all
    · cases he
    · cases he
    · cases he

/-! ### The meaning, in special cases -/

/-- A reference changes nothing that was read before: what is before it stays, in the same order, and its item comes behind. -/
theorem C80_reference_appends (inc : Str → Res PropNode.Kids) (up : PropNode.Kids → PropNode) (s : Scope) (d : RefDoc) :
    ∀ (acc ks : PropNode.Kids), evalRef inc up s acc d = .ok ks → acc <+: ks := by
  induction d generalizing s up with
  | nil => intro acc ks h; cases h; exact List.prefix_rfl
  | plain d rest ih =>
    intro acc ks h
    obtain ⟨b, -, h⟩ := bind_ok_iff.1 h
    exact (List.prefix_append _ _).trans (ih _ _ _ _ h)
  | ref label sep k q rest ih =>
    intro acc ks h
    obtain ⟨b, -, h⟩ := bind_ok_iff.1 h
    exact (List.prefix_append _ _).trans (ih _ _ _ _ h)
  | refExtend label sep k q arr body rest ih =>
    intro acc ks h
    obtain ⟨b, -, h⟩ := bind_ok_iff.1 h
    obtain ⟨b, -, h⟩ := bind_ok_iff.1 h
    exact (List.prefix_append _ _).trans (ih _ _ _ _ h)
  | defineRef name sep k q rest ih =>
    intro acc ks h
    obtain ⟨b, -, h⟩ := bind_ok_iff.1 h
    exact ih _ _ _ _ h
  | group label sep body rest _ ih =>
    intro acc ks h
    obtain ⟨b, -, h⟩ := bind_ok_iff.1 h
    exact (List.prefix_append _ _).trans (ih _ _ _ _ h)

/-- A reference with one key, on the top level, to an item before it: a copy of the first item with this label. -/
theorem C80_reference_first (acc before behind : PropNode.Kids) (k label : Str) (n : PropNode) (hk : ∀ e ∈ before, e.1 ≠ k)
    (ha : acc = before ++ (k, n) :: behind) :
    target (.mk [] (acc ++ [(label, .empty)]) false) k [] = .ok (.mk n.value n.kids false) := by
  have : ∀ b : PropNode.Kids, (∀ e ∈ b, e.1 ≠ k) → ∀ r, PropNode.findKid k (b ++ (k, n) :: r) = some n := by
    intro b
    induction b with
    | nil => intro _ r; simp [PropNode.findKid]
    | cons e b ih =>
      intro h r
      obtain ⟨x, y⟩ := e
      rw [List.cons_append, PropNode.findKid, if_neg (h (x, y) (by simp))]
      exact ih (fun e he => h e (by simp [he])) r
  unfold target
  rw [ha, List.append_assoc, List.cons_append]
  simp [PropNode.lookup, PropNode.kids, this before hk]

/-- A copy with one more child, which the original does not get, a path with two keys, and a path into a group that is still open. -/
example : parse ⟨true, fun _ => .err⟩ "a { x = 1 } b = @a { y = 2 } c { d = @a.x e = @c.d }".toList =
    .ok (.mk [] [("a".toList, .mk [] [("x".toList, .mk "1".toList [] false)] false),
      ("b".toList, .mk [] [("x".toList, .mk "1".toList [] false), ("y".toList, .mk "2".toList [] false)] false),
      ("c".toList, .mk [] [("d".toList, .mk "1".toList [] false), ("e".toList, .mk "1".toList [] false)] false)] false, false) := by
  refine C80_references_partial _ (fun _ => .err) loads_none
    (.plain (.group "a".toList [] false (.leaf "x".toList "=".toList (.text "1".toList) .nil) .nil)
      (.refExtend "b".toList "=".toList "a".toList [] false (.leaf "y".toList "=".toList (.text "2".toList) .nil)
        (.group "c".toList [] (.ref "d".toList "=".toList "a".toList ["x".toList]
          (.ref "e".toList "=".toList "c".toList ["d".toList] .nil)) .nil))) ?_ _ (by decide +kernel) _ (by rfl)
  simp [RefDoc.Ok, Doc.Ok, LabelOk, SepOk, Val.Ok, PathOk, Xo.Spec.PathKeys, Xo.Spec.PlainKey]

/-- A reference to something that comes later. -/
example : parse ⟨true, fun _ => .err⟩ "a = @b b = 1".toList = .err :=
  (C80_reference_error _ (fun _ => .err) loads_none
    (.ref "a".toList "=".toList "b".toList [] (.plain (.leaf "b".toList "=".toList (.text "1".toList) .nil) .nil))
    (by simp [RefDoc.Ok, Doc.Ok, LabelOk, SepOk, Val.Ok, PathOk, Xo.Spec.PathKeys, Xo.Spec.PlainKey]) _ (by decide +kernel) (by rfl)).1 rfl

end Zml
end Xo
