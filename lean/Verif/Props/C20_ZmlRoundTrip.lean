import Verif.Lemmas.ZmlRead

/-!
C20: writing a tree as ZML and reading the text back.

`Spec.SafeRoot` (Verif/Spec/Zml.lean) describes the trees for which it works, and the last theorems show that what it excludes does
not work.
-/
namespace Xo
namespace Zml
open Spec

/-- Writing succeeds, and reading the text gives an equal tree without an error. -/
def roundTrips (n : PropNode) : Bool :=
  match write n with
  | .ok text => readsAs (parse ⟨true, fun _ => .err⟩ text) n
  | _ => false

/-- The same for the concise writer. -/
def roundTripsC (n : PropNode) : Bool :=
  match writeC n with
  | .ok text => readsAs (parse ⟨true, fun _ => .err⟩ text) n
  | _ => false

/-- **C20 (partial).** Every tree of any depth and width whose keys and values are safe can be written, and reading the text gives an
equal tree, whatever is done with errors and includes. -/
theorem C20_roundtrip_partial (env : Env) {n : PropNode} (h : SafeRoot n) :
    ∃ text, write n = .ok text ∧ ∃ m, parse env text = .ok (m, false) ∧ m.eq n = true := by
  obtain ⟨text, hw, hl⟩ := write_lex h
  refine ⟨text, hw, _, parse_toks h.2 hl, ?_⟩
  obtain ⟨v, ks, a⟩ := n
  have hv := h.1
  simp only [PropNode.value] at hv
  subst hv
  simpa [PropNode.setAccessedRec, PropNode.kids] using eq_norm (.mk [] ks a)

/-- **C20 (partial).** The same for the concise writer, for trees that have children and no empty values. -/
theorem C20_concise_roundtrip_partial (env : Env) {n : PropNode} (h : SafeRoot n) (hk : n.kids ≠ []) (he : NoEmptyKids n.kids) :
    ∃ text, writeC n = .ok text ∧ ∃ m, parse env text = .ok (m, false) ∧ m.eq n = true := by
  obtain ⟨text, hw, hl⟩ := writeC_lex h hk he
  refine ⟨text, hw, _, parse_toks h.2 hl, ?_⟩
  obtain ⟨v, ks, a⟩ := n
  have hv := h.1
  simp only [PropNode.value] at hv
  subst hv
  simpa [PropNode.setAccessedRec, PropNode.kids] using eq_norm (.mk [] ks a)

/-- **C20 is violated** by every tree whose root has a value: it cannot be written. -/
theorem C20_root_value_violated {n : PropNode} (h : n.value ≠ []) : write n = .err ∧ writeC n = .err := by
  obtain ⟨v, ks, a⟩ := n
  simp only [PropNode.value] at h
  have hv : v.isEmpty = false := by cases v <;> simp_all
  have hk : ∀ nk, ∀ e, writeKvp [] v nk e false = .err := by intro nk e; simp [writeKvp, hv]
  constructor
  · unfold write
    simp only [PropNode.value, hv, Bool.false_and, Bool.false_eq_true, if_false]
    rw [writeNode]
    cases ks <;> simp [hk, Res.bind]
  · unfold writeC
    rw [writeConcise]
    simp [hk, Res.bind]

/-- **C20 is violated** by the concise writer for the empty tree. -/
theorem C20_concise_empty_violated : writeC .empty = .err := by rfl

private def kv (v : String) : PropNode := .mk [] [("a".toList, .leaf v.toList)] false
private def vk (k : String) : PropNode := .mk [] [(k.toList, .leaf ['1'])] false
private def elem (v : String) : PropNode := .mk [] [("a".toList, .mk [] [([], .leaf v.toList)] false)] false

/-- **C20 is violated** by values that are written without quotation marks although the reader treats them specially: `=` and `'`
inside a value, a value that ends with a colon (followed by a space in one-line groups). -/
theorem C20_value_chars_violated :
    roundTrips (kv "x=y") = false ∧ roundTrips (kv "it's") = false ∧
    roundTrips (.mk [] [("g".toList, .mk [] [("a".toList, .leaf "b:".toList)] false)] false) = false := by decide +kernel

/-- **C20 is violated** by values that are references or macros when they are read: quotation marks do not protect them. -/
theorem C20_value_macros_violated :
    roundTrips (kv "@x") = false ∧ roundTrips (kv "$x") = false ∧ roundTrips (kv "x ${y}") = false := by decide +kernel

/-- **C20 is violated** by values that are operators or begin a comment. -/
theorem C20_value_operators_violated :
    roundTrips (kv "{") = false ∧ roundTrips (kv "[") = false ∧ roundTrips (kv "#") = false ∧ roundTrips (kv "//") = false ∧
    roundTrips (kv "/*") = false := by decide +kernel

/-- **C20 is violated** by keys that are macros, operators, comments or blanks, and by the empty key. -/
theorem C20_keys_violated :
    roundTrips (vk "$x") = false ∧ roundTrips (vk "{") = false ∧ roundTrips (vk "}") = true ∧ roundTrips (vk "[") = false ∧
    roundTrips (vk "<<") = false ∧ roundTrips (vk "#") = false ∧ roundTrips (vk "x=y") = false ∧ roundTrips (vk " x") = false ∧
    roundTrips (vk "") = false ∧
    roundTrips (.mk [] [("g".toList, .mk [] [("}".toList, .leaf ['1'])] false)] false) = false := by decide +kernel

/-- **C20 is violated** by elements of arrays that are empty, a closing bracket or an include operator. -/
theorem C20_elements_violated :
    roundTrips (elem "") = false ∧ roundTrips (elem "]") = false ∧ roundTrips (elem "<<") = false := by decide +kernel

/-- **C20 is violated** by elements of arrays that have both a value and children, by a root that is an array, and by groups in which
only some children have a key. -/
theorem C20_shapes_violated :
    roundTrips (.mk [] [("a".toList, .mk [] [([], .mk ['1'] [(['b'], .leaf ['2'])] false)] false)] false) = false ∧
    roundTrips (.mk [] [([], .mk [] [(['b'], .leaf ['2'])] false)] false) = false ∧
    roundTrips (.mk [] [("a".toList, .mk [] [([], .leaf ['1']), (['b'], .leaf ['2'])] false)] false) = false := by decide +kernel

/-- **C20 is violated** by the character codes 0 and from 128 on. -/
theorem C20_codes_violated :
    roundTrips (.mk [] [("a".toList, .leaf [Char.ofNat 0])] false) = false ∧
    roundTrips (.mk [] [("a".toList, .leaf [Char.ofNat 0xE9])] false) = false := by decide +kernel

/-- **C20 is violated** by the concise writer for an empty value at the end of a group. -/
theorem C20_concise_value_violated :
    roundTripsC (.mk [] [("a".toList, .mk [] [(['b'], .leaf [])] false)] false) = false ∧
    roundTrips (.mk [] [("a".toList, .mk [] [(['b'], .leaf [])] false)] false) = true := by decide +kernel

/-- A safe tree with groups, arrays, a node with value and children, and texts that need quotation marks. -/
private def sample : PropNode :=
  .mk [] [("a b".toList, .mk "x {\"}".toList [("n".toList, .leaf "1\n2".toList),
      ("list".toList, .mk [] [([], .leaf "1".toList), ([], .mk [] [([], .leaf "/path".toList)] false)] false)] false),
    ("e".toList, .leaf [])] false

private theorem safeText_of {s : Str} (h1 : ∀ c ∈ s, 1 ≤ c.toNat ∧ c.toNat ≤ 127)
    (h2 : (∃ c ∈ s, c.toNat < 33 ∨ c ∈ "\"{}[]#<>\\/".toList) ∨ ((∀ c ∈ s, c ≠ '\'' ∧ c ≠ '=') ∧ s.getLast? ≠ some ':'))
    (h3 : s ≠ ['#'] ∧ s ≠ ['/', '/'] ∧ s ≠ ['/', '*']) : SafeText s := by
  refine ⟨h1, ?_, h3⟩
  rcases h2 with h | h
  · exact .inl (.inr h)
  · exact .inr h

private theorem safeValue_of {s : Str} (h : SafeText s) (h1 : '@' ∉ s) (h2 : '$' ∉ s) (h3 : s ≠ ['{'] ∧ s ≠ ['[']) : SafeValue s := by
  refine ⟨h, ?_, ?_, ?_, h3⟩
  · intro e; exact h1 (List.mem_of_mem_head? (by rw [e]; rfl))
  · intro e; exact absurd (List.mem_of_mem_head? (by rw [e]; rfl)) h2
  · rintro x y rfl; exact h2 (by simp)

example : SafeRoot sample := by
  have key : ∀ s : Str, SafeText s → (∃ c, s.head? = some c ∧ 33 ≤ c.toNat ∧ c.toNat ≤ 126 ∧ c ≠ '$') →
      (s ≠ ['{'] ∧ s ≠ ['}'] ∧ s ≠ ['['] ∧ s ≠ ['<', '<']) → SafeKey s := fun s h1 h2 h3 => ⟨h1, h2, h3⟩
  have t1 := safeText_of (s := "a b".toList) (by decide) (by decide) (by decide)
  have t2 := safeText_of (s := "x {\"}".toList) (by decide) (by decide) (by decide)
  have t3 := safeText_of (s := "n".toList) (by decide) (by decide) (by decide)
  have t4 := safeText_of (s := "1\n2".toList) (by decide) (by decide) (by decide)
  have t5 := safeText_of (s := "list".toList) (by decide) (by decide) (by decide)
  have t6 := safeText_of (s := "1".toList) (by decide) (by decide) (by decide)
  have t7 := safeText_of (s := "/path".toList) (by decide) (by decide) (by decide)
  have t8 := safeText_of (s := "e".toList) (by decide) (by decide) (by decide)
  have t9 : SafeText [] := ⟨by decide, .inl (.inl rfl), by decide⟩
  have v9 := safeValue_of t9 (by decide) (by decide) (by decide)
  simp only [SafeRoot, sample, PropNode.value, PropNode.kids, SafeKids, SafeItem, PropNode.leaf]
  refine ⟨trivial, ⟨⟨key _ t1 ⟨'a', by decide⟩ (by decide), safeValue_of t2 (by decide) (by decide) (by decide)⟩, ?_⟩,
    ⟨⟨key _ t8 ⟨'e', by decide⟩ (by decide), v9⟩, trivial⟩, trivial⟩
  refine ⟨⟨⟨key _ t3 ⟨'n', by decide⟩ (by decide), safeValue_of t4 (by decide) (by decide) (by decide)⟩, trivial⟩,
    ⟨⟨key _ t5 ⟨'l', by decide⟩ (by decide), v9⟩, ⟨⟨trivial, ?_⟩, trivial⟩, ⟨⟨trivial, trivial⟩, ⟨⟨trivial, ?_⟩, trivial⟩, trivial⟩, trivial⟩, trivial⟩
  · exact ⟨safeValue_of t6 (by decide) (by decide) (by decide), by decide⟩
  · exact ⟨safeValue_of t7 (by decide) (by decide) (by decide), by decide⟩

example : roundTrips sample = true ∧ roundTripsC sample = true := by decide +kernel

end Zml
end Xo
