import Verif.Model.TypeName

/-! C126. Names of types.

The tidy name of a type is its own name, without the names of the namespaces and classes around it and without its
template arguments. Factories register a type under this name unless told otherwise. -/

namespace Xo.TName

namespace Spec

/-- Characters of an identifier. -/
def IdentChar (c : Char) : Prop := c ≠ '<' ∧ c ≠ ':' ∧ c ≠ ' '

/-- An identifier. -/
def Ident (s : Str) : Prop := s ≠ [] ∧ ∀ c ∈ s, IdentChar c

/-- The name of a type: the namespaces and classes around it, its own name and its template arguments. -/
structure TyName where
  scopes : List Str
  own : Str
  args : Option Str

/-- The text of template arguments. -/
def argText : Option Str → Str
  | none => []
  | some a => '<' :: (a ++ ['>'])

/-- The text of a name. -/
def TyName.text (n : TyName) : Str :=
  n.scopes.flatMap (· ++ [':', ':']) ++ (n.own ++ argText n.args)

/-- Made of identifiers; the arguments may be anything. -/
def TyName.Ok (n : TyName) : Prop := (∀ s ∈ n.scopes, Ident s) ∧ Ident n.own

end Spec
open Spec

theorem first_lt {a b : Str} (ha : ∀ c ∈ a, c ≠ '<') : findFirstOf ['<'] (a ++ '<' :: b) = some a.length := by
  unfold findFirstOf
  rw [List.findIdx?_append, List.findIdx?_eq_none_iff.2 (by intro c hc; simp [ha c hc])]
  simp [List.findIdx?_cons]

theorem first_none {a : Str} (ha : ∀ c ∈ a, c ≠ '<') : findFirstOf ['<'] a = none := by
  unfold findFirstOf
  exact List.findIdx?_eq_none_iff.2 (by intro c hc; simp [ha c hc])

theorem last_some {a b : Str} (hb : ∀ c ∈ b, c ≠ ':' ∧ c ≠ ' ') : findLastOf [':', ' '] (a ++ ':' :: b) = some a.length := by
  unfold findLastOf findLastIdx
  rw [List.reverse_append, List.reverse_cons, List.append_assoc, List.findIdx?_append,
    List.findIdx?_eq_none_iff.2 (by intro c hc; have := hb c (List.mem_reverse.1 hc); simp [this.1, this.2])]
  simp [List.findIdx?_cons]

theorem last_none {b : Str} (hb : ∀ c ∈ b, c ≠ ':' ∧ c ≠ ' ') : findLastOf [':', ' '] b = none := by
  unfold findLastOf findLastIdx
  rw [List.findIdx?_eq_none_iff.2 (by intro c hc; have := hb c (List.mem_reverse.1 hc); simp [this.1, this.2])]
  rfl

theorem scopes_text (n : TyName) (h : n.scopes ≠ []) : ∃ p, n.scopes.flatMap (· ++ [':', ':']) = p ++ [':'] ∧
    ((∀ s ∈ n.scopes, Ident s) → ∀ c ∈ p, c ≠ '<') := by
  obtain ⟨l, s, e⟩ := List.eq_nil_or_concat n.scopes |>.resolve_left h
  rw [List.concat_eq_append] at e
  refine ⟨l.flatMap (· ++ [':', ':']) ++ (s ++ [':']), by rw [e]; simp, fun hs c hc => ?_⟩
  rw [e] at hs
  simp only [List.mem_append, List.mem_flatMap, List.mem_cons, List.not_mem_nil, or_false] at hc
  rcases hc with ⟨t, ht, hc | rfl | rfl⟩ | hc | rfl
  · exact ((hs t (by simp [ht])).2 c hc).1
  · decide
  · decide
  · exact ((hs s (by simp)).2 c hc).1
  · decide

/-- Types in a namespace or a class: the own name. -/
theorem lastPart_scoped {n : TyName} (hn : n.Ok) (h : n.scopes ≠ []) (hl : n.text.length < 2 ^ 64) :
    lastPart n.text = .ok n.own := by
  obtain ⟨p, e, hp⟩ := scopes_text n h
  have hp := hp hn.1
  have ho := hn.2.2
  have et : n.text = p ++ ':' :: (n.own ++ argText n.args) := by unfold TyName.text; rw [e]; simp
  rw [et] at hl ⊢
  have hb : ∀ c ∈ n.own, c ≠ ':' ∧ c ≠ ' ' := fun c hc => (ho c hc).2
  have hlt : ∀ c ∈ p ++ ':' :: n.own, c ≠ '<' := by
    intro c hc
    simp only [List.mem_append, List.mem_cons] at hc
    rcases hc with hc | rfl | hc
    · exact hp c hc
    · decide
    · exact (ho c hc).1
  cases ha : n.args with
  | none =>
    simp only [argText, List.append_nil, lastPart, first_none hlt, findLastOfTo, last_some hb, substr]
    rw [if_neg (by simp), show (p ++ ':' :: n.own).drop (p.length + 1) = n.own by
      rw [List.drop_append, List.drop_of_length_le (by omega)]; simp]
  | some a =>
    rw [ha] at hl
    have ef : findFirstOf ['<'] (p ++ ':' :: (n.own ++ argText (some a))) = some (p ++ ':' :: n.own).length := by
      rw [show p ++ ':' :: (n.own ++ argText (some a)) = (p ++ ':' :: n.own) ++ '<' :: (a ++ ['>']) by simp [argText]]
      exact first_lt hlt
    have el : findLastOfTo [':', ' '] (p ++ ':' :: (n.own ++ argText (some a))) (some (p ++ ':' :: n.own).length) = some p.length := by
      unfold findLastOfTo
      show findLastOf _ (List.take _ _) = _
      rw [show (p ++ ':' :: (n.own ++ argText (some a))) = (p ++ ':' :: n.own) ++ ('<' :: (a ++ ['>'])) by simp [argText],
        List.take_append, List.take_of_length_le (by omega)]
      rw [show (p ++ ':' :: n.own).length + 1 - (p ++ ':' :: n.own).length = 1 by omega]
      simp only [List.take_succ_cons, List.take_zero, List.append_assoc, List.cons_append]
      exact last_some (by
        intro c hc
        simp only [List.mem_append, List.mem_singleton] at hc
        rcases hc with hc | rfl
        · exact hb c hc
        · decide)
    simp only [lastPart, ef, el, substr]
    simp only [List.length_append, List.length_cons] at hl ⊢
    rw [if_neg (by omega), show (p ++ ':' :: (n.own ++ argText (some a))).drop (p.length + 1) = n.own ++ argText (some a) by
      rw [List.drop_append, List.drop_of_length_le (by omega)]; simp]
    have : ((((p.length + (n.own.length + 1) : Nat) : Int) - p.length - 1) % 2 ^ 64).toNat = n.own.length := by omega
    rw [this]
    simp

/-- Types in a namespace or a class, and types without template arguments: the own name. -/
theorem C126_own_partial {demangle : Str → Option Str} {m : Str} {n : TyName} (hd : demangle m = some n.text) (hn : n.Ok)
    (h : n.scopes ≠ [] ∨ n.args = none) (hl : n.text.length < 2 ^ 64) : tidyTypeName demangle m = .ok n.own := by
  unfold tidyTypeName
  rw [hd]
  show lastPart _ = _
  by_cases hs : n.scopes = []
  · have ha := h.resolve_left (by simp [hs])
    have : n.text = n.own := by unfold TyName.text; rw [hs, ha]; simp [argText]
    rw [this]
    have ho := hn.2.2
    simp only [lastPart, first_none (fun c hc => (ho c hc).1), findLastOfTo, last_none (fun c hc => (ho c hc).2)]
  · exact lastPart_scoped hn hs hl

/-- Templates that are in no namespace: the arguments are not removed. -/
theorem C126_global_violated {demangle : Str → Option Str} {m : Str} {n : TyName} {a : Str} (hd : demangle m = some n.text)
    (hn : n.Ok) (hs : n.scopes = []) (ha : n.args = some a) :
    tidyTypeName demangle m = .ok (n.own ++ '<' :: (a ++ ['>'])) ∧ n.own ++ '<' :: (a ++ ['>']) ≠ n.own := by
  have ho := hn.2.2
  refine ⟨?_, by simp⟩
  unfold tidyTypeName
  rw [hd]
  show lastPart _ = _
  have : n.text = n.own ++ '<' :: (a ++ ['>']) := by unfold TyName.text; rw [hs, ha]; simp [argText]
  rw [this]
  have el : findLastOfTo [':', ' '] (n.own ++ '<' :: (a ++ ['>'])) (some n.own.length) = none := by
    unfold findLastOfTo
    show findLastOf _ (List.take _ _) = _
    rw [List.take_append, List.take_of_length_le (by omega), show n.own.length + 1 - n.own.length = 1 by omega]
    simp only [List.take_succ_cons, List.take_zero]
    exact last_none (by
      intro c hc
      simp only [List.mem_append, List.mem_singleton] at hc
      rcases hc with hc | rfl
      · exact (ho c hc).2
      · decide)
  simp only [lastPart, first_lt (fun c hc => (ho c hc).1), el]

/-- A type inside of a template gets the name of the template. -/
theorem C126_inside_violated : lastPart "xo::flat_map<int, bool>::value".toList = .ok "flat_map".toList := by decide

/-- The name of another type: `unsigned int` and `int` have the same one. -/
theorem C126_blank_violated : lastPart "unsigned int".toList = .ok "int".toList ∧ lastPart "int".toList = .ok "int".toList := by decide

/-- Types of the same name in different namespaces, and the same template with different arguments, cannot be told
apart. -/
theorem C126_same_violated {demangle : Str → Option Str} {m m' : Str} {n n' : TyName} (hd : demangle m = some n.text)
    (hd' : demangle m' = some n'.text) (hn : n.Ok) (hn' : n'.Ok) (hs : n.scopes ≠ []) (hs' : n'.scopes ≠ []) (ho : n.own = n'.own)
    (hl : n.text.length < 2 ^ 64) (hl' : n'.text.length < 2 ^ 64) : tidyTypeName demangle m = tidyTypeName demangle m' := by
  rw [C126_own_partial hd hn (.inl hs) hl, C126_own_partial hd' hn' (.inl hs') hl', ho]

/-- A text that is not the name of a type. -/
theorem C126_unknown_violated {demangle : Str → Option Str} {m : Str} (h : demangle m = none) : tidyTypeName demangle m = .ub := by
  unfold tidyTypeName; rw [h]

example : lastPart "xo::flat_map<std::pair<int, int>, bool>".toList = .ok "flat_map".toList ∧
    (TyName.mk ["xo".toList] "flat_map".toList (some "int".toList)).text = "xo::flat_map<int>".toList := by decide

example : (TyName.mk ["a".toList, "b".toList] "c".toList (some "d::e".toList)).Ok := by
  simp [TyName.Ok, Ident, IdentChar]

end Xo.TName
