import Verif.Props.C18_PropNodeAccessed

/-!
C19: `operator==` of `prop_node`.
-/
namespace Xo

namespace Spec
/-- Same value and same sequence of keys and, recursively, children. Access marks do not matter. -/
inductive Same : PropNode → PropNode → Prop
  | mk (v : Str) (ks ls : List (Str × PropNode)) (a b : Bool) (hk : ks.map Prod.fst = ls.map Prod.fst)
      (hc : ∀ (i : Nat) (x y : Str × PropNode), ks[i]? = some x → ls[i]? = some y → Same x.2 y.2) : Same (.mk v ks a) (.mk v ls b)
end Spec

open Spec PropNode

/-- **C19.** `operator==` is structural equality. -/
theorem C19_eq_iff (n m : PropNode) : n.eq m = true ↔ Same n m := by
  induction n using PropNode.ind generalizing m with
  | h v ks a ih =>
    obtain ⟨w, ls, b⟩ := m
    have aux : ∀ ks ls : Kids, (∀ k c, (k, c) ∈ ks → ∀ m, c.eq m = true ↔ Same c m) → ks.length = ls.length →
        (eqKids ks ls = true ↔ ks.map Prod.fst = ls.map Prod.fst ∧
          ∀ (i : Nat) (x y : Str × PropNode), ks[i]? = some x → ls[i]? = some y → Same x.2 y.2) := by
      intro ks
      induction ks with
      | nil => intro ls _ hl; cases ls <;> simp_all [eqKids]
      | cons x ks ihk =>
        obtain ⟨k, c⟩ := x
        intro ls h hl
        cases ls with
        | nil => simp at hl
        | cons y ls =>
          obtain ⟨k', c'⟩ := y
          have ih2 := ihk ls (fun k c hm => h k c (by simp [hm])) (by simpa using hl)
          rw [eqKids]
          by_cases hk : k = k'
          · by_cases hc : c.eq c' = true
            · simp only [hk, ne_eq, not_true_eq_false, if_false, hc, Bool.not_true, Bool.false_eq_true, ih2,
                List.map_cons, List.cons.injEq, true_and]
              constructor
              · rintro ⟨h1, h2⟩
                refine ⟨h1, ?_⟩
                intro i x y hx hy
                cases i with
                | zero => cases hx; cases hy; exact (h k c (by simp) c').1 hc
                | succ i => exact h2 i x y hx hy
              · rintro ⟨h1, h2⟩
                exact ⟨h1, fun i x y hx hy => h2 (i + 1) x y hx hy⟩
            · simp only [hk, ne_eq, not_true_eq_false, if_false]
              rw [if_pos (by simpa using hc)]
              simp only [Bool.false_eq_true, false_iff, not_and]
              intro _ h2
              exact hc ((h k c (by simp) c').2 (h2 0 _ _ rfl rfl))
          · simp [hk]
    rw [PropNode.eq]
    by_cases hv : v = w
    · subst hv
      by_cases hl : ks.length = ls.length
      · simp only [value_mk, kids_mk, hl, ne_eq, not_true_eq_false, if_false]
        rw [aux ks ls ih hl]
        constructor
        · rintro ⟨h1, h2⟩; exact .mk v ks ls a b h1 h2
        · rintro ⟨⟩; constructor <;> assumption
      · simp only [value_mk, kids_mk, ne_eq, not_true_eq_false, if_false, hl, not_false_eq_true, if_true,
          Bool.false_eq_true, false_iff]
        rintro ⟨⟩
        next hk _ => exact hl (by simpa using congrArg List.length hk)
    · simp only [value_mk, ne_eq, hv, not_false_eq_true, if_true, Bool.false_eq_true, false_iff]
      rintro ⟨⟩
      exact hv rfl

theorem Spec.Same.refl (n : PropNode) : Same n n := by
  induction n using PropNode.ind with
  | h v ks a ih =>
    refine .mk v ks ks a a rfl ?_
    intro i x y hx hy
    rw [hx] at hy; cases hy
    exact ih x.1 x.2 (List.mem_of_getElem? hx)

theorem Spec.Same.symm {n m : PropNode} (h : Same n m) : Same m n := by
  induction h with
  | mk v ks ls a b hk _ ih => exact .mk v ls ks b a hk.symm (fun i x y hx hy => ih i y x hy hx)

theorem Spec.Same.trans {n m o : PropNode} (h : Same n m) (h2 : Same m o) : Same n o := by
  induction h generalizing o with
  | mk v ks ls a b hk _ ih =>
    cases h2 with
    | mk _ _ ms _ c hk2 hc2 =>
      refine .mk v ks ms a c (hk.trans hk2) ?_
      intro i x z hx hz
      have hl : ls.length = ms.length := by simpa using congrArg List.length hk2
      have : i < ls.length := by rw [hl]; exact (List.getElem?_eq_some_iff.1 hz).1
      have hy := List.getElem?_eq_getElem this
      exact ih i x _ hx hy (hc2 i _ z hy hz)

/-- **C19.** Equality is an equivalence relation. -/
theorem C19_equivalence :
    (∀ a : PropNode, a.eq a = true) ∧ (∀ a b : PropNode, a.eq b = b.eq a) ∧
    ∀ a b c : PropNode, a.eq b = true → b.eq c = true → a.eq c = true := by
  refine ⟨fun a => (C19_eq_iff a a).2 (.refl a), ?_, ?_⟩
  · intro a b
    rw [Bool.eq_iff_iff, C19_eq_iff, C19_eq_iff]
    exact ⟨.symm, .symm⟩
  · intro a b c h1 h2
    exact (C19_eq_iff a c).2 (((C19_eq_iff a b).1 h1).trans ((C19_eq_iff b c).1 h2))

/-- A read leaves the tree structurally the same. -/
theorem PropNode.accessAt_same (n : PropNode) (p : List Nat) : Same (n.accessAt p) n := by
  induction p generalizing n with
  | nil =>
    obtain ⟨v, ks, a⟩ := n
    exact .mk v ks ks true a rfl (fun i x y hx hy => by rw [hx] at hy; cases hy; exact .refl _)
  | cons i p ih =>
    obtain ⟨v, ks, a⟩ := n
    refine .mk v _ ks a a ?_ ?_
    · apply List.ext_getElem?
      intro j
      rw [List.getElem?_map, List.getElem?_map, kids_mk, List.getElem?_modify]
      split <;> cases ks[j]? <;> rfl
    · intro j x y hx hy
      rw [kids_mk, List.getElem?_modify, hy] at hx
      split at hx
      · cases hx; exact ih y.2
      · cases hx; exact .refl _

/-- **C19.** Reading from a node, in any history of reads, never changes what it is equal to, on either side. -/
theorem C19_reads_keep_equality (a b : PropNode) (reads : List (List Nat)) :
    (reads.foldl accessAt a).eq b = a.eq b ∧ b.eq (reads.foldl accessAt a) = b.eq a := by
  have h : Same (reads.foldl accessAt a) a := by
    induction reads generalizing a with
    | nil => exact .refl a
    | cons p ps ih => exact (ih (a.accessAt p)).trans (accessAt_same a p)
  have hl : (reads.foldl accessAt a).eq b = a.eq b := by
    rw [Bool.eq_iff_iff, C19_eq_iff, C19_eq_iff]
    exact ⟨fun x => h.symm.trans x, fun x => h.trans x⟩
  exact ⟨hl, by rw [C19_equivalence.2.1, hl, C19_equivalence.2.1]⟩

/-- Equal trees with different marks, and trees that differ in the order of children. -/
example :
    let a := PropNode.mk [] [("x".toList, leaf "1".toList), ("y".toList, leaf "2".toList)] false
    let b := PropNode.mk [] [("y".toList, leaf "2".toList), ("x".toList, leaf "1".toList)] false
    a.eq (a.accessAt [1]) = true ∧ a.eq b = false := by decide +kernel

end Xo
