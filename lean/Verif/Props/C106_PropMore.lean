import Verif.Model.PropMore

/-!
C106: searches through a tree of properties, and the references that its functions give out.
-/
namespace Xo.PropMore
open Xo PropNode

namespace Spec
mutual
/-- All keys and nodes below a node: each child is followed by what is below it. -/
def preorder : PropNode → Kids
  | .mk _ ks _ => preorderKids ks
def preorderKids : Kids → Kids
  | [] => []
  | (k, c) :: cs => (k, c) :: (preorder c ++ preorderKids cs)
end

/-- `c` is below `n`, with this key. -/
inductive Below : PropNode → Str → PropNode → Prop
  | child {n : PropNode} {k : Str} {c : PropNode} : (k, c) ∈ n.kids → Below n k c
  | deeper {n : PropNode} {k k' : Str} {c m : PropNode} : (k', m) ∈ n.kids → Below m k c → Below n k c

/-- What is done to the children of a node, without an end that moves them. -/
inductive Op where
  | add (k : Str) (c : PropNode)
  | addMany (count : Nat) (k val : Str)
  | append (other : Kids)
  | getOrAdd (k : Str)

open Classical in
/-- The children that the operation adds. -/
noncomputable def Op.adds (ks : Kids) : Op → Kids
  | .add k c => [(k, c)]
  | .addMany n k val => List.replicate n (k, leaf val)
  | .append other => other
  | .getOrAdd k => if ∃ c, (k, c) ∈ ks then [] else [(k, PropNode.empty)]

/-- The children after some operations. -/
noncomputable def after (ks : Kids) : List Op → Kids
  | [] => ks
  | o :: os => after (ks ++ o.adds ks) os
end Spec
open Spec

mutual
theorem findRec_preorder (k : Str) : ∀ n : PropNode, findRec k n = ((preorder n).find? (·.1 = k)).map Prod.snd
  | .mk _ ks _ => by rw [findRec, preorder]; exact findRecKids_preorder k ks
theorem findRecKids_preorder (k : Str) : ∀ ks : Kids, findRecKids k ks = ((preorderKids ks).find? (·.1 = k)).map Prod.snd
  | [] => rfl
  | (k', c) :: cs => by
    rw [findRecKids, preorderKids, findRec_preorder k c, findRecKids_preorder k cs]
    by_cases h : k' = k
    · simp [h]
    · rw [if_neg h, List.find?_cons_of_neg (by simpa using h), List.find?_append]
      cases (preorder c).find? (·.1 = k) <;> simp
end

/-- **C106.** `try_find_child_recursively` finds the first node with the key, where a child comes before what is below it, and what is below it comes
before the next child. -/
theorem C106_find_recursive (k : Str) (n : PropNode) : findRec k n = ((preorder n).find? (·.1 = k)).map Prod.snd := findRec_preorder k n

mutual
theorem mem_preorder : ∀ (n : PropNode) (k : Str) (c : PropNode), (k, c) ∈ preorder n ↔ Below n k c
  | .mk v ks a, k, c => by
    rw [preorder, mem_preorderKids ks k c]
    constructor
    · rintro (h | ⟨k', m, h1, h2⟩)
      · exact .child h
      · exact .deeper (n := .mk v ks a) h1 h2
    · intro h
      cases h with
      | child h => exact Or.inl h
      | deeper h1 h2 => exact Or.inr ⟨_, _, h1, h2⟩
theorem mem_preorderKids : ∀ (ks : Kids) (k : Str) (c : PropNode), (k, c) ∈ preorderKids ks ↔ (k, c) ∈ ks ∨ ∃ k' m, (k', m) ∈ ks ∧ Below m k c
  | [], k, c => by simp [preorderKids]
  | (k0, m0) :: cs, k, c => by
    rw [preorderKids, List.mem_cons, List.mem_append, mem_preorder m0 k c, mem_preorderKids cs k c]
    constructor
    · rintro (h | h | h | ⟨k', m, h1, h2⟩)
      · exact Or.inl (h ▸ List.mem_cons_self)
      · exact Or.inr ⟨k0, m0, List.mem_cons_self, h⟩
      · exact Or.inl (List.mem_cons_of_mem _ h)
      · exact Or.inr ⟨k', m, List.mem_cons_of_mem _ h1, h2⟩
    · rintro (h | ⟨k', m, h1, h2⟩)
      · rcases List.mem_cons.1 h with h | h
        · exact Or.inl h
        · exact Or.inr (Or.inr (Or.inl h))
      · rcases List.mem_cons.1 h1 with h | h
        · cases h; exact Or.inr (Or.inl h2)
        · exact Or.inr (Or.inr (Or.inr ⟨k', m, h, h2⟩))
end

/-- **C106.** A node that is found is below the node and has the key; if none is found, there is none on any level. -/
theorem C106_find_recursive_iff (k : Str) (n : PropNode) :
    (∀ c, findRec k n = some c → Below n k c) ∧ (findRec k n = none ↔ ∀ c, ¬ Below n k c) := by
  rw [C106_find_recursive]
  constructor
  · intro c h
    obtain ⟨⟨k', c'⟩, h1, rfl⟩ := Option.map_eq_some_iff.1 h
    have h2 := List.find?_some h1
    have h3 := List.mem_of_find?_eq_some h1
    simp only [decide_eq_true_eq] at h2
    subst h2
    exact (mem_preorder n k' c').1 h3
  · rw [Option.map_eq_none_iff, List.find?_eq_none]
    constructor
    · intro h c hb
      exact h _ ((mem_preorder n k c).2 hb) (by simp)
    · rintro h ⟨k', c⟩ hm he
      simp only [decide_eq_true_eq] at he
      subst he
      exact h c ((mem_preorder n _ c).1 hm)

theorem hasKey_iff (n : PropNode) (k : Str) : n.hasKey k = true ↔ ∃ c, (k, c) ∈ n.kids := by
  unfold hasKey tryGetChild
  induction n.kids with
  | nil => simp [findKid]
  | cons p ks ih =>
    obtain ⟨k', c'⟩ := p
    rw [findKid]
    by_cases h : k' = k
    · subst h; simp
    · rw [if_neg h, ih]
      simp [Ne.symm h]

/-- **C106.** `has_any_key` tells whether one of the keys occurs, and then `get_any_child` gives the first child with the first such key; otherwise
it is an error. -/
theorem C106_any (n : PropNode) (keys : List Str) :
    (hasAnyKey n keys = true ↔ ∃ k ∈ keys, ∃ c, (k, c) ∈ n.kids) ∧
      getAnyChild n keys = match keys.find? n.hasKey with
        | some k => n.getChild k
        | none => .err := by
  induction keys with
  | nil => simp [hasAnyKey, getAnyChild]
  | cons k ks ih =>
    constructor
    · rw [hasAnyKey]
      by_cases h : n.hasKey k = true
      · rw [if_pos h]
        simp only [true_iff]
        exact ⟨k, by simp, (hasKey_iff n k).1 h⟩
      · rw [if_neg h, ih.1]
        constructor
        · rintro ⟨k', h1, h2⟩; exact ⟨k', List.mem_cons_of_mem _ h1, h2⟩
        · rintro ⟨k', h1, h2⟩
          rcases List.mem_cons.1 h1 with rfl | h1
          · exact absurd ((hasKey_iff n k').2 h2) h
          · exact ⟨k', h1, h2⟩
    · rw [getAnyChild]
      unfold hasKey
      cases h : n.tryGetChild k with
      | some c => simp [List.find?_cons, h, getChild, Res.ofOptionErr]
      | none =>
        rw [List.find?_cons]
        simp only [h, Option.isSome_none]
        exact ih.2

/-! ### References -/

/-- One operation; the reference is that which the function returns, and for `add_children` the place of the first child. -/
def step (grow : Nat → Nat → Nat) (v : Vec) : Op → Vec × Ref
  | .add k c => addChild grow v k c
  | .addMany n k val => (addChildren grow v n k val, ⟨(addChildren grow v n k val).gen, v.kids.length⟩)
  | .append other => push grow v other
  | .getOrAdd k => getOrAdd grow v k

def runOps (grow : Nat → Nat → Nat) (v : Vec) : List Op → Vec
  | [] => v
  | o :: os => runOps grow (step grow v o).1 os

theorem push_kids (grow : Nat → Nat → Nat) (v : Vec) (new : Kids) : (push grow v new).1.kids = v.kids ++ new := by
  unfold push room
  simp only
  split <;> rfl

theorem step_kids (grow : Nat → Nat → Nat) (v : Vec) (o : Op) : (step grow v o).1.kids = v.kids ++ o.adds v.kids := by
  cases o with
  | add k c => exact push_kids grow v _
  | addMany n k val => exact push_kids grow v _
  | append other => exact push_kids grow v _
  | getOrAdd k =>
    simp only [step, getOrAdd, Op.adds]
    cases h : v.kids.findIdx? (·.1 = k) with
    | some i =>
      obtain ⟨hi, h1, -⟩ := List.findIdx?_eq_some_iff_getElem.1 h
      simp only [decide_eq_true_eq] at h1
      rw [if_pos ⟨(v.kids[i]).2, by rw [← h1]; exact List.getElem_mem hi⟩]
      simp
    | none =>
      have := List.findIdx?_eq_none_iff.1 h
      rw [if_neg]
      · exact push_kids grow v _
      · rintro ⟨c, hc⟩
        have := this _ hc
        simp at this

/-- **C106.** The children are added behind the last one, in order, by any sequence of these functions; what is there is kept. -/
theorem C106_children (grow : Nat → Nat → Nat) (os : List Op) : ∀ v, (runOps grow v os).kids = after v.kids os := by
  induction os with
  | nil => intro v; rfl
  | cons o os ih => intro v; rw [runOps, ih, step_kids, after]

/-- **C106.** The reference that a function returns refers to the child it is about. -/
theorem C106_returned (grow : Nat → Nat → Nat) (v : Vec) (k : Str) (c : PropNode) :
    deref (addChild grow v k c).1 (addChild grow v k c).2 = .ok (k, c) ∧
      ∃ c', deref (getOrAdd grow v k).1 (getOrAdd grow v k).2 = .ok (k, c') ∧
        (match v.kids.find? (·.1 = k) with
        | some p => p.2 = c'
        | none => c' = PropNode.empty) := by
  have hadd : ∀ c, deref (addChild grow v k c).1 (addChild grow v k c).2 = .ok (k, c) := by
    intro c
    unfold deref addChild
    rw [push_kids]
    unfold push room
    simp only
    split <;> simp_all [Res.ofOptionUb]
  refine ⟨hadd c, ?_⟩
  unfold getOrAdd
  cases h : v.kids.findIdx? (·.1 = k) with
  | some i =>
    obtain ⟨hi, h1, h2⟩ := List.findIdx?_eq_some_iff_getElem.1 h
    simp only [decide_eq_true_eq] at h1
    refine ⟨(v.kids[i]).2, ?_, ?_⟩
    · rw [← h1]
      simp [deref, hi, Res.ofOptionUb]
    · have : v.kids.find? (·.1 = k) = some (v.kids[i]) := by
        rw [List.find?_eq_some_iff_getElem]
        exact ⟨by simpa using h1, i, hi, rfl, fun j hj => by simpa using h2 j hj⟩
      rw [this]
  | none =>
    refine ⟨PropNode.empty, hadd _, ?_⟩
    have := List.findIdx?_eq_none_iff.1 h
    rw [List.find?_eq_none.2 (by intro x hx; simpa using this x hx)]

theorem push_gen (grow : Nat → Nat → Nat) (v : Vec) (new : Kids) (h : v.kids.length + new.length ≤ v.cap) :
    (push grow v new).1.gen = v.gen ∧ (push grow v new).1.cap = v.cap := by
  unfold push room
  simp only
  rw [if_pos h]
  exact ⟨rfl, rfl⟩

theorem step_gen (grow : Nat → Nat → Nat) (v : Vec) (o : Op) (h : v.kids.length + (o.adds v.kids).length ≤ v.cap) :
    (step grow v o).1.gen = v.gen ∧ (step grow v o).1.cap = v.cap := by
  cases o with
  | add k c => exact push_gen grow v _ h
  | addMany n k val => exact push_gen grow v _ h
  | append other => exact push_gen grow v _ h
  | getOrAdd k =>
    simp only [step, getOrAdd]
    cases hf : v.kids.findIdx? (·.1 = k) with
    | some i => exact ⟨rfl, rfl⟩
    | none =>
      have := List.findIdx?_eq_none_iff.1 hf
      refine push_gen grow v _ ?_
      simp only [Op.adds] at h
      rw [if_neg] at h
      · exact h
      · rintro ⟨c, hc⟩
        have := this _ hc
        simp at this

theorem after_length (os : List Op) : ∀ ks, ks.length ≤ (after ks os).length := by
  induction os with
  | nil => intro ks; exact Nat.le_refl _
  | cons o os ih => intro ks; exact Nat.le_trans (by simp) (ih (ks ++ o.adds ks))

/-- **C106.** A reference stays valid, and refers to the same child, while the children fit into the memory: after `reserve( n )`, as long as there are
no more than `n` of them. Without `reserve` this need not be so. -/
theorem C106_references_partial (grow : Nat → Nat → Nat) (os : List Op) : ∀ (v : Vec) (r : Ref) (p : Str × PropNode), deref v r = .ok p →
    (after v.kids os).length ≤ v.cap → deref (runOps grow v os) r = .ok p := by
  induction os with
  | nil => intro v r p h _; exact h
  | cons o os ih =>
    intro v r p h hc
    rw [after] at hc
    have h1 := after_length os (v.kids ++ o.adds v.kids)
    obtain ⟨hg, hcap⟩ := step_gen grow v o (by rw [← List.length_append]; omega)
    rw [runOps]
    refine ih _ r p ?_ (by rw [step_kids, hcap]; exact hc)
    unfold deref at h ⊢
    rw [hg, step_kids]
    split
    · next e =>
      rw [if_pos e] at h
      cases hk : v.kids[r.idx]? with
      | none => rw [hk] at h; cases h
      | some q =>
        rw [hk] at h
        rw [List.getElem?_append_left (List.getElem?_eq_some_iff.1 hk).1, hk]
        exact h
    · next e => rw [if_neg e] at h; cases h

theorem push_fits (grow : Nat → Nat → Nat) (v : Vec) (new : Kids) : (push grow v new).1.kids.length ≤ (push grow v new).1.cap := by
  rw [push_kids, List.length_append]
  unfold push room
  simp only
  split
  · assumption
  · exact Nat.le_max_left _ _

/-- **C106.** The children always fit into the memory of the vector, whatever the library chooses when it grows. -/
theorem C106_fits (grow : Nat → Nat → Nat) (os : List Op) : ∀ v : Vec, v.kids.length ≤ v.cap →
    (runOps grow v os).kids.length ≤ (runOps grow v os).cap := by
  induction os with
  | nil => intro v h; exact h
  | cons o os ih =>
    intro v h
    rw [runOps]
    refine ih _ ?_
    cases o with
    | add k c => exact push_fits grow v _
    | addMany n k val => exact push_fits grow v _
    | append other => exact push_fits grow v _
    | getOrAdd k =>
      simp only [step, getOrAdd]
      cases hf : v.kids.findIdx? (·.1 = k) with
      | some i => exact h
      | none => exact push_fits grow v _

theorem C106_reserve (v : Vec) (n : Nat) : (reserve v n).kids = v.kids ∧ n ≤ (reserve v n).cap ∧ v.cap ≤ (reserve v n).cap := by
  unfold reserve
  split
  · exact ⟨rfl, by assumption, Nat.le_refl _⟩
  · exact ⟨rfl, Nat.le_refl _, by simp only; omega⟩

/-- **C106, violated.** When the memory is full, adding a child makes all references to children invalid. -/
theorem C106_references_violated (grow : Nat → Nat → Nat) (v : Vec) (h : v.kids.length = v.cap) (k : Str) (c : PropNode) (i : Nat) :
    deref (addChild grow v k c).1 ⟨v.gen, i⟩ = .ub := by
  unfold addChild push room deref
  simp only
  rw [if_neg (by simp [h])]

/-- **C106, violated.** The first child of an empty node: its reference is not valid after the second child was added, if memory grows to twice its
size. -/
example (k k' : Str) (c c' : PropNode) :
    let a := addChild (fun cap _ => 2 * cap) ⟨[], 0, 0⟩ k c
    deref a.1 a.2 = .ok (k, c) ∧ deref (addChild (fun cap _ => 2 * cap) a.1 k' c').1 a.2 = .ub := ⟨rfl, rfl⟩

/-- **C106, violated.** A node cannot be appended to itself, nor be assigned a copy of a node below it. -/
theorem C106_alias_violated (grow : Nat → Nat → Nat) (v : Vec) (n : PropNode) (i : Nat) (place : List Nat) :
    append grow v v.kids true = .ub ∧ assignFrom n (i :: place) = .ub := ⟨rfl, rfl⟩

/-- **C106.** `append` and `insert` of other children: where they are put, and that the rest is kept. -/
theorem C106_insert (grow : Nat → Nat → Nat) (v : Vec) (pos : Nat) (new : Kids) (hp : pos ≤ v.kids.length) :
    (∃ r, insert grow v pos new = .ok r ∧ r.1.kids = v.kids.take pos ++ new ++ v.kids.drop pos ∧ (∀ p, new.head? = some p → deref r.1 r.2 = .ok p)) ∧
      ∃ r, append grow v new false = .ok r ∧ r.1.kids = v.kids ++ new ∧ (∀ p, new.head? = some p → deref r.1 r.2 = .ok p) := by
  constructor
  · unfold insert
    rw [if_pos hp]
    refine ⟨_, rfl, rfl, ?_⟩
    intro p hn
    cases new with
    | nil => cases hn
    | cons q new =>
      cases hn
      simp [deref, Nat.min_eq_left hp, Res.ofOptionUb]
  · refine ⟨_, rfl, push_kids grow v new, ?_⟩
    intro p hn
    cases new with
    | nil => cases hn
    | cons q new =>
      cases hn
      unfold deref
      rw [push_kids]
      unfold push room
      simp only
      split <;> simp_all [Res.ofOptionUb]

/-- A tree in which the key occurs on two levels. -/
example : findRec ['b'] (.mk [] [(['a'], .mk [] [(['b'], .leaf ['1'])] false), (['b'], .leaf ['2'])] false) = some (.leaf ['1']) := rfl
example : getAnyChild (.mk [] [(['a'], .leaf ['1']), (['b'], .leaf ['2'])] false) [['x'], ['b'], ['a']] = .ok (.leaf ['2']) := rfl

end Xo.PropMore
