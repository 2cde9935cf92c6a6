import Verif.Lemmas.PropNode
import Mathlib.Data.List.Nodup

/-!
C18: which values have been read. Nodes are named by their position: the list of child indices that leads to them.
-/
namespace Xo

namespace PropNode
/-- Marking, through a reference, the node at a position as accessed. This is the effect of `get_str` / `get< T >`
(prop_node.h:131, 280-282), of iterating (prop_node.h:213-226) and of `get_key` (prop_node.cpp:163-168) on that node. -/
def accessAt : PropNode → List Nat → PropNode
  | n, [] => n.access
  | n, i :: p => n.updAt i (fun c => accessAt c p)

/-- `get_str( key )` (prop_node.h:134): the value of the first child with that key, which is marked. -/
def readKey (n : PropNode) (k : Str) : Res (Str × PropNode) :=
  match n.getChild k with
  | .ok c => .ok (c.value, n.withKids (updKid k (fun c => c.access) n.kids))
  | .err => .err
  | .ub => .ub
end PropNode

namespace Spec
/-- The node at a position. -/
def nodeAt : PropNode → List Nat → Option PropNode
  | n, [] => some n
  | n, i :: p => match n.kids[i]? with
    | some q => nodeAt q.2 p
    | none => none

mutual
/-- All positions in a tree. -/
def positions : PropNode → List (List Nat)
  | .mk _ ks _ => [] :: positionsFrom 0 ks
def positionsFrom (i : Nat) : List (Str × PropNode) → List (List Nat)
  | [] => []
  | (_, c) :: cs => (positions c).map (i :: ·) ++ positionsFrom (i + 1) cs
end

/-- The node at this position holds a value and is not marked as accessed. -/
def unread (n : PropNode) (p : List Nat) : Bool :=
  match nodeAt n p with
  | some m => !m.value.isEmpty && !m.flag
  | none => false
end Spec

open Spec PropNode

theorem Spec.mem_positionsFrom {ks : Kids} (h : ∀ k c, (k, c) ∈ ks → ∀ p, p ∈ positions c ↔ (nodeAt c p).isSome) :
    ∀ i p, p ∈ positionsFrom i ks ↔ ∃ j q x, p = (i + j) :: q ∧ ks[j]? = some x ∧ (nodeAt x.2 q).isSome := by
  induction ks with
  | nil => intro i p; simp [positionsFrom]
  | cons y ks ih =>
    obtain ⟨k, c⟩ := y
    intro i p
    have ih' := ih (fun k' c' hm => h k' c' (by simp [hm])) (i + 1) p
    rw [positionsFrom, List.mem_append, ih', List.mem_map]
    constructor
    · rintro (⟨q, hq, rfl⟩ | ⟨j, q, x, rfl, hx, hs⟩)
      · exact ⟨0, q, (k, c), by simp, by simp, (h k c (by simp) q).1 hq⟩
      · exact ⟨j + 1, q, x, by congr 1; omega, by simpa using hx, hs⟩
    · rintro ⟨j, q, x, rfl, hx, hs⟩
      cases j with
      | zero =>
        simp only [List.getElem?_cons_zero, Option.some.injEq] at hx
        subst hx
        exact Or.inl ⟨q, (h k c (by simp) q).2 hs, by simp⟩
      | succ j => exact Or.inr ⟨j, q, x, by congr 1; omega, by simpa using hx, hs⟩

/-- `positions` lists exactly the positions where there is a node. -/
theorem C18_positions_complete (n : PropNode) : ∀ p, p ∈ positions n ↔ (nodeAt n p).isSome := by
  induction n using PropNode.ind with
  | h v ks a ih =>
    intro p
    rw [positions, List.mem_cons, mem_positionsFrom ih]
    cases p with
    | nil => simp [nodeAt]
    | cons i q =>
      simp only [nodeAt, kids_mk]
      constructor
      · rintro (h | ⟨j, q', x, e, hx, hs⟩)
        · cases h
        · simp only [Nat.zero_add, List.cons.injEq] at e
          obtain ⟨rfl, rfl⟩ := e
          rw [hx]; exact hs
      · intro h
        cases hx : ks[i]? with
        | none => rw [hx] at h; simp at h
        | some x => rw [hx] at h; exact Or.inr ⟨i, q, x, by simp, hx, h⟩

/-- `positions` lists every position once. -/
theorem C18_positions_once (n : PropNode) : (positions n).Nodup := by
  induction n using PropNode.ind with
  | h v ks a ih =>
    rw [positions, List.nodup_cons]
    have aux : ∀ (ks : Kids), (∀ k c, (k, c) ∈ ks → (positions c).Nodup) →
        ∀ i, (positionsFrom i ks).Nodup ∧ ∀ p ∈ positionsFrom i ks, ∃ j q, p = j :: q ∧ i ≤ j := by
      intro ks
      induction ks with
      | nil => intro _ i; simp [positionsFrom]
      | cons y ks ihk =>
        obtain ⟨k, c⟩ := y
        intro h i
        obtain ⟨h1, h2⟩ := ihk (fun k' c' hm => h k' c' (by simp [hm])) (i + 1)
        rw [positionsFrom]
        refine ⟨?_, ?_⟩
        · rw [List.nodup_append']
          refine ⟨(h k c (by simp)).map (fun _ _ e => by simpa using e), h1, ?_⟩
          intro p hp hp2
          obtain ⟨q, _, rfl⟩ := List.mem_map.1 hp
          obtain ⟨j, q', e, hj⟩ := h2 _ hp2
          simp only [List.cons.injEq] at e
          omega
        · intro p hp
          rcases List.mem_append.1 hp with hp | hp
          · obtain ⟨q, _, rfl⟩ := List.mem_map.1 hp
            exact ⟨i, q, rfl, Nat.le_refl _⟩
          · obtain ⟨j, q', e, hj⟩ := h2 _ hp
            exact ⟨j, q', e, by omega⟩
    refine ⟨?_, (aux ks ih 0).1⟩
    intro h
    obtain ⟨j, q, e, _⟩ := (aux ks ih 0).2 _ h
    cases e

/-- **C18.** `count_unaccessed` is the number of positions whose node holds a value and is not marked. -/
theorem C18_count (n : PropNode) : n.countUnaccessed = (positions n).countP (unread n) := by
  induction n using PropNode.ind with
  | h v ks a ih =>
    rw [countUnaccessed, positions, List.countP_cons]
    have aux : ∀ (cs pre : Kids), pre ++ cs = ks →
        (positionsFrom pre.length cs).countP (unread (.mk v ks a)) = countUnaccessedKids cs := by
      intro cs
      induction cs with
      | nil => intro pre _; simp [positionsFrom, countUnaccessedKids]
      | cons y cs ihk =>
        obtain ⟨k, c⟩ := y
        intro pre e
        rw [positionsFrom, countUnaccessedKids, List.countP_append, List.countP_map]
        have e' := ihk (pre ++ [(k, c)]) (by rw [List.append_assoc]; exact e)
        rw [List.length_append, List.length_singleton] at e'
        rw [e', ih k c (by rw [← e]; simp)]
        congr 1
        apply List.countP_congr
        intro p _
        have : ks[pre.length]? = some (k, c) := by rw [← e]; simp
        simp only [Function.comp, unread, nodeAt, kids_mk, this]
    rw [← aux ks [] rfl, Nat.add_comm, List.length_nil]
    congr 1
    cases v <;> cases a <;> simp [isAccessed, hasValue, unread, nodeAt]

/-- **C18.** After `set_accessed_recursively( true )` nothing is unaccessed. -/
theorem C18_set_accessed (n : PropNode) : (n.setAccessedRec true).countUnaccessed = 0 := by
  induction n using PropNode.ind with
  | h v ks a ih =>
    rw [setAccessedRec, countUnaccessed]
    have aux : ∀ cs : Kids, (∀ k c, (k, c) ∈ cs → (c.setAccessedRec true).countUnaccessed = 0) →
        countUnaccessedKids (setAccessedRecKids true cs) = 0 := by
      intro cs
      induction cs with
      | nil => intro _; rfl
      | cons y cs ihk =>
        obtain ⟨k, c⟩ := y
        intro h
        rw [setAccessedRecKids, countUnaccessedKids, h k c (by simp), ihk (fun k' c' hm => h k' c' (by simp [hm]))]
    rw [aux ks ih]
    simp [isAccessed]

/-- Marking a node marks exactly that node, and changes no value and no other mark. -/
theorem C18_access_marks_only (n : PropNode) (p q : List Nat) :
    (nodeAt (n.accessAt p) q).map (fun m => (m.value, m.kids.map Prod.fst, m.flag)) =
      (nodeAt n q).map (fun m => (m.value, m.kids.map Prod.fst, m.flag || decide (q = p))) := by
  have keysEq : ∀ (n : PropNode) (p : List Nat), (n.accessAt p).kids.map Prod.fst = n.kids.map Prod.fst := by
    intro n p
    cases p with
    | nil => rfl
    | cons i p =>
      simp only [accessAt, updAt, kids_withKids]
      apply List.ext_getElem?
      intro j
      rw [List.getElem?_map, List.getElem?_map, List.getElem?_modify]
      split <;> cases n.kids[j]? <;> rfl
  induction p generalizing n q with
  | nil =>
    cases q with
    | nil => simp [accessAt, nodeAt, access]
    | cons j q => simp [accessAt, nodeAt, access]
  | cons i p ih =>
    cases q with
    | nil =>
      have := keysEq n (i :: p)
      simp only [nodeAt, Option.map_some, this]
      simp [accessAt, updAt]
    | cons j q =>
      simp only [accessAt, updAt, nodeAt, kids_withKids, List.getElem?_modify]
      by_cases h : i = j
      · subst h
        simp only [if_true]
        cases n.kids[i]? with
        | none => rfl
        | some x =>
          change (nodeAt (x.2.accessAt p) q).map _ = _
          rw [ih]
          simp
      · have h' : ¬ (j :: q = i :: p) := by rintro ⟨⟩; exact h rfl
        simp only [if_neg h, h', decide_false, Bool.or_false]
        cases n.kids[j]? <;> rfl

/-- **C18.** After any history of reads, a value counts as unaccessed exactly if it did before and its position is not
among those read. -/
theorem C18_read_history (n : PropNode) (reads : List (List Nat)) :
    (reads.foldl accessAt n).countUnaccessed = (positions n).countP (fun p => unread n p && !reads.contains p) := by
  have key : ∀ (reads : List (List Nat)) (n : PropNode) (q : List Nat),
      (nodeAt (reads.foldl accessAt n) q).map (fun m => (m.value, m.flag)) =
        (nodeAt n q).map (fun m => (m.value, m.flag || reads.contains q)) := by
    intro reads
    induction reads with
    | nil => intro n q; simp
    | cons p reads ih =>
      intro n q
      rw [List.foldl_cons, ih]
      have h := C18_access_marks_only n p q
      have h2 := congrArg (Option.map (fun t : Str × List Str × Bool => (t.1, t.2.2 || reads.contains q))) h
      simp only [Option.map_map, Function.comp_def] at h2
      rw [h2]
      congr 1
      funext m
      rw [List.contains_cons, Bool.or_assoc]
      congr 3
      by_cases e : q = p <;> simp [e]
  have perm : (positions (reads.foldl accessAt n)).Perm (positions n) := by
    rw [List.perm_ext_iff_of_nodup (C18_positions_once _) (C18_positions_once _)]
    intro q
    rw [C18_positions_complete, C18_positions_complete]
    have := key reads n q
    cases h1 : nodeAt (reads.foldl accessAt n) q <;> cases h2 : nodeAt n q <;> simp [h1, h2] at this ⊢
  rw [C18_count, perm.countP_eq]
  apply List.countP_congr
  intro q _
  have := key reads n q
  unfold unread
  cases h1 : nodeAt (reads.foldl accessAt n) q <;> cases h2 : nodeAt n q <;> simp [h1, h2] at this ⊢
  rw [this.1, this.2]
  simp only [Bool.or_eq_false_iff, List.contains_eq_mem, decide_eq_false_iff_not]
  tauto

/-- **C18.** `get_str( key )` throws if there is no such child; otherwise it returns the value of the first child
with that key and marks exactly that child. -/
theorem C18_read_key (n : PropNode) (k : Str) :
    (k ∉ n.kids.map Prod.fst ∧ n.readKey k = .err) ∨
    ∃ i c, n.kids[i]? = some (k, c) ∧ (∀ j < i, ∀ x, n.kids[j]? = some x → x.1 ≠ k) ∧
      n.readKey k = .ok (c.value, n.accessAt [i]) := by
  unfold readKey getChild tryGetChild
  cases h : findKid k n.kids with
  | none => exact Or.inl ⟨findKid_none_iff.1 h, rfl⟩
  | some c =>
    right
    obtain ⟨as, bs, e, hn⟩ := findKid_split h
    refine ⟨as.length, c, by rw [e]; simp, ?_, ?_⟩
    · intro j hj x hx hk
      rw [e, List.getElem?_append_left hj] at hx
      exact hn (List.mem_map.2 ⟨x, List.mem_of_getElem? hx, hk⟩)
    · simp only [Res.ofOptionErr, accessAt, updAt]
      rw [e, updKid_append_hit hn]
      have hm : ∀ as : Kids, (as ++ (k, c) :: bs).modify as.length (fun p => (p.1, p.2.access)) =
          as ++ (k, c.access) :: bs := by
        intro as
        induction as with
        | nil => rfl
        | cons a as ih => simpa using ih
      rw [hm]

/-- A tree with three values, of which one is read. -/
example :
    let n := PropNode.mk [] [("a".toList, leaf "1".toList), ("b".toList, .mk "2".toList [([], leaf "3".toList)] false)] false
    n.countUnaccessed = 3 ∧ ([[1], [1]].foldl accessAt n).countUnaccessed = 2 := by decide +kernel

end Xo
