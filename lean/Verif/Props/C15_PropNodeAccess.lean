import Verif.Lemmas.PropNode

/-!
C15: child access laws of `prop_node`. The specification speaks about the ordered list of (key, child) pairs:
`First k c as bs l` says that `l` is `as`, then the first child with key `k`, which is `c`, then `bs`.
-/
namespace Xo

namespace Spec
/-- `(k, c)` is the first entry with key `k` in `l`; `as` comes before it and `bs` after it. -/
def First {K V : Type} (k : K) (c : V) (as bs l : List (K × V)) : Prop :=
  l = as ++ (k, c) :: bs ∧ ∀ p ∈ as, p.1 ≠ k

/-- No entry with key `k`. -/
def Absent {K V : Type} (k : K) (l : List (K × V)) : Prop := ∀ p ∈ l, p.1 ≠ k
end Spec

open Spec PropNode

theorem PropNode.absent_iff {k : Str} {ks : Kids} : Absent k ks ↔ k ∉ keys ks := by
  unfold Absent keys
  rw [List.mem_map]
  constructor
  · rintro h ⟨p, hp, e⟩; exact h p hp e
  · intro h p hp e; exact h ⟨p, hp, e⟩

theorem PropNode.first_or_absent (k : Str) (ks : Kids) : (∃ c as bs, First k c as bs ks) ∨ Absent k ks := by
  cases h : findKid k ks with
  | some c =>
    obtain ⟨as, bs, e, hn⟩ := findKid_split h
    exact Or.inl ⟨c, as, bs, e, absent_iff.2 hn⟩
  | none => exact Or.inr (absent_iff.2 (findKid_none_iff.1 h))

/-- `get_child( key )` returns the first child with that key and throws exactly if there is none. -/
theorem C15_get_child (n : PropNode) (k : Str) :
    (∀ c, n.getChild k = .ok c ↔ ∃ as bs, First k c as bs n.kids) ∧
    (n.getChild k = .err ↔ Absent k n.kids) ∧ n.getChild k ≠ .ub := by
  unfold getChild tryGetChild
  refine ⟨?_, ?_, ?_⟩
  · intro c
    constructor
    · intro h
      cases hf : findKid k n.kids with
      | none => rw [hf] at h; cases h
      | some c' =>
        rw [hf] at h; cases h
        obtain ⟨as, bs, e, hn⟩ := findKid_split hf
        exact ⟨as, bs, e, absent_iff.2 hn⟩
    · rintro ⟨as, bs, e, hn⟩
      rw [e, findKid_append_hit (absent_iff.1 hn)]; rfl
  · rw [absent_iff, ← findKid_none_iff]
    cases findKid k n.kids <;> simp
  · cases findKid k n.kids <;> simp

/-- `get_child( index )` returns the child at that position and throws exactly beyond the end. -/
theorem C15_get_child_index (n : PropNode) (i : Nat) :
    (∀ c, n.getChildIdx i = .ok c ↔ ∃ k, n.kids[i]? = some (k, c)) ∧
    (n.getChildIdx i = .err ↔ n.kids.length ≤ i) ∧ n.getChildIdx i ≠ .ub := by
  unfold getChildIdx
  by_cases h : i ≥ n.kids.length
  · simp only [if_pos h, List.getElem?_eq_none h]; simp; exact h
  · simp only [if_neg h, List.getElem?_eq_getElem (by omega : i < n.kids.length)]
    refine ⟨?_, by simp; omega, by simp⟩
    intro c
    simp only [Option.map_some, Res.ofOptionUb_some, Res.ok.injEq, Option.some.injEq]
    constructor
    · intro e; exact ⟨n.kids[i].1, by rw [← e]⟩
    · rintro ⟨k, e⟩; rw [e]

/-- `set( key, v )`: an existing first child is replaced in place, otherwise the child is appended; the node's own
value and flag stay. -/
theorem C15_set (n : PropNode) (k : Str) (v : PropNode) :
    (n.set k v).value = n.value ∧ (n.set k v).flag = n.flag ∧
    (∀ c as bs, First k c as bs n.kids → (n.set k v).kids = as ++ (k, v) :: bs) ∧
    (Absent k n.kids → (n.set k v).kids = n.kids ++ [(k, v)]) := by
  unfold PropNode.set updOrAdd tryGetChild
  cases h : findKid k n.kids with
  | some c =>
    refine ⟨rfl, rfl, ?_, ?_⟩
    · rintro c as bs ⟨e, hn⟩
      simp only [kids_withKids]
      rw [e, updKid_append_hit (absent_iff.1 hn)]
    · intro ha; rw [findKid_none_iff.2 (absent_iff.1 ha)] at h; cases h
  | none =>
    refine ⟨rfl, rfl, ?_, fun _ => rfl⟩
    rintro c as bs ⟨e, hn⟩
    rw [e, findKid_append_hit (absent_iff.1 hn)] at h; cases h

/-- **C15.** After `set( key, v )` the key reads `v` and every other key reads as before. -/
theorem C15_set_get (n : PropNode) (k : Str) (v : PropNode) :
    (n.set k v).getChild k = .ok v ∧ ∀ k2, k2 ≠ k → (n.set k v).getChild k2 = n.getChild k2 := by
  unfold PropNode.set updOrAdd getChild
  cases h : n.tryGetChild k with
  | some c =>
    unfold tryGetChild at h
    refine ⟨?_, fun k2 hk => ?_⟩
    · simp only [tryGetChild, kids_withKids, findKid_updKid_self, h]; rfl
    · simp only [tryGetChild, kids_withKids, findKid_updKid_ne hk]
  | none =>
    unfold tryGetChild at h
    refine ⟨?_, fun k2 hk => ?_⟩
    · simp only [tryGetChild, addChild, kids_withKids, findKid_append, h]; simp [findKid]
    · simp only [tryGetChild, addChild, kids_withKids, findKid_append]
      simp [findKid, hk.symm]

/-- `add_child` appends: all existing children keep their position, and the first child of each key that was there
stays the one that is found. -/
theorem C15_add_child (n : PropNode) (k : Str) (c : PropNode) :
    (n.addChild k c).kids = n.kids ++ [(k, c)] ∧
    (∀ i, i < n.kids.length → (n.addChild k c).getChildIdx i = n.getChildIdx i) ∧
    (n.addChild k c).getChildIdx n.kids.length = .ok c ∧
    (∀ k2, ¬ Absent k2 n.kids → (n.addChild k c).getChild k2 = n.getChild k2) := by
  refine ⟨rfl, ?_, ?_, ?_⟩
  · intro i hi
    simp only [getChildIdx, addChild, kids_withKids, List.length_append, List.length_singleton]
    rw [if_neg (by omega), if_neg (by omega), List.getElem?_append_left hi]
  · simp [getChildIdx, addChild]
  · intro k2 hk
    have : findKid k2 n.kids ≠ none := fun h => hk (absent_iff.2 (findKid_none_iff.1 h))
    obtain ⟨x, hx⟩ := Option.ne_none_iff_exists'.1 this
    simp [getChild, tryGetChild, addChild, findKid_append, hx]

/-- **C15.** `erase( key )` removes exactly the first child with that key and keeps the rest in order; it reports
whether there was one. -/
theorem C15_erase (n : PropNode) (k : Str) :
    (∀ c as bs, First k c as bs n.kids → (n.erase k).1 = true ∧ (n.erase k).2.kids = as ++ bs) ∧
    (Absent k n.kids → (n.erase k).1 = false ∧ (n.erase k).2.kids = n.kids) ∧
    (n.erase k).2.value = n.value := by
  unfold PropNode.erase
  refine ⟨?_, ?_, rfl⟩
  · rintro c as bs ⟨e, hn⟩
    rw [e, eraseKid_append_hit (absent_iff.1 hn)]; exact ⟨rfl, rfl⟩
  · intro ha
    rw [eraseKid_miss (absent_iff.1 ha)]; exact ⟨rfl, rfl⟩

/-- `count_key` counts the children with that key. -/
theorem C15_count_key (n : PropNode) (k : Str) : n.countKey k = n.kids.countP (fun p => p.1 = k) := by
  have gen : ∀ (ks : Kids) c, ks.foldl (fun c p => if p.1 = k then c + 1 else c) c =
      c + ks.countP (fun p => p.1 = k) := by
    intro ks
    induction ks with
    | nil => intro c; rfl
    | cons p ks ih =>
      intro c
      rw [List.foldl_cons, ih, List.countP_cons]
      by_cases h : p.1 = k <;> simp [h]
      omega
  unfold countKey
  rw [gen, Nat.zero_add]

namespace Spec
/-- Changing calls on one node. -/
inductive NodeOp (V : Type) where
  | set (k : Str) (v : V)
  | add (k : Str) (v : V)
  | erase (k : Str)

/-- The specification of a history: at every step the list of children changes as said above. -/
inductive NodeHist {V : Type} : List (Str × V) → List (NodeOp V) → List (Str × V) → Prop where
  | nil (l) : NodeHist l [] l
  | setHit {l k v c as bs ops l'} : First k c as bs l → NodeHist (as ++ (k, v) :: bs) ops l' →
      NodeHist l (.set k v :: ops) l'
  | setMiss {l k v ops l'} : Absent k l → NodeHist (l ++ [(k, v)]) ops l' → NodeHist l (.set k v :: ops) l'
  | add {l k v ops l'} : NodeHist (l ++ [(k, v)]) ops l' → NodeHist l (.add k v :: ops) l'
  | eraseHit {l k c as bs ops l'} : First k c as bs l → NodeHist (as ++ bs) ops l' → NodeHist l (.erase k :: ops) l'
  | eraseMiss {l k ops l'} : Absent k l → NodeHist l ops l' → NodeHist l (.erase k :: ops) l'
end Spec

/-- The node performs a call. -/
def PropNode.step (n : PropNode) : NodeOp PropNode → PropNode
  | .set k v => n.set k v
  | .add k v => n.addChild k v
  | .erase k => (n.erase k).2

/-- **C15.** Any history of `set`, `add_child` and `erase` follows the specification. -/
theorem C15_history (n : PropNode) (ops : List (NodeOp PropNode)) :
    NodeHist n.kids ops (ops.foldl PropNode.step n).kids := by
  induction ops generalizing n with
  | nil => exact .nil _
  | cons op ops ih =>
    rw [List.foldl_cons]
    have := ih (n.step op)
    cases op with
    | set k v =>
      rcases first_or_absent k n.kids with ⟨c, as, bs, h⟩ | h
      · rw [show (n.step (.set k v)).kids = as ++ (k, v) :: bs from (C15_set n k v).2.2.1 c as bs h] at this
        exact .setHit h this
      · rw [show (n.step (.set k v)).kids = n.kids ++ [(k, v)] from (C15_set n k v).2.2.2 h] at this
        exact .setMiss h this
    | add k v => exact .add this
    | erase k =>
      rcases first_or_absent k n.kids with ⟨c, as, bs, h⟩ | h
      · rw [show (n.step (.erase k)).kids = as ++ bs from ((C15_erase n k).1 c as bs h).2] at this
        exact .eraseHit h this
      · rw [show (n.step (.erase k)).kids = n.kids from ((C15_erase n k).2.1 h).2] at this
        exact .eraseMiss h this

/-- A node with a repeated key: the first child is the one found, replaced and erased. -/
example : First ['a'] (leaf ['1']) [(['b'], leaf [])] [(['a'], leaf ['2'])]
    (PropNode.mk [] [(['b'], leaf []), (['a'], leaf ['1']), (['a'], leaf ['2'])] false).kids := by
  refine ⟨rfl, ?_⟩
  intro p hp; simp at hp; subst hp; decide

end Xo
