import Verif.Lemmas.PropNode

/-!
C17: `merge`. The specification looks at a tree as a partial function from paths (lists of keys) to values:
`valueAt n path` follows the first child with each key. `Uniq n` says that no node of `n` repeats a key.
-/
namespace Xo

namespace Spec
/-- The value stored along a path of keys, if the path exists. -/
def valueAt : PropNode → List Str → Option Str
  | n, [] => some n.value
  | n, k :: p => match n.kids.find? (fun q => q.1 = k) with
    | some q => valueAt q.2 p
    | none => none

/-- No node in the tree has two children with the same key. -/
inductive Uniq : PropNode → Prop
  | mk (v : Str) (ks : List (Str × PropNode)) (a : Bool) (h : (ks.map Prod.fst).Nodup)
      (hc : ∀ k c, (k, c) ∈ ks → Uniq c) : Uniq (.mk v ks a)

/-- How two optional values combine: the other one wins exactly if `overwrite`. -/
def mergeVal (overwrite : Bool) : Option Str → Option Str → Option Str
  | some x, some y => some (if overwrite then y else x)
  | some x, none => some x
  | none, y => y
end Spec

open Spec PropNode

namespace PropNode

theorem find?_kid (k : Str) (ks : Kids) : (ks.find? (fun q => q.1 = k)).map Prod.snd = findKid k ks := by
  induction ks with
  | nil => rfl
  | cons p ks ih =>
    obtain ⟨k', c⟩ := p
    by_cases h : k' = k
    · simp [findKid, h]
    · simp [findKid, h, ih]

theorem valueAt_cons (n : PropNode) (k : Str) (p : List Str) :
    valueAt n (k :: p) = (findKid k n.kids).bind fun c => valueAt c p := by
  rw [← find?_kid, valueAt]
  cases n.kids.find? (fun q => q.1 = k) <;> rfl

theorem merge_mk (ow : Bool) (n : PropNode) (v2 : Str) (ks2 : Kids) (a2 : Bool) :
    merge ow n (.mk v2 ks2 a2) = .mk (if ow then v2 else n.value) (mergeKids ow n.kids ks2) n.flag := by
  rw [merge]

theorem merge_eq (ow : Bool) (n m : PropNode) :
    merge ow n m = .mk (if ow then m.value else n.value) (mergeKids ow n.kids m.kids) n.flag := by
  cases m; exact merge_mk ..

theorem mergeKids_nil (ow : Bool) (ks : Kids) : mergeKids ow ks [] = ks := by rw [mergeKids]

theorem mergeKids_cons (ow : Bool) (ks : Kids) (k : Str) (c : PropNode) (cs : Kids) :
    mergeKids ow ks ((k, c) :: cs) = mergeKids ow (match findKid k ks with
      | some _ => updKid k (fun x => merge ow x c) ks
      | none => ks ++ [(k, c)]) cs := by rw [mergeKids]; rfl

/-- Which child is found after the children `cs`, with unique keys, have been merged into `ks`. -/
theorem findKid_mergeKids (ow : Bool) (k : Str) : ∀ (cs ks : Kids), (keys cs).Nodup →
    findKid k (mergeKids ow ks cs) = match findKid k ks, findKid k cs with
      | some x, some c => some (merge ow x c)
      | some x, none => some x
      | none, o => o
  | [], ks, _ => by
    rw [mergeKids_nil]
    simp only [findKid]
    cases findKid k ks <;> rfl
  | (k0, c) :: cs, ks, h => by
    simp only [keys, List.map_cons, List.nodup_cons] at h
    rw [mergeKids_cons, findKid_mergeKids ow k cs _ h.2]
    by_cases hk : k0 = k
    · subst hk
      have hn : findKid k0 cs = none := findKid_none_iff.2 h.1
      simp only [findKid, if_true, hn]
      cases hf : findKid k0 ks with
      | some x => simp only; rw [findKid_updKid_self, hf]; rfl
      | none =>
        simp only
        rw [findKid_append, hf]
        simp [findKid]
    · simp only [findKid, hk, if_false]
      have : findKid k (match findKid k0 ks with
          | some _ => updKid k0 (fun x => merge ow x c) ks
          | none => ks ++ [(k0, c)]) = findKid k ks := by
        cases hf : findKid k0 ks with
        | some x => simp only; exact findKid_updKid_ne (fun e => hk e.symm) _ _
        | none =>
          simp only
          rw [findKid_append]
          simp [findKid, hk]
      rw [this]

theorem updKid_id {k : Str} {f : PropNode → PropNode} : ∀ {ks : Kids} {x : PropNode}, findKid k ks = some x → f x = x →
    updKid k f ks = ks
  | [], _, h, _ => by simp [findKid] at h
  | (k', c) :: cs, x, h, hf => by
    simp only [findKid] at h
    simp only [updKid]
    split
    · next e => rw [if_pos e] at h; cases h; rw [hf]
    · next e => rw [if_neg e] at h; rw [updKid_id h hf]

/-- Merging children that are there already, and change nothing, changes nothing. -/
theorem mergeKids_noop (ow : Bool) : ∀ (cs ks : Kids),
    (∀ k c, (k, c) ∈ cs → ∃ x, findKid k ks = some x ∧ merge ow x c = x) → mergeKids ow ks cs = ks
  | [], ks, _ => mergeKids_nil ow ks
  | (k, c) :: cs, ks, h => by
    obtain ⟨x, hx, hm⟩ := h k c (by simp)
    rw [mergeKids_cons, hx]
    simp only
    rw [updKid_id (f := fun x => merge ow x c) hx hm]
    exact mergeKids_noop ow cs ks (fun k' c' hc => h k' c' (by simp [hc]))

theorem findKid_of_mem {k : Str} {c : PropNode} {ks : Kids} (hn : (keys ks).Nodup) (h : (k, c) ∈ ks) :
    findKid k ks = some c := by
  induction ks with
  | nil => simp at h
  | cons p ks ih =>
    obtain ⟨k', c'⟩ := p
    simp only [keys, List.map_cons, List.nodup_cons] at hn
    rcases List.mem_cons.1 h with e | h'
    · cases e; simp [findKid]
    · have : k' ≠ k := by
        rintro rfl
        exact hn.1 (List.mem_map.2 ⟨_, h', rfl⟩)
      simp only [findKid, this, if_false]
      exact ih hn.2 h'

theorem mem_of_findKid {k : Str} {c : PropNode} {ks : Kids} (h : findKid k ks = some c) : (k, c) ∈ ks := by
  obtain ⟨as, bs, e, _⟩ := findKid_split h
  rw [e]; simp

theorem keys_mergeKids (ow : Bool) : ∀ (cs ks : Kids), (keys cs).Nodup →
    keys (mergeKids ow ks cs) = keys ks ++ (keys cs).filter (fun k => k ∉ keys ks)
  | [], ks, _ => by rw [mergeKids_nil]; simp [keys]
  | (k, c) :: cs, ks, h => by
    simp only [keys, List.map_cons, List.nodup_cons] at h
    rw [mergeKids_cons, keys_mergeKids ow cs _ h.2]
    cases hf : findKid k ks with
    | some x =>
      have hm : k ∈ keys ks := by
        by_contra hn
        rw [findKid_none_iff.2 hn] at hf; cases hf
      simp only [keys_updKid]
      have : keys ((k, c) :: cs) = k :: keys cs := rfl
      rw [this, List.filter_cons]
      simp [hm]
    | none =>
      have hm := findKid_none_iff.1 hf
      have e1 : keys (ks ++ [(k, c)]) = keys ks ++ [k] := by simp [keys]
      have e2 : keys ((k, c) :: cs) = k :: keys cs := rfl
      simp only [e1, e2, List.filter_cons, hm, not_false_eq_true, decide_true, if_true, List.append_assoc,
        List.singleton_append]
      congr 2
      apply List.filter_congr
      intro x hx
      have : x ≠ k := by rintro rfl; exact h.1 hx
      simp [this]

end PropNode

/-- **C17 (partial: the merged-in tree has unique keys).** Along every path, `merge` gives the value of the tree that
has the path; if both have it, the value of `other` exactly if `overwrite`. -/
theorem C17_values_partial (ow : Bool) (a b : PropNode) (hb : Uniq b) (path : List Str) :
    valueAt (merge ow a b) path = mergeVal ow (valueAt a path) (valueAt b path) := by
  induction path generalizing a b with
  | nil => rw [merge_eq]; simp [valueAt, mergeVal]
  | cons k p ih =>
    obtain ⟨v, ks, fl, hn, hc⟩ := hb
    rw [merge_mk, valueAt_cons, valueAt_cons, valueAt_cons, kids_mk, kids_mk, findKid_mergeKids ow k ks a.kids hn]
    cases h1 : findKid k a.kids with
    | none =>
      simp only [Option.bind_none]
      cases findKid k ks with
      | none => rfl
      | some c => simp only [Option.bind_some]; cases valueAt c p <;> rfl
    | some x =>
      cases h2 : findKid k ks with
      | none =>
        simp only [Option.bind_some, Option.bind_none]
        cases valueAt x p <;> rfl
      | some c =>
        simp only [Option.bind_some]
        exact ih x c (hc k c (mem_of_findKid h2))

/-- **C17 (partial: the merged-in tree has unique keys).** The children of the target stay, in order, followed by those of
`other` whose key was missing, in order, unchanged. -/
theorem C17_children_partial (ow : Bool) (a b : PropNode) (hb : Uniq b) :
    ((merge ow a b).kids.map Prod.fst =
      a.kids.map Prod.fst ++ (b.kids.map Prod.fst).filter (fun k => k ∉ a.kids.map Prod.fst)) ∧
    ∀ k c, (k, c) ∈ b.kids → k ∉ a.kids.map Prod.fst → (k, c) ∈ (merge ow a b).kids := by
  obtain ⟨v, ks, fl, hn, hc⟩ := hb
  rw [merge_mk]
  refine ⟨keys_mergeKids ow ks a.kids hn, ?_⟩
  intro k c hm hk
  apply mem_of_findKid
  rw [kids_mk, findKid_mergeKids ow k ks a.kids hn, findKid_none_iff.2 hk, findKid_of_mem hn hm]

/-- **C17.** Merging a tree with unique keys into itself changes nothing. -/
theorem C17_self_merge (ow : Bool) (a : PropNode) (h : Uniq a) : merge ow a a = a := by
  induction h with
  | mk v ks fl hn hc ih =>
    rw [merge_mk, kids_mk, value_mk, flag_mk, mergeKids_noop ow ks ks
      (fun k c hm => ⟨c, findKid_of_mem hn hm, ih k c hm⟩)]
    simp

/-- **C17.** Merging the same tree with unique keys a second time changes nothing more. -/
theorem C17_merge_twice (ow : Bool) (a b : PropNode) (hb : Uniq b) :
    merge ow (merge ow a b) b = merge ow a b := by
  induction hb generalizing a with
  | mk v ks fl hn hc ih =>
    rw [merge_mk ow a, merge_mk, kids_mk, value_mk, flag_mk]
    rw [mergeKids_noop ow ks (mergeKids ow a.kids ks) ?_]
    · cases ow <;> simp
    · intro k c hm
      rw [findKid_mergeKids ow k ks a.kids hn, findKid_of_mem hn hm]
      cases findKid k a.kids with
      | some x => exact ⟨_, rfl, ih k c hm x⟩
      | none => exact ⟨c, rfl, C17_self_merge ow c (hc k c hm)⟩

/-- **C17 is violated** for repeated keys, which arrays always have: merging an array of two values into an empty node
gives a single child. -/
theorem C17_array_violated :
    (merge false .empty (.mk [] [([], leaf "1".toList), ([], leaf "2".toList)] false)).kids.map (fun p => p.2.value) =
      ["1".toList] := by decide +kernel

/-- Merging adds a missing key, keeps or overwrites a common one. -/
example :
    let a := PropNode.mk [] [("x".toList, leaf "1".toList)] false
    let b := PropNode.mk [] [("y".toList, leaf "2".toList), ("x".toList, leaf "3".toList)] false
    Uniq b ∧ valueAt (merge true a b) ["x".toList] = some "3".toList ∧
      valueAt (merge false a b) ["x".toList] = some "1".toList ∧
      valueAt (merge false a b) ["y".toList] = some "2".toList := by
  refine ⟨?_, by decide +kernel, by decide +kernel, by decide +kernel⟩
  refine .mk _ _ _ (by decide +kernel) ?_
  intro k c h
  have hl : ∀ v, Uniq (leaf v) := fun v => .mk v [] false (by simp) (by simp)
  simp only [List.mem_cons, Prod.mk.injEq, List.not_mem_nil, or_false] at h
  rcases h with ⟨_, rfl⟩ | ⟨_, rfl⟩ <;> exact hl _

end Xo
