import Verif.Lemmas.PropNode

/-!
C16: path queries. A path is a first key and further keys, none containing the delimiter; every query string is such
a path (`C16_every_query_is_a_path`). Reading back and independence hold for every delimiter. `erase_query` resolves
the leading keys with the delimiter `'.'` whatever delimiter it is given, and never erases by `#index`.
-/
namespace Xo

namespace Spec
/-- The query string of a path. -/
def pathStr (d : Char) : Str → List Str → Str
  | k, [] => k
  | k, k' :: ks => k ++ d :: pathStr d k' ks

/-- Keys without the delimiter. -/
def PathKeys (d : Char) (k : Str) (ks : List Str) : Prop := d ∉ k ∧ ∀ x ∈ ks, d ∉ x

/-- A key that is not of the form `#...`, which may denote a position. -/
def PlainKey (k : Str) : Prop := k.head? ≠ some '#'
end Spec

open Spec PropNode

namespace PropNode

theorem splitFirst_none {d : Char} {k : Str} (h : d ∉ k) : splitFirst d k = (k, none) := by
  induction k with
  | nil => rfl
  | cons c cs ih =>
    simp only [List.mem_cons, not_or] at h
    simp [splitFirst, ih h.2, Ne.symm h.1]

theorem splitFirst_some {d : Char} {k : Str} (h : d ∉ k) (r : Str) : splitFirst d (k ++ d :: r) = (k, some r) := by
  induction k with
  | nil => simp [splitFirst]
  | cons c cs ih =>
    simp only [List.mem_cons, not_or] at h
    simp [splitFirst, ih h.2, Ne.symm h.1]

theorem queryIdx_keys (n : PropNode) (k : Str) :
    n.queryIdx k = match (keys n.kids).findIdx? (fun x => x = k) with
      | some i => some i
      | none => match k with
        | '#' :: t => match fromStrULong t with
          | some i => if 1 ≤ i ∧ i ≤ (keys n.kids).length then some (i - 1) else none
          | none => none
        | _ => none := by
  unfold queryIdx keys
  rw [List.findIdx?_map, List.length_map]
  rfl

theorem queryIdx_congr {n m : PropNode} (h : keys n.kids = keys m.kids) (k : Str) : n.queryIdx k = m.queryIdx k := by
  rw [queryIdx_keys, queryIdx_keys, h]

theorem keys_updAt (n : PropNode) (i : Nat) (f : PropNode → PropNode) : keys (n.updAt i f).kids = keys n.kids := by
  unfold updAt keys
  rw [kids_withKids]
  apply List.ext_getElem?
  intro j
  rw [List.getElem?_map, List.getElem?_map, List.getElem?_modify]
  by_cases h : i = j
  · simp only [h, if_true]; cases n.kids[j]? <;> rfl
  · simp only [h, if_false]; cases n.kids[j]? <;> rfl

theorem queryIdx_lt {n : PropNode} {k : Str} {i : Nat} (h : n.queryIdx k = some i) : i < n.kids.length := by
  unfold queryIdx at h
  split at h
  · next j hj =>
    cases h
    exact (List.findIdx?_eq_some_iff_getElem.1 hj).1
  · split at h
    · split at h
      · split at h
        · cases h; omega
        · cases h
      · cases h
    · cases h

theorem kidAt_updAt_self {n : PropNode} {i : Nat} (hi : i < n.kids.length) (f : PropNode → PropNode) :
    ∃ c, n.kidAt i = some c ∧ (n.updAt i f).kidAt i = some (f c) := by
  refine ⟨n.kids[i].2, ?_, ?_⟩
  · simp [kidAt, hi]
  · simp [kidAt, updAt, List.getElem?_modify, hi]

theorem kidAt_updAt_ne {n : PropNode} {i j : Nat} (h : i ≠ j) (f : PropNode → PropNode) :
    (n.updAt i f).kidAt j = n.kidAt j := by
  simp [kidAt, updAt, List.getElem?_modify, h]

theorem findIdx?_none_of_queryIdx {n : PropNode} {k : Str} (h : n.queryIdx k = none) :
    (keys n.kids).findIdx? (fun x => x = k) = none := by
  rw [queryIdx_keys] at h
  cases hf : (keys n.kids).findIdx? (fun x => x = k) with
  | none => rfl
  | some i => rw [hf] at h; cases h

theorem queryIdx_addChild {n : PropNode} {k : Str} (h : n.queryIdx k = none) (c : PropNode) :
    (n.addChild k c).queryIdx k = some n.kids.length := by
  have hf := findIdx?_none_of_queryIdx h
  rw [queryIdx_keys]
  simp only [addChild, kids_withKids, keys, List.map_append, List.map_cons, List.map_nil]
  rw [List.findIdx?_append]
  unfold keys at hf
  rw [hf]
  simp

theorem kidAt_addChild (n : PropNode) (k : Str) (c : PropNode) : (n.addChild k c).kidAt n.kids.length = some c := by
  simp [kidAt, addChild]

/-- Looking for a plain key only looks at names. -/
theorem queryIdx_plain {n : PropNode} {k : Str} (h : PlainKey k) :
    n.queryIdx k = (keys n.kids).findIdx? (fun x => x = k) := by
  rw [queryIdx_keys]
  cases (keys n.kids).findIdx? (fun x => x = k) with
  | some i => rfl
  | none =>
    simp only
    split
    · next t => exact absurd rfl h
    · rfl

theorem queryIdx_addChild_ne {n : PropNode} {k k2 : Str} (h : PlainKey k2) (hne : k2 ≠ k) (c : PropNode) :
    (n.addChild k c).queryIdx k2 = n.queryIdx k2 := by
  rw [queryIdx_plain h, queryIdx_plain h]
  simp only [addChild, kids_withKids, keys, List.map_append, List.map_cons, List.map_nil]
  rw [List.findIdx?_append]
  cases List.findIdx? (fun x => x = k2) (List.map Prod.fst n.kids) with
  | some i => rfl
  | none => simp [Ne.symm hne]

theorem kidAt_addChild_lt {n : PropNode} {k : Str} {c : PropNode} {i : Nat} (hi : i < n.kids.length) :
    (n.addChild k c).kidAt i = n.kidAt i := by
  simp [kidAt, addChild, List.getElem?_append_left hi]

theorem queryIdx_plain_key {n : PropNode} {k : Str} {i : Nat} (h : PlainKey k) (hq : n.queryIdx k = some i) :
    (keys n.kids)[i]? = some k := by
  rw [queryIdx_plain h] at hq
  obtain ⟨hlt, h1, _⟩ := List.findIdx?_eq_some_iff_getElem.1 hq
  rw [List.getElem?_eq_getElem hlt]
  simpa using h1

/- Equations for queries along a path. -/

theorem tryGetQuery_last {d : Char} {k : Str} (h : d ∉ k) (n : PropNode) :
    n.tryGetQuery (pathStr d k []) d = (n.queryIdx k).bind n.kidAt := by
  simp only [pathStr]
  unfold tryGetQuery
  have := splitFirst_none h
  split
  · rfl
  · next r hr => rw [this] at hr; cases hr

theorem tryGetQuery_cons {d : Char} {k : Str} (h : d ∉ k) (k' : Str) (ks : List Str) (n : PropNode) :
    n.tryGetQuery (pathStr d k (k' :: ks)) d =
      ((n.queryIdx k).bind n.kidAt).bind fun c => c.tryGetQuery (pathStr d k' ks) d := by
  simp only [pathStr]
  rw [tryGetQuery]
  have := splitFirst_some h (pathStr d k' ks)
  split
  · next hr => rw [this] at hr; cases hr
  · next r hr =>
    rw [this] at hr; cases hr
    rw [this]
    simp only
    cases (n.queryIdx k).bind n.kidAt <;> rfl

theorem updQuery_last {d : Char} {k : Str} (h : d ∉ k) (n : PropNode) (f : PropNode → PropNode) :
    n.updQuery (pathStr d k []) d f = match n.queryIdx k with
      | some i => n.updAt i f
      | none => n.addChild k (f empty) := by
  simp only [pathStr]
  rw [updQuery]
  have := splitFirst_none h
  split
  · rfl
  · next r hr => rw [this] at hr; cases hr

theorem updQuery_cons {d : Char} {k : Str} (h : d ∉ k) (k' : Str) (ks : List Str) (n : PropNode)
    (f : PropNode → PropNode) :
    n.updQuery (pathStr d k (k' :: ks)) d f = match n.queryIdx k with
      | some i => n.updAt i (fun c => c.updQuery (pathStr d k' ks) d f)
      | none => n.addChild k (empty.updQuery (pathStr d k' ks) d f) := by
  simp only [pathStr]
  rw [updQuery]
  have := splitFirst_some h (pathStr d k' ks)
  split
  · next hr => rw [this] at hr; cases hr
  · next r hr =>
    rw [this] at hr; cases hr
    simp only [this]
    rfl

end PropNode
open PropNode

/-- Every query string is a path, for every delimiter. -/
theorem C16_every_query_is_a_path (d : Char) (q : Str) : ∃ k ks, PathKeys d k ks ∧ q = pathStr d k ks := by
  induction q with
  | nil => exact ⟨[], [], ⟨by simp, by simp⟩, rfl⟩
  | cons c q ih =>
    obtain ⟨k, ks, ⟨h1, h2⟩, e⟩ := ih
    by_cases hc : c = d
    · refine ⟨[], k :: ks, ⟨by simp, ?_⟩, ?_⟩
      · intro x hx
        rcases List.mem_cons.1 hx with rfl | hx
        · exact h1
        · exact h2 x hx
      · subst hc; rw [e]; rfl
    · refine ⟨c :: k, ks, ⟨?_, h2⟩, ?_⟩
      · simp only [List.mem_cons, not_or]; exact ⟨fun e => hc e.symm, h1⟩
      · subst e; cases ks <;> rfl

/-- **C16.** After `set_query( q, v )` the same query returns `v`: for every tree, query string (also with `#index`
keys and empty keys) and delimiter. -/
theorem C16_set_then_get (n : PropNode) (q : Str) (d : Char) (v : PropNode) :
    (n.setQuery q d v).tryGetQuery q d = some v := by
  obtain ⟨k, ks, ⟨hk, hks⟩, rfl⟩ := C16_every_query_is_a_path d q
  unfold setQuery
  induction ks generalizing n k with
  | nil =>
    rw [tryGetQuery_last hk, updQuery_last hk]
    cases h : n.queryIdx k with
    | some i =>
      obtain ⟨c, _, h2⟩ := kidAt_updAt_self (queryIdx_lt h) (fun _ => v)
      simp only [queryIdx_congr (keys_updAt n i _) k, h, Option.bind_some, h2]
    | none => simp only [queryIdx_addChild h, Option.bind_some, kidAt_addChild]
  | cons k' ks ih =>
    have ih' := fun m => ih m k' (hks k' (by simp)) (fun x hx => hks x (by simp [hx]))
    rw [tryGetQuery_cons hk, updQuery_cons hk]
    cases h : n.queryIdx k with
    | some i =>
      obtain ⟨c, _, h2⟩ := kidAt_updAt_self (queryIdx_lt h) (fun c => c.updQuery (pathStr d k' ks) d (fun _ => v))
      simp only [queryIdx_congr (keys_updAt n i _) k, h, Option.bind_some, h2, ih']
    | none => simp only [queryIdx_addChild h, Option.bind_some, kidAt_addChild, ih']

/-- Nothing is found in an empty node. -/
theorem PropNode.tryGetQuery_empty (q : Str) (d : Char) : PropNode.empty.tryGetQuery q d = none := by
  obtain ⟨k, ks, ⟨hk, _⟩, rfl⟩ := C16_every_query_is_a_path d q
  have h0 : ∀ i, PropNode.empty.kidAt i = none := fun i => by simp [kidAt, PropNode.empty]
  have : (PropNode.empty.queryIdx k).bind PropNode.empty.kidAt = none := by
    cases PropNode.empty.queryIdx k with
    | none => rfl
    | some i => exact h0 i
  cases ks with
  | nil => rw [tryGetQuery_last hk, this]
  | cons k' ks => rw [tryGetQuery_cons hk, this]; rfl

/-- **C16.** A query on a path that diverges at a key from the one written is unaffected, for every delimiter. The
common part may be empty or contain any keys; the diverging keys are plain names. -/
theorem C16_diverging_paths (n : PropNode) (d : Char) (f : PropNode → PropNode) (pre : List Str) (k1 k2 : Str)
    (s1 s2 : List Str) (hpre : ∀ x ∈ pre, d ∉ x) (h1 : PathKeys d k1 s1) (h2 : PathKeys d k2 s2) (hne : k2 ≠ k1)
    (hp1 : PlainKey k1) (hp2 : PlainKey k2) :
    let q1 := match pre with | [] => pathStr d k1 s1 | p :: ps => pathStr d p (ps ++ k1 :: s1)
    let q2 := match pre with | [] => pathStr d k2 s2 | p :: ps => pathStr d p (ps ++ k2 :: s2)
    (n.updQuery q1 d f).tryGetQuery q2 d = n.tryGetQuery q2 d := by
  have first : ∀ (n : PropNode),
      (n.updQuery (pathStr d k1 s1) d f).tryGetQuery (pathStr d k2 s2) d = n.tryGetQuery (pathStr d k2 s2) d := by
    intro n
    -- the child found for `k2` is the same before and after
    have same : ((n.updQuery (pathStr d k1 s1) d f).queryIdx k2).bind (n.updQuery (pathStr d k1 s1) d f).kidAt =
        (n.queryIdx k2).bind n.kidAt := by
      have upd : ∀ i g, n.queryIdx k1 = some i →
          ((n.updAt i g).queryIdx k2).bind (n.updAt i g).kidAt = (n.queryIdx k2).bind n.kidAt := by
        intro i g hi
        rw [queryIdx_congr (keys_updAt n i g) k2]
        cases hj : n.queryIdx k2 with
        | none => rfl
        | some j =>
          have hij : i ≠ j := by
            rintro rfl
            have a := queryIdx_plain_key hp1 hi
            have b := queryIdx_plain_key hp2 hj
            rw [a] at b; cases b; exact hne rfl
          simp only [Option.bind_some, kidAt_updAt_ne hij]
      have add : ∀ c, ((n.addChild k1 c).queryIdx k2).bind (n.addChild k1 c).kidAt = (n.queryIdx k2).bind n.kidAt := by
        intro c
        rw [queryIdx_addChild_ne hp2 hne]
        cases hj : n.queryIdx k2 with
        | none => rfl
        | some j => simp only [Option.bind_some, kidAt_addChild_lt (queryIdx_lt hj)]
      cases s1 with
      | nil =>
        rw [updQuery_last h1.1]
        cases hi : n.queryIdx k1 with
        | some i => exact upd i _ hi
        | none => exact add _
      | cons k' s1 =>
        rw [updQuery_cons h1.1]
        cases hi : n.queryIdx k1 with
        | some i => exact upd i _ hi
        | none => exact add _
    cases s2 with
    | nil => rw [tryGetQuery_last h2.1, tryGetQuery_last h2.1, same]
    | cons k' s2 => rw [tryGetQuery_cons h2.1, tryGetQuery_cons h2.1, same]
  -- one more common key in front
  have stepCons : ∀ (p : Str) (a : Str) (as : List Str) (b : Str) (bs : List Str), d ∉ p →
      (∀ n : PropNode, (n.updQuery (pathStr d a as) d f).tryGetQuery (pathStr d b bs) d =
        n.tryGetQuery (pathStr d b bs) d) →
      ∀ n : PropNode, (n.updQuery (pathStr d p (a :: as)) d f).tryGetQuery (pathStr d p (b :: bs)) d =
        n.tryGetQuery (pathStr d p (b :: bs)) d := by
    intro p a as b bs hp ih n
    rw [tryGetQuery_cons hp, tryGetQuery_cons hp, updQuery_cons hp]
    cases h : n.queryIdx p with
    | some i =>
      obtain ⟨c, hc1, hc2⟩ := kidAt_updAt_self (queryIdx_lt h) (fun c => c.updQuery (pathStr d a as) d f)
      simp only [queryIdx_congr (keys_updAt n i _) p, h, Option.bind_some, hc1, hc2, ih]
    | none =>
      simp only [queryIdx_addChild h, Option.bind_some, kidAt_addChild, ih, tryGetQuery_empty, Option.bind_none]
  have gen : ∀ (ps : List Str) (p : Str), d ∉ p → (∀ x ∈ ps, d ∉ x) → ∀ n : PropNode,
      (n.updQuery (pathStr d p (ps ++ k1 :: s1)) d f).tryGetQuery (pathStr d p (ps ++ k2 :: s2)) d =
        n.tryGetQuery (pathStr d p (ps ++ k2 :: s2)) d := by
    intro ps
    induction ps with
    | nil => intro p hp _ n; exact stepCons p k1 s1 k2 s2 hp first n
    | cons x ps ih =>
      intro p hp hps n
      exact stepCons p x (ps ++ k1 :: s1) x (ps ++ k2 :: s2) hp
        (ih x (hps x (by simp)) (fun y hy => hps y (by simp [hy]))) n
  cases pre with
  | nil => exact first n
  | cons p ps => exact gen ps p (hpre p (by simp)) (fun x hx => hpre x (by simp [hx])) n

namespace PropNode

theorem eraseQuery_last {d : Char} {k : Str} (h : d ∉ k) (n : PropNode) :
    n.eraseQuery (pathStr d k []) d = n.erase k := by
  simp only [pathStr]
  rw [eraseQuery]
  have := splitFirst_none h
  split
  · rfl
  · next r hr => rw [this] at hr; cases hr

theorem updFound_single {k : Str} {e : Char} (h : e ∉ k) (n : PropNode) (f : PropNode → Bool × PropNode) :
    n.updFound k e f = (n.queryIdx k).bind fun i => (n.kidAt i).map fun c => ((f c).1, n.updAt i (fun c => (f c).2)) := by
  rw [updFound]
  have := splitFirst_none h
  split
  · rfl
  · next r hr => rw [this] at hr; cases hr

theorem eraseQuery_cons {d : Char} {k : Str} (h : d ∉ k) (hdot : '.' ∉ k) (k' : Str) (ks : List Str) (n : PropNode) :
    n.eraseQuery (pathStr d k (k' :: ks)) d = match n.queryIdx k with
      | some i => match n.kidAt i with
        | some c => ((c.eraseQuery (pathStr d k' ks) d).1, n.updAt i (fun c => (c.eraseQuery (pathStr d k' ks) d).2))
        | none => (false, n)
      | none => (false, n) := by
  simp only [pathStr]
  rw [eraseQuery]
  have := splitFirst_some h (pathStr d k' ks)
  split
  · next hr => rw [this] at hr; cases hr
  · next r hr =>
    rw [this] at hr; cases hr
    rw [this]
    simp only
    rw [updFound_single hdot]
    cases n.queryIdx k with
    | none => rfl
    | some i =>
      simp only [Option.bind_some]
      cases n.kidAt i <;> rfl

end PropNode

/-- **C16 (partial).** `erase_query` along a path whose leading keys contain no `'.'` (always so for the default
delimiter): if the leading keys lead to a node `m`, the first child of `m` with the last key is removed and the
result says whether there was one; if they lead nowhere, nothing changes. -/
theorem C16_erase_partial (n : PropNode) (d : Char) (p : Str) (ps : List Str) (k : Str)
    (hp : d ∉ p ∧ '.' ∉ p) (hps : ∀ x ∈ ps, d ∉ x ∧ '.' ∉ x) (hk : d ∉ k) :
    let r := n.eraseQuery (pathStr d p (ps ++ [k])) d
    match n.tryGetQuery (pathStr d p ps) d with
    | some m => r.1 = m.hasKey k ∧ r.2.tryGetQuery (pathStr d p ps) d = some (m.erase k).2
    | none => r = (false, n) := by
  have hasKey_erase : ∀ m : PropNode, (m.erase k).1 = m.hasKey k := by
    intro m
    unfold PropNode.erase hasKey tryGetChild
    cases h : findKid k m.kids with
    | some c => obtain ⟨as, bs, e, hn⟩ := findKid_split h; rw [e, eraseKid_append_hit hn]; rfl
    | none => rw [eraseKid_miss (findKid_none_iff.1 h)]; rfl
  induction ps generalizing n p with
  | nil =>
    simp only [List.nil_append]
    rw [eraseQuery_cons hp.1 hp.2, tryGetQuery_last hp.1]
    cases h : n.queryIdx p with
    | none => rfl
    | some i =>
      obtain ⟨c, hc1, hc2⟩ := kidAt_updAt_self (queryIdx_lt h) (fun c => (c.eraseQuery (pathStr d k []) d).2)
      simp only [Option.bind_some, hc1]
      rw [eraseQuery_last hk]
      refine ⟨hasKey_erase c, ?_⟩
      rw [tryGetQuery_last hp.1, queryIdx_congr (keys_updAt n i _) p, h, Option.bind_some, hc2, eraseQuery_last hk]
  | cons x ps ih =>
    have ihc := fun m => ih m x (hps x (by simp)) (fun y hy => hps y (by simp [hy]))
    simp only [List.cons_append]
    rw [eraseQuery_cons hp.1 hp.2, tryGetQuery_cons hp.1]
    cases h : n.queryIdx p with
    | none => rfl
    | some i =>
      obtain ⟨c, hc1, hc2⟩ := kidAt_updAt_self (queryIdx_lt h)
        (fun c => (c.eraseQuery (pathStr d x (ps ++ [k])) d).2)
      have := ihc c
      simp only [Option.bind_some, hc1] at this ⊢
      cases hq : c.tryGetQuery (pathStr d x ps) d with
      | some m =>
        rw [hq] at this
        simp only at this ⊢
        refine ⟨this.1, ?_⟩
        rw [tryGetQuery_cons hp.1, queryIdx_congr (keys_updAt n i _) p, h, Option.bind_some, hc2]
        exact this.2
      | none =>
        rw [hq] at this
        simp only at this ⊢
        rw [this]
        simp only [Prod.mk.injEq, true_and]
        -- updating with the unchanged child changes nothing
        have hkid : n.kids[i]? = some (n.kids[i]'(queryIdx_lt h)) := List.getElem?_eq_getElem (queryIdx_lt h)
        have hci : (n.kids[i]'(queryIdx_lt h)).2 = c := by
          have := hc1; unfold kidAt at this; rw [hkid] at this; simpa using this
        have hm : (n.kids.modify i fun q => (q.1, (q.2.eraseQuery (pathStr d x (ps ++ [k])) d).2)) = n.kids := by
          apply List.ext_getElem?
          intro j
          rw [List.getElem?_modify]
          by_cases hij : i = j
          · subst hij
            rw [hkid]
            simp only [if_true]
            change some ((n.kids[i]'(queryIdx_lt h)).1,
              ((n.kids[i]'(queryIdx_lt h)).2.eraseQuery (pathStr d x (ps ++ [k])) d).2) = _
            rw [hci, this, ← hci]
          · simp only [hij, if_false]; cases n.kids[j]? <;> rfl
        unfold updAt
        rw [hm]
        exact eta n

/-- **C16 is violated** by `erase_query` with another delimiter: the query `a.b/c` with delimiter `/` finds a node,
but it is not erased, because the leading key is split at `'.'`. -/
theorem C16_erase_delimiter_violated :
    let n := PropNode.mk [] [("a.b".toList, .mk [] [("c".toList, leaf "1".toList)] false)] false
    (n.tryGetQuery "a.b/c".toList '/').isSome = true ∧ (n.eraseQuery "a.b/c".toList '/').1 = false := by
  decide +kernel

/-- **C16 is violated** by `erase_query` with a position: the query `#1` finds a node that is not erased. -/
theorem C16_erase_index_violated :
    let n := PropNode.mk [] [("a".toList, leaf "1".toList)] false
    (n.tryGetQuery "#1".toList '.').isSome = true ∧ (n.eraseQuery "#1".toList '.').1 = false := by
  decide +kernel

/-- Positions alias names: this is why the diverging keys are plain in `C16_diverging_paths`. -/
example : ((PropNode.mk [] [("a".toList, leaf "1".toList)] false).setQuery "#1".toList '.' (leaf "2".toList)
    |>.tryGetQuery "a".toList '.').map PropNode.value = some "2".toList := by decide +kernel

/-- Diverging paths with a common part. -/
example : pathStr '.' "x".toList (["y".toList] ++ "a".toList :: []) = "x.y.a".toList ∧
    PathKeys '.' "a".toList [] ∧ PlainKey "a".toList := by
  refine ⟨rfl, ⟨by decide, by simp⟩, by unfold PlainKey; decide⟩

end Xo
