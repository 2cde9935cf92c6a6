import Verif.Model.NodeTools
import Verif.Props.C16_PropNodeQuery
import Mathlib.Data.List.Induction

/-!
C81: the query that leads to a node. `find_query_to_node` and `make_prop_node_query` give the names on the way to a node; whether the
query finds the node again depends on the names.
-/
namespace Xo
namespace Spec
open PropNode

/-- The names on the way to a position, and the node there. -/
inductive Way : PropNode → List Nat → List Str → PropNode → Prop
  | here (n) : Way n [] [] n
  | step {n i k c p ks m} : n.kids[i]? = some (k, c) → Way c p ks m → Way n (i :: p) (k :: ks) m

/-- The position exists in the tree. -/
def Inside (n : PropNode) (p : List Nat) : Prop := ∃ ks m, Way n p ks m

/-- The names joined by the delimiter. -/
def joined (d : Char) : List Str → Str
  | [] => []
  | k :: ks => pathStr d k ks

/-- On the way to the position, no child has an earlier sibling of the same name. -/
def FirstNames : PropNode → List Nat → Prop
  | _, [] => True
  | n, i :: p => (∀ j < i, n.kids[j]?.map Prod.fst ≠ n.kids[i]?.map Prod.fst) ∧ ∀ c, n.kidAt i = some c → FirstNames c p
end Spec
open Spec PropNode

namespace PropNode

/-- The text for a list of names: names that are empty at the end leave no trace. -/
def queryOf (d : Char) : List Str → Str
  | [] => []
  | k :: ks => if (queryOf d ks).isEmpty then k else k ++ d :: queryOf d ks

theorem inside_ne {i j : Nat} {p : List Nat} (h : j ≠ i) : inside i (some (j :: p)) = none := by simp [inside, h]

mutual
theorem findQuery_none (d : Char) : ∀ n : PropNode, findQuery d n none = (false, [])
  | .mk _ ks _ => by
    rw [findQuery, if_neg (by simp)]
    exact findQueryKids_none d ks 0
theorem findQueryKids_none (d : Char) : ∀ (ks : Kids) (i : Nat), findQueryKids d ks i none = (false, [])
  | [], _ => by rw [findQueryKids]
  | (k, c) :: cs, i => by
    rw [findQueryKids]
    have : inside i none = none := rfl
    rw [this, findQuery_none d c]
    simpa using findQueryKids_none d cs (i + 1)
end

/-- The loop goes to the child of the position. -/
theorem findQueryKids_at (d : Char) : ∀ (ks : Kids) (i j : Nat) (p : List Nat), i ≤ j → findQueryKids d ks i (some (j :: p)) =
    match ks[j - i]? with
    | none => (false, [])
    | some (k, c) =>
      if (findQuery d c (some p)).1 then (true, if (findQuery d c (some p)).2.isEmpty then k else k ++ d :: (findQuery d c (some p)).2)
      else (false, [])
  | [], _, _, _, _ => by rw [findQueryKids]; rfl
  | (k, c) :: cs, i, j, p, hij => by
    rw [findQueryKids]
    by_cases h : j = i
    · subst h
      simp only [inside, if_true, Nat.sub_self, List.getElem?_cons_zero]
      split
      · rfl
      · -- no other child has this address
        have : ∀ (ks : Kids) (i : Nat), j < i → findQueryKids d ks i (some (j :: p)) = (false, []) := by
          intro ks
          induction ks with
          | nil => intro i _; rw [findQueryKids]
          | cons q cs ih =>
            intro i hi
            obtain ⟨k', c'⟩ := q
            rw [findQueryKids, inside_ne (by omega), findQuery_none]
            simpa using ih (i + 1) (by omega)
        exact this cs (j + 1) (by omega)
    · rw [inside_ne h, findQuery_none]
      have e : j - i = (j - (i + 1)) + 1 := by omega
      rw [e, List.getElem?_cons_succ]
      simpa using findQueryKids_at d cs (i + 1) j p (by omega)

theorem findQuery_way {d : Char} {n : PropNode} {p : List Nat} {ks : List Str} {m : PropNode} (h : Way n p ks m) :
    findQuery d n (some p) = (true, queryOf d ks) := by
  induction h with
  | here n => obtain ⟨v, ks, a⟩ := n; rw [findQuery, if_pos rfl]; rfl
  | @step n i k c p ks m hk hw ih =>
    obtain ⟨v, cs, a⟩ := n
    rw [findQuery, if_neg (by simp), findQueryKids_at d cs 0 i p (by omega)]
    simp only [kids_mk] at hk
    rw [Nat.sub_zero, hk]
    simp only [ih, if_true]
    rfl

theorem findQuery_outside (d : Char) (p : List Nat) : ∀ n : PropNode, ¬ Inside n p → findQuery d n (some p) = (false, []) := by
  induction p with
  | nil => intro n h; exact (h ⟨[], n, .here n⟩).elim
  | cons i p ih =>
    intro n h
    obtain ⟨v, cs, a⟩ := n
    rw [findQuery, if_neg (by simp), findQueryKids_at d cs 0 i p (by omega), Nat.sub_zero]
    cases hc : cs[i]? with
    | none => rfl
    | some q =>
      obtain ⟨k, c⟩ := q
      have := ih c (fun ⟨ks, m, hw⟩ => h ⟨k :: ks, m, .step hc hw⟩)
      simp only [this]
      rfl

theorem pathStr_ne_nil {d : Char} : ∀ (k : Str) (ks : List Str), (k :: ks).getLast? ≠ some [] → pathStr d k ks ≠ []
  | k, [], h => by simpa [pathStr] using h
  | k, k' :: ks, h => by simp [pathStr]

theorem queryOf_joined {d : Char} : ∀ (k : Str) (ks : List Str), (k :: ks).getLast? ≠ some [] → queryOf d (k :: ks) = pathStr d k ks
  | k, [], _ => by simp [queryOf, pathStr]
  | k, k' :: ks, h => by
    have h' : (k' :: ks).getLast? ≠ some [] := by simpa using h
    have e := queryOf_joined (d := d) k' ks h'
    rw [queryOf, e, pathStr, if_neg]
    simpa using pathStr_ne_nil k' ks h'

theorem queryOf_append_nil (d : Char) (ks : List Str) : queryOf d (ks ++ [[]]) = queryOf d ks := by
  induction ks with
  | nil => simp [queryOf]
  | cons k ks ih => simp [queryOf, ih]

theorem Way.kidAt_of {n : PropNode} {i k c} (h : n.kids[i]? = some (k, c)) : n.kidAt i = some c := by simp [kidAt, h]

theorem queryIdx_first {n : PropNode} {i : Nat} {k : Str} {c : PropNode} (h : n.kids[i]? = some (k, c))
    (hf : ∀ j < i, n.kids[j]?.map Prod.fst ≠ n.kids[i]?.map Prod.fst) : n.queryIdx k = some i := by
  unfold queryIdx
  have : n.kids.findIdx? (fun p => p.1 = k) = some i := by
    obtain ⟨hi, he⟩ := List.getElem?_eq_some_iff.1 h
    rw [List.findIdx?_eq_some_iff_getElem]
    refine ⟨hi, by simp [he], ?_⟩
    intro j hj
    have := hf j hj
    rw [h, List.getElem?_eq_getElem (by omega)] at this
    simpa using this
  rw [this]

theorem tryGetQuery_way {d : Char} {n : PropNode} {p : List Nat} {ks : List Str} {m : PropNode} (h : Way n p ks m) (hf : FirstNames n p)
    (hd : ∀ k ∈ ks, d ∉ k) : ∀ k t, ks = k :: t → n.tryGetQuery (pathStr d k t) d = some m := by
  induction h with
  | here n => intro k t h; cases h
  | @step n i k c p ks m hk hw ih =>
    intro k' t' e
    cases e
    have hq := queryIdx_first hk hf.1
    have hc := Way.kidAt_of hk
    cases hw with
    | here => rw [tryGetQuery_last (hd k (by simp)), hq]; exact hc
    | @step _ i2 k2 c2 p2 ks2 _ hk2 hw2 =>
      rw [tryGetQuery_cons (hd k (by simp)), hq]
      simp only [Option.bind_some, hc]
      exact ih (hf.2 c hc) (fun x hx => hd x (List.mem_cons_of_mem _ hx)) k2 ks2 rfl

end PropNode

/-- **C81.** A node that is in the tree is found, a node that is not is not. -/
theorem C81_found (n : PropNode) (d : Char) (p : List Nat) : (findQuery d n (some p)).1 = true ↔ Inside n p := by
  constructor
  · intro h
    by_contra hc
    rw [findQuery_outside d p n hc] at h
    cases h
  · rintro ⟨ks, m, h⟩
    rw [findQuery_way h]

/-- A node of another tree is not found. -/
theorem C81_other_tree (n : PropNode) (d : Char) : findQuery d n none = (false, []) := findQuery_none d n

/-- **C81.** The query of a node consists of the names on the way to it. (partial: the last name is not empty) -/
theorem C81_names_partial {n : PropNode} {d : Char} {p : List Nat} {ks : List Str} {m : PropNode} (h : Way n p ks m)
    (hl : ks.getLast? ≠ some []) : findQuery d n (some p) = (true, joined d ks) := by
  rw [findQuery_way h]
  cases ks with
  | nil => rfl
  | cons k ks => rw [queryOf_joined k ks hl]; rfl

/-- **C81.** The query that is given for a node leads to that node, when the names on the way to it have no delimiter in them and are the
first of their name, and the last one is not empty. (partial: the other names, see below) -/
theorem C81_leads_back_partial {n : PropNode} {d : Char} {p : List Nat} {ks : List Str} {m : PropNode} (h : Way n p ks m) (hp : p ≠ [])
    (hl : ks.getLast? ≠ some []) (hd : ∀ k ∈ ks, d ∉ k) (hf : FirstNames n p) :
    n.tryGetQuery (findQuery d n (some p)).2 d = some m := by
  rw [C81_names_partial h hl]
  cases h with
  | here => exact (hp rfl).elim
  | @step _ i k c p' ks' _ hk hw => exact tryGetQuery_way (.step hk hw) hf hd k ks' rfl

/-- The second child of the second child. -/
example : let n := PropNode.mk [] [("a".toList, leaf "1".toList), ("b".toList, .mk [] [("#9".toList, .empty), ("c".toList, leaf "2".toList)] false)] false
    findQuery '.' n (some [1, 1]) = (true, "b.c".toList) ∧ findQuery '.' n (some [1, 0]) = (true, "b.#9".toList) ∧
      findQuery '.' n (some [2]) = (false, []) := by
  decide +kernel

/-- **C81 is violated by unnamed children**, such as the elements of an array: every one gets the query of its parent. -/
theorem C81_array_violated (n : PropNode) (d : Char) (p : List Nat) (i : Nat) (m : PropNode) (ks : List Str) (c : PropNode) (h : Way n p ks m)
    (hc : m.kids[i]? = some ([], c)) : findQuery d n (some (p ++ [i])) = findQuery d n (some p) := by
  have h2 : Way n (p ++ [i]) (ks ++ [[]]) c := by
    induction h with
    | here n => exact .step hc (.here c)
    | step hk hw ih => exact .step hk (ih hc)
  rw [findQuery_way h, findQuery_way h2, queryOf_append_nil]

/-- **C81 is violated by repeated names**: children of the same name get the same query. -/
theorem C81_repeated_violated (n : PropNode) (d : Char) (p : List Nat) (i j : Nat) (m : PropNode) (ks : List Str) (k : Str) (c1 c2 : PropNode)
    (h : Way n p ks m) (h1 : m.kids[i]? = some (k, c1)) (h2 : m.kids[j]? = some (k, c2)) :
    findQuery d n (some (p ++ [i])) = findQuery d n (some (p ++ [j])) := by
  have ext : ∀ {i c}, m.kids[i]? = some (k, c) → Way n (p ++ [i]) (ks ++ [k]) c := by
    intro i c hc
    clear h1 h2
    induction h with
    | here n => exact .step hc (.here c)
    | step hk hw ih => exact .step hk (ih hc)
  rw [findQuery_way (ext h1), findQuery_way (ext h2)]

/-- **C81 is violated by names with the delimiter in them.** -/
theorem C81_delimiter_violated : let n := PropNode.mk [] [("a.b".toList, leaf "1".toList)] false
    findQuery '.' n (some [0]) = (true, "a.b".toList) ∧ (n.tryGetQuery "a.b".toList '.').isNone = true := by
  decide +kernel

/-! ### `try_find_parent` and `make_prop_node_query` -/

namespace PropNode

mutual
theorem findParent_none : ∀ n : PropNode, findParent n none = none
  | .mk _ ks _ => by
    rw [findParent]
    have h : ∀ (ks : Kids) (i : Nat), findParentHere ks i none = none := by
      intro ks
      induction ks with
      | nil => intro i; rw [findParentHere]
      | cons q cs ih => intro i; rw [findParentHere, if_neg (by simp [inside])]; exact ih _
    rw [h]
    exact findParentKids_none ks 0
theorem findParentKids_none : ∀ (ks : Kids) (i : Nat), findParentKids ks i none = none
  | [], _ => by rw [findParentKids]
  | (_, c) :: cs, i => by
    rw [findParentKids]
    simp only [inside]
    rw [findParent_none c]
    exact findParentKids_none cs (i + 1)
end

theorem findParentHere_at : ∀ (ks : Kids) (i j : Nat) (p : List Nat), i ≤ j →
    findParentHere ks i (some (j :: p)) = if p = [] ∧ j - i < ks.length then some j else none
  | [], _, _, _, _ => by rw [findParentHere]; simp
  | q :: cs, i, j, p, hij => by
    rw [findParentHere]
    by_cases h : j = i
    · subst h
      simp only [inside, if_true, Option.some.injEq, Nat.sub_self, List.length_cons, Nat.zero_lt_succ, and_true]
      split
      · rfl
      · have : ∀ (ks : Kids) (i : Nat), j < i → findParentHere ks i (some (j :: p)) = none := by
          intro ks
          induction ks with
          | nil => intro i _; rw [findParentHere]
          | cons q cs ih => intro i hi; rw [findParentHere, inside_ne (by omega), if_neg (by simp)]; exact ih _ (by omega)
        exact this _ _ (by omega)
    · rw [inside_ne h, if_neg (by simp), findParentHere_at cs (i + 1) j p (by omega)]
      have : (j - (i + 1) < cs.length) ↔ (j - i < (q :: cs).length) := by simp; omega
      simp only [this]

theorem findParentKids_at : ∀ (ks : Kids) (i j : Nat) (p : List Nat), i ≤ j →
    findParentKids ks i (some (j :: p)) = match ks[j - i]? with
      | none => none
      | some (_, c) => (findParent c (some p)).map fun r => (j :: r.1, r.2)
  | [], _, _, _, _ => by rw [findParentKids]; rfl
  | (k, c) :: cs, i, j, p, hij => by
    rw [findParentKids]
    by_cases h : j = i
    · subst h
      simp only [inside, if_true, Nat.sub_self, List.getElem?_cons_zero]
      cases findParent c (some p) with
      | some r => rfl
      | none =>
        have : ∀ (ks : Kids) (i : Nat), j < i → findParentKids ks i (some (j :: p)) = none := by
          intro ks
          induction ks with
          | nil => intro i _; rw [findParentKids]
          | cons q cs ih =>
            intro i hi
            obtain ⟨k', c'⟩ := q
            rw [findParentKids, inside_ne (by omega), findParent_none]
            exact ih _ (by omega)
        exact this _ _ (by omega)
    · rw [inside_ne h, findParent_none]
      have e : j - i = (j - (i + 1)) + 1 := by omega
      rw [e, List.getElem?_cons_succ]
      exact findParentKids_at cs (i + 1) j p (by omega)

theorem findParent_nil : ∀ n : PropNode, findParent n (some []) = none
  | .mk _ ks _ => by
    rw [findParent]
    have h1 : ∀ (ks : Kids) (i : Nat), findParentHere ks i (some []) = none := by
      intro ks
      induction ks with
      | nil => intro i; rw [findParentHere]
      | cons q cs ih => intro i; rw [findParentHere, if_neg (by simp [inside])]; exact ih _
    have h2 : ∀ (ks : Kids) (i : Nat), findParentKids ks i (some []) = none := by
      intro ks
      induction ks with
      | nil => intro i; rw [findParentKids]
      | cons q cs ih => intro i; obtain ⟨k, c⟩ := q; rw [findParentKids]; simp only [inside, findParent_none]; exact ih _
    rw [h1, h2]

/-- The parent of the node at `p ++ [i]` is the node at `p`. -/
theorem findParent_at (p : List Nat) (i : Nat) : ∀ (n : PropNode), Inside n (p ++ [i]) → findParent n (some (p ++ [i])) = some (p, i) := by
  induction p with
  | nil =>
    rintro ⟨v, ks, a⟩ ⟨ns, m, h⟩
    cases h with
    | step hk hw =>
      have hi : i < ks.length := (List.getElem?_eq_some_iff.1 hk).1
      rw [findParent, List.nil_append, findParentHere_at ks 0 i [] (by omega), if_pos ⟨rfl, by simpa using hi⟩]
  | cons j p ih =>
    rintro ⟨v, ks, a⟩ ⟨ns, m, h⟩
    cases h with
    | @step _ _ k c _ ns' _ hk hw =>
      simp only [kids_mk] at hk
      rw [findParent, List.cons_append, findParentHere_at ks 0 j _ (by omega), if_neg (by simp)]
      simp only
      rw [findParentKids_at ks 0 j _ (by omega), Nat.sub_zero, hk]
      simp only [ih c ⟨ns', m, hw⟩, Option.map_some]

theorem findParent_outside (p : List Nat) : ∀ (n : PropNode), ¬ Inside n p → findParent n (some p) = none := by
  induction p with
  | nil => intro n h; exact (h ⟨[], n, .here n⟩).elim
  | cons j p ih =>
    rintro ⟨v, ks, a⟩ h
    have hout : ∀ k c, ks[j]? = some (k, c) → ¬ Inside c p := fun k c hk ⟨ns, m, hw⟩ => h ⟨k :: ns, m, .step hk hw⟩
    have hh : ¬ (p = [] ∧ j - 0 < ks.length) := by
      rintro ⟨rfl, hj⟩
      rw [Nat.sub_zero] at hj
      obtain ⟨k, c⟩ : Str × PropNode := ks[j]
      exact hout ks[j].1 ks[j].2 (by rw [List.getElem?_eq_getElem hj]) ⟨[], _, .here _⟩
    rw [findParent, findParentHere_at ks 0 j _ (by omega), if_neg hh]
    simp only
    rw [findParentKids_at ks 0 j _ (by omega), Nat.sub_zero]
    cases hc : ks[j]? with
    | none => rfl
    | some q => obtain ⟨k, c⟩ := q; simp [ih c (hout k c hc)]

theorem Way.split {n : PropNode} {p : List Nat} {i : Nat} {ks : List Str} {m : PropNode} (h : Way n (p ++ [i]) ks m) :
    ∃ ks' k q, ks = ks' ++ [k] ∧ Way n p ks' q ∧ q.kids[i]? = some (k, m) := by
  induction p generalizing n ks with
  | nil =>
    cases h with
    | @step _ _ k c _ ns _ hk hw => cases hw; exact ⟨[], k, n, rfl, .here n, hk⟩
  | cons j p ih =>
    cases h with
    | @step _ _ k c _ ns _ hk hw =>
      obtain ⟨ks', k', q, e, h1, h2⟩ := ih hw
      exact ⟨k :: ks', k', q, by rw [e]; rfl, .step hk h1, h2⟩

theorem Way.at_eq {n : PropNode} {p : List Nat} {ks : List Str} {m : PropNode} (h : Way n p ks m) : n.at? p = some m := by
  induction h with
  | here n => rfl
  | step hk hw ih => rw [at?, Way.kidAt_of hk]; exact ih

/-- The text that is built from the end. -/
def buildUp : List Str → Str → Str
  | [], s => s
  | k :: ks, s => buildUp ks (if s.isEmpty then k else k ++ '.' :: s)

theorem buildUp_queryOf (ks : List Str) (t : List Str) : buildUp ks.reverse (queryOf '.' t) = queryOf '.' (ks ++ t) := by
  induction ks using List.reverseRecOn generalizing t with
  | nil => rfl
  | append_singleton ks k ih =>
    rw [List.reverse_append, List.reverse_singleton, List.singleton_append, buildUp]
    have : (if (queryOf '.' t).isEmpty then k else k ++ '.' :: queryOf '.' t) = queryOf '.' (k :: t) := rfl
    rw [this, ih, List.append_assoc, List.singleton_append]

theorem makeQueryLoop_way (root : PropNode) (p : List Nat) (i : Nat) : ∀ (ks : List Str) (m : PropNode) (fuel : Nat) (str : Str),
    Way root (p ++ [i]) ks m → p.length < fuel → makeQueryLoop root fuel (some (p, i)) str = some (.ok (buildUp ks.reverse str)) := by
  induction p using List.reverseRecOn generalizing i with
  | nil =>
    intro ks m fuel str h hf
    obtain ⟨fuel, rfl⟩ : ∃ f, fuel = f + 1 := ⟨fuel - 1, by simp at hf; omega⟩
    obtain ⟨ks', k, q, rfl, h1, h2⟩ := Way.split h
    have hk : root.keyAt [] i = .ok k := by
      cases h1
      have := (List.getElem?_eq_some_iff.1 h2).1
      rw [keyAt, at?]; simp only; rw [if_pos this, h2]; rfl
    cases h1
    rw [makeQueryLoop]
    simp [hk, buildUp]
  | append_singleton p j ih =>
    intro ks m fuel str h hf
    obtain ⟨fuel, rfl⟩ : ∃ f, fuel = f + 1 := ⟨fuel - 1, by simp at hf; omega⟩
    obtain ⟨ks', k, q, rfl, h1, h2⟩ := Way.split h
    have hk : root.keyAt (p ++ [j]) i = .ok k := by
      have := (List.getElem?_eq_some_iff.1 h2).1
      rw [keyAt, Way.at_eq h1]; simp only; rw [if_pos this, h2]; rfl
    rw [makeQueryLoop]
    simp only [hk]
    rw [if_pos (by simp), findParent_at p j root ⟨_, _, h1⟩, ih j ks' q fuel _ h1 (by simp at hf; omega), List.reverse_append,
      List.reverse_singleton, List.singleton_append, buildUp]

end PropNode

/-- **C81.** `try_find_parent` finds the parent and the place of every node below the root, and nothing for the root and for other nodes. -/
theorem C81_parent (n : PropNode) : (∀ p i, Inside n (p ++ [i]) → findParent n (some (p ++ [i])) = some (p, i)) ∧
    findParent n (some []) = none ∧ (∀ p, ¬ Inside n p → findParent n (some p) = none) ∧ findParent n none = none :=
  ⟨fun p i => findParent_at p i n, findParent_nil n, fun p => findParent_outside p n, findParent_none n⟩

/-- **C81.** `make_prop_node_query` always ends and gives the same query as `find_query_to_node` with a dot, for every node of the tree. -/
theorem C81_same_query (n : PropNode) (p : List Nat) (hp : Inside n p) :
    ∀ fuel, p.length ≤ fuel → n.makeQuery fuel (some p) = some (.ok (findQuery '.' n (some p)).2) := by
  intro fuel hf
  obtain ⟨ks, m, h⟩ := hp
  rw [findQuery_way h]
  unfold makeQuery
  rcases List.eq_nil_or_concat p with rfl | ⟨q, i, rfl⟩
  · cases h
    rw [findParent_nil]
    simp [makeQueryLoop, queryOf]
  · rw [List.concat_eq_append] at h hf ⊢
    rw [findParent_at q i n ⟨_, _, h⟩, makeQueryLoop_way n q i ks m fuel [] h (by simp at hf; omega)]
    have := buildUp_queryOf ks []
    simp only [List.append_nil] at this
    rw [← this]
    rfl

/-- For other nodes it gives the empty query. -/
theorem C81_no_query (n : PropNode) (p : Option (List Nat)) (hp : ∀ q, p = some q → ¬ Inside n q) (fuel : Nat) :
    n.makeQuery fuel p = some (.ok []) := by
  unfold makeQuery
  cases p with
  | none => rw [findParent_none]; cases fuel <;> rfl
  | some q => rw [findParent_outside q n (hp q rfl)]; cases fuel <;> rfl

example : let n := PropNode.mk [] [("a".toList, leaf "1".toList), ("b".toList, .mk [] [([], .empty), ("c".toList, leaf "2".toList)] false)] false
    n.makeQuery 2 (some [1, 1]) = some (.ok "b.c".toList) ∧ n.makeQuery 2 (some [1, 0]) = some (.ok "b".toList) := by
  decide +kernel

end Xo
