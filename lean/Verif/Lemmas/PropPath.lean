import Verif.Props.C16_PropNodeQuery
import Verif.Lemmas.PropNode

/-!
Queries along paths of plain names: reading, writing and erasing as operations on lists of keys.
-/
namespace Xo
open Spec PropNode
namespace PropNode

/-- The node at a path of names. -/
def lookup : PropNode → List Str → Option PropNode
  | n, [] => some n
  | n, k :: ks => (findKid k n.kids).bind fun c => c.lookup ks

def updPath (f : PropNode → PropNode) : List Str → PropNode → PropNode
  | [], n => f n
  | k :: ks, n => n.updOrAdd k (updPath f ks)

def erasePath : List Str → PropNode → PropNode
  | [], n => n
  | [k], n => (n.erase k).2
  | k :: k' :: ks, n => n.withKids (updKid k (erasePath (k' :: ks)) n.kids)

/-- Two paths that differ at some key. -/
inductive Diverge : List Str → List Str → Prop
  | here {k1 k2 s1 s2} : k1 ≠ k2 → Diverge (k1 :: s1) (k2 :: s2)
  | there {k p q} : Diverge p q → Diverge (k :: p) (k :: q)

/-- Every key of the path occurs at most once among its siblings. -/
def UniqAlong : PropNode → List Str → Prop
  | _, [] => True
  | n, k :: ks => (keys n.kids).count k ≤ 1 ∧ ∀ c, findKid k n.kids = some c → UniqAlong c ks

theorem findIdx_split {k : Str} {ks : Kids} {i : Nat} (h : (keys ks).findIdx? (fun x => x = k) = some i) :
    ∃ as c bs, ks = as ++ (k, c) :: bs ∧ k ∉ keys as ∧ as.length = i := by
  obtain ⟨hlt, h1, h2⟩ := List.findIdx?_eq_some_iff_getElem.1 h
  have hlt' : i < ks.length := by simpa [keys] using hlt
  refine ⟨ks.take i, ks[i].2, ks.drop (i + 1), ?_, ?_, by simp; omega⟩
  · have e : (k, ks[i].2) = ks[i] := by
      have : ks[i].1 = k := by simpa [keys] using h1
      rw [← this]
    rw [e, List.getElem_cons_drop, List.take_append_drop]
  · intro hm
    simp only [keys, List.mem_map] at hm
    obtain ⟨p, hp, rfl⟩ := hm
    obtain ⟨j, hj, rfl⟩ := List.mem_iff_getElem.1 hp
    have hj' : j < i := by simp at hj; omega
    have := h2 j hj'
    simp [keys] at this

theorem queryIdx_cases {n : PropNode} {k : Str} (h : PlainKey k) :
    (n.queryIdx k = none ∧ findKid k n.kids = none) ∨
      ∃ i c, n.queryIdx k = some i ∧ findKid k n.kids = some c ∧ n.kidAt i = some c ∧
        ∀ f, n.updAt i f = n.withKids (updKid k f n.kids) := by
  rw [queryIdx_plain h]
  cases hi : (keys n.kids).findIdx? (fun x => x = k) with
  | none =>
    left
    refine ⟨rfl, ?_⟩
    rw [findKid_none_iff]
    rw [List.findIdx?_eq_none_iff] at hi
    intro hm
    simpa using hi k hm
  | some i =>
    right
    obtain ⟨as, c, bs, e, hn, hl⟩ := findIdx_split hi
    refine ⟨i, c, rfl, by rw [e]; exact findKid_append_hit hn, ?_, ?_⟩
    · unfold kidAt; rw [e, List.getElem?_append_right (by omega)]; simp [hl]
    · intro f
      unfold updAt
      congr 1
      rw [e, updKid_append_hit hn, ← hl]
      apply List.ext_getElem?
      intro j
      rw [List.getElem?_modify]
      rcases Nat.lt_trichotomy j as.length with hj | hj | hj
      · rw [List.getElem?_append_left hj, List.getElem?_append_left hj]
        have : ¬ as.length = j := by omega
        simp [this]
      · subst hj; simp
      · rw [List.getElem?_append_right (by omega), List.getElem?_append_right (by omega)]
        have e1 : ¬ as.length = j := by omega
        have e2 : j - as.length = (j - as.length - 1) + 1 := by omega
        rw [e2]; simp [e1]

theorem tryGetQuery_lookup {d : Char} (n : PropNode) (k : Str) (ks : List Str) (h : PathKeys d k ks)
    (hp : ∀ x ∈ k :: ks, PlainKey x) : n.tryGetQuery (pathStr d k ks) d = n.lookup (k :: ks) := by
  induction ks generalizing n k with
  | nil =>
    rw [tryGetQuery_last h.1]
    rcases queryIdx_cases (n := n) (hp k (by simp)) with ⟨h1, h2⟩ | ⟨i, c, h1, h2, h3, _⟩
    · rw [h1]; simp [lookup, h2]
    · rw [h1]; simp [lookup, h2, h3]
  | cons k' ks ih =>
    rw [tryGetQuery_cons h.1]
    have ih := fun n => ih n k' ⟨h.2 k' (by simp), fun x hx => h.2 x (by simp [hx])⟩
      (fun x hx => hp x (List.mem_cons_of_mem _ hx))
    rcases queryIdx_cases (n := n) (hp k (by simp)) with ⟨h1, h2⟩ | ⟨i, c, h1, h2, h3, _⟩
    · rw [h1, lookup, h2]; rfl
    · rw [h1, lookup, h2]
      simp only [Option.bind_some, h3]
      exact ih c

theorem updQuery_path {d : Char} (n : PropNode) (k : Str) (ks : List Str) (f : PropNode → PropNode) (h : PathKeys d k ks)
    (hp : ∀ x ∈ k :: ks, PlainKey x) : n.updQuery (pathStr d k ks) d f = updPath f (k :: ks) n := by
  induction ks generalizing n k with
  | nil =>
    rw [updQuery_last h.1]
    simp only [updPath, updOrAdd, tryGetChild]
    rcases queryIdx_cases (n := n) (hp k (by simp)) with ⟨h1, h2⟩ | ⟨i, c, h1, h2, h3, h4⟩
    · rw [h1, h2]
    · rw [h1, h2]; exact h4 f
  | cons k' ks ih =>
    rw [updQuery_cons h.1]
    have ih := fun n => ih n k' ⟨h.2 k' (by simp), fun x hx => h.2 x (by simp [hx])⟩
      (fun x hx => hp x (List.mem_cons_of_mem _ hx))
    rw [updPath, updOrAdd, tryGetChild]
    rcases queryIdx_cases (n := n) (hp k (by simp)) with ⟨h1, h2⟩ | ⟨i, c, h1, h2, h3, h4⟩
    · rw [h1, h2]; simp only [ih]
    · rw [h1, h2]
      simp only
      rw [h4]
      congr 2
      funext c
      exact ih c

theorem eraseQuery_path (n : PropNode) (k : Str) (ks : List Str) (h : PathKeys '.' k ks)
    (hp : ∀ x ∈ k :: ks, PlainKey x) : (n.eraseQuery (pathStr '.' k ks) '.').2 = erasePath (k :: ks) n := by
  induction ks generalizing n k with
  | nil => rw [eraseQuery_last h.1]; rfl
  | cons k' ks ih =>
    rw [eraseQuery_cons h.1 h.1]
    have ih := fun n => ih n k' ⟨h.2 k' (by simp), fun x hx => h.2 x (by simp [hx])⟩
      (fun x hx => hp x (List.mem_cons_of_mem _ hx))
    rw [erasePath]
    rcases queryIdx_cases (n := n) (hp k (by simp)) with ⟨h1, h2⟩ | ⟨i, c, h1, h2, h3, h4⟩
    · rw [h1]
      simp only
      have : updKid k (erasePath (k' :: ks)) n.kids = n.kids := by
        have hn := findKid_none_iff.1 h2
        generalize n.kids = l at hn
        induction l with
        | nil => rfl
        | cons p l ihl =>
          obtain ⟨k2, c⟩ := p
          simp only [keys, List.map_cons, List.mem_cons, not_or] at hn
          simp only [updKid, if_neg (fun e => hn.1 (Eq.symm e))]
          rw [ihl hn.2]
      rw [this]
      exact (eta n).symm
    · rw [h1]
      simp only [h3]
      rw [h4]
      congr 2
      funext c
      exact ih c

theorem findKid_updOrAdd_self (n : PropNode) (k : Str) (f : PropNode → PropNode) :
    findKid k (n.updOrAdd k f).kids = some (f ((findKid k n.kids).getD empty)) := by
  unfold updOrAdd tryGetChild
  cases h : findKid k n.kids with
  | some c => simp [findKid_updKid_self, h]
  | none => simp [addChild, findKid_append, h, findKid]

theorem findKid_updOrAdd_ne {k k2 : Str} (hne : k2 ≠ k) (n : PropNode) (f : PropNode → PropNode) :
    findKid k2 (n.updOrAdd k f).kids = findKid k2 n.kids := by
  unfold updOrAdd tryGetChild
  cases h : findKid k n.kids with
  | some c => simp [findKid_updKid_ne hne]
  | none =>
    have : ¬ k = k2 := fun e => hne e.symm
    simp [addChild, findKid_append, findKid, this]

theorem lookup_empty {p : List Str} (h : p ≠ []) : PropNode.empty.lookup p = none := by
  cases p with
  | nil => exact absurd rfl h
  | cons k ks => rfl

theorem Diverge.ne_nil {p q : List Str} (h : Diverge p q) : p ≠ [] ∧ q ≠ [] := by cases h <;> simp

theorem Diverge.symm {p q : List Str} (h : Diverge p q) : Diverge q p := by
  induction h with
  | here h => exact .here (Ne.symm h)
  | there _ ih => exact .there ih

theorem lookup_updPath_self (f : PropNode → PropNode) (p : List Str) (n : PropNode) :
    (updPath f p n).lookup p = some (f ((n.lookup p).getD empty)) := by
  induction p generalizing n with
  | nil => rfl
  | cons k ks ih =>
    rw [updPath, lookup, findKid_updOrAdd_self, Option.bind_some, ih, lookup]
    cases findKid k n.kids with
    | some c => rfl
    | none =>
      cases ks with
      | nil => rfl
      | cons k' ks => rw [Option.getD_none, lookup_empty (by simp)]; rfl

theorem lookup_updPath_diverge {p q : List Str} (h : Diverge p q) (f : PropNode → PropNode) (n : PropNode) :
    (updPath f p n).lookup q = n.lookup q := by
  induction h generalizing n with
  | here hne => rw [updPath, lookup, findKid_updOrAdd_ne (Ne.symm hne), lookup]
  | @there k p q hd ih =>
    rw [updPath, lookup, findKid_updOrAdd_self, Option.bind_some, ih, lookup]
    cases findKid k n.kids with
    | some c => rfl
    | none => rw [Option.getD_none, lookup_empty hd.ne_nil.2]; rfl

theorem findKid_erase_ne {k k2 : Str} (hne : k2 ≠ k) (n : PropNode) :
    findKid k2 (n.erase k).2.kids = findKid k2 n.kids := by
  unfold erase
  simp only [kids_mk]
  cases h : findKid k n.kids with
  | some c =>
    obtain ⟨as, bs, e, hn⟩ := findKid_split h
    have : ¬ k = k2 := fun e => hne e.symm
    rw [e, eraseKid_append_hit hn]
    simp only [findKid_append, findKid, this, if_false]
  | none => rw [eraseKid_miss (findKid_none_iff.1 h)]

theorem count_erase (n : PropNode) (k k2 : Str) : (keys (n.erase k).2.kids).count k2 ≤ (keys n.kids).count k2 := by
  unfold erase
  simp only [kids_mk]
  cases h : findKid k n.kids with
  | some c =>
    obtain ⟨as, bs, e, hn⟩ := findKid_split h
    rw [e, eraseKid_append_hit hn]
    simp only [keys, List.map_append, List.map_cons, List.count_append, List.count_cons]
    omega
  | none => rw [eraseKid_miss (findKid_none_iff.1 h)]; exact Nat.le_refl _

theorem findKid_erase_self {k : Str} {n : PropNode} (hu : (keys n.kids).count k ≤ 1) :
    findKid k (n.erase k).2.kids = none := by
  rw [findKid_none_iff]
  unfold erase
  simp only [kids_mk]
  cases h : findKid k n.kids with
  | some c =>
    obtain ⟨as, bs, e, hn⟩ := findKid_split h
    rw [e] at hu ⊢
    rw [eraseKid_append_hit hn]
    simp only [keys, List.map_append, List.map_cons, List.count_append, List.count_cons_self] at hu
    simp only [keys, List.map_append, List.mem_append, not_or]
    exact ⟨hn, List.count_eq_zero.1 (by omega)⟩
  | none => rw [eraseKid_miss (findKid_none_iff.1 h)]; exact findKid_none_iff.1 h

theorem lookup_erasePath_self {p : List Str} (hp : p ≠ []) {n : PropNode} (hu : UniqAlong n p) :
    (erasePath p n).lookup p = none := by
  induction p generalizing n with
  | nil => exact absurd rfl hp
  | cons k ks ih =>
    cases ks with
    | nil => rw [erasePath, lookup, findKid_erase_self hu.1]; rfl
    | cons k' ks =>
      rw [erasePath, lookup, kids_withKids, findKid_updKid_self]
      cases h : findKid k n.kids with
      | none => rfl
      | some c => exact ih (by simp) (hu.2 c h)

theorem lookup_erasePath_diverge {p q : List Str} (h : Diverge p q) (n : PropNode) :
    (erasePath p n).lookup q = n.lookup q := by
  induction h generalizing n with
  | @here k1 k2 s1 s2 hne =>
    cases s1 with
    | nil => rw [erasePath, lookup, findKid_erase_ne (Ne.symm hne), lookup]
    | cons k' ks => rw [erasePath, lookup, kids_withKids, findKid_updKid_ne (Ne.symm hne), lookup]
  | @there k p q hd ih =>
    cases p with
    | nil => exact absurd rfl hd.ne_nil.1
    | cons k' ks =>
      rw [erasePath, lookup, kids_withKids, findKid_updKid_self, lookup]
      cases findKid k n.kids with
      | none => rfl
      | some c => exact ih c

theorem uniqAlong_empty (p : List Str) : UniqAlong empty p := by
  cases p with
  | nil => trivial
  | cons k ks => exact ⟨Nat.zero_le _, fun c h => by cases h⟩

theorem count_updOrAdd (n : PropNode) (k k2 : Str) (f : PropNode → PropNode) (h : (keys n.kids).count k2 ≤ 1) :
    (keys (n.updOrAdd k f).kids).count k2 ≤ 1 := by
  unfold updOrAdd tryGetChild
  cases hk : findKid k n.kids with
  | some c => simp only [kids_withKids, keys_updKid]; exact h
  | none =>
    simp only [addChild, kids_withKids, keys, List.map_append, List.count_append, List.map_cons, List.map_nil]
    by_cases e : k = k2
    · subst e
      have : (keys n.kids).count k = 0 := List.count_eq_zero.2 (findKid_none_iff.1 hk)
      simp only [keys] at this
      simp [this]
    · simp only [keys] at h
      simpa [List.count_cons, e] using h

theorem uniqAlong_updPath_self (v : PropNode) (p : List Str) {n : PropNode} (hu : UniqAlong n p) :
    UniqAlong (updPath (fun _ => v) p n) p := by
  induction p generalizing n with
  | nil => trivial
  | cons k ks ih =>
    refine ⟨count_updOrAdd n k k _ hu.1, ?_⟩
    intro c hc
    rw [updPath, findKid_updOrAdd_self] at hc
    cases hc
    apply ih
    cases h : findKid k n.kids with
    | some c => exact hu.2 c h
    | none => exact uniqAlong_empty ks

theorem uniqAlong_updPath_diverge {p q : List Str} (h : Diverge p q) (f : PropNode → PropNode) {n : PropNode}
    (hu : UniqAlong n q) : UniqAlong (updPath f p n) q := by
  induction h generalizing n with
  | @here k1 k2 s1 s2 hne =>
    refine ⟨count_updOrAdd n k1 k2 _ hu.1, ?_⟩
    intro c hc
    rw [updPath, findKid_updOrAdd_ne (Ne.symm hne)] at hc
    exact hu.2 c hc
  | @there k p q hd ih =>
    refine ⟨count_updOrAdd n k k _ hu.1, ?_⟩
    intro c hc
    rw [updPath, findKid_updOrAdd_self] at hc
    cases hc
    apply ih
    cases h : findKid k n.kids with
    | some c => exact hu.2 c h
    | none => exact uniqAlong_empty q

theorem uniqAlong_erasePath (p q : List Str) (h : p = q ∨ Diverge p q) {n : PropNode} (hu : UniqAlong n q) :
    UniqAlong (erasePath p n) q := by
  induction p generalizing n q with
  | nil => exact hu
  | cons k ks ih =>
    cases q with
    | nil => trivial
    | cons k2 qs =>
      cases ks with
      | nil =>
        refine ⟨Nat.le_trans (count_erase n k k2) hu.1, ?_⟩
        intro c hc
        by_cases e : k2 = k
        · subst e
          rw [erasePath, findKid_erase_self hu.1] at hc
          cases hc
        · rw [erasePath, findKid_erase_ne e] at hc
          exact hu.2 c hc
      | cons k' ks =>
        refine ⟨by rw [erasePath, kids_withKids, keys_updKid]; exact hu.1, ?_⟩
        intro c hc
        rw [erasePath, kids_withKids] at hc
        by_cases e : k2 = k
        · subst e
          rw [findKid_updKid_self] at hc
          cases h2 : findKid k2 n.kids with
          | none => rw [h2] at hc; cases hc
          | some c0 =>
            rw [h2] at hc
            cases hc
            refine ih qs ?_ (hu.2 c0 h2)
            rcases h with h | h
            · cases h; exact Or.inl rfl
            · cases h with
              | here hne => exact absurd rfl hne
              | there hd => exact Or.inr hd
        · rw [findKid_updKid_ne e] at hc
          exact hu.2 c hc

/-- Two different paths, neither of which continues the other, diverge. -/
theorem diverge_of {d : Char} : ∀ (k1 : Str) (s1 : List Str) (k2 : Str) (s2 : List Str),
    pathStr d k1 s1 ≠ pathStr d k2 s2 → (∀ t, pathStr d k2 s2 ≠ pathStr d k1 s1 ++ d :: t) →
    (∀ t, pathStr d k1 s1 ≠ pathStr d k2 s2 ++ d :: t) → Diverge (k1 :: s1) (k2 :: s2) := by
  intro k1 s1
  induction s1 generalizing k1 with
  | nil =>
    intro k2 s2 h1 h2 h3
    by_cases e : k1 = k2
    · subst e
      cases s2 with
      | nil => exact absurd rfl h1
      | cons k s => exact absurd rfl (h2 (pathStr d k s))
    · exact .here e
  | cons k s ih =>
    intro k2 s2 h1 h2 h3
    by_cases e : k1 = k2
    · subst e
      cases s2 with
      | nil => exact absurd rfl (h3 (pathStr d k s))
      | cons k' s' =>
        refine .there (ih k k' s' ?_ ?_ ?_)
        · intro e; exact h1 (by simp only [pathStr, e])
        · intro t e; exact h2 t (by simp only [pathStr, e, List.append_assoc, List.cons_append])
        · intro t e; exact h3 t (by simp only [pathStr, e, List.append_assoc, List.cons_append])
    · exact .here e

end PropNode
end Xo
