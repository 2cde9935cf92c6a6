import Verif.Model.ProfReport
import Verif.Props.C37_Profiler
import Mathlib.Data.List.Nodup
import Mathlib.Tactic.Positivity
import Mathlib.Algebra.Order.Field.Rat
import Mathlib.Data.List.Sort
import Mathlib.Algebra.BigOperators.Group.List.Basic

/-!
C108: the report of the profiler.
-/
namespace Xo.ProfRep
open Xo Profiler

namespace Spec
/-- The first section is the root, and every other section lies under an earlier one. -/
def Tree (secs : List Section) : Prop :=
  secs ≠ [] ∧ (∀ s, secs[0]? = some s → s.parent = none) ∧ ∀ (i : Nat) (s : Section), 0 < i → secs[i]? = some s → ∃ p, s.parent = some p ∧ p < i

/-- Section `j` is `i`, or is below it, and all between them that are above `j` are expanded. -/
inductive Shown (secs : List Section) (expand : Nat → Bool) (i : Nat) : Nat → Prop
  | self : Shown secs expand i i
  | child {p j : Nat} {s : Section} : Shown secs expand i p → expand p = true → secs[j]? = some s → s.parent = some p → Shown secs expand i j

mutual
/-- The sections of a report from top to bottom. -/
def ids : Rep → List Nat
  | .mk i ks => i :: idsAll ks
def idsAll : List Rep → List Nat
  | [] => []
  | t :: ts => ids t ++ idsAll ts
end

def top : Rep → Nat
  | .mk i _ => i

mutual
/-- Every expanded section is followed by all its children, with falling total times; the others by nothing. -/
def Right (secs : List Section) (expand : Nat → Bool) : Rep → Prop
  | .mk i ks => (if expand i = true then (ks.map top).Perm (children secs i) ∧ (ks.map top).Pairwise (fun a b => total secs b ≤ total secs a) else ks = []) ∧
    RightAll secs expand ks
def RightAll (secs : List Section) (expand : Nat → Bool) : List Rep → Prop
  | [] => True
  | t :: ts => Right secs expand t ∧ RightAll secs expand ts
end

/-- What is known of `std::sort`. -/
def Sorts (secs : List Section) (sort : List Nat → List Nat) : Prop :=
  ∀ l, (sort l).Perm l ∧ (sort l).Pairwise fun a b => total secs b ≤ total secs a
end Spec
open Spec

/-- The sections that the profiler makes are a tree (C37). -/
theorem tree_of_paths {secs : List Section} {paths : List (List Nat)} (h : Xo.Paths secs paths) : Tree secs := by
  obtain ⟨s, h1, h2, -⟩ := h.root
  refine ⟨by rintro rfl; simp at h1, fun s' h' => by rw [h1] at h'; cases h'; exact h2, fun i s hi hs => ?_⟩
  obtain ⟨p, q, h3, h4, -⟩ := h.child i s hi hs
  exact ⟨p, h3, h4⟩

theorem mem_children {secs : List Section} {i j : Nat} : j ∈ children secs i ↔ ∃ s, secs[j]? = some s ∧ s.parent = some i := by
  unfold children
  rw [List.mem_filter, List.mem_range]
  constructor
  · rintro ⟨h1, h2⟩
    rw [List.getElem?_eq_getElem h1] at h2 ⊢
    exact ⟨_, rfl, by simpa using h2⟩
  · rintro ⟨s, h1, h2⟩
    refine ⟨(List.getElem?_eq_some_iff.1 h1).1, ?_⟩
    rw [h1]; simpa using h2

theorem children_later {secs : List Section} (ht : Tree secs) {i j : Nat} (h : j ∈ children secs i) : i < j ∧ j < secs.length := by
  obtain ⟨s, h1, h2⟩ := mem_children.1 h
  have hl := (List.getElem?_eq_some_iff.1 h1).1
  refine ⟨?_, hl⟩
  rcases Nat.eq_zero_or_pos j with rfl | hj
  · rw [ht.2.1 s h1] at h2; cases h2
  · obtain ⟨p, h3, h4⟩ := ht.2.2 j s hj h1
    rw [h2] at h3; cases h3; exact h4

theorem allOf_some {f : Nat → Option Rep} {l : List Nat} (h : ∀ j ∈ l, ∃ t, f j = some t) : ∃ ts, allOf f l = some ts := by
  induction l with
  | nil => exact ⟨[], rfl⟩
  | cons j l ih =>
    obtain ⟨t, ht⟩ := h j (by simp)
    obtain ⟨ts, hts⟩ := ih (fun j hj => h j (by simp [hj]))
    exact ⟨t :: ts, by rw [allOf, ht, hts]⟩

theorem build_some {secs : List Section} (ht : Tree secs) {expand : Nat → Bool} {sort : List Nat → List Nat} (hs : ∀ l, (sort l).Perm l) (n : Nat) :
    ∀ i, i < secs.length → secs.length ≤ n + i → ∃ t, build secs expand sort n i = some t := by
  induction n with
  | zero => intro i h1 h2; omega
  | succ n ih =>
    intro i h1 h2
    rw [build]
    split
    · obtain ⟨ts, hts⟩ := allOf_some (f := build secs expand sort n) (l := sort (children secs i)) (fun j hj => by
        have := children_later ht ((hs _).mem_iff.1 hj)
        exact ih j this.2 (by omega))
      exact ⟨_, by rw [hts]; rfl⟩
    · exact ⟨_, rfl⟩

theorem allOf_spec {f : Nat → Option Rep} : ∀ {l : List Nat} {ts : List Rep}, allOf f l = some ts →
    (∀ j ∈ l, ∀ t, f j = some t → top t = j) → ts.map top = l ∧ ∀ t ∈ ts, f (top t) = some t := by
  intro l
  induction l with
  | nil => intro ts h _; cases h; exact ⟨rfl, by simp⟩
  | cons j l ih =>
    intro ts h htop
    rw [allOf] at h
    split at h
    · next t ts' h1 h2 =>
      cases h
      obtain ⟨h3, h4⟩ := ih h2 (fun j hj => htop j (by simp [hj]))
      have h5 := htop j (by simp) t h1
      refine ⟨by simp [h3, h5], ?_⟩
      intro t' ht'
      rcases List.mem_cons.1 ht' with rfl | ht'
      · rw [h5]; exact h1
      · exact h4 t' ht'
    · cases h

theorem build_top {secs : List Section} {expand : Nat → Bool} {sort : List Nat → List Nat} {n i : Nat} {t : Rep}
    (h : build secs expand sort n i = some t) : top t = i := by
  cases n with
  | zero => cases h
  | succ n =>
    rw [build] at h
    split at h
    · obtain ⟨ts, -, rfl⟩ := Option.map_eq_some_iff.1 h; rfl
    · cases h; rfl

theorem rightAll_of {secs : List Section} {expand : Nat → Bool} : ∀ {ts : List Rep}, (∀ t ∈ ts, Right secs expand t) → RightAll secs expand ts
  | [], _ => trivial
  | t :: ts, h => ⟨h t (by simp), rightAll_of (fun t ht => h t (by simp [ht]))⟩

theorem build_right {secs : List Section} {expand : Nat → Bool} {sort : List Nat → List Nat} (hs : Sorts secs sort) (n : Nat) :
    ∀ i t, build secs expand sort n i = some t → Right secs expand t := by
  induction n with
  | zero => intro i t h; cases h
  | succ n ih =>
    intro i t h
    rw [build] at h
    split at h
    · next he =>
      obtain ⟨ts, h1, rfl⟩ := Option.map_eq_some_iff.1 h
      obtain ⟨h2, h3⟩ := allOf_spec h1 (fun j _ t ht => build_top ht)
      rw [Right]
      refine ⟨?_, rightAll_of fun t ht => ih _ t (h3 t ht)⟩
      rw [if_pos he, h2]
      exact hs _
    · next he =>
      cases h
      rw [Right, if_neg he]
      exact ⟨rfl, trivial⟩

/-! ### Each section once -/

theorem shown_le {secs : List Section} (ht : Tree secs) {expand : Nat → Bool} {i j : Nat} (h : Shown secs expand i j) : i ≤ j := by
  induction h with
  | self => exact Nat.le_refl _
  | child _ _ h1 h2 ih => have := children_later ht (mem_children.2 ⟨_, h1, h2⟩); omega

theorem shown_lt {secs : List Section} {expand : Nat → Bool} {i j : Nat} (hi : i < secs.length) (h : Shown secs expand i j) : j < secs.length := by
  cases h with
  | self => exact hi
  | child _ _ h1 _ => exact (List.getElem?_eq_some_iff.1 h1).1

/-- The first step downwards. -/
theorem shown_iff {secs : List Section} {expand : Nat → Bool} {i j : Nat} :
    Shown secs expand i j ↔ j = i ∨ (expand i = true ∧ ∃ c ∈ children secs i, Shown secs expand c j) := by
  constructor
  · intro h
    induction h with
    | self => exact Or.inl rfl
    | child h0 he h1 h2 ih =>
      rcases ih with rfl | ⟨h3, c, h4, h5⟩
      · exact Or.inr ⟨he, _, mem_children.2 ⟨_, h1, h2⟩, .self⟩
      · exact Or.inr ⟨h3, c, h4, .child h5 he h1 h2⟩
  · rintro (rfl | ⟨he, c, hc, h⟩)
    · exact .self
    · obtain ⟨s, h1, h2⟩ := mem_children.1 hc
      induction h with
      | self => exact .child .self he h1 h2
      | child _ h3 h4 h5 ih => exact .child ih h3 h4 h5

/-- Of two sections above the same one, one is above the other. -/
theorem shown_linear {secs : List Section} {expand : Nat → Bool} {a b j : Nat} (ha : Shown secs expand a j) (hb : Shown secs expand b j) :
    Shown secs expand a b ∨ Shown secs expand b a := by
  induction ha with
  | self => exact Or.inr hb
  | child h0 he h1 h2 ih =>
    cases hb with
    | self => exact Or.inl (.child h0 he h1 h2)
    | child h3 h4 h5 h6 =>
      rw [h1] at h5; cases h5
      rw [h2] at h6; cases h6
      exact ih h3

theorem siblings {secs : List Section} (ht : Tree secs) {expand : Nat → Bool} {i a b j : Nat} (ha : a ∈ children secs i) (hb : b ∈ children secs i)
    (h1 : Shown secs expand a j) (h2 : Shown secs expand b j) : a = b := by
  have key : ∀ {a b}, a ∈ children secs i → b ∈ children secs i → Shown secs expand a b → a = b := by
    intro a b ha hb h
    cases h with
    | self => rfl
    | child h0 _ h3 h4 =>
      obtain ⟨s, h5, h6⟩ := mem_children.1 hb
      rw [h3] at h5; cases h5
      rw [h4] at h6; cases h6
      have := shown_le ht h0
      have := children_later ht ha
      omega
  rcases shown_linear h1 h2 with h | h
  · exact key ha hb h
  · exact (key hb ha h).symm

theorem idsAll_eq (ts : List Rep) : idsAll ts = (ts.map ids).flatten := by
  induction ts with
  | nil => rfl
  | cons t ts ih => rw [idsAll, ih]; rfl

theorem build_ids {secs : List Section} (ht : Tree secs) {expand : Nat → Bool} {sort : List Nat → List Nat} (hs : ∀ l, (sort l).Perm l) (n : Nat) :
    ∀ i t, build secs expand sort n i = some t → (ids t).Nodup ∧ ∀ j, j ∈ ids t ↔ Shown secs expand i j := by
  induction n with
  | zero => intro i t h; cases h
  | succ n ih =>
    intro i t h
    rw [build] at h
    split at h
    · next he =>
      obtain ⟨ts, h1, rfl⟩ := Option.map_eq_some_iff.1 h
      obtain ⟨h2, h3⟩ := allOf_spec h1 (fun j _ t ht => build_top ht)
      have hmem : ∀ t ∈ ts, top t ∈ children secs i := fun t htt => (hs _).mem_iff.1 (h2 ▸ List.mem_map_of_mem htt)
      have hnd : (ts.map top).Nodup := by
        rw [h2, (hs _).nodup_iff]
        exact List.Nodup.filter _ List.nodup_range
      have hmem2 : ∀ j, j ∈ idsAll ts ↔ ∃ c ∈ children secs i, Shown secs expand c j := by
        intro j
        rw [idsAll_eq, List.mem_flatten]
        constructor
        · rintro ⟨l, hl, hj⟩
          obtain ⟨t, htt, rfl⟩ := List.mem_map.1 hl
          exact ⟨top t, hmem t htt, ((ih _ t (h3 t htt)).2 j).1 hj⟩
        · rintro ⟨c, hc, hj⟩
          have : c ∈ ts.map top := by rw [h2]; exact (hs _).mem_iff.2 hc
          obtain ⟨t, htt, rfl⟩ := List.mem_map.1 this
          exact ⟨ids t, List.mem_map_of_mem htt, ((ih _ t (h3 t htt)).2 j).2 hj⟩
      constructor
      · rw [ids, List.nodup_cons]
        constructor
        · intro hi
          obtain ⟨c, hc, hsc⟩ := (hmem2 i).1 hi
          have := shown_le ht hsc
          have := children_later ht hc
          omega
        · rw [idsAll_eq, List.nodup_flatten]
          constructor
          · intro l hl
            obtain ⟨t, htt, rfl⟩ := List.mem_map.1 hl
            exact (ih _ t (h3 t htt)).1
          · rw [List.pairwise_map]
            have hp : ts.Pairwise (fun a b => top a ≠ top b) := by
              have := hnd
              unfold List.Nodup at this
              rwa [List.pairwise_map] at this
            refine List.Pairwise.imp_of_mem ?_ hp
            intro a b ha hb hab j hja hjb
            exact hab (siblings ht (hmem a ha) (hmem b hb) (((ih _ a (h3 a ha)).2 j).1 hja) (((ih _ b (h3 b hb)).2 j).1 hjb))
      · intro j
        rw [ids, List.mem_cons, hmem2, shown_iff]
        simp [he]
    · next he =>
      cases h
      refine ⟨by simp [ids, idsAll], fun j => ?_⟩
      rw [shown_iff]
      simp [ids, idsAll, he]

/-- **C108.** The report of a profiler that was started: it ends, a section is followed by all its children with falling total times if its part of the
total is large enough and by nothing otherwise, and every section all of whose parents are large enough is in the report exactly once. -/
theorem C108_report (s : State) (now est : Int) (fmt : Figures → Str) (sort : List Nat → List Nat) (m : Rat) (tags : Bool) (he : s.enabled = false)
    (ht : Tree s.sections) (hs : Sorts s.sections sort) :
    ∃ t, report s now est fmt sort m tags = .ok (s, .mk [] [t.node s.sections est fmt tags] false) ∧ top t = 0 ∧
      Right s.sections (expanded s.sections m) t ∧ (ids t).Nodup ∧ ∀ j, j ∈ ids t ↔ Shown s.sections (expanded s.sections m) 0 j := by
  have hl : 0 < s.sections.length := List.length_pos_iff.2 ht.1
  obtain ⟨t, h⟩ := build_some ht (expand := expanded s.sections m) (fun l => (hs l).1) s.sections.length 0 hl (by omega)
  obtain ⟨h1, h2⟩ := build_ids ht (fun l => (hs l).1) _ _ _ h
  refine ⟨t, ?_, build_top h, build_right hs _ _ _ h, h1, h2⟩
  unfold report
  rw [if_neg (by simp [he]), Res.bind, if_neg ht.1, h]

/-- **C108.** With a minimum of zero all sections are in the report, if no time is negative and the total is not zero. -/
theorem C108_all (secs : List Section) (ht : Tree secs) (h0 : 0 < total secs 0) (hn : ∀ i, 0 ≤ total secs i) (j : Nat) :
    Shown secs (expanded secs 0) 0 j ↔ j < secs.length := by
  have hex : ∀ i, expanded secs 0 i = true := by
    intro i
    unfold expanded
    rw [if_neg (by omega), decide_eq_true_eq]
    have h1 : (0 : Rat) ≤ (total secs i : Rat) := by exact_mod_cast hn i
    have h2 : (0 : Rat) ≤ (total secs 0 : Rat) := by exact_mod_cast h0.le
    positivity
  constructor
  · exact shown_lt (List.length_pos_iff.2 ht.1)
  · intro hj
    induction j using Nat.strong_induction_on with
    | _ j ih =>
      rcases Nat.eq_zero_or_pos j with rfl | hp
      · exact .self
      · obtain ⟨p, h1, h2⟩ := ht.2.2 j secs[j] hp (List.getElem?_eq_getElem hj)
        exact .child (ih p h2 (by omega)) (hex p) (List.getElem?_eq_getElem hj) h1

/-! ### The overhead -/

/-- The sum of the counts of some sections. -/
def counts (secs : List Section) (l : List Nat) : Int := (l.map fun j => (((secs[j]?).map (·.count)).getD 0 : Int)).sum

theorem counts_idsAll (secs : List Section) (ts : List Rep) : counts secs (idsAll ts) = (ts.map fun t => counts secs (ids t)).sum := by
  induction ts with
  | nil => rfl
  | cons t ts ih => rw [idsAll, counts, List.map_append, List.sum_append]; rw [List.map_cons, List.sum_cons, ← ih]; rfl

theorem overhead_build {secs : List Section} (est : Int) (n : Nat) : ∀ i t, build secs (fun _ => true) id n i = some t →
    overhead secs est n i = some (est * counts secs (ids t)) := by
  induction n with
  | zero => intro i t h; cases h
  | succ n ih =>
    intro i t h
    rw [build, if_pos rfl] at h
    obtain ⟨ts, h1, rfl⟩ := Option.map_eq_some_iff.1 h
    obtain ⟨h2, h3⟩ := allOf_spec h1 (fun j _ t ht => build_top ht)
    have hts : ∀ t ∈ ts, overhead secs est n (top t) = some (est * counts secs (ids t)) := fun t ht => ih _ t (h3 t ht)
    have key : ∀ (ts : List Rep) (a : Int), (∀ t ∈ ts, overhead secs est n (top t) = some (est * counts secs (ids t))) →
        (ts.map top).foldl (fun t j => match t, overhead secs est n j with
          | some t, some u => some (t + u)
          | _, _ => none) (some a) = some (a + est * counts secs (idsAll ts)) := by
      intro ts
      induction ts with
      | nil => intro a _; simp [idsAll, counts]
      | cons t ts iht =>
        intro a h
        rw [List.map_cons, List.foldl_cons, h t (by simp)]
        simp only
        rw [iht _ (fun t ht => h t (by simp [ht])), counts_idsAll, counts_idsAll, List.map_cons, List.sum_cons]
        congr 1
        ring
    rw [overhead]
    have h2' : children secs i = ts.map top := h2.symm
    rw [h2']
    refine (key ts _ hts).trans ?_
    rw [ids]
    congr 1
    rw [counts, counts, List.map_cons, List.sum_cons, mul_add]
    congr 2
    cases secs[i]? <;> rfl

/-- **C108.** The overhead of a section is the estimate for each time that the section, or one below it, was entered; that of the root is the
estimate for all of them. -/
theorem C108_overhead (secs : List Section) (ht : Tree secs) (est : Int) (i : Nat) (hi : i < secs.length) :
    (∃ l : List Nat, l.Nodup ∧ (∀ j, j ∈ l ↔ Shown secs (fun _ => true) i j) ∧ overhead secs est secs.length i = some (est * counts secs l)) ∧
      overhead secs est secs.length 0 = some (est * (secs.map fun s => (s.count : Int)).sum) := by
  have key : ∀ i, i < secs.length → ∃ l : List Nat, l.Nodup ∧ (∀ j, j ∈ l ↔ Shown secs (fun _ => true) i j) ∧
      overhead secs est secs.length i = some (est * counts secs l) := by
    intro i hi
    obtain ⟨t, h⟩ := build_some ht (expand := fun _ => true) (sort := id) (fun l => List.Perm.refl l) secs.length i hi (by omega)
    obtain ⟨h1, h2⟩ := build_ids ht (fun l => List.Perm.refl l) _ _ _ h
    exact ⟨ids t, h1, h2, overhead_build est _ _ _ h⟩
  refine ⟨key i hi, ?_⟩
  obtain ⟨l, h1, h2, h3⟩ := key 0 (by omega)
  have hall : ∀ j, Shown secs (fun _ => true) 0 j ↔ j < secs.length := by
    intro j
    constructor
    · exact shown_lt (by omega)
    · intro hj
      induction j using Nat.strong_induction_on with
      | _ j ih =>
        rcases Nat.eq_zero_or_pos j with rfl | hp
        · exact .self
        · obtain ⟨p, h4, h5⟩ := ht.2.2 j secs[j] hp (List.getElem?_eq_getElem hj)
          exact .child (ih p h5 (by omega)) rfl (List.getElem?_eq_getElem hj) h4
  have hp : l.Perm (List.range secs.length) := by
    rw [List.perm_ext_iff_of_nodup h1 List.nodup_range]
    intro j
    rw [h2, hall, List.mem_range]
  rw [h3]
  congr 2
  unfold counts
  rw [(hp.map _).sum_eq]
  congr 1
  apply List.ext_getElem
  · simp
  · intro k h4 h5
    have : k < secs.length := by simpa using h5
    simp [this]

/-! ### Lines -/

/-- **C108.** The line of a section has its name, behind the tag if there are tags, and the figures: total and exclusive time, the total of the root,
the overhead, and how often it was entered, if this was less than 2³¹ times. -/
theorem C108_line_partial (secs : List Section) (est : Int) (fmt : Figures → Str) (tags : Bool) (i : Nat) (ks : List Rep) (s : Section)
    (h : secs[i]? = some s) (hc : s.count < 2 ^ 31) :
    ∃ over, ((Rep.mk i ks).node secs est fmt tags).1 = (if tags then tag (exclusive secs i) (total secs 0) else []) ++ s.name.text.toList ∧
      ((Rep.mk i ks).node secs est fmt tags).2.value = fmt ⟨s.total, s.total - ((secs.filter (·.parent = some i)).map (·.total)).sum, total secs 0, over, s.count⟩ ∧
      (Tree secs → overhead secs est secs.length i = some over) := by
  refine ⟨(overhead secs est secs.length i).getD 0, ?_, ?_, ?_⟩
  · rw [Rep.node, h]; rfl
  · rw [Rep.node]
    show fmt _ = fmt _
    congr 1
    unfold figures
    rw [C37_exclusive secs i s h]
    have : int32 s.count = s.count := by
      unfold int32
      rw [Nat.mod_eq_of_lt (by omega), if_pos hc]
    simp [total, h, this]
  · intro ht
    obtain ⟨⟨l, -, -, h3⟩, -⟩ := C108_overhead secs ht est i (List.getElem?_eq_some_iff.1 h).1
    rw [h3]; rfl

/-- **C108.** The tag tells whether the section alone took less than 1, 5 or 15 percent of the total. -/
theorem C108_tag (excl root : Int) (hr : 0 < root) :
    (tag excl root = "@2".toList ↔ 100 * excl < root) ∧ (tag excl root = "@3".toList ↔ root ≤ 100 * excl ∧ 100 * excl < 5 * root) ∧
      (tag excl root = "@4".toList ↔ 5 * root ≤ 100 * excl ∧ 100 * excl < 15 * root) ∧ (tag excl root = "@5".toList ↔ 15 * root ≤ 100 * excl) := by
  have hb : ∀ m : Int, percBelow excl root m = decide (100 * excl < m * root) := by
    intro m
    unfold percBelow
    rw [if_neg (by omega)]
    have hr' : (0 : Rat) < (root : Rat) := by exact_mod_cast hr
    rw [decide_eq_decide, div_lt_iff₀ hr']
    exact_mod_cast Iff.rfl
  have h1 := hb 1
  have h5 := hb 5
  have h15 := hb 15
  simp only [Int.cast_one, Int.cast_ofNat] at h1 h5 h15
  unfold tag
  rw [h1, h5, h15]
  simp only [decide_eq_true_eq]
  split
  · simp; omega
  · split
    · simp; omega
    · split
      · simp; omega
      · simp; omega

/-- **C108.** A report ends a measurement that is running, but not one with a section that is still open: this is an error. -/
theorem C108_running (s : State) (now est : Int) (fmt : Figures → Str) (sort : List Nat → List Nat) (m : Rat) (tags : Bool) (he : s.enabled = true) :
    (s.current ≠ some 0 → report s now est fmt sort m tags = .err) ∧
      ∀ s', stop s now = .ok s' → report s now est fmt sort m tags = report s' now est fmt sort m tags ∧ s'.enabled = false := by
  constructor
  · intro hc
    unfold report stop
    rw [if_pos he, if_pos (by simp [hc])]
    rfl
  · intro s' h
    have : s'.enabled = false := by
      unfold stop at h
      split at h
      · cases h
      · cases h; rfl
    refine ⟨?_, this⟩
    conv_lhs => unfold report
    rw [if_pos he, h]
    conv_rhs => unfold report
    rw [if_neg (by simp [this])]

/-- **C108, violated.** A report before the first start is undefined. -/
theorem C108_empty_violated (now est : Int) (fmt : Figures → Str) (sort : List Nat → List Nat) (m : Rat) (tags : Bool) :
    report init now est fmt sort m tags = .ub := rfl

/-- **C108, violated.** From 2³¹ times on, the count in the report is negative or begins again at zero. -/
theorem C108_count_violated (secs : List Section) (est : Int) (i : Nat) (s : Section) (h : secs[i]? = some s) (hc : 2 ^ 31 ≤ s.count) :
    (figures secs est i).count ≠ s.count := by
  unfold figures
  rw [h]
  show int32 s.count ≠ s.count
  unfold int32
  split <;> omega

/-- A tree of three sections. -/
example : Tree [⟨⟨0, "r"⟩, none, 10, 0, 1⟩, ⟨⟨1, "a"⟩, some 0, 3, 0, 2⟩, ⟨⟨2, "b"⟩, some 0, 6, 0, 1⟩] := by
  refine ⟨by simp, by rintro s ⟨⟩; rfl, fun i s hi hs => ?_⟩
  match i, hi, hs with
  | 1, _, hs => cases hs; exact ⟨0, rfl, by omega⟩
  | 2, _, hs => cases hs; exact ⟨0, rfl, by omega⟩

end Xo.ProfRep
