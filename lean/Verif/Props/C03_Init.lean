import Verif.Props.C01_FlatMap
import Verif.Props.C02_FlatSet

/-!
C03: brace-initialised `flat_map`/`flat_set`. The constructor sorts but does not remove duplicates, so the
property fails as soon as a key is listed twice; with distinct keys it holds.

`std::sort` may order equal keys in any way, so the theorems quantify over every list `d` that `sort()` may
leave behind: a permutation of the listed elements in non-descending key order. `FlatMap.ofList` (a stable sort)
is one of them.
-/
namespace Xo
open Spec
variable {K V : Type} [LinearOrder K]

/-- Every outcome allowed for `flat_map( init_list )` (flat_map.h:29, 131-133). -/
def FlatMap.InitOutcome (l d : List (K × V)) : Prop :=
  d.Perm l ∧ d.Pairwise fun a b => ¬ b.1 < a.1

/-- Every outcome allowed for `flat_set( init_list )` (flat_set.h:26, 107-109). -/
def FlatSet.InitOutcome (l d : List K) : Prop :=
  d.Perm l ∧ d.Pairwise fun a b => ¬ b < a

/-- The stable-sort model is an allowed outcome. -/
theorem C03_ofList_outcome (l : List (K × V)) : FlatMap.InitOutcome l (FlatMap.ofList l).data := by
  refine ⟨List.mergeSort_perm _ _, ?_⟩
  have := List.pairwise_mergeSort (le := fun a b : K × V => !decide (b.1 < a.1)) ?_ ?_ l
  · exact this.imp (by simp)
  · intro a b c; simp only [Bool.not_eq_true', decide_eq_false_iff_not, not_lt]; exact le_trans
  · intro a b; simp only [Bool.or_eq_true, Bool.not_eq_true', decide_eq_false_iff_not, not_lt]; exact le_total _ _

theorem C03_set_ofList_outcome (l : List K) : FlatSet.InitOutcome l (FlatSet.ofList l).data := by
  refine ⟨List.mergeSort_perm _ _, ?_⟩
  have := List.pairwise_mergeSort (le := fun a b : K => !decide (b < a)) ?_ ?_ l
  · exact this.imp (by simp)
  · intro a b c; simp only [Bool.not_eq_true', decide_eq_false_iff_not, not_lt]; exact le_trans
  · intro a b; simp only [Bool.or_eq_true, Bool.not_eq_true', decide_eq_false_iff_not, not_lt]; exact le_total _ _

/-- Inserting the listed elements one by one. -/
def insertAll (l : List (K × V)) : List (MapOp K V) := l.map fun e => .insert e.1 e.2

theorem AMap.run_insertAll (dflt : V) (l : List (K × V)) (hn : (l.map (·.1)).Nodup) :
    ∀ s : AMap K V, (∀ e ∈ l, s e.1 = none) → ∀ k v,
      ((AMap.run dflt s (insertAll l)).1 k = some v ↔ s k = some v ∨ (k, v) ∈ l) := by
  induction l with
  | nil => intro s _ k v; simp [insertAll, AMap.run]
  | cons e l ih =>
    intro s hs k v
    obtain ⟨k0, v0⟩ := e
    have hn' : k0 ∉ l.map (·.1) ∧ (l.map (·.1)).Nodup := by simpa using hn
    have h0 : s k0 = none := hs (k0, v0) (by simp)
    have key : (AMap.run dflt s (insertAll ((k0, v0) :: l))).1 =
        (AMap.run dflt (s.update k0 (some v0)) (insertAll l)).1 := by
      simp [insertAll, AMap.run, AMap.step, h0]
    rw [key, ih hn'.2]
    · by_cases hk : k = k0
      · subst hk; simp only [AMap.update, if_true, h0, Option.some.injEq]
        have : (k, v) ∉ l := fun h => hn'.1 (List.mem_map_of_mem (f := (·.1)) h)
        simp [this, eq_comm]
      · simp [AMap.update, hk]
    · intro e he
      have : e.1 ≠ k0 := fun h => hn'.1 (h ▸ List.mem_map_of_mem (f := (·.1)) he)
      simp [AMap.update, this, hs e (by simp [he])]

/-- **C03, distinct keys.** If the listed keys are distinct, the container represents the map obtained by
inserting the listed elements one by one, so every later history agrees with that map (apply `C01_run`). -/
theorem C03_flat_map_init_partial (dflt : V) (l d : List (K × V)) (hd : FlatMap.InitOutcome l d)
    (hn : (l.map (·.1)).Nodup) (ops : List (MapOp K V)) :
    let r := (⟨d⟩ : FlatMap K V).run dflt ops
    let s := AMap.run dflt (AMap.run dflt (fun _ => none) (insertAll l)).1 ops
    r.2 = s.2 ∧ (∀ k v, (k, v) ∈ r.1.data ↔ s.1 k = some v) ∧ r.1.data.Pairwise (fun a b => a.1 < b.1) := by
  have hrel : FlatMap.Rel (⟨d⟩ : FlatMap K V) (AMap.run dflt (fun _ => none) (insertAll l)).1 := by
    constructor
    · have hnd : (d.map (·.1)).Nodup := (hd.1.map _).nodup_iff.2 hn
      have := List.pairwise_map.1 hnd
      exact (hd.2.and this).imp fun {a b} h => lt_of_le_of_ne (not_lt.1 h.1) h.2
    · intro k v
      rw [AMap.run_insertAll dflt l hn _ (by simp)]
      simp [hd.1.mem_iff]
  have := C01_run dflt ops _ _ hrel
  exact ⟨this.2, this.1.2, this.1.1⟩

/-- **C03, distinct elements, `flat_set`.** -/
theorem C03_flat_set_init_partial (l d : List K) (hd : FlatSet.InitOutcome l d) (hn : l.Nodup)
    (ops : List (SetOp K)) :
    let r := (⟨d⟩ : FlatSet K).run ops
    let s := ASet.run (fun k => decide (k ∈ l)) ops
    r.2 = s.2 ∧ (∀ k, k ∈ r.1.data ↔ s.1 k = true) ∧ r.1.data.Pairwise (· < ·) := by
  have hrel : FlatSet.Rel (⟨d⟩ : FlatSet K) (fun k => decide (k ∈ l)) := by
    constructor
    · exact (hd.2.and (hd.1.nodup_iff.2 hn)).imp fun {a b} h => lt_of_le_of_ne (not_lt.1 h.1) h.2
    · intro k; simp [hd.1.mem_iff]
  have := C02_run ops _ _ hrel
  exact ⟨this.2, this.1.2, this.1.1⟩

/-- In every outcome of a list that names key `k` at least twice, `k` is still contained after `erase( k )`. -/
theorem C03_flat_map_duplicate_survives_erase (l d : List (K × V)) (hd : FlatMap.InitOutcome l d) (k : K)
    (h2 : 2 ≤ l.countP fun e => decide (e.1 = k)) :
    ((⟨d⟩ : FlatMap K V).erase k).1.contains k = true := by
  obtain ⟨as, ms, cs, rfl, ha, hm, hc⟩ := wsplit (fun e : K × V => e.1) d hd.2 k
  have hcount : ms.length = l.countP fun e => decide (e.1 = k) := by
    rw [← hd.1.countP_eq, List.countP_append, List.countP_append,
      List.countP_eq_zero.2 (by intro a h; simpa using ne_of_lt (ha a h)),
      List.countP_eq_length.2 (by intro a h; simpa using hm a h),
      List.countP_eq_zero.2 (by intro a h; simpa using (ne_of_lt (hc a h)).symm)]
    simp
  match ms, hm, hcount with
  | [], _, h => simp at h; omega
  | [_], _, h => simp at h; omega
  | m :: m' :: ms, hm, _ =>
    have e1 : m = (k, m.2) := by rw [← hm m (by simp)]
    have e2 : m'.1 = k := hm m' (by simp)
    have lb1 : FlatMap.lowerBound ⟨as ++ (m :: m' :: ms ++ cs)⟩ k = as.length := by
      unfold FlatMap.lowerBound; exact bound_lt_split ha hm hc
    have f1 : FlatMap.findIt ⟨as ++ (m :: m' :: ms ++ cs)⟩ k = as.length := by
      have e3 : m.1 = k := hm m (by simp)
      simp only [FlatMap.findIt, lb1]; simp [FlatMap.entryAt, e3]
    have er : (FlatMap.erase ⟨as ++ (m :: m' :: ms ++ cs)⟩ k).1 = ⟨as ++ (m' :: ms ++ cs)⟩ := by
      simp only [FlatMap.erase, f1]
      simp only [List.cons_append, eraseIdx_append_length]; simp
    rw [er]
    have lb2 : FlatMap.lowerBound ⟨as ++ (m' :: ms ++ cs)⟩ k = as.length := by
      unfold FlatMap.lowerBound; exact bound_lt_split ha (fun x hx => hm x (by simp [hx])) hc
    simp only [FlatMap.contains, FlatMap.findIt, lb2]
    simp [FlatMap.entryAt, e2]

/-- **C03 is violated** for `flat_map`: the literal `{{1,2},{1,3}}` gives a container that, in every allowed
outcome, holds key 1 twice and still contains it after `erase( 1 )`; the inserted-one-by-one map does not. -/
theorem C03_flat_map_init_violated :
    ∃ l : List (Nat × Nat), ∀ d, FlatMap.InitOutcome l d →
      (⟨d⟩ : FlatMap Nat Nat).count 1 = 2 ∧
      ((⟨d⟩ : FlatMap Nat Nat).erase 1).1.contains 1 = true ∧
      (AMap.run 0 (fun _ => none) (insertAll l ++ [.erase 1])).1 1 = none := by
  refine ⟨[(1, 2), (1, 3)], fun d hd => ⟨?_, ?_, by decide⟩⟩
  · simp [FlatMap.count, hd.1.countP_eq]
  · exact C03_flat_map_duplicate_survives_erase _ d hd 1 (by decide)

/-- **C03 is violated** for `flat_set`: `{1,1}` has size 2 in every outcome. -/
theorem C03_flat_set_init_violated :
    ∃ l : List Nat, ∀ d, FlatSet.InitOutcome l d →
      (⟨d⟩ : FlatSet Nat).size = 2 ∧ (∀ x ∈ d, x = 1) := by
  refine ⟨[1, 1], fun d hd => ⟨hd.1.length_eq, fun x hx => ?_⟩⟩
  have := hd.1.mem_iff.1 hx; simpa using this

/-- The hypotheses of the partial theorems are met by a non-trivial literal. -/
example : FlatMap.InitOutcome [(3, 'a'), (1, 'b'), (2, 'c')] [(1, 'b'), (2, 'c'), (3, 'a')] ∧
    ([(3, 'a'), (1, 'b'), (2, 'c')].map (·.1)).Nodup := by
  refine ⟨⟨?_, by decide⟩, by decide⟩
  decide

end Xo
