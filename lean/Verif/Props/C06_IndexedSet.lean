import Verif.Model.Indexed
import Verif.Spec.Indexed
import Verif.Props.C01_FlatMap
import Mathlib.Data.List.Basic

/-! C06: `indexed_set` assigns stable, unique indices; a failing call is not a no-op. -/
namespace Xo
open Spec
variable {T : Type} [LinearOrder T]

namespace IndexedSet

/-- A history of `get_or_add` calls (errors are caught by the caller and the history goes on). -/
def run (mx : Nat) (s : IndexedSet T) : List T → List (Res Nat) × IndexedSet T
  | [] => ([], s)
  | v :: vs =>
    let (r, s1) := s.getOrAdd mx v
    let (rs, s2) := run mx s1 vs
    (r :: rs, s2)

structure Inv (mx : Nat) (s : IndexedSet T) (a : AMap T Nat) : Prop where
  rel : FlatMap.Rel s.indices a
  back : ∀ v i, a v = some i → s.values[i]? = some v ∧ i < mx

theorem find_rel {m : FlatMap T Nat} {a : AMap T Nat} (h : FlatMap.Rel m a) (k : T) : m.find k = a k := by
  obtain ⟨l⟩ := m
  rcases FlatMap.locate l h.1 k with ⟨as, w, cs, rfl, h1, h2⟩ | ⟨as, cs, rfl, h1, h2⟩
  · simp only [FlatMap.find_hit h1 h2, FlatMap.rel_hit h]
  · simp only [FlatMap.find_miss h1 h2, FlatMap.rel_miss h h1 h2]

theorem inv_step {mx : Nat} {s : IndexedSet T} {a : AMap T Nat} (h : Inv mx s a) (v : T) :
    ∃ a', Inv mx (s.getOrAdd mx v).2 a' ∧ (∀ w i, a w = some i → a' w = some i) ∧
      (∀ i, (s.getOrAdd mx v).1 = .ok i → a' v = some i) := by
  unfold getOrAdd
  rw [find_rel h.rel]
  cases hv : a v with
  | some i => exact ⟨a, h, fun _ _ h => h, fun i h => by simp_all⟩
  | none =>
    have back' : ∀ w i, a w = some i → (s.values ++ [v])[i]? = some w ∧ i < mx := by
      intro w i hw
      obtain ⟨h1, h2⟩ := h.back w i hw
      refine ⟨?_, h2⟩
      have : i < s.values.length := by
        by_contra hc; rw [List.getElem?_eq_none (by omega)] at h1; cases h1
      rw [List.getElem?_append_left this]; exact h1
    simp only
    split
    · exact ⟨a, ⟨h.rel, back'⟩, fun _ _ h => h, fun i h => by cases h⟩
    · next hlt =>
      refine ⟨a.update v (some ((s.values ++ [v]).length - 1)), ⟨?_, ?_⟩, ?_, ?_⟩
      · have := C01_step 0 s.indices a h.rel (.assign v ((s.values ++ [v]).length - 1))
        exact this.1
      · intro w i hw
        unfold AMap.update at hw
        split at hw
        · next e =>
          subst e
          simp only [Option.some.injEq] at hw
          subst hw
          constructor
          · simp
          · simpa using hlt
        · exact back' w i hw
      · intro w i hw
        unfold AMap.update
        split
        · next e => subst e; rw [hv] at hw; cases hw
        · exact hw
      · intro i hi
        simp only [AMap.update, if_true]
        simpa using hi

theorem inv_run {mx : Nat} (vs : List T) : ∀ {s : IndexedSet T} {a : AMap T Nat}, Inv mx s a →
    ∃ a', Inv mx (s.run mx vs).2 a' ∧ (∀ w i, a w = some i → a' w = some i) := by
  induction vs with
  | nil => intro s a h; exact ⟨a, h, fun _ _ h => h⟩
  | cons v vs ih =>
    intro s a h
    obtain ⟨a1, h1, h2, _⟩ := inv_step h v
    obtain ⟨a2, h3, h4⟩ := ih h1
    exact ⟨a2, h3, fun w i hw => h4 w i (h2 w i hw)⟩

theorem inv_empty (mx : Nat) : Inv mx (IndexedSet.empty : IndexedSet T) (fun _ => none) :=
  ⟨⟨List.Pairwise.nil, by simp [IndexedSet.empty, FlatMap.empty]⟩, by simp⟩

end IndexedSet
open IndexedSet

/-- **C06, stability (any history, including failing calls).** If after a history `vs1` the call
`get_or_add( v )` returns `i`, then after any further history `v` still has index `i` (both through `try_get` and
`get_or_add`, which then changes nothing), index `i` reads back `v`, and `i` is below the index maximum. -/
theorem C06_index_stable (mx : Nat) (vs1 vs2 : List T) (v : T) (i : Nat) :
    let s1 := (IndexedSet.empty.run mx vs1).2
    (s1.getOrAdd mx v).1 = .ok i →
    let s2 := ((s1.getOrAdd mx v).2.run mx vs2).2
    s2.tryGet v = some i ∧ s2.getOrAdd mx v = (.ok i, s2) ∧ s2.at' i = .ok v ∧ i < mx := by
  intro s1 hi s2
  obtain ⟨a1, h1, _⟩ := inv_run (mx := mx) vs1 (inv_empty (T := T) mx)
  obtain ⟨a2, h2, _, hv⟩ := inv_step h1 v
  obtain ⟨a3, h3, hk⟩ := inv_run vs2 h2
  have hv3 : a3 v = some i := hk v i (hv i hi)
  have hf : s2.indices.find v = some i := by rw [find_rel h3.rel]; exact hv3
  have hb := h3.back v i hv3
  refine ⟨hf, ?_, ?_, hb.2⟩
  · simp only [getOrAdd, hf]
  · simp only [IndexedSet.at']
    have := hb.1
    change s2.values[i]? = some v at this
    rw [this]; rfl

/-- **C06, uniqueness.** Two values that at some point of a history both have an index have the same index
only if they are equal, and the same value never has two indices. -/
theorem C06_index_unique (mx : Nat) (vs : List T) (v w : T) (i j : Nat)
    (hv : ((IndexedSet.empty.run mx vs).2).tryGet v = some i)
    (hw : ((IndexedSet.empty.run mx vs).2).tryGet w = some j) : i = j ↔ v = w := by
  obtain ⟨a, h, _⟩ := inv_run (mx := mx) vs (inv_empty (T := T) mx)
  simp only [tryGet, find_rel h.rel] at hv hw
  constructor
  · rintro rfl
    have := (h.back v i hv).1.symm.trans (h.back w i hw).1
    simpa using this
  · rintro rfl; rw [hv] at hw; simpa using hw

/-- Values placed one after the other, continuing from `acc`. -/
theorem firstOccurrences_append (l : List T) (v : T) :
    firstOccurrences (l ++ [v]) = OrdMap.place (firstOccurrences l) v := by
  simp [firstOccurrences, List.foldl_append]

theorem nodup_place {l : List T} (h : l.Nodup) (v : T) : (OrdMap.place l v).Nodup := by
  unfold OrdMap.place; split
  · exact h
  · next hn => exact List.nodup_append.2 ⟨h, by simp, by simpa using fun a ha (e : a = v) => hn (e ▸ ha)⟩

theorem nodup_firstOccurrences (l : List T) : (firstOccurrences l).Nodup := by
  suffices ∀ (l acc : List T), acc.Nodup → (l.foldl OrdMap.place acc).Nodup from this l [] List.nodup_nil
  intro l
  induction l with
  | nil => intro acc h; exact h
  | cons x xs ih => intro acc h; exact ih _ (nodup_place h x)

theorem prefix_place (acc : List T) (v : T) : acc <+: OrdMap.place acc v := by
  unfold OrdMap.place; split
  · exact List.prefix_rfl
  · exact List.prefix_append _ _

theorem prefix_foldl (l acc : List T) : acc <+: l.foldl OrdMap.place acc := by
  induction l generalizing acc with
  | nil => exact List.prefix_rfl
  | cons x xs ih => exact (prefix_place acc x).trans (ih _)

theorem mem_place (acc : List T) (v : T) : v ∈ OrdMap.place acc v := by
  unfold OrdMap.place; split
  · assumption
  · simp

theorem idxOf_prefix {a b : List T} (h : a <+: b) {v : T} (hv : v ∈ a) : b.idxOf v = a.idxOf v := by
  obtain ⟨c, rfl⟩ := h
  exact List.idxOf_append_of_mem hv

/-- **C06, within the index range.** If a history uses no more distinct values than the index type can number,
no call fails, each call returns the position of its value in the order of first appearance, and reading the
set back gives exactly the distinct values in that order. -/
theorem C06_get_or_add_is_first_position (mx : Nat) (vs : List T)
    (hmx : (firstOccurrences vs).length ≤ mx) :
    let r := (IndexedSet.empty : IndexedSet T).run mx vs
    r.1 = vs.map (fun v => .ok ((firstOccurrences vs).idxOf v)) ∧
    r.2.values = firstOccurrences vs ∧
    ∀ v, r.2.tryGet v = if v ∈ vs then some ((firstOccurrences vs).idxOf v) else none := by
  have memFO : ∀ (l acc : List T) x, x ∈ l.foldl OrdMap.place acc ↔ x ∈ acc ∨ x ∈ l := by
    intro l
    induction l with
    | nil => intro acc x; simp
    | cons y ys ih =>
      intro acc x
      rw [List.foldl_cons, ih]
      unfold OrdMap.place
      split
      · next h => constructor
                  · rintro (h | h) <;> simp [h]
                  · rintro (h1 | h1)
                    · exact Or.inl h1
                    · rcases List.mem_cons.1 h1 with rfl | h1
                      · exact Or.inl h
                      · exact Or.inr h1
      · simp [or_assoc]
  have gen : ∀ (vs acc : List T) (s : IndexedSet T) (a : AMap T Nat),
      Inv mx s a → s.values = acc → acc.Nodup → (∀ v, a v = if v ∈ acc then some (acc.idxOf v) else none) →
      (vs.foldl OrdMap.place acc).length ≤ mx →
      (s.run mx vs).1 = vs.map (fun v => Res.ok ((vs.foldl OrdMap.place acc).idxOf v)) ∧
      (s.run mx vs).2.values = vs.foldl OrdMap.place acc ∧
      ∀ v, (s.run mx vs).2.tryGet v =
        if v ∈ vs.foldl OrdMap.place acc then some ((vs.foldl OrdMap.place acc).idxOf v) else none := by
    intro vs
    induction vs with
    | nil =>
      intro acc s a hI hv hn ha _
      refine ⟨rfl, hv, fun v => ?_⟩
      simp only [IndexedSet.run, tryGet, find_rel hI.rel, List.foldl_nil]; exact ha v
    | cons v vs ih =>
      intro acc s a hI hv hn ha hlen
      rw [List.foldl_cons] at hlen ⊢
      have hstep : (s.getOrAdd mx v).1 = .ok ((OrdMap.place acc v).idxOf v) ∧
          (s.getOrAdd mx v).2.values = OrdMap.place acc v ∧
          ∃ a', Inv mx (s.getOrAdd mx v).2 a' ∧
            ∀ w, a' w = if w ∈ OrdMap.place acc v then some ((OrdMap.place acc v).idxOf w) else none := by
        by_cases hm : v ∈ acc
        · have hp : OrdMap.place acc v = acc := by simp [OrdMap.place, hm]
          have hf : s.indices.find v = some (acc.idxOf v) := by rw [find_rel hI.rel, ha v, if_pos hm]
          rw [hp]; simp only [getOrAdd, hf]
          exact ⟨trivial, hv, a, hI, ha⟩
        · have hp : OrdMap.place acc v = acc ++ [v] := by simp [OrdMap.place, hm]
          have hf : s.indices.find v = none := by rw [find_rel hI.rel, ha v, if_neg hm]
          have hlt : acc.length < mx := by
            have := (prefix_foldl vs (OrdMap.place acc v)).length_le
            rw [hp] at this hlen
            simp at this; omega
          have hidx : (acc ++ [v]).idxOf v = acc.length := by
            rw [List.idxOf_append_of_notMem hm]; simp
          obtain ⟨a', hI', _, hok⟩ := inv_step hI v
          have hcond : ¬ ((acc ++ [v]).length - 1 ≥ mx) := by simp; omega
          have hres : s.getOrAdd mx v = (.ok acc.length, ⟨acc ++ [v], s.indices.assign v acc.length⟩) := by
            simp only [getOrAdd, hf, hv, if_neg hcond]; simp
          have hI2 : Inv mx (s.getOrAdd mx v).2 (a.update v (some acc.length)) := by
            rw [hres]
            refine ⟨(C01_step 0 s.indices a hI.rel (.assign v acc.length)).1, ?_⟩
            intro w i hw
            unfold AMap.update at hw
            split at hw
            · next e => subst e; simp only [Option.some.injEq] at hw; subst hw; exact ⟨by simp, hlt⟩
            · have hb := hI.back w i hw
              rw [hv] at hb
              have : i < acc.length := by
                by_contra hc; rw [List.getElem?_eq_none (by omega)] at hb; cases hb.1
              exact ⟨by simp only; rw [List.getElem?_append_left this]; exact hb.1, hb.2⟩
          rw [hp, hidx]
          refine ⟨by rw [hres], by rw [hres], _, hI2, ?_⟩
          intro w
          unfold AMap.update
          by_cases hw : w = v
          · subst hw; simp [hidx]
          · rw [if_neg hw, ha w]
            by_cases hwm : w ∈ acc
            · simp [hwm, List.idxOf_append_of_mem hwm]
            · simp [hwm, hw]
      obtain ⟨h1, h2, a', h3, h4⟩ := hstep
      obtain ⟨i1, i2, i3⟩ := ih (OrdMap.place acc v) _ a' h3 h2 (nodup_place hn v) h4 hlen
      simp only [IndexedSet.run]
      refine ⟨?_, i2, i3⟩
      rw [i1, h1, List.map_cons]
      congr 2
      exact (idxOf_prefix (prefix_foldl vs _) (mem_place acc v)).symm
  have h := gen vs [] IndexedSet.empty (fun _ => none) (inv_empty mx) rfl List.nodup_nil (by simp) hmx
  refine ⟨h.1, h.2.1, fun v => ?_⟩
  rw [h.2.2 v]
  have : (v ∈ vs.foldl OrdMap.place []) ↔ v ∈ vs := by rw [memFO]; simp
  simp only [this]; rfl

/-- **C06 is violated** in the error case, for every size of the index type: there is a history after which
`get_or_add` reports an error and nevertheless changes the set (its size grows). -/
theorem C06_failed_call_changes_set_violated (mx : Nat) :
    ∃ (vs : List Nat) (v : Nat), let s := ((IndexedSet.empty : IndexedSet Nat).run mx vs).2
      (s.getOrAdd mx v).1 = .err ∧ (s.getOrAdd mx v).2.size = s.size + 1 := by
  refine ⟨List.range mx, mx, ?_⟩
  have fo : ∀ n, firstOccurrences (List.range n) = List.range n := by
    intro n
    induction n with
    | zero => rfl
    | succ n ih => rw [List.range_succ, firstOccurrences_append, ih]; simp [OrdMap.place]
  obtain ⟨_, h2, h3⟩ := C06_get_or_add_is_first_position mx (List.range mx) (by rw [fo]; simp)
  have h3' := h3 mx
  simp only [List.mem_range, Nat.lt_irrefl, if_false] at h3'
  simp only [tryGet] at h3'
  simp only [getOrAdd, h3', h2, fo, IndexedSet.size]
  simp

/-- The error case leaves the numbering itself intact: no value gains, loses or changes its index. -/
theorem C06_failed_call_keeps_indices_partial (mx : Nat) (s : IndexedSet T) (v : T)
    (h : (s.getOrAdd mx v).1 = .err) : ∀ w, (s.getOrAdd mx v).2.tryGet w = s.tryGet w := by
  intro w
  unfold getOrAdd at *
  cases hf : s.indices.find v with
  | some i => simp [hf] at h
  | none =>
    simp only [hf] at h ⊢
    split at h
    · next hc => rw [if_pos hc]; rfl
    · cases h

example : (IndexedSet.empty : IndexedSet Nat).run 255 [7, 3, 7, 9, 3] =
    ([.ok 0, .ok 1, .ok 0, .ok 2, .ok 1], ⟨[7, 3, 9], ⟨[(3, 1), (7, 0), (9, 2)]⟩⟩) := by decide +kernel
example : (firstOccurrences [7, 3, 7, 9, 3]).length ≤ 255 := by decide

end Xo
