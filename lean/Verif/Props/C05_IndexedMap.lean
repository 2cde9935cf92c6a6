import Verif.Model.Indexed
import Verif.Spec.Indexed
import Mathlib.Data.List.Nodup

/-! C05: `indexed_map` keeps insertion order and map semantics. -/
namespace Xo
open Spec
variable {K V : Type} [DecidableEq K]

namespace IndexedMap

def empty : IndexedMap K V := ⟨[]⟩

/-- One API call on the model. -/
def step (dflt : V) (m : IndexedMap K V) : OrdOp K V → IndexedMap K V × MapOut V
  | .insert k v => ((m.insert k v).1, .inserted (m.insert k v).2)
  | .assign k v => (m.assign k v, .unit)
  | .read k => ((m.read dflt k).1, .value (m.read dflt k).2)

def run (dflt : V) (m : IndexedMap K V) : List (OrdOp K V) → IndexedMap K V × List (MapOut V)
  | [] => (m, [])
  | op :: ops =>
    let (m1, o) := m.step dflt op
    let (m2, os) := run dflt m1 ops
    (m2, o :: os)

def Rel (m : IndexedMap K V) (s : OrdMap K V) : Prop :=
  m.data.map (·.1) = s.order ∧ s.order.Nodup ∧ ∀ k v, (k, v) ∈ m.data ↔ s.map k = some v

theorem locate (l : List (K × V)) (k : K) :
    (∃ as v cs, l = as ++ (k, v) :: cs ∧ (∀ a ∈ as, a.1 ≠ k) ∧ findFrom k l = as.length) ∨
    ((∀ a ∈ l, a.1 ≠ k) ∧ findFrom k l = l.length) := by
  induction l with
  | nil => right; simp [findFrom]
  | cons x xs ih =>
    by_cases hx : x.1 = k
    · left; exact ⟨[], x.2, xs, by simp [← hx], by simp, by simp [findFrom, hx]⟩
    · rcases ih with ⟨as, v, cs, e, h1, h2⟩ | ⟨h1, h2⟩
      · left; refine ⟨x :: as, v, cs, by simp [e], ?_, by simp [findFrom, hx, h2]⟩
        intro a ha; rcases List.mem_cons.1 ha with rfl | ha
        · exact hx
        · exact h1 a ha
      · right; refine ⟨?_, by simp [findFrom, hx, h2]⟩
        intro a ha; rcases List.mem_cons.1 ha with rfl | ha
        · exact hx
        · exact h1 a ha

theorem rel_store_hit {as cs : List (K × V)} {k : K} {v w : V} {s : OrdMap K V}
    (hr : Rel ⟨as ++ (k, v) :: cs⟩ s) :
    Rel ⟨as ++ (k, w) :: cs⟩ ⟨OrdMap.place s.order k, s.map.update k (some w)⟩ := by
  obtain ⟨h1, h2, h3⟩ := hr
  have hin : k ∈ s.order := by rw [← h1]; simp
  have hnd : k ∉ as.map (·.1) ∧ k ∉ cs.map (·.1) := by
    rw [← h1] at h2
    simp only [List.map_append, List.map_cons, List.nodup_append, List.nodup_cons] at h2
    exact ⟨fun h => h2.2.2 k h k (by simp) rfl, h2.2.1.1⟩
  refine ⟨by simpa [OrdMap.place, hin] using h1, by simpa [OrdMap.place, hin] using h2, ?_⟩
  intro k' v'
  by_cases hk : k' = k
  · subst hk
    have n1 : (k', v') ∉ as := fun h => hnd.1 (List.mem_map_of_mem (f := (·.1)) h)
    have n2 : (k', v') ∉ cs := fun h => hnd.2 (List.mem_map_of_mem (f := (·.1)) h)
    simp [AMap.update, n1, n2, eq_comm]
  · have := h3 k' v'
    simpa [AMap.update, hk] using this

theorem rel_store_miss {l : List (K × V)} {k : K} {w : V} {s : OrdMap K V}
    (hr : Rel ⟨l⟩ s) (hm : ∀ a ∈ l, a.1 ≠ k) :
    Rel ⟨l ++ [(k, w)]⟩ ⟨OrdMap.place s.order k, s.map.update k (some w)⟩ := by
  obtain ⟨h1, h2, h3⟩ := hr
  have h1 : l.map (·.1) = s.order := h1
  have hin : k ∉ s.order := by
    rw [← h1]; intro h
    obtain ⟨a, ha, e⟩ := List.mem_map.1 h
    exact hm a ha e
  refine ⟨by simp [OrdMap.place, hin, h1], ?_, ?_⟩
  · simp only [OrdMap.place, hin, if_false]
    exact List.nodup_append.2 ⟨h2, by simp, by simpa using fun a ha (e : a = k) => hin (e ▸ ha)⟩
  · intro k' v'
    by_cases hk : k' = k
    · subst hk
      have n1 : (k', v') ∉ l := fun h => hm _ h rfl
      simp [AMap.update, n1, eq_comm]
    · have := h3 k' v'
      simpa [AMap.update, hk] using this

theorem rel_hit {as cs : List (K × V)} {k : K} {v : V} {s : OrdMap K V}
    (hr : Rel ⟨as ++ (k, v) :: cs⟩ s) : s.map k = some v := (hr.2.2 k v).1 (by simp)

theorem rel_miss {l : List (K × V)} {k : K} {s : OrdMap K V} (hr : Rel ⟨l⟩ s)
    (hm : ∀ a ∈ l, a.1 ≠ k) : s.map k = none := by
  cases h : s.map k with
  | none => rfl
  | some v => exact absurd rfl (hm _ ((hr.2.2 k v).2 h))

theorem get_hit {as cs : List (K × V)} {k : K} {v : V} :
    (as ++ (k, v) :: cs)[as.length]? = some (k, v) := by
  simp

theorem set_hit {as cs : List (K × V)} {k : K} {v : V} (w : V) :
    (as ++ (k, v) :: cs).set as.length (k, w) = as ++ (k, w) :: cs := by
  simp

end IndexedMap
open IndexedMap

theorem C05_step (dflt : V) (m : IndexedMap K V) (s : OrdMap K V) (hr : Rel m s) (op : OrdOp K V) :
    Rel (m.step dflt op).1 (s.step dflt op).1 ∧ (m.step dflt op).2 = (s.step dflt op).2 := by
  obtain ⟨l⟩ := m
  cases op with
  | insert k v =>
    rcases locate l k with ⟨as, w, cs, rfl, h1, h2⟩ | ⟨h1, h2⟩
    · simp only [IndexedMap.step, OrdMap.step, IndexedMap.insert, findIt, h2, get_hit, set_hit, rel_hit hr]
      exact ⟨rel_store_hit hr, rfl⟩
    · have e : l[findFrom k l]? = none := by rw [h2]; simp
      simp only [IndexedMap.step, OrdMap.step, IndexedMap.insert, findIt, e, rel_miss hr h1]
      exact ⟨rel_store_miss hr h1, rfl⟩
  | assign k v =>
    rcases locate l k with ⟨as, w, cs, rfl, h1, h2⟩ | ⟨h1, h2⟩
    · simp only [IndexedMap.step, OrdMap.step, IndexedMap.assign, findIt, h2, get_hit, set_hit]
      exact ⟨rel_store_hit hr, trivial⟩
    · have e : l[findFrom k l]? = none := by rw [h2]; simp
      simp only [IndexedMap.step, OrdMap.step, IndexedMap.assign, findIt, e]
      exact ⟨rel_store_miss hr h1, trivial⟩
  | read k =>
    rcases locate l k with ⟨as, w, cs, rfl, h1, h2⟩ | ⟨h1, h2⟩
    · simp only [IndexedMap.step, OrdMap.step, IndexedMap.read, findIt, h2, get_hit, rel_hit hr]
      exact ⟨hr, trivial⟩
    · have e : l[findFrom k l]? = none := by rw [h2]; simp
      simp only [IndexedMap.step, OrdMap.step, IndexedMap.read, findIt, e, rel_miss hr h1]
      exact ⟨rel_store_miss hr h1, trivial⟩

theorem C05_run (dflt : V) (ops : List (OrdOp K V)) : ∀ (m : IndexedMap K V) (s : OrdMap K V), Rel m s →
    Rel (m.run dflt ops).1 (s.run dflt ops).1 ∧ (m.run dflt ops).2 = (s.run dflt ops).2 := by
  induction ops with
  | nil => intro m s h; exact ⟨h, rfl⟩
  | cons op ops ih =>
    intro m s h
    have h1 := C05_step dflt m s h op
    have h2 := ih _ _ h1.1
    simp only [IndexedMap.run, OrdMap.run]
    exact ⟨h2.1, by rw [h1.2, h2.2]⟩

/-- **C05.** After any history of `insert` and `operator[]` the reports, the lookups (`find`, `contains`, `count`,
const `operator[]`) and the sequence of keys agree with an insertion-ordered map; each key occurs once. -/
theorem C05_indexed_map_is_ordered_map (dflt : V) (ops : List (OrdOp K V)) :
    let r := (IndexedMap.empty : IndexedMap K V).run dflt ops
    let s := OrdMap.run dflt ⟨[], fun _ => none⟩ ops
    r.2 = s.2 ∧
    r.1.data.map (·.1) = s.1.order ∧ s.1.order.Nodup ∧
    (∀ k v, (k, v) ∈ r.1.data ↔ s.1.map k = some v) ∧
    (∀ k, r.1.get k = match s.1.map k with | some v => .ok v | none => .err) ∧
    (∀ k, r.1.contains k = (s.1.map k).isSome) ∧
    (∀ k, r.1.count k = if (s.1.map k).isSome then 1 else 0) := by
  have h := C05_run dflt ops (IndexedMap.empty : IndexedMap K V) ⟨[], fun _ => none⟩
    ⟨rfl, List.nodup_nil, by simp [IndexedMap.empty]⟩
  simp only
  generalize (IndexedMap.empty : IndexedMap K V).run dflt ops = r at h
  generalize OrdMap.run dflt ⟨[], fun _ => none⟩ ops = s at h
  obtain ⟨⟨l⟩, outs⟩ := r
  obtain ⟨s, os⟩ := s
  obtain ⟨hr, ho⟩ := h
  replace hr : Rel ⟨l⟩ s := hr
  refine ⟨ho, hr.1, hr.2.1, hr.2.2, ?_, ?_, ?_⟩
  all_goals
    intro k
    rcases locate l k with ⟨as, w, cs, rfl, h1, h2⟩ | ⟨h1, h2⟩
  · simp only [IndexedMap.get, findIt, h2, get_hit, rel_hit hr]
  · have e : l[findFrom k l]? = none := by rw [h2]; simp
    simp only [IndexedMap.get, findIt, e, rel_miss hr h1]
  · simp [IndexedMap.contains, findIt, h2, rel_hit hr]
  · simp [IndexedMap.contains, findIt, h2, rel_miss hr h1]
  · have hnd := hr.2.1
    rw [← hr.1] at hnd
    simp only [rel_hit hr]
    have : (List.map (·.1) (as ++ (k, w) :: cs)).count k = 1 := List.count_eq_one_of_mem hnd (by simp)
    rw [List.count, List.countP_map] at this
    simp only [IndexedMap.count, Option.isSome_some, if_true]
    rw [← this]; apply List.countP_congr; intro a _; simp
  · simp only [IndexedMap.count, rel_miss hr h1]
    rw [List.countP_eq_zero.2 (by intro a ha; simpa using h1 a ha)]; rfl

/-- **C05, positions.** The keys after a longer history extend the keys after a shorter one: a position once
assigned keeps its key. -/
theorem C05_positions_stable (dflt : V) (ops1 ops2 : List (OrdOp K V)) :
    ((IndexedMap.empty : IndexedMap K V).run dflt ops1).1.data.map (·.1) <+:
    ((IndexedMap.empty : IndexedMap K V).run dflt (ops1 ++ ops2)).1.data.map (·.1) := by
  have split : ∀ (ops1 : List (OrdOp K V)) (m : IndexedMap K V),
      (m.run dflt (ops1 ++ ops2)).1 = ((m.run dflt ops1).1.run dflt ops2).1 := by
    intro ops1
    induction ops1 with
    | nil => intro m; rfl
    | cons op ops ih => intro m; simp only [List.cons_append, IndexedMap.run, ih]
  rw [split]
  have hs : ∀ (m : IndexedMap K V) (op : OrdOp K V), m.data.map (·.1) <+: (m.step dflt op).1.data.map (·.1) := by
    rintro ⟨l⟩ op
    cases op with
    | insert k v =>
      rcases locate l k with ⟨as, w, cs, rfl, h1, h2⟩ | ⟨h1, h2⟩
      · simp [IndexedMap.step, IndexedMap.insert, findIt, h2]
      · simp [IndexedMap.step, IndexedMap.insert, findIt, h2]
    | assign k v =>
      rcases locate l k with ⟨as, w, cs, rfl, h1, h2⟩ | ⟨h1, h2⟩
      · simp [IndexedMap.step, IndexedMap.assign, findIt, h2]
      · simp [IndexedMap.step, IndexedMap.assign, findIt, h2]
    | read k =>
      rcases locate l k with ⟨as, w, cs, rfl, h1, h2⟩ | ⟨h1, h2⟩
      · simp [IndexedMap.step, IndexedMap.read, findIt, h2]
      · simp [IndexedMap.step, IndexedMap.read, findIt, h2]
  have : ∀ (ops : List (OrdOp K V)) (m : IndexedMap K V),
      m.data.map (·.1) <+: (m.run dflt ops).1.data.map (·.1) := by
    intro ops
    induction ops with
    | nil => intro m; exact List.prefix_rfl
    | cons op ops ih => intro m; exact (hs m op).trans (ih _)
  exact this _ _

example : (IndexedMap.empty : IndexedMap Nat Nat).run 0
    [.insert 5 1, .insert 2 7, .insert 5 3, .read 9, .assign 2 8, .read 5] =
    (⟨[(5, 3), (2, 8), (9, 0)]⟩,
      [.inserted true, .inserted true, .inserted false, .value 0, .unit, .value 3]) := by decide

end Xo
