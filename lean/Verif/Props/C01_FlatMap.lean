import Verif.Lemmas.FlatMap

/-!
C01: `flat_map` is a finite map under every history.
-/
namespace Xo
open Spec
variable {K V : Type} [LinearOrder K]

namespace FlatMap

/-- One API call on the model, with its report. -/
def step (dflt : V) (m : FlatMap K V) : MapOp K V → FlatMap K V × MapOut V
  | .insert k v => ((m.insert k v).1, .inserted (m.insert k v).2)
  | .assign k v => (m.assign k v, .unit)
  | .read k => ((m.getOrDefault dflt k).1, .value (m.getOrDefault dflt k).2)
  | .erase k => ((m.erase k).1, .erased (m.erase k).2)
  | .clear => (FlatMap.empty, .unit)

def run (dflt : V) (m : FlatMap K V) : List (MapOp K V) → FlatMap K V × List (MapOut V)
  | [] => (m, [])
  | op :: ops =>
    let (m1, o) := m.step dflt op
    let (m2, os) := run dflt m1 ops
    (m2, o :: os)

end FlatMap
open FlatMap

theorem C01_step (dflt : V) (m : FlatMap K V) (s : AMap K V) (hr : Rel m s) (op : MapOp K V) :
    Rel (m.step dflt op).1 (s.step dflt op).1 ∧ (m.step dflt op).2 = (s.step dflt op).2 := by
  obtain ⟨l⟩ := m
  cases op with
  | clear => exact ⟨⟨List.Pairwise.nil, by simp [FlatMap.step, FlatMap.empty, AMap.step]⟩, rfl⟩
  | insert k v =>
    rcases locate l hr.1 k with ⟨as, w, cs, rfl, h1, h2⟩ | ⟨as, cs, rfl, h1, h2⟩
    · simp only [FlatMap.step, AMap.step, insert_hit h1 h2, rel_hit hr]; exact ⟨hr, by trivial⟩
    · simp only [FlatMap.step, AMap.step, insert_miss h1 h2, rel_miss hr h1 h2]
      exact ⟨rel_put v hr.1 (fun k' v' _ => hr.2 k' v') h1 h2, by trivial⟩
  | assign k v =>
    rcases locate l hr.1 k with ⟨as, w, cs, rfl, h1, h2⟩ | ⟨as, cs, rfl, h1, h2⟩
    · simp only [FlatMap.step, AMap.step, assign_hit h1 h2]
      exact ⟨rel_put v (sorted_remove hr.1) (rel_others_hit hr) h1 h2, by trivial⟩
    · simp only [FlatMap.step, AMap.step, assign_miss h1 h2]
      exact ⟨rel_put v hr.1 (fun k' v' _ => hr.2 k' v') h1 h2, by trivial⟩
  | read k =>
    rcases locate l hr.1 k with ⟨as, w, cs, rfl, h1, h2⟩ | ⟨as, cs, rfl, h1, h2⟩
    · simp only [FlatMap.step, AMap.step, read_hit h1 h2, rel_hit hr]; exact ⟨hr, by trivial⟩
    · simp only [FlatMap.step, AMap.step, read_miss h1 h2, rel_miss hr h1 h2]
      exact ⟨rel_put dflt hr.1 (fun k' v' _ => hr.2 k' v') h1 h2, by trivial⟩
  | erase k =>
    rcases locate l hr.1 k with ⟨as, w, cs, rfl, h1, h2⟩ | ⟨as, cs, rfl, h1, h2⟩
    · simp only [FlatMap.step, AMap.step, erase_hit h1 h2, rel_hit hr]
      exact ⟨rel_del (sorted_remove hr.1) (rel_others_hit hr) h1 h2, by trivial⟩
    · simp only [FlatMap.step, AMap.step, erase_miss h1 h2, rel_miss hr h1 h2]
      exact ⟨rel_del hr.1 (fun k' v' _ => hr.2 k' v') h1 h2, by trivial⟩

theorem C01_run (dflt : V) (ops : List (MapOp K V)) :
    ∀ (m : FlatMap K V) (s : AMap K V), Rel m s →
      Rel (m.run dflt ops).1 (s.run dflt ops).1 ∧ (m.run dflt ops).2 = (s.run dflt ops).2 := by
  induction ops with
  | nil => intro m s h; exact ⟨h, rfl⟩
  | cons op ops ih =>
    intro m s h
    have h1 := C01_step dflt m s h op
    have h2 := ih _ _ h1.1
    simp only [FlatMap.run, AMap.run]
    exact ⟨h2.1, by rw [h1.2, h2.2]⟩

/-- **C01.** After any history from the empty map, all reports equal those of a mathematical map, and every
observation agrees with it: `find`, `contains`, `count`, `at` (error exactly for absent keys); iteration visits
keys in strictly ascending order and exactly the entries of the map; `lower_bound`/`upper_bound` count the keys
below / not above their argument. -/
theorem C01_flat_map_is_finite_map (dflt : V) (ops : List (MapOp K V)) :
    let r := (FlatMap.empty : FlatMap K V).run dflt ops
    let s := AMap.run dflt (fun _ => none) ops
    r.2 = s.2 ∧
    (∀ k, r.1.find k = s.1 k) ∧
    (∀ k, r.1.contains k = (s.1 k).isSome) ∧
    (∀ k, r.1.count k = if (s.1 k).isSome then 1 else 0) ∧
    (∀ k, r.1.at' k = match s.1 k with | some v => .ok v | none => .err) ∧
    (∀ k, r.1.lowerBound k = r.1.data.countP (fun e => decide (e.1 < k))) ∧
    (∀ k, r.1.upperBound k = r.1.data.countP (fun e => decide (e.1 ≤ k))) ∧
    r.1.data.Pairwise (fun a b => a.1 < b.1) ∧
    (∀ k v, (k, v) ∈ r.1.data ↔ s.1 k = some v) ∧
    r.1.size = r.1.data.length := by
  have h := C01_run dflt ops (FlatMap.empty : FlatMap K V) (fun _ => none)
    ⟨List.Pairwise.nil, by simp [FlatMap.empty]⟩
  simp only
  generalize (FlatMap.empty : FlatMap K V).run dflt ops = r at h
  generalize AMap.run dflt (fun _ => none) ops = s at h
  obtain ⟨⟨l⟩, outs⟩ := r
  obtain ⟨s, os⟩ := s
  obtain ⟨hr, ho⟩ := h
  replace hr : Rel ⟨l⟩ s := hr
  refine ⟨ho, ?_, ?_, ?_, ?_, ?_, ?_, hr.1, hr.2, rfl⟩
  all_goals
    intro k
    rcases locate l hr.1 k with ⟨as, w, cs, rfl, h1, h2⟩ | ⟨as, cs, rfl, h1, h2⟩
  · simp only [find_hit h1 h2, rel_hit hr]
  · simp only [find_miss h1 h2, rel_miss hr h1 h2]
  · simp only [contains_hit h1 h2, rel_hit hr]; rfl
  · simp only [contains_miss h1 h2, rel_miss hr h1 h2]; rfl
  · simp only [count_hit h1 h2, rel_hit hr]; rfl
  · simp only [count_miss h1 h2, rel_miss hr h1 h2]; rfl
  · simp only [at_hit h1 h2, rel_hit hr]
  · simp only [at_miss h1 h2, rel_miss hr h1 h2]
  · rw [lb_hit h1 h2, List.countP_append, List.countP_cons,
      List.countP_eq_length.2 (by simpa using h1),
      List.countP_eq_zero.2 (by simpa using fun a b hc => le_of_lt (h2 (a, b) hc))]
    simp
  · rw [lb_miss h1 h2, List.countP_append,
      List.countP_eq_length.2 (by simpa using h1),
      List.countP_eq_zero.2 (by simpa using fun a b hc => le_of_lt (h2 (a, b) hc))]
    simp
  · have h3 : ∀ a ∈ as ++ [(k, w)], ¬ k < a.1 := by
      intro a ha
      rcases List.mem_append.1 ha with ha | ha
      · exact not_lt_of_gt (h1 a ha)
      · rw [List.mem_singleton.1 ha]; exact lt_irrefl _
    rw [List.append_cons, ub_eq h3 h2, List.countP_append,
      List.countP_eq_length.2 (by intro a ha; simpa using not_lt.1 (h3 a ha)),
      List.countP_eq_zero.2 (by simpa using fun a b hc => h2 (a, b) hc)]
    simp
  · rw [ub_eq (fun a ha => not_lt_of_gt (h1 a ha)) h2, List.countP_append,
      List.countP_eq_length.2 (by simpa using fun a b hc => le_of_lt (h1 (a, b) hc)),
      List.countP_eq_zero.2 (by simpa using fun a b hc => h2 (a, b) hc)]
    simp

/-- Non-vacuity: a history with a refused insert, an overwrite, a defaulting read and an erase. -/
example :
    (FlatMap.empty : FlatMap Nat Nat).run 0
      [.insert 5 1, .insert 5 2, .assign 3 7, .read 9, .assign 5 8, .erase 3, .erase 4] =
    (⟨[(5, 8), (9, 0)]⟩, [.inserted true, .inserted false, .unit, .value 0, .unit, .erased 1, .erased 0]) := by
  decide +kernel

end Xo
