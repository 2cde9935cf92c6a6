import Verif.Model.Profiler
import Mathlib.Data.List.Basic
import Mathlib.Data.List.Nodup
import Mathlib.Data.List.Induction
import Mathlib.Algebra.BigOperators.Group.List.Basic
import Mathlib.Tactic.Ring

/-!
C37: the profiler.
-/
namespace Xo

namespace Spec
open Profiler

/-- What happened: the sections that are open (outermost first) with the times they were entered, and all finished
intervals, each with the path of names that was open. Names are identified by their address. -/
structure Trace where
  stack : List (Nat × Int)
  done : List (List Nat × Int)

def Trace.path (t : Trace) : List Nat := t.stack.map (·.1)

/-- Entering opens a section; leaving closes the innermost one and records its interval. -/
def Trace.step (t : Trace) (now : Int) : Event → Trace
  | .enter n => ⟨t.stack ++ [(n.address, now)], t.done⟩
  | .leave => match t.stack.getLast? with
    | some x => ⟨t.stack.dropLast, t.done ++ [(t.path, now - x.2)]⟩
    | none => t

/-- Properly nested: nothing is left that is not open. -/
def Trace.Nested (t : Trace) : List (Int × Event) → Prop
  | [] => True
  | (now, e) :: h => (e = .leave → t.stack ≠ []) ∧ (t.step now e).Nested h

def Trace.run (t : Trace) : List (Int × Event) → Trace
  | [] => t
  | (now, e) :: h => (t.step now e).run h

/-- The finished intervals of the section with path `p`. -/
def Trace.intervals (t : Trace) (p : List Nat) : List Int := (t.done.filter (·.1 = p)).map (·.2)

end Spec
open Spec Profiler

/-- The paths of the sections: the first one is the root; every other one lies under an earlier one and extends its
path by its own name. -/
structure Paths (secs : List Section) (paths : List (List Nat)) : Prop where
  len : paths.length = secs.length
  root : ∃ s, secs[0]? = some s ∧ s.parent = none ∧ paths[0]? = some []
  child : ∀ (i : Nat) (s : Section), 0 < i → secs[i]? = some s →
    ∃ p q, s.parent = some p ∧ p < i ∧ paths[p]? = some q ∧ paths[i]? = some (q ++ [s.name.address])

/-- The invariant. -/
structure ProfInv (s : State) (t : Trace) (paths : List (List Nat)) : Prop where
  tree : Paths s.sections paths
  nodup : paths.Nodup
  current : ∃ c, s.current = some c ∧ paths[c]? = some t.path
  total : ∀ (i : Nat) (x : Section) (p : List Nat), 0 < i → s.sections[i]? = some x → paths[i]? = some p →
    x.total = (t.intervals p).sum ∧ x.count = (t.intervals p).length
  epoch : ∀ (i : Nat) (x : Section) (k : Nat), 0 < k → k ≤ t.stack.length → s.sections[i]? = some x → paths[i]? = some (t.path.take k) →
    (t.stack[k - 1]?).map (·.2) = some x.epoch
  open_ : ∀ k, k ≤ t.stack.length → t.path.take k ∈ paths
  known : ∀ x ∈ t.done, x.1 ∈ paths
  used : ∀ p ∈ paths, p ≠ [] → (∃ k, k ≤ t.stack.length ∧ t.path.take k = p) ∨ ∃ x ∈ t.done, p = x.1

/-- Changing totals, epochs and counts does not change the tree. -/
theorem Paths.modify {secs : List Section} {paths : List (List Nat)} (h : Paths secs paths) (i : Nat)
    (f : Section → Section) (hn : ∀ x, (f x).name = x.name) (hp : ∀ x, (f x).parent = x.parent) :
    Paths (secs.modify i f) paths := by
  have get : ∀ (j : Nat) (s : Section), (secs.modify i f)[j]? = some s → ∃ s0, secs[j]? = some s0 ∧ s.name = s0.name ∧ s.parent = s0.parent := by
    intro j s hs
    rw [List.getElem?_modify] at hs
    cases hj : secs[j]? with
    | none => rw [hj] at hs; cases hs
    | some s0 =>
      rw [hj] at hs
      simp only [Option.map_eq_map, Option.map_some, Option.some.injEq] at hs
      refine ⟨s0, rfl, ?_⟩
      subst hs
      split
      · exact ⟨hn s0, hp s0⟩
      · exact ⟨rfl, rfl⟩
  refine ⟨by rw [h.len]; simp, ?_, ?_⟩
  · obtain ⟨s, h1, h2, h3⟩ := h.root
    refine ⟨if i = 0 then f s else s, ?_, ?_, h3⟩
    · rw [List.getElem?_modify, h1]; rfl
    · split
      · rw [hp, h2]
      · exact h2
  · intro j s hj hs
    obtain ⟨s0, h0, e1, e2⟩ := get j s hs
    rw [e1, e2]
    exact h.child j s0 hj h0

theorem findSection_some {secs : List Section} {n : CStr} {c i : Nat} (h : findSection secs n c = some i) :
    c < i ∧ ∃ s, secs[i]? = some s ∧ s.name.address = n.address ∧ s.parent = some c := by
  unfold findSection at h
  rw [Option.map_eq_some_iff] at h
  obtain ⟨k, hk, rfl⟩ := h
  rw [List.findIdx?_eq_some_iff_getElem] at hk
  obtain ⟨hlt, hp, _⟩ := hk
  refine ⟨by omega, (secs.drop (c + 1))[k], ?_, ?_⟩
  · rw [List.getElem_drop, Nat.add_comm k]
    exact List.getElem?_eq_getElem _
  · simpa using hp

theorem findSection_none {secs : List Section} {n : CStr} {c : Nat} (h : findSection secs n c = none)
    (i : Nat) (hi : c < i) (s : Section) (hs : secs[i]? = some s) :
    ¬(s.name.address = n.address ∧ s.parent = some c) := by
  unfold findSection at h
  rw [Option.map_eq_none_iff, List.findIdx?_eq_none_iff] at h
  have hm : s ∈ secs.drop (c + 1) := by
    have : (secs.drop (c + 1))[i - (c + 1)]? = some s := by
      rw [List.getElem?_drop, show c + 1 + (i - (c + 1)) = i by omega]; exact hs
    exact List.mem_of_getElem? this
  have := h s hm
  simpa using this

theorem path_inj {paths : List (List Nat)} (hn : paths.Nodup) {i j : Nat} {p : List Nat} (hi : paths[i]? = some p)
    (hj : paths[j]? = some p) : i = j := by
  obtain ⟨h1, e1⟩ := List.getElem?_eq_some_iff.1 hi
  obtain ⟨h2, e2⟩ := List.getElem?_eq_some_iff.1 hj
  exact (List.Nodup.getElem_inj_iff hn).1 (e1.trans e2.symm)

theorem modify_get {secs : List Section} {i j : Nat} {f : Section → Section} {x : Section}
    (h : (secs.modify i f)[j]? = some x) : ∃ y, secs[j]? = some y ∧ x = if i = j then f y else y := by
  rw [List.getElem?_modify] at h
  cases hj : secs[j]? with
  | none => rw [hj] at h; cases h
  | some y =>
    rw [hj] at h
    simp only [Option.map_eq_map, Option.map_some, Option.some.injEq] at h
    exact ⟨y, rfl, h.symm⟩

theorem prof_enter {s : State} {t : Trace} {paths : List (List Nat)} (I : ProfInv s t paths) (n : CStr) (now : Int) :
    ∃ s' paths', step s now (.enter n) = .ok s' ∧ ProfInv s' (t.step now (.enter n)) paths' ∧
      s'.sections[0]? = s.sections[0]? := by
  obtain ⟨c, hc, hcp⟩ := I.current
  have hclt : c < paths.length := (List.getElem?_eq_some_iff.1 hcp).1
  have hstack : (t.step now (.enter n)).stack = t.stack ++ [(n.address, now)] := rfl
  have hpath : (t.step now (.enter n)).path = t.path ++ [n.address] := by simp [Trace.step, Trace.path]
  have hdone : (t.step now (.enter n)).done = t.done := rfl
  have hplen : t.path.length = t.stack.length := by simp [Trace.path]
  have hint : ∀ p, (t.step now (.enter n)).intervals p = t.intervals p := fun p => rfl
  have htake : ∀ k, k ≤ t.stack.length → (t.path ++ [n.address]).take k = t.path.take k := by
    intro k hk
    rw [List.take_append_of_le_length (by omega)]
  simp only [step, startSection, hc]
  cases hf : findSection s.sections n c with
  | some i =>
    obtain ⟨hci, x0, hx0, hxn, hxp⟩ := findSection_some hf
    have hi0 : 0 < i := by omega
    obtain ⟨p, q, hp1, hp2, hp3, hp4⟩ := I.tree.child i x0 hi0 hx0
    rw [hxp] at hp1
    cases hp1
    rw [hcp] at hp3
    cases hp3
    rw [hxn] at hp4
    refine ⟨_, paths, rfl, ⟨I.tree.modify i _ (fun _ => rfl) (fun _ => rfl), I.nodup, ⟨i, rfl, by rw [hpath]; exact hp4⟩,
      ?_, ?_, ?_, ?_, ?_⟩, ?_⟩
    · intro j x p hj hx hp
      obtain ⟨y, hy, rfl⟩ := modify_get hx
      rw [hint]
      have := I.total j y p hj hy hp
      split <;> exact this
    · intro j x k hk0 hk hx hp
      obtain ⟨y, hy, rfl⟩ := modify_get hx
      rw [hpath] at hp
      rw [hstack] at hk ⊢
      simp only [List.length_append, List.length_singleton] at hk
      by_cases hkl : k = t.stack.length + 1
      · subst hkl
        have : (t.path ++ [n.address]).take (t.stack.length + 1) = t.path ++ [n.address] := by
          rw [List.take_of_length_le]; simp [hplen]
        rw [this] at hp
        have hij := path_inj I.nodup hp4 hp
        subst hij
        simp
      · rw [htake k (by omega)] at hp
        have hij : i ≠ j := by
          rintro rfl
          rw [hp4] at hp
          have := congrArg List.length (Option.some.inj hp)
          simp at this; omega
        rw [if_neg hij, List.getElem?_append_left (by omega)]
        exact I.epoch j y k hk0 (by omega) hy hp
    · intro k hk
      rw [hstack] at hk
      rw [hpath]
      simp only [List.length_append, List.length_singleton] at hk
      by_cases hkl : k = t.stack.length + 1
      · rw [List.take_of_length_le (by simp [hplen]; omega)]
        exact List.mem_of_getElem? hp4
      · rw [htake k (by omega)]; exact I.open_ k (by omega)
    · exact I.known
    · intro p hp hne
      rcases I.used p hp hne with ⟨k, hk, e⟩ | h
      · left; exact ⟨k, by rw [hstack]; simp; omega, by rw [hpath, htake k hk]; exact e⟩
      · exact Or.inr h
    · show (s.sections.modify i _)[0]? = _
      rw [List.getElem?_modify]
      have : ¬ i = 0 := by omega
      simp [this]
  | none =>
    have hnew : t.path ++ [n.address] ∉ paths := by
      intro hm
      obtain ⟨i, hi⟩ := List.getElem?_of_mem hm
      have hil : i < s.sections.length := by rw [← I.tree.len]; exact (List.getElem?_eq_some_iff.1 hi).1
      have hi0 : 0 < i := by
        rcases Nat.eq_zero_or_pos i with rfl | h
        · obtain ⟨_, _, _, h0⟩ := I.tree.root
          rw [h0] at hi
          have := congrArg List.length (Option.some.inj hi)
          simp at this
        · exact h
      obtain ⟨p, q, h1, h2, h3, h4⟩ := I.tree.child i s.sections[i] hi0 (List.getElem?_eq_getElem hil)
      rw [hi] at h4
      obtain ⟨e1, e2⟩ := List.append_inj' (Option.some.inj h4) rfl
      subst e1
      have hpc := path_inj I.nodup hcp h3
      subst hpc
      refine findSection_none hf i h2 _ (List.getElem?_eq_getElem hil) ⟨?_, h1⟩
      simpa using e2.symm
    have hslen : s.sections.length = paths.length := I.tree.len.symm
    refine ⟨_, paths ++ [t.path ++ [n.address]], rfl, ⟨⟨?_, ?_, ?_⟩, ?_, ?_, ?_, ?_, ?_, ?_, ?_⟩, ?_⟩
    · simp [hslen]
    · obtain ⟨s0, h1, h2, h3⟩ := I.tree.root
      refine ⟨s0, ?_, h2, ?_⟩
      · rw [List.getElem?_append_left (List.getElem?_eq_some_iff.1 h1).1]; exact h1
      · rw [List.getElem?_append_left (List.getElem?_eq_some_iff.1 h3).1]; exact h3
    · intro i x hi hx
      by_cases hil : i < s.sections.length
      · rw [List.getElem?_append_left hil] at hx
        obtain ⟨p, q, h1, h2, h3, h4⟩ := I.tree.child i x hi hx
        refine ⟨p, q, h1, h2, ?_, ?_⟩
        · rw [List.getElem?_append_left (by omega)]; exact h3
        · rw [List.getElem?_append_left (by omega)]; exact h4
      · have hil' : i = s.sections.length := by
          have := (List.getElem?_eq_some_iff.1 hx).1
          simp at this; omega
        subst hil'
        simp at hx
        subst hx
        refine ⟨c, t.path, rfl, by omega, ?_, ?_⟩
        · rw [List.getElem?_append_left hclt]; exact hcp
        · rw [hslen]; simp
    · rw [List.nodup_append]
      exact ⟨I.nodup, by simp, by intro a ha b hb; simp at hb; subst hb; rintro rfl; exact hnew ha⟩
    · refine ⟨s.sections.length, rfl, ?_⟩
      rw [hpath, hslen]; simp
    · intro i x p hi hx hp
      rw [hint]
      by_cases hil : i < s.sections.length
      · rw [List.getElem?_append_left hil] at hx
        rw [List.getElem?_append_left (by omega)] at hp
        exact I.total i x p hi hx hp
      · have hil' : i = s.sections.length := by
          have := (List.getElem?_eq_some_iff.1 hx).1
          simp at this; omega
        subst hil'
        simp at hx
        subst hx
        rw [hslen] at hp
        simp at hp
        subst hp
        have : t.intervals (t.path ++ [n.address]) = [] := by
          unfold Trace.intervals
          rw [List.map_eq_nil_iff, List.filter_eq_nil_iff]
          intro y hy
          simp only [decide_eq_true_eq]
          intro e
          exact hnew (e ▸ I.known y hy)
        rw [this]
        exact ⟨rfl, rfl⟩
    · intro i x k hk0 hk hx hp
      rw [hpath] at hp
      rw [hstack] at hk ⊢
      simp only [List.length_append, List.length_singleton] at hk
      by_cases hil : i < s.sections.length
      · rw [List.getElem?_append_left hil] at hx
        rw [List.getElem?_append_left (by omega)] at hp
        have hkl : k ≤ t.stack.length := by
          by_contra hkl
          rw [List.take_of_length_le (by simp [hplen]; omega)] at hp
          exact hnew (List.mem_of_getElem? hp)
        rw [htake k hkl] at hp
        rw [List.getElem?_append_left (by omega)]
        exact I.epoch i x k hk0 hkl hx hp
      · have hil' : i = s.sections.length := by
          have := (List.getElem?_eq_some_iff.1 hx).1
          simp at this; omega
        subst hil'
        simp at hx
        subst hx
        rw [hslen] at hp
        simp only [List.getElem?_concat_length, Option.some.injEq] at hp
        have : k = t.stack.length + 1 := by
          have := congrArg List.length hp
          simp [hplen] at this; omega
        subst this
        simp
    · intro k hk
      rw [hstack] at hk
      rw [hpath]
      simp only [List.length_append, List.length_singleton] at hk
      by_cases hkl : k = t.stack.length + 1
      · rw [List.take_of_length_le (by simp [hplen]; omega)]
        simp
      · rw [htake k (by omega)]; exact List.mem_append_left _ (I.open_ k (by omega))
    · intro x hx
      exact List.mem_append_left _ (I.known x hx)
    · intro p hp hne
      rcases List.mem_append.1 hp with hp | hp
      · rcases I.used p hp hne with ⟨k, hk, e⟩ | h
        · left; exact ⟨k, by rw [hstack]; simp; omega, by rw [hpath, htake k hk]; exact e⟩
        · exact Or.inr h
      · simp at hp
        subst hp
        left
        exact ⟨t.stack.length + 1, by rw [hstack]; simp, by
          rw [hpath, List.take_of_length_le (by simp [hplen])]⟩
    · show (s.sections ++ _)[0]? = _
      obtain ⟨s0, h1, _⟩ := I.tree.root
      rw [List.getElem?_append_left (List.getElem?_eq_some_iff.1 h1).1]

theorem prof_leave {s : State} {t : Trace} {paths : List (List Nat)} (I : ProfInv s t paths) (now : Int)
    (hne : t.stack ≠ []) :
    ∃ s' paths', step s now .leave = .ok s' ∧ ProfInv s' (t.step now .leave) paths' ∧
      s'.sections[0]? = s.sections[0]? := by
  obtain ⟨c, hc, hcp⟩ := I.current
  have hclt : c < paths.length := (List.getElem?_eq_some_iff.1 hcp).1
  obtain ⟨stk, top, hst⟩ : ∃ stk top, t.stack = stk ++ [top] := by
    rcases List.eq_nil_or_concat t.stack with h | ⟨a, b, h⟩
    · exact absurd h hne
    · exact ⟨a, b, by rw [h]; simp⟩
  have hplen : t.path.length = t.stack.length := by simp [Trace.path]
  have hslen : t.stack.length = stk.length + 1 := by rw [hst]; simp
  have hpath0 : t.path = stk.map (·.1) ++ [top.1] := by simp [Trace.path, hst]
  have hstep : t.step now .leave = ⟨stk, t.done ++ [(t.path, now - top.2)]⟩ := by
    simp only [Trace.step, hst]
    simp
  have hc0 : 0 < c := by
    rcases Nat.eq_zero_or_pos c with rfl | h
    · obtain ⟨_, _, _, h0⟩ := I.tree.root
      rw [h0] at hcp
      have := congrArg List.length (Option.some.inj hcp)
      simp [hplen, hslen] at this
    · exact h
  have hcl : c < s.sections.length := by rw [← I.tree.len]; exact hclt
  obtain ⟨p, q, h1, h2, h3, h4⟩ := I.tree.child c s.sections[c] hc0 (List.getElem?_eq_getElem hcl)
  have hq : q = stk.map (·.1) := by
    rw [hcp, hpath0] at h4
    exact (List.append_inj' (Option.some.inj h4) rfl).1.symm
  have hep : s.sections[c].epoch = top.2 := by
    have := I.epoch c s.sections[c] t.stack.length (by omega) le_rfl (List.getElem?_eq_getElem hcl)
      (by rw [List.take_of_length_le (by omega)]; exact hcp)
    rw [hst] at this
    simp at this
    exact this.symm
  have htake : ∀ k, k ≤ stk.length → t.path.take k = (stk.map (·.1)).take k := by
    intro k hk
    rw [hpath0, List.take_append_of_le_length (by simp; omega)]
  simp only [step, endSection, hc, List.getElem?_eq_getElem hcl, h1]
  rw [hstep]
  refine ⟨_, paths, rfl, ⟨I.tree.modify c _ (fun _ => rfl) (fun _ => rfl), I.nodup, ⟨p, rfl, by rw [h3, hq]; rfl⟩,
      ?_, ?_, ?_, ?_, ?_⟩, ?_⟩
  · intro i x p' hi hx hp
    obtain ⟨y, hy, rfl⟩ := modify_get hx
    have ht := I.total i y p' hi hy hp
    have hint : Trace.intervals ⟨stk, t.done ++ [(t.path, now - top.2)]⟩ p' =
        t.intervals p' ++ if t.path = p' then [now - top.2] else [] := by
      unfold Trace.intervals
      rw [List.filter_append, List.map_append]
      congr 1
      by_cases e : t.path = p' <;> simp [e]
    rw [hint]
    by_cases hic : c = i
    · subst hic
      rw [hcp] at hp
      cases hp
      rw [List.getElem?_eq_getElem hcl] at hy
      cases hy
      rw [if_pos rfl, if_pos rfl]
      simp only [List.sum_append, List.sum_singleton, List.length_append, List.length_singleton]
      exact ⟨by rw [ht.1, hep], by rw [ht.2]⟩
    · rw [if_neg hic, if_neg (fun e : t.path = p' => hic (path_inj I.nodup (e ▸ hcp) hp)), List.append_nil]
      exact ht
  · intro i x k hk0 hk hx hp
    obtain ⟨y, hy, rfl⟩ := modify_get hx
    simp only [Trace.path] at hk hp ⊢
    rw [← htake k hk] at hp
    have := I.epoch i y k hk0 (by omega) hy hp
    rw [hst, List.getElem?_append_left (by omega)] at this
    rw [this]
    split <;> rfl
  · intro k hk
    simp only [Trace.path] at hk ⊢
    rw [← htake k hk]
    exact I.open_ k (by omega)
  · intro x hx
    rcases List.mem_append.1 hx with hx | hx
    · exact I.known x hx
    · simp at hx
      subst hx
      exact List.mem_of_getElem? hcp
  · intro p' hp hne'
    rcases I.used p' hp hne' with ⟨k, hk, e⟩ | ⟨x, hx, e⟩
    · by_cases hkl : k ≤ stk.length
      · left
        exact ⟨k, hkl, by rw [← e, htake k hkl]; rfl⟩
      · right
        refine ⟨(t.path, now - top.2), by simp, ?_⟩
        rw [← e, List.take_of_length_le (by omega)]
    · right
      exact ⟨x, List.mem_append_left _ hx, e⟩
  · show (s.sections.modify c _)[0]? = _
    rw [List.getElem?_modify]
    have : ¬ c = 0 := by omega
    simp [this]

/-- **C37, accounting.** For every properly nested history after `start`: nothing goes wrong; the sections form a tree
with one section for every path that was ever entered (and the root), and no other; the total of a section is the sum
of its finished intervals, and its count their number. -/
theorem C37_accounting (label : CStr) (t0 : Int) (s0 : State) (hs : start init label t0 = .ok s0)
    (h : List (Int × Event)) (hn : Trace.Nested ⟨[], []⟩ h) :
    ∃ s paths, run s0 h = .ok s ∧ Paths s.sections paths ∧ paths.Nodup ∧
      (∀ p, p ∈ paths ↔ p = [] ∨ (∃ k, k ≤ (Trace.run ⟨[], []⟩ h).stack.length ∧ (Trace.run ⟨[], []⟩ h).path.take k = p) ∨
        ∃ x ∈ (Trace.run ⟨[], []⟩ h).done, p = x.1) ∧
      (∀ (i : Nat) (x : Section) (p : List Nat), 0 < i → s.sections[i]? = some x → paths[i]? = some p →
        x.total = ((Trace.run ⟨[], []⟩ h).intervals p).sum ∧ x.count = ((Trace.run ⟨[], []⟩ h).intervals p).length) ∧
      (∃ c, s.current = some c ∧ paths[c]? = some (Trace.run ⟨[], []⟩ h).path) ∧
      s.sections[0]? = some ⟨label, none, 0, t0, 0⟩ := by
  cases hs
  have gen : ∀ (h : List (Int × Event)) (s : State) (t : Trace) (paths : List (List Nat)), ProfInv s t paths →
      t.Nested h → ∃ s' paths', run s h = .ok s' ∧ ProfInv s' (t.run h) paths' ∧ s'.sections[0]? = s.sections[0]? := by
    intro h
    induction h with
    | nil => intro s t paths I _; exact ⟨s, paths, rfl, I, rfl⟩
    | cons x h ih =>
      intro s t paths I hn
      obtain ⟨now, e⟩ := x
      obtain ⟨h1, h2⟩ := hn
      have : ∃ s' paths', step s now e = .ok s' ∧ ProfInv s' (t.step now e) paths' ∧
          s'.sections[0]? = s.sections[0]? := by
        cases e with
        | enter n => exact prof_enter I n now
        | leave => exact prof_leave I now (h1 rfl)
      obtain ⟨s1, p1, e1, I1, z1⟩ := this
      obtain ⟨s2, p2, e2, I2, z2⟩ := ih s1 _ p1 I1 h2
      exact ⟨s2, p2, by simp only [run, e1, Res.bind, e2], I2, z2.trans z1⟩
  have I0 : ProfInv ⟨[⟨label, none, 0, t0, 0⟩], some 0, true⟩ ⟨[], []⟩ [[]] := by
    refine ⟨⟨rfl, ⟨_, rfl, rfl, rfl⟩, ?_⟩, by simp, ⟨0, rfl, rfl⟩, ?_, ?_, ?_, by simp, by simp⟩
    · intro i s hi hs
      have := (List.getElem?_eq_some_iff.1 hs).1
      simp at this; omega
    · intro i x p hi hs
      have := (List.getElem?_eq_some_iff.1 hs).1
      simp at this; omega
    · intro i x k hk0 hk
      simp at hk; omega
    · intro k hk; simp [Trace.path]
  obtain ⟨s, paths, e, I, z⟩ := gen h _ _ _ I0 hn
  refine ⟨s, paths, e, I.tree, I.nodup, ?_, I.total, I.current, z⟩
  intro p
  constructor
  · intro hp
    by_cases hp0 : p = []
    · exact Or.inl hp0
    · exact Or.inr (I.used p hp hp0)
  · rintro (rfl | ⟨k, hk, rfl⟩ | ⟨x, hx, rfl⟩)
    · obtain ⟨_, _, _, h0⟩ := I.tree.root
      exact List.mem_of_getElem? h0
    · exact I.open_ k hk
    · exact I.known x hx

/-! ### Exclusive times -/

theorem foldl_sub (l : List Section) (i : Nat) (a : Int) :
    l.foldl (fun t c => if c.parent = some i then t - c.total else t) a =
      a - ((l.filter (·.parent = some i)).map (·.total)).sum := by
  induction l generalizing a with
  | nil => simp
  | cons c l ih =>
    rw [List.foldl_cons, ih]
    by_cases h : c.parent = some i
    · simp [h]; ring
    · simp [h]

/-- **C37, exclusive time** is the total minus the totals of the children. -/
theorem C37_exclusive (secs : List Section) (i : Nat) (x : Section) (hx : secs[i]? = some x) :
    exclusive secs i = x.total - ((secs.filter (·.parent = some i)).map (·.total)).sum := by
  unfold exclusive
  rw [foldl_sub, hx]
  rfl

/-- The totals of all sections, grouped by parent. -/
theorem sum_by_parent (l : List Section) (n : Nat) (h : ∀ x ∈ l, ∃ p, x.parent = some p ∧ p < n) :
    (l.map (·.total)).sum = ((List.range n).map fun i => ((l.filter (·.parent = some i)).map (·.total)).sum).sum := by
  induction l with
  | nil => simp
  | cons c l ih =>
    obtain ⟨p, hp, hpn⟩ := h c (by simp)
    have ih := ih (fun x hx => h x (List.mem_cons_of_mem _ hx))
    rw [List.map_cons, List.sum_cons, ih]
    have key : ∀ i, (((c :: l).filter (·.parent = some i)).map (·.total)).sum =
        (if i = p then c.total else 0) + ((l.filter (·.parent = some i)).map (·.total)).sum := by
      intro i
      by_cases e : i = p
      · subst e; simp [hp]
      · have : ¬ p = i := fun h => e h.symm
        simp [hp, e, this]
    simp only [key]
    rw [List.sum_map_add]
    congr 1
    have single : ∀ m, ((List.range m).map fun i => if i = p then c.total else 0).sum = if p < m then c.total else 0 := by
      intro m
      induction m with
      | zero => simp
      | succ m ihm =>
        rw [List.range_succ, List.map_append, List.sum_append, ihm]
        simp only [List.map_singleton, List.sum_singleton]
        by_cases h1 : p < m
        · have h3 : ¬ m = p := by omega
          have h4 : p < m + 1 := by omega
          simp [h1, h3, h4]
        · by_cases h2 : m = p
          · subst h2; simp
          · have h4 : ¬ p < m + 1 := by omega
            simp [h1, h2, h4]
    rw [single, if_pos hpn]

/-- **C37, exclusive times add up.** In every tree of sections the exclusive times of all sections sum to the total
of the root. -/
theorem C37_exclusive_sum (secs : List Section) (paths : List (List Nat)) (h : Paths secs paths) :
    ((List.range secs.length).map (exclusive secs)).sum = ((secs[0]?).map (·.total)).getD 0 := by
  obtain ⟨r, hr, hrp, _⟩ := h.root
  obtain ⟨rest, rfl⟩ : ∃ rest, secs = r :: rest := by
    cases secs with
    | nil => cases hr
    | cons a l => cases hr; exact ⟨l, rfl⟩
  have hch : ∀ x ∈ rest, ∃ p, x.parent = some p ∧ p < (r :: rest).length := by
    intro x hx
    obtain ⟨i, hi⟩ := List.getElem?_of_mem hx
    obtain ⟨p, _, h1, h2, _, _⟩ := h.child (i + 1) x (by omega) (by simpa using hi)
    have := (List.getElem?_eq_some_iff.1 hi).1
    exact ⟨p, h1, by simp; omega⟩
  have e1 : (List.range (r :: rest).length).map (exclusive (r :: rest)) =
      (List.range (r :: rest).length).map (fun i => (((r :: rest)[i]?).map (·.total)).getD 0 +
        -((rest.filter (·.parent = some i)).map (·.total)).sum) := by
    apply List.map_congr_left
    intro i hi
    have hi := List.mem_range.1 hi
    rw [C37_exclusive _ i (r :: rest)[i] (List.getElem?_eq_getElem hi), List.getElem?_eq_getElem hi]
    have : ((r :: rest).filter (·.parent = some i)) = rest.filter (·.parent = some i) := by
      rw [List.filter_cons, hrp]; simp
    rw [this]
    simp; ring
  rw [e1, List.sum_map_add]
  have e2 : ((List.range (r :: rest).length).map fun i => (((r :: rest)[i]?).map (·.total)).getD 0) =
      (r :: rest).map (·.total) := by
    apply List.ext_getElem
    · simp
    · intro i h1 h2
      simp only [List.length_map, List.length_range] at h1
      rw [List.getElem_map, List.getElem_range, List.getElem?_eq_getElem h1, List.getElem_map]
      rfl
  have e3 : ((List.range (r :: rest).length).map fun i => -((rest.filter (·.parent = some i)).map (·.total)).sum).sum =
      -(rest.map (·.total)).sum := by
    rw [sum_by_parent rest _ hch]
    have neg : ∀ l : List Nat, (l.map fun i => -((rest.filter (·.parent = some i)).map (·.total)).sum).sum =
        -(l.map fun i => ((rest.filter (·.parent = some i)).map (·.total)).sum).sum := by
      intro l
      induction l with
      | nil => simp
      | cons a l ih => simp only [List.map_cons, List.sum_cons, ih]; ring
    exact neg _
  rw [e2, e3]
  simp

/-- After `stop` the root's total is the time since `start`, so all of it is accounted for. -/
theorem C37_stop (s s' : State) (paths : List (List Nat)) (hp : Paths s.sections paths) (label : CStr) (t0 t1 : Int)
    (hr : s.sections[0]? = some ⟨label, none, 0, t0, 0⟩) (h : stop s t1 = .ok s') :
    ((List.range s'.sections.length).map (exclusive s'.sections)).sum = t1 - t0 ∧
      (s'.sections[0]?).map (·.count) = some 1 := by
  unfold stop at h
  split at h
  · cases h
  · cases h
    have hp' := hp.modify 0 (fun r : Section => { r with total := t1 - r.epoch, count := r.count + 1 })
      (fun _ => rfl) (fun _ => rfl)
    have hr' : (s.sections.modify 0 fun r : Section => { r with total := t1 - r.epoch, count := r.count + 1 })[0]? =
        some ⟨label, none, t1 - t0, t0, 1⟩ := by
      rw [List.getElem?_modify, hr]; rfl
    rw [C37_exclusive_sum _ paths hp', hr']
    exact ⟨rfl, rfl⟩

/-- **C37 is violated for equal names at different addresses.** They give two sections under the same parent. -/
theorem C37_same_name_violated : ∃ s, (start init ⟨1, "TOTAL"⟩ 0).bind (fun s0 => run s0
      [(1, .enter ⟨2, "a"⟩), (2, .leave), (3, .enter ⟨3, "a"⟩), (4, .leave)]) = .ok s ∧
    s.sections.map (fun x => (x.name.text, x.parent)) = [("TOTAL", none), ("a", some 0), ("a", some 0)] :=
  ⟨_, rfl, by decide⟩

/-- Beyond C37: leaving more sections than were entered is undefined. -/
theorem C37_unbalanced_undefined (label : CStr) (t0 t1 : Int) (s0 : State) (hs : start init label t0 = .ok s0) :
    endSection s0 t1 = .ub := by
  cases hs; rfl

/-- Non-vacuity: a recursive call, a repeated section, and an open section. -/
example : Trace.Nested ⟨[], []⟩ [(1, .enter ⟨2, "a"⟩), (2, .enter ⟨2, "a"⟩), (5, .leave), (6, .enter ⟨3, "b"⟩), (7, .leave),
    (8, .leave), (10, .enter ⟨2, "a"⟩)] := by
  simp [Trace.Nested, Trace.step]
example : ∃ s, (start init ⟨1, "TOTAL"⟩ 0).bind (fun s0 => run s0
    [(1, .enter ⟨2, "a"⟩), (2, .enter ⟨2, "a"⟩), (5, .leave), (6, .enter ⟨3, "b"⟩), (7, .leave), (8, .leave)]) = .ok s ∧
    s.sections.map (fun x => (x.parent, x.total, x.count)) =
      [(none, 0, 0), (some 0, 7, 1), (some 1, 3, 1), (some 1, 1, 1)] :=
  ⟨_, rfl, by decide⟩

/-- **C37.** A profiler that is started cannot be started again before it is stopped, and one that is not started cannot be stopped.
Starting afresh forgets what was measured before. -/
theorem C37_start_stop (label label' : CStr) (t t' : Int) (s : State) :
    (∀ s0, start s label t = .ok s0 → start s0 label' t' = .err ∧ s0.sections = [⟨label, none, 0, t, 0⟩]) ∧
    (s.enabled = true → start s label t = .err) ∧ (s.enabled = false → stop s t = .err) ∧
    (∀ s1, stop s t = .ok s1 → stop s1 t' = .err ∧ ∃ s2, start s1 label t' = .ok s2) := by
  refine ⟨?_, ?_, ?_, ?_⟩
  · intro s0 h
    unfold start at h
    split at h
    · cases h
    · cases h; exact ⟨rfl, rfl⟩
  · intro h; simp [start, h]
  · intro h; simp [stop, h]
  · intro s1 h
    unfold stop at h
    split at h
    · cases h
    · cases h; exact ⟨rfl, _, rfl⟩

example : ∃ s0 s1, start init ⟨1, "a"⟩ 0 = .ok s0 ∧ stop s0 5 = .ok s1 := ⟨_, _, rfl, rfl⟩

end Xo
