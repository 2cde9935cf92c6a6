import Verif.Model.Proxy
import Verif.Props.C06_IndexedSet

/-!
C102: proxies. A proxy stands for the value that was last given to it, however many other values were given to other proxies since, and two
proxies are equal exactly if their values are.
-/
namespace Xo.Prx
variable {T : Type} [LinearOrder T]

/-- The values that the proxies stand for, with plain variables instead of proxies. A call that did not return changes nothing. -/
def Spec.step (vs : List T) : Op T → Bool → List T
  | _, false => vs
  | .make v, true => vs ++ [v]
  | .set i v, true => vs.set i v
  | .copy i, true => match vs[i]? with
    | some v => vs ++ [v]
    | none => vs

def Spec.run (vs : List T) : List (Op T × Bool) → List T
  | [] => vs
  | (op, b) :: l => Spec.run (Spec.step vs op b) l

/-- The proxies are indices of the values. -/
def Rel (mx : Nat) (s : State T) (vs : List T) : Prop :=
  ∃ a : Xo.Spec.AMap T Nat, IndexedSet.Inv mx s.table a ∧ s.proxies.map some = vs.map a

theorem rel_step {mx : Nat} {s : State T} {vs : List T} (h : Rel mx s vs) (op : Op T) :
    Rel mx (step mx s op).2 (Spec.step vs op (step mx s op).1) := by
  obtain ⟨a, hinv, hmap⟩ := h
  have keep : ∀ (a' : Xo.Spec.AMap T Nat), (∀ w i, a w = some i → a' w = some i) → vs.map a = vs.map a' := by
    intro a' hk
    refine List.map_congr_left fun v hv => ?_
    have : a v ∈ s.proxies.map some := by rw [hmap]; exact List.mem_map_of_mem hv
    obtain ⟨k, -, e⟩ := List.mem_map.1 this
    rw [← e, hk v k e.symm]
  cases op with
  | make v =>
    obtain ⟨a', i1, i2, i3⟩ := IndexedSet.inv_step hinv v
    simp only [step]
    rcases hg : s.table.getOrAdd mx v with ⟨r, t⟩
    rw [hg] at i1 i3
    cases r with
    | ok k => exact ⟨a', i1, by simp [Spec.step, hmap, keep a' i2, i3 k rfl]⟩
    | err => exact ⟨a', i1, by simp only [Spec.step]; rw [hmap, keep a' i2]⟩
    | ub => exact ⟨a', i1, by simp only [Spec.step]; rw [hmap, keep a' i2]⟩
  | set i v =>
    obtain ⟨a', i1, i2, i3⟩ := IndexedSet.inv_step hinv v
    simp only [step]
    rcases hg : s.table.getOrAdd mx v with ⟨r, t⟩
    rw [hg] at i1 i3
    cases r with
    | ok k => exact ⟨a', i1, by simp only [Spec.step]; rw [List.map_set, List.map_set, hmap, keep a' i2, i3 k rfl]⟩
    | err => exact ⟨a', i1, by simp only [Spec.step]; rw [hmap, keep a' i2]⟩
    | ub => exact ⟨a', i1, by simp only [Spec.step]; rw [hmap, keep a' i2]⟩
  | copy i =>
    simp only [step]
    cases e : s.proxies[i]? with
    | none => exact ⟨a, hinv, hmap⟩
    | some k =>
      have hl : (s.proxies.map some)[i]? = (vs.map a)[i]? := by rw [hmap]
      rw [List.getElem?_map, List.getElem?_map, e] at hl
      cases hv : vs[i]? with
      | none => rw [hv] at hl; cases hl
      | some v =>
        rw [hv] at hl
        simp only [Option.map_some, Option.some.injEq] at hl
        exact ⟨a, hinv, by simp [Spec.step, hv, hmap, hl]⟩

theorem rel_run {mx : Nat} (ops : List (Op T)) : ∀ {s : State T} {vs : List T}, Rel mx s vs →
    Rel mx (run mx s ops).2 (Spec.run vs (ops.zip (run mx s ops).1)) := by
  induction ops with
  | nil => intro s vs h; exact h
  | cons op ops ih =>
    intro s vs h
    simp only [run, List.zip_cons_cons, Spec.run]
    exact ih (rel_step h op)

theorem rel_empty (mx : Nat) : Rel mx (State.empty : State T) [] := ⟨_, IndexedSet.inv_empty mx, rfl⟩

/-- **C102.** After any history, with calls that throw, each proxy gives the value that a plain variable in its place would have. -/
theorem C102_get (mx : Nat) (ops : List (Op T)) (i : Nat) :
    (run mx .empty ops).2.proxies.length = (Spec.run [] (ops.zip (run mx .empty ops).1)).length ∧
    ∀ v, (Spec.run [] (ops.zip (run mx .empty ops).1))[i]? = some v → get (run mx .empty ops).2 i = .ok v := by
  obtain ⟨a, hinv, hmap⟩ := rel_run ops (rel_empty (T := T) mx)
  refine ⟨by simpa using congrArg List.length hmap, ?_⟩
  intro v hv
  have hl := congrArg (fun l => l[i]?) hmap
  simp only [List.getElem?_map, hv, Option.map_some] at hl
  unfold get
  cases hp : (run mx State.empty ops).2.proxies[i]? with
  | none => rw [hp] at hl; cases hl
  | some k =>
    rw [hp] at hl
    simp only [Option.map_some, Option.some.injEq] at hl
    have := (hinv.back v k hl.symm).1
    simp only [IndexedSet.at', this]
    rfl

/-- **C102.** Two proxies are equal exactly if their values are equal. -/
theorem C102_eq (mx : Nat) (ops : List (Op T)) (i j : Nat) (v w : T)
    (hi : (Spec.run [] (ops.zip (run mx .empty ops).1))[i]? = some v) (hj : (Spec.run [] (ops.zip (run mx .empty ops).1))[j]? = some w) :
    eq (run mx .empty ops).2 i j = true ↔ v = w := by
  obtain ⟨a, hinv, hmap⟩ := rel_run ops (rel_empty (T := T) mx)
  have h1 := congrArg (fun l => l[i]?) hmap
  have h2 := congrArg (fun l => l[j]?) hmap
  simp only [List.getElem?_map, hi, hj, Option.map_some] at h1 h2
  unfold eq
  cases hp : (run mx State.empty ops).2.proxies[i]? with
  | none => rw [hp] at h1; cases h1
  | some k =>
    cases hq : (run mx State.empty ops).2.proxies[j]? with
    | none => rw [hq] at h2; cases h2
    | some l =>
      rw [hp] at h1
      rw [hq] at h2
      simp only [Option.map_some, Option.some.injEq] at h1 h2
      simp only [beq_iff_eq, Option.some.injEq]
      constructor
      · rintro rfl
        have := (hinv.back v k h1.symm).1.symm.trans (hinv.back w k h2.symm).1
        simpa using this
      · rintro rfl
        rw [← h1] at h2
        simpa using h2.symm

/-- **C102.** Calls return as long as there are fewer different values than indices: a history with `n` calls does not throw if `n` is at most the
largest index, except for copying a proxy that does not exist. -/
theorem C102_returns (mx : Nat) (ops : List (Op T)) (hn : ops.length ≤ mx) (k : Nat) (op : Op T) (hk : ops[k]? = some op)
    (hc : ∀ i, op ≠ .copy i) : (run mx .empty ops).1[k]? = some true := by
  suffices ∀ (ops : List (Op T)) (s : State T), s.table.values.length + ops.length ≤ mx → ∀ (k : Nat) (op : Op T), ops[k]? = some op → (∀ i, op ≠ .copy i) →
      (run mx s ops).1[k]? = some true from this ops .empty (by simpa [State.empty, IndexedSet.empty] using hn) k op hk hc
  intro ops
  induction ops with
  | nil => intro s _ k op h; simp at h
  | cons o ops ih =>
    intro s hs k op hk hc
    have hg : ∀ v : T, (∃ i, (s.table.getOrAdd mx v).1 = .ok i) ∧ (s.table.getOrAdd mx v).2.values.length ≤ s.table.values.length + 1 := by
      intro v
      unfold IndexedSet.getOrAdd
      split
      · exact ⟨⟨_, rfl⟩, by simp⟩
      · simp only [List.length_append, List.length_cons, List.length_nil, Nat.zero_add, Nat.add_sub_cancel] at hs ⊢
        rw [if_neg (by omega)]
        exact ⟨⟨_, rfl⟩, by simp⟩
    have hstep : (step mx s o).2.table.values.length ≤ s.table.values.length + 1 ∧ ((∀ i, o ≠ .copy i) → (step mx s o).1 = true) := by
      cases o with
      | make v =>
        obtain ⟨⟨i, e⟩, hl⟩ := hg v
        have e' : s.table.getOrAdd mx v = (.ok i, (s.table.getOrAdd mx v).2) := by rw [← e]
        simp only [step]
        rw [e']
        exact ⟨hl, fun _ => rfl⟩
      | set j v =>
        obtain ⟨⟨i, e⟩, hl⟩ := hg v
        have e' : s.table.getOrAdd mx v = (.ok i, (s.table.getOrAdd mx v).2) := by rw [← e]
        simp only [step]
        rw [e']
        exact ⟨hl, fun _ => rfl⟩
      | copy j =>
        simp only [step]
        refine ⟨?_, fun h => absurd rfl (h j)⟩
        split <;> simp
    cases k with
    | zero =>
      simp only [List.getElem?_cons_zero, Option.some.injEq] at hk
      subst hk
      simp only [run, List.getElem?_cons_zero, hstep.2 hc]
    | succ k =>
      simp only [List.getElem?_cons_succ] at hk
      simp only [run, List.getElem?_cons_succ]
      refine ih (step mx s o).2 ?_ k op hk hc
      simp only [List.length_cons] at hs
      have := hstep.1
      omega

/-- **C102.** Reading a proxy from a tree that has no such value returns `false` and changes nothing; otherwise it sets the value. -/
theorem C102_from_prop_node (mx : Nat) (s : State T) (i : Nat) (v : T) :
    fromPropNode mx s i none = (false, s) ∧ fromPropNode mx s i (some v) = step mx s (.set i v) := ⟨rfl, rfl⟩

/-! ### Examples -/

example : (run 100 .empty [.make 5, .make 7, .make 5, .copy 1, .set 0 7]).2.proxies = [1, 1, 0, 1] := by decide +kernel
example : get (run 100 .empty [.make 5, .make 7, .make 5, .set 0 9]).2 0 = .ok 9 := by decide +kernel
/-- With room for one index the second value is refused, and the proxy keeps its value. -/
example : (run 1 .empty [.make 5, .set 0 7]).1 = [true, false] ∧ get (run 1 .empty [.make 5, .set 0 7]).2 0 = .ok 5 := by decide +kernel

end Xo.Prx
