import Verif.Model.Basic

/-!
`std::vector` element access with undefined behaviour as an outcome, and the two loop forms that occur in the
modelled code.
-/
namespace Xo

/-- `v[i]` read: undefined when out of range. -/
def Vec.get {α} (l : List α) (i : Nat) : Res α :=
  match l[i]? with
  | some a => .ok a
  | none => .ub

/-- `v[i] = a`: undefined when out of range. -/
def Vec.set {α} (l : List α) (i : Nat) (a : α) : Res (List α) :=
  if i < l.length then .ok (l.set i a) else .ub

/-- `v.resize( n, a )`. -/
def Vec.resize {α} (l : List α) (n : Nat) (a : α) : List α :=
  l.take n ++ List.replicate (n - l.length) a

/-- `for ( i = i0; i < i0 + n; ++i ) s = f( i, s )`. -/
def loopUp {σ} (f : Nat → σ → Res σ) : Nat → Nat → σ → Res σ
  | _, 0, s => .ok s
  | i, n + 1, s => (f i s).bind (loopUp f (i + 1) n)

/-- `for ( i = n; i-- > 0; ) s = f( i, s )`. -/
def loopDown {σ} (f : Nat → σ → Res σ) : Nat → σ → Res σ
  | 0, s => .ok s
  | n + 1, s => (f n s).bind (loopDown f n)

theorem Vec.get_ok {α} {l : List α} {i : Nat} {a : α} (h : l[i]? = some a) : Vec.get l i = .ok a := by
  simp [Vec.get, h]

theorem Vec.set_ok {α} {l : List α} {i : Nat} {a : α} (h : i < l.length) : Vec.set l i a = .ok (l.set i a) := by
  simp [Vec.set, h]

theorem Vec.length_resize {α} (l : List α) (n : Nat) (a : α) : (Vec.resize l n a).length = n := by
  simp [Vec.resize]; omega

theorem Vec.getElem?_resize {α} (l : List α) (n : Nat) (a : α) (i : Nat) (hi : i < n) :
    (Vec.resize l n a)[i]? = some (if h : i < l.length then l[i] else a) := by
  unfold Vec.resize
  split
  · next h =>
    rw [List.getElem?_append_left (by simp; omega), List.getElem?_take]
    simp [hi, h]
  · next h =>
    rw [List.getElem?_append_right (by simp; omega), List.getElem?_replicate]
    simp; omega

theorem loopUp_inv {σ} {f : Nat → σ → Res σ} (P : Nat → σ → Prop) (n : Nat) :
    ∀ (i0 : Nat) (s : σ), P i0 s →
      (∀ i s, i0 ≤ i → i < i0 + n → P i s → ∃ s', f i s = .ok s' ∧ P (i + 1) s') →
      ∃ s', loopUp f i0 n s = .ok s' ∧ P (i0 + n) s' := by
  induction n with
  | zero => intro i0 s h _; exact ⟨s, rfl, h⟩
  | succ n ih =>
    intro i0 s h hf
    obtain ⟨s1, e1, h1⟩ := hf i0 s (Nat.le_refl _) (by omega) h
    obtain ⟨s2, e2, h2⟩ := ih (i0 + 1) s1 h1 (fun i s hi hi2 hp => hf i s (by omega) (by omega) hp)
    refine ⟨s2, ?_, ?_⟩
    · simp [loopUp, e1, Res.bind, e2]
    · rw [show i0 + (n + 1) = i0 + 1 + n by omega]; exact h2

theorem loopDown_inv {σ} {f : Nat → σ → Res σ} (P : Nat → σ → Prop) (n : Nat) :
    ∀ (s : σ), P n s → (∀ i s, i < n → P (i + 1) s → ∃ s', f i s = .ok s' ∧ P i s') →
      ∃ s', loopDown f n s = .ok s' ∧ P 0 s' := by
  induction n with
  | zero => intro s h _; exact ⟨s, rfl, h⟩
  | succ n ih =>
    intro s h hf
    obtain ⟨s1, e1, h1⟩ := hf n s (by omega) h
    obtain ⟨s2, e2, h2⟩ := ih s1 h1 (fun i s hi hp => hf i s (by omega) hp)
    exact ⟨s2, by simp [loopDown, e1, Res.bind, e2], h2⟩

end Xo
