import Verif.Model.Own
import Mathlib.Data.List.Basic

/-!
C101: owning pointers. Whatever a program does with them, each object that exists has exactly one owner, and objects without an owner do not
exist; a copy is a new object with the same value.
-/
namespace Xo.Own
variable {V : Type}

/-- Each object has exactly one owner: what the variables own exists, no two variables own the same, and all that exists is owned. -/
def Spec.Owned (s : State V) : Prop :=
  (∀ (i : Nat) (p : Ptr) (a : Nat), s.ptrs[i]? = some p → p.adr = some a → s.heap a ≠ none) ∧
  (∀ (i j : Nat) (p q : Ptr) (a : Nat), s.ptrs[i]? = some p → s.ptrs[j]? = some q → p.adr = some a → q.adr = some a → i = j) ∧
  (∀ a : Nat, s.heap a ≠ none → ∃ (i : Nat) (p : Ptr), s.ptrs[i]? = some p ∧ p.adr = some a)
open Spec

/-- The object that a variable owns. -/
def Spec.target (s : State V) (i : Nat) : Option (Obj V) := (s.ptrs[i]?).bind fun p => p.adr.bind s.heap

/-- Addresses that were not used are free. -/
def Fresh (s : State V) : Prop := ∀ a, s.heap a ≠ none → a < s.fresh

theorem getElem?_append_singleton_iff {α : Type} (l : List α) (x y : α) (i : Nat) :
    (l ++ [x])[i]? = some y ↔ l[i]? = some y ∨ (i = l.length ∧ x = y) := by
  by_cases h : i < l.length
  · rw [List.getElem?_append_left h]
    constructor
    · exact Or.inl
    · rintro (h' | ⟨h', -⟩)
      · exact h'
      · omega
  · rw [List.getElem?_append_right (by omega), List.getElem?_eq_none (l := l) (by omega)]
    by_cases h2 : i = l.length
    · subst h2; simp
    · rw [List.getElem?_eq_none (by simp; omega)]
      simp [h2]

theorem new_inv {s : State V} (h : Owned s) (hf : Fresh s) (ty : Nat) (o : Obj V) : Owned (s.new ty o) ∧ Fresh (s.new ty o) := by
  obtain ⟨h1, h2, h3⟩ := h
  have hlt : ∀ (i : Nat) (p : Ptr) (a : Nat), s.ptrs[i]? = some p → p.adr = some a → a < s.fresh := fun i p a e e' => hf a (h1 i p a e e')
  refine ⟨⟨?_, ?_, ?_⟩, ?_⟩
  · intro i p a hi ha
    simp only [State.new] at hi ⊢
    rw [getElem?_append_singleton_iff] at hi
    rcases hi with hi | ⟨-, rfl⟩
    · rw [if_neg (Nat.ne_of_lt (hlt i p a hi ha))]
      exact h1 i p a hi ha
    · simp only [Option.some.injEq] at ha
      rw [if_pos ha.symm]
      simp
  · intro i j p q a hi hj hp hq
    simp only [State.new] at hi hj
    rw [getElem?_append_singleton_iff] at hi hj
    rcases hi with hi | ⟨rfl, rfl⟩ <;> rcases hj with hj | ⟨rfl, rfl⟩
    · exact h2 i j p q a hi hj hp hq
    · simp only [Option.some.injEq] at hq
      have := hlt i p a hi hp
      omega
    · simp only [Option.some.injEq] at hp
      have := hlt j q a hj hq
      omega
    · rfl
  · intro a ha
    simp only [State.new] at ha ⊢
    by_cases e : a = s.fresh
    · exact ⟨s.ptrs.length, ⟨ty, some s.fresh⟩, by simp, by rw [e]⟩
    · rw [if_neg e] at ha
      obtain ⟨i, p, hi, hp⟩ := h3 a ha
      exact ⟨i, p, (getElem?_append_singleton_iff _ _ _ _).2 (Or.inl hi), hp⟩
  · intro a ha
    simp only [State.new] at ha ⊢
    by_cases e : a = s.fresh
    · omega
    · rw [if_neg e] at ha
      have := hf a ha
      omega

/-- A variable that owns nothing may be added. -/
theorem null_inv {s : State V} (h : Owned s) (ty : Nat) : Owned { s with ptrs := s.ptrs ++ [⟨ty, none⟩] } := by
  obtain ⟨h1, h2, h3⟩ := h
  refine ⟨?_, ?_, ?_⟩
  · intro i p a hi ha
    rcases (getElem?_append_singleton_iff _ _ _ _).1 hi with hi | ⟨-, rfl⟩
    · exact h1 i p a hi ha
    · cases ha
  · intro i j p q a hi hj hp hq
    rcases (getElem?_append_singleton_iff _ _ _ _).1 hi with hi | ⟨-, rfl⟩
    · rcases (getElem?_append_singleton_iff _ _ _ _).1 hj with hj | ⟨-, rfl⟩
      · exact h2 i j p q a hi hj hp hq
      · cases hq
    · cases hp
  · intro a ha
    obtain ⟨i, p, hi, hp⟩ := h3 a ha
    exact ⟨i, p, (getElem?_append_singleton_iff _ _ _ _).2 (Or.inl hi), hp⟩

theorem getElem?_set_iff {α : Type} (l : List α) (k : Nat) (x y z : α) (hk : l[k]? = some z) (i : Nat) :
    (l.set k x)[i]? = some y ↔ (i = k ∧ x = y) ∨ (i ≠ k ∧ l[i]? = some y) := by
  have hlt : k < l.length := by
    by_contra hc
    rw [List.getElem?_eq_none (by omega)] at hk
    cases hk
  by_cases h : i = k
  · subst h
    rw [List.getElem?_set_self hlt]
    simp
  · rw [List.getElem?_set_ne (Ne.symm h)]
    simp [h]

theorem clone_inv (t : Types V) {s s' : State V} (h : Owned s) (hf : Fresh s) (i : Nat) (e : clone t s i = .ok s') : Owned s' ∧ Fresh s' := by
  unfold clone at e
  split at e
  · cases e
  · split at e
    · cases e
    · split at e
      · cases e
      · injection e with e
        rw [← e]
        exact new_inv h hf _ _

theorem cloneVec_inv (t : Types V) : ∀ (is : List Nat) {s s' : State V}, Owned s → Fresh s → cloneVec t s is = .ok s' → Owned s' ∧ Fresh s' := by
  intro is
  induction is with
  | nil => intro s s' h hf e; injection e with e; rw [← e]; exact ⟨h, hf⟩
  | cons i is ih =>
    intro s s' h hf e
    unfold cloneVec at e
    cases hc : clone t s i with
    | err => rw [hc] at e; cases e
    | ub => rw [hc] at e; cases e
    | ok s1 =>
      rw [hc] at e
      obtain ⟨h1, h2⟩ := clone_inv t h hf i hc
      exact ih h1 h2 e

theorem cast_inv (t : Types V) {s s' : State V} (h : Owned s) (hf : Fresh s) (k target : Nat) (e : cast t s k target = .ok s') :
    Owned s' ∧ Fresh s' := by
  unfold cast at e
  split at e
  · cases e
  · next pk hk =>
    split at e
    · injection e with e; rw [← e]; exact ⟨null_inv h _, hf⟩
    · next b hb =>
      split at e
      · cases e
      · split at e
        · injection e with e
          rw [← e]
          obtain ⟨h1, h2, h3⟩ := h
          refine ⟨⟨?_, ?_, ?_⟩, hf⟩
          · intro i p a hi ha
            rcases (getElem?_append_singleton_iff _ _ _ _).1 hi with hi | ⟨-, rfl⟩
            · rcases (getElem?_set_iff _ _ _ _ _ hk _).1 hi with ⟨-, rfl⟩ | ⟨-, hi⟩
              · cases ha
              · exact h1 i p a hi ha
            · exact h1 k pk a hk (hb.trans ha)
          · intro i j p q a hi hj hp hq
            rcases (getElem?_append_singleton_iff _ _ _ _).1 hi with hi | ⟨ei, rfl⟩ <;>
            rcases (getElem?_append_singleton_iff _ _ _ _).1 hj with hj | ⟨ej, rfl⟩
            · rcases (getElem?_set_iff _ _ _ _ _ hk _).1 hi with ⟨-, rfl⟩ | ⟨-, hi⟩
              · cases hp
              · rcases (getElem?_set_iff _ _ _ _ _ hk _).1 hj with ⟨-, rfl⟩ | ⟨-, hj⟩
                · cases hq
                · exact h2 i j p q a hi hj hp hq
            · rcases (getElem?_set_iff _ _ _ _ _ hk _).1 hi with ⟨-, rfl⟩ | ⟨ni, hi⟩
              · cases hp
              · exact absurd (h2 i k p pk a hi hk hp (hb.trans hq)) ni
            · rcases (getElem?_set_iff _ _ _ _ _ hk _).1 hj with ⟨-, rfl⟩ | ⟨nj, hj⟩
              · cases hq
              · exact absurd (h2 j k q pk a hj hk hq (hb.trans hp)) nj
            · rw [ei, ej]
          · intro a ha
            obtain ⟨i, p, hi, hp⟩ := h3 a ha
            by_cases e : i = k
            · subst e
              rw [hk] at hi
              injection hi with hi
              subst hi
              exact ⟨_, ⟨target, some b⟩, (getElem?_append_singleton_iff _ _ _ _).2 (Or.inr ⟨rfl, rfl⟩), hb.symm.trans hp⟩
            · exact ⟨i, p, (getElem?_append_singleton_iff _ _ _ _).2 (Or.inl ((getElem?_set_iff _ _ _ _ _ hk _).2 (Or.inr ⟨e, hi⟩))), hp⟩
        · injection e with e; rw [← e]; exact ⟨null_inv h _, hf⟩

theorem reset_inv {s s' : State V} (h : Owned s) (hf : Fresh s) (k : Nat) (e : reset s k = .ok s') : Owned s' ∧ Fresh s' := by
  unfold reset at e
  split at e
  · cases e
  · next pk hk =>
    split at e
    · injection e with e; rw [← e]; exact ⟨h, hf⟩
    · next b hb =>
      split at e
      · cases e
      · injection e with e
        rw [← e]
        obtain ⟨h1, h2, h3⟩ := h
        refine ⟨⟨?_, ?_, ?_⟩, ?_⟩
        · intro i p a hi ha
          rcases (getElem?_set_iff _ _ _ _ _ hk _).1 hi with ⟨-, rfl⟩ | ⟨ni, hi'⟩
          · cases ha
          · simp only
            by_cases eab : a = b
            · exact absurd (h2 i k p pk a hi' hk ha (by rw [hb, eab])) ni
            · rw [if_neg eab]
              exact h1 i p a hi' ha
        · intro i j p q a hi hj hp hq
          rcases (getElem?_set_iff _ _ _ _ _ hk _).1 hi with ⟨-, rfl⟩ | ⟨-, hi⟩
          · cases hp
          · rcases (getElem?_set_iff _ _ _ _ _ hk _).1 hj with ⟨-, rfl⟩ | ⟨-, hj⟩
            · cases hq
            · exact h2 i j p q a hi hj hp hq
        · intro a ha
          simp only at ha
          by_cases eab : a = b
          · rw [if_pos eab] at ha; exact absurd rfl ha
          · rw [if_neg eab] at ha
            obtain ⟨i, p, hi, hp⟩ := h3 a ha
            refine ⟨i, p, (getElem?_set_iff _ _ _ _ _ hk _).2 (Or.inr ⟨?_, hi⟩), hp⟩
            rintro rfl
            rw [hk] at hi
            injection hi with hi
            subst hi
            rw [hb] at hp
            injection hp with hp
            exact eab hp.symm
        · intro a ha
          simp only at ha
          by_cases eab : a = b
          · rw [if_pos eab] at ha; exact absurd rfl ha
          · rw [if_neg eab] at ha; exact hf a ha

theorem write_inv {s s' : State V} (h : Owned s) (hf : Fresh s) (k : Nat) (v : V) (e : write s k v = .ok s') : Owned s' ∧ Fresh s' := by
  unfold write at e
  split at e
  · cases e
  · split at e
    · cases e
    · next b hb =>
      split at e
      · cases e
      · next o ho =>
        injection e with e
        rw [← e]
        have hheap : ∀ a, (if a = b then some (Obj.mk o.dyn v) else s.heap a) ≠ none ↔ s.heap a ≠ none := by
          intro a
          by_cases e : a = b
          · subst e; simp [ho]
          · rw [if_neg e]
        exact ⟨⟨fun i p a hi ha => (hheap a).2 (h.1 i p a hi ha), h.2.1, fun a ha => h.2.2 a ((hheap a).1 ha)⟩,
          fun a ha => hf a ((hheap a).1 ha)⟩

theorem step_inv (t : Types V) {s s' : State V} (h : Owned s) (hf : Fresh s) (op : Op V) (e : step t s op = .ok s') : Owned s' ∧ Fresh s' := by
  cases op with
  | make ty dyn v => injection e with e; rw [← e]; exact new_inv h hf _ _
  | clone i => exact clone_inv t h hf i e
  | cloneVec is => exact cloneVec_inv t is h hf e
  | cast i target => exact cast_inv t h hf i target e
  | reset i => exact reset_inv h hf i e
  | write i v => exact write_inv h hf i v e

theorem run_inv (t : Types V) : ∀ (ops : List (Op V)) {s s' : State V}, Owned s → Fresh s → run t s ops = .ok s' → Owned s' ∧ Fresh s' := by
  intro ops
  induction ops with
  | nil => intro s s' h hf e; injection e with e; rw [← e]; exact ⟨h, hf⟩
  | cons op ops ih =>
    intro s s' h hf e
    unfold run at e
    cases hc : step t s op with
    | err => rw [hc] at e; cases e
    | ub => rw [hc] at e; cases e
    | ok s1 =>
      rw [hc] at e
      obtain ⟨h1, h2⟩ := step_inv t h hf op hc
      exact ih h1 h2 e

theorem empty_inv : Owned (State.empty : State V) ∧ Fresh (State.empty : State V) := by
  refine ⟨⟨?_, ?_, ?_⟩, ?_⟩
  · intro i p a h; simp [State.empty] at h
  · intro i j p q a h; simp [State.empty] at h
  · intro a h; exact absurd rfl h
  · intro a h; exact absurd rfl h

/-- **C101.** After any sequence of creations, copies, casts, deletions and changes, each object that exists has exactly one owner. -/
theorem C101_owned (t : Types V) (ops : List (Op V)) (s : State V) (e : run t .empty ops = .ok s) : Owned s :=
  (run_inv t ops empty_inv.1 empty_inv.2 e).1

/-- Nothing is undefined as long as the variables exist and null pointers are neither copied nor written through. -/
def Spec.Allowed (s : State V) : Op V → Prop
  | .make _ _ _ => True
  | .clone i | .write i _ => ∃ a p, s.ptrs[i]? = some p ∧ p.adr = some a
  | .cloneVec is => ∀ i ∈ is, ∃ a p, s.ptrs[i]? = some p ∧ p.adr = some a
  | .cast i _ | .reset i => i < s.ptrs.length

theorem clone_ok (t : Types V) {s : State V} (h : Owned s) {i a : Nat} {p : Ptr} (hi : s.ptrs[i]? = some p) (ha : p.adr = some a) :
    ∃ o, s.heap a = some o ∧ clone t s i = .ok (s.new p.ty ⟨p.ty, t.part p.ty o.val⟩) := by
  cases ho : s.heap a with
  | none => exact absurd ho (h.1 i p a hi ha)
  | some o => exact ⟨o, rfl, by unfold clone; simp only [hi, ha, ho]⟩

theorem cloneVec_ok (t : Types V) : ∀ (is : List Nat) {s : State V}, Owned s → Fresh s →
    (∀ i ∈ is, ∃ a p, s.ptrs[i]? = some p ∧ p.adr = some a) → ∃ s', cloneVec t s is = .ok s' := by
  intro is
  induction is with
  | nil => intro s _ _ _; exact ⟨s, rfl⟩
  | cons i is ih =>
    intro s h hf hall
    obtain ⟨a, p, hi, ha⟩ := hall i List.mem_cons_self
    obtain ⟨o, -, e⟩ := clone_ok t h hi ha
    obtain ⟨h1, h2⟩ := clone_inv t h hf i e
    obtain ⟨s', e'⟩ := ih h1 h2 (by
      intro j hj
      obtain ⟨b, q, hj1, hj2⟩ := hall j (List.mem_cons_of_mem _ hj)
      exact ⟨b, q, (getElem?_append_singleton_iff _ _ _ _).2 (Or.inl hj1), hj2⟩)
    exact ⟨s', by unfold cloneVec; rw [e]; exact e'⟩

/-- **C101.** After any sequence of calls, a call on variables that exist, and that are not null where their object is used, has defined
behaviour: no object is used or deleted after it was deleted. -/
theorem C101_defined (t : Types V) (ops : List (Op V)) (s : State V) (e : run t .empty ops = .ok s) (op : Op V) (ha : Allowed s op) :
    ∃ s', step t s op = .ok s' := by
  obtain ⟨h, hf⟩ := run_inv t ops empty_inv.1 empty_inv.2 e
  cases op with
  | make ty dyn v => exact ⟨_, rfl⟩
  | clone i =>
    obtain ⟨a, p, hi, hp⟩ := ha
    obtain ⟨o, -, e⟩ := clone_ok t h hi hp
    exact ⟨_, e⟩
  | cloneVec is => exact cloneVec_ok t is h hf ha
  | cast i target =>
    have hi : s.ptrs[i]? = some s.ptrs[i] := List.getElem?_eq_getElem ha
    show ∃ s', cast t s i target = .ok s'
    unfold cast
    simp only [hi]
    cases hp : (s.ptrs[i]).adr with
    | none => exact ⟨_, rfl⟩
    | some a =>
      cases ho : s.heap a with
      | none => exact absurd ho (h.1 i _ a hi hp)
      | some o =>
        simp only [ho]
        split
        · exact ⟨_, rfl⟩
        · exact ⟨_, rfl⟩
  | reset i =>
    have hi : s.ptrs[i]? = some s.ptrs[i] := List.getElem?_eq_getElem ha
    show ∃ s', reset s i = .ok s'
    unfold reset
    simp only [hi]
    cases hp : (s.ptrs[i]).adr with
    | none => exact ⟨_, rfl⟩
    | some a =>
      cases ho : s.heap a with
      | none => exact absurd ho (h.1 i _ a hi hp)
      | some o => simp only [ho]; exact ⟨_, rfl⟩
  | write i v =>
    obtain ⟨a, p, hi, hp⟩ := ha
    show ∃ s', write s i v = .ok s'
    unfold write
    simp only [hi, hp]
    cases ho : s.heap a with
    | none => exact absurd ho (h.1 i _ a hi hp)
    | some o => simp only [ho]; exact ⟨_, rfl⟩

/-- **C101.** When no variable owns anything any more, nothing exists: nothing leaks. -/
theorem C101_no_leak (t : Types V) (ops : List (Op V)) (s : State V) (e : run t .empty ops = .ok s)
    (h : ∀ p ∈ s.ptrs, p.adr = none) (a : Nat) : s.heap a = none := by
  by_contra hc
  obtain ⟨i, p, hi, hp⟩ := (C101_owned t ops s e).2.2 a hc
  rw [h p (List.mem_of_getElem? hi)] at hp
  cases hp

theorem target_some {s : State V} {i : Nat} {p : Ptr} {a : Nat} (hi : s.ptrs[i]? = some p) (ha : p.adr = some a) : target s i = s.heap a := by
  unfold target
  rw [hi]
  simp [ha]

theorem target_append {s : State V} (hp : List Ptr) (q : Nat) (h' : Nat → Option (Obj V)) {i : Nat} (hi : i < s.ptrs.length)
    (hh : ∀ p a, s.ptrs[i]? = some p → p.adr = some a → h' a = s.heap a) : target ⟨h', s.ptrs ++ hp, q⟩ i = target s i := by
  unfold target
  simp only [List.getElem?_append_left hi]
  have e : s.ptrs[i]? = some s.ptrs[i] := List.getElem?_eq_getElem hi
  rw [e]
  simp only [Option.bind_some]
  cases ha : (s.ptrs[i]).adr with
  | none => rfl
  | some a => exact hh _ a e ha

/-- **C101 (partial: for objects of the type of the variable).** A copy is a new variable at the end. It owns a new object of the same type, with
the same value, and what the other variables own stays as it was. -/
theorem C101_clone_partial (t : Types V) (ops : List (Op V)) (s s' : State V) (e : run t .empty ops = .ok s) (i : Nat) (p : Ptr) (o : Obj V)
    (hi : s.ptrs[i]? = some p) (ho : target s i = some o) (hd : o.dyn = p.ty) (hpart : t.part p.ty o.val = o.val)
    (hs : step t s (.clone i) = .ok s') :
    s'.ptrs.length = s.ptrs.length + 1 ∧ target s' s.ptrs.length = some o ∧ (∀ j, j < s.ptrs.length → target s' j = target s j ∧ s'.ptrs[j]? = s.ptrs[j]?) := by
  obtain ⟨h, hf⟩ := run_inv t ops empty_inv.1 empty_inv.2 e
  have ha : ∃ a, p.adr = some a := by
    cases ha : p.adr with
    | none => unfold target at ho; rw [hi] at ho; simp [ha] at ho
    | some a => exact ⟨a, rfl⟩
  obtain ⟨a, ha⟩ := ha
  obtain ⟨o', ho', e'⟩ := clone_ok t h hi ha
  rw [target_some hi ha, ho'] at ho
  injection ho with ho
  subst ho
  have hs : clone t s i = .ok s' := hs
  rw [e'] at hs
  injection hs with hs
  rw [← hs]
  refine ⟨by simp [State.new], ?_, ?_⟩
  · simp only [State.new, target, hpart]
    rw [List.getElem?_append_right (Nat.le_refl _)]
    simp only [Nat.sub_self, List.getElem?_cons_zero, Option.bind_some, if_true, ← hd]
  · intro j hj
    refine ⟨target_append _ _ _ hj ?_, ?_⟩
    · intro q b hq hb
      rw [if_neg]
      exact Nat.ne_of_lt (hf b (h.1 j q b hq hb))
    · simp only [State.new]
      exact List.getElem?_append_left hj

/-- **C101 is violated for objects of a derived type**: a copy through a base pointer is an object of the base type. -/
theorem C101_clone_violated (t : Types V) (ops : List (Op V)) (s s' : State V) (e : run t .empty ops = .ok s) (i : Nat) (p : Ptr) (o : Obj V)
    (hi : s.ptrs[i]? = some p) (ho : target s i = some o) (hd : o.dyn ≠ p.ty) (hs : step t s (.clone i) = .ok s') :
    ∃ o', target s' s.ptrs.length = some o' ∧ o'.dyn = p.ty ∧ o'.dyn ≠ o.dyn := by
  obtain ⟨h, hf⟩ := run_inv t ops empty_inv.1 empty_inv.2 e
  have ha : ∃ a, p.adr = some a := by
    cases ha : p.adr with
    | none => unfold target at ho; rw [hi] at ho; simp [ha] at ho
    | some a => exact ⟨a, rfl⟩
  obtain ⟨a, ha⟩ := ha
  obtain ⟨o', ho', e'⟩ := clone_ok t h hi ha
  have hs : clone t s i = .ok s' := hs
  rw [e'] at hs
  injection hs with hs
  rw [← hs]
  refine ⟨⟨p.ty, t.part p.ty o'.val⟩, ?_, rfl, fun h => hd h.symm⟩
  simp only [State.new, target]
  rw [List.getElem?_append_right (Nat.le_refl _)]
  simp

/-- **C101 is violated for null pointers**: copying one, also as an element of a vector, is undefined. -/
theorem C101_clone_null_violated (t : Types V) (s : State V) (i : Nat) (p : Ptr) (hi : s.ptrs[i]? = some p) (hp : p.adr = none) (is : List Nat) :
    step t s (.clone i) = .ub ∧ step t s (.cloneVec (i :: is)) = .ub := by
  have : clone t s i = .ub := by unfold clone; simp only [hi, hp]
  refine ⟨this, ?_⟩
  show cloneVec t s (i :: is) = .ub
  unfold cloneVec
  rw [this]
  rfl

/-- **C101.** A change through one variable does not show through any other. -/
theorem C101_independent (t : Types V) (ops : List (Op V)) (s s' : State V) (e : run t .empty ops = .ok s) (i : Nat) (v : V)
    (hs : step t s (.write i v) = .ok s') :
    (∃ o, target s i = some o ∧ target s' i = some ⟨o.dyn, v⟩) ∧ ∀ j, j ≠ i → target s' j = target s j := by
  obtain ⟨h, hf⟩ := run_inv t ops empty_inv.1 empty_inv.2 e
  have hs : write s i v = .ok s' := hs
  unfold write at hs
  split at hs
  · cases hs
  · next p hi =>
    split at hs
    · cases hs
    · next a ha =>
      split at hs
      · cases hs
      · next o ho =>
        injection hs with hs
        rw [← hs]
        refine ⟨⟨o, by rw [target_some hi ha, ho], ?_⟩, ?_⟩
        · rw [target_some (s := { s with heap := fun b => if b = a then some ⟨o.dyn, v⟩ else s.heap b }) hi ha]
          simp
        · intro j hj
          unfold target
          simp only
          cases hq : s.ptrs[j]? with
          | none => rfl
          | some q =>
            simp only [Option.bind_some]
            cases hb : q.adr with
            | none => rfl
            | some b =>
              simp only [Option.bind_some]
              rw [if_neg]
              rintro rfl
              exact hj (h.2.1 j i q p b hq hi hb ha)

/-- **C101.** A cast that succeeds moves the object to the result and leaves the original empty; the object itself is not changed. One that fails
gives a null pointer and leaves the original with its object. All other variables are left alone. -/
theorem C101_cast (t : Types V) (ops : List (Op V)) (s s' : State V) (e : run t .empty ops = .ok s) (i ty : Nat) (o : Obj V)
    (ho : target s i = some o) (hs : step t s (.cast i ty) = .ok s') :
    s'.heap = s.heap ∧ s'.ptrs.length = s.ptrs.length + 1 ∧ (s'.ptrs[s.ptrs.length]?).map Ptr.ty = some ty ∧
    (t.isA o.dyn ty = true → target s' s.ptrs.length = some o ∧ target s' i = none) ∧
    (t.isA o.dyn ty = false → target s' s.ptrs.length = none ∧ target s' i = some o) ∧
    ∀ j, j ≠ i → j < s.ptrs.length → target s' j = target s j := by
  have hs : cast t s i ty = .ok s' := hs
  unfold cast at hs
  split at hs
  · cases hs
  · next p hi =>
    have hlt : i < s.ptrs.length := by
      by_contra hc
      rw [List.getElem?_eq_none (by omega)] at hi
      cases hi
    split at hs
    · next ha => unfold target at ho; rw [hi] at ho; simp [ha] at ho
    · next a ha =>
      rw [target_some hi ha] at ho
      simp only [ho] at hs
      split at hs
      · next hc =>
        injection hs with hs
        rw [← hs]
        refine ⟨rfl, by simp, ?_, ?_, ?_, ?_⟩
        · simp only
          rw [List.getElem?_append_right (by simp)]
          simp
        · intro _
          constructor
          · unfold target
            simp only
            rw [List.getElem?_append_right (by simp)]
            simp [ho]
          · unfold target
            simp only
            rw [List.getElem?_append_left (by simpa using hlt), List.getElem?_set_self hlt]
            rfl
        · intro hc'; rw [hc] at hc'; cases hc'
        · intro j hj hjl
          unfold target
          simp only
          rw [List.getElem?_append_left (by simpa using hjl), List.getElem?_set_ne (Ne.symm hj)]
      · next hc =>
        injection hs with hs
        rw [← hs]
        refine ⟨rfl, by simp, ?_, ?_, ?_, ?_⟩
        · simp
        · intro hc'; exact absurd hc' hc
        · intro _
          constructor
          · unfold target
            simp
          · unfold target
            simp only
            rw [List.getElem?_append_left hlt, hi]
            simp [ha, ho]
        · intro j hj hjl
          unfold target
          simp only
          rw [List.getElem?_append_left hjl]

/-- **C101 is violated by `dynamic_unique_cast`**: its description says that the original is deleted when the cast fails; it lives on. -/
theorem C101_cast_deletes_violated (t : Types V) (s s' : State V) (i ty a : Nat) (p : Ptr) (o : Obj V) (hi : s.ptrs[i]? = some p) (ha : p.adr = some a)
    (ho : s.heap a = some o) (hc : t.isA o.dyn ty = false) (hs : step t s (.cast i ty) = .ok s') : s'.heap a = some o ∧ s'.ptrs[i]? = some p := by
  have hs : cast t s i ty = .ok s' := hs
  unfold cast at hs
  simp only [hi, ha, ho] at hs
  rw [if_neg (by simp [hc])] at hs
  injection hs with hs
  rw [← hs]
  refine ⟨ho, ?_⟩
  exact (getElem?_append_singleton_iff _ _ _ _).2 (Or.inl hi)

/-- **C101.** `dereference_or_throw` throws for a null pointer, and otherwise gives the object. -/
theorem C101_dereference (heap : Nat → Option (Obj V)) (a : Nat) (o : Obj V) (h : heap a = some o) :
    dereferenceOrThrow heap none = .err ∧ dereferenceOrThrow heap (some a) = .ok o := by
  refine ⟨rfl, ?_⟩
  show Res.ofOptionUb (heap a) = .ok o
  rw [h]
  rfl

/-! ### An example: type 1 is derived from type 0 -/

/-- Two types; the second number of a value belongs to the derived type. -/
def exampleTypes : Types (Nat × Nat) := ⟨fun d t => d == t || (d == 1 && t == 0), fun t v => if t = 0 then (v.1, 0) else v⟩

/-- What each variable owns after a program. -/
def owned (r : Res (State (Nat × Nat))) : Res (List (Option (Nat × Nat × Nat))) :=
  r.map fun s => (List.range s.ptrs.length).map fun i => (target s i).map fun o => (o.dyn, o.val)

example : owned (run exampleTypes .empty [.make 0 0 (5, 0), .clone 0, .write 0 (6, 0)]) = .ok [some (0, 6, 0), some (0, 5, 0)] := by decide
example : owned (run exampleTypes .empty [.make 0 1 (5, 7), .clone 0]) = .ok [some (1, 5, 7), some (0, 5, 0)] := by decide
example : owned (run exampleTypes .empty [.make 0 1 (5, 7), .cast 0 1, .reset 1]) = .ok [none, none] := by decide
example : owned (run exampleTypes .empty [.make 0 0 (5, 7), .cast 0 1, .cloneVec [0, 0]]) =
    .ok [some (0, 5, 7), none, some (0, 5, 0), some (0, 5, 0)] := by decide

end Xo.Own
