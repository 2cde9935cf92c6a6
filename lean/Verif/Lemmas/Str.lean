import Verif.Model.StrTools
import Mathlib.Data.List.Basic

/-!
Lemmas about searching in strings.
-/
namespace Xo

theorem findIdx?_split {α : Type} {p : α → Bool} : ∀ {s : List α} {i : Nat}, s.findIdx? p = some i →
    ∃ a c b, s = a ++ c :: b ∧ a.length = i ∧ p c = true ∧ ∀ x ∈ a, p x = false
  | [], i, h => by simp at h
  | x :: xs, i, h => by
    rw [List.findIdx?_cons] at h
    split at h
    · next hx => cases h; exact ⟨[], x, xs, rfl, rfl, hx, by simp⟩
    · next hx =>
      cases hf : xs.findIdx? p with
      | none => rw [hf] at h; cases h
      | some j =>
        rw [hf] at h; cases h
        obtain ⟨a, c, b, e, hl, hc, ha⟩ := findIdx?_split hf
        refine ⟨x :: a, c, b, by rw [e]; rfl, by simp [hl], hc, ?_⟩
        intro y hy
        rcases List.mem_cons.1 hy with rfl | hy
        · simpa using hx
        · exact ha y hy

theorem findIdx?_append_hit {α : Type} {p : α → Bool} {a : List α} {c : α} {b : List α} (hc : p c = true)
    (ha : ∀ x ∈ a, p x = false) : (a ++ c :: b).findIdx? p = some a.length := by
  induction a with
  | nil => simp [List.findIdx?_cons, hc]
  | cons x a ih =>
    rw [List.cons_append, List.findIdx?_cons, ha x (by simp), ih (fun y hy => ha y (by simp [hy]))]
    simp

theorem findIdx?_none {α : Type} {p : α → Bool} {s : List α} (h : s.findIdx? p = none) : ∀ x ∈ s, p x = false := by
  simpa using h

theorem findLastIdx_split {p : Char → Bool} {s : Str} {i : Nat} (h : findLastIdx p s = some i) :
    ∃ a c b, s = a ++ c :: b ∧ a.length = i ∧ p c = true ∧ ∀ x ∈ b, p x = false := by
  unfold findLastIdx at h
  cases hf : s.reverse.findIdx? p with
  | none => rw [hf] at h; cases h
  | some j =>
    rw [hf] at h
    simp only [Option.map_some, Option.some.injEq] at h
    obtain ⟨a, c, b, e, hl, hc, ha⟩ := findIdx?_split hf
    have e2 : s = b.reverse ++ c :: a.reverse := by
      rw [← List.reverse_reverse s, e]; simp
    refine ⟨b.reverse, c, a.reverse, e2, ?_, hc, by simpa using ha⟩
    have : s.length = b.length + 1 + a.length := by rw [e2]; simp; omega
    simp; omega

theorem findLastIdx_append_hit {p : Char → Bool} {a : Str} {c : Char} {b : Str} (hc : p c = true)
    (hb : ∀ x ∈ b, p x = false) : findLastIdx p (a ++ c :: b) = some a.length := by
  unfold findLastIdx
  have : (a ++ c :: b).reverse = b.reverse ++ c :: a.reverse := by simp
  rw [this, findIdx?_append_hit hc (by simpa using hb)]
  simp

theorem findLastIdx_none {p : Char → Bool} {s : Str} (h : findLastIdx p s = none) : ∀ x ∈ s, p x = false := by
  unfold findLastIdx at h
  rw [Option.map_eq_none_iff] at h
  have := findIdx?_none h
  simpa using this

theorem substr_ok {s : Str} {pos : Nat} {n : Option Nat} (h : pos ≤ s.length) :
    substr s pos n = .ok (match n with | some n => (s.drop pos).take n | none => s.drop pos) := by
  unfold substr
  rw [if_neg (by omega)]
  rfl

end Xo
