import Verif.Lemmas.Str

/-!
C27: `replace_str`. Termination is part of the model: the loop is a total function, by the measure "text behind the
search position", which shrinks by the length of the pattern in every round.
-/
namespace Xo

namespace Spec
/-- `pat` occurs in `s` at position `i`. -/
def OccursAt (pat s : Str) (i : Nat) : Prop := i ≤ s.length ∧ pat <+: s.drop i

/-- `out` is `s` with the leftmost non-overlapping occurrences of `pat` replaced by `repl`. -/
inductive Replaced (pat repl : Str) : Str → Str → Prop
  | done (s : Str) (h : ∀ i, ¬ OccursAt pat s i) : Replaced pat repl s s
  | step (a b b' : Str) (h : ∀ i, i < a.length → ¬ OccursAt pat (a ++ pat ++ b) i) (hb : Replaced pat repl b b') :
      Replaced pat repl (a ++ pat ++ b) (a ++ repl ++ b')
end Spec

open Spec

/-- `find` returns the first occurrence at or after the start position. -/
theorem findFrom_spec (pat : Str) : ∀ (s : Str) (i : Nat),
    match findFrom pat s i with
    | some j => i ≤ j ∧ OccursAt pat s (j - i) ∧ ∀ k, k < j - i → ¬ OccursAt pat s k
    | none => ∀ k, ¬ OccursAt pat s k
  | [], i => by
    simp only [findFrom]
    split
    · next h =>
      split at h
      · next hp => cases h; simpa [OccursAt] using List.isPrefixOf_iff_prefix.1 hp
      · cases h
    · next h =>
      split at h
      · cases h
      · next hp =>
        intro k ⟨hk, hpre⟩
        simp only [List.length_nil, Nat.le_zero_eq] at hk
        subst hk
        exact hp (List.isPrefixOf_iff_prefix.2 hpre)
  | c :: cs, i => by
    have ih := findFrom_spec pat cs (i + 1)
    simp only [findFrom]
    by_cases hp : pat.isPrefixOf (c :: cs) = true
    · rw [if_pos hp]
      simpa [OccursAt] using List.isPrefixOf_iff_prefix.1 hp
    · rw [if_neg hp]
      have h0 : ¬ OccursAt pat (c :: cs) 0 := fun h => hp (List.isPrefixOf_iff_prefix.2 h.2)
      have shift : ∀ k, OccursAt pat (c :: cs) (k + 1) ↔ OccursAt pat cs k := by
        intro k
        simp [OccursAt]
      cases hf : findFrom pat cs (i + 1) with
      | none =>
        rw [hf] at ih
        intro k hk
        cases k with
        | zero => exact h0 hk
        | succ k => exact ih k ((shift k).1 hk)
      | some j =>
        rw [hf] at ih
        obtain ⟨h1, h2, h3⟩ := ih
        refine ⟨by omega, ?_, ?_⟩
        · rw [show j - i = (j - (i + 1)) + 1 by omega]
          exact (shift _).2 h2
        · intro k hk hoc
          cases k with
          | zero => exact h0 hoc
          | succ k => exact h3 k (by omega) ((shift k).1 hoc)

theorem strFind_spec (s pat : Str) (pos : Nat) (hp : pos ≤ s.length) :
    match strFind s pat pos with
    | some j => pos ≤ j ∧ OccursAt pat (s.drop pos) (j - pos) ∧ ∀ k, k < j - pos → ¬ OccursAt pat (s.drop pos) k
    | none => ∀ k, ¬ OccursAt pat (s.drop pos) k := by
  unfold strFind
  rw [if_neg (by omega)]
  exact findFrom_spec pat (s.drop pos) pos

theorem replaceLoop_spec (pat repl : Str) (hf : pat ≠ []) (n : Nat) : ∀ (done s : Str), s.length = n →
    ∃ out, replaceLoop pat repl hf (done ++ s) done.length = done ++ out ∧ Replaced pat repl s out := by
  induction n using Nat.strongRecOn with
  | ind n ih =>
    intro done s hn
    have hsp := strFind_spec (done ++ s) pat done.length (by simp)
    rw [replaceLoop]
    split
    · next h =>
      rw [h] at hsp
      exact ⟨s, rfl, .done s (by simpa using hsp)⟩
    · next p h =>
      rw [h] at hsp
      simp only [List.drop_left] at hsp
      obtain ⟨h1, ⟨h2, h3⟩, h4⟩ := hsp
      obtain ⟨b, hb⟩ := h3
      have es : s = s.take (p - done.length) ++ pat ++ b := by
        rw [List.append_assoc, hb, List.take_append_drop]
      have hlen : (s.take (p - done.length)).length = p - done.length := by simp; omega
      generalize s.take (p - done.length) = a at es hlen
      have hpp : p = done.length + a.length := by omega
      have e1 : (done ++ s).take p = done ++ a := by
        rw [es, hpp, List.take_length_add_append, List.append_assoc, List.take_left']; rfl
      have e2 : (done ++ s).drop (p + pat.length) = b := by
        rw [es, hpp, show done.length + a.length + pat.length = (done ++ a ++ pat).length by simp; omega,
          show done ++ (a ++ pat ++ b) = (done ++ a ++ pat) ++ b by simp, List.drop_left']
        rfl
      have hpl : 0 < pat.length := List.length_pos_iff.2 hf
      obtain ⟨out, ho, hr⟩ := ih b.length (by rw [← hn, es]; simp; omega) (done ++ a ++ repl) b rfl
      refine ⟨a ++ repl ++ out, ?_, ?_⟩
      · rw [e1, e2, show p + repl.length = (done ++ a ++ repl).length by simp; omega, ho]
        simp
      · rw [es]
        refine .step a b out ?_ hr
        rw [← es, hlen]
        exact h4

/-- **C27.** `replace_str` replaces exactly the leftmost non-overlapping occurrences and never looks at inserted text. An
empty pattern is an error. -/
theorem C27_replace (s pat repl : Str) :
    (pat = [] → replaceStr s pat repl = .err) ∧
    (pat ≠ [] → ∃ out, replaceStr s pat repl = .ok out ∧ Replaced pat repl s out) := by
  unfold replaceStr
  refine ⟨fun h => by rw [dif_neg (by simpa using h)], fun h => ?_⟩
  rw [dif_pos h]
  obtain ⟨out, h1, h2⟩ := replaceLoop_spec pat repl h s.length [] s rfl
  exact ⟨out, by simpa using h1, h2⟩

/-- **C27.** The result is determined by the specification. -/
theorem C27_unique (s pat repl o1 o2 : Str) (hp : pat ≠ []) (h1 : Replaced pat repl s o1) (h2 : Replaced pat repl s o2) :
    o1 = o2 := by
  have occ : ∀ a b : Str, OccursAt pat (a ++ pat ++ b) a.length := by
    intro a b
    refine ⟨by simp, ?_⟩
    rw [List.append_assoc, List.drop_left]
    exact List.prefix_append pat b
  induction h1 generalizing o2 with
  | done s h =>
    generalize hs : s = t at h2
    cases h2 with
    | done => first | exact hs | rfl
    | step a b b' => subst hs; exact absurd (occ a b) (h _)
  | step a b b' h hb ih =>
    generalize hs : a ++ pat ++ b = t at h2
    cases h2 with
    | done _ h' => subst hs; exact absurd (occ a b) (h' _)
    | step a2 b2 b2' h' hb' =>
      have hl : a.length = a2.length := by
        rcases Nat.lt_trichotomy a.length a2.length with hlt | he | hlt
        · exact absurd (hs ▸ occ a b) (h' _ hlt)
        · exact he
        · exact absurd (hs ▸ occ a2 b2) (h _ hlt)
      rw [List.append_assoc, List.append_assoc] at hs
      obtain ⟨rfl, he⟩ := List.append_inj hs hl
      have := List.append_cancel_left he
      subst this
      rw [ih b2' hb']

/-- **C27.** If the pattern does not occur, nothing changes. -/
theorem C27_absent (s pat repl : Str) (hp : pat ≠ []) (h : ∀ i, ¬ OccursAt pat s i) : replaceStr s pat repl = .ok s := by
  obtain ⟨out, h1, h2⟩ := (C27_replace s pat repl).2 hp
  rw [h1, C27_unique s pat repl out s hp h2 (.done s h)]

/-- The replacement contains the pattern; overlapping occurrences. -/
example : replaceStr "aXa".toList "a".toList "aa".toList = .ok "aaXaa".toList ∧
    replaceStr "aaa".toList "aa".toList "b".toList = .ok "ba".toList := by decide +kernel

end Xo
