import Verif.Model.StopToken
import Mathlib.Data.List.Basic
import Mathlib.Data.List.Induction
import Mathlib.Data.List.Nodup

/-!
C39: stop tokens.
-/
namespace Xo

namespace Spec
open Stop

/-- Who belongs to whom, by the history alone: every `stop_source()` founds a family, numbered by the position of
the call in the history; copies, moves, assignments and tokens pass the family on. `request_stop` does not matter
here. -/
structure Families where
  sources : List (Option Nat) := []
  tokens : List (Option Nat) := []

/-- The effect of the operation at position `n`. -/
def Families.step (f : Families) (n : Nat) : Op → Families
  | .newSource => { f with sources := f.sources ++ [some n] }
  | .copySource i => { f with sources := f.sources ++ f.sources[i]?.toList }
  | .moveSource i => { f with sources := f.sources.set i none ++ f.sources[i]?.toList }
  | .assignSource i j => { f with sources := (f.sources[j]?.map (f.sources.set i)).getD f.sources }
  | .newToken => { f with tokens := f.tokens ++ [none] }
  | .getToken i => { f with tokens := f.tokens ++ f.sources[i]?.toList }
  | .copyToken i => { f with tokens := f.tokens ++ f.tokens[i]?.toList }
  | .moveToken i => { f with tokens := f.tokens.set i none ++ f.tokens[i]?.toList }
  | .assignToken i j => { f with tokens := (f.tokens[j]?.map (f.tokens.set i)).getD f.tokens }
  | .request _ => f

/-- The families after a history. -/
def families (ops : List Op) : Families := ops.zipIdx.foldl (fun f x => f.step x.2 x.1) {}

/-- `request_stop` was called, some time in the history, on a source that was then of family `l`. -/
def Stopped (ops : List Op) (l : Nat) : Prop :=
  ∃ pre i post, ops = pre ++ Op.request i :: post ∧ (families pre).sources[i]? = some (some l)

end Spec
open Spec Stop

theorem families_snoc (ops : List Op) (o : Op) : families (ops ++ [o]) = (families ops).step ops.length o := by
  unfold families
  rw [List.zipIdx_append, List.foldl_append]
  simp

theorem stop_run_snoc (s : State) (ops : List Op) (o : Op) :
    run s (ops ++ [o]) = (run s ops).bind fun s' => step s' o := by
  induction ops generalizing s with
  | nil => simp only [List.nil_append, run, Res.bind]; cases step s o <;> rfl
  | cons o' ops ih => simp only [List.cons_append, run]; cases step s o' <;> simp [Res.bind, ih]

theorem stopped_snoc (ops : List Op) (o : Op) (l : Nat) :
    Stopped (ops ++ [o]) l ↔ Stopped ops l ∨ ∃ i, o = .request i ∧ (families ops).sources[i]? = some (some l) := by
  constructor
  · rintro ⟨pre, i, post, h, hs⟩
    rcases List.eq_nil_or_concat post with rfl | ⟨post', x, rfl⟩
    · obtain ⟨rfl, h2⟩ := List.append_inj' h rfl
      cases h2
      exact Or.inr ⟨i, rfl, hs⟩
    · rw [List.concat_eq_append, ← List.cons_append, ← List.append_assoc] at h
      obtain ⟨rfl, _⟩ := List.append_inj' h rfl
      exact Or.inl ⟨pre, i, post', rfl, hs⟩
  · rintro (⟨pre, i, post, rfl, hs⟩ | ⟨i, rfl, hs⟩)
    · exact ⟨pre, i, post ++ [o], by simp, hs⟩
    · exact ⟨ops, i, [], rfl, hs⟩

/-- The invariant: flags correspond one to one to families. -/
structure StopInv (ops : List Op) (s : State) (fam : List Nat) : Prop where
  len : fam.length = s.heap.length
  nodup : fam.Nodup
  below : ∀ l ∈ fam, l < ops.length
  sources : s.sources.map (Option.map fun p => fam[p]?) = (families ops).sources.map (Option.map some)
  tokens : s.tokens.map (Option.map fun p => fam[p]?) = (families ops).tokens.map (Option.map some)
  flags : ∀ p l : Nat, fam[p]? = some l → (s.heap[p]? = some true ↔ Stopped ops l)

/-- Two lists of pointers with the same families. -/
def Same (fam : List Nat) (a b : List (Option Nat)) : Prop :=
  a.map (Option.map fun p => fam[p]?) = b.map (Option.map some)

theorem Same.get {fam : List Nat} {a b : List (Option Nat)} (h : Same fam a b) (i : Nat) :
    a[i]?.map (Option.map fun p => fam[p]?) = b[i]?.map (Option.map some) := by
  have := congrArg (fun l => l[i]?) h
  simpa using this

theorem Same.append {fam : List Nat} {a b c d : List (Option Nat)} (h : Same fam a b) (h' : Same fam c d) :
    Same fam (a ++ c) (b ++ d) := by
  unfold Same at *
  rw [List.map_append, List.map_append, h, h']

theorem Same.set {fam : List Nat} {a b : List (Option Nat)} (h : Same fam a b) (i : Nat) {p q : Option Nat}
    (hp : p.map (fun p => fam[p]?) = q.map some) : Same fam (a.set i p) (b.set i q) := by
  unfold Same at *
  rw [List.map_set, List.map_set, h, hp]

theorem Same.single {fam : List Nat} {p q : Option Nat} (hp : p.map (fun p => fam[p]?) = q.map some) :
    Same fam [p] [q] := by
  simp [Same, hp]

/-- The lookup that all operations start with. -/
theorem Same.look {fam : List Nat} {a b : List (Option Nat)} (h : Same fam a b) (i : Nat) :
    (a[i]? = none ∧ b[i]? = none) ∨ ∃ p q, a[i]? = some p ∧ b[i]? = some q ∧ p.map (fun p => fam[p]?) = q.map some := by
  have := h.get i
  cases ha : a[i]? <;> cases hb : b[i]? <;> rw [ha, hb] at this
  · exact Or.inl ⟨rfl, rfl⟩
  · cases this
  · cases this
  · simp only [Option.map_some, Option.some.injEq] at this
    exact Or.inr ⟨_, _, rfl, rfl, this⟩

theorem Same.grow {fam : List Nat} {a b : List (Option Nat)} (h : Same fam a b) (n : Nat) :
    Same (fam ++ [n]) a b := by
  unfold Same at *
  rw [← h]
  apply List.map_congr_left
  intro p hp
  cases p with
  | none => rfl
  | some p =>
    have hm : (some p : Option Nat).map (fun p => fam[p]?) ∈ b.map (Option.map some) := by
      rw [← h]; exact List.mem_map_of_mem hp
    simp only [Option.map_some, List.mem_map] at hm
    obtain ⟨q, _, hq⟩ := hm
    cases q with
    | none => cases hq
    | some q =>
      simp only [Option.map_some, Option.some.injEq] at hq
      simp only [Option.map_some, Option.some.injEq]
      rw [List.getElem?_append_left]
      exact (List.getElem?_eq_some_iff.1 hq.symm).1

theorem stop_inv (ops : List Op) (s : State) (h : run init ops = .ok s) : ∃ fam, StopInv ops s fam := by
  induction ops using List.reverseRecOn generalizing s with
  | nil =>
    cases h
    exact ⟨[], rfl, List.nodup_nil, by simp, rfl, rfl, by simp⟩
  | append_singleton ops o ih =>
    rw [stop_run_snoc] at h
    cases hr : run init ops with
    | err => rw [hr] at h; cases h
    | ub => rw [hr] at h; cases h
    | ok s0 =>
      rw [hr] at h
      simp only [Res.bind] at h
      obtain ⟨fam, I⟩ := ih s0 hr
      have hS : Same fam s0.sources (families ops).sources := I.sources
      have hT : Same fam s0.tokens (families ops).tokens := I.tokens
      have hlen : (ops ++ [o]).length = ops.length + 1 := by simp
      have keep : ∀ s' : State, s'.heap = s0.heap → (∀ i, o ≠ .request i) →
          Same fam s'.sources (families (ops ++ [o])).sources → Same fam s'.tokens (families (ops ++ [o])).tokens →
          StopInv (ops ++ [o]) s' fam := by
        intro s' hh hno h1 h2
        refine ⟨by rw [hh]; exact I.len, I.nodup, fun l hl => by have := I.below l hl; omega, h1, h2, ?_⟩
        intro p l hl
        rw [hh, I.flags p l hl, stopped_snoc]
        constructor
        · exact Or.inl
        · rintro (h | ⟨i, hi, _⟩)
          · exact h
          · exact absurd hi (hno i)
      rw [families_snoc] at keep
      cases o with
      | newSource =>
        cases h
        have hnew : ops.length ∉ fam := fun hm => absurd (I.below _ hm) (by omega)
        refine ⟨fam ++ [ops.length], by simp [I.len], ?_, ?_, ?_, ?_, ?_⟩
        · rw [List.nodup_append]
          exact ⟨I.nodup, by simp, by intro a ha b hb; simp at hb; subst hb; rintro rfl; exact hnew ha⟩
        · intro l hl
          rcases List.mem_append.1 hl with hl | hl
          · have := I.below l hl; omega
          · simp at hl; omega
        · rw [families_snoc]
          refine Same.append (hS.grow _) (Same.single ?_)
          simp [← I.len]
        · rw [families_snoc]; exact hT.grow _
        · intro p l hl
          rw [stopped_snoc]
          simp only [reduceCtorEq, false_and, exists_false, or_false]
          by_cases hp : p < fam.length
          · rw [List.getElem?_append_left hp] at hl
            rw [List.getElem?_append_left (by rw [← I.len]; exact hp)]
            exact I.flags p l hl
          · have hp' : p = fam.length := by
              have := (List.getElem?_eq_some_iff.1 hl).1
              simp at this; omega
            subst hp'
            have hl' : l = ops.length := by simpa using hl.symm
            subst hl'
            constructor
            · intro e
              rw [I.len] at e
              simp at e
            · rintro ⟨pre, i, post, he, hs⟩
              exfalso
              -- a family founded later has no member before
              have : ∀ (pre : List Op) (l : Nat), (some l ∈ (families pre).sources ∨ some l ∈ (families pre).tokens) →
                  l < pre.length := by
                intro pre
                induction pre using List.reverseRecOn with
                | nil => intro l hl; simp [families] at hl
                | append_singleton pre o ihp =>
                  intro l hl
                  rw [families_snoc] at hl
                  simp only [List.length_append, List.length_singleton]
                  have hs' : ∀ (a : List (Option Nat)) (i : Nat), some l ∈ a[i]?.toList → some l ∈ a := by
                    intro a i h
                    rw [Option.mem_toList] at h
                    exact List.mem_of_getElem? h
                  cases o <;> simp only [Families.step, List.mem_append, List.mem_singleton] at hl
                  case newSource =>
                    rcases hl with (hl | hl) | hl
                    · have := ihp l (Or.inl hl); omega
                    · cases hl; omega
                    · have := ihp l (Or.inr hl); omega
                  case copySource i =>
                    have := ihp l (by
                      rcases hl with (hl | hl) | hl
                      · exact Or.inl hl
                      · exact Or.inl (hs' _ _ hl)
                      · exact Or.inr hl)
                    omega
                  case moveSource i =>
                    have := ihp l (by
                      rcases hl with (hl | hl) | hl
                      · rcases List.mem_or_eq_of_mem_set hl with h | h
                        · exact Or.inl h
                        · cases h
                      · exact Or.inl (hs' _ _ hl)
                      · exact Or.inr hl)
                    omega
                  case assignSource i j =>
                    have := ihp l (by
                      rcases hl with hl | hl
                      · cases hj : (families pre).sources[j]? with
                        | none => rw [hj] at hl; exact Or.inl hl
                        | some p =>
                          rw [hj] at hl
                          rcases List.mem_or_eq_of_mem_set hl with h | h
                          · exact Or.inl h
                          · subst h; exact Or.inl (List.mem_of_getElem? hj)
                      · exact Or.inr hl)
                    omega
                  case newToken =>
                    rcases hl with hl | hl | hl
                    · have := ihp l (Or.inl hl); omega
                    · have := ihp l (Or.inr hl); omega
                    · cases hl
                  case getToken i =>
                    have := ihp l (by
                      rcases hl with hl | hl | hl
                      · exact Or.inl hl
                      · exact Or.inr hl
                      · exact Or.inl (hs' _ _ hl))
                    omega
                  case copyToken i =>
                    have := ihp l (by
                      rcases hl with hl | hl | hl
                      · exact Or.inl hl
                      · exact Or.inr hl
                      · exact Or.inr (hs' _ _ hl))
                    omega
                  case moveToken i =>
                    have := ihp l (by
                      rcases hl with hl | hl | hl
                      · exact Or.inl hl
                      · rcases List.mem_or_eq_of_mem_set hl with h | h
                        · exact Or.inr h
                        · cases h
                      · exact Or.inr (hs' _ _ hl))
                    omega
                  case assignToken i j =>
                    have := ihp l (by
                      rcases hl with hl | hl
                      · exact Or.inl hl
                      · cases hj : (families pre).tokens[j]? with
                        | none => rw [hj] at hl; exact Or.inr hl
                        | some p =>
                          rw [hj] at hl
                          rcases List.mem_or_eq_of_mem_set hl with h | h
                          · exact Or.inr h
                          · subst h; exact Or.inr (List.mem_of_getElem? hj))
                    omega
                  case request i =>
                    have := ihp l hl
                    omega
              have hlt := this pre ops.length (Or.inl (List.mem_of_getElem? hs))
              have : ops.length = pre.length + post.length + 1 := by rw [he]; simp; omega
              omega
      | copySource i =>
        refine ⟨fam, ?_⟩
        simp only [step] at h
        rcases hS.look i with ⟨h1, h2⟩ | ⟨p, q, h1, h2, h3⟩ <;> rw [h1] at h <;> cases h <;>
          refine keep _ rfl (by simp) ?_ ?_ <;> simp only [Families.step, h2, Option.toList, List.append_nil]
        · exact hS
        · exact hT
        · exact hS.append (Same.single h3)
        · exact hT
      | moveSource i =>
        refine ⟨fam, ?_⟩
        simp only [step] at h
        rcases hS.look i with ⟨h1, h2⟩ | ⟨p, q, h1, h2, h3⟩ <;> rw [h1] at h <;> cases h <;>
          refine keep _ rfl (by simp) ?_ ?_ <;> simp only [Families.step, h2, Option.toList, List.append_nil]
        · rw [List.set_eq_of_length_le (by simpa using h2)]; exact hS
        · exact hT
        · exact (hS.set i rfl).append (Same.single h3)
        · exact hT
      | assignSource i j =>
        refine ⟨fam, ?_⟩
        simp only [step] at h
        rcases hS.look j with ⟨h1, h2⟩ | ⟨p, q, h1, h2, h3⟩ <;> rw [h1] at h <;> cases h <;>
          refine keep _ rfl (by simp) ?_ ?_ <;>
          simp only [Families.step, h2, Option.map_none, Option.map_some, Option.getD_none, Option.getD_some]
        · exact hS
        · exact hT
        · exact hS.set i h3
        · exact hT
      | newToken =>
        cases h
        exact ⟨fam, keep _ rfl (by simp) hS (hT.append (Same.single rfl))⟩
      | getToken i =>
        refine ⟨fam, ?_⟩
        simp only [step] at h
        rcases hS.look i with ⟨h1, h2⟩ | ⟨p, q, h1, h2, h3⟩ <;> rw [h1] at h <;> cases h <;>
          refine keep _ rfl (by simp) ?_ ?_ <;> simp only [Families.step, h2, Option.toList, List.append_nil]
        · exact hS
        · exact hT
        · exact hS
        · exact hT.append (Same.single h3)
      | copyToken i =>
        refine ⟨fam, ?_⟩
        simp only [step] at h
        rcases hT.look i with ⟨h1, h2⟩ | ⟨p, q, h1, h2, h3⟩ <;> rw [h1] at h <;> cases h <;>
          refine keep _ rfl (by simp) ?_ ?_ <;> simp only [Families.step, h2, Option.toList, List.append_nil]
        · exact hS
        · exact hT
        · exact hS
        · exact hT.append (Same.single h3)
      | moveToken i =>
        refine ⟨fam, ?_⟩
        simp only [step] at h
        rcases hT.look i with ⟨h1, h2⟩ | ⟨p, q, h1, h2, h3⟩ <;> rw [h1] at h <;> cases h <;>
          refine keep _ rfl (by simp) ?_ ?_ <;> simp only [Families.step, h2, Option.toList, List.append_nil]
        · exact hS
        · rw [List.set_eq_of_length_le (by simpa using h2)]; exact hT
        · exact hS
        · exact (hT.set i rfl).append (Same.single h3)
      | assignToken i j =>
        refine ⟨fam, ?_⟩
        simp only [step] at h
        rcases hT.look j with ⟨h1, h2⟩ | ⟨p, q, h1, h2, h3⟩ <;> rw [h1] at h <;> cases h <;>
          refine keep _ rfl (by simp) ?_ ?_ <;>
          simp only [Families.step, h2, Option.map_none, Option.map_some, Option.getD_none, Option.getD_some]
        · exact hS
        · exact hT
        · exact hS
        · exact hT.set i h3
      | request i =>
        refine ⟨fam, ?_⟩
        simp only [step] at h
        have hf : families (ops ++ [Op.request i]) = families ops := by rw [families_snoc]; rfl
        rcases hS.look i with ⟨h1, h2⟩ | ⟨p, q, h1, h2, h3⟩
        · rw [h1] at h
          cases h
          refine ⟨I.len, I.nodup, fun l hl => by have := I.below l hl; omega, by rw [hf]; exact hS,
            by rw [hf]; exact hT, ?_⟩
          intro p l hl
          rw [I.flags p l hl, stopped_snoc]
          constructor
          · exact Or.inl
          · rintro (h | ⟨i', hi, hs⟩)
            · exact h
            · cases hi; rw [h2] at hs; cases hs
        · rw [h1] at h
          cases p with
          | none => cases h
          | some p =>
            cases h
            cases q with
            | none => cases h3
            | some q =>
              simp only [Option.map_some, Option.some.injEq] at h3
              have hp : p < s0.heap.length := by
                rw [← I.len]; exact (List.getElem?_eq_some_iff.1 h3).1
              refine ⟨by simpa using I.len, I.nodup, fun l hl => by have := I.below l hl; omega,
                by rw [hf]; exact hS, by rw [hf]; exact hT, ?_⟩
              intro p' l hl
              rw [stopped_snoc]
              by_cases hpp : p = p'
              · subst hpp
                rw [hl] at h3
                cases h3
                rw [List.getElem?_set_self hp]
                exact ⟨fun _ => Or.inr ⟨i, rfl, h2⟩, fun _ => rfl⟩
              · rw [List.getElem?_set_ne hpp, I.flags p' l hl]
                constructor
                · exact Or.inl
                · rintro (h | ⟨i', hi, hs⟩)
                  · exact h
                  · cases hi
                    rw [h2] at hs
                    cases hs
                    have hp1 := List.getElem?_eq_some_iff.1 h3
                    have hp2 := List.getElem?_eq_some_iff.1 hl
                    exact absurd ((List.Nodup.getElem_inj_iff I.nodup).1 (hp1.2.trans hp2.2.symm)) hpp

theorem requested_iff {ops : List Op} {s : State} {fam : List Nat} (I : StopInv ops s fam)
    {a b : List (Option Nat)} (h : Same fam a b) (i : Nat) :
    requested s (a[i]?.getD none) = true ↔ ∃ l, b[i]? = some (some l) ∧ Stopped ops l := by
  rcases h.look i with ⟨h1, h2⟩ | ⟨p, q, h1, h2, h3⟩
  · rw [h1, h2]; simp [requested]
  · rw [h1, h2]
    cases p with
    | none =>
      cases q with
      | none => simp [requested]
      | some q => cases h3
    | some p =>
      cases q with
      | none => cases h3
      | some q =>
        simp only [Option.map_some, Option.some.injEq] at h3
        have := I.flags p q h3
        simp only [requested, Option.getD_some, Option.some.injEq, exists_eq_left']
        rw [← this]
        cases hh : s.heap[p]? with
        | none => simp
        | some v => cases v <;> simp

/-- **C39.** After any history, a token (and a source) reports a requested stop exactly if it belongs to a family of
which some member was asked to stop before. -/
theorem C39_token (ops : List Op) (s : State) (h : run init ops = .ok s) (i : Nat) :
    (tokenRequested s i = true ↔ ∃ l, (families ops).tokens[i]? = some (some l) ∧ Stopped ops l) ∧
    (sourceRequested s i = true ↔ ∃ l, (families ops).sources[i]? = some (some l) ∧ Stopped ops l) := by
  obtain ⟨fam, I⟩ := stop_inv ops s h
  exact ⟨requested_iff I I.tokens i, requested_iff I I.sources i⟩

/-- A stop is possible exactly for tokens that belong to a source; other tokens are never stopped. -/
theorem C39_possible (ops : List Op) (s : State) (h : run init ops = .ok s) (i : Nat) :
    (tokenPossible s i = true ↔ ∃ l, (families ops).tokens[i]? = some (some l)) ∧
    (tokenPossible s i = false → tokenRequested s i = false) := by
  obtain ⟨fam, I⟩ := stop_inv ops s h
  constructor
  · have hT : Same fam s.tokens (families ops).tokens := I.tokens
    unfold tokenPossible
    rcases hT.look i with ⟨h1, h2⟩ | ⟨p, q, h1, h2, h3⟩
    · rw [h1, h2]; simp
    · rw [h1, h2]
      cases p <;> cases q <;> simp at h3 ⊢
  · unfold tokenPossible tokenRequested
    cases s.tokens[i]?.getD none <;> simp [requested]

theorem Stop.run_append (s : State) (a b : List Op) : run s (a ++ b) = (run s a).bind fun s' => run s' b := by
  induction a generalizing s with
  | nil => rfl
  | cons o a ih => simp only [List.cons_append, run]; cases step s o <;> simp [Res.bind, ih]

/-- **C39, once true it stays true**, as long as the token is not assigned or moved to another family. -/
theorem C39_stays (ops more : List Op) (s s' : State) (h : run init ops = .ok s) (h' : run s more = .ok s') (i : Nat)
    (hsame : (families (ops ++ more)).tokens[i]? = (families ops).tokens[i]?) (hr : tokenRequested s i = true) :
    tokenRequested s' i = true := by
  obtain ⟨l, h1, pre, j, post, e, h2⟩ := (C39_token ops s h i).1.1 hr
  have : run init (ops ++ more) = .ok s' := by rw [Stop.run_append, h]; exact h'
  exact (C39_token _ s' this i).1.2 ⟨l, by rw [hsame]; exact h1, pre, j, post ++ more, by rw [e]; simp, h2⟩

/-- **C39, no influence on others.** Asking a source to stop changes nothing for tokens of other families. -/
theorem C39_isolated (ops : List Op) (s s' : State) (h : run init ops = .ok s) (j i : Nat)
    (h' : step s (.request j) = .ok s') (hne : (families ops).sources[j]? ≠ (families ops).tokens[i]?) :
    tokenRequested s' i = tokenRequested s i := by
  have hr : run init (ops ++ [.request j]) = .ok s' := by rw [stop_run_snoc, h]; exact h'
  have h1 := (C39_token _ s' hr i).1
  have h0 := (C39_token ops s h i).1
  have hf : families (ops ++ [Op.request j]) = families ops := by rw [families_snoc]; rfl
  rw [hf] at h1
  rw [Bool.eq_iff_iff, h1, h0]
  refine exists_congr fun l => and_congr_right fun hl => ?_
  rw [stopped_snoc]
  constructor
  · rintro (h | ⟨k, hk, hs⟩)
    · exact h
    · cases hk
      exact absurd (hs.trans hl.symm) hne
  · exact Or.inl

/-- And it takes effect at once for all tokens of its own family. -/
theorem C39_request_seen (ops : List Op) (s s' : State) (h : run init ops = .ok s) (j i l : Nat)
    (h' : step s (.request j) = .ok s') (hj : (families ops).sources[j]? = some (some l))
    (hi : (families ops).tokens[i]? = some (some l)) : tokenRequested s' i = true := by
  have hr : run init (ops ++ [.request j]) = .ok s' := by rw [stop_run_snoc, h]; exact h'
  have hf : families (ops ++ [Op.request j]) = families ops := by rw [families_snoc]; rfl
  refine (C39_token _ s' hr i).1.2 ⟨l, by rw [hf]; exact hi, ops, j, [], rfl, hj⟩

/-- Beyond C39: asking a moved-from source to stop is undefined (`request_stop` does not check the pointer, unlike
`stop_requested`). -/
theorem C39_moved_source_request_undefined : run init [.newSource, .moveSource 0, .request 0] = .ub := rfl

/-- Non-vacuity: two sources, tokens of both, a copy, a default token. -/
example : run init [.newSource, .newSource, .getToken 0, .getToken 1, .copyToken 0, .newToken, .copySource 0,
    .request 2] = .ok ⟨[true, false], [some 0, some 1, some 0], [some 0, some 1, some 0, none]⟩ := by decide
example : (families [.newSource, .newSource, .getToken 0, .getToken 1, .copyToken 0, .newToken, .copySource 0,
    .request 2]).tokens = [some 0, some 1, some 0, none] := by decide

end Xo
