import Verif.Model.Bounded

/-!
C134: a bounded value lies within its bounds, whatever was done with it; a value outside is refused.
-/
namespace Xo.Bnd.Spec
open Xo.Bnd

/-- Within the bounds. -/
def Within (l u v : Int) : Prop := l ≤ v ∧ v ≤ u

/-- The value a use offers. -/
def offered : Op → Int
  | .set v => v
  | .assign v => v
  | .copy v => v
  | .write v => v

/-- The use goes through the check. -/
def Checked : Op → Prop
  | .write _ => False
  | _ => True

end Xo.Bnd.Spec

namespace Xo.Bnd
open Xo.Bnd.Spec

/-- A value outside the bounds is refused by the constructor and by every checked use. -/
theorem C134_refused (l u old v : Int) (h : ¬Within l u v) :
    make l u v = .err ∧ set l u old v = .err ∧ assign l u old v = .err ∧ copy l u old v = .err := by
  have hc : v < l ∨ v > u := by
    unfold Within at h; omega
  simp [make, set, assign, copy, hc, Res.bind]

/-- A value within the bounds is undefined behaviour for the constructor and for every checked use: the check ends without
returning. The property asks that it is stored. -/
theorem C134_stored_violated (l u old v : Int) (h : Within l u v) :
    make l u v = .ub ∧ set l u old v = .ub ∧ assign l u old v = .ub ∧ copy l u old v = .ub := by
  have hc : ¬(v < l ∨ v > u) := by
    unfold Within at h; omega
  simp [make, set, assign, copy, hc, Res.bind]

/-- A value that starts within its bounds is there after every history of checked uses that has a defined result; in fact
it is still the first value, as every use was refused. -/
theorem C134_history_partial (l u v w : Int) (os : List Op) (hc : ∀ o ∈ os, Checked o) (h : run l u v os = .ok w) :
    w = v ∧ ∀ o ∈ os, ¬Within l u (offered o) := by
  induction os generalizing v with
  | nil => cases h; simp
  | cons o os ih =>
    have hcs := hc o List.mem_cons_self
    have hst : step l u v o = .ok v ∧ ¬Within l u (offered o) ∨ step l u v o = .ub := by
      cases o with
      | set a =>
        by_cases hw : Within l u a
        · right; simp only [step, (C134_stored_violated l u v a hw).2.1]
        · left; refine ⟨by simp only [step, (C134_refused l u v a hw).2.1], hw⟩
      | assign a =>
        by_cases hw : Within l u a
        · right; simp only [step, (C134_stored_violated l u v a hw).2.2.1]
        · left; refine ⟨by simp only [step, (C134_refused l u v a hw).2.2.1], hw⟩
      | copy a =>
        by_cases hw : Within l u a
        · right; simp only [step, (C134_stored_violated l u v a hw).2.2.2]
        · left; refine ⟨by simp only [step, (C134_refused l u v a hw).2.2.2], hw⟩
      | write a => exact hcs.elim
    rcases hst with ⟨hs, hw⟩ | hs
    · simp only [run, hs, Res.bind] at h
      obtain ⟨h1, h2⟩ := ih v (fun o ho => hc o (List.mem_cons_of_mem _ ho)) h
      refine ⟨h1, fun o' ho => ?_⟩
      rcases List.mem_cons.1 ho with rfl | ho
      · exact hw
      · exact h2 o' ho
    · simp [run, hs, Res.bind] at h

/-- A value that was never set is within its bounds only when zero is. -/
theorem C134_default_violated (l u : Int) : Within l u (read default) ↔ l ≤ 0 ∧ 0 ≤ u := Iff.rfl

/-- Among the fields of a date the day, and no other, starts out of its bounds. -/
theorem C134_date_violated : ∀ b ∈ dateFields, Within b.1 b.2 (read default) ↔ b ≠ (1, 31) := by
  intro b hb
  simp only [dateFields, List.mem_cons, List.not_mem_nil, or_false] at hb
  rcases hb with rfl | rfl | rfl | rfl | rfl <;> simp [Within, read, default]

/-- Writing through the reference that a conversion gives is not checked: every value at all can be stored. -/
theorem C134_reference_violated (l u v w : Int) : run l u v [.write w] = .ok w := rfl

/-- The hypotheses are met: a history of refused values, caught one after the other. -/
example : run 1 31 5 [.set 0, .assign 32, .copy (-4)] = .ok 5 := by decide +kernel
example : ∀ o ∈ [Op.set 0, .assign 32, .copy (-4)], Checked o := by simp [Checked]
example : ¬Within 1 31 0 ∧ Within 1 31 31 := by unfold Within; omega

end Xo.Bnd
