import Verif.Model.Storage
import Verif.Spec.Matrix
import Mathlib.Tactic.Ring
import Mathlib.Tactic.Linarith

/-! Row-major index arithmetic and the two copy loops. -/
namespace Xo

theorem idx_lt {f F c C : Nat} (hf : f < F) (hc : c < C) : f * C + c < F * C := by
  calc f * C + c < f * C + C := by omega
    _ = (f + 1) * C := by ring
    _ ≤ F * C := Nat.mul_le_mul_right _ hf

theorem idx_inj {f f' c c' C : Nat} (hc : c < C) (hc' : c' < C) (h : f * C + c = f' * C + c') :
    f = f' ∧ c = c' := by
  have h1 : (f * C + c) / C = f := by
    rw [Nat.mul_comm, Nat.mul_add_div (by omega), Nat.div_eq_of_lt hc]; omega
  have h2 : (f' * C + c') / C = f' := by
    rw [Nat.mul_comm, Nat.mul_add_div (by omega), Nat.div_eq_of_lt hc']; omega
  have : f = f' := by rw [← h1, h, h2]
  subst this
  exact ⟨rfl, by omega⟩

/-- `data` is the row-major form of a matrix. -/
def Holds {T} (data : List T) (rows cols : Nat) (cell : Nat → Nat → T) : Prop :=
  data.length = rows * cols ∧ ∀ r c, r < rows → c < cols → data[r * cols + c]? = some (cell r c)

theorem holds_set {T} {data : List T} {rows cols : Nat} {cell : Nat → Nat → T} (h : Holds data rows cols cell)
    {r c : Nat} (hr : r < rows) (hc : c < cols) (v : T) :
    Holds (data.set (r * cols + c) v) rows cols (fun r' c' => if r' = r ∧ c' = c then v else cell r' c') := by
  refine ⟨by simp [h.1], ?_⟩
  intro r' c' hr' hc'
  by_cases e : r' = r ∧ c' = c
  · obtain ⟨rfl, rfl⟩ := e
    have : r' * cols + c' < data.length := by rw [h.1]; exact idx_lt hr' hc'
    simp [this]
  · have : r * cols + c ≠ r' * cols + c' := fun h => e (by have := idx_inj hc hc' h; exact ⟨this.1.symm, this.2.symm⟩)
    rw [List.getElem?_set_ne this, h.2 r' c' hr' hc']; beta_reduce; rw [if_neg e]

theorem holds_congr {T} {data : List T} {rows cols : Nat} {f g : Nat → Nat → T} (h : Holds data rows cols f)
    (hfg : ∀ r c, r < rows → c < cols → f r c = g r c) : Holds data rows cols g :=
  ⟨h.1, fun r c hr hc => by rw [h.2 r c hr hc, hfg r c hr hc]⟩

theorem copyCells_ok {T} {old : List T} {F C : Nat} {cell : Nat → Nat → T} (h : Holds old F C cell)
    {F' C' : Nat} (hF : F ≤ F') (hC : C ≤ C') (v : T) :
    ∃ new, Storage.copyCells old F C C' (List.replicate (C' * F') v) = .ok new ∧
      Holds new F' C' (fun r c => if r < F ∧ c < C then cell r c else v) := by
  have := loopUp_inv (f := fun fi new =>
      loopUp (fun ci new => (Vec.get old (C * fi + ci)).bind fun x => Vec.set new (C' * fi + ci) x) 0 C new)
    (fun fi new => Holds new F' C' (fun r c => if r < fi ∧ c < C then cell r c else v)) F 0
    (List.replicate (C' * F') v) ?_ ?_
  · obtain ⟨s, e, p⟩ := this
    exact ⟨s, e, by simpa using p⟩
  · refine ⟨by simp [Nat.mul_comm], ?_⟩
    intro r c hr hc
    have := idx_lt hr hc
    rw [List.getElem?_replicate, if_pos (by rw [Nat.mul_comm C' F']; exact this)]; simp
  · intro fi new _ hfi hp
    have := loopUp_inv (f := fun ci new => (Vec.get old (C * fi + ci)).bind fun x => Vec.set new (C' * fi + ci) x)
      (fun ci new => Holds new F' C' (fun r c => if (r < fi ∧ c < C) ∨ (r = fi ∧ c < ci) then cell r c else v))
      C 0 new ?_ ?_
    · obtain ⟨s, e, p⟩ := this
      refine ⟨s, e, holds_congr p ?_⟩
      intro r c hr hc
      have : (r < fi ∧ c < C ∨ r = fi ∧ c < 0 + C) ↔ (r < fi + 1 ∧ c < C) := by omega
      simp only [this]
    · refine holds_congr hp ?_
      intro r c hr hc
      simp
    · intro ci new _ hci hp
      have hfi' : fi < F := by omega
      have hci' : ci < C := by omega
      have hg : Vec.get old (C * fi + ci) = .ok (cell fi ci) := by
        apply Vec.get_ok; rw [Nat.mul_comm C fi]; exact h.2 fi ci hfi' hci'
      have hl : C' * fi + ci < new.length := by
        rw [hp.1, Nat.mul_comm C' fi]; exact idx_lt (by omega) (by omega)
      refine ⟨new.set (C' * fi + ci) (cell fi ci), by simp [hg, Res.bind, Vec.set_ok hl], ?_⟩
      rw [Nat.mul_comm C' fi]
      refine holds_congr (holds_set hp (by omega : fi < F') (by omega : ci < C') (cell fi ci)) ?_
      intro r c hr hc
      by_cases e : r = fi ∧ c = ci
      · obtain ⟨rfl, rfl⟩ := e; simp
      · rw [if_neg e]
        have : (r < fi ∧ c < C ∨ r = fi ∧ c < ci) ↔ (r < fi ∧ c < C ∨ r = fi ∧ c < ci + 1) := by omega
        simp only [this]

/-- Resizing when at most one row exists, or when the number of columns does not change, needs no reorganising. -/
theorem resize_holds {T} {data : List T} {R C : Nat} {cell : Nat → Nat → T} (h : Holds data R C cell)
    {R' C' : Nat} (hR : R ≤ R') (hC : C ≤ C') (hs : R ≤ 1 ∨ C' = C) (v : T) :
    Holds (Vec.resize data (R' * C') v) R' C' (fun r c => if r < R ∧ c < C then cell r c else v) := by
  refine ⟨Vec.length_resize _ _ _, ?_⟩
  intro r c hr hc
  rw [Vec.getElem?_resize _ _ _ _ (idx_lt hr hc)]
  congr 1
  beta_reduce
  by_cases hrc : r < R ∧ c < C
  · rw [if_pos hrc]
    have e : r * C' + c = r * C + c := by
      rcases hs with hs | rfl
      · have : r = 0 := by omega
        subst this; simp
      · rfl
    have := h.2 r c hrc.1 hrc.2
    rw [e]
    have hl : r * C + c < data.length := by rw [h.1]; exact idx_lt hrc.1 hrc.2
    rw [List.getElem?_eq_getElem hl] at this
    simp only [hl, dite_true]
    simpa using this
  · rw [if_neg hrc]
    have hl : ¬ r * C' + c < data.length := by
      rw [h.1]
      rcases hs with hs | rfl
      · rcases Nat.lt_or_ge r R with h1 | h1
        · have : r = 0 := by omega
          subst this
          have hR1 : R = 1 := by omega
          subst hR1
          simp only [Nat.zero_mul, Nat.zero_add, Nat.one_mul]; omega
        · rcases Nat.eq_zero_or_pos R with h0 | h0
          · subst h0; simp
          · have : R = 1 := by omega
            subst this
            have : 1 * C' ≤ r * C' := Nat.mul_le_mul_right _ h1
            simp only [Nat.one_mul] at this ⊢; omega
      · have : R ≤ r := by omega
        have := Nat.mul_le_mul_right C' this
        omega
    rw [dif_neg hl]

end Xo
