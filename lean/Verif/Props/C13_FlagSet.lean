import Verif.Model.FlagSet
import Mathlib.Data.List.Basic

/-!
C13: `flag_set` operations act on exactly one flag. The specification is a function from flags to truth values.
-/
namespace Xo
variable {w : Nat}

namespace Spec
/-- Calls that change a set of flags. -/
inductive FlagOp where
  | set (f : Nat)
  | setTo (f : Nat) (v : Bool)
  | toggle (f : Nat)
  | clear1 (f : Nat)
  | setList (fs : List Nat)
  | setListTo (fs : List Nat) (v : Bool)
  | clearAll

/-- The flags a call names. -/
def FlagOp.flags : FlagOp → List Nat
  | .set f | .setTo f _ | .toggle f | .clear1 f => [f]
  | .setList fs | .setListTo fs _ => fs
  | .clearAll => []

/-- What a call does to the flags. -/
def flagStep (s : Nat → Bool) : FlagOp → Nat → Bool
  | .set f => fun g => if g = f then true else s g
  | .setTo f v => fun g => if g = f then v else s g
  | .toggle f => fun g => if g = f then !(s g) else s g
  | .clear1 f => fun g => if g = f then false else s g
  | .setList fs => fun g => if g ∈ fs then true else s g
  | .setListTo fs v => fun g => if g ∈ fs then v else s g
  | .clearAll => fun _ => false
end Spec
open Spec

namespace FlagSet

/-- The flags of the storage. -/
def flag (s : FlagSet w) (i : Nat) : Bool := s.data.getLsbD i

theorem bit_getLsbD {i : Nat} (hi : i < w) (v : Bool) (j : Nat) :
    ((BitVec.ofNat w v.toNat) <<< i).getLsbD j = (decide (j = i) && v) := by
  rw [BitVec.getLsbD_shiftLeft]
  by_cases hj : j = i
  · subst hj
    cases v <;> simp [hi, BitVec.getLsbD_ofNat]
    omega
  · by_cases hlt : j < i
    · simp [hlt, hj]
    · cases v with
      | false => simp [hj]
      | true =>
        have : Nat.testBit 1 (j - i) = false := by
          obtain ⟨k, hk⟩ : ∃ k, j - i = k + 1 := ⟨j - i - 1, by omega⟩
          rw [hk, Nat.testBit_succ]; simp
        simp [BitVec.getLsbD_ofNat, this, hj]

theorem storageBit_ok {i : Nat} (hi : i < w) (v : Bool) :
    (storageBit i v : Res (BitVec w)) = .ok ((BitVec.ofNat w v.toNat) <<< i) := by
  unfold storageBit; rw [if_pos hi]

theorem get_ok (s : FlagSet w) {i : Nat} (hi : i < w) : s.get i = .ok (s.flag i) := by
  unfold get
  rw [storageBit_ok hi]
  simp only [Res.bind]
  congr 1
  unfold flag
  have hb := bit_getLsbD hi true
  cases hd : s.data.getLsbD i with
  | false =>
    rw [bne_eq_false_iff_eq]
    apply BitVec.eq_of_getLsbD_eq
    intro j hj
    rw [BitVec.getLsbD_and, hb j, BitVec.getLsbD_zero]
    by_cases hji : j = i
    · subst hji; simp [hd]
    · simp [hji]
  | true =>
    rw [bne_iff_ne]
    intro he
    have : (s.data &&& (BitVec.ofNat w true.toNat) <<< i).getLsbD i = false := by rw [he]; simp
    rw [BitVec.getLsbD_and, hb i, hd] at this
    simp at this

theorem setTo_ok (s : FlagSet w) {i : Nat} (hi : i < w) (v : Bool) :
    ∃ s', s.setTo i v = .ok s' ∧ ∀ j, j < w → s'.flag j = if j = i then v else s.flag j := by
  refine ⟨⟨(s.data &&& ~~~(BitVec.ofNat w true.toNat <<< i)) ||| (BitVec.ofNat w v.toNat <<< i)⟩, ?_, ?_⟩
  · unfold setTo; rw [storageBit_ok hi, storageBit_ok hi]; rfl
  · intro j hj
    unfold flag
    simp only [BitVec.getLsbD_or, BitVec.getLsbD_and, BitVec.getLsbD_not, bit_getLsbD hi, hj]
    by_cases h : j = i <;> simp [h]

theorem set_ok (s : FlagSet w) {i : Nat} (hi : i < w) :
    ∃ s', s.set i = .ok s' ∧ ∀ j, j < w → s'.flag j = if j = i then true else s.flag j := by
  refine ⟨⟨s.data ||| (BitVec.ofNat w true.toNat <<< i)⟩, ?_, ?_⟩
  · unfold FlagSet.set; rw [storageBit_ok hi]; rfl
  · intro j hj
    unfold flag
    simp only [BitVec.getLsbD_or, bit_getLsbD hi]
    by_cases h : j = i <;> simp [h]

theorem clear1_ok (s : FlagSet w) {i : Nat} (hi : i < w) :
    ∃ s', s.clear1 i = .ok s' ∧ ∀ j, j < w → s'.flag j = if j = i then false else s.flag j := by
  refine ⟨⟨s.data &&& ~~~(BitVec.ofNat w true.toNat <<< i)⟩, ?_, ?_⟩
  · unfold clear1; rw [storageBit_ok hi]; rfl
  · intro j hj
    unfold flag
    simp only [BitVec.getLsbD_and, BitVec.getLsbD_not, bit_getLsbD hi, hj]
    by_cases h : j = i <;> simp [h]

/-- One call on the model. -/
def step (s : FlagSet w) : FlagOp → Res (FlagSet w)
  | .set f => s.set f
  | .setTo f v => s.setTo f v
  | .toggle f => s.toggle f
  | .clear1 f => s.clear1 f
  | .setList fs => s.setList fs
  | .setListTo fs v => s.setListTo v fs
  | .clearAll => .ok s.clearAll

def run (s : FlagSet w) : List FlagOp → Res (FlagSet w)
  | [] => .ok s
  | op :: ops => (s.step op).bind fun s' => run s' ops

end FlagSet
open FlagSet

/-- Every changing call, with flags below the storage width, acts on the named flags only and as specified. -/
theorem C13_step (s : FlagSet w) (op : FlagOp) (hf : ∀ f ∈ op.flags, f < w) :
    ∃ s', s.step op = .ok s' ∧ ∀ g, g < w → s'.flag g = flagStep s.flag op g := by
  cases op with
  | set f => exact set_ok s (hf f (by simp [FlagOp.flags]))
  | setTo f v => exact setTo_ok s (hf f (by simp [FlagOp.flags])) v
  | clear1 f => exact clear1_ok s (hf f (by simp [FlagOp.flags]))
  | toggle f =>
    have h := hf f (by simp [FlagOp.flags])
    obtain ⟨s', e, hs⟩ := setTo_ok s h (!(s.flag f))
    refine ⟨s', by simp [FlagSet.step, toggle, get_ok s h, Res.bind, e], ?_⟩
    intro g hg
    rw [hs g hg]
    simp only [flagStep]
    split
    · next h => rw [h]
    · rfl
  | setList fs =>
    simp only [FlagOp.flags] at hf
    simp only [FlagSet.step, flagStep]
    induction fs generalizing s with
    | nil => exact ⟨s, rfl, fun g _ => by simp⟩
    | cons f fs ih =>
      obtain ⟨s1, e1, h1⟩ := set_ok s (hf f (by simp))
      obtain ⟨s2, e2, h2⟩ := ih s1 (fun f hf' => hf f (by simp [hf']))
      refine ⟨s2, by simp [setList, e1, Res.bind, e2], ?_⟩
      intro g hg
      rw [h2 g hg, h1 g hg]
      by_cases hgf : g = f <;> by_cases hm : g ∈ fs <;> simp [hgf, hm]
  | setListTo fs v =>
    simp only [FlagOp.flags] at hf
    simp only [FlagSet.step, flagStep]
    induction fs generalizing s with
    | nil => exact ⟨s, rfl, fun g _ => by simp⟩
    | cons f fs ih =>
      obtain ⟨s1, e1, h1⟩ := setTo_ok s (hf f (by simp)) v
      obtain ⟨s2, e2, h2⟩ := ih s1 (fun f hf' => hf f (by simp [hf']))
      refine ⟨s2, by simp [setListTo, e1, Res.bind, e2], ?_⟩
      intro g hg
      rw [h2 g hg, h1 g hg]
      by_cases hgf : g = f <;> by_cases hm : g ∈ fs <;> simp [hgf, hm]
  | clearAll => exact ⟨_, rfl, fun g _ => by simp [clearAll, flag, flagStep]⟩

/-- **C13.** From the empty set, any history of calls with flags below the width never fails, and afterwards `get`,
`any()`, `any( flags )` and `count( flags )` agree with a set of flags that went through the same history. -/
theorem C13_flag_set_is_set_of_flags (ops : List FlagOp) (hf : ∀ op ∈ ops, ∀ f ∈ op.flags, f < w) :
    ∃ s : FlagSet w, (FlagSet.empty).run ops = .ok s ∧
      ∀ t, t = ops.foldl flagStep (fun _ => false) →
      (∀ g, g < w → s.get g = .ok (t g)) ∧
      (s.any = true ↔ ∃ g, g < w ∧ t g = true) ∧
      (∀ fs : List Nat, (∀ f ∈ fs, f < w) → s.anyOf fs = .ok (fs.any t)) ∧
      (∀ fs : List Nat, (∀ f ∈ fs, f < w) → s.count fs 0 = .ok (fs.countP t)) := by
  have gen : ∀ (ops : List FlagOp) (s : FlagSet w) (t : Nat → Bool), (∀ op ∈ ops, ∀ f ∈ op.flags, f < w) →
      (∀ g, g < w → s.flag g = t g) →
      ∃ s', s.run ops = .ok s' ∧ ∀ g, g < w → s'.flag g = ops.foldl flagStep t g := by
    intro ops
    induction ops with
    | nil => intro s t _ h; exact ⟨s, rfl, h⟩
    | cons op ops ih =>
      intro s t hf h
      obtain ⟨s1, e1, h1⟩ := C13_step s op (hf op (by simp))
      obtain ⟨s2, e2, h2⟩ := ih s1 (flagStep t op) (fun op hop => hf op (by simp [hop])) (by
        intro g hg
        rw [h1 g hg]
        cases op <;> simp only [flagStep] <;> (try split) <;> simp_all)
      exact ⟨s2, by simp [FlagSet.run, e1, Res.bind, e2], h2⟩
  obtain ⟨s, e, h⟩ := gen ops FlagSet.empty (fun _ => false) hf (fun g _ => by simp [FlagSet.empty, flag])
  refine ⟨s, e, ?_⟩
  rintro t rfl
  refine ⟨fun g hg => by rw [get_ok s hg, h g hg], ?_, ?_, ?_⟩
  · unfold FlagSet.any
    rw [bne_iff_ne]
    constructor
    · intro hne
      by_contra hc
      apply hne
      apply BitVec.eq_of_getLsbD_eq
      intro i hi
      have h1 := h i hi
      unfold flag at h1
      rw [h1, BitVec.getLsbD_zero]
      cases ht : List.foldl flagStep (fun _ => false) ops i with
      | false => rfl
      | true => exact absurd ⟨i, hi, ht⟩ hc
    · rintro ⟨g, hg, ht⟩ he
      have h1 := h g hg
      unfold flag at h1
      rw [ht, he] at h1
      simp at h1
  · intro fs hfs
    induction fs with
    | nil => rfl
    | cons f fs ih =>
      simp only [anyOf, get_ok s (hfs f (by simp)), Res.bind, h f (hfs f (by simp)), List.any_cons]
      rw [ih (fun f hf => hfs f (by simp [hf]))]
      cases List.foldl flagStep (fun _ => false) ops f <;> simp
  · intro fs hfs
    have : ∀ c, s.count fs c = .ok (c + fs.countP (ops.foldl flagStep (fun _ => false))) := by
      induction fs with
      | nil => intro c; rfl
      | cons f fs ih =>
        intro c
        simp only [FlagSet.count, get_ok s (hfs f (by simp)), Res.bind, h f (hfs f (by simp))]
        rw [ih (fun f hf => hfs f (by simp [hf])), List.countP_cons]
        cases List.foldl flagStep (fun _ => false) ops f <;> simp <;> omega
    rw [this 0, Nat.zero_add]

/-- A flag at or beyond the storage width is undefined behaviour. -/
theorem C13_flag_beyond_width (s : FlagSet w) (f : Nat) (hf : w ≤ f) : s.get f = .ub ∧ s.set f = .ub := by
  unfold FlagSet.get FlagSet.set storageBit
  rw [if_neg (by omega)]; exact ⟨rfl, rfl⟩

/-- A history with 64-bit storage that uses the highest flag. -/
example : ∀ op ∈ [FlagOp.set 63, .toggle 0, .setTo 5 true, .setList [1, 2, 1], .clear1 63, .setListTo [2] false],
    ∀ f ∈ op.flags, f < 64 := by decide

end Xo
