import Verif.Model.Range
import Mathlib.Tactic.Ring
import Mathlib.Tactic.FieldSimp
import Mathlib.Tactic.Linarith
import Mathlib.Data.Rat.Floor

/-!
C60: ranges.
-/
namespace Xo

namespace Spec

/-- `k` values from `b` on, `s` apart. -/
def arith {T : Type} [Add T] [Mul T] [NatCast T] (b s : T) (k : Nat) : List T :=
  (List.range k).map fun i : Nat => b + (i : T) * s

/-- A loop that ends: from some number of steps on its outcome is `r`. -/
def Ends {α : Type} (f : Nat → Option α) (r : α) : Prop := ∃ N, ∀ n, N ≤ n → f n = some r

/-- A loop that never ends. -/
def NeverEnds {α : Type} (f : Nat → Option α) : Prop := ∀ n, f n = none

end Spec
open Spec Range

variable {S : Type} [DecidableEq S]

theorem loop_ok (next : S → Res S) (fin : S) (k : Nat) (f : Nat → S)
    (hn : ∀ i, i < k → f i ≠ fin ∧ next (f i) = .ok (f (i + 1))) (hk : f k = fin) (n : Nat) (h : k < n) :
    loop next fin n (f 0) = some (.ok ((List.range k).map f)) := by
  induction k generalizing f n with
  | zero =>
    obtain ⟨m, rfl⟩ : ∃ m, n = m + 1 := ⟨n - 1, by omega⟩
    simp [loop, hk]
  | succ k ih =>
    obtain ⟨m, rfl⟩ : ∃ m, n = m + 1 := ⟨n - 1, by omega⟩
    have h0 := hn 0 (by omega)
    have := ih (fun i => f (i + 1)) (fun i hi => hn (i + 1) (by omega)) hk m (by omega)
    simp only [loop, h0.1, if_false, h0.2, Nat.zero_add] at this ⊢
    rw [this, List.range_succ_eq_map]
    simp [Res.bind, Function.comp_def]

theorem loop_ub (next : S → Res S) (fin : S) (k : Nat) (f : Nat → S)
    (hn : ∀ i, i < k → f i ≠ fin ∧ next (f i) = .ok (f (i + 1))) (hk : f k ≠ fin) (hu : next (f k) = .ub)
    (n : Nat) (h : k < n) : loop next fin n (f 0) = some .ub := by
  induction k generalizing f n with
  | zero =>
    obtain ⟨m, rfl⟩ : ∃ m, n = m + 1 := ⟨n - 1, by omega⟩
    simp [loop, hk, hu]
  | succ k ih =>
    obtain ⟨m, rfl⟩ : ∃ m, n = m + 1 := ⟨n - 1, by omega⟩
    have h0 := hn 0 (by omega)
    have := ih (fun i => f (i + 1)) (fun i hi => hn (i + 1) (by omega)) hk hu m (by omega)
    simp only [loop, h0.1, if_false, h0.2, Nat.zero_add] at this ⊢
    rw [this]; rfl

theorem loop_never (next : S → Res S) (fin : S) (f : Nat → S)
    (hn : ∀ i, f i ≠ fin ∧ next (f i) = .ok (f (i + 1))) (n : Nat) : loop next fin n (f 0) = none := by
  induction n generalizing f with
  | zero => rfl
  | succ n ih =>
    have := ih (fun i => f (i + 1)) (fun i => hn (i + 1))
    simp only [loop, (hn 0).1, if_false, (hn 0).2, Nat.zero_add] at this ⊢
    rw [this]; rfl

/-! ### Signed ranges -/

/-- **C60, stepped range, signed.** If the end is reached in `k` steps, exactly the `k` values before it are
visited, in order, for either direction. -/
theorem C60_step_signed (lo hi b s : Int) (k : Nat) (hb : lo ≤ b ∧ b ≤ hi) (he : lo ≤ b + k * s ∧ b + k * s ≤ hi)
    (hs : s ≠ 0) : Ends (fun n => irangeStepS lo hi n b (b + k * s) s) (.ok (arith b s k)) := by
  refine ⟨k + 1, fun n hn => ?_⟩
  have := loop_ok (addSigned lo hi s) (b + k * s) k (fun i : Nat => b + (i : Int) * s) ?_ rfl n hn
  · simpa [irangeStepS, arith] using this
  · intro i hi'
    refine ⟨?_, ?_⟩
    · intro h
      have : ((k : Int) - i) * s = 0 := by linarith
      rcases mul_eq_zero.1 this with h | h <;> omega
    · have e : b + (i : Int) * s + s = b + ((i + 1 : Nat) : Int) * s := by push_cast; ring
      have hi2 : ((i + 1 : Nat) : Int) ≤ k := by exact_mod_cast hi'
      have h0 : (0 : Int) ≤ ((i + 1 : Nat) : Int) := by positivity
      unfold addSigned
      rw [e, if_pos]
      rcases le_or_gt 0 s with h | h
      · have a1 : 0 ≤ ((i + 1 : Nat) : Int) * s := by positivity
        have a2 : ((i + 1 : Nat) : Int) * s ≤ k * s := by gcongr
        exact ⟨by linarith, by linarith⟩
      · have a1 : ((i + 1 : Nat) : Int) * s ≤ 0 := mul_nonpos_of_nonneg_of_nonpos h0 h.le
        have a2 : (k : Int) * s ≤ ((i + 1 : Nat) : Int) * s := mul_le_mul_of_nonpos_right hi2 h.le
        exact ⟨by linarith, by linarith⟩

/-- **C60, `irange`, signed.** `irange( b, e )` with `b ≤ e` visits `b`, `b + 1`, ..., `e - 1`. -/
theorem C60_irange_signed (lo hi b e : Int) (hb : lo ≤ b) (hbe : b ≤ e) (he : e ≤ hi) :
    Ends (fun n => irangeS lo hi n b e) (.ok (arith b 1 (e - b).toNat)) := by
  have hk : b + ((e - b).toNat : Int) * 1 = e := by omega
  have := C60_step_signed lo hi b 1 (e - b).toNat ⟨hb, by omega⟩ ⟨by omega, by omega⟩ (by omega)
  rw [hk] at this
  exact this

/-- A signed walk with a step other than zero that never meets the end runs into an overflow. -/
theorem signed_walk_ub (lo hi b e s : Int) (hb : lo ≤ b ∧ b ≤ hi) (hs : s ≠ 0)
    (hne : ∀ k : Nat, b + k * s ≠ e) : Ends (fun n => loop (addSigned lo hi s) e n b) .ub := by
  classical
  have hex : ∃ k : Nat, ¬(lo ≤ b + ((k + 1 : Nat) : Int) * s ∧ b + ((k + 1 : Nat) : Int) * s ≤ hi) := by
    refine ⟨(hi - lo).toNat, ?_⟩
    rintro ⟨h1, h2⟩
    have hk : ((((hi - lo).toNat + 1 : Nat)) : Int) = hi - lo + 1 := by omega
    rw [hk] at h1 h2
    rcases lt_or_gt_of_ne hs with h | h
    · nlinarith
    · nlinarith
  refine ⟨Nat.find hex + 1, fun n hn => ?_⟩
  have := loop_ub (addSigned lo hi s) e (Nat.find hex) (fun i : Nat => b + (i : Int) * s) ?_ (hne _) ?_ n hn
  · simpa using this
  · intro i hi'
    have hm := not_not.1 (Nat.find_min hex hi')
    refine ⟨hne i, ?_⟩
    have e : b + (i : Int) * s + s = b + ((i + 1 : Nat) : Int) * s := by push_cast; ring
    unfold addSigned
    rw [e, if_pos hm]
  · have hm := Nat.find_spec hex
    have e : b + ((Nat.find hex : Nat) : Int) * s + s = b + ((Nat.find hex + 1 : Nat) : Int) * s := by push_cast; ring
    unfold addSigned
    rw [e, if_neg hm]

/-- **C60 is violated, signed.** If the step does not lead to the end (the distance is no multiple of it, or it points
the other way), the walk runs through all larger (smaller) values into an integer overflow. -/
theorem C60_step_signed_violated (lo hi b e s : Int) (hb : lo ≤ b ∧ b ≤ hi) (hs : s ≠ 0)
    (hne : ∀ k : Nat, b + k * s ≠ e) : Ends (fun n => irangeStepS lo hi n b e s) .ub :=
  signed_walk_ub lo hi b e s hb hs hne

/-- A step of zero never ends. -/
theorem C60_step_zero_violated (lo hi b e : Int) (hb : lo ≤ b ∧ b ≤ hi) (hne : b ≠ e) :
    NeverEnds (fun n => irangeStepS lo hi n b e 0) := by
  intro n
  exact loop_never (addSigned lo hi 0) e (fun _ => b) (fun i => ⟨hne, by simp [addSigned, hb]⟩) n

/-- `irange( b, e )` with `b > e`, signed, is not empty: it overflows. -/
theorem C60_irange_reversed_violated (lo hi b e : Int) (hb : lo ≤ b ∧ b ≤ hi) (hbe : e < b) :
    Ends (fun n => irangeS lo hi n b e) .ub :=
  signed_walk_ub lo hi b e 1 hb (by omega) (fun k => by omega)

/-! ### Unsigned ranges -/

theorem bv_add_ofNat_mul {w : Nat} (b s : BitVec w) (i : Nat) :
    b + BitVec.ofNat w i * s + s = b + BitVec.ofNat w (i + 1) * s := by
  apply BitVec.eq_of_toNat_eq
  simp only [BitVec.toNat_add, BitVec.toNat_mul, BitVec.toNat_ofNat, Nat.mod_mul_mod, Nat.add_mod_mod,
    Nat.mod_add_mod]
  congr 1
  ring

/-- `k` values from `b` on, `s` apart, with wrap-around. -/
def Spec.arithU {w : Nat} (b s : BitVec w) (k : Nat) : List (BitVec w) :=
  (List.range k).map fun i => b + BitVec.ofNat w i * s

/-- **C60, stepped range, unsigned.** If `k` is the least number of steps that leads to the end, exactly the `k`
values before it are visited, in order. -/
theorem C60_step_unsigned {w : Nat} (b e s : BitVec w) (k : Nat) (hk : b + BitVec.ofNat w k * s = e)
    (hmin : ∀ i, i < k → b + BitVec.ofNat w i * s ≠ e) :
    Ends (fun n => irangeStepU n b e s) (.ok (arithU b s k)) := by
  refine ⟨k + 1, fun n hn => ?_⟩
  have := loop_ok (fun v => Res.ok (v + s)) e k (fun i => b + BitVec.ofNat w i * s)
    (fun i hi => ⟨hmin i hi, by rw [bv_add_ofNat_mul]⟩) hk n hn
  have h0 : b + BitVec.ofNat w 0 * s = b := by simp
  rw [h0] at this
  exact this

/-- **C60 is violated, unsigned.** If no number of steps leads to the end, the loop never ends. -/
theorem C60_step_unsigned_never {w : Nat} (b e s : BitVec w) (hne : ∀ k : Nat, b + BitVec.ofNat w k * s ≠ e) :
    NeverEnds (fun n => irangeStepU n b e s) := by
  intro n
  have := loop_never (fun v => Res.ok (v + s)) e (fun i => b + BitVec.ofNat w i * s)
    (fun i => ⟨hne i, by rw [bv_add_ofNat_mul]⟩) n
  have h0 : b + BitVec.ofNat w 0 * s = b := by simp
  rw [h0] at this
  exact this

/-- In particular for every even step and odd distance. -/
theorem C60_even_step_violated {w : Nat} (b e s : BitVec (w + 1)) (hs : s.toNat % 2 = 0)
    (hd : (b.toNat + e.toNat) % 2 = 1) : NeverEnds (fun n => irangeStepU n b e s) := by
  apply C60_step_unsigned_never
  intro k h
  have := congrArg (fun x => x.toNat % 2) h
  simp only [BitVec.toNat_add, BitVec.toNat_mul, BitVec.toNat_ofNat] at this
  have h2 : 2 ∣ 2 ^ (w + 1) := ⟨2 ^ w, by ring⟩
  rw [Nat.mod_mod_of_dvd _ h2, Nat.add_mod, Nat.mod_mod_of_dvd _ h2, Nat.mul_mod, hs] at this
  simp at this
  omega

/-- An unsigned stepped range whose step divides the distance is exact and does not wrap. -/
theorem C60_step_unsigned_exact {w : Nat} (b s : BitVec w) (k : Nat) (hs : 0 < s.toNat)
    (hk : b.toNat + k * s.toNat < 2 ^ w) :
    Ends (fun n => irangeStepU n b (BitVec.ofNat w (b.toNat + k * s.toNat)) s) (.ok (arithU b s k)) ∧
    (arithU b s k).map BitVec.toNat = arith b.toNat s.toNat k := by
  have val : ∀ i, i ≤ k → (b + BitVec.ofNat w i * s).toNat = b.toNat + i * s.toNat := by
    intro i hi
    have : i * s.toNat ≤ k * s.toNat := Nat.mul_le_mul_right _ hi
    simp only [BitVec.toNat_add, BitVec.toNat_mul, BitVec.toNat_ofNat, Nat.mod_mul_mod, Nat.add_mod_mod]
    exact Nat.mod_eq_of_lt (by omega)
  constructor
  · apply C60_step_unsigned
    · apply BitVec.eq_of_toNat_eq
      rw [val k le_rfl, BitVec.toNat_ofNat, Nat.mod_eq_of_lt hk]
    · intro i hi h
      have := congrArg BitVec.toNat h
      rw [val i hi.le, BitVec.toNat_ofNat, Nat.mod_eq_of_lt hk] at this
      have : i * s.toNat < k * s.toNat := Nat.mul_lt_mul_of_pos_right hi hs
      omega
  · unfold arithU arith
    rw [List.map_map]
    apply List.map_congr_left
    intro i hi
    simpa using val i (List.mem_range.1 hi).le

theorem irangeU_eq {w : Nat} (n : Nat) (b e : BitVec w) : irangeU n b e = irangeStepU n b e 1#w := rfl

/-- **C60, `irange`, unsigned.** For all `b` and `e` exactly `e - b` values are visited, counted with wrap-around. -/
theorem C60_irange_unsigned {w : Nat} (b e : BitVec w) :
    Ends (fun n => irangeU n b e) (.ok (arithU b 1#w (e - b).toNat)) := by
  simp only [irangeU_eq]
  have h1 : ∀ i, BitVec.ofNat w i * 1#w = BitVec.ofNat w i := fun i => BitVec.mul_one _
  apply C60_step_unsigned
  · rw [h1, BitVec.ofNat_toNat, BitVec.setWidth_eq, BitVec.add_comm, BitVec.sub_add_cancel]
  · intro i hi h
    rw [h1] at h
    have : BitVec.ofNat w i = e - b := by rw [← h, BitVec.add_comm, BitVec.add_sub_cancel]
    have := congrArg BitVec.toNat this
    rw [BitVec.toNat_ofNat, Nat.mod_eq_of_lt (lt_trans hi (BitVec.isLt _))] at this
    omega

/-- With `b ≤ e` these are `b`, `b + 1`, ..., `e - 1`. -/
theorem C60_irange_unsigned_exact {w : Nat} (b e : BitVec w) (h : b.toNat ≤ e.toNat) :
    ∃ l : List (BitVec w), Ends (fun n => irangeU n b e) (.ok l) ∧
      l.map BitVec.toNat = arith b.toNat 1 (e.toNat - b.toNat) := by
  have hl : (e - b).toNat = e.toNat - b.toNat := BitVec.toNat_sub_of_le h
  refine ⟨_, C60_irange_unsigned b e, ?_⟩
  rw [hl]
  unfold arithU arith
  rw [List.map_map]
  apply List.map_congr_left
  intro i hi
  have hi := List.mem_range.1 hi
  have he := e.isLt
  simp only [Function.comp, BitVec.mul_one, BitVec.toNat_add, BitVec.toNat_ofNat, Nat.add_mod_mod, Nat.cast_id,
    Nat.mul_one]
  exact Nat.mod_eq_of_lt (by omega)

/-- **C60 is violated for `b > e`, unsigned.** The range is not empty: it wraps around through zero. -/
theorem C60_irange_unsigned_reversed_violated {w : Nat} (b e : BitVec w) (h : e.toNat < b.toNat) :
    ∃ l : List (BitVec w), Ends (fun n => irangeU n b e) (.ok l) ∧ l.length = 2 ^ w - b.toNat + e.toNat ∧ l ≠ [] ∧
      (e ≠ 0#w → 0#w ∈ l) := by
  have hb := b.isLt
  have hl : (e - b).toNat = 2 ^ w - b.toNat + e.toNat := by
    rw [BitVec.toNat_sub, Nat.mod_eq_of_lt (by omega)]
  refine ⟨_, C60_irange_unsigned b e, by simp [arithU, hl], ?_, fun he => ?_⟩
  · intro h0
    have := congrArg List.length h0
    simp only [arithU, List.length_map, List.length_range, hl, List.length_nil] at this
    omega
  · have he0 : 0 < e.toNat := by
      rcases Nat.eq_zero_or_pos e.toNat with h0 | h0
      · exact absurd (BitVec.eq_of_toNat_eq (by simpa using h0)) he
      · exact h0
    unfold arithU
    rw [List.mem_map]
    refine ⟨2 ^ w - b.toNat, List.mem_range.2 (by omega), ?_⟩
    apply BitVec.eq_of_toNat_eq
    simp only [BitVec.mul_one, BitVec.toNat_add, BitVec.toNat_ofNat, Nat.add_mod_mod]
    rw [show b.toNat + (2 ^ w - b.toNat) = 2 ^ w by omega]
    simp

/-- `it++` of a stepped range gives the old value. -/
theorem C60_post_increment {w : Nat} (v s : BitVec w) : stepPostIncU v s = (v + s, v) := by
  simp [stepPostIncU, BitVec.add_sub_cancel]

/-- `size_range( c )` visits every index of `c` once, in order. -/
theorem C60_size_range {w : Nat} (size : BitVec w) :
    ∃ l : List (BitVec w), Ends (fun n => sizeRange n size) (.ok l) ∧ l.map BitVec.toNat = List.range size.toNat := by
  obtain ⟨l, h1, h2⟩ := C60_irange_unsigned_exact 0#w size (by simp)
  refine ⟨l, h1, ?_⟩
  rw [h2]
  simp [arith]

/-! ### Floating-point ranges -/

theorem frange_steps (r : FRange) (m : Nat) (hm : r.maxStep = m) :
    Ends (fun n => r.steps n) (.ok ((List.range (m + 1)).map fun i : Nat => (i : Rat))) := by
  refine ⟨m + 2, fun n hn => ?_⟩
  have := loop_ok (fun v => Res.ok (v + 1)) ((r.maxStep : Rat) + 1) (m + 1) (fun i : Nat => (i : Rat)) ?_ ?_ n hn
  · simpa [FRange.steps] using this
  · intro i hi
    refine ⟨?_, by push_cast; rfl⟩
    rw [hm]
    intro h
    have : i = m + 1 := by exact_mod_cast h
    omega
  · rw [hm]; push_cast; rfl

/-- **C60, `frange`.** With `m ≥ 1` steps the values visited are the `m + 1` values from `min` to `max`, evenly
spaced; the first is `min`, the last `max`. -/
theorem C60_frange (r : FRange) (m : Nat) (hm : r.maxStep = m) (h1 : 1 ≤ m) :
    Ends (fun n => r.visit n)
      (.ok ((arith r.min ((r.max - r.min) / m) (m + 1)).map some)) ∧
    (arith r.min ((r.max - r.min) / m) (m + 1)).head? = some r.min ∧
    (arith r.min ((r.max - r.min) / m) (m + 1)).getLast? = some r.max := by
  have hm0 : (m : Rat) ≠ 0 := by positivity
  refine ⟨?_, ?_, ?_⟩
  · obtain ⟨N, hN⟩ := frange_steps r m hm
    refine ⟨N, fun n hn => ?_⟩
    simp only [FRange.visit]
    have := hN n hn
    simp only at this
    rw [this]
    simp only [Option.map_some, Res.bind, arith, List.map_map]
    congr 2
    apply List.map_congr_left
    intro i _
    have : r.maxStep ≠ 0 := by omega
    simp only [Function.comp, FRange.value, if_neg this]
    rw [hm]
    congr 1
    push_cast
    ring
  · simp [arith, List.range_succ_eq_map]
  · simp only [arith, List.range_succ, List.map_append, List.map_singleton, List.getLast?_concat]
    congr 1
    field_simp
    ring

theorem round_nat (k : Nat) : Range.round (k : Rat) = k := by
  unfold Range.round
  rw [if_pos (by positivity)]
  have : ((k : Rat) + 1 / 2).floor = ⌊(k : Rat) + 1 / 2⌋ := rfl
  rw [this, Int.floor_eq_iff]
  constructor <;> push_cast <;> linarith

/-- If the increment divides the length, these are `lower`, `lower + increment`, ..., `upper`. -/
theorem C60_frange_increment (lower increment : Rat) (k : Nat) (hk : 1 ≤ k) (hi : increment ≠ 0) :
    Ends (fun n => (FRange.ofIncrement lower (lower + k * increment) increment).visit n)
      (.ok ((arith lower increment (k + 1)).map some)) := by
  have e : (lower + k * increment - lower) / increment = (k : Rat) := by field_simp; ring
  have hk0 : (k : Rat) ≠ 0 := by positivity
  have := (C60_frange (FRange.ofIncrement lower (lower + k * increment) increment) k
    (by simp only [FRange.ofIncrement]; rw [e, round_nat]) hk).1
  have e2 : (lower + k * increment - lower) / (k : Rat) = increment := by field_simp; ring
  simp only [FRange.ofIncrement] at this ⊢
  rw [e2] at this
  exact this

/-- **C60 is violated for `size()`.** Whenever it is defined it is one less than the number of values visited. -/
theorem C60_frange_size_violated (r : FRange) (h : 0 ≤ r.maxStep) :
    ∃ l k, Ends (fun n => r.visit n) (.ok l) ∧ r.size = .ok k ∧ l.length = k + 1 := by
  obtain ⟨m, hm⟩ := Int.eq_ofNat_of_zero_le h
  obtain ⟨N, hN⟩ := frange_steps r m hm
  refine ⟨(((List.range (m + 1)).map fun i : Nat => (i : Rat))).map r.value, m, ⟨N, fun n hn => ?_⟩, ?_, by simp⟩
  · have := hN n hn
    simp only at this
    simp [FRange.visit, this, Res.bind]
  · simp [FRange.size, hm]

/-- A range of one step visits one value, and that is not a number. -/
theorem C60_frange_one_step_violated (lower upper : Rat) :
    Ends (fun n => (FRange.ofSteps lower upper 1).visit n) (.ok [none]) := by
  obtain ⟨N, hN⟩ := frange_steps (FRange.ofSteps lower upper 1) 0 rfl
  refine ⟨N, fun n hn => ?_⟩
  have := hN n hn
  simp only at this
  simp only [FRange.visit, this]
  rfl

/-- A range of less than zero steps (an increment that points the other way) never ends. -/
theorem C60_frange_negative_violated (r : FRange) (h : r.maxStep < -1) : NeverEnds (fun n => r.visit n) := by
  intro n
  have := loop_never (fun v => Res.ok (v + 1)) ((r.maxStep : Rat) + 1) (fun i : Nat => (i : Rat))
    (fun i => ⟨fun e => ?_, by push_cast; rfl⟩) n
  · simp only [FRange.visit, FRange.steps]
    simp only [Nat.cast_zero] at this
    rw [this]; rfl
  · have : (i : Int) = r.maxStep + 1 := by exact_mod_cast e
    omega

/-- `it++` does not give the old step or value: always `max_step_ - 1`. -/
theorem C60_frange_post_increment (r : FRange) (step : Rat) : (r.postInc step).2 = r.maxStep - 1 := rfl

/-- Non-vacuity. -/
example : arith (2 : Int) 3 4 = [2, 5, 8, 11] := by decide
example : irangeStepS (-128) 127 10 2 14 3 = some (.ok [2, 5, 8, 11]) := by decide +kernel
example : irangeStepS (-128) 127 10 2 (-7) (-3) = some (.ok [2, -1, -4]) := by decide +kernel
example : irangeStepS (-128) 127 100 2 13 3 = some .ub := by decide +kernel
example : irangeU 10 250#8 3#8 = some (.ok [250#8, 251#8, 252#8, 253#8, 254#8, 255#8, 0#8, 1#8, 2#8]) := by
  decide +kernel
example : (FRange.ofSteps 0 1 5).visit 10 = some (.ok [some 0, some (1/4), some (1/2), some (3/4), some 1]) := by
  decide +kernel
example : (FRange.ofIncrement 1 0 (1/4)).maxStep < -1 := by decide +kernel

end Xo
