import Verif.Model.Mt
import Verif.Props.C138_RandomRounding
import Mathlib.Data.Fintype.EquivFin
import Mathlib.Data.List.GetD
import Mathlib.Order.Interval.Finset.Nat

/-!
C140: the generator for accurate random numbers (`std::mt19937`).
-/
namespace Xo
namespace Mt
open Ieee (Engine)

/-- The `i`-th value that a generator with the given seed draws, counted from zero. -/
def Spec.value (s : Nat) (i : Nat) : Nat := (draw ((fun x => (draw x).2)^[i] (seedState s))).1
open Spec

/-! ## Bits -/

theorem shr_inj {k : Nat} (hk : 0 < k) {x y : Word} (h : x ^^^ (x >>> k) = y ^^^ (y >>> k)) : x = y := by
  have hb : ∀ n i, 32 - i ≤ n → x.getLsbD i = y.getLsbD i := by
    intro n
    induction n with
    | zero => intro i hi; rw [BitVec.getLsbD_of_ge x i (by omega), BitVec.getLsbD_of_ge y i (by omega)]
    | succ n ih =>
      intro i hi
      by_cases h32 : 32 ≤ i
      · rw [BitVec.getLsbD_of_ge x i h32, BitVec.getLsbD_of_ge y i h32]
      have h1 := congrArg (fun z : Word => z.getLsbD i) h
      simp only [BitVec.getLsbD_xor, BitVec.getLsbD_ushiftRight] at h1
      rw [ih (k + i) (by omega)] at h1
      revert h1
      cases x.getLsbD i <;> cases y.getLsbD i <;> cases y.getLsbD (k + i) <;> simp
  exact BitVec.eq_of_getLsbD_eq fun i _ => hb 32 i (by omega)

theorem shl_inj {k : Nat} (hk : 0 < k) {m x y : Word} (h : x ^^^ ((x <<< k) &&& m) = y ^^^ ((y <<< k) &&& m)) : x = y := by
  have hb : ∀ n i, i < n → x.getLsbD i = y.getLsbD i := by
    intro n
    induction n with
    | zero => intro i hi; omega
    | succ n ih =>
      intro i hi
      have h1 := congrArg (fun z : Word => z.getLsbD i) h
      simp only [BitVec.getLsbD_xor, BitVec.getLsbD_and, BitVec.getLsbD_shiftLeft] at h1
      by_cases hik : i < k
      · simpa [hik] using h1
      · rw [ih (i - k) (by omega)] at h1
        revert h1
        cases x.getLsbD i <;> cases y.getLsbD i <;>
          cases (decide (i < 32) && !decide (i < k) && y.getLsbD (i - k) && m.getLsbD i) <;> simp
  exact BitVec.eq_of_getLsbD_eq fun i hi => hb 32 i hi

theorem temper_inj {x y : Word} (h : temper x = temper y) : x = y :=
  shr_inj (k := 11) (by decide) (shl_inj (k := 7) (by decide) (shl_inj (k := 15) (by decide) (shr_inj (k := 18) (by decide) h)))

/-- The upper bit of the first word and the lower bits of the second one can be read off. -/
theorem twist_inj {x y x' y' : Word} (h : twist x y = twist x' y') :
    x.getLsbD 31 = x'.getLsbD 31 ∧ ∀ i, i < 31 → y.getLsbD i = y'.getLsbD i := by
  have hz : ∀ (x y : Word) (i : Nat), ((x &&& 0x80000000#32) ||| (y &&& 0x7fffffff#32)).getLsbD i =
      if i = 31 then x.getLsbD 31 else if i < 31 then y.getLsbD i else false := by
    intro x y i
    simp only [BitVec.getLsbD_or, BitVec.getLsbD_and]
    by_cases h32 : 32 ≤ i
    · rw [BitVec.getLsbD_of_ge x i h32, BitVec.getLsbD_of_ge y i h32, if_neg (by omega), if_neg (by omega)]; rfl
    · have : ∀ j : Fin 32, (0x80000000#32).getLsbD j = decide (j.val = 31) ∧ (0x7fffffff#32).getLsbD j = decide (j.val < 31) := by decide
      have := this ⟨i, by omega⟩
      simp only at this
      rw [this.1, this.2]
      by_cases h31 : i = 31
      · subst h31; simp
      · have : i < 31 := by omega
        simp [h31, this]
  have ht : ∀ (x y : Word) (i : Nat), (twist x y).getLsbD i =
      (((x &&& 0x80000000#32) ||| (y &&& 0x7fffffff#32)).getLsbD (1 + i) ^^
        (((x &&& 0x80000000#32) ||| (y &&& 0x7fffffff#32)).getLsbD 0 && (0x9908b0df#32).getLsbD i)) := by
    intro x y i
    unfold twist
    simp only [BitVec.getLsbD_xor, BitVec.getLsbD_ushiftRight]
    split
    · next h => rw [h]; rfl
    · next h => rw [Bool.not_eq_true] at h; rw [h]; simp
  generalize hu : ((x &&& 0x80000000#32) ||| (y &&& 0x7fffffff#32)) = u at *
  generalize hv : ((x' &&& 0x80000000#32) ||| (y' &&& 0x7fffffff#32)) = v at *
  have htu : ∀ i, (twist x y).getLsbD i = (u.getLsbD (1 + i) ^^ (u.getLsbD 0 && (0x9908b0df#32).getLsbD i)) := fun i => by
    rw [ht, hu]
  have htv : ∀ i, (twist x' y').getLsbD i = (v.getLsbD (1 + i) ^^ (v.getLsbD 0 && (0x9908b0df#32).getLsbD i)) := fun i => by
    rw [ht, hv]
  have h0 : u.getLsbD 0 = v.getLsbD 0 := by
    have h0 := htu 31
    rw [h, htv 31, BitVec.getLsbD_of_ge u (1 + 31) (by omega), BitVec.getLsbD_of_ge v (1 + 31) (by omega)] at h0
    have e0 : (0x9908b0df#32).getLsbD 31 = true := by decide
    rw [e0] at h0
    simpa using h0.symm
  have huv : ∀ i, u.getLsbD i = v.getLsbD i := by
    intro i
    cases i with
    | zero => exact h0
    | succ i =>
      have h1 := htu i
      rw [h, htv i, h0, Nat.add_comm 1 i] at h1
      revert h1
      cases u.getLsbD (i + 1) <;> cases v.getLsbD (i + 1) <;> cases (v.getLsbD 0 && (0x9908b0df#32).getLsbD i) <;> simp
  constructor
  · have := huv 31
    rw [← hu, ← hv, hz, hz] at this
    simpa using this
  · intro i hi
    have := huv i
    rw [← hu, ← hv, hz, hz, if_neg (by omega), if_pos hi, if_neg (by omega), if_pos hi] at this
    exact this

theorem seedNext_inj {x y : Word} {i : Nat} (h : seedNext x i = seedNext y i) : x = y := by
  unfold seedNext at h
  have h1 : 1812433253#32 * (x ^^^ (x >>> 30)) = 1812433253#32 * (y ^^^ (y >>> 30)) := by
    have := congrArg (fun z : Word => z - BitVec.ofNat 32 i) h
    simpa using this
  have h2 := congrArg (fun z : Word => 2520285293#32 * z) h1
  simp only [← BitVec.mul_assoc] at h2
  have e : 2520285293#32 * 1812433253#32 = 1#32 := by decide
  rw [e] at h2
  have e1 : ∀ z : Word, 1#32 * z = z := fun z => BitVec.one_mul z
  rw [e1, e1] at h2
  exact shr_inj (by decide) h2

/-! ## The words -/

/-- The state after `n` draws. -/
def after (s : List Word) (n : Nat) : List Word := (fun x => (draw x).2)^[n] s

theorem after_succ (s : List Word) (n : Nat) : after s (n + 1) = (after s n).tail ++ [newWord (after s n)] :=
  Function.iterate_succ_apply' _ _ _

theorem after_length {s : List Word} (h : s.length = 624) (n : Nat) : (after s n).length = 624 := by
  induction n with
  | zero => exact h
  | succ n ih => rw [after_succ]; simp [ih]

/-- The words in the order in which they leave the state. -/
def word (s : List Word) (n : Nat) : Word := (after s n).getD 0 0

theorem after_getD {s : List Word} (h : s.length = 624) (i : Nat) : ∀ n, i < 624 → (after s n).getD i 0 = word s (n + i) := by
  induction i with
  | zero => intro n _; rfl
  | succ i ih =>
    intro n hi
    have h1 := ih (n + 1) (by omega)
    rw [after_succ, List.getD_append _ _ _ _ (by simp [after_length h]; omega)] at h1
    rw [show n + (i + 1) = n + 1 + i by omega, ← h1]
    cases after s n <;> simp

theorem word_new {s : List Word} (h : s.length = 624) (n : Nat) : word s (n + 624) = newWord (after s n) := by
  rw [show n + 624 = n + 1 + 623 by omega, ← after_getD h 623 (n + 1) (by omega), after_succ,
    List.getD_append_right _ _ _ _ (by simp [after_length h])]
  simp [after_length h]

theorem word_rec {s : List Word} (h : s.length = 624) (n : Nat) :
    word s (n + 624) = word s (n + 397) ^^^ twist (word s n) (word s (n + 1)) := by
  rw [word_new h]
  unfold newWord
  rw [after_getD h 397 n (by omega), after_getD h 0 n (by omega), after_getD h 1 n (by omega)]
  rfl

theorem xor_cancel {a b c : Word} (h : a ^^^ b = a ^^^ c) : b = c := by
  have := congrArg (fun z => a ^^^ z) h
  simpa [← BitVec.xor_assoc] using this

/-- Two states whose words agree over a window agree on all words but the oldest one. -/
theorem words_back {s t : List Word} (hs : s.length = 624) (ht : t.length = 624) (k : Nat) :
    (∀ i, i < 624 → word s (k + 1 + i) = word t (k + 1 + i)) → ∀ j, 1 ≤ j → j ≤ k + 624 → word s j = word t j := by
  induction k with
  | zero =>
    intro h j h1 h2
    have := h (j - 1) (by omega)
    rwa [show 0 + 1 + (j - 1) = j by omega] at this
  | succ k ih =>
    intro h
    have hk : word s (k + 1) = word t (k + 1) := by
      have a1 := h 623 (by omega)
      have a2 := h 396 (by omega)
      rw [show k + 1 + 1 + 623 = k + 1 + 624 by omega, word_rec hs, word_rec ht] at a1
      rw [show k + 1 + 1 + 396 = k + 1 + 397 by omega] at a2
      rw [a2] at a1
      have b1 := (twist_inj (xor_cancel a1)).1
      have a3 := h 622 (by omega)
      have a4 := h 395 (by omega)
      rw [show k + 1 + 1 + 622 = k + 624 by omega, word_rec hs, word_rec ht] at a3
      rw [show k + 1 + 1 + 395 = k + 397 by omega] at a4
      rw [a4] at a3
      have b2 := (twist_inj (xor_cancel a3)).2
      refine BitVec.eq_of_getLsbD_eq fun i hi => ?_
      by_cases h31 : i = 31
      · rw [h31]; exact b1
      · exact b2 i (by omega)
    intro j h1 h2
    by_cases hj : j = k + 1 + 624
    · have := h 623 (by omega)
      rwa [show k + 1 + 1 + 623 = j by omega] at this
    · refine ih (fun i hi => ?_) j h1 (by omega)
      cases i with
      | zero => exact hk
      | succ i =>
        have := h i (by omega)
        rwa [show k + 1 + 1 + i = k + 1 + (i + 1) by omega] at this

theorem words_forward {s t : List Word} (hs : s.length = 624) (ht : t.length = 624) (k : Nat)
    (h : ∀ i, i < 624 → word s (k + i) = word t (k + i)) (i : Nat) : word s (k + i) = word t (k + i) := by
  induction i using Nat.strong_induction_on with
  | _ i ih =>
    by_cases hi : i < 624
    · exact h i hi
    · have e : k + i = k + (i - 624) + 624 := by omega
      rw [e, word_rec hs, word_rec ht]
      have e1 : k + (i - 624) + 397 = k + (i - 624 + 397) := by omega
      have e2 : k + (i - 624) + 1 = k + (i - 624 + 1) := by omega
      rw [e1, e2, ih _ (by omega), ih _ (by omega), ih _ (by omega)]

theorem seedWords_length (n : Nat) : ∀ x i, (seedWords n x i).length = n := by
  induction n with
  | zero => intros; rfl
  | succ n ih => intro x i; simp [seedWords, ih]

theorem seedState_length (s : Nat) : (seedState s).length = 624 := by simp [seedState, seedWords_length]

theorem seed_words (s : Nat) : word (seedState s) 0 = BitVec.ofNat 32 s ∧ word (seedState s) 1 = seedNext (BitVec.ofNat 32 s) 1 ∧
    word (seedState s) 2 = seedNext (seedNext (BitVec.ofNat 32 s) 1) 2 := by
  refine ⟨rfl, ?_, ?_⟩
  · rw [show 1 = 0 + 1 from rfl, ← after_getD (seedState_length s) 1 0 (by omega)]; rfl
  · rw [show 2 = 0 + 2 from rfl, ← after_getD (seedState_length s) 2 0 (by omega)]; rfl

/-- The `i`-th value drawn from a state. -/
def drawn (s : List Word) (i : Nat) : Nat := (draw (after s i)).1

theorem drawn_word {s : List Word} (h : s.length = 624) (i : Nat) : drawn s i = (temper (word s (i + 624))).toNat := by
  rw [word_new h]; rfl

theorem drawn_eq {s t : List Word} (hs : s.length = 624) (ht : t.length = 624) (i : Nat) :
    drawn s i = drawn t i ↔ word s (i + 624) = word t (i + 624) := by
  rw [drawn_word hs, drawn_word ht]
  exact ⟨fun h => temper_inj (BitVec.eq_of_toNat_eq h), fun h => by rw [h]⟩

/-! ## The generator -/

/-- **C140, 624 numbers tell everything.** Two generators in any states that draw the same 624 numbers in a row draw the same
numbers all the time, before and afterwards. -/
theorem C140_determined {s t : List Word} (hs : s.length = 624) (ht : t.length = 624) (n : Nat)
    (h : ∀ i, i < 624 → drawn s (n + i) = drawn t (n + i)) (i : Nat) : drawn s i = drawn t i := by
  rw [drawn_eq hs ht]
  have hw : ∀ i, i < 624 → word s (n + 624 + i) = word t (n + 624 + i) := fun i hi => by
    have := (drawn_eq hs ht _).1 (h i hi)
    rwa [show n + i + 624 = n + 624 + i by omega] at this
  by_cases hi : n ≤ i
  · have := words_forward hs ht _ hw (i - n)
    rwa [show n + 624 + (i - n) = i + 624 by omega] at this
  · refine words_back hs ht (n + 623) (fun i hi => ?_) (i + 624) (by omega) (by omega)
    exact hw i hi

/-- **C140, seeds.** Generators with different seeds never come into step: in any 624 draws in a row, at the same point of both
sequences, some number differs. -/
theorem C140_seeds {s t : Nat} (hs : s < 2 ^ 32) (ht : t < 2 ^ 32) (hne : s ≠ t) (n : Nat) :
    ∃ i, i < 624 ∧ value s (n + i) ≠ value t (n + i) := by
  by_contra hc
  push Not at hc
  have ls := seedState_length s
  have lt := seedState_length t
  have h1 : word (seedState s) 1 = word (seedState t) 1 := by
    refine words_back ls lt (n + 623) (fun i hi => ?_) 1 (by omega) (by omega)
    have := (drawn_eq ls lt (n + i)).1 (hc i hi)
    rwa [show n + i + 624 = n + 623 + 1 + i by omega] at this
  rw [(seed_words s).2.1, (seed_words t).2.1] at h1
  have h2 := congrArg BitVec.toNat (seedNext_inj h1)
  simp only [BitVec.toNat_ofNat] at h2
  omega

/-- **C140, not stuck.** In any 625 draws in a row there are two different numbers. -/
theorem C140_varied (s n : Nat) : ∃ i j, i < 625 ∧ j < 625 ∧ value s (n + i) ≠ value s (n + j) := by
  by_contra hc
  push Not at hc
  have ls := seedState_length s
  have hw : ∀ i, i < 625 → word (seedState s) (n + i + 624) = word (seedState s) (n + 624) := fun i hi => by
    have h1 : drawn (seedState s) (n + i) = drawn (seedState s) n := hc i 0 hi (by omega)
    rw [drawn_word ls, drawn_word ls] at h1
    exact temper_inj (BitVec.eq_of_toNat_eq h1)
  have hr := word_rec ls (n + 624)
  have e0 := hw 624 (by omega)
  have e1 := hw 397 (by omega)
  have e2 := hw 1 (by omega)
  rw [show n + 397 + 624 = n + 624 + 397 by omega] at e1
  rw [show n + 1 + 624 = n + 624 + 1 by omega] at e2
  rw [e0, e1, e2] at hr
  generalize hc' : word (seedState s) (n + 624) = c at *
  have ht : twist c c = twist 0#32 0#32 := by
    have h1 : c ^^^ 0#32 = c ^^^ twist c c := by rw [BitVec.xor_zero]; exact hr
    rw [← xor_cancel h1]; decide
  have c0 : c = 0#32 := by
    obtain ⟨b1, b2⟩ := twist_inj ht
    refine BitVec.eq_of_getLsbD_eq fun i hi => ?_
    by_cases h31 : i = 31
    · rw [h31]; exact b1
    · exact b2 i (by omega)
  have lz : (List.replicate 624 (0#32)).length = 624 := List.length_replicate
  have hz : ∀ k, after (List.replicate 624 (0#32)) k = List.replicate 624 0#32 := by
    intro k
    induction k with
    | zero => rfl
    | succ k ih => rw [after_succ, ih]; decide +kernel
  have wz : ∀ k, word (List.replicate 624 (0#32)) k = 0#32 := fun k => by unfold word; rw [hz]; rfl
  have hb := words_back ls lz (n + 623) (fun i hi => by
    rw [wz, show n + 623 + 1 + i = n + i + 624 by omega, hw i (by omega), c0])
  have w1 := hb 1 (by omega) (by omega)
  have w2 := hb 2 (by omega) (by omega)
  rw [wz, (seed_words s).2.1] at w1
  rw [wz, (seed_words s).2.2, w1] at w2
  exact absurd w2 (by decide)

/-- **C140, values.** All numbers are below 2^32, and each of these is the next number of some state. -/
theorem C140_values :
    (∀ s : List Word, (draw s).1 < 2 ^ 32) ∧ ∀ v, v < 2 ^ 32 → ∃ s : List Word, s.length = 624 ∧ (draw s).1 = v := by
  refine ⟨fun s => BitVec.isLt _, fun v hv => ?_⟩
  have hi : Function.Injective (fun x : Fin (2 ^ 32) => (temper (BitVec.ofFin x)).toFin) := fun x y h => by
    have := temper_inj (BitVec.eq_of_toFin_eq h)
    exact congrArg BitVec.toFin this
  obtain ⟨w, hw⟩ := (Finite.injective_iff_surjective.1 hi) ⟨v, hv⟩
  refine ⟨List.replicate 397 0 ++ (BitVec.ofFin w) :: List.replicate 226 0, ?_, ?_⟩
  · rw [List.length_append, List.length_cons, List.length_replicate, List.length_replicate]
  have hn : newWord (List.replicate 397 0 ++ (BitVec.ofFin w) :: List.replicate 226 0) = BitVec.ofFin w := by
    unfold newWord
    rw [List.getD_append_right _ _ _ _ (List.length_replicate.le), List.getD_append _ _ _ _ (by rw [List.length_replicate]; decide),
      List.getD_append _ _ _ _ (by rw [List.length_replicate]; decide)]
    simp only [List.length_replicate, Nat.sub_self, List.getD_cons_zero]
    have : twist ((List.replicate 397 (0 : Word)).getD 0 0) ((List.replicate 397 (0 : Word)).getD 1 0) = 0#32 := by decide
    rw [this, BitVec.xor_zero]
  show (temper (newWord _)).toNat = v
  rw [hn]
  exact congrArg Fin.val hw

theorem run_append (s : List Word) (a b : List Op) :
    run s (a ++ b) = run s a ++ run (a.foldl (fun x op => (step x op).2) s) b := by
  induction a generalizing s with
  | nil => rfl
  | cons op a ih => simp only [List.cons_append, run, ih, List.append_assoc, List.foldl_cons]

/-- **C140, seeding.** After `seed` the numbers are those of a new generator with that seed, whatever was done before; a
generator that is not seeded anew draws the numbers of its seed in order. -/
theorem C140_seed (s : List Word) (before ops : List Op) (n k : Nat) :
    run s (before ++ .seed n :: ops) = run s before ++ run (seedState n) ops ∧
    run (seedState n) (List.replicate k .draw) = (List.range k).map (value n) := by
  refine ⟨by rw [run_append]; rfl, ?_⟩
  have : ∀ k s, run s (List.replicate k .draw) = (List.range k).map (drawn s) := by
    intro k
    induction k with
    | zero => intro s; rfl
    | succ k ih =>
      intro s
      rw [List.replicate_succ, List.range_succ_eq_map, List.map_cons, List.map_map]
      show [(draw s).1] ++ run (draw s).2 _ = _
      rw [ih]
      rfl
  exact this k _

/-! ## Whole numbers -/

theorem threshold {n : Nat} (h1 : 1 ≤ n) (h2 : n ≤ 2 ^ 32) : (2 ^ 32 - n) % n = 2 ^ 32 % n := by
  conv_rhs => rw [← Nat.sub_add_cancel h2, Nat.add_mod_right]

/-- **C140, whole numbers in the interval (partial).** When `uniform_int` returns, the number is in the interval. An interval
whose length is a power of two is done after one draw.
Missing: that the loop ends for the other intervals. -/
theorem C140_int_partial (fuel : Nat) {lo hi : Int} (h : lo ≤ hi) (hw : hi - lo < 2 ^ 32) (s : List Word) :
    (∀ r, uniformInt fuel lo hi s = some r → lo ≤ r.1 ∧ r.1 ≤ hi) ∧
    (∀ p, hi - lo + 1 = 2 ^ p → 1 ≤ fuel → (uniformInt fuel lo hi s).isSome) := by
  have hn : (hi - lo).toNat + 1 ≤ 2 ^ 32 := by omega
  have hn1 : 1 ≤ (hi - lo).toNat + 1 := by omega
  have hlo : lo + ((hi - lo).toNat : Int) = hi := by omega
  generalize hN : (hi - lo).toNat + 1 = n at *
  constructor
  · intro r hr
    unfold uniformInt at hr
    simp only [hN] at hr
    by_cases hc : n = 2 ^ 32
    · rw [if_pos hc, Option.some.injEq] at hr
      have := BitVec.isLt (temper (newWord s))
      rw [← hr]
      show lo ≤ lo + ((temper (newWord s)).toNat : Int) ∧ lo + ((temper (newWord s)).toNat : Int) ≤ hi
      omega
    · rw [if_neg hc, Option.map_eq_some_iff] at hr
      obtain ⟨q, hq, rfl⟩ := hr
      have : ∀ fuel s, scaled n fuel s = some q → q.1 < n := by
        intro fuel
        induction fuel with
        | zero => intro s h; exact absurd h (by simp [scaled])
        | succ fuel ih =>
          intro s h
          unfold scaled at h
          simp only at h
          by_cases hl : (draw s).1 * n % 2 ^ 32 < (2 ^ 32 - n) % n
          · rw [if_pos hl] at h; exact ih _ h
          · rw [if_neg hl, Option.some.injEq] at h
            rw [← h]
            have := BitVec.isLt (temper (newWord s))
            show (temper (newWord s)).toNat * n / 2 ^ 32 < n
            rw [Nat.div_lt_iff_lt_mul (by norm_num), Nat.mul_comm n]
            exact Nat.mul_lt_mul_of_pos_right this (by omega)
      have := this fuel s hq
      show lo ≤ lo + (q.1 : Int) ∧ lo + (q.1 : Int) ≤ hi
      omega
  · intro p hp hf
    have hnp : n = 2 ^ p := by
      have : (n : Int) = ((2 ^ p : Nat) : Int) := by push_cast; omega
      exact_mod_cast this
    unfold uniformInt
    simp only [hN]
    by_cases hc : n = 2 ^ 32
    · rw [if_pos hc]; rfl
    · rw [if_neg hc, Option.isSome_map]
      obtain ⟨fuel, rfl⟩ : ∃ k, fuel = k + 1 := ⟨fuel - 1, by omega⟩
      unfold scaled
      have h0 : (2 ^ 32 - n) % n = 0 := by
        rw [threshold hn1 hn, hnp]
        refine Nat.mod_eq_zero_of_dvd (pow_dvd_pow 2 ?_)
        by_contra hgt
        have : 2 ^ 32 < 2 ^ p := Nat.pow_lt_pow_right (by norm_num) (by omega)
        omega
      simp only [h0]
      rw [if_neg (Nat.not_lt_zero _)]
      rfl

/-- What one draw of the engine gives for an interval of `n` numbers : `none` when it is rejected. -/
def Spec.outcome (n g : Nat) : Option Nat := if g * n % 2 ^ 32 < (2 ^ 32 - n) % n then none else some (g * n / 2 ^ 32)

/-- **C140, fairness.** Of the 2^32 numbers that the engine can draw, exactly as many give each number of the interval, namely
⌊2^32 / n⌋; `uniform_int` returns the number of the first draw that is not rejected. -/
theorem C140_fair {n : Nat} (h1 : 1 ≤ n) (h2 : n < 2 ^ 32) :
    (∀ v, v < n → ((Finset.range (2 ^ 32)).filter fun g => outcome n g = some v).card = 2 ^ 32 / n) ∧
    ∀ fuel s, scaled n (fuel + 1) s = match outcome n (draw s).1 with
      | some v => some (v, (draw s).2)
      | none => scaled n fuel (draw s).2 := by
  constructor
  · intro v hv
    generalize hB : v * 2 ^ 32 + 2 ^ 32 % n = B
    have hq : B + n * (2 ^ 32 / n) = (v + 1) * 2 ^ 32 := by
      have := Nat.mod_add_div (2 ^ 32) n
      rw [← hB, Nat.add_assoc, this]; ring
    have hset : ((Finset.range (2 ^ 32)).filter fun g => outcome n g = some v) =
        Finset.Ico ((B + n - 1) / n) ((B + n - 1) / n + 2 ^ 32 / n) := by
      ext g
      have c1 : (B + n - 1) / n ≤ g ↔ B ≤ g * n := by
        rw [← Nat.lt_add_one_iff, Nat.div_lt_iff_lt_mul (by omega), Nat.add_mul, Nat.one_mul]; omega
      have c2 : g < (B + n - 1) / n + 2 ^ 32 / n ↔ g * n < (v + 1) * 2 ^ 32 := by
        rw [← hq, ← Nat.add_mul_div_left _ _ (by omega : 0 < n), ← Nat.succ_le_iff, Nat.le_div_iff_mul_le (by omega),
          Nat.succ_mul]
        omega
      rw [Finset.mem_Ico, c1, c2, Finset.mem_filter, Finset.mem_range]
      unfold outcome
      rw [threshold h1 h2.le]
      have hd := Nat.div_add_mod (g * n) (2 ^ 32)
      constructor
      · rintro ⟨-, h⟩
        split at h
        · exact absurd h (by simp)
        · next hl =>
          rw [Option.some.injEq] at h
          rw [h] at hd
          have := Nat.mod_lt (g * n) (by norm_num : 0 < 2 ^ 32)
          omega
      · rintro ⟨h3, h4⟩
        have hv' : g * n / 2 ^ 32 = v := by
          refine Nat.div_eq_of_lt_le ?_ ?_
          · omega
          · exact h4
        refine ⟨?_, ?_⟩
        · by_contra hg
          have : 2 ^ 32 * n ≤ g * n := Nat.mul_le_mul_right _ (by omega)
          have : (v + 1) * 2 ^ 32 ≤ n * 2 ^ 32 := Nat.mul_le_mul_right _ (by omega)
          omega
        · rw [hv'] at hd
          rw [if_neg (by omega), hv']
    rw [hset, Nat.card_Ico]
    exact Nat.add_sub_cancel_left _ _
  · intro fuel s
    unfold outcome
    show (if _ then _ else _) = _
    split <;> rfl

/-- **C140, real numbers (partial).** The real numbers that the accurate generator draws are inside their interval.
Missing: numbers below the upper bound (see C138). -/
theorem C140_uniform_partial {f : Num.Fmt} (hf : f.Ok) (hmin : f.emin + f.prec ≤ 0) (hmax : 64 < f.emax) {k : Nat} (hk : k ≤ 2)
    {lo hi : Num.Fl} (hlo : Ieee.Spec.OfType f lo) (hhi : Ieee.Spec.OfType f hi) (hlf : Ieee.Spec.Finite lo) (hhf : Ieee.Spec.Finite hi)
    (hle : Ieee.Spec.num lo ≤ Ieee.Spec.num hi) (hd : Ieee.Spec.Finite (Ieee.sub f hi lo)) (s : List Word) :
    Ieee.Spec.num lo ≤ Ieee.Spec.num (Ieee.uniform f mt19937 k lo hi s).1 ∧
    Ieee.Spec.num (Ieee.uniform f mt19937 k lo hi s).1 ≤ Ieee.Spec.num hi :=
  (Ieee.C138_uniform_partial hf hmin hmax mt19937 (by decide) (le_refl _) hk hlo hhi hlf hhf hle hd s).2

/-- The first numbers of the default seed of `std::mt19937`, as published with the reference implementation. -/
example : run (seedState 5489) [.draw, .draw, .draw] = [3499211612, 581869302, 3890346734] := by decide +kernel

example : (uniformInt 5 1 6 (seedState 5489)).map (·.1) = some 5 := by decide +kernel

end Mt
end Xo
