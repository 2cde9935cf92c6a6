import Verif.Model.Hash
import Mathlib.Data.List.TakeWhile
import Mathlib.Data.List.Basic

/-!
C47: the compile-time and the run-time hash.
-/
namespace Xo

namespace Spec

/-- FNV-1a, 64 bits, as published: starting from the offset basis, for each byte xor it into the hash, then multiply
by the FNV prime. -/
def fnv1a (bytes : List (BitVec 8)) : BitVec 64 :=
  bytes.foldl (fun h b => (h ^^^ b.setWidth 64) * 1099511628211#64) 14695981039346656037#64

end Spec
open Spec Hash

theorem hashConstexpr_eq_loop (s : List (BitVec 8)) (h : BitVec 64) : hashConstexpr s h = hashLoop s h := by
  induction s generalizing h with
  | nil => rfl
  | cons c s ih =>
    simp only [hashConstexpr, hashLoop]
    by_cases hc : c = 0#8
    · simp [hc]
    · simp only [ne_eq, hc, not_false_eq_true, if_true, if_false, ih, BitVec.xor_comm]

/-- **C47, agreement.** The compile-time, literal and run-time hashes agree on every C string. -/
theorem C47_agree (s : List (BitVec 8)) (n : Nat) :
    hashConstexpr s basis = cHash s ∧ literalHash s n = cHash s ∧ hashString s = cHash s :=
  ⟨hashConstexpr_eq_loop s basis, hashConstexpr_eq_loop s basis, rfl⟩

/-- Only the part before the first NUL counts. -/
theorem C47_stops_at_nul (s : List (BitVec 8)) : cHash s = cHash (s.takeWhile (· != 0#8)) := by
  unfold cHash
  generalize basis = h
  induction s generalizing h with
  | nil => rfl
  | cons c s ih =>
    by_cases hc : c = 0#8
    · simp [hashLoop, hc]
    · simp [hashLoop, hc, ih]

/-- So a `std::string` with a NUL inside has the same hash as its part before it. -/
theorem C47_strings_with_nul_collide (s t : List (BitVec 8)) :
    hashString (s ++ 0#8 :: t) = hashString s := by
  unfold hashString
  rw [C47_stops_at_nul, C47_stops_at_nul s]
  congr 1
  induction s with
  | nil => simp
  | cons c s ih => by_cases hc : c = 0#8 <;> simp [hc, ih]

/-- One step of the published hash. -/
def fnvStep (h : BitVec 64) (b : BitVec 64) : BitVec 64 := (h ^^^ b) * prime

theorem loop_append (s t : List (BitVec 8)) (hs : ∀ c ∈ s, c ≠ 0#8) (h : BitVec 64) :
    hashLoop (s ++ t) h = hashLoop t (s.foldl (fun h c => fnvStep h (c.signExtend 64)) h) := by
  induction s generalizing h with
  | nil => rfl
  | cons c s ih =>
    have hc := hs c (by simp)
    simp only [List.cons_append, hashLoop, hc, if_false, List.foldl_cons, fnvStep]
    exact ih (fun d hd => hs d (List.mem_cons_of_mem _ hd)) _

/-- Sign extension equals zero extension below 128 and differs from 128 on. -/
theorem signExtend_ascii : ∀ c : BitVec 8, c.toNat < 128 → c.signExtend 64 = c.setWidth 64 := by
  decide +kernel

theorem signExtend_high : ∀ c : BitVec 8, 128 ≤ c.toNat → c.signExtend 64 ≠ c.setWidth 64 := by
  decide +kernel

/-- The prime is odd, so multiplying by it loses nothing. -/
theorem prime_inv : prime * 0xCE965057AFF6957B#64 = 1#64 := by decide +kernel

theorem fnvStep_inj_left {h h' b : BitVec 64} (e : fnvStep h b = fnvStep h' b) : h = h' := by
  have := congrArg (· * 0xCE965057AFF6957B#64) e
  simp only [fnvStep, BitVec.mul_assoc, prime_inv, BitVec.mul_one] at this
  exact (BitVec.xor_left_inj b).1 this

theorem fnvStep_inj_right {h b b' : BitVec 64} (e : fnvStep h b = fnvStep h b') : b = b' := by
  have := congrArg (· * 0xCE965057AFF6957B#64) e
  simp only [fnvStep, BitVec.mul_assoc, prime_inv, BitVec.mul_one] at this
  exact (BitVec.xor_right_inj h).1 this

theorem ascii_fold (s : List (BitVec 8)) (hs : ∀ c ∈ s, c.toNat < 128) (h : BitVec 64) :
    s.foldl (fun h c => fnvStep h (c.signExtend 64)) h = s.foldl (fun h c => fnvStep h (c.setWidth 64)) h :=
  List.foldl_ext _ _ _ (fun _ c hc => congrArg _ (signExtend_ascii c (hs c hc)))

theorem fold_inj (s : List (BitVec 8)) {h h' : BitVec 64}
    (e : s.foldl (fun h c => fnvStep h (c.setWidth 64)) h = s.foldl (fun h c => fnvStep h (c.setWidth 64)) h') :
    h = h' := by
  induction s generalizing h h' with
  | nil => exact e
  | cons c s ih => exact fnvStep_inj_left (ih e)

theorem fnv1a_eq (s : List (BitVec 8)) : fnv1a s = s.foldl (fun h c => fnvStep h (c.setWidth 64)) basis := rfl

theorem hash_fold (s : List (BitVec 8)) (hs : ∀ c ∈ s, c ≠ 0#8) :
    cHash s = s.foldl (fun h c => fnvStep h (c.signExtend 64)) basis := by
  have := loop_append s [] hs basis
  rw [List.append_nil] at this
  exact this

/-- **C47, FNV-1a (partial).** For ASCII strings it is the FNV-1a hash. Missing: bytes from 128 on, where it fails. -/
theorem C47_fnv_partial (s : List (BitVec 8)) (h0 : ∀ c ∈ s, c ≠ 0#8) (hs : ∀ c ∈ s, c.toNat < 128) :
    cHash s = fnv1a s := by
  rw [hash_fold s h0, fnv1a_eq, ascii_fold s hs]

/-- **C47 is violated from byte 128 on.** A string with exactly one byte from 128 on, anywhere, never has its FNV-1a
hash. -/
theorem C47_fnv_violated (s t : List (BitVec 8)) (c : BitVec 8) (hc : 128 ≤ c.toNat)
    (h0 : ∀ d ∈ s ++ t, d ≠ 0#8) (hs : ∀ d ∈ s ++ t, d.toNat < 128) :
    cHash (s ++ c :: t) ≠ fnv1a (s ++ c :: t) := by
  have h0' : ∀ d ∈ s ++ c :: t, d ≠ 0#8 := by
    intro d hd
    rcases List.mem_append.1 hd with hd | hd
    · exact h0 d (List.mem_append_left _ hd)
    · rcases List.mem_cons.1 hd with rfl | hd
      · rintro rfl; simp at hc
      · exact h0 d (List.mem_append_right _ hd)
  rw [hash_fold _ h0', fnv1a_eq, List.foldl_append, List.foldl_append, List.foldl_cons, List.foldl_cons,
    ascii_fold s (fun d hd => hs d (List.mem_append_left _ hd)),
    ascii_fold t (fun d hd => hs d (List.mem_append_right _ hd))]
  intro e
  exact signExtend_high c hc (fnvStep_inj_right (fold_inj t e))

/-- Known values: FNV-1a of "a" is `af63dc4c8601ec8c`; "é" in UTF-8 has two bytes from 128 on and differs as well. -/
example : cHash [0x61#8] = 0xaf63dc4c8601ec8c#64 ∧ fnv1a [0x61#8] = 0xaf63dc4c8601ec8c#64 := by decide +kernel
example : cHash [0xC3#8, 0xA9#8] ≠ fnv1a [0xC3#8, 0xA9#8] := by decide +kernel
example : cHash [0x61#8, 0xE9#8, 0x62#8] ≠ fnv1a [0x61#8, 0xE9#8, 0x62#8] :=
  C47_fnv_violated [0x61#8] [0x62#8] 0xE9#8 (by decide) (by decide) (by decide)

end Xo
