import Verif.Model.Handle
import Mathlib.Data.List.Nodup

/-!
C14: handles of a `handle_vector`. All theorems about handles assume fewer than `2^w - 1` elements (`w` = 32 by
default); beyond that handles wrap (`C14_wrap_violated`). Move assignment swaps instead of resetting the source.
-/
namespace Xo
variable {T : Type} {w : Nat}
open HandleVec

namespace Spec
/-- What a client does: append, or erase the elements at positions `b ≤ i < e` and pass the handles it holds through
the update rule. -/
inductive HandleOp (T : Type) where
  | push (e : T)
  | erase (b e : Nat)

/-- The elements after a call; `none` if the erased range does not exist. -/
def handleElems (v : List T) : HandleOp T → Option (List T)
  | .push e => some (v ++ [e])
  | .erase b e => if b ≤ e ∧ e ≤ v.length then some (v.take b ++ v.drop e) else none

/-- All calls refer to existing ranges, and there are never more than `n` elements. -/
def validFor (n : Nat) (v : List T) : List (HandleOp T) → Prop
  | [] => v.length ≤ n
  | op :: ops => v.length ≤ n ∧ ∃ v', handleElems v op = some v' ∧ validFor n v' ops
end Spec
open Spec

/-- A client: the vector, and every element it pushed with the handle it holds for it (`none` once erased). -/
structure HandleClient (T : Type) (w : Nat) where
  vec : List T
  held : List (Option (Handle w) × T)

/-- The client performs one call. After erasing `[b, e)` it drops the handles of the erased span and updates all
others with `update_moved_handle( h, { e, old end }, b )`. -/
def HandleClient.step (c : HandleClient T w) : HandleOp T → Res (HandleClient T w)
  | .push x => .ok ⟨(pushBack (w := w) c.vec x).2, c.held ++ [(some (pushBack c.vec x).1, x)]⟩
  | .erase b e =>
    let hs : HandleSpan w := ⟨.ofNat b, .ofNat e⟩
    let moved : HandleSpan w := ⟨.ofNat e, .ofNat c.vec.length⟩
    (eraseSpan c.vec hs).bind fun r => .ok ⟨r.2, c.held.map fun p =>
      (p.1.bind fun h => if hs.contains h then none else some (updateMovedHandle h moved (.ofNat b)), p.2)⟩

def HandleClient.run (c : HandleClient T w) : List (HandleOp T) → Res (HandleClient T w)
  | [] => .ok c
  | op :: ops => (c.step op).bind fun c' => run c' ops

/-- The live handles, in the order of pushing, with their elements. -/
def HandleClient.live (c : HandleClient T w) : List (Handle w × T) :=
  c.held.filterMap fun p => p.1.map fun h => (h, p.2)

/-- Elements numbered from `k` on with their handles. -/
def numbered (w : Nat) (v : List T) (k : Nat) : List (Handle w × T) := (v.zipIdx k).map fun p => (.ofNat p.2, p.1)

theorem numbered_append (a b : List T) (k : Nat) :
    numbered w (a ++ b) k = numbered w a k ++ numbered w b (k + a.length) := by
  simp [numbered, List.zipIdx_append]

theorem toNat_ofNat {n : Nat} (h : n < 2 ^ w) : (BitVec.ofNat w n).toNat = n := by
  rw [BitVec.toNat_ofNat, Nat.mod_eq_of_lt h]

/-- What the update does to a live handle. -/
def afterErase (b e n : Nat) (h : Handle w) : Option (Handle w) :=
  if (HandleSpan.mk (.ofNat b) (.ofNat e)).contains h then none
  else some (updateMovedHandle h ⟨.ofNat e, .ofNat n⟩ (.ofNat b))

theorem afterErase_eq {b e n i : Nat} (hbe : b ≤ e) (hen : e ≤ n) (hn : n < 2 ^ w) (hi : i < n) :
    afterErase b e n (.ofNat i : Handle w) =
      if i < b then some (.ofNat i) else if i < e then none else some (.ofNat (i - e + b)) := by
  have hb := toNat_ofNat (w := w) (n := b) (by omega)
  have he := toNat_ofNat (w := w) (n := e) (by omega)
  have hn' := toNat_ofNat (w := w) (n := n) (by omega)
  have hi' := toNat_ofNat (w := w) (n := i) (by omega)
  unfold afterErase updateMovedHandle HandleSpan.contains Handle.ofNat
  simp only [BitVec.le_def, BitVec.lt_def, hb, he, hn', hi', Bool.and_eq_true, decide_eq_true_eq]
  by_cases h1 : i < b
  · rw [if_neg (by omega), if_neg (by omega), if_pos h1]
  · by_cases h2 : i < e
    · rw [if_pos (by omega), if_neg h1, if_pos h2]
    · rw [if_neg (by omega), if_pos (by omega), if_neg h1, if_neg h2]
      congr 2
      apply BitVec.eq_of_toNat_eq
      rw [BitVec.toNat_add, BitVec.toNat_sub, hb, he, hi', toNat_ofNat (by omega)]
      rw [show 2 ^ w - e + i = i - e + 2 ^ w by omega, Nat.add_mod_right, Nat.mod_eq_of_lt (by omega : i - e < 2 ^ w),
        Nat.mod_eq_of_lt (by omega)]

theorem filterMap_numbered (f : Handle w → Option (Handle w)) (v : List T) (k d : Nat)
    (h : ∀ i, k ≤ i → i < k + v.length → f (.ofNat i) = some (.ofNat (i - k + d))) :
    (numbered w v k).filterMap (fun p => (f p.1).map fun h => (h, p.2)) = numbered w v d := by
  induction v generalizing k d with
  | nil => rfl
  | cons x v ih =>
    have h0 := h k (Nat.le_refl _) (by simp)
    rw [Nat.sub_self, Nat.zero_add] at h0
    have := ih (k + 1) (d + 1) (fun i hi1 hi2 => by
      rw [h i (by omega) (by simp; omega)]; congr 2; omega)
    simp only [numbered, List.zipIdx_cons, List.map_cons] at this ⊢
    rw [List.filterMap_cons]
    simp only [h0, Option.map_some]
    rw [this]

theorem filterMap_numbered_none (f : Handle w → Option (Handle w)) (v : List T) (k : Nat)
    (h : ∀ i, k ≤ i → i < k + v.length → f (.ofNat i) = none) :
    (numbered w v k).filterMap (fun p => (f p.1).map fun h => (h, p.2)) = [] := by
  induction v generalizing k with
  | nil => rfl
  | cons x v ih =>
    have h0 := h k (Nat.le_refl _) (by simp)
    have := ih (k + 1) (fun i hi1 hi2 => h i (by omega) (by simp; omega))
    simp only [numbered, List.zipIdx_cons, List.map_cons] at this ⊢
    rw [List.filterMap_cons]
    simp only [h0, Option.map_none]
    exact this

theorem handle_step (c : HandleClient T w) (hl : c.live = numbered w c.vec 0) (op : HandleOp T) (v' : List T)
    (hv : handleElems c.vec op = some v') (h1 : c.vec.length ≤ 2 ^ w - 1) :
    ∃ c', c.step op = .ok c' ∧ c'.vec = v' ∧ c'.live = numbered w v' 0 := by
  have hpow : 0 < 2 ^ w := Nat.pow_pos (by omega)
  cases op with
  | push x =>
    cases hv
    refine ⟨_, rfl, rfl, ?_⟩
    unfold HandleClient.live at *
    simp only [List.filterMap_append, hl, numbered_append]
    simp [numbered, pushBack]
  | erase b e =>
    simp only [handleElems] at hv
    split at hv
    · next hbe =>
      cases hv
      have hb := toNat_ofNat (w := w) (n := b) (by omega)
      have he := toNat_ofNat (w := w) (n := e) (by omega)
      refine ⟨⟨c.vec.take b ++ c.vec.drop e, c.held.map fun p =>
        (p.1.bind fun h => afterErase b e c.vec.length h, p.2)⟩, ?_, rfl, ?_⟩
      · simp only [HandleClient.step, eraseSpan, Handle.ofNat, hb, he]
        rw [if_pos hbe]; rfl
      · have e1 : (c.held.map fun p : Option (Handle w) × T =>
            (p.1.bind fun h => afterErase b e c.vec.length h, p.2)).filterMap
              (fun p => p.1.map fun h => (h, p.2)) =
            c.live.filterMap (fun p => (afterErase b e c.vec.length p.1).map fun h => (h, p.2)) := by
          unfold HandleClient.live
          rw [List.filterMap_filterMap, List.filterMap_map]
          congr 1
          funext p
          rcases p with ⟨_ | h, x⟩ <;> simp
        refine Eq.trans e1 ?_
        rw [hl]
        have split3 : c.vec = c.vec.take b ++ ((c.vec.drop b).take (e - b) ++ c.vec.drop e) := by
          rw [show c.vec.drop e = (c.vec.drop b).drop (e - b) by rw [List.drop_drop]; congr 1; omega,
            List.take_append_drop, List.take_append_drop]
        have l1 : (c.vec.take b).length = b := by rw [List.length_take]; omega
        have l2 : ((c.vec.drop b).take (e - b)).length = e - b := by rw [List.length_take, List.length_drop]; omega
        have l3 : (c.vec.drop e).length = c.vec.length - e := by rw [List.length_drop]
        conv_lhs => rw [split3]
        have hlen : (c.vec.take b ++ ((c.vec.drop b).take (e - b) ++ c.vec.drop e)).length = c.vec.length := by
          rw [← split3]
        rw [hlen, numbered_append, numbered_append, List.filterMap_append, List.filterMap_append, numbered_append,
          filterMap_numbered _ _ 0 0, filterMap_numbered_none, filterMap_numbered _ _ _ (0 + (c.vec.take b).length)]
        · simp
        · intro i hi1 hi2
          rw [afterErase_eq hbe.1 hbe.2 (by omega) (by omega), if_neg (by omega), if_neg (by omega)]
          congr 2; omega
        · intro i hi1 hi2
          rw [afterErase_eq hbe.1 hbe.2 (by omega) (by omega), if_neg (by omega), if_pos (by omega)]
        · intro i hi1 hi2
          rw [afterErase_eq hbe.1 hbe.2 (by omega) (by omega), if_pos (by omega)]
          rfl
    · cases hv

/-- **C14 (partial: fewer than `2^w` elements).** For every history of pushes and erases with the update rule
applied, the handles still held are, in order of pushing, exactly one per element, each addresses the element it
was issued for and is contained. -/
theorem C14_handles_address_their_element_partial (ops : List (HandleOp T)) (hv : validFor (2 ^ w - 1) [] ops) :
    ∃ c : HandleClient T w, HandleClient.run ⟨[], []⟩ ops = .ok c ∧
      c.live.map Prod.snd = c.vec ∧ (c.live.map Prod.fst).Nodup ∧
      ∀ h x, (some h, x) ∈ c.held → get c.vec h = .ok x ∧ contains c.vec h = true ∧ h.toBool = true := by
  have gen : ∀ (ops : List (HandleOp T)) (c : HandleClient T w), c.live = numbered w c.vec 0 →
      validFor (2 ^ w - 1) c.vec ops →
      ∃ c', c.run ops = .ok c' ∧ c'.live = numbered w c'.vec 0 ∧ c'.vec.length ≤ 2 ^ w - 1 := by
    intro ops
    induction ops with
    | nil => intro c h hv; exact ⟨c, rfl, h, hv⟩
    | cons op ops ih =>
      rintro c h ⟨h1, v', hv, hrest⟩
      obtain ⟨c1, e1, hc, hl⟩ := handle_step c h op v' hv h1
      obtain ⟨c2, e2, h2⟩ := ih c1 (by rw [hc]; exact hl) (by rw [hc]; exact hrest)
      exact ⟨c2, by simp [HandleClient.run, e1, Res.bind, e2], h2⟩
  obtain ⟨c, e, hl, hlen⟩ := gen ops ⟨[], []⟩ rfl hv
  have hpow : 0 < 2 ^ w := Nat.pow_pos (by omega)
  have hfst : ∀ i, i < c.vec.length → (BitVec.ofNat w i).toNat = i := fun i hi => toNat_ofNat (by omega)
  refine ⟨c, e, ?_, ?_, ?_⟩
  · rw [hl, numbered, List.map_map]
    exact List.zipIdx_map_fst 0 c.vec
  · rw [hl, numbered, List.map_map]
    have : (Prod.fst ∘ fun p : T × ℕ => ((Handle.ofNat p.2 : Handle w), p.1)) = Handle.ofNat ∘ Prod.snd := rfl
    rw [this, ← List.map_map, List.zipIdx_map_snd, ← List.range_eq_range']
    refine List.Nodup.map_on ?_ List.nodup_range
    intro i hi j hj hij
    rw [List.mem_range] at hi hj
    have := congrArg (fun h : Handle w => h.value.toNat) hij
    simpa [Handle.ofNat, hfst i hi, hfst j hj] using this
  · intro h x hm
    have : (h, x) ∈ c.live := List.mem_filterMap.2 ⟨_, hm, rfl⟩
    rw [hl, numbered, List.mem_map] at this
    obtain ⟨⟨y, i⟩, hy, he⟩ := this
    cases he
    have hy' := List.mem_zipIdx_iff_getElem?.1 hy
    have hi : i < c.vec.length := (List.getElem?_eq_some_iff.1 hy').1
    refine ⟨?_, ?_, ?_⟩
    · unfold HandleVec.get Handle.ofNat; rw [hfst i hi]; exact Vec.get_ok hy'
    · unfold HandleVec.contains Handle.ofNat; rw [hfst i hi]; simpa using hi
    · unfold Handle.toBool
      rw [bne_iff_ne]
      intro hh
      have := congrArg (fun h : Handle w => h.value.toNat) hh
      simp [Handle.ofNat, Handle.invalid, hfst i hi] at this
      omega

/-- `contains` is exact; the default handle and the source of a move construction are not contained (fewer than
`2^w` elements). -/
theorem C14_contains_partial (v : List T) (h : Handle w) :
    (contains v h = true ↔ (get v h).isOk = true) ∧
    (v.length < 2 ^ w → contains v (Handle.invalid : Handle w) = false ∧
      contains v (Handle.moveCtor h).2 = false ∧ (Handle.moveCtor h).1 = h) := by
  constructor
  · unfold HandleVec.contains HandleVec.get Vec.get
    by_cases hlt : h.value.toNat < v.length
    · rw [List.getElem?_eq_getElem hlt]; simp [hlt, Res.isOk]
    · rw [List.getElem?_eq_none (by omega)]; simp [hlt, Res.isOk]
  · intro hv
    have hinv : contains v (Handle.invalid : Handle w) = false := by
      unfold HandleVec.contains Handle.invalid
      simp
      omega
    exact ⟨hinv, hinv, rfl⟩

/-- `erase( h )` removes exactly the element of `h`; the returned handle addresses the element that followed it. -/
theorem C14_erase (v : List T) (h : Handle w) :
    (contains v h = false → erase v h = .ub) ∧
    (contains v h = true → ∃ v', erase v h = .ok (h, v') ∧
      v' = v.take h.value.toNat ++ v.drop (h.value.toNat + 1) ∧ v'[h.value.toNat]? = v[h.value.toNat + 1]?) := by
  unfold HandleVec.contains HandleVec.erase
  by_cases hlt : h.value.toNat < v.length
  · simp only [hlt, decide_true, Bool.true_eq_false, false_imp_iff, true_and, if_true, forall_const]
    refine ⟨_, rfl, List.eraseIdx_eq_take_drop_succ _ _, ?_⟩
    rw [List.getElem?_eraseIdx]; simp
  · simp [hlt]

/-- `find` returns the handle of the first equal element, or the invalid handle. -/
theorem C14_find_partial [DecidableEq T] (v : List T) (x : T) (hv : v.length < 2 ^ w) :
    (find v x : Res (Handle w)) = .ok (match v.idxOf? x with | some i => .ofNat i | none => .invalid) := by
  have gen : ∀ (n k : Nat), k + n = v.length →
      (findFrom v x n (.ofNat k) : Res (Handle w)) =
        .ok (match (v.drop k).idxOf? x with | some i => .ofNat (k + i) | none => .invalid) := by
    intro n
    induction n with
    | zero =>
      intro k hk
      rw [List.drop_of_length_le (by omega)]; rfl
    | succ n ih =>
      intro k hk
      have hkl : k < v.length := by omega
      have hget : get v (.ofNat k : Handle w) = .ok v[k] := by
        unfold HandleVec.get Handle.ofNat
        rw [toNat_ofNat (by omega)]; exact Vec.get_ok (List.getElem?_eq_getElem hkl)
      have hnext : (⟨(Handle.ofNat k : Handle w).value + 1#w⟩ : Handle w) = .ofNat (k + 1) := by
        unfold Handle.ofNat; simp [BitVec.ofNat_add]
      rw [findFrom, hget, Res.bind, hnext, ih (k + 1) (by omega), List.drop_eq_getElem_cons hkl, List.idxOf?_cons]
      by_cases he : v[k] = x
      · simp [he]
      · rw [if_neg he]
        have hbeq : (v[k] == x) = false := by simpa using he
        rw [hbeq]
        simp only [Bool.false_eq_true, if_false]
        cases (v.drop (k + 1)).idxOf? x with
        | none => rfl
        | some i => simp only [Option.map_some]; congr 2; omega
  unfold HandleVec.find span
  simp only
  have : ((Handle.ofNat v.length : Handle w).value - (Handle.ofNat 0 : Handle w).value).toNat = v.length := by
    unfold Handle.ofNat; simp [toNat_ofNat hv]
  rw [this, gen v.length 0 (by omega)]
  simp

/-- **C14 is violated** by move assignment: the source takes the old value of the target and stays contained. -/
theorem C14_move_assign_violated (v : List T) (target src : Handle w) (h : contains v target = true) :
    contains v (Handle.moveAssign target src).2 = true := h

/-- **C14 is violated** when the identifier type is exhausted: the handle of the last of `2^w` elements is the
invalid handle. -/
theorem C14_wrap_violated (v : List T) (x : T) (h : v.length = 2 ^ w - 1) :
    (pushBack v x).1 = (Handle.invalid : Handle w) := by
  have hpow : 0 < 2 ^ w := Nat.pow_pos (by omega)
  unfold pushBack Handle.ofNat Handle.invalid
  simp only [List.length_append, List.length_singleton, Nat.add_sub_cancel, h]
  congr 1
  apply BitVec.eq_of_toNat_eq
  simp

/-- A history with a middle erase. -/
example : validFor (2 ^ 32 - 1) [] ([.push 10, .push 20, .push 30, .push 40, .erase 1 3, .push 50] : List (HandleOp Nat)) := by
  simp [validFor, handleElems]

end Xo
