import Verif.Model.FrameRing
import Verif.Lemmas.Storage
import Mathlib.Data.List.Basic
import Mathlib.Tactic.Ring

/-!
C130: a buffer of frames under every operation. The specification is a list of frames, the oldest first and the frame being
filled last; it knows nothing of offsets into an array.
-/
namespace Xo.CBuffer
variable {T : Type}

namespace Spec

/-- The number of frames and channels, and the frames that can be read. -/
structure Frames (T : Type) where
  frames : Nat
  channels : Nat
  rows : List (List T)
deriving DecidableEq

/-- A new buffer: one frame, being filled. -/
def Frames.new (dflt : T) (n c : Nat) : Frames T := ⟨n, c, [List.replicate c dflt]⟩

/-- The frame being filled is replaced. -/
def Frames.setLast (s : Frames T) (f : List T) : Frames T := { s with rows := s.rows.dropLast ++ [f] }

/-- A new shape. Refused once there are two frames; no promise for fewer channels. -/
def Frames.resize (dflt : T) (s : Frames T) (n c : Nat) : Option (Option (Frames T)) :=
  if 1 < s.rows.length then some none
  else if c < s.channels then none
  else some (some ⟨n, c, [if n = 0 then List.replicate c dflt else s.rows.getLastD [] ++ List.replicate (c - s.channels) dflt]⟩)

/-- One operation; `none` where nothing is promised. A full buffer gives the frame that becomes the newest the contents of the
oldest. -/
def Frames.step (dflt : T) (s : Frames T) : Op T → Option (Option Nat × Frames T)
  | .set c v => if c < s.channels ∧ 0 < s.frames then some (some 0, s.setLast ((s.rows.getLastD []).set c v)) else none
  | .advance =>
    if s.frames = 0 ∨ s.channels = 0 then none
    else if s.rows.length < s.frames then some (some 0, { s with rows := s.rows ++ [List.replicate s.channels dflt] })
    else some (some 0, { s with rows := s.rows.tail ++ [s.rows.headD []] })
  | .clearBack v => if s.frames = 0 ∧ s.channels ≠ 0 then none else some (some 0, s.setLast (List.replicate s.channels v))
  | .reset => some (some 0, { s with rows := [List.replicate s.channels dflt] })
  | .resize n c => (s.resize dflt n c).map fun | some s' => (some 0, s') | none => (none, s)
  | .addChannel => (s.resize dflt s.frames (s.channels + 1)).map fun | some s' => (some s.channels, s') | none => (none, s)
  | .addFrame => (s.resize dflt (s.frames + 1) s.channels).map fun | some s' => (some s.frames, s') | none => (none, s)

def Frames.run (dflt : T) (s : Frames T) : List (Op T) → Option (List (Option Nat) × Frames T)
  | [] => some ([], s)
  | op :: ops => (s.step dflt op).bind fun (a, s') => (Frames.run dflt s' ops).map fun (as, s'') => (a :: as, s'')

/-- What can be seen of a buffer. -/
structure Seen (b : CBuffer T) (s : Frames T) : Prop where
  capacity : b.frames = s.frames
  empty : b.empty = true ↔ s.rows.length = 1
  get : s.frames ≠ 0 → ∀ c, c < s.channels → ∃ v, (s.rows.headD [])[c]? = some v ∧ b.get c = .ok v
  back : s.frames ≠ 0 → ∀ c, c < s.channels → ∃ v, (s.rows.getLastD [])[c]? = some v ∧ b.back c = .ok v

end Spec
open _root_.Xo.CBuffer.Spec

/-- Row `i`, with the rows that have not been used yet. -/
def row (dflt : T) (s : Frames T) (i : Nat) : List T := (s.rows[i]?).getD (List.replicate s.channels dflt)

/-- Row `i` is at slot `(p + i) % N` of the array. -/
structure Ring (dflt : T) (b : CBuffer T) (s : Frames T) (p : Nat) : Prop where
  fr : b.frames = s.frames
  ch : b.channels = s.channels
  len : b.data.length = s.frames * s.channels
  pos : 1 ≤ s.rows.length
  le : s.rows.length ≤ max s.frames 1
  size : ∀ f ∈ s.rows, f.length = s.channels
  nil : s.frames = 0 → s.rows = [List.replicate s.channels dflt]
  out : b.outOfs = p * s.channels
  inn : b.inOfs = (p + (s.rows.length - 1)) % s.frames * s.channels
  two : 1 < s.rows.length → 0 < s.channels
  plt : p < max s.frames 1
  start : s.rows.length < s.frames → p = 0
  el : ∀ i c, i < s.frames → c < s.channels → b.data[(p + i) % s.frames * s.channels + c]? = (row dflt s i)[c]?

theorem row_length {dflt : T} {b : CBuffer T} {s : Frames T} {p : Nat} (h : Ring dflt b s p) (i : Nat) : (row dflt s i).length = s.channels := by
  unfold row
  cases hi : s.rows[i]? with
  | none => simp
  | some f => exact h.size f (List.mem_of_getElem? hi)

theorem cell_inj {a b c d C : Nat} (hb : b < C) (hd : d < C) (h : a * C + b = c * C + d) : a = c ∧ b = d := by
  have hC : 0 < C := by omega
  have h1 : (a * C + b) / C = a := by rw [Nat.mul_comm, Nat.mul_add_div hC, Nat.div_eq_of_lt hb]; omega
  have h2 : (c * C + d) / C = c := by rw [Nat.mul_comm, Nat.mul_add_div hC, Nat.div_eq_of_lt hd]; omega
  have : a = c := by rw [← h1, ← h2, h]
  subst this
  exact ⟨rfl, by omega⟩

theorem slot_inj {p i j N : Nat} (hi : i < N) (hj : j < N) (h : (p + i) % N = (p + j) % N) : i = j := by
  have e : ∀ k, k < N → (p + k) % N = if p % N + k < N then p % N + k else p % N + k - N := by
    intro k hk
    have hp := Nat.mod_lt p (show 0 < N by omega)
    rw [← Nat.mod_add_mod]
    split
    · next h => exact Nat.mod_eq_of_lt h
    · next h => rw [Nat.mod_eq_sub_mod (by omega), Nat.mod_eq_of_lt (by omega)]
  have hp := Nat.mod_lt p (show 0 < N by omega)
  rw [e i hi, e j hj] at h
  split at h <;> split at h <;> omega

theorem getLastD_eq {l : List (List T)} (h : 1 ≤ l.length) : l.getLastD [] = l[l.length - 1]'(by omega) := by
  rw [List.getLastD_eq_getLast?, List.getLast?_eq_getElem?, List.getElem?_eq_getElem (by omega)]
  rfl

theorem getElem?_setLast {l : List (List T)} (h : 1 ≤ l.length) (f : List T) (i : Nat) :
    (l.dropLast ++ [f])[i]? = if i = l.length - 1 then some f else l[i]? := by
  rw [List.getElem?_append, List.length_dropLast]
  split
  · next hi => rw [if_neg (by omega), List.getElem?_dropLast, if_pos hi]
  · next hi =>
    by_cases he : i = l.length - 1
    · simp [he]
    · rw [if_neg he, List.getElem?_eq_none (by simp; omega), List.getElem?_eq_none (by omega)]

/-- The frame being filled is replaced by one with these values. -/
theorem ring_setLast {dflt : T} {b : CBuffer T} {s : Frames T} {p : Nat} (h : Ring dflt b s p) (hN : 0 < s.frames) {f : List T}
    (hf : f.length = s.channels) {d : List T} (hd : d.length = b.data.length)
    (hel : ∀ a c, c < s.channels → d[a * s.channels + c]? = if a = (p + (s.rows.length - 1)) % s.frames then f[c]? else b.data[a * s.channels + c]?) :
    Ring dflt { b with data := d } (s.setLast f) p := by
  have hlen : (s.rows.dropLast ++ [f]).length = s.rows.length := by have := h.pos; simp; omega
  have hle : s.rows.length ≤ s.frames := by have := h.le; omega
  refine ⟨h.fr, h.ch, hd.trans h.len, ?_, ?_, ?_, fun h0 => by simp [Frames.setLast] at h0; omega, h.out, ?_, ?_, h.plt, ?_, ?_⟩
  · simp [Frames.setLast]
  · simp only [Frames.setLast, hlen]; exact h.le
  · intro g hg
    simp only [Frames.setLast, List.mem_append, List.mem_singleton] at hg
    rcases hg with hg | rfl
    · exact h.size g (List.dropLast_subset _ hg)
    · exact hf
  · simp only [Frames.setLast, hlen]; exact h.inn
  · simp only [Frames.setLast, hlen]; exact h.two
  · simp only [Frames.setLast, hlen]; exact h.start
  · intro i c hi hc
    simp only [Frames.setLast] at hi hc ⊢
    rw [hel _ _ hc, h.el i c hi hc]
    unfold row
    simp only [getElem?_setLast h.pos]
    by_cases he : i = s.rows.length - 1
    · simp [he]
    · rw [if_neg he, if_neg fun e => he (slot_inj hi (by have := h.pos; omega) e)]

theorem clearFrom_ok (v : T) (ofs : Nat) : ∀ (n c : Nat) (d : List T), ofs + c + n ≤ d.length →
    ∃ d', clearFrom v ofs c n d = .ok d' ∧ d'.length = d.length ∧
      ∀ j, d'[j]? = if ofs + c ≤ j ∧ j < ofs + c + n then some v else d[j]?
  | 0, c, d, _ => ⟨d, rfl, rfl, fun j => by rw [if_neg (by omega)]⟩
  | n + 1, c, d, h => by
    obtain ⟨d', h1, h2, h3⟩ := clearFrom_ok v ofs n (c + 1) (d.set (ofs + c) v) (by simp; omega)
    refine ⟨d', ?_, by simpa using h2, fun j => ?_⟩
    · rw [clearFrom, Vec.set_ok (by omega)]
      exact h1
    · rw [h3, List.getElem?_set]
      by_cases hj : ofs + c = j
      · subst hj
        rw [if_neg (by omega), if_pos rfl, if_pos (by omega), if_pos (by omega)]
      · by_cases hj2 : ofs + (c + 1) ≤ j ∧ j < ofs + (c + 1) + n
        · rw [if_pos hj2, if_pos (by omega)]
        · rw [if_neg hj2, if_neg hj, if_neg (by omega)]

theorem ring_new (dflt : T) (n c : Nat) : Ring dflt (CBuffer.make dflt n c) (Frames.new dflt n c) 0 := by
  refine ⟨rfl, rfl, by simp [make, Frames.new], by simp [Frames.new], by simp [Frames.new], by simp [Frames.new],
    fun _ => rfl, by simp [make], by simp [make, Frames.new], by simp [Frames.new], by simp, fun _ => rfl, ?_⟩
  intro i k hi hk
  simp only [Frames.new] at hi hk ⊢
  have hr : row dflt (Frames.new dflt n c) i = List.replicate c dflt := by
    unfold row Frames.new
    cases i <;> simp
  simp only [Frames.new] at hr
  rw [hr, make, List.getElem?_replicate, List.getElem?_replicate, if_pos hk, if_pos]
  rw [Nat.zero_add, Nat.mod_eq_of_lt hi]
  exact idx_lt hi hk

theorem ring_in_ne {dflt : T} {b : CBuffer T} {s : Frames T} {p : Nat} (h : Ring dflt b s p) : b.inOfs = b.outOfs ↔ s.rows.length = 1 := by
  have hp := h.pos
  have hl := h.le
  rw [h.inn, h.out]
  by_cases h1 : 1 < s.rows.length
  · have hC := h.two h1
    refine ⟨fun e => ?_, fun e => by omega⟩
    have e2 := Nat.eq_of_mul_eq_mul_right hC e
    have hpN : p < s.frames := by have := h.plt; omega
    have e3 : (p + (s.rows.length - 1)) % s.frames = (p + 0) % s.frames := by rw [e2, Nat.add_zero, Nat.mod_eq_of_lt hpN]
    have := slot_inj (by omega) (by omega) e3
    omega
  · have e1 : s.rows.length = 1 := by omega
    refine ⟨fun _ => e1, fun _ => ?_⟩
    rw [e1]
    by_cases hN : s.frames = 0
    · have := h.plt
      have : p = 0 := by omega
      simp [this]
    · rw [Nat.mod_eq_of_lt (by have := h.plt; omega)]
      simp

theorem ring_one {dflt : T} {b : CBuffer T} {s : Frames T} {p : Nat} (h : Ring dflt b s p) (h1 : s.rows.length = 1) : p = 0 := by
  have := h.plt
  by_cases hN : 1 < s.frames
  · exact h.start (by omega)
  · omega

/-- The array of a buffer with one frame. -/
theorem ring_data {dflt : T} {b : CBuffer T} {s : Frames T} {p : Nat} (h : Ring dflt b s p) (h1 : s.rows.length = 1) {j : Nat}
    (hj : j < b.data.length) : b.data[j]? = if j < s.channels then (row dflt s 0)[j]? else some dflt := by
  have hp := ring_one h h1
  subst hp
  rw [h.len] at hj
  have hC : 0 < s.channels := Nat.pos_of_ne_zero fun e => by rw [e] at hj; omega
  have hN : 0 < s.frames := Nat.pos_of_ne_zero fun e => by rw [e] at hj; omega
  have hd : j / s.channels < s.frames := Nat.div_lt_of_lt_mul (by rw [Nat.mul_comm]; exact hj)
  have hm := Nat.mod_lt j hC
  have e := h.el (j / s.channels) (j % s.channels) hd hm
  rw [Nat.zero_add, Nat.mod_eq_of_lt hd, Nat.div_add_mod' j s.channels] at e
  rw [e]
  split
  · next hlt => rw [Nat.div_eq_of_lt hlt, Nat.mod_eq_of_lt hlt]
  · next hge =>
    have : 1 ≤ j / s.channels := (Nat.one_le_div_iff hC).2 (by omega)
    unfold row
    rw [List.getElem?_eq_none (l := s.rows) (by omega)]
    simp [List.getElem?_replicate, hm]

theorem ring_resize {dflt : T} {b : CBuffer T} {s : Frames T} {p n c : Nat} (h : Ring dflt b s p) {o : Option (Frames T)}
    (ho : s.resize dflt n c = some o) :
    (o = none ∧ b.resize dflt n c = .err) ∨
    ∃ s', o = some s' ∧ ∃ b', b.resize dflt n c = .ok b' ∧ Ring dflt b' s' 0 ∧ b'.frames = n ∧ b'.channels = c := by
  unfold Frames.resize at ho
  by_cases h1 : 1 < s.rows.length
  · rw [if_pos h1] at ho
    cases ho
    refine .inl ⟨rfl, ?_⟩
    unfold CBuffer.resize
    rw [if_pos]
    exact fun e => by have := (ring_in_ne h).1 e; omega
  · have e1 : s.rows.length = 1 := by have := h.pos; omega
    rw [if_neg h1] at ho
    by_cases hc : c < s.channels
    · rw [if_pos hc] at ho; cases ho
    · rw [if_neg hc] at ho
      cases ho
      refine .inr ⟨_, rfl, { b with frames := n, channels := c, data := Vec.resize b.data (n * c) dflt }, ?_, ?_, rfl, rfl⟩
      · unfold CBuffer.resize
        rw [if_neg (by simpa using (ring_in_ne h).2 e1)]
      · have hp := ring_one h e1
        subst hp
        have hlast : (s.rows.getLastD []).length = s.channels := by
          rw [getLastD_eq h.pos]; exact h.size _ (List.getElem_mem _)
        have hrow : row dflt s 0 = s.rows.getLastD [] := by
          rw [getLastD_eq h.pos]
          unfold row
          rw [List.getElem?_eq_getElem (by omega)]
          simp [e1]
        have hin : b.inOfs = 0 := by rw [(ring_in_ne h).2 e1, h.out]; simp
        refine ⟨rfl, rfl, Vec.length_resize _ _ _, by simp, by simp, ?_, ?_, ?_, ?_, by simp, by simp, fun _ => rfl, ?_⟩
        · intro f hf
          simp only [List.mem_singleton] at hf
          subst hf
          show _ = c
          split
          · simp
          · rw [List.length_append, hlast, List.length_replicate]; omega
        · intro h0
          simp only at h0
          simp [h0]
        · show b.outOfs = 0 * c
          rw [h.out]; simp
        · show b.inOfs = _
          rw [hin]; simp
        · intro i k hi hk
          simp only at hi hk ⊢
          have hidx : i * c + k < n * c := idx_lt hi hk
          rw [Nat.zero_add, Nat.mod_eq_of_lt hi]
          have hd : (Vec.resize b.data (n * c) dflt)[i * c + k]? = if i * c + k < s.channels then (row dflt s 0)[i * c + k]? else some dflt := by
            rw [Vec.getElem?_resize _ _ _ _ hidx]
            by_cases hj : i * c + k < b.data.length
            · rw [dif_pos hj, ← ring_data h e1 hj, List.getElem?_eq_getElem hj]
            · rw [dif_neg hj]
              split
              · next hk2 =>
                have hN : s.frames = 0 := by
                  by_contra hN
                  exact hj (by rw [h.len]; exact hk2.trans_le (Nat.le_mul_of_pos_left _ (Nat.pos_of_ne_zero hN)))
                have hr : row dflt s 0 = List.replicate s.channels dflt := by unfold row; rw [h.nil hN]; rfl
                rw [hr, List.getElem?_replicate, if_pos hk2]
              · rfl
          rw [hd, hrow]
          have hn : n ≠ 0 := by omega
          unfold row
          simp only [if_neg hn]
          cases i with
          | succ i =>
            have : ¬ (i + 1) * c + k < s.channels := by
              rw [Nat.succ_mul]
              omega
            rw [if_neg this]
            simp [List.getElem?_replicate, hk]
          | zero =>
            simp only [Nat.zero_mul, Nat.zero_add, List.getElem?_cons_zero, Option.getD_some]
            rw [List.getElem?_append, hlast]
            by_cases hk2 : k < s.channels
            · rw [if_pos hk2, if_pos hk2]
            · rw [if_neg hk2, if_neg hk2, List.getElem?_replicate, if_pos (by omega)]

theorem ring_advance {dflt : T} {b : CBuffer T} {s : Frames T} {p : Nat} (h : Ring dflt b s p) (hN : s.frames ≠ 0) (hC : s.channels ≠ 0) :
    ∃ b' p', b.advance = .ok b' ∧ Ring dflt b' (if s.rows.length < s.frames then { s with rows := s.rows ++ [List.replicate s.channels dflt] }
      else { s with rows := s.rows.tail ++ [s.rows.headD []] }) p' := by
  have hn : s.frames * s.channels ≠ 0 := Nat.mul_ne_zero hN hC
  have hp := h.pos
  have hle : s.rows.length ≤ s.frames := by have := h.le; omega
  have hplt : p < s.frames := by have := h.plt; omega
  have hin : (b.inOfs + b.channels) % (b.frames * b.channels) = (p + s.rows.length) % s.frames * s.channels := by
    rw [h.inn, h.ch, h.fr, ← Nat.succ_mul, Nat.mul_mod_mul_right, Nat.succ_eq_add_one, Nat.mod_add_mod]
    congr 2
    omega
  have hadv : b.advance = .ok { b with inOfs := (p + s.rows.length) % s.frames * s.channels, outOfs := if b.outOfs = (p + s.rows.length) % s.frames * s.channels then (b.outOfs + b.channels) % (b.frames * b.channels) else b.outOfs } := by
    unfold CBuffer.advance
    simp only [hin]
    rw [if_neg (by rw [h.fr, h.ch]; exact hn)]
  rw [hadv]
  by_cases hlt : s.rows.length < s.frames
  · rw [if_pos hlt]
    have hp0 := h.start hlt
    subst hp0
    refine ⟨_, 0, rfl, h.fr, h.ch, h.len, by simp, by simp; omega, ?_, fun e => absurd e hN, ?_, ?_, fun _ => by show 0 < s.channels; omega, by simp, fun _ => rfl, ?_⟩
    · intro f hf
      simp only [List.mem_append, List.mem_singleton] at hf
      rcases hf with hf | rfl
      · exact h.size f hf
      · simp
    · show (if _ then _ else _) = _
      rw [if_neg, h.out]
      rw [h.out, Nat.zero_add, Nat.mod_eq_of_lt hlt]
      intro e
      have := Nat.eq_of_mul_eq_mul_right (by omega) e
      omega
    · simp
    · intro i c hi hc
      simp only at hi hc ⊢
      rw [h.el i c hi hc]
      unfold row
      simp only [List.getElem?_append]
      split
      · rfl
      · next hge =>
        rw [List.getElem?_eq_none (l := s.rows) (by omega)]
        by_cases e : i = s.rows.length
        · simp [e]
        · rw [List.getElem?_eq_none (l := [_]) (by simp; omega)]
  · rw [if_neg hlt]
    have hl : s.rows.length = s.frames := by omega
    have hmod : (p + s.rows.length) % s.frames = p := by rw [hl, Nat.add_mod_right, Nat.mod_eq_of_lt hplt]
    have hlen : (s.rows.tail ++ [s.rows.headD []]).length = s.rows.length := by simp; omega
    refine ⟨_, (p + 1) % s.frames, rfl, h.fr, h.ch, h.len, by simp, ?_, ?_, fun e => absurd e hN, ?_, ?_, ?_, ?_, ?_, ?_⟩
    · simp only [hlen]; exact h.le
    · intro f hf
      simp only [List.mem_append, List.mem_singleton] at hf
      rcases hf with hf | rfl
      · exact h.size f (List.mem_of_mem_tail hf)
      · rcases hr : s.rows with _ | ⟨a, t⟩
        · rw [hr] at hp; simp at hp
        · exact h.size _ (by rw [hr]; simp)
    · show (if _ then _ else _) = _
      rw [if_pos (by rw [h.out, hmod]), h.out, h.ch, h.fr, ← Nat.succ_mul, Nat.mul_mod_mul_right]
    · simp only [hlen]
      rw [hl, Nat.mod_add_mod]
      congr 2
      omega
    · simp only [hlen]; exact h.two
    · have := Nat.mod_lt (p + 1) (show 0 < s.frames by omega)
      show _ < max s.frames 1
      omega
    · simp only [hlen]; intro e; omega
    · intro i c hi hc
      simp only at hi hc ⊢
      have key : ((p + 1) % s.frames + i) % s.frames = (p + (i + 1) % s.frames) % s.frames := by
        rw [Nat.mod_add_mod, Nat.add_mod_mod]
        congr 1
        omega
      rw [key, h.el _ c (Nat.mod_lt _ (by omega)) hc]
      have hrow : row dflt s ((i + 1) % s.frames) = row dflt { s with rows := s.rows.tail ++ [s.rows.headD []] } i := by
        unfold row
        simp only [List.getElem?_append, List.length_tail]
        by_cases hi2 : i < s.rows.length - 1
        · rw [if_pos hi2, Nat.mod_eq_of_lt (by omega), List.getElem?_tail]
        · rw [if_neg hi2]
          have e : i + 1 = s.frames := by omega
          rw [e, Nat.mod_self, show i - (s.rows.length - 1) = 0 by omega]
          rcases hr : s.rows with _ | ⟨a, t⟩
          · rw [hr] at hp; simp at hp
          · simp
      rw [hrow]

theorem ring_step {dflt : T} {b : CBuffer T} {s s' : Frames T} {p : Nat} (h : Ring dflt b s p) {op : Op T} {a : Option Nat}
    (hs : s.step dflt op = some (a, s')) : ∃ b' p', stepOp dflt b op = .ok (a, b') ∧ Ring dflt b' s' p' := by
  cases op with
  | set c v =>
    simp only [Frames.step] at hs
    split at hs
    · next hc =>
      cases hs
      have hslot := Nat.mod_lt (p + (s.rows.length - 1)) hc.2
      have hlt : b.inOfs + c < b.data.length := by rw [h.inn, h.len]; exact idx_lt hslot hc.1
      refine ⟨{ b with data := b.data.set (b.inOfs + c) v }, p, ?_, ?_⟩
      · simp only [stepOp, CBuffer.set, Vec.set_ok hlt]
        rfl
      · have hfl : (s.rows.getLastD []).length = s.channels := by
          rw [getLastD_eq h.pos]; exact h.size _ (List.getElem_mem _)
        refine ring_setLast h hc.2 (by simpa using hfl) (by simp) fun a k hk => ?_
        rw [List.getElem?_set, h.inn]
        by_cases ha : a = (p + (s.rows.length - 1)) % s.frames
        · rw [if_pos ha, List.getElem?_set]
          have hold : b.data[a * s.channels + k]? = (s.rows.getLastD [])[k]? := by
            rw [ha, h.el _ k (by have := h.le; have := h.pos; omega) hk]
            unfold row
            rw [getLastD_eq h.pos, List.getElem?_eq_getElem (l := s.rows) (by have := h.pos; omega)]
            rfl
          by_cases hk2 : c = k
          · subst hk2
            rw [if_pos (by rw [ha]), if_pos rfl, if_pos (by rw [← h.inn]; exact hlt), if_pos (by rw [hfl]; exact hc.1)]
          · rw [if_neg (by rw [ha]; omega), if_neg hk2, hold]
        · rw [if_neg ha, if_neg]
          intro e
          exact ha (cell_inj hc.1 hk e).1.symm
    · cases hs
  | advance =>
    simp only [Frames.step] at hs
    split at hs
    · cases hs
    · next hc =>
      obtain ⟨b', p', h1, h2⟩ := ring_advance h (fun e => hc (.inl e)) (fun e => hc (.inr e))
      refine ⟨b', p', ?_, ?_⟩
      · simp only [stepOp, h1]
        split at hs <;> cases hs <;> rfl
      · split at hs
        · next hl => cases hs; rw [if_pos hl] at h2; exact h2
        · next hl => cases hs; rw [if_neg hl] at h2; exact h2
  | clearBack v =>
    simp only [Frames.step] at hs
    split at hs
    · cases hs
    · next hc =>
      cases hs
      by_cases hN : s.frames = 0
      · have hC : s.channels = 0 := by
          by_contra e
          exact hc ⟨hN, e⟩
        refine ⟨b, p, ?_, ?_⟩
        · have hb : b.channels = 0 := h.ch.trans hC
          have : b.clearBack v = .ok b := by
            unfold clearBack
            rw [hb, clearFrom]
            cases b
            simp only [Res.bind]
            simp_all
          simp only [stepOp, this, Res.map]
        · have e : s.setLast (List.replicate s.channels v) = s := by
            unfold Frames.setLast
            rw [h.nil hN, hC]
            have := h.nil hN
            rw [hC] at this
            cases s
            simp_all
          rw [e]; exact h
      · have hslot := Nat.mod_lt (p + (s.rows.length - 1)) (Nat.pos_of_ne_zero hN)
        have hfit : b.inOfs + 0 + b.channels ≤ b.data.length := by
          rw [h.inn, h.ch, h.len, Nat.add_zero, ← Nat.succ_mul]
          exact Nat.mul_le_mul_right _ hslot
        obtain ⟨d, h1, h2, h3⟩ := clearFrom_ok v b.inOfs b.channels 0 b.data hfit
        refine ⟨{ b with data := d }, p, ?_, ?_⟩
        · simp only [stepOp, clearBack, h1]
          rfl
        · refine ring_setLast h (Nat.pos_of_ne_zero hN) (by simp) h2 fun a k hk => ?_
          rw [h3, h.inn, h.ch]
          by_cases ha : a = (p + (s.rows.length - 1)) % s.frames
          · rw [if_pos ha, if_pos (by rw [ha]; omega), List.getElem?_replicate, if_pos hk]
          · rw [if_neg ha, if_neg]
            rintro ⟨e1, e2⟩
            apply ha
            rw [Nat.add_zero] at e1 e2
            have e3 : a * s.channels + k < ((p + (s.rows.length - 1)) % s.frames + 1) * s.channels := by rw [Nat.succ_mul]; omega
            have e4 : a < (p + (s.rows.length - 1)) % s.frames + 1 := by
              by_contra hge
              have := Nat.mul_le_mul_right s.channels (Nat.not_lt.1 hge)
              omega
            have e5 : (p + (s.rows.length - 1)) % s.frames < a + 1 := by
              by_contra hge
              have := Nat.mul_le_mul_right s.channels (Nat.not_lt.1 hge)
              rw [Nat.succ_mul] at this
              omega
            omega
  | reset =>
    simp only [Frames.step] at hs
    cases hs
    refine ⟨_, 0, rfl, h.fr, h.ch, by simp [reset, h.len], by simp, by simp, by simp, fun _ => rfl, by simp [reset], by simp [reset], by simp, by simp,
      fun _ => rfl, ?_⟩
    intro i c hi hc
    simp only at hi hc ⊢
    have hr : row dflt { s with rows := [List.replicate s.channels dflt] } i = List.replicate s.channels dflt := by
      unfold row
      cases i <;> simp
    rw [hr, reset, List.getElem?_replicate, List.getElem?_replicate, if_pos hc, if_pos]
    rw [Nat.zero_add, Nat.mod_eq_of_lt hi, h.len]
    exact idx_lt hi hc
  | resize n c =>
    simp only [Frames.step, Option.map_eq_some_iff] at hs
    obtain ⟨o, ho, he⟩ := hs
    rcases ring_resize h ho with ⟨rfl, h1⟩ | ⟨s2, rfl, b', h1, h2, -, -⟩
    · simp only at he; cases he
      exact ⟨b, p, by simp only [stepOp, h1], h⟩
    · simp only at he; cases he
      exact ⟨b', 0, by simp only [stepOp, h1], h2⟩
  | addChannel =>
    simp only [Frames.step, Option.map_eq_some_iff] at hs
    obtain ⟨o, ho, he⟩ := hs
    rw [← h.fr, ← h.ch] at ho
    rcases ring_resize h ho with ⟨rfl, h1⟩ | ⟨s2, rfl, b', h1, h2, -, h4⟩
    · simp only at he; cases he
      exact ⟨b, p, by simp only [stepOp, addChannel, h1, Res.bind], h⟩
    · simp only at he; cases he
      exact ⟨b', 0, by simp only [stepOp, addChannel, h1, Res.bind, h4, Nat.add_sub_cancel]; rw [h.ch], h2⟩
  | addFrame =>
    simp only [Frames.step, Option.map_eq_some_iff] at hs
    obtain ⟨o, ho, he⟩ := hs
    rw [← h.fr, ← h.ch] at ho
    rcases ring_resize h ho with ⟨rfl, h1⟩ | ⟨s2, rfl, b', h1, h2, h3, -⟩
    · simp only at he; cases he
      exact ⟨b, p, by simp only [stepOp, addFrame, h1, Res.bind], h⟩
    · simp only at he; cases he
      exact ⟨b', 0, by simp only [stepOp, addFrame, h1, Res.bind, h3, Nat.add_sub_cancel]; rw [h.fr], h2⟩

theorem ring_seen {dflt : T} {b : CBuffer T} {s : Frames T} {p : Nat} (h : Ring dflt b s p) : Seen b s := by
  refine ⟨h.fr, ?_, ?_, ?_⟩
  · rw [CBuffer.empty, decide_eq_true_iff]
    exact ring_in_ne h
  · intro hN c hc
    have hp := h.pos
    have e := h.el 0 c (by omega) hc
    rw [Nat.add_zero, Nat.mod_eq_of_lt (by have := h.plt; omega), ← h.out] at e
    have hr : row dflt s 0 = s.rows.headD [] := by
      unfold row
      rcases hr : s.rows with _ | ⟨a, t⟩
      · rw [hr] at hp; simp at hp
      · simp
    rw [hr] at e
    have hl : (s.rows.headD []).length = s.channels := by rw [← hr]; exact row_length h 0
    refine ⟨(s.rows.headD [])[c]'(by omega), List.getElem?_eq_getElem _, ?_⟩
    rw [List.getElem?_eq_getElem (l := s.rows.headD []) (by omega)] at e
    exact Vec.get_ok e
  · intro hN c hc
    have hp := h.pos
    have hle := h.le
    have e := h.el (s.rows.length - 1) c (by omega) hc
    rw [← h.inn] at e
    have hr : row dflt s (s.rows.length - 1) = s.rows.getLastD [] := by
      unfold row
      rw [getLastD_eq h.pos, List.getElem?_eq_getElem (l := s.rows) (by omega)]
      rfl
    rw [hr] at e
    have hl : (s.rows.getLastD []).length = s.channels := by rw [← hr]; exact row_length h _
    refine ⟨(s.rows.getLastD [])[c]'(by omega), List.getElem?_eq_getElem _, ?_⟩
    rw [List.getElem?_eq_getElem (l := s.rows.getLastD []) (by omega)] at e
    exact Vec.get_ok e

theorem ring_run {dflt : T} (ops : List (Op T)) : ∀ {b : CBuffer T} {s s' : Frames T} {p : Nat} {as : List (Option Nat)}, Ring dflt b s p →
    s.run dflt ops = some (as, s') → ∃ b' p', runOps dflt b ops = .ok (as, b') ∧ Ring dflt b' s' p' := by
  induction ops with
  | nil =>
    intro b s s' p as h hs
    simp only [Frames.run] at hs
    cases hs
    exact ⟨b, p, rfl, h⟩
  | cons op ops ih =>
    intro b s s' p as h hs
    simp only [Frames.run, Option.bind_eq_some_iff, Option.map_eq_some_iff, Prod.exists] at hs
    obtain ⟨a, s1, h1, as', s2, h2, h3⟩ := hs
    cases h3
    obtain ⟨b1, p1, e1, r1⟩ := ring_step h h1
    obtain ⟨b2, p2, e2, r2⟩ := ih r1 h2
    refine ⟨b2, p2, ?_, r2⟩
    simp only [runOps, e1, Res.bind, e2, Res.map]

/-- After every history of operations the buffer shows the frames of the specification, and each operation has answered as the
specification says. Left out are histories with fewer channels than before. -/
theorem C130_history_partial (dflt : T) (n c : Nat) {ops : List (Op T)} {as : List (Option Nat)} {s : Frames T}
    (h : (Frames.new dflt n c).run dflt ops = some (as, s)) : ∃ b, runOps dflt (CBuffer.make dflt n c) ops = .ok (as, b) ∧ Seen b s := by
  obtain ⟨b, p, h1, h2⟩ := ring_run ops (ring_new dflt n c) h
  exact ⟨b, h1, ring_seen h2⟩

/-- Fewer channels: the values of the channels that are gone turn up in the next frame, which should hold the default. -/
theorem C130_fewer_violated : (runOps 0 (CBuffer.make 0 2 2) [.set 1 7, .resize 2 1, .advance]).bind (fun r => r.2.back 0) = .ok 7 := by
  decide

/-- A channel that does not exist: the value is written to another frame, or beyond the array. -/
theorem C130_channel_violated : (runOps 0 (CBuffer.make 0 2 2) [.set 2 7, .advance]).bind (fun r => r.2.back 0) = .ok 7 ∧
    runOps 0 (CBuffer.make 0 2 2) [.set 4 (7 : Nat)] = .ub := by
  constructor
  · decide
  · rfl

/-- A frame that has been dropped comes back as the newest one with its old values. -/
theorem C130_stale (dflt : T) (n c : Nat) {ops : List (Op T)} {as : List (Option Nat)} {s : Frames T}
    (hr : (Frames.new dflt n c).run dflt ops = some (as, s)) (hC : s.channels ≠ 0) (hN : s.frames ≠ 0)
    (hl : s.rows.length = s.frames) : ∃ b b', runOps dflt (CBuffer.make dflt n c) ops = .ok (as, b) ∧ b.advance = .ok b' ∧
      ∀ c, c < s.channels → ∃ v, b.get c = .ok v ∧ b'.back c = .ok v := by
  obtain ⟨b, p, h0, h⟩ := ring_run ops (ring_new dflt n c) hr
  obtain ⟨b', p', h1, h2⟩ := ring_advance h hN hC
  rw [if_neg (by omega)] at h2
  refine ⟨b, b', h0, h1, fun c hc => ?_⟩
  obtain ⟨v, e1, e2⟩ := (ring_seen h).get hN c hc
  obtain ⟨w, e3, e4⟩ := (ring_seen h2).back hN c hc
  refine ⟨v, e2, ?_⟩
  simp only [List.getLastD_concat] at e3
  rw [e1] at e3
  cases e3
  exact e4

example : (Frames.new 0 0 0).run 0 [.addChannel, .addChannel, .addFrame, .addFrame, .set 1 5, .advance, .addChannel, .clearBack 3, .advance, .reset, .addFrame] =
    some ([some 0, some 1, some 0, some 1, some 0, some 0, none, some 0, some 0, some 0, some 2], ⟨3, 2, [[0, 0]]⟩) := by decide
example : (Frames.new 0 2 1).run 0 [.set 0 5, .advance, .set 0 6, .advance] = some ([some 0, some 0, some 0, some 0], ⟨2, 1, [[6], [5]]⟩) := by decide

end Xo.CBuffer
