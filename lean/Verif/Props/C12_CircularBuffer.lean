import Verif.Model.Circular
import Verif.Spec.Frames
import Verif.Lemmas.Storage
import Mathlib.Data.List.Basic

/-!
C12: `circular_buffer`. The readers are `get`/`front` (oldest readable frame), `back` (frame being filled) and
`empty`.
-/
namespace Xo
open Spec
variable {T : Type}

namespace CBuffer

/-- A history; it stops at the first call that does not return. -/
def run (b : CBuffer T) : List (FrameOp T) → Res (CBuffer T)
  | [] => .ok b
  | .set c v :: ops => (b.set c v).bind fun b' => run b' ops
  | .advance :: ops => b.advance.bind fun b' => run b' ops

/-- Slot `k % N` holds frame `k` for the last `N` frames up to the one being filled. -/
structure Rel (N C : Nat) (b : CBuffer T) (n : Nat) (F : Nat → Nat → Option T) : Prop where
  fr : b.frames = N
  ch : b.channels = C
  len : b.data.length = N * C
  inn : b.inOfs = n % N * C
  out : b.outOfs = (n - min n (N - 1)) % N * C
  el : ∀ k c v, k ≤ n → n < k + N → c < C → F k c = some v → b.data[k % N * C + c]? = some v
  fresh : ∀ k c, n < k → F k c = none

theorem mod_ne {N k n : Nat} (h1 : k < n) (h2 : n < k + N) : k % N ≠ n % N := by
  intro h
  obtain ⟨d, rfl⟩ : ∃ d, n = k + d := ⟨n - k, by omega⟩
  have hN : 0 < N := by omega
  have h3 : (k + d) % N = (k % N + d) % N := by rw [Nat.mod_add_mod]
  have hk := Nat.mod_lt k hN
  rw [h3] at h
  by_cases hc : k % N + d < N
  · rw [Nat.mod_eq_of_lt hc] at h; omega
  · have h4 : (k % N + d) % N = k % N + d - N := by
      rw [Nat.mod_eq_sub_mod (by omega), Nat.mod_eq_of_lt (by omega)]
    omega

theorem set_rel {N C : Nat} {b : CBuffer T} {n : Nat} {F : Nat → Nat → Option T} (hN : 0 < N) (h : Rel N C b n F)
    (c : Nat) (hc : c < C) (v : T) :
    ∃ b', b.set c v = .ok b' ∧ Rel N C b' n (fun k c' => if n = k ∧ c = c' then some v else F k c') := by
  have hlt : b.inOfs + c < b.data.length := by
    rw [h.len, h.inn]; exact idx_lt (Nat.mod_lt _ hN) hc
  refine ⟨{ b with data := b.data.set (b.inOfs + c) v }, ?_, h.fr, h.ch, by simp [h.len], h.inn, h.out, ?_, ?_⟩
  · simp [CBuffer.set, Vec.set_ok hlt, Res.bind]
  · intro k c' w hk hn hc' hw
    simp only at hw ⊢
    split at hw
    · next he =>
      obtain ⟨rfl, rfl⟩ := he
      cases hw
      rw [h.inn] at hlt ⊢
      exact List.getElem?_set_self hlt
    · next he =>
      rw [List.getElem?_set_ne]
      · exact h.el k c' w hk hn hc' hw
      · rw [h.inn]
        intro hh
        obtain ⟨h1, h2⟩ := idx_inj hc hc' hh
        rcases Nat.eq_or_lt_of_le hk with rfl | hlt
        · exact he ⟨rfl, h2⟩
        · exact mod_ne hlt hn h1.symm
  · intro k c' hk
    rw [if_neg (by omega)]; exact h.fresh k c' hk

theorem advance_rel {N C : Nat} {b : CBuffer T} {n : Nat} {F : Nat → Nat → Option T} (hN : 0 < N) (hC : 0 < C)
    (h : Rel N C b n F) : ∃ b', b.advance = .ok b' ∧ Rel N C b' (n + 1) F := by
  have hpos : N * C ≠ 0 := Nat.ne_of_gt (Nat.mul_pos hN hC)
  have hin : (n % N * C + C) % (N * C) = (n + 1) % N * C := by
    rw [← Nat.succ_mul, Nat.mul_mod_mul_right, Nat.succ_eq_add_one, Nat.mod_add_mod]
  have hout : ((n - min n (N - 1)) % N * C + C) % (N * C) = (n - min n (N - 1) + 1) % N * C := by
    rw [← Nat.succ_mul, Nat.mul_mod_mul_right, Nat.succ_eq_add_one, Nat.mod_add_mod]
  refine ⟨{ b with inOfs := (n + 1) % N * C, outOfs := (n + 1 - min (n + 1) (N - 1)) % N * C }, ?_,
    h.fr, h.ch, h.len, rfl, rfl, ?_, ?_⟩
  · simp only [advance, h.fr, h.ch, if_neg hpos, h.inn, h.out, hin, hout]
    by_cases hsmall : n + 1 < N
    · have h0 : n - min n (N - 1) = 0 := by omega
      have h1 : n + 1 - min (n + 1) (N - 1) = 0 := by omega
      rw [h0, h1, if_neg]
      rw [Nat.zero_mod, Nat.mod_eq_of_lt hsmall]
      intro hh
      have := Nat.mul_pos (Nat.succ_pos n) hC
      simp only [Nat.succ_eq_add_one] at this
      omega
    · obtain ⟨o, ho⟩ : ∃ o, n + 1 = o + N := ⟨n + 1 - N, by omega⟩
      have h0 : n - min n (N - 1) = o := by omega
      have h1 : n + 1 - min (n + 1) (N - 1) = o + 1 := by omega
      rw [h0, h1, if_pos]
      rw [ho, Nat.add_mod_right]
  · intro k c v hk hn hc hF
    rcases Nat.eq_or_lt_of_le hk with rfl | hlt
    · rw [h.fresh _ _ (Nat.lt_succ_self _)] at hF; cases hF
    · exact h.el k c v (by omega) (by omega) hc hF
  · intro k c hk; exact h.fresh k c (by omega)

theorem run_rel {N C : Nat} (hN : 0 < N) (hC : 0 < C) (ops : List (FrameOp T)) :
    ∀ (b : CBuffer T) (n : Nat) (F : Nat → Nat → Option T), channelsBelow C ops → Rel N C b n F →
      ∃ b', b.run ops = .ok b' ∧ Rel N C b' (n + completed ops) (fun k c => lastSet k c n (F k c) ops) := by
  induction ops with
  | nil => intro b n F _ h; exact ⟨b, rfl, h⟩
  | cons op ops ih =>
    intro b n F hch h
    have hch' : channelsBelow C ops := fun c v hm => hch c v (by simp [hm])
    cases op with
    | set c v =>
      obtain ⟨b1, e1, h1⟩ := set_rel hN h c (hch c v (by simp)) v
      obtain ⟨b2, e2, h2⟩ := ih b1 n _ hch' h1
      exact ⟨b2, by simp [run, e1, Res.bind, e2], h2⟩
    | advance =>
      obtain ⟨b1, e1, h1⟩ := advance_rel hN hC h
      obtain ⟨b2, e2, h2⟩ := ih b1 (n + 1) _ hch' h1
      refine ⟨b2, by simp [run, e1, Res.bind, e2], ?_⟩
      rw [show n + completed (FrameOp.advance :: ops) = n + 1 + completed ops by simp only [completed]; omega]
      exact h2

end CBuffer
open CBuffer

/-- **C12.** For every buffer of `N` frames and `C` channels and every history of `set` and `advance`: no call is
undefined; with `n` completed frames the buffer is empty exactly if none of them is readable (`min n (N-1) = 0`);
`get` reads the oldest of the `min n (N-1)` most recent frames and `back` the frame being filled, and for each
channel written in that frame they give the value written last. -/
theorem C12_oldest_readable_frame (dflt : T) (N C : Nat) (hN : 0 < N) (hC : 0 < C) (ops : List (FrameOp T))
    (hch : channelsBelow C ops) :
    ∃ b, (CBuffer.make dflt N C).run ops = .ok b ∧
      b.empty = decide (min (completed ops) (N - 1) = 0) ∧
      (∀ c v, c < C → lastSet (completed ops - min (completed ops) (N - 1)) c 0 none ops = some v →
        b.get c = .ok v) ∧
      (∀ c v, c < C → lastSet (completed ops) c 0 none ops = some v → b.back c = .ok v) ∧
      (∀ c, c < C → (b.get c).isOk ∧ (b.back c).isOk) := by
  have h0 : CBuffer.Rel N C (CBuffer.make dflt N C) 0 (fun _ _ => none) :=
    ⟨rfl, rfl, by simp [CBuffer.make], by simp [CBuffer.make], by simp [CBuffer.make],
      fun _ _ _ _ _ _ h => (by cases h), fun _ _ _ => rfl⟩
  obtain ⟨b, e, h⟩ := run_rel hN hC ops _ _ _ hch h0
  rw [Nat.zero_add] at h
  generalize completed ops = n at h
  refine ⟨b, e, ?_, ?_, ?_, ?_⟩
  · simp only [CBuffer.empty, h.inn, h.out, decide_eq_decide]
    constructor
    · intro he
      have := Nat.eq_of_mul_eq_mul_right hC he
      by_contra hne
      exact mod_ne (N := N) (k := n - min n (N - 1)) (n := n) (by omega) (by omega) this.symm
    · intro he; rw [he, Nat.sub_zero]
  · intro c v hc hl
    have := h.el (n - min n (N - 1)) c v (by omega) (by omega) hc hl
    rw [← h.out] at this
    exact Vec.get_ok this
  · intro c v hc hl
    have := h.el n c v (by omega) (by omega) hc hl
    rw [← h.inn] at this
    exact Vec.get_ok this
  · intro c hc
    have h1 : b.outOfs + c < b.data.length := by rw [h.len, h.out]; exact idx_lt (Nat.mod_lt _ hN) hc
    have h2 : b.inOfs + c < b.data.length := by rw [h.len, h.inn]; exact idx_lt (Nat.mod_lt _ hN) hc
    constructor
    · unfold CBuffer.get; rw [Vec.get_ok (List.getElem?_eq_getElem h1)]; rfl
    · unfold CBuffer.back; rw [Vec.get_ok (List.getElem?_eq_getElem h2)]; rfl

/-- A buffer without frames or without channels cannot be advanced: the offset is taken modulo zero. -/
theorem C12_advance_empty_shape (dflt : T) (N C : Nat) (h : N = 0 ∨ C = 0) :
    (CBuffer.make dflt N C).advance = .ub := by
  have : N * C = 0 := by rcases h with h | h <;> simp [h]
  simp [CBuffer.advance, CBuffer.make, this]

/-- `resize` is refused exactly when frames are readable; it never moves offsets. -/
theorem C12_resize (dflt : T) (b : CBuffer T) (N C : Nat) :
    b.resize dflt N C = .err ↔ b.empty = false := by
  unfold CBuffer.resize CBuffer.empty
  by_cases h : b.inOfs = b.outOfs <;> simp [h]

/-- A channel not written in a frame keeps the value from `N` frames before. -/
example : ((CBuffer.make (0 : Nat) 2 1).run [.set 0 7, .advance, .advance]).bind (fun b => b.back 0) = .ok 7 := by rfl

/-- Three frames through a buffer of three: the second is the oldest readable one. -/
example : lastSet (completed ([.set 0 1, .set 1 2, .advance, .set 0 3, .advance, .set 0 4, .advance, .set 0 5] :
    List (FrameOp Nat)) - min 3 2) 0 0 none
    ([.set 0 1, .set 1 2, .advance, .set 0 3, .advance, .set 0 4, .advance, .set 0 5] : List (FrameOp Nat)) = some 3 := by
  rfl

end Xo
