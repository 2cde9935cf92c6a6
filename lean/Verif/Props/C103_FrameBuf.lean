import Verif.Model.FrameBuf
import Mathlib.Algebra.Ring.Int.Defs
import Mathlib.Data.Nat.ModEq

/-!
C103: the buffer of the most recent frames. What was written to a frame is read from it for as long as it is among the most recent ones.
-/
namespace Xo.Frames
variable {T L : Type}

/-- All frames ever added, without a limit: how many there are, and what was last written to each frame and channel. -/
structure Spec.Log (T : Type) where
  count : Nat
  written : Nat → Nat → Option T
open Spec

def Spec.Log.empty : Log T := ⟨0, fun _ _ => none⟩

def Spec.Log.put (a : Log T) (f c : Nat) (v : T) : Log T :=
  { a with written := fun g d => if g = f ∧ d = c then some v else a.written g d }

def Spec.Log.step (a : Log T) : Op T → Log T
  | .addFrame => { a with count := a.count + 1 }
  | .setNewest c v => a.put (a.count - 1) c v
  | .set f c v => a.put f c v

/-- The frame is one of the `cap` most recent ones. -/
def Spec.Recent (cap count f : Nat) : Prop := f < count ∧ count ≤ f + cap

/-- Only existing channels of recent frames are written to. -/
def Spec.Allowed (cap channels : Nat) (a : Log T) : Op T → Prop
  | .addFrame => True
  | .setNewest c _ => 0 < a.count ∧ c < channels
  | .set f c _ => Recent cap a.count f ∧ c < channels

/-- A history in which that holds for every call. -/
def Spec.AllAllowed (cap channels : Nat) : Log T → List (Op T) → Prop
  | _, [] => True
  | a, op :: ops => Allowed cap channels a op ∧ AllAllowed cap channels (a.step op) ops

def Spec.Log.run (a : Log T) : List (Op T) → Log T
  | [] => a
  | op :: ops => Log.run (a.step op) ops

structure Inv (cap channels : Nat) (b : Buf T L) (a : Log T) : Prop where
  size : b.frameSize = a.count
  room : b.capacity = cap
  chan : b.channels = channels
  len : b.data.length = cap * channels
  known : ∀ f c v, a.written f c = some v → f < a.count ∧ c < channels
  read : ∀ f c v, a.written f c = some v → Recent cap a.count f → b.data[(f % cap) * channels + c]? = some v

theorem wrap_nat {n : Nat} (h : n < 18446744073709551616) : wrap (n : Int) = n := by unfold wrap; omega

theorem place_lt {cap channels f c : Nat} (hc : c < channels) (h0 : 0 < cap) : (f % cap) * channels + c < cap * channels := by
  have h1 : f % cap < cap := Nat.mod_lt _ h0
  calc (f % cap) * channels + c < (f % cap) * channels + channels := by omega
    _ = (f % cap + 1) * channels := by rw [Nat.add_mul, Nat.one_mul]
    _ ≤ cap * channels := Nat.mul_le_mul_right _ h1

theorem place_inj {channels r r' c c' : Nat} (hc : c < channels) (hc' : c' < channels) (h : r * channels + c = r' * channels + c') :
    r = r' ∧ c = c' := by
  have e1 : (r * channels + c) / channels = r := by
    rw [Nat.mul_comm, Nat.mul_add_div (by omega), Nat.div_eq_of_lt hc, Nat.add_zero]
  have e2 : (r' * channels + c') / channels = r' := by
    rw [Nat.mul_comm, Nat.mul_add_div (by omega), Nat.div_eq_of_lt hc', Nat.add_zero]
  have : r = r' := by rw [← e1, h, e2]
  subst this
  exact ⟨rfl, by omega⟩

/-- Two recent frames are in the same place only if they are the same. -/
theorem recent_inj {cap n f g : Nat} (hf : Recent cap n f) (hg : Recent cap n g) (h : f % cap = g % cap) : f = g := by
  obtain ⟨f1, f2⟩ := hf
  obtain ⟨g1, g2⟩ := hg
  rcases Nat.lt_trichotomy f g with hl | hl | hl
  · have := (Nat.modEq_iff_dvd' hl.le).1 h
    have := Nat.le_of_dvd (by omega) this
    omega
  · exact hl
  · have := (Nat.modEq_iff_dvd' hl.le).1 h.symm
    have := Nat.le_of_dvd (by omega) this
    omega

theorem set_inv {cap channels : Nat} {b : Buf T L} {a : Log T} (h : Inv cap channels b a) (h0 : 0 < cap) (f c : Nat) (v : T)
    (hf : Recent cap a.count f) (hc : c < channels) : ∃ b', b.set f c v = .ok b' ∧ Inv cap channels b' (a.put f c v) := by
  have hlt := place_lt (f := f) hc h0
  refine ⟨{ b with data := b.data.set ((f % cap) * channels + c) v }, ?_, ?_⟩
  · unfold Buf.set Buf.place
    rw [h.room, h.chan, if_neg (by omega)]
    simp only [Res.bind_ok]
    rw [if_pos (by rw [h.len]; exact hlt)]
  · refine ⟨h.size, h.room, h.chan, by simpa using h.len, ?_, ?_⟩
    · intro g d w hw
      simp only [Log.put] at hw ⊢
      split at hw
      · next e => rw [e.1, e.2]; exact ⟨hf.1, hc⟩
      · exact h.known g d w hw
    · intro g d w hw hg
      simp only [Log.put] at hw hg ⊢
      split at hw
      · next e =>
        rw [e.1, e.2, List.getElem?_set_self (by rw [h.len]; exact hlt)]
        exact hw
      · next e =>
        have hd := (h.known g d w hw).2
        rw [List.getElem?_set_ne]
        · exact h.read g d w hw hg
        · intro heq
          obtain ⟨e1, e2⟩ := place_inj hc hd heq
          exact e ⟨(recent_inj hf hg e1).symm, e2.symm⟩

theorem step_inv {cap channels : Nat} {b : Buf T L} {a : Log T} (h : Inv cap channels b a) (h0 : 0 < cap) (op : Op T)
    (ha : Allowed cap channels a op) (hn : a.count + 1 < 18446744073709551616) :
    ∃ b', step b op = .ok b' ∧ Inv cap channels b' (a.step op) := by
  cases op with
  | addFrame =>
    refine ⟨_, rfl, ?_, h.room, h.chan, h.len, ?_, ?_⟩
    · show wrap ((b.frameSize : Int) + 1) = a.count + 1
      have := wrap_nat hn
      rw [h.size]
      exact this
    · intro f c v hw
      have := h.known f c v hw
      exact ⟨by show f < a.count + 1; omega, this.2⟩
    · intro f c v hw hr
      have := (h.known f c v hw).1
      refine h.read f c v hw ⟨this, ?_⟩
      have := hr.2
      simp only [Log.step] at this
      omega
  | setNewest c v =>
    obtain ⟨h1, h2⟩ := ha
    show ∃ b', b.set (wrap ((b.frameSize : Int) - 1)) c v = .ok b' ∧ _
    have e : wrap ((b.frameSize : Int) - 1) = a.count - 1 := by
      rw [h.size, show ((a.count : Int) - 1) = ((a.count - 1 : Nat) : Int) by omega]
      exact wrap_nat (by omega)
    rw [e]
    exact set_inv h h0 _ c v ⟨by omega, by omega⟩ h2
  | set f c v => exact set_inv h h0 f c v ha.1 ha.2

theorem count_run (ops : List (Op T)) (a : Log T) : (a.run ops).count ≤ a.count + ops.length := by
  induction ops generalizing a with
  | nil => exact Nat.le_refl _
  | cons op ops ih =>
    have := ih (a.step op)
    have h2 : (a.step op).count ≤ a.count + 1 := by cases op <;> simp [Log.step, Log.put]
    simp only [Log.run, List.length_cons]
    omega

theorem run_inv {cap channels : Nat} (h0 : 0 < cap) (ops : List (Op T)) : ∀ {b : Buf T L} {a : Log T}, Inv cap channels b a →
    AllAllowed cap channels a ops → a.count + ops.length < 18446744073709551616 → ∃ b', run b ops = .ok b' ∧ Inv cap channels b' (a.run ops) := by
  induction ops with
  | nil => intro b a h _ _; exact ⟨b, rfl, h⟩
  | cons op ops ih =>
    intro b a h hall hn
    simp only [List.length_cons] at hn
    obtain ⟨b1, e1, h1⟩ := step_inv h h0 op hall.1 (by omega)
    have h2 : (a.step op).count ≤ a.count + 1 := by cases op <;> simp [Log.step, Log.put]
    obtain ⟨b2, e2, h3⟩ := ih h1 hall.2 (by omega)
    exact ⟨b2, by unfold run; rw [e1]; exact e2, h3⟩

theorem make_inv (d : T) (dl : L) (channels frames : Nat) : Inv frames channels (make d dl channels frames) Log.empty := by
  refine ⟨rfl, rfl, ?_, ?_, ?_, ?_⟩
  · simp [make, Buf.channels, LabelVector.ofSize, LabelVector.size]
  · simp [make]
  · intro f c v h; cases h
  · intro f c v h; cases h

theorem get_of_inv {cap channels : Nat} {b : Buf T L} {a : Log T} (h : Inv cap channels b a) (h0 : 0 < cap) {f c : Nat} {v : T}
    (hw : a.written f c = some v) (hf : Recent cap a.count f) : b.get f c = .ok v := by
  unfold Buf.get Buf.place
  rw [h.room, h.chan, if_neg (by omega)]
  simp only [Res.bind_ok, h.read f c v hw hf]
  rfl

/-- **C103 (partial: `at` only once the buffer is full).** After any history of added frames and writes to recent frames, no call was undefined, and
a recent frame still holds what was last written to it: by its number, counted back from the newest, as the newest, and with bounds checking once as
many frames were added as fit. -/
theorem C103_read_partial (d : T) (dl : L) (channels frames : Nat) (h0 : 0 < frames) (ops : List (Op T))
    (hall : AllAllowed frames channels (Log.empty : Log T) ops) (hn : ops.length < 18446744073709551616) :
    ∃ b, run (make d dl channels frames) ops = .ok b ∧ b.frameSize = ((Log.empty : Log T).run ops).count ∧ b.channels = channels ∧
      ∀ f c v, ((Log.empty : Log T).run ops).written f c = some v → Recent frames b.frameSize f →
        b.get f c = .ok v ∧ (b.frameSize = f + 1 → b.newest c = .ok v) ∧ b.reverse (b.frameSize - 1 - f) c = .ok v ∧
        (frames ≤ b.frameSize → b.at' f c = .ok v) := by
  obtain ⟨b, e, h⟩ := run_inv h0 ops (make_inv d dl channels frames) hall (by simpa [Log.empty] using hn)
  refine ⟨b, e, h.size, h.chan, ?_⟩
  intro f c v hw hr
  have hcnt : b.frameSize < 18446744073709551616 := by
    have := count_run ops (Log.empty : Log T)
    rw [h.size]
    simp only [Log.empty] at this ⊢
    omega
  have hg : b.get f c = .ok v := get_of_inv h h0 hw (by rw [← h.size]; exact hr)
  have hr1 := hr.1
  refine ⟨hg, ?_, ?_, ?_⟩
  · intro hs
    unfold Buf.newest
    rw [show ((b.frameSize : Int) - 1) = ((f : Nat) : Int) by omega, wrap_nat (by omega)]
    exact hg
  · unfold Buf.reverse
    rw [show ((b.frameSize : Int) - ((b.frameSize - 1 - f : Nat) : Int) - 1) = ((f : Nat) : Int) by omega, wrap_nat (by omega)]
    exact hg
  · intro hfull
    unfold Buf.at'
    rw [h.room, h.chan, show ((b.frameSize : Int) - (frames : Int)) = ((b.frameSize - frames : Nat) : Int) by omega, wrap_nat (by omega)]
    rw [if_pos ⟨by have := hr.2; omega, hr1, (h.known f c v hw).2⟩]
    exact hg

/-- **C103 (partial: not for the newest frame).** Between two recent frames, the interpolated value is that of the two frames. -/
theorem C103_interpolated_partial [Ring T] (d : T) (dl : L) (channels frames : Nat) (h0 : 0 < frames) (ops : List (Op T))
    (hall : AllAllowed frames channels (Log.empty : Log T) ops) (hn : ops.length < 18446744073709551616) :
    ∃ b, run (make d dl channels frames) ops = .ok b ∧ ∀ f c v w pos, ((Log.empty : Log T).run ops).written f c = some v →
      ((Log.empty : Log T).run ops).written (f + 1) c = some w → Recent frames b.frameSize f → f + 1 < b.frameSize →
      b.interpolated f c pos = .ok ((1 - pos) * v + pos * w) := by
  obtain ⟨b, e, h⟩ := run_inv h0 ops (make_inv d dl channels frames) hall (by simpa [Log.empty] using hn)
  refine ⟨b, e, ?_⟩
  intro f c v w pos hv hw hr hs
  have hcnt : b.frameSize < 18446744073709551616 := by
    have := count_run ops (Log.empty : Log T)
    rw [h.size]
    simp only [Log.empty] at this ⊢
    omega
  unfold Buf.interpolated
  rw [h.chan, if_pos ⟨hr.1, (h.known f c v hv).2⟩]
  rw [show ((f : Int) + 1) = ((f + 1 : Nat) : Int) by omega, wrap_nat (by omega)]
  rw [get_of_inv h h0 hv (by rw [← h.size]; exact hr), get_of_inv h h0 hw (by rw [← h.size]; exact ⟨hs, by have := hr.2; omega⟩)]
  rfl

/-- **C103 is violated until the buffer is full**: access with bounds checking throws for every frame and channel. -/
theorem C103_at_violated (b : Buf T L) (h : b.frameSize < b.capacity) (hc : b.capacity < 2 ^ 63) (f c : Nat) : b.at' f c = .err := by
  unfold Buf.at'
  rw [if_neg]
  rintro ⟨h1, h2, -⟩
  unfold wrap at h1
  omega

/-- **C103 is violated by the result of `add_frame`**: it is not the number of the new frame, and access with bounds checking throws. -/
theorem C103_add_frame_violated (b : Buf T L) (c : Nat) : b.addFrame.2.at' b.addFrame.1 c = .err := by
  unfold Buf.at'
  rw [if_neg]
  rintro ⟨-, h2, -⟩
  exact Nat.lt_irrefl _ h2

/-- **C103 is violated by adding a channel to a new buffer**: there is room for no frame, and every access is undefined, after any frames are added. -/
theorem C103_add_channel_violated [DecidableEq L] (d : T) (dl : L) (channels frames : Nat) (label : L) (i : Nat) (b : Buf T L)
    (h : (make d dl channels frames).addChannel d dl label = .ok (i, b)) (k f c : Nat) (v : T) :
    { b with frameSize := k }.get f c = .ub ∧ { b with frameSize := k }.set f c v = .ub ∧ { b with frameSize := k }.newest c = .ub := by
  have hcap : b.capacity = 0 := by
    unfold Buf.addChannel Buf.resize at h
    cases hr : (make d dl channels frames).labels.resize dl ((make d dl channels frames).channels + 1) with
    | err => rw [hr] at h; cases h
    | ub => rw [hr] at h; cases h
    | ok l =>
      rw [hr] at h
      simp only [Res.bind_ok] at h
      cases hs : LabelVector.set l (Buf.channels ⟨(make d dl channels frames).frameSize, (make d dl channels frames).frameSize,
          List.replicate ((make d dl channels frames).frameSize * ((make d dl channels frames).channels + 1)) d, l⟩ - 1) label with
      | err => rw [hs] at h; cases h
      | ub => rw [hs] at h; cases h
      | ok l' =>
        rw [hs] at h
        simp only [Res.bind_ok, Res.ok.injEq, Prod.mk.injEq] at h
        rw [← h.2]
        rfl
  unfold Buf.newest Buf.get Buf.set Buf.place
  simp [hcap]

/-- The conditions of `C103_add_channel_violated` can be met. -/
example : ∃ i b, (make (0 : Int) "" 1 3).addChannel 0 "" "x" = .ok (i, b) := ⟨_, _, rfl⟩

/-- **C103 is violated by interpolation at the newest frame**: in a full buffer the other value is that of the oldest frame. -/
theorem C103_interpolated_violated [Ring T] (b : Buf T L) (c : Nat) (pos x y : T) (h0 : 0 < b.capacity) (hf : b.capacity ≤ b.frameSize)
    (hn : b.frameSize < 18446744073709551616) (hc : c < b.channels) (hx : b.get (b.frameSize - 1) c = .ok x)
    (hy : b.get (b.frameSize - b.capacity) c = .ok y) : b.interpolated (b.frameSize - 1) c pos = .ok ((1 - pos) * x + pos * y) := by
  unfold Buf.interpolated
  rw [if_pos ⟨by omega, hc⟩, hx]
  rw [show (((b.frameSize - 1 : Nat) : Int) + 1) = ((b.frameSize : Nat) : Int) by omega, wrap_nat hn]
  have : b.get b.frameSize c = b.get (b.frameSize - b.capacity) c := by
    unfold Buf.get Buf.place
    rw [← Nat.mod_eq_sub_mod hf]
  rw [this, hy]
  rfl

/-- **C103 is violated by access to a constant buffer**: no value is returned. -/
theorem C103_const_violated (b : Buf T L) (f c : Nat) : b.constGet f c = .ub := rfl

/-- **C103.** Setting the number of frames, or of frames and channels, makes room for them, forgets the contents and keeps the count of frames. -/
theorem C103_resize (b : Buf T L) (dl : L) (nf nc : Nat) (v : T) (hc : b.channels ≤ nc) (h0 : 0 < nf) (f c : Nat) :
    (c < b.channels → (b.resizeFrames nf v).get f c = .ok v) ∧ (b.resizeFrames nf v).frameSize = b.frameSize ∧
    ∃ b', b.resize dl nf nc v = .ok b' ∧ b'.channels = nc ∧ b'.frameSize = b.frameSize ∧ (c < nc → b'.get f c = .ok v) := by
  refine ⟨?_, rfl, ?_⟩
  · intro hlt
    have e : (b.resizeFrames nf v).place f c = .ok ((f % nf) * b.channels + c) := if_neg (by show ¬ nf = 0; omega)
    unfold Buf.get
    rw [e]
    show Res.ofOptionUb (List.replicate (nf * b.channels) v)[(f % nf) * b.channels + c]? = .ok v
    rw [List.getElem?_replicate, if_pos (place_lt hlt h0)]
    rfl
  · unfold Buf.resize LabelVector.resize
    rw [if_neg (by simpa [Buf.channels, LabelVector.size] using hc)]
    refine ⟨_, rfl, ?_, rfl, ?_⟩
    · simp only [Buf.channels, LabelVector.size, List.length_append, List.length_replicate] at hc ⊢
      omega
    · intro hlt
      have hch : (LabelVector.mk (b.labels.labels ++ List.replicate (nc - b.labels.labels.length) dl) b.labels.idx).size = nc := by
        simp only [Buf.channels, LabelVector.size, List.length_append, List.length_replicate] at hc ⊢
        omega
      unfold Buf.get Buf.place
      simp only [Buf.channels, hch]
      rw [if_neg (by omega)]
      simp only [Res.bind_ok]
      rw [List.getElem?_replicate, if_pos (place_lt hlt h0)]
      rfl

/-! ### An example: three frames of two channels -/

def exampleOps : List (Op Int) := [.addFrame, .setNewest 0 1, .addFrame, .setNewest 0 2, .addFrame, .setNewest 0 3, .setNewest 1 5, .addFrame,
  .setNewest 0 4, .set 2 1 6]

example : AllAllowed 3 2 (Log.empty : Log Int) exampleOps := by
  simp [AllAllowed, exampleOps, Allowed, Recent, Log.step, Log.put, Log.empty]

example : ((run (make (0 : Int) "" 2 3) exampleOps).map fun b => (b.frameSize, b.data)) = .ok (4, [4, 0, 2, 0, 3, 6]) := by decide

example : (run (make (0 : Int) "" 2 3) exampleOps >>= fun b => b.at' 1 0) = .ok 2 ∧
    (run (make (0 : Int) "" 2 3) exampleOps >>= fun b => b.reverse 1 1) = .ok 6 ∧
    (run (make (0 : Int) "" 2 3) exampleOps >>= fun b => b.interpolated 3 0 1) = .ok 2 := by decide

end Xo.Frames
