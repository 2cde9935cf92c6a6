import Verif.Lemmas.Storage

/-! C08: `storage` never moves or loses a cell. -/
namespace Xo
open Spec
variable {T L : Type} [DecidableEq L]

namespace Spec
/-- Calls on a storage. -/
inductive StorageOp (T L : Type) where
  | addChannel (l : L) (v : T)
  | addChannelData (l : L) (d : List T)
  | addFrame (v : T)
  | addFrameData (d : List T)
  | resize (frames channels : Nat) (v : T)
  | write (f c : Nat) (v : T)
  | setLabel (c : Nat) (l : L)

/-- What a successful call does to the matrix (rows are frames, columns are channels). -/
def storageStep (dflt : T) (m : Matrix T) : StorageOp T L → Matrix T
  | .addChannel _ v => m.grow m.rows (m.cols + 1) v
  | .addChannelData _ d => m.addCol d dflt
  | .addFrame v => m.grow (m.rows + 1) m.cols v
  | .addFrameData d => m.addRow d dflt
  | .resize f c v => m.grow f c v
  | .write f c v => m.write f c v
  | .setLabel _ _ => m

/-- A history with its outcomes (`true`: the call returned normally, `false`: it threw). A throwing call may leave
the storage larger, but never changes an existing cell. -/
inductive StorageHist (dflt : T) : Matrix T → List (StorageOp T L) → List Bool → Matrix T → Prop where
  | nil (m) : StorageHist dflt m [] [] m
  | ok {m op ops outs m'} : StorageHist dflt (storageStep dflt m op) ops outs m' →
      StorageHist dflt m (op :: ops) (true :: outs) m'
  | threw {m op ops outs m'} (R C : Nat) (v : T) : m.rows ≤ R → m.cols ≤ C →
      StorageHist dflt (m.grow R C v) ops outs m' → StorageHist dflt m (op :: ops) (false :: outs) m'
end Spec

namespace Storage

/-- One call on the model. -/
def step (ldflt : L) (dflt : T) (s : Storage T L) : StorageOp T L → Res Unit × Storage T L
  | .addChannel l v => ((s.addChannel ldflt l v).1.map fun _ => (), (s.addChannel ldflt l v).2)
  | .addChannelData l d =>
    ((s.addChannelData ldflt dflt l d).1.map fun _ => (), (s.addChannelData ldflt dflt l d).2)
  | .addFrame v => (.ok (), s.addFrame v)
  | .addFrameData d => match s.addFrameData dflt d with
    | .ok s' => (.ok (), s')
    | .err => (.err, s)
    | .ub => (.ub, s)
  | .resize f c v => match s.resize ldflt f c v with
    | .ok s' => (.ok (), s')
    | .err => (.err, s)
    | .ub => (.ub, s)
  | .write f c v => match s.write f c v with
    | .ok s' => (.ok (), s')
    | .err => (.err, s)
    | .ub => (.ub, s)
  | .setLabel c l => match s.labels.set c l with
    | .ok labels => (.ok (), { s with labels := labels })
    | .err => (.err, s)
    | .ub => (.ub, s)

def run (ldflt : L) (dflt : T) (s : Storage T L) : List (StorageOp T L) → List (Res Unit) × Storage T L
  | [] => ([], s)
  | op :: ops =>
    let (o, s1) := s.step ldflt dflt op
    let (os, s2) := run ldflt dflt s1 ops
    (o :: os, s2)

/-- `operator()` has no bounds check: the caller keeps writes within `frame_size()` and `channel_size()`. -/
def InRange (s : Storage T L) : StorageOp T L → Prop
  | .write f c _ => f < s.frames ∧ c < s.channels
  | _ => True

/-- All writes of a history are in range at the time they are made. -/
def Valid (ldflt : L) (dflt : T) (s : Storage T L) : List (StorageOp T L) → Prop
  | [] => True
  | op :: ops => s.InRange op ∧ Valid ldflt dflt (s.step ldflt dflt op).2 ops

/-- The storage holds this matrix. -/
def Rel (s : Storage T L) (m : Matrix T) : Prop :=
  s.frames = m.rows ∧ s.channels = m.cols ∧ Holds s.data m.rows m.cols m.cell

theorem resize_ok (ldflt : L) {s : Storage T L} {m : Matrix T} (h : Rel s m) {F C : Nat}
    (hF : m.rows ≤ F) (hC : m.cols ≤ C) (v : T) :
    ∃ s', s.resize ldflt F C v = .ok s' ∧ Rel s' (m.grow F C v) ∧
      s'.labels.idx = s.labels.idx := by
  obtain ⟨hf, hc, hd⟩ := h
  have hn : ¬ (F < s.frames ∨ C < s.channels) := by omega
  have hcs : s.labels.labels.length = m.cols := hc
  by_cases hg : C > s.channels
  · have hlab : s.labels.resize ldflt C =
        .ok ⟨s.labels.labels ++ List.replicate (C - s.labels.labels.length) ldflt, s.labels.idx⟩ := by
      unfold LabelVector.resize; rw [if_neg]
      rw [hcs]; omega
    by_cases h1 : s.frames > 1
    · obtain ⟨new, e, hh⟩ := copyCells_ok hd hF hC v
      refine ⟨⟨F, ⟨s.labels.labels ++ List.replicate (C - s.labels.labels.length) ldflt, s.labels.idx⟩, new⟩,
        ?_, ⟨rfl, ?_, hh⟩, ?_⟩
      · simp only [resize, if_neg hn, if_pos hg, if_pos h1]
        rw [hf, hc, e]; simp [Res.bind, hlab]
      · simp only [channels, LabelVector.size, List.length_append, List.length_replicate, Matrix.grow]
        omega
      · rfl
    · refine ⟨⟨F, ⟨s.labels.labels ++ List.replicate (C - s.labels.labels.length) ldflt, s.labels.idx⟩,
        Vec.resize s.data (F * C) v⟩, ?_, ⟨rfl, ?_, ?_⟩, rfl⟩
      · simp only [resize, if_neg hn, if_pos hg, if_neg h1, Res.bind, hlab]
      · simp only [channels, LabelVector.size, List.length_append, List.length_replicate, Matrix.grow]
        omega
      · exact resize_holds hd hF hC (by left; omega) v
  · refine ⟨⟨F, s.labels, Vec.resize s.data (F * C) v⟩, ?_, ⟨rfl, ?_, ?_⟩, rfl⟩
    · simp only [resize, if_neg hn, if_neg hg]
    · simp only [channels, Matrix.grow] at *; omega
    · exact resize_holds hd hF hC (by right; omega) v

theorem rel_grow_self {s : Storage T L} {m : Matrix T} (h : Rel s m) (v : T) :
    Rel s (m.grow m.rows m.cols v) :=
  ⟨h.1, h.2.1, holds_congr h.2.2 (fun r c hr hc => by
    simp only [Matrix.grow]; exact (if_pos ⟨hr, hc⟩).symm)⟩

theorem set_last (s : Storage T L) (l : L) (hpos : 0 < s.channels) :
    (s.labels.idx l = none → ∃ lab, s.labels.set (s.channels - 1) l = .ok lab ∧ lab.size = s.channels) ∧
    (s.labels.idx l ≠ none → s.labels.set (s.channels - 1) l = .err) := by
  unfold channels LabelVector.size at hpos
  constructor
  · intro hn
    refine ⟨⟨s.labels.labels.set (s.channels - 1) l, LabelVector.put s.labels.idx l (s.channels - 1)⟩, ?_, ?_⟩
    · unfold LabelVector.set; rw [if_pos]
      exact ⟨by unfold channels LabelVector.size; omega, hn⟩
    · simp [LabelVector.size, channels]
  · intro hn
    unfold LabelVector.set; rw [if_neg]; rintro ⟨_, h⟩; exact hn h

theorem write_ok {s : Storage T L} {m : Matrix T} (h : Rel s m) {f c : Nat} (hf : f < m.rows) (hc : c < m.cols)
    (v : T) : s.write f c v = .ok { s with data := s.data.set (f * s.channels + c) v } ∧
      Rel { s with data := s.data.set (f * s.channels + c) v } (m.write f c v) := by
  obtain ⟨h1, h2, h3⟩ := h
  have hl : f * s.channels + c < s.data.length := by rw [h3.1, h2]; exact idx_lt hf hc
  refine ⟨by simp [Storage.write, Vec.set_ok hl, Res.bind], h1, h2, ?_⟩
  show Holds (s.data.set (f * s.channels + c) v) m.rows m.cols _
  rw [h2]
  exact holds_set h3 hf hc v

end Storage
open Storage

/-- Every single call: never undefined behaviour; on normal return the matrix is as specified; when it throws, no
existing cell has changed. Which calls throw is stated exactly. -/
theorem C08_step (ldflt : L) (dflt : T) (s : Storage T L) (m : Matrix T) (h : Storage.Rel s m)
    (op : StorageOp T L) (hin : s.InRange op) :
    ((s.step ldflt dflt op).1 = .ok () ∧ Storage.Rel (s.step ldflt dflt op).2 (storageStep dflt m op)) ∨
    ((s.step ldflt dflt op).1 = .err ∧
      ∃ R C v, m.rows ≤ R ∧ m.cols ≤ C ∧ Storage.Rel (s.step ldflt dflt op).2 (m.grow R C v)) := by
  cases op with
  | addChannel l v =>
    obtain ⟨s1, e1, r1, hi⟩ := resize_ok ldflt h (Nat.le_refl _) (Nat.le_succ m.cols) v
    have e1' : s.resize ldflt s.frames (s.channels + 1) v = .ok s1 := by rw [h.1, h.2.1]; exact e1
    have hpos : 0 < s1.channels := by rw [r1.2.1]; simp [Matrix.grow]
    by_cases hn : s1.labels.idx l = none
    · left
      obtain ⟨lab, e2, hsz⟩ := (set_last s1 l hpos).1 hn
      simp only [Storage.step, addChannel, e1', e2, Res.map, storageStep, true_and]
      exact ⟨r1.1, hsz.trans r1.2.1, r1.2.2⟩
    · right
      have e2 := (set_last s1 l hpos).2 hn
      simp only [Storage.step, addChannel, e1', e2, Res.map, true_and]
      exact ⟨_, _, v, Nat.le_refl _, Nat.le_succ _, r1⟩
  | addChannelData l d =>
    obtain ⟨s1, e1, r1, hi⟩ := resize_ok ldflt h (F := max m.rows d.length) (C := m.cols + 1) (by omega) (by omega) dflt
    have e1' : s.resize ldflt (max s.frames d.length) (s.channels + 1) dflt = .ok s1 := by
      rw [h.1, h.2.1]; exact e1
    have hpos : 0 < s1.channels := by rw [r1.2.1]; simp [Matrix.grow]
    by_cases hn : s1.labels.idx l = none
    · left
      obtain ⟨lab, e2, hsz⟩ := (set_last s1 l hpos).1 hn
      have hch : (⟨s1.frames, lab, s1.data⟩ : Storage T L).channels = m.cols + 1 := hsz.trans r1.2.1
      have hloop := loopUp_inv
        (f := fun fi (s : Storage T L) => (Vec.get d fi).bind fun x =>
          s.write fi ((⟨s1.frames, lab, s1.data⟩ : Storage T L).channels - 1) x)
        (fun fi s => Storage.Rel s ⟨max m.rows d.length, m.cols + 1, fun r c =>
          if c < m.cols then (if r < m.rows then m.cell r c else dflt) else
            if r < fi then d.getD r dflt else dflt⟩) d.length 0 ⟨s1.frames, lab, s1.data⟩ ?_ ?_
      · obtain ⟨s3, e3, r3⟩ := hloop
        simp only [Storage.step, addChannelData, e1', e2, Res.map, storageStep, e3, true_and]
        refine ⟨r3.1, r3.2.1, holds_congr r3.2.2 ?_⟩
        intro r c hr hc
        simp only [Nat.zero_add, Matrix.addCol]
        split
        · rfl
        · split
          · rfl
          · next hrd => rw [List.getD_eq_getElem?_getD, List.getElem?_eq_none (by omega)]; rfl
      · refine ⟨r1.1, hch, holds_congr r1.2.2 ?_⟩
        intro r c hr hc
        simp only [Nat.not_lt_zero, if_false]
        by_cases h1 : c < m.cols
        · by_cases h2 : r < m.rows <;> simp [Matrix.grow, h1, h2]
        · simp [Matrix.grow, h1]
      · intro fi s2 _ hfi hr2
        have hlt : fi < d.length := by omega
        have hg : Vec.get d fi = .ok d[fi] := Vec.get_ok (by simp [hlt])
        have hw := write_ok hr2 (f := fi) (c := m.cols) (by simp only; omega) (by simp only; omega) d[fi]
        refine ⟨{ s2 with data := s2.data.set (fi * s2.channels + m.cols) d[fi] }, ?_, ?_⟩
        · simp only [hg, Res.bind]; rw [hch]; exact hw.1
        · refine ⟨hw.2.1, hw.2.2.1, holds_congr hw.2.2.2 ?_⟩
          intro r c hr hc
          have hc : c < m.cols + 1 := hc
          simp only [Matrix.write]
          by_cases hcc : c < m.cols
          · have : ¬ (r = fi ∧ c = m.cols) := by omega
            simp [hcc, this]
          · have hce : c = m.cols := by omega
            subst hce
            by_cases hrf : r = fi
            · subst hrf; simp [hlt]
            · have e : (r < fi + 1) ↔ r < fi := by omega
              simp [hrf, e]
    · right
      have e2 := (set_last s1 l hpos).2 hn
      simp only [Storage.step, addChannelData, e1', e2, Res.map, true_and]
      exact ⟨_, _, dflt, by omega, by omega, r1⟩
  | addFrame v =>
    left
    refine ⟨rfl, ?_⟩
    obtain ⟨h1, h2, h3⟩ := h
    refine ⟨by simp [Storage.step, addFrame, storageStep, Matrix.grow, h1], h2, ?_⟩
    show Holds (Vec.resize s.data (s.data.length + s.channels) v) (m.rows + 1) m.cols _
    have : s.data.length + s.channels = (m.rows + 1) * m.cols := by rw [h3.1, h2]; ring
    rw [this]
    exact resize_holds h3 (Nat.le_succ _) (Nat.le_refl _) (Or.inr rfl) v
  | addFrameData d =>
    by_cases hd : d.length = s.channels
    · left
      obtain ⟨h1, h2, h3⟩ := h
      simp only [Storage.step, Storage.addFrameData, if_pos hd, true_and]
      refine ⟨by simp [storageStep, Matrix.addRow, h1], h2, ?_⟩
      have e1 : (Vec.resize s.data (s.data.length + s.channels) dflt).take
          ((Vec.resize s.data (s.data.length + s.channels) dflt).length - s.channels) = s.data := by
        rw [Vec.length_resize]; simp [Vec.resize, List.take_of_length_le]
      show Holds (List.take _ _ ++ d) (m.rows + 1) m.cols _
      rw [e1]
      refine ⟨by simp [h3.1, hd, h2]; ring, ?_⟩
      intro r c hr hc
      simp only [storageStep, Matrix.addRow]
      by_cases hrm : r < m.rows
      · rw [List.getElem?_append_left (by rw [h3.1]; exact idx_lt hrm hc), h3.2 r c hrm hc, if_pos hrm]
      · have : r = m.rows := by omega
        subst this
        rw [List.getElem?_append_right (by rw [h3.1]; omega), h3.1, if_neg hrm,
          Nat.add_sub_cancel_left, List.getD_eq_getElem?_getD, List.getElem?_eq_getElem (by omega)]
        rfl
    · right
      simp only [Storage.step, Storage.addFrameData, if_neg hd, true_and]
      exact ⟨_, _, dflt, Nat.le_refl _, Nat.le_refl _, rel_grow_self h dflt⟩
  | resize F C v =>
    by_cases hs : F < s.frames ∨ C < s.channels
    · right
      simp only [Storage.step, Storage.resize, if_pos hs, true_and]
      exact ⟨_, _, v, Nat.le_refl _, Nat.le_refl _, rel_grow_self h v⟩
    · left
      have h1 := h.1
      have h2 := h.2.1
      obtain ⟨s1, e1, r1, _⟩ := resize_ok ldflt h (F := F) (C := C) (by omega) (by omega) v
      simp only [Storage.step, e1, true_and]
      exact r1
  | write f c v =>
    left
    have hw := write_ok h (f := f) (c := c) (by rw [← h.1]; exact hin.1) (by rw [← h.2.1]; exact hin.2) v
    simp only [Storage.step, hw.1, true_and]
    exact hw.2
  | setLabel c l =>
    simp only [Storage.step]
    unfold LabelVector.set
    split
    · next e =>
      left
      split at e
      · cases e
        refine ⟨rfl, h.1, ?_, h.2.2⟩
        have := h.2.1
        simpa [channels, LabelVector.size, storageStep] using this
      · cases e
    · right
      exact ⟨rfl, _, _, dflt, Nat.le_refl _, Nat.le_refl _, rel_grow_self h dflt⟩
    · next e => split at e <;> cases e

/-- **C08.** For a storage of any initial size and any history of calls (failing ones included) whose unchecked
writes are in range, no call is undefined, and at the end every cell reads as in a matrix that went through the
same history: the last written value, or the fill value of the frame or channel it was created with. -/
theorem C08_storage_is_matrix (ldflt : L) (dflt : T) (frames channels : Nat) (v : T)
    (ops : List (StorageOp T L)) (hv : Valid ldflt dflt (Storage.make ldflt frames channels v) ops) :
    let r := (Storage.make ldflt frames channels v).run ldflt dflt ops
    (∀ o ∈ r.1, o ≠ .ub) ∧
    ∃ m, StorageHist dflt ⟨frames, channels, fun _ _ => v⟩ ops (r.1.map Res.isOk) m ∧
      r.2.frames = m.rows ∧ r.2.channels = m.cols ∧
      ∀ f c, f < m.rows → c < m.cols → r.2.get f c = .ok (m.cell f c) := by
  have gen : ∀ (ops : List (StorageOp T L)) (s : Storage T L) (m : Matrix T), Storage.Rel s m →
      Valid ldflt dflt s ops →
      (∀ o ∈ (s.run ldflt dflt ops).1, o ≠ .ub) ∧
      ∃ m', StorageHist dflt m ops ((s.run ldflt dflt ops).1.map Res.isOk) m' ∧
        Storage.Rel (s.run ldflt dflt ops).2 m' := by
    intro ops
    induction ops with
    | nil => intro s m h _; exact ⟨by simp [Storage.run], m, .nil m, h⟩
    | cons op ops ih =>
      intro s m h hval
      simp only [Storage.run]
      rcases C08_step ldflt dflt s m h op hval.1 with ⟨e, hr⟩ | ⟨e, R, C, w, hR, hC, hr⟩
      · obtain ⟨i1, m', i2, i3⟩ := ih _ _ hr hval.2
        refine ⟨?_, m', ?_, i3⟩
        · intro o ho
          rcases List.mem_cons.1 ho with rfl | ho
          · rw [e]; simp
          · exact i1 o ho
        · rw [List.map_cons, e]; exact .ok i2
      · obtain ⟨i1, m', i2, i3⟩ := ih _ _ hr hval.2
        refine ⟨?_, m', ?_, i3⟩
        · intro o ho
          rcases List.mem_cons.1 ho with rfl | ho
          · rw [e]; simp
          · exact i1 o ho
        · rw [List.map_cons, e]; exact .threw R C w hR hC i2
  have h0 : Storage.Rel (Storage.make ldflt frames channels v) ⟨frames, channels, fun _ _ => v⟩ := by
    refine ⟨rfl, by simp [Storage.make, Storage.channels, LabelVector.ofSize, LabelVector.size], ?_⟩
    refine ⟨by simp [Storage.make, Nat.mul_comm], ?_⟩
    intro r c hr hc
    have := idx_lt hr hc
    simp only [Storage.make]
    rw [List.getElem?_replicate, if_pos (by rw [Nat.mul_comm channels]; exact this)]
  obtain ⟨h1, m, h2, h3⟩ := gen ops _ _ h0 hv
  refine ⟨h1, m, h2, h3.1, h3.2.1, ?_⟩
  intro f c hf hc
  unfold Storage.get
  apply Vec.get_ok
  rw [h3.2.1]
  exact h3.2.2.2 f c hf hc

/-- A call that adds a channel under a label already in use throws, but the channel has been added by then. -/
theorem C08_duplicate_label_grows (ldflt : L) (s : Storage T L) (m : Matrix T) (h : Storage.Rel s m) (l : L)
    (v : T) (hl : s.labels.idx l ≠ none) :
    (s.addChannel ldflt l v).1 = .err ∧ (s.addChannel ldflt l v).2.channels = s.channels + 1 := by
  obtain ⟨s1, e1, r1, hi⟩ := resize_ok ldflt h (Nat.le_refl _) (Nat.le_succ m.cols) v
  have e1' : s.resize ldflt s.frames (s.channels + 1) v = .ok s1 := by rw [h.1, h.2.1]; exact e1
  have hpos : 0 < s1.channels := by rw [r1.2.1]; simp [Matrix.grow]
  have e2 := (set_last s1 l hpos).2 (by rw [hi]; exact hl)
  simp only [addChannel, e1', e2, true_and]
  rw [r1.2.1, h.2.1]; rfl

/-- Non-vacuity: frames first, then channels, writes, a resize and a failing shrink. -/
example : ((Storage.make (T := Nat) (L := String) "" 0 0 0).run "" 0
    [.addChannel "a" 7, .addFrame 1, .addFrame 2, .addChannel "b" 9, .write 1 1 5, .resize 1 1 0,
     .addFrameData [3, 4], .addChannelData "c" [6, 6]]).1 =
    [.ok (), .ok (), .ok (), .ok (), .ok (), .err, .ok (), .ok ()] ∧
  ((Storage.make (T := Nat) (L := String) "" 0 0 0).run "" 0
    [.addChannel "a" 7, .addFrame 1, .addFrame 2, .addChannel "b" 9, .write 1 1 5, .resize 1 1 0,
     .addFrameData [3, 4], .addChannelData "c" [6, 6]]).2.data = [1, 9, 6, 2, 5, 6, 3, 4, 0] := by
  decide

end Xo
