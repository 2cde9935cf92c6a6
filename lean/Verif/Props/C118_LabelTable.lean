import Verif.Model.LabelTable
import Verif.Props.C10_Table

/-!
C118: a table that is used by labels is a map.
-/
namespace Xo.TabL
open Xo
variable {T L : Type} [DecidableEq L]

namespace Spec

/-- Uses of a table by labels. The flag is the order in which C++ evaluates the arguments. -/
inductive Op (T L : Type) where
  | put (rowFirst : Bool) (r c : L) (v : T)
  | look (rowFirst : Bool) (r c : L)

/-- The labels in the order of their first use. -/
def use (ls : List L) (l : L) : List L := if l ∈ ls then ls else ls ++ [l]

def Op.row : Op T L → L
  | .put _ r _ _ => r
  | .look _ r _ => r

def Op.col : Op T L → L
  | .put _ _ c _ => c
  | .look _ _ c => c

/-- What is stored afterwards. -/
def after (m : L → L → T) : Op T L → L → L → T
  | .put _ r c v => fun r' c' => if r' = r ∧ c' = c then v else m r' c'
  | .look _ _ _ => m

/-- What the uses give: the stored value when they look. -/
def seen (m : L → L → T) : List (Op T L) → List (Option T)
  | [] => []
  | .put b r c v :: ops => none :: seen (after m (.put b r c v)) ops
  | .look _ r c :: ops => some (m r c) :: seen m ops

/-- What is stored at the end. -/
def atEnd (m : L → L → T) : List (Op T L) → L → L → T
  | [] => m
  | op :: ops => atEnd (after m op) ops

end Spec
open _root_.Xo.TabL.Spec

/-- One use of the model. -/
def step (ldflt : L) (dflt : T) (t : Table T L) : Op T L → Res (Option T) × Table T L
  | .put b r c v => ((put ldflt dflt b t r c v).1.map fun _ => none, (put ldflt dflt b t r c v).2)
  | .look b r c => ((look ldflt dflt b t r c).1.map some, (look ldflt dflt b t r c).2)

def run (ldflt : L) (dflt : T) (t : Table T L) : List (Op T L) → List (Res (Option T)) × Table T L
  | [] => ([], t)
  | op :: ops => ((step ldflt dflt t op).1 :: (run ldflt dflt (step ldflt dflt t op).2 ops).1,
      (run ldflt dflt (step ldflt dflt t op).2 ops).2)

/-- The table stores this map. -/
structure Inv (ldflt : L) (dflt : T) (t : Table T L) (rl cl : List L) (m : L → L → T) (s : Xo.Spec.LTable T L) : Prop where
  rel : Table.Rel ldflt t s
  rows : s.rl = rl.map some
  cols : s.cl = cl.map some
  cell : ∀ i j r c, rl[i]? = some r → cl[j]? = some c → s.m.cell i j = m r c
  rest : ∀ r c, (r ∉ rl ∨ c ∉ cl) → m r c = dflt

variable {ldflt : L} {dflt : T}

theorem row_find {t : Table T L} {rl cl : List L} {m : L → L → T} {s : Xo.Spec.LTable T L} (h : Inv ldflt dflt t rl cl m s)
    (r : L) (i : Nat) : t.rowLabels.find r = some i ↔ rl[i]? = some r := by
  unfold LabelVector.find
  rw [h.rel.rl.2, h.rows, List.getElem?_map]
  cases rl[i]? <;> simp

theorem col_find {t : Table T L} {rl cl : List L} {m : L → L → T} {s : Xo.Spec.LTable T L} (h : Inv ldflt dflt t rl cl m s)
    (c : L) (j : Nat) : t.colLabels.find c = some j ↔ cl[j]? = some c := by
  unfold LabelVector.find
  rw [h.rel.cl.2, h.cols, List.getElem?_map]
  cases cl[j]? <;> simp

theorem row_inj {t : Table T L} {rl cl : List L} {m : L → L → T} {s : Xo.Spec.LTable T L} (h : Inv ldflt dflt t rl cl m s)
    (r : L) (i i' : Nat) (h1 : rl[i]? = some r) (h2 : rl[i']? = some r) : i = i' := by
  have a := (row_find h r i).2 h1
  have b := (row_find h r i').2 h2
  rw [a] at b; exact Option.some.inj b

theorem col_inj {t : Table T L} {rl cl : List L} {m : L → L → T} {s : Xo.Spec.LTable T L} (h : Inv ldflt dflt t rl cl m s)
    (c : L) (i i' : Nat) (h1 : cl[i]? = some c) (h2 : cl[i']? = some c) : i = i' := by
  have a := (col_find h c i).2 h1
  have b := (col_find h c i').2 h2
  rw [a] at b; exact Option.some.inj b

theorem len_rows {t : Table T L} {rl cl : List L} {m : L → L → T} {s : Xo.Spec.LTable T L} (h : Inv ldflt dflt t rl cl m s) :
    s.m.rows = rl.length ∧ s.m.cols = cl.length := by
  rw [← h.rel.rlen, ← h.rel.clen, h.rows, h.cols]; simp

theorem lt_of_some {A : Type} {l : List A} {i : Nat} {x : A} (h : l[i]? = some x) : i < l.length :=
  (List.getElem?_eq_some_iff.1 h).1

theorem addRow_inv {t : Table T L} {rl cl : List L} {m : L → L → T} {s : Xo.Spec.LTable T L} (h : Inv ldflt dflt t rl cl m s)
    (r : L) : ∃ i t' s', t.getOrAddRow r dflt = .ok (i, t') ∧ Inv ldflt dflt t' (use rl r) cl m s' ∧ (use rl r)[i]? = some r := by
  unfold use
  by_cases hr : r ∈ rl
  · rw [if_pos hr]
    obtain ⟨i, hi, he⟩ := List.mem_iff_getElem.1 hr
    have hs : rl[i]? = some r := by rw [List.getElem?_eq_getElem hi, he]
    refine ⟨i, t, s, ?_, h, hs⟩
    unfold Table.getOrAddRow
    rw [(row_find h r i).2 hs]
  · rw [if_neg hr]
    have hn : t.rowLabels.find r = none := by
      cases hf : t.rowLabels.find r with
      | none => rfl
      | some i => exact absurd (List.mem_of_getElem? ((row_find h r i).1 hf)) hr
    have hm : some r ∉ s.rl := by rw [h.rows]; simpa using hr
    have ha := Table.addRow_spec h.rel r dflt
    rw [if_neg hm] at ha
    obtain ⟨t', e, hrel⟩ := ha
    refine ⟨s.m.rows, t', _, ?_, ⟨hrel, ?_, h.cols, ?_, ?_⟩, ?_⟩
    · unfold Table.getOrAddRow; rw [hn]; exact e
    · simp [Xo.Spec.LTable.addRow, h.rows]
    · intro i j r' c' h1 h2
      obtain ⟨l1, l2⟩ := len_rows h
      have hj := lt_of_some h2
      simp only [Xo.Spec.LTable.addRow, Xo.Spec.Matrix.grow]
      rw [l1, l2]
      rcases Nat.lt_or_ge i rl.length with hi | hi
      · rw [if_pos ⟨hi, hj⟩]
        rw [List.getElem?_append_left hi] at h1
        exact h.cell i j r' c' h1 h2
      · rw [if_neg (by omega)]
        rw [List.getElem?_append_right hi] at h1
        have : r' = r := by
          have := List.mem_of_getElem? h1
          simpa using this
        subst this
        exact (h.rest _ _ (Or.inl hr)).symm
    · intro r' c' hh
      refine h.rest r' c' ?_
      rcases hh with hh | hh
      · left; intro hx; exact hh (List.mem_append_left _ hx)
      · right; exact hh
    · rw [(len_rows h).1]; simp

theorem addCol_inv {t : Table T L} {rl cl : List L} {m : L → L → T} {s : Xo.Spec.LTable T L} (h : Inv ldflt dflt t rl cl m s)
    (c : L) : ∃ j t' s', t.getOrAddColumn ldflt dflt c dflt = (.ok j, t') ∧ Inv ldflt dflt t' rl (use cl c) m s' ∧
      (use cl c)[j]? = some c := by
  unfold use
  by_cases hc : c ∈ cl
  · rw [if_pos hc]
    obtain ⟨j, hj, he⟩ := List.mem_iff_getElem.1 hc
    have hs : cl[j]? = some c := by rw [List.getElem?_eq_getElem hj, he]
    refine ⟨j, t, s, ?_, h, hs⟩
    unfold Table.getOrAddColumn
    rw [(col_find h c j).2 hs]
  · rw [if_neg hc]
    have hn : t.colLabels.find c = none := by
      cases hf : t.colLabels.find c with
      | none => rfl
      | some i => exact absurd (List.mem_of_getElem? ((col_find h c i).1 hf)) hc
    have hm : some c ∉ s.cl := by rw [h.cols]; simpa using hc
    have ha := Table.addColumn_spec dflt h.rel c dflt
    rw [if_neg hm] at ha
    obtain ⟨e, hrel⟩ := ha
    refine ⟨s.m.cols, (t.addColumn ldflt dflt c dflt).2, _, ?_, ⟨hrel, h.rows, ?_, ?_, ?_⟩, ?_⟩
    · unfold Table.getOrAddColumn; rw [hn, ← e]
    · simp [Xo.Spec.LTable.addCol, h.cols]
    · intro i j r' c' h1 h2
      obtain ⟨l1, l2⟩ := len_rows h
      have hi := lt_of_some h1
      simp only [Xo.Spec.LTable.addCol, Xo.Spec.Matrix.grow]
      rw [l1, l2]
      rcases Nat.lt_or_ge j cl.length with hj | hj
      · rw [if_pos ⟨hi, hj⟩]
        rw [List.getElem?_append_left hj] at h2
        exact h.cell i j r' c' h1 h2
      · rw [if_neg (by omega)]
        rw [List.getElem?_append_right hj] at h2
        have : c' = c := by
          have := List.mem_of_getElem? h2
          simpa using this
        subst this
        exact (h.rest _ _ (Or.inr hc)).symm
    · intro r' c' hh
      refine h.rest r' c' ?_
      rcases hh with hh | hh
      · left; exact hh
      · right; intro hx; exact hh (List.mem_append_left _ hx)
    · rw [(len_rows h).2]; simp

theorem access_inv {t : Table T L} {rl cl : List L} {m : L → L → T} {s : Xo.Spec.LTable T L} (h : Inv ldflt dflt t rl cl m s)
    (b : Bool) (r c : L) : ∃ i j t' s', access ldflt dflt b t r c = (.ok (i, j), t') ∧
      Inv ldflt dflt t' (use rl r) (use cl c) m s' ∧ (use rl r)[i]? = some r ∧ (use cl c)[j]? = some c := by
  unfold access
  cases b with
  | true =>
    obtain ⟨i, t1, s1, e1, h1, hi⟩ := addRow_inv h r
    obtain ⟨j, t2, s2, e2, h2, hj⟩ := addCol_inv h1 c
    exact ⟨i, j, t2, s2, by simp [e1, e2], h2, hi, hj⟩
  | false =>
    obtain ⟨j, t1, s1, e1, h1, hj⟩ := addCol_inv h c
    obtain ⟨i, t2, s2, e2, h2, hi⟩ := addRow_inv h1 r
    exact ⟨i, j, t2, s2, by simp [e1, e2], h2, hi, hj⟩

theorem get_inv {t : Table T L} {rl cl : List L} {m : L → L → T} {s : Xo.Spec.LTable T L} (h : Inv ldflt dflt t rl cl m s)
    {i j : Nat} {r c : L} (hi : rl[i]? = some r) (hj : cl[j]? = some c) : t.get i j = .ok (m r c) := by
  obtain ⟨l1, l2⟩ := len_rows h
  have hi' : i < s.m.rows := by rw [l1]; exact lt_of_some hi
  have hj' : j < s.m.cols := by rw [l2]; exact lt_of_some hj
  unfold Table.get
  rw [h.rel.rows_eq, h.rel.cols_eq, if_pos ⟨hi', hj'⟩, ← h.cell i j r c hi hj]
  exact Vec.get_ok (h.rel.cells.2 i j hi' hj')

theorem step_inv {t : Table T L} {rl cl : List L} {m : L → L → T} {s : Xo.Spec.LTable T L} (h : Inv ldflt dflt t rl cl m s)
    (op : Op T L) : ∃ s', Inv ldflt dflt (step ldflt dflt t op).2 (use rl op.row) (use cl op.col) (after m op) s' ∧
      (step ldflt dflt t op).1 = match op with
        | .put _ _ _ _ => .ok none
        | .look _ r c => .ok (some (m r c)) := by
  cases op with
  | put b r c v =>
    obtain ⟨i, j, t', s', e, h', hi, hj⟩ := access_inv h b r c
    obtain ⟨l1, l2⟩ := len_rows h'
    have hi' : i < s'.m.rows := by rw [l1]; exact lt_of_some hi
    have hj' : j < s'.m.cols := by rw [l2]; exact lt_of_some hj
    have hw := C10_step ldflt dflt t' s' h'.rel (.write i j v)
    simp only [Xo.Spec.tableStep, if_pos (show i < s'.m.rows ∧ j < s'.m.cols from ⟨hi', hj'⟩), Table.step] at hw
    cases hwr : t'.write i j v with
    | err => rw [hwr] at hw; exact absurd hw.1 (by simp)
    | ub => rw [hwr] at hw; exact absurd hw.1 (by simp)
    | ok t2 =>
      rw [hwr] at hw
      have he : step ldflt dflt t (.put b r c v) = (.ok none, t2) := by simp [step, put, e, hwr, Res.map]
      rw [he]
      refine ⟨_, ⟨hw.2, h'.rows, h'.cols, ?_, ?_⟩, rfl⟩
      · intro i' j' r' c' h1 h2
        simp only [Xo.Spec.Matrix.write, after]
        by_cases hrc : r' = r ∧ c' = c
        · obtain ⟨rfl, rfl⟩ := hrc
          rw [if_pos ⟨row_inj h' _ _ _ h1 hi, col_inj h' _ _ _ h2 hj⟩, if_pos ⟨rfl, rfl⟩]
        · rw [if_neg hrc, if_neg]
          · exact h'.cell i' j' r' c' h1 h2
          · rintro ⟨rfl, rfl⟩
            simp only [Op.row, Op.col] at h1 h2
            rw [hi] at h1; rw [hj] at h2
            exact hrc ⟨(Option.some.inj h1).symm, (Option.some.inj h2).symm⟩
      · intro r' c' hh
        simp only [after]
        rw [if_neg]
        · exact h'.rest r' c' hh
        · rintro ⟨rfl, rfl⟩
          rcases hh with hh | hh
          · exact hh (List.mem_of_getElem? hi)
          · exact hh (List.mem_of_getElem? hj)
  | look b r c =>
    obtain ⟨i, j, t', s', e, h', hi, hj⟩ := access_inv h b r c
    have he : step ldflt dflt t (.look b r c) = (.ok (some (m r c)), t') := by
      simp [step, look, e, get_inv h' hi hj, Res.map]
    rw [he]
    exact ⟨s', h', rfl⟩

/-- **C118.** A table that is only used by labels, from an empty one: every use succeeds, looking gives the value that was
put there last, or the default; the rows and columns are in the order of their first use; and reading by row number and
label of the column finds the same values. Whichever argument is evaluated first does not matter. -/
theorem C118_map (ldflt : L) (dflt : T) (ops : List (Op T L)) :
    let t := run ldflt dflt (Table.make ldflt dflt 0 0) ops
    t.1 = (seen (fun _ _ => dflt) ops).map Res.ok ∧
    t.2.rowLabels.labels = (ops.map Op.row).foldl use [] ∧ t.2.colLabels.labels = (ops.map Op.col).foldl use [] ∧
    (∀ i r c, t.2.rowLabels.labels[i]? = some r → c ∈ t.2.colLabels.labels →
      lookCol t.2 i c = .ok (atEnd (fun _ _ => dflt) ops r c)) ∧
    (∀ r, (∃ i, t.2.rowLabels.find r = some i) ↔ r ∈ ops.map Op.row) := by
  have gen : ∀ (ops : List (Op T L)) (t : Table T L) (rl cl : List L) (m : L → L → T) (s : Xo.Spec.LTable T L),
      Inv ldflt dflt t rl cl m s → (run ldflt dflt t ops).1 = (seen m ops).map Res.ok ∧
      ∃ s', Inv ldflt dflt (run ldflt dflt t ops).2 ((ops.map Op.row).foldl use rl) ((ops.map Op.col).foldl use cl)
        (atEnd m ops) s' := by
    intro ops
    induction ops with
    | nil => intro t rl cl m s h; exact ⟨rfl, s, h⟩
    | cons op ops ih =>
      intro t rl cl m s h
      obtain ⟨s1, h1, e1⟩ := step_inv h op
      obtain ⟨e2, s2, h2⟩ := ih _ _ _ _ _ h1
      refine ⟨?_, s2, h2⟩
      rw [run, e1, e2]
      cases op with
      | put b r c v => rfl
      | look b r c => rfl
  have h0 : Inv ldflt dflt (Table.make ldflt dflt 0 0) [] [] (fun _ _ => dflt) ⟨⟨0, 0, fun _ _ => dflt⟩, [], []⟩ := by
    have lrel : LabelVector.Rel ldflt (LabelVector.ofSize ldflt 0) [] := by
      refine ⟨by simp [LabelVector.ofSize], ?_⟩
      intro l i; simp [LabelVector.ofSize]
    refine ⟨⟨lrel, lrel, rfl, rfl, ?_, ?_⟩, rfl, rfl, ?_, ?_⟩
    · simp [Table.make]
    · intro r c hr; exact absurd hr (by simp)
    · intro i j r c h; simp at h
    · intro r c _; rfl
  obtain ⟨e, s, h⟩ := gen ops _ _ _ _ _ h0
  have hrl : (run ldflt dflt (Table.make ldflt dflt 0 0) ops).2.rowLabels.labels = (ops.map Op.row).foldl use [] := by
    rw [h.rel.rl.1, h.rows]; simp
  have hcl : (run ldflt dflt (Table.make ldflt dflt 0 0) ops).2.colLabels.labels = (ops.map Op.col).foldl use [] := by
    rw [h.rel.cl.1, h.cols]; simp
  have mem : ∀ (ls acc : List L) (r : L), r ∈ ls.foldl use acc ↔ r ∈ acc ∨ r ∈ ls := by
    intro ls
    induction ls with
    | nil => intro acc r; simp
    | cons l ls ih =>
      intro acc r
      rw [List.foldl_cons, ih]
      unfold use
      split
      · next hl =>
        constructor
        · rintro (h | h)
          · exact Or.inl h
          · exact Or.inr (List.mem_cons_of_mem _ h)
        · rintro (h | h)
          · exact Or.inl h
          · rcases List.mem_cons.1 h with rfl | h
            · exact Or.inl hl
            · exact Or.inr h
      · simp [or_assoc]
  refine ⟨e, hrl, hcl, ?_, ?_⟩
  · intro i r c hr hc
    rw [hrl] at hr
    rw [hcl] at hc
    obtain ⟨j, hj, he⟩ := List.mem_iff_getElem.1 hc
    have hj' : ((ops.map Op.col).foldl use [])[j]? = some c := by rw [List.getElem?_eq_getElem hj, he]
    unfold lookCol
    rw [(col_find h c j).2 hj']
    exact get_inv h hr hj'
  · intro r
    constructor
    · rintro ⟨i, hi⟩
      have := (mem _ _ _).1 (List.mem_of_getElem? ((row_find h r i).1 hi))
      simpa using this
    · intro hr
      have := (mem (ops.map Op.row) [] r).2 (Or.inr hr)
      obtain ⟨i, hi, he⟩ := List.mem_iff_getElem.1 this
      exact ⟨i, (row_find h r i).2 (by rw [List.getElem?_eq_getElem hi, he])⟩

/-- **C118, errors.** A label that is not there is an error for a const table, and the last row of a table without rows is
one too. -/
theorem C118_missing (t : Table T L) (i : Nat) (c : L) (h : t.colLabels.find c = none) (h0 : t.rows = 0) (j : Nat) :
    lookCol t i c = .err ∧ backRow t j = .err := by
  constructor
  · unfold lookCol; rw [h]
  · unfold backRow; rw [if_pos h0]

/-- **C118, last row.** It is the row with the highest number. -/
theorem C118_back (t : Table T L) (n : Nat) (h : t.rows = n + 1) (j : Nat) : backRow t j = t.get n j := by
  unfold backRow; rw [if_neg (by omega), h]; rfl

/-- **C118 is violated: looking is not without effect.** Reading a label that is not there adds a row and a column. -/
theorem C118_look_adds_violated (ldflt : L) (dflt : T) (b : Bool) (r c : L) :
    ((step ldflt dflt (Table.make ldflt dflt 0 0) (.look b r c)).2.rows,
      (step ldflt dflt (Table.make ldflt dflt 0 0) (.look b r c)).2.cols) = (1, 1) := by
  have := C118_map ldflt dflt [Op.look (T := T) b r c]
  simp only [run] at this
  obtain ⟨-, h1, h2, -⟩ := this
  unfold Table.rows Table.cols LabelVector.size
  rw [h1, h2]
  rfl

/-- **C118, vectors without labels.** Adding gives the next number, which is also the label. -/
theorem C118_void (n k : Nat) : (List.range k).foldl (fun (p : Nat × List Nat) _ => ((addVoid p.1).2, p.2 ++ [(addVoid p.1).1])) (n, []) =
    (n + k, (List.range k).map (n + ·)) := by
  induction k with
  | zero => rfl
  | succ k ih => rw [List.range_succ, List.foldl_append, ih]; simp [addVoid]; omega

/-- Non-vacuity. -/
example : (run "" 0 (Table.make "" 0 0 0) [.put true "b" "x" 5, .look false "a" "y", .put false "a" "x" 7, .look true "b" "x",
    .look true "a" "x"]).1 = [.ok none, .ok (some 0), .ok none, .ok (some 5), .ok (some 7)] := by decide

end Xo.TabL
