import Verif.Model.Circular
import Verif.Spec.Deque
import Mathlib.Data.List.Basic

/-!
C11: `circular_deque` is a double-ended queue. True for every history in which the buffer never has to grow by
`push_back` while the front is not at the start of the buffer; in that case the code has undefined behaviour.
`back()` on a const deque reads the wrong element.
-/
namespace Xo
open Spec
variable {T : Type}

namespace CDeque

/-- The deque holds the sequence `l`. -/
structure Rel (d : CDeque T) (l : List T) : Prop where
  len : l.length = d.size
  cap : d.size ≤ d.buf.length
  fr : d.front < d.buf.length ∨ d.front = 0
  el : ∀ i, i < d.size → d.buf[(d.front + i) % d.buf.length]? = l[i]?

/-- One call: its outcome and the deque afterwards. -/
def step (d : CDeque T) (op : DequeOp T) : Res Unit × CDeque T :=
  let r := match op with
    | .pushBack v => d.pushBack v
    | .pushFront v => d.pushFront v
    | .popBack => d.popBack
    | .popFront => d.popFront
    | .clear => .ok d.clear
  match r with
  | .ok d' => (.ok (), d')
  | .err => (.err, d)
  | .ub => (.ub, d)

/-- A history; undefined behaviour ends it. -/
def run (d : CDeque T) : List (DequeOp T) → Res (List Bool × CDeque T)
  | [] => .ok ([], d)
  | op :: ops => match d.step op with
    | (.ub, _) => .ub
    | (o, d') => (run d' ops).bind fun r => .ok (o.isOk :: r.1, r.2)

theorem wrap {f i n : Nat} (hf : f < n) (hi : i ≤ n) : (f + i) % n = if f + i < n then f + i else f + i - n := by
  split
  · next h => exact Nat.mod_eq_of_lt h
  · next h => rw [Nat.mod_eq_sub_mod (by omega), Nat.mod_eq_of_lt (by omega)]

theorem getElem?_insertIdx' (l : List T) (k j : Nat) (v : T) (hk : k ≤ l.length) :
    (l.insertIdx k v)[j]? = if j < k then l[j]? else if j = k then some v else l[j - 1]? := by
  rw [List.getElem?_insertIdx]
  split
  · rfl
  · split
    · next h => simp [h, hk]
    · rfl

/-- The calls that go wrong: the buffer is full and does not start at the front of the storage. -/
def Bad (d : CDeque T) (op : DequeOp T) : Prop :=
  (∃ v, op = .pushBack v) ∧ d.size = d.capacity ∧ d.front ≠ 0

theorem pushBack_spec {d : CDeque T} {l : List T} (h : Rel d l) (v : T) (hb : ¬ (d.size = d.capacity ∧ d.front ≠ 0)) :
    ∃ d', d.pushBack v = .ok d' ∧ Rel d' (l ++ [v]) := by
  have hlen := h.len
  have hcap := h.cap
  unfold pushBack capacity
  by_cases hfull : d.size + 1 > d.buf.length
  · have hs : d.size = d.buf.length := by omega
    have hf : d.front = 0 := by
      by_contra hc; exact hb ⟨hs, hc⟩
    rw [if_pos hfull]
    refine ⟨{ d with size := d.size + 1, buf := d.buf.insertIdx (d.front + (d.size + 1) - 1) v }, ?_, ?_⟩
    · unfold insertAt; rw [if_pos (by omega)]; rfl
    · refine ⟨by simp [hlen], ?_, Or.inr hf, ?_⟩
      · simp only; rw [List.length_insertIdx]; split <;> omega
      · intro i hi
        simp only at hi ⊢
        rw [List.length_insertIdx, if_pos (by omega), hf, Nat.zero_add, Nat.mod_eq_of_lt (by omega),
          getElem?_insertIdx' _ _ _ _ (by omega)]
        by_cases hi2 : i < d.size
        · rw [if_pos (by omega), List.getElem?_append_left (by omega), ← h.el i hi2, hf, Nat.zero_add,
            Nat.mod_eq_of_lt (by omega)]
        · rw [if_neg (by omega), if_pos (by omega), List.getElem?_append_right (by omega)]
          simp [show i - l.length = 0 by omega]
  · have hf : d.front < d.buf.length := by rcases h.fr with hf | hf <;> omega
    rw [if_neg hfull]
    have hlt : (d.front + (d.size + 1) - 1) % d.buf.length < d.buf.length := Nat.mod_lt _ (by omega)
    refine ⟨{ d with size := d.size + 1, buf := d.buf.set ((d.front + (d.size + 1) - 1) % d.buf.length) v }, ?_, ?_⟩
    · unfold umod; rw [if_neg (by omega)]; simp only [Res.bind, Vec.set_ok hlt]
    · refine ⟨by simp [hlen], by simp only [List.length_set]; omega, by simp only [List.length_set]; exact h.fr, ?_⟩
      intro i hi
      simp only [List.length_set] at hi ⊢
      rw [show d.front + (d.size + 1) - 1 = d.front + d.size by omega]
      by_cases hi2 : i < d.size
      · rw [List.getElem?_set_ne, List.getElem?_append_left (by omega), h.el i hi2]
        rw [wrap hf (by omega), wrap hf (by omega)]
        split <;> split <;> omega
      · have : i = d.size := by omega
        subst this
        rw [List.getElem?_set_self (Nat.mod_lt _ (by omega)), List.getElem?_append_right (by omega)]
        simp [hlen]

theorem pushBack_bad {d : CDeque T} (hs : d.size = d.capacity) (hf : d.front ≠ 0) (v : T) : d.pushBack v = .ub := by
  unfold pushBack insertAt
  unfold capacity at *
  rw [if_pos (by omega), if_neg (by omega)]; rfl

theorem pushFront_spec {d : CDeque T} {l : List T} (h : Rel d l) (v : T) :
    ∃ d', d.pushFront v = .ok d' ∧ Rel d' (v :: l) := by
  have hlen := h.len
  have hcap := h.cap
  unfold pushFront capacity
  by_cases hfull : d.size + 1 > d.buf.length
  · have hs : d.size = d.buf.length := by omega
    have hfle : d.front ≤ d.buf.length := by rcases h.fr with hf | hf <;> omega
    rw [if_pos hfull]
    refine ⟨{ d with size := d.size + 1, buf := d.buf.insertIdx d.front v }, ?_, ?_⟩
    · unfold insertAt; rw [if_pos hfle]; rfl
    · have hl' : (d.buf.insertIdx d.front v).length = d.buf.length + 1 := by
        rw [List.length_insertIdx, if_pos hfle]
      refine ⟨by simp [hlen], by simp only; omega, by left; simp only; omega, ?_⟩
      intro i hi
      simp only at hi ⊢
      rw [hl', wrap (by omega) (by omega), getElem?_insertIdx' _ _ _ _ hfle]
      rcases i with _ | i
      · rw [if_neg (by split <;> omega), if_pos (by split <;> omega)]; rfl
      · have := h.el i (by omega)
        have hf : d.front < d.buf.length := by rcases h.fr with hf | hf <;> omega
        rw [wrap hf (by omega)] at this
        rw [List.getElem?_cons_succ, ← this]
        split
        · next h1 =>
          rw [if_neg (by omega), if_neg (by omega), if_pos (by omega)]; rfl
        · next h1 =>
          rw [if_pos (by omega), if_neg (by omega)]
          congr 1; omega
  · have hf : d.front < d.buf.length := by rcases h.fr with hf | hf <;> omega
    rw [if_neg hfull]
    have hlt : (d.front + d.buf.length - 1) % d.buf.length < d.buf.length := Nat.mod_lt _ (by omega)
    have hw : (d.front + d.buf.length - 1) % d.buf.length = if d.front = 0 then d.buf.length - 1 else d.front - 1 := by
      split
      · next h0 => rw [h0, Nat.zero_add, Nat.mod_eq_of_lt (by omega)]
      · next h0 => rw [Nat.mod_eq_sub_mod (by omega), Nat.mod_eq_of_lt (by omega)]; omega
    refine ⟨⟨(d.front + d.buf.length - 1) % d.buf.length, d.size + 1,
      d.buf.set ((d.front + d.buf.length - 1) % d.buf.length) v⟩, ?_, ?_⟩
    · unfold umod; rw [if_neg (by omega)]; simp only [Res.bind, Vec.set_ok hlt]
    · refine ⟨by simp [hlen], by simp only [List.length_set]; omega, by simp only [List.length_set]; exact Or.inl hlt, ?_⟩
      intro i hi
      simp only [List.length_set] at hi ⊢
      rcases i with _ | i
      · rw [Nat.add_zero, Nat.mod_mod, List.getElem?_set_self hlt]; rfl
      · rw [wrap hlt (by omega), hw, List.getElem?_cons_succ, ← h.el i (by omega), wrap hf (by omega),
          List.getElem?_set_ne (by split <;> split <;> omega)]
        congr 1
        split <;> split <;> split <;> omega

theorem popBack_spec {d : CDeque T} {l : List T} (h : Rel d l) :
    if l = [] then d.popBack = .err else ∃ d', d.popBack = .ok d' ∧ Rel d' l.dropLast := by
  have hlen := h.len
  have hcap := h.cap
  unfold popBack
  split
  · next he => subst he; rw [if_neg (by simp at hlen; omega)]
  · next he =>
    have : 0 < l.length := List.length_pos_iff.2 he
    rw [if_pos (by omega)]
    refine ⟨_, rfl, by simp [hlen], by simp only; omega, h.fr, ?_⟩
    intro i hi
    simp only at hi ⊢
    rw [h.el i (by omega), List.getElem?_dropLast, if_pos (by omega)]

theorem popFront_spec {d : CDeque T} {l : List T} (h : Rel d l) :
    if l = [] then d.popFront = .err else ∃ d', d.popFront = .ok d' ∧ Rel d' l.tail := by
  have hlen := h.len
  have hcap := h.cap
  unfold popFront umod capacity
  split
  · next he => subst he; rw [if_neg (by simp at hlen; omega)]
  · next he =>
    have : 0 < l.length := List.length_pos_iff.2 he
    have hf : d.front < d.buf.length := by rcases h.fr with hf | hf <;> omega
    rw [if_pos (by omega), if_neg (by omega)]
    refine ⟨_, rfl, by simp [hlen], by simp only; omega, Or.inl (Nat.mod_lt _ (by omega)), ?_⟩
    intro i hi
    simp only at hi ⊢
    have := h.el (i + 1) (by omega)
    rw [List.getElem?_tail, ← this, Nat.mod_add_mod, Nat.add_assoc, Nat.add_comm 1 i]

end CDeque
open CDeque

/-- Every call on a deque holding `l`: undefined behaviour exactly for `push_back` on a full buffer whose front is
not at the start of the storage; otherwise it succeeds or fails as specified and the deque then holds the specified
sequence. -/
theorem C11_step_partial (d : CDeque T) (l : List T) (h : CDeque.Rel d l) (op : DequeOp T) :
    ((d.step op).1 = .ub ↔ CDeque.Bad d op) ∧
    ((d.step op).1 ≠ .ub →
      (d.step op).1.isOk = (dequeStep l op).isSome ∧ CDeque.Rel (d.step op).2 (dequeNext l op)) := by
  cases op with
  | pushBack v =>
    by_cases hb : d.size = d.capacity ∧ d.front ≠ 0
    · have e := pushBack_bad hb.1 hb.2 v
      simp only [CDeque.step, e, CDeque.Bad]
      exact ⟨⟨fun _ => ⟨⟨v, rfl⟩, hb⟩, fun _ => trivial⟩, fun hn => absurd rfl hn⟩
    · obtain ⟨d', e, r⟩ := pushBack_spec h v hb
      simp only [CDeque.step, e, CDeque.Bad]
      exact ⟨⟨fun hn => (by cases hn), fun hn => absurd hn.2 hb⟩, fun _ => ⟨rfl, r⟩⟩
  | pushFront v =>
    obtain ⟨d', e, r⟩ := pushFront_spec h v
    simp only [CDeque.step, e, CDeque.Bad]
    exact ⟨⟨fun hn => (by cases hn), fun hn => (by obtain ⟨⟨_, hn⟩, _⟩ := hn; cases hn)⟩, fun _ => ⟨rfl, r⟩⟩
  | popBack =>
    have hp := popBack_spec h
    refine ⟨?_, ?_⟩
    · constructor
      · intro hn
        split at hp
        · simp [CDeque.step, hp] at hn
        · obtain ⟨d', e, _⟩ := hp; simp [CDeque.step, e] at hn
      · rintro ⟨⟨_, hn⟩, _⟩; cases hn
    · intro _
      by_cases he : l = []
      · rw [if_pos he] at hp
        simp only [CDeque.step, hp, dequeNext, dequeStep, if_pos he]
        exact ⟨rfl, h⟩
      · rw [if_neg he] at hp
        obtain ⟨d', e, r⟩ := hp
        simp only [CDeque.step, e, dequeNext, dequeStep, if_neg he]
        exact ⟨rfl, r⟩
  | popFront =>
    have hp := popFront_spec h
    refine ⟨?_, ?_⟩
    · constructor
      · intro hn
        split at hp
        · simp [CDeque.step, hp] at hn
        · obtain ⟨d', e, _⟩ := hp; simp [CDeque.step, e] at hn
      · rintro ⟨⟨_, hn⟩, _⟩; cases hn
    · intro _
      by_cases he : l = []
      · rw [if_pos he] at hp
        simp only [CDeque.step, hp, dequeNext, dequeStep, if_pos he]
        exact ⟨rfl, h⟩
      · rw [if_neg he] at hp
        obtain ⟨d', e, r⟩ := hp
        simp only [CDeque.step, e, dequeNext, dequeStep, if_neg he]
        exact ⟨rfl, r⟩
  | clear =>
    simp only [CDeque.step, CDeque.Bad, dequeNext, dequeStep]
    refine ⟨⟨fun hn => (by cases hn), fun hn => (by obtain ⟨⟨_, hn⟩, _⟩ := hn; cases hn)⟩, fun _ => ⟨rfl, ?_⟩⟩
    exact ⟨rfl, Nat.zero_le _, Or.inr rfl, fun i hi => absurd hi (Nat.not_lt_zero _)⟩

/-- All readers agree with the list. -/
structure CDeque.Reads (d : CDeque T) (l : List T) : Prop where
  size : d.size = l.length
  get : ∀ i x, l[i]? = some x → d.get i = .ok x
  front : d.frontElem = Res.ofOptionErr l.head?
  back : d.back = Res.ofOptionErr l.getLast?
  iterate : d.iterate = .ok l

theorem CDeque.Rel.reads {d : CDeque T} {l : List T} (h : CDeque.Rel d l) : CDeque.Reads d l := by
  have hlen := h.len
  have hcap := h.cap
  have hget : ∀ i x, l[i]? = some x → d.get i = .ok x := by
    intro i x hx
    have hi : i < l.length := (List.getElem?_eq_some_iff.1 hx).1
    unfold CDeque.get umod
    rw [if_neg (by omega)]
    exact Vec.get_ok ((h.el i (by omega)).trans hx)
  refine ⟨hlen.symm, hget, ?_, ?_, ?_⟩
  · unfold frontElem
    rcases l with _ | ⟨a, l⟩
    · rw [if_neg (by simp at hlen; omega)]; rfl
    · simp at hlen
      have := h.el 0 (by omega)
      rw [if_pos (by omega)]
      have hf : d.front < d.buf.length := by rcases h.fr with hf | hf <;> omega
      rw [Nat.add_zero, Nat.mod_eq_of_lt hf] at this
      exact Vec.get_ok this
  · unfold CDeque.back umod capacity
    by_cases he : l = []
    · subst he; rw [if_neg (by simp at hlen; omega)]; rfl
    · have : 0 < l.length := List.length_pos_iff.2 he
      rw [if_pos (by omega), if_neg (by omega)]
      have := h.el (d.size - 1) (by omega)
      rw [List.getLast?_eq_getElem?, show l.length - 1 = d.size - 1 by omega, ← this]
      simp only [Res.bind, Vec.get]
      rw [show d.front + d.size - 1 = d.front + (d.size - 1) by omega]
      cases hq : d.buf[(d.front + (d.size - 1)) % d.buf.length]? with
      | some x => rfl
      | none => rw [List.getElem?_eq_getElem (Nat.mod_lt _ (by omega))] at hq; cases hq
  · have gen : ∀ (k n : Nat), k + n = l.length → (List.range' k n).mapM d.get = .ok (l.drop k) := by
      intro k n
      induction n generalizing k with
      | zero => intro hk; simp [List.drop_of_length_le (show l.length ≤ k by omega)]
      | succ n ih =>
        intro hk
        have hkl : k < l.length := by omega
        rw [List.range'_succ, List.mapM_cons, hget k _ (List.getElem?_eq_getElem hkl), Res.bind_ok, ih (k + 1) (by omega),
          List.drop_eq_getElem_cons hkl]
        rfl
    unfold iterate
    rw [List.range_eq_range', gen 0 d.size (by omega), List.drop_zero]

/-- A history without undefined behaviour: every outcome and everything readable afterwards is that of a
mathematical deque, for every initial capacity. -/
theorem C11_run_partial (d : CDeque T) (l : List T) (h : CDeque.Rel d l) (ops : List (DequeOp T)) :
    match d.run ops with
    | .ok (outs, d') => outs = dequeOuts l ops ∧ CDeque.Rel d' (dequeRun l ops)
    | .err => False
    | .ub => True := by
  induction ops generalizing d l with
  | nil => exact ⟨rfl, h⟩
  | cons op ops ih =>
    have hs := (C11_step_partial d l h op).2
    rcases hst : d.step op with ⟨o, d1⟩
    rw [hst] at hs
    have go : o ≠ .ub → match (CDeque.run d1 ops).bind fun r => .ok (o.isOk :: r.1, r.2) with
        | .ok (outs, d') => outs = dequeOuts l (op :: ops) ∧ CDeque.Rel d' (dequeRun l (op :: ops))
        | .err => False
        | .ub => True := by
      intro ho
      obtain ⟨h1, h2⟩ := hs ho
      have := ih d1 _ h2
      cases hr : CDeque.run d1 ops with
      | ok r => rw [hr] at this; exact ⟨by simp only [dequeOuts]; rw [this.1, h1], this.2⟩
      | err => rw [hr] at this; exact this
      | ub => trivial
    cases o with
    | ok u => simp only [CDeque.run, hst]; exact go (by simp)
    | err => simp only [CDeque.run, hst]; exact go (by simp)
    | ub => simp only [CDeque.run, hst]

theorem CDeque.rel_make (dflt : T) (n : Nat) : CDeque.Rel (CDeque.make dflt n) [] :=
  ⟨rfl, Nat.zero_le _, Or.inr rfl, fun i hi => absurd hi (Nat.not_lt_zero _)⟩

/-- **C11 (partial).** As long as the number of elements never exceeds the initial capacity, there is no undefined
behaviour and the deque is a mathematical deque. -/
theorem C11_within_capacity_partial (dflt : T) (n : Nat) (ops : List (DequeOp T)) (hn : neverAbove n [] ops) :
    ∃ d', (CDeque.make dflt n).run ops = .ok (dequeOuts [] ops, d') ∧ CDeque.Reads d' (dequeRun [] ops) := by
  have gen : ∀ (ops : List (DequeOp T)) (d : CDeque T) (l : List T), CDeque.Rel d l → n ≤ d.capacity →
      neverAbove n l ops → ∃ d', d.run ops = .ok (dequeOuts l ops, d') ∧ CDeque.Rel d' (dequeRun l ops) := by
    intro ops
    induction ops with
    | nil => intro d l h _ _; exact ⟨d, rfl, h⟩
    | cons op ops ih =>
      intro d l h hcap hn
      have hs := C11_step_partial d l h op
      have hlen := h.len
      have hnb : ¬ CDeque.Bad d op := by
        rintro ⟨⟨v, rfl⟩, hfull, _⟩
        have hn2 : (l ++ [v]).length ≤ n := by
          have := hn.2
          simp only [dequeNext, dequeStep, Option.getD_some] at this
          cases ops with
          | nil => exact this
          | cons => exact this.1
        simp at hn2; omega
      have hnu : (d.step op).1 ≠ .ub := fun hu => hnb (hs.1.1 hu)
      obtain ⟨h1, h2⟩ := hs.2 hnu
      have hcap' : n ≤ (d.step op).2.capacity := by
        have hins : ∀ (l : List T) i v b, insertAt l i v = .ok b → l.length ≤ b.length := by
          intro l i v b hb
          unfold insertAt at hb; split at hb
          · cases hb; rw [List.length_insertIdx]; split <;> omega
          · cases hb
        have hset : ∀ (l : List T) i v b, Vec.set l i v = .ok b → l.length ≤ b.length := by
          intro l i v b hb
          unfold Vec.set at hb; split at hb
          · cases hb; simp
          · cases hb
        refine Nat.le_trans hcap ?_
        cases op with
        | pushBack v =>
          cases hp : d.pushBack v with
          | err => simp only [CDeque.step, hp]; exact Nat.le_refl _
          | ub => simp only [CDeque.step, hp]; exact Nat.le_refl _
          | ok d' =>
            simp only [CDeque.step, hp]
            unfold pushBack at hp
            split at hp
            · cases hi : insertAt d.buf (d.front + (d.size + 1) - 1) v with
              | ok b => rw [hi] at hp; cases hp; exact hins _ _ _ _ hi
              | err => rw [hi] at hp; cases hp
              | ub => rw [hi] at hp; cases hp
            · unfold umod at hp
              split at hp
              · cases hp
              · simp only [Res.bind] at hp
                cases hi : Vec.set d.buf ((d.front + (d.size + 1) - 1) % d.capacity) v with
                | ok b => rw [hi] at hp; cases hp; exact hset _ _ _ _ hi
                | err => rw [hi] at hp; cases hp
                | ub => rw [hi] at hp; cases hp
        | pushFront v =>
          cases hp : d.pushFront v with
          | err => simp only [CDeque.step, hp]; exact Nat.le_refl _
          | ub => simp only [CDeque.step, hp]; exact Nat.le_refl _
          | ok d' =>
            simp only [CDeque.step, hp]
            unfold pushFront at hp
            split at hp
            · cases hi : insertAt d.buf d.front v with
              | ok b => rw [hi] at hp; cases hp; exact hins _ _ _ _ hi
              | err => rw [hi] at hp; cases hp
              | ub => rw [hi] at hp; cases hp
            · unfold umod at hp
              split at hp
              · cases hp
              · simp only [Res.bind] at hp
                cases hi : Vec.set d.buf ((d.front + d.capacity - 1) % d.capacity) v with
                | ok b => rw [hi] at hp; cases hp; exact hset _ _ _ _ hi
                | err => rw [hi] at hp; cases hp
                | ub => rw [hi] at hp; cases hp
        | popBack =>
          by_cases h1 : 0 < d.size <;> simp [CDeque.step, popBack, h1, capacity]
        | popFront =>
          by_cases h1 : 0 < d.size <;> by_cases h2 : d.capacity = 0 <;>
            simp only [CDeque.step, popFront, umod, h1, h2, Res.bind, if_true, if_false] <;>
            exact Nat.le_refl _
        | clear => exact Nat.le_refl _
      obtain ⟨d', e, hr⟩ := ih _ _ h2 hcap' hn.2
      refine ⟨d', ?_, hr⟩
      rcases hst : d.step op with ⟨o, d1⟩
      rw [hst] at hnu h1 e
      cases o with
      | ok u => simp only [CDeque.run, hst, e, Res.bind, dequeOuts, ← h1]
      | err => simp only [CDeque.run, hst, e, Res.bind, dequeOuts, ← h1]
      | ub => exact absurd rfl hnu
  obtain ⟨d', e, r⟩ := gen ops _ _ (CDeque.rel_make dflt n) (by simp [CDeque.make, capacity]) hn
  exact ⟨d', e, r.reads⟩

/-- **C11 is violated**: with capacity 2, `push_back 1, push_back 2, pop_front, push_back 3, push_back 4` inserts
past the end of the storage. -/
theorem C11_growing_wrapped_violated :
    (CDeque.make (0 : Nat) 2).run [.pushBack 1, .pushBack 2, .popFront, .pushBack 3, .pushBack 4] = .ub := by
  rfl

/-- **C11 is violated** by `back()` on a const deque: for every full deque it reads the first element. -/
theorem C11_const_back_violated (d : CDeque T) (l : List T) (h : CDeque.Rel d l) (hf : d.size = d.capacity)
    (h0 : l ≠ []) : d.backConst = Res.ofOptionErr l.head? := by
  have hlen := h.len
  unfold capacity at hf
  have : 0 < l.length := List.length_pos_iff.2 h0
  unfold backConst umod capacity
  rw [if_pos (by omega), if_neg (by omega), hf, Nat.add_mod_right, ← h.reads.front]
  unfold frontElem
  have hfr : d.front < d.buf.length := by rcases h.fr with hf | hf <;> omega
  rw [if_pos (by omega), Nat.mod_eq_of_lt hfr]; rfl

/-- A history within capacity that wraps around the end of the storage. -/
example : neverAbove 2 [] ([.pushBack 1, .pushFront 2, .popFront, .popBack, .popBack, .pushBack 3] : List (DequeOp Nat)) := by
  simp [neverAbove, dequeNext, dequeStep]

/-- `back()` on a const deque holding `1, 2`. -/
example : ((CDeque.make (0 : Nat) 2).run [.pushBack 1, .pushBack 2]).bind (fun r => r.2.backConst) = .ok 1 := by rfl

end Xo
