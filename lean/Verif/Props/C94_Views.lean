import Verif.Model.Views
import Mathlib.Data.List.Basic

/-!
C94: views over containers and streams over iterators. A zipped loop sees the elements of both sequences side by side, a filtered view
exactly the elements with the property, and what is written to a stream is read back from it.
-/
namespace Xo.Views
open Xo

/-! ## zip -/
section
variable {α β : Type}

/-- **C94.** If the second sequence is at least as long as the first, a zipped loop sees the `i`-th elements together, for each `i` in the first
sequence, and changes the elements it sees and no others. -/
theorem C94_zip_partial (f : α → β → α × β) : ∀ (as : List α) (bs : List β), as.length ≤ bs.length →
    zipSeen as bs = .ok (as.zip bs) ∧
    ∃ as' bs', zipLoop f as bs = .ok (as', bs') ∧ as'.length = as.length ∧ bs'.length = bs.length ∧
      (∀ (i : Nat) a b, as[i]? = some a → bs[i]? = some b → as'[i]? = some (f a b).1 ∧ bs'[i]? = some (f a b).2) ∧
      (∀ i, as.length ≤ i → bs'[i]? = bs[i]?) := by
  intro as
  induction as with
  | nil => intro bs _; exact ⟨rfl, [], bs, rfl, rfl, rfl, by simp, by simp⟩
  | cons a as ih =>
    intro bs hl
    cases bs with
    | nil => simp at hl
    | cons b bs =>
      obtain ⟨h1, as', bs', h2, h3, h4, h5, h6⟩ := ih bs (by simpa using hl)
      refine ⟨by simp [zipSeen, h1, Res.bind], (f a b).1 :: as', (f a b).2 :: bs', by simp [zipLoop, h2, Res.bind], by simp [h3], by simp [h4], ?_, ?_⟩
      · intro i x y hx hy
        cases i with
        | zero => simp at hx hy; subst hx hy; simp
        | succ i => simpa using h5 i x y (by simpa using hx) (by simpa using hy)
      · intro i hi
        cases i with
        | zero => simp at hi
        | succ i => simpa using h6 i (by simpa using hi)

/-- **C94 is violated by a shorter second sequence**: the loop goes beyond its end. -/
theorem C94_zip_violated (f : α → β → α × β) : ∀ (as : List α) (bs : List β), bs.length < as.length →
    zipLoop f as bs = .ub ∧ zipSeen as bs = .ub := by
  intro as
  induction as with
  | nil => intro bs h; simp at h
  | cons a as ih =>
    intro bs h
    cases bs with
    | nil => exact ⟨rfl, rfl⟩
    | cons b bs =>
      obtain ⟨h1, h2⟩ := ih bs (by simpa using h)
      simp [zipLoop, zipSeen, h1, h2, Res.bind]

example : zipLoop (fun (a : Nat) (b : Nat) => (a + b, a)) [1, 2] [10, 20, 30] = .ok ([11, 22], [1, 2, 30]) := by decide
end

/-! ## view_if -/
section
variable {α : Type} (p : α → Bool)

/-- The next match is the rest from the first element with the property; nothing before it has the property. -/
theorem nextMatch_spec (l : List α) :
    ∃ skipped, l = skipped ++ nextMatch p l ∧ (∀ x ∈ skipped, p x = false) ∧ ∀ x, (nextMatch p l).head? = some x → p x = true := by
  induction l with
  | nil => exact ⟨[], rfl, by simp, by simp [nextMatch]⟩
  | cons x l ih =>
    by_cases h : p x = true
    · exact ⟨[], by simp [nextMatch, h], by simp, by simp [nextMatch, h]⟩
    · obtain ⟨sk, e, h1, h2⟩ := ih
      refine ⟨x :: sk, by simp [nextMatch, h, ← e], ?_, by simpa [nextMatch, h] using h2⟩
      intro y hy
      rcases List.mem_cons.1 hy with rfl | hy
      · simpa using h
      · exact h1 y hy

theorem filter_nextMatch (l : List α) : (nextMatch p l).filter p = l.filter p := by
  obtain ⟨sk, e, h1, _⟩ := nextMatch_spec p l
  conv_rhs => rw [e]
  have h3 : sk.filter p = [] := List.filter_eq_nil_iff.2 (by intro x hx; simp [h1 x hx])
  rw [List.filter_append, h3, List.nil_append]

theorem visit_eq : ∀ (fuel : Nat) (it : List α), it.length ≤ fuel → (∀ x, it.head? = some x → p x = true) → visit p fuel it = .ok (it.filter p) := by
  intro fuel
  induction fuel with
  | zero =>
    intro it h _
    have : it = [] := List.eq_nil_of_length_eq_zero (by omega)
    subst this; simp [visit, end', iter, nextMatch]
  | succ fuel ih =>
    intro it h hh
    cases it with
    | nil => simp [visit, end', iter, nextMatch]
    | cons x xs =>
      have hx := hh x rfl
      have h2 := nextMatch_length p xs
      have h3 := ih (nextMatch p xs) (by simp at h; omega) (nextMatch_spec p xs).choose_spec.2.2
      simp only [visit, end', iter, nextMatch, List.length_nil, List.length_cons, Nat.succ_ne_zero, if_false, deref, next, Res.bind, h3,
        filter_nextMatch, List.filter_cons, hx, if_true]

/-- **C94.** A loop over a filtered view sees exactly the elements with the property, in their order and as often as they occur; it never
dereferences or moves an iterator beyond the end. -/
theorem C94_view_if (l : List α) : visited p l = .ok (l.filter p) := by
  obtain ⟨_, e, _, h⟩ := nextMatch_spec p l
  unfold visited begin' iter
  rw [visit_eq p l.length _ (nextMatch_length p l) h, filter_nextMatch]

/-- **C94.** `begin` is the first element with the property, or the end; `it++` gives the old position. -/
theorem C94_view_steps (l : List α) : (deref (begin' p l) = match l.find? p with | some x => .ok x | none => .ub) ∧
    (l.find? p = none ↔ begin' p l = end' p) ∧
    ∀ x xs, nextPost p (x :: xs) = .ok (x :: xs, begin' p xs) := by
  refine ⟨?_, ?_, fun x xs => rfl⟩
  · induction l with
    | nil => rfl
    | cons x l ih => by_cases h : p x = true <;> simp_all [begin', iter, nextMatch, deref]
  · induction l with
    | nil => simp [begin', end']
    | cons x l ih => by_cases h : p x = true <;> simp_all [begin', end', iter, nextMatch]

example : visited (fun n : Nat => n % 2 == 0) [1, 2, 3, 4, 6, 7] = .ok [2, 4, 6] := by decide
end

/-! ## Streams -/
section
variable {K : Type}

namespace Spec
/-- The numbers of an item: a vector as x, y, z, a quaternion as w, x, y, z. -/
def numbers : Item K → List K
  | .num v => [v]
  | .vec x y z => [x, y, z]
  | .quat w x y z => [w, x, y, z]

def kind : Item K → Kind
  | .num _ => .num
  | .vec _ _ _ => .vec
  | .quat _ _ _ _ => .quat

/-- All numbers of a number of items. -/
def flat (is : List (Item K)) : List K := (is.map numbers).flatten
end Spec

/-- The data with `vs` in the places from `pos` on. -/
def over (d : List K) (pos : Nat) (vs : List K) : List K := d.take pos ++ vs ++ d.drop (pos + vs.length)

theorem set_eq_over (d : List K) (pos : Nat) (v : K) (h : pos < d.length) : d.set pos v = over d pos [v] := by
  simp [over, List.set_eq_take_append_cons_drop, h]

theorem over_over (d : List K) (pos : Nat) (us vs : List K) (h : pos + us.length ≤ d.length) :
    over (over d pos us) (pos + us.length) vs = over d pos (us ++ vs) := by
  have h1 : (d.take pos ++ us).length = pos + us.length := by simp; omega
  have h2 : (over d pos us).take (pos + us.length) = d.take pos ++ us := by
    unfold over; rw [← h1, List.take_left']; rfl
  have h3 : (over d pos us).drop (pos + us.length + vs.length) = d.drop (pos + us.length + vs.length) := by
    unfold over
    rw [List.drop_append, List.drop_eq_nil_of_le (by rw [h1]; omega), List.nil_append, List.drop_drop, h1]
    congr 1; omega
  unfold over at *
  rw [h2, h3]
  simp [Nat.add_assoc]

theorem over_nil (d : List K) (pos : Nat) : over d pos [] = d := by simp [over]

theorem over_length (d : List K) (pos : Nat) (vs : List K) (h : pos + vs.length ≤ d.length) : (over d pos vs).length = d.length := by
  simp [over]; omega

/-- Putting single values one after the other. -/
def putAll (s : Stream K) : List K → Res (Stream K)
  | [] => .ok s
  | v :: vs => (s.put v).bind fun s => putAll s vs

theorem putAll_append (vs ws : List K) : ∀ s : Stream K, putAll s (vs ++ ws) = (putAll s vs).bind fun s => putAll s ws := by
  induction vs with
  | nil => intro s; rfl
  | cons v vs ih =>
    intro s
    simp only [List.cons_append, putAll]
    cases s.put v with
    | ok s' => simp only [Res.bind]; exact ih s'
    | err => rfl
    | ub => rfl

theorem bind_ok' {A : Type} (r : Res A) : (r.bind fun s => .ok s) = r := by cases r <;> rfl

theorem write_eq (s : Stream K) (i : Item K) : s.write i = putAll s (Spec.numbers i) := by
  cases i <;> simp only [Stream.write, Spec.numbers, putAll, bind_ok']

theorem writeAll_eq (is : List (Item K)) : ∀ s : Stream K, s.writeAll is = putAll s (Spec.flat is) := by
  induction is with
  | nil => intro s; rfl
  | cons i is ih =>
    intro s
    rw [show Spec.flat (i :: is) = Spec.numbers i ++ Spec.flat is from rfl, putAll_append, Stream.writeAll, write_eq]
    congr 1; funext s'; exact ih s'

theorem putAll_ok (vs : List K) : ∀ s : Stream K, s.pos + vs.length ≤ s.data.length → putAll s vs = .ok ⟨over s.data s.pos vs, s.pos + vs.length⟩ := by
  induction vs with
  | nil => intro s _; simp [putAll, over_nil]
  | cons v vs ih =>
    intro s h
    simp only [List.length_cons] at h
    have hlt : s.pos < s.data.length := by omega
    simp only [putAll, Stream.put, hlt, if_true, Res.bind]
    rw [ih _ (by simp; omega)]
    simp only [set_eq_over _ _ _ hlt]
    have := over_over s.data s.pos [v] vs (by simpa using (by omega : s.pos + 1 ≤ s.data.length))
    simp only [List.length_singleton] at this
    rw [this]
    simp [Nat.add_assoc, Nat.add_comm 1]

theorem putAll_ub (vs : List K) : ∀ s : Stream K, s.data.length < s.pos + vs.length → vs ≠ [] → putAll s vs = .ub := by
  induction vs with
  | nil => intro s _ h; exact absurd rfl h
  | cons v vs ih =>
    intro s h _
    simp only [List.length_cons] at h
    simp only [putAll, Stream.put]
    by_cases hlt : s.pos < s.data.length
    · simp only [hlt, if_true, Res.bind]
      refine ih _ (by simp; omega) ?_
      rintro rfl; simp at h; omega
    · simp [hlt, Res.bind]

/-- **C94.** Items written to a stream are, number by number, in the container from the position of the stream on; no other element changes. If the
container is too short, the outcome is undefined. -/
theorem C94_stream_write (s : Stream K) (is : List (Item K)) :
    (s.pos + (Spec.flat is).length ≤ s.data.length →
      ∃ s', s.writeAll is = .ok s' ∧ s'.pos = s.pos + (Spec.flat is).length ∧ s'.data.length = s.data.length ∧
        ∀ (i : Nat), s'.data[i]? = if s.pos ≤ i ∧ i < s'.pos then (Spec.flat is)[i - s.pos]? else s.data[i]?) ∧
    (s.data.length < s.pos + (Spec.flat is).length → Spec.flat is ≠ [] → s.writeAll is = .ub) := by
  rw [writeAll_eq]
  refine ⟨fun h => ⟨_, putAll_ok _ _ h, rfl, over_length _ _ _ h, fun i => ?_⟩, fun h hne => putAll_ub _ _ h hne⟩
  simp only
  generalize Spec.flat is = vs at *
  have h1 : (s.data.take s.pos ++ vs).length = s.pos + vs.length := by simp; omega
  have h0 : (s.data.take s.pos).length = s.pos := by simp; omega
  unfold over
  by_cases hi : i < s.pos + vs.length
  · rw [List.getElem?_append_left (by omega)]
    by_cases hp : s.pos ≤ i
    · rw [if_pos ⟨hp, hi⟩, List.getElem?_append_right (by omega), h0]
    · rw [if_neg (by omega), List.getElem?_append_left (by omega), List.getElem?_take, if_pos (by omega)]
  · rw [List.getElem?_append_right (by omega), if_neg (by omega), h1, List.getElem?_drop]
    congr 1; omega

theorem read_eq (s : Stream K) (i : Item K) (r : List K) (h : s.data.drop s.pos = Spec.numbers i ++ r) :
    s.read (Spec.kind i) = .ok (i, ⟨s.data, s.pos + (Spec.numbers i).length⟩) := by
  have hk : ∀ k, s.data[s.pos + k]? = (Spec.numbers i ++ r)[k]? := by intro k; rw [← h, List.getElem?_drop]
  cases i with
  | num v =>
    have h0 := hk 0
    simp [Spec.numbers] at h0
    simp [Stream.read, Spec.kind, Stream.take, h0, Res.bind, Spec.numbers]
  | vec x y z =>
    have h0 := hk 0; have h1 := hk 1; have h2 := hk 2
    simp [Spec.numbers] at h0 h1 h2
    simp [Stream.read, Spec.kind, Stream.take, h0, h1, h2, Res.bind, Spec.numbers, Nat.add_assoc]
  | quat w x y z =>
    have h0 := hk 0; have h1 := hk 1; have h2 := hk 2; have h3 := hk 3
    simp [Spec.numbers] at h0 h1 h2 h3
    simp [Stream.read, Spec.kind, Stream.take, h0, h1, h2, h3, Res.bind, Spec.numbers, Nat.add_assoc]

theorem readAll_eq (is : List (Item K)) : ∀ (s : Stream K) (r : List K), s.data.drop s.pos = Spec.flat is ++ r →
    s.readAll (is.map Spec.kind) = .ok (is, ⟨s.data, s.pos + (Spec.flat is).length⟩) := by
  induction is with
  | nil => intro s r _; simp [Stream.readAll, Spec.flat]
  | cons i is ih =>
    intro s r h
    have hf : Spec.flat (i :: is) = Spec.numbers i ++ Spec.flat is := rfl
    rw [hf, List.append_assoc] at h
    have h1 := read_eq s i _ h
    have h2 := ih ⟨s.data, s.pos + (Spec.numbers i).length⟩ r (by
      simp only
      rw [← List.drop_drop, h, List.drop_left'] ; rfl)
    simp only [List.map_cons, Stream.readAll, h1, Res.bind, h2, hf, List.length_append, Nat.add_assoc]

/-- **C94.** Items written to a stream are read back by a stream that starts at the same position, for every sequence of values, vectors and
quaternions, and whatever is before and behind them; both streams end at the same position. -/
theorem C94_stream_round_trip (s : Stream K) (is : List (Item K)) (h : s.pos + (Spec.flat is).length ≤ s.data.length) :
    ∃ s', s.writeAll is = .ok s' ∧ Stream.readAll ⟨s'.data, s.pos⟩ (is.map Spec.kind) = .ok (is, s') := by
  rw [writeAll_eq, putAll_ok _ _ h]
  refine ⟨_, rfl, ?_⟩
  have := readAll_eq is ⟨over s.data s.pos (Spec.flat is), s.pos⟩ (s.data.drop (s.pos + (Spec.flat is).length)) (by
    unfold over
    rw [List.append_assoc, List.drop_left' (by simp; omega)])
  exact this

/-- **C94.** Numbers that are added by a stream at the end of a container are read back by a stream that starts at the old end. -/
theorem C94_push_back_stream (cont : List K) (vs : List K) :
    Stream.readAll ⟨vs.foldl pushBack cont, cont.length⟩ (vs.map fun _ => .num) = .ok (vs.map .num, ⟨cont ++ vs, (cont ++ vs).length⟩) := by
  have e : ∀ (vs cont : List K), vs.foldl pushBack cont = cont ++ vs := by
    intro vs
    induction vs with
    | nil => simp
    | cons v vs ih => intro c; simp [ih, pushBack]
  rw [e]
  have hf : Spec.flat (vs.map Item.num) = vs := by
    induction vs with
    | nil => rfl
    | cons v vs ih => simpa [Spec.flat, Spec.numbers] using ih
  have := readAll_eq (vs.map Item.num) ⟨cont ++ vs, cont.length⟩ [] (by rw [hf]; simp)
  rw [hf, List.map_map] at this
  rw [List.length_append]
  exact this

/-- Reading beyond the end is undefined. -/
theorem C94_stream_end (s : Stream K) (h : s.data.length ≤ s.pos) (k : Kind) : s.read k = .ub := by
  have : s.data[s.pos]? = none := List.getElem?_eq_none h
  cases k <;> simp [Stream.read, Stream.take, this, Res.bind]

example : (Stream.writeAll ⟨[0, 0, 0, 0, 0, 0, 0, 0, 0], 1⟩ [.num 5, .vec 1 2 3, .num (7 : Int)]).map (fun s => (s.data, s.pos)) =
    .ok ([0, 5, 1, 2, 3, 7, 0, 0, 0], 6) := by decide
end

end Xo.Views
