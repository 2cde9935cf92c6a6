import Verif.Model.ContText
import Verif.Props.C110_CharStream

/-! C125. Collections as text.

The text of a collection shows which collection it is: two different vectors of numbers, two different
vectors of vectors of numbers to any depth and two different sets of numbers have different texts. A
vector of numbers written to a stream and read into a vector of the same size is the same. -/

namespace Xo.ContT
open Xo.CharS

namespace Spec

/-- A text without blanks. -/
def NoBlank (s : Str) : Prop := ∀ c ∈ s, c ≠ ' '

/-- A number of type `int`. -/
def IsInt (v : Int) : Prop := -2 ^ 31 ≤ v ∧ v < 2 ^ 31

/-- The text of numbers with a blank between them. -/
def blanks : List Int → Str
  | [] => []
  | [a] => intToStr a
  | a :: t => intToStr a ++ ' ' :: blanks t

end Spec
open Spec

/-! The text of a vector, from the front. -/

/-- The elements, each with a blank behind it. -/
def items {α : Type} (f : α → Str) : List α → Str
  | [] => []
  | a :: t => f a ++ ' ' :: items f t

theorem foldl_items {α : Type} (f : α → Str) (l : List α) (s : Str) :
    l.foldl (fun s e => s ++ (f e ++ [' '])) s = s ++ items f l := by
  induction l generalizing s with
  | nil => simp [items]
  | cons a t ih => rw [List.foldl_cons, ih]; simp [items]

theorem container_eq {α : Type} (f : α → Str) (l : List α) : containerToStr f l = '[' :: ' ' :: (items f l ++ [']']) := by
  unfold containerToStr; rw [foldl_items]; simp

/-- An element without blanks ends at the first blank. -/
theorem cut {a b x y : Str} (ha : NoBlank a) (hb : NoBlank b) (h : a ++ ' ' :: x = b ++ ' ' :: y) : a = b ∧ x = y := by
  induction a generalizing b with
  | nil =>
    cases b with
    | nil => simpa using h
    | cons c t => simp at h; exact absurd h.1.symm (hb c (by simp))
  | cons c t ih =>
    cases b with
    | nil => simp at h; exact absurd h.1 (ha c (by simp))
    | cons d u =>
      simp only [List.cons_append, List.cons.injEq] at h
      obtain ⟨rfl, h⟩ := h
      obtain ⟨rfl, rfl⟩ := ih (fun c hc => ha c (by simp [hc])) (fun c hc => hb c (by simp [hc])) h
      exact ⟨rfl, rfl⟩

/-- A text of elements without blanks that is closed by a bracket. -/
theorem items_inj {α : Type} {f : α → Str} {l m : List α} (hl : ∀ a ∈ l, NoBlank (f a)) (hm : ∀ a ∈ m, NoBlank (f a))
    (h : items f l ++ [']'] = items f m ++ [']']) : l.map f = m.map f := by
  induction l generalizing m with
  | nil =>
    cases m with
    | nil => rfl
    | cons b u =>
      have := congrArg (fun s : Str => decide (' ' ∈ s)) h
      simp [items] at this
  | cons a t ih =>
    cases m with
    | nil =>
      have := congrArg (fun s : Str => decide (' ' ∈ s)) h
      simp [items] at this
    | cons b u =>
      simp only [items, List.append_assoc, List.cons_append] at h
      obtain ⟨h1, h2⟩ := cut (hl a (by simp)) (hm b (by simp)) h
      simp [h1, ih (fun a ha => hl a (by simp [ha])) (fun a ha => hm a (by simp [ha])) h2]

theorem int_noblank (v : Int) : NoBlank (intToStr v) := by
  intro c hc
  have h1 := (natToStr_spec v.natAbs).1
  have hd : ∀ c ∈ natToStr v.natAbs, c ≠ ' ' := by
    rintro c hc rfl; have := h1 _ hc; revert this; decide
  unfold intToStr at hc
  split at hc
  · rcases List.mem_cons.1 hc with rfl | hc
    · decide
    · exact hd c hc
  · exact hd c hc

theorem int_inj {a b : Int} (h : intToStr a = intToStr b) : a = b := by
  have h1 := readInt_intToStr a [] (by simp)
  have h2 := readInt_intToStr b [] (by simp)
  simp only [List.append_nil] at h1 h2
  rw [h, h2] at h1
  simp at h1
  omega

/-- Vectors of texts without blanks have different texts unless they are the same. -/
theorem C125_vector {l m : List Str} (hl : ∀ s ∈ l, NoBlank s) (hm : ∀ s ∈ m, NoBlank s)
    (h : containerToStr id l = containerToStr id m) : l = m := by
  rw [container_eq, container_eq] at h
  simpa using items_inj (f := id) hl hm (by simpa using h)

/-- Not so with blanks. -/
theorem C125_blank_violated : containerToStr id ["a b".toList] = containerToStr id ["a".toList, "b".toList] := by decide

/-- Sets of texts without blanks have different texts unless they have the same elements. -/
theorem C125_set {l m : List Str} (hl : ∀ s ∈ l, NoBlank s) (hm : ∀ s ∈ m, NoBlank s)
    (h : setToStr id l = setToStr id m) : l = m := by
  have big : ∀ l : List Str, l.length ≠ 1 → setToStr id l = containerToStr id l := by
    intro l hl
    match l, hl with
    | [], _ => rfl
    | [_], h => simp at h
    | _ :: _ :: _, _ => rfl
  have blank : ∀ (l : List Str) (a : Str), NoBlank a → containerToStr id l ≠ a := by
    intro l a ha e
    rw [container_eq] at e
    exact ha ' ' (by rw [← e]; simp) rfl
  by_cases h1 : l.length = 1 <;> by_cases h2 : m.length = 1
  · obtain ⟨a, rfl⟩ := List.length_eq_one_iff.1 h1
    obtain ⟨b, rfl⟩ := List.length_eq_one_iff.1 h2
    exact congrArg (fun x => [x]) h
  · obtain ⟨a, rfl⟩ := List.length_eq_one_iff.1 h1
    rw [big m h2] at h
    exact absurd h.symm (blank m a (hl a (by simp)))
  · obtain ⟨b, rfl⟩ := List.length_eq_one_iff.1 h2
    rw [big l h1] at h
    exact absurd h (blank l b (hm b (by simp)))
  · rw [big l h1, big m h2] at h
    exact C125_vector hl hm h

/-- Sets of numbers. -/
theorem C125_set_int {l m : List Int} (h : setToStr intToStr l = setToStr intToStr m) : l = m := by
  have fold : ∀ (l : List Int) (s : Str), l.foldl (fun s e => s ++ (intToStr e ++ [' '])) s =
      (l.map intToStr).foldl (fun s e => s ++ (id e ++ [' '])) s := by
    intro l; induction l with
    | nil => intro s; rfl
    | cons a t ih => intro s; simp only [List.foldl_cons, List.map_cons, id]; exact ih _
  have e : ∀ l : List Int, setToStr intToStr l = setToStr id (l.map intToStr) := by
    intro l
    match l with
    | [] => rfl
    | [_] => rfl
    | a :: b :: t =>
      show (a :: b :: t).foldl _ _ ++ _ = ((a :: b :: t).map intToStr).foldl _ _ ++ _
      rw [fold]
  rw [e, e] at h
  have nb : ∀ l : List Int, ∀ s ∈ l.map intToStr, NoBlank s := by
    intro l s hs; obtain ⟨v, -, rfl⟩ := List.mem_map.1 hs; exact int_noblank v
  have := C125_set (nb l) (nb m) h
  exact List.map_injective_iff.2 (fun _ _ => int_inj) this

example : setToStr intToStr [3] = "3".toList ∧ setToStr intToStr [3, 5] = "[ 3 5 ]".toList ∧ setToStr intToStr [] = "[ ]".toList := by decide

/-! Vectors in vectors. -/

/-- Texts that show where they end. -/
structure Clear {α : Type} (f : α → Str) : Prop where
  cut : ∀ a b x y, f a ++ ' ' :: x = f b ++ ' ' :: y → a = b ∧ x = y
  head : ∀ a x, f a ≠ ']' :: x

theorem clear_int : Clear intToStr := by
  refine ⟨fun a b x y h => ?_, fun a x h => ?_⟩
  · obtain ⟨h1, h2⟩ := cut (int_noblank a) (int_noblank b) h
    exact ⟨int_inj h1, h2⟩
  · obtain ⟨c, cs, e, hc⟩ := digit_head (v := a)
    rw [h] at e
    injection e with e1 e2
    subst e1
    revert hc; decide

theorem items_clear {α : Type} {f : α → Str} (hf : Clear f) (hne : ∀ a, f a ≠ []) : ∀ (l m : List α) (x y : Str),
    items f l ++ ']' :: x = items f m ++ ']' :: y → l = m ∧ x = y
  | [], [], x, y, h => by simpa [items] using h
  | [], b :: u, x, y, h => by
    exfalso
    cases hb : f b with
    | nil => exact hne b hb
    | cons c cs =>
      simp [items, hb] at h
      exact hf.head b cs (by rw [hb, ← h.1])
  | a :: t, [], x, y, h => by
    exfalso
    cases hb : f a with
    | nil => exact hne a hb
    | cons c cs =>
      simp [items, hb] at h
      exact hf.head a cs (by rw [hb, h.1])
  | a :: t, b :: u, x, y, h => by
    simp only [items, List.append_assoc, List.cons_append] at h
    obtain ⟨rfl, h2⟩ := hf.cut _ _ _ _ h
    obtain ⟨rfl, rfl⟩ := items_clear hf hne t u x y h2
    exact ⟨rfl, rfl⟩

theorem clear_container {α : Type} {f : α → Str} (hf : Clear f) (hne : ∀ a, f a ≠ []) : Clear (containerToStr f) := by
  refine ⟨fun a b x y h => ?_, fun a x h => ?_⟩
  · rw [container_eq, container_eq] at h
    simp only [List.cons_append, List.cons.injEq, true_and, List.append_assoc, List.nil_append] at h
    obtain ⟨h1, h2⟩ := items_clear hf hne a b _ _ h
    simp at h2
    exact ⟨h1, h2⟩
  · rw [container_eq] at h
    simp at h

theorem clear_nest : ∀ n, Clear (nestToStr n) ∧ ∀ a, nestToStr n a ≠ []
  | 0 => ⟨clear_int, fun a h => by
    obtain ⟨c, cs, e, -⟩ := digit_head (v := (a : Int))
    have : intToStr a = [] := h
    rw [e] at this; simp at this⟩
  | n + 1 => ⟨clear_container (clear_nest n).1 (clear_nest n).2, fun a h => by
    have : '[' :: ' ' :: (items (nestToStr n) (id a : List (Nest n)) ++ [']']) = [] := by rw [← container_eq]; exact h
    simp at this⟩

/-- Vectors of vectors of numbers, to any depth. -/
theorem C125_nested (n : Nat) {a b : Nest n} (h : nestToStr n a = nestToStr n b) : a = b :=
  ((clear_nest n).1.cut a b [] [] (by rw [h])).1

/-- Not so with texts inside, even without blanks. -/
theorem C125_bracket_violated :
    containerToStr (containerToStr id) [["]".toList, "[".toList]] = containerToStr (containerToStr id) [[], []] := by decide

example : nestToStr 2 ([[1, -2], []] : List (List Int)) = "[ [ 1 -2 ] [ ] ]".toList := by decide

/-! Streams. -/

theorem writeVec_eq : ∀ v, writeVec v = blanks v
  | [] => rfl
  | a :: t => by
    have : ∀ (t : List Int) (s : Str), t.foldl (fun s e => s ++ ' ' :: intToStr e) s = s ++ (match t with | [] => [] | _ => ' ' :: blanks t) := by
      intro t
      induction t with
      | nil => simp
      | cons b u ih =>
        intro s
        rw [List.foldl_cons, ih]
        cases u <;> simp [blanks]
    unfold writeVec
    simp only [this]
    cases t <;> simp [blanks]

theorem writeVec_cons (a b : Int) (t : List Int) : writeVec (a :: b :: t) = intToStr a ++ ' ' :: writeVec (b :: t) := by
  rw [writeVec_eq, writeVec_eq]; rfl

/-- Blanks in front make no difference. -/
theorem int_skip (r : Str) (old : Int) : In.int ⟨' ' :: r, false, false⟩ old = In.int ⟨r, false, false⟩ old := by
  have h1 : (' ' :: r).dropWhile isSpaceC = r.dropWhile isSpaceC := by simp [isSpaceC]
  have h2 : behind (' ' :: r) = behind r := by unfold behind; rw [h1]
  have h3 : readInt (' ' :: r) = readInt r := by unfold readInt; simp only [h1]
  unfold In.int
  simp only [h1, h2, h3]
  rfl

theorem int_one {v : Int} (hv : IsInt v) (old : Int) (tail : Str) (ht : ∀ c, tail.head? = some c → isDigitC c = false) :
    In.int ⟨intToStr v ++ tail, false, false⟩ old = (v, ⟨tail, tail.isEmpty, false⟩) := by
  obtain ⟨c, cs, e, hc⟩ := digit_head (v := v)
  have hs : (intToStr v ++ tail).dropWhile isSpaceC ≠ [] := by rw [e]; simp [digit_nospace hc]
  obtain ⟨h1, h2⟩ := hv
  unfold In.int
  simp only [behind_text v tail ht, readInt_intToStr v tail ht]
  rw [if_neg (by simp), if_neg hs]
  have hv' : (if decide (v < 0) = true then -((v.natAbs : Nat) : Int) else ((v.natAbs : Nat) : Int)) = v := by
    by_cases h : v < 0
    · simp [h]; omega
    · simp [h]; omega
  rw [hv', if_neg (by omega), if_neg (by omega)]

/-- A stream without anything to read changes nothing. -/
theorem readVec_end (w : List Int) : (readVec ⟨[], true, false⟩ w).1 = w ∧ (readVec ⟨[], true, true⟩ w).1 = w := by
  induction w with
  | nil => exact ⟨rfl, rfl⟩
  | cons a t ih => simp [readVec, In.int, ih.2]

theorem readVec_bad (w : List Int) (r : Str) (e : Bool) : (readVec ⟨r, e, true⟩ w).1 = w ∧ (readVec ⟨r, e, true⟩ w).2.fail = true := by
  induction w with
  | nil => exact ⟨rfl, rfl⟩
  | cons a t ih => simp [readVec, In.int, ih]

/-- Writing a vector and reading it into a vector of the same size, whatever that one held. -/
theorem C125_stream {v w : List Int} (hv : ∀ x ∈ v, IsInt x) (hw : w.length = v.length) :
    (readVec ⟨writeVec v, false, false⟩ w).1 = v ∧ (readVec ⟨writeVec v, false, false⟩ w).2.fail = false := by
  induction v generalizing w with
  | nil =>
    obtain rfl : w = [] := by simpa using hw
    exact ⟨rfl, rfl⟩
  | cons a t ih =>
    obtain ⟨b, u, rfl⟩ : ∃ b u, w = b :: u := by cases w with | nil => simp at hw | cons b u => exact ⟨b, u, rfl⟩
    have hu : u.length = t.length := by simpa using hw
    have ha := hv a (by simp)
    cases t with
    | nil =>
      obtain rfl : u = [] := by simpa using hu
      have h1 := int_one ha b [] (by simp)
      simp only [List.append_nil] at h1
      simp [readVec, show writeVec [a] = intToStr a from rfl, h1]
    | cons c t =>
      have h1 := int_one ha b (' ' :: writeVec (c :: t)) (by intro x hx; simp at hx; subst hx; decide)
      have h2 := ih (fun x hx => hv x (by simp [hx])) hu
      have h3 : readVec ⟨' ' :: writeVec (c :: t), false, false⟩ u = readVec ⟨writeVec (c :: t), false, false⟩ u := by
        cases u with
        | nil => simp at hu
        | cons d u => simp only [readVec, int_skip]
      rw [writeVec_cons]
      simp only [readVec, h1, List.isEmpty_cons, h3]
      exact ⟨by rw [h2.1], h2.2⟩

/-- A longer vector keeps its other elements, and the stream says that it failed. -/
theorem C125_short {v w x : List Int} (hv : ∀ y ∈ v, IsInt y) (hw : w.length = v.length) (hx : x ≠ []) :
    (readVec ⟨writeVec v, false, false⟩ (w ++ x)).1 = v ++ x ∧ (readVec ⟨writeVec v, false, false⟩ (w ++ x)).2.fail = true := by
  have app : ∀ (w x : List Int) (s : In), readVec s (w ++ x) =
      ((readVec s w).1 ++ (readVec (readVec s w).2 x).1, (readVec (readVec s w).2 x).2) := by
    intro w
    induction w with
    | nil => intro x s; rfl
    | cons a t ih => intro x s; simp [readVec, ih]
  have stop : ∀ (v w : List Int), (∀ y ∈ v, IsInt y) → w.length = v.length → v ≠ [] →
      (readVec ⟨writeVec v, false, false⟩ w).2 = ⟨[], true, false⟩ := by
    intro v
    induction v with
    | nil => intro w _ _ h; exact absurd rfl h
    | cons a t ih =>
      intro w hv hw _
      obtain ⟨b, u, rfl⟩ : ∃ b u, w = b :: u := by cases w with | nil => simp at hw | cons b u => exact ⟨b, u, rfl⟩
      have hu : u.length = t.length := by simpa using hw
      have ha := hv a (by simp)
      cases t with
      | nil =>
        obtain rfl : u = [] := by simpa using hu
        have h1 := int_one ha b [] (by simp)
        simp only [List.append_nil] at h1
        simp [readVec, show writeVec [a] = intToStr a from rfl, h1]
      | cons c t =>
        have h1 := int_one ha b (' ' :: writeVec (c :: t)) (by intro x hx; simp at hx; subst hx; decide)
        have h2 := ih u (fun x hx => hv x (by simp [hx])) hu (by simp)
        have h3 : readVec ⟨' ' :: writeVec (c :: t), false, false⟩ u = readVec ⟨writeVec (c :: t), false, false⟩ u := by
          cases u with
          | nil => simp at hu
          | cons d u => simp only [readVec, int_skip]
        rw [writeVec_cons]
        simp only [readVec, h1, List.isEmpty_cons, h3]
        exact h2
  obtain ⟨d, u, rfl⟩ : ∃ d u, x = d :: u := by cases x with | nil => exact absurd rfl hx | cons d u => exact ⟨d, u, rfl⟩
  rw [app]
  simp only [(C125_stream hv hw).1]
  by_cases hn : v = []
  · subst hn
    obtain rfl : w = [] := by simpa using hw
    have h := readVec_bad u [] true
    simp [readVec, writeVec, In.int, h]
  · rw [stop v w hv hw hn]
    have h := readVec_bad u [] true
    simp [readVec, In.int, h]

/-- Numbers behind something that is not a number are not read: the first one becomes zero, the others stay. -/
theorem C125_garbage (w : List Int) (a : Int) :
    (readVec ⟨"x 7".toList, false, false⟩ (a :: w)).1 = 0 :: w ∧ (readVec ⟨"x 7".toList, false, false⟩ (a :: w)).2.fail = true := by
  have h := readVec_bad w (behind "x 7".toList) false
  have e : In.int ⟨"x 7".toList, false, false⟩ a = (0, ⟨behind "x 7".toList, false, true⟩) := by rfl
  simp only [readVec, e, h]
  simp

/-- Whatever the characters are, every element read is an `int`. -/
theorem C125_range (s : In) (w : List Int) (hw : ∀ x ∈ w, IsInt x) : ∀ x ∈ (readVec s w).1, IsInt x := by
  induction w generalizing s with
  | nil => intro x hx; simp [readVec] at hx
  | cons a t ih =>
    intro x hx
    simp only [readVec, List.mem_cons] at hx
    rcases hx with rfl | hx
    · have ha := hw a (by simp)
      unfold In.int
      unfold IsInt at *
      dsimp only
      split
      · exact ha
      split
      · exact ha
      split
      · exact ⟨(by decide : (-2 ^ 31 : Int) ≤ 0), (by decide : (0 : Int) < 2 ^ 31)⟩
      · split_ifs <;> constructor <;> simp only <;> omega
    · exact ih _ (fun y hy => hw y (by simp [hy])) x hx

example : readVec ⟨writeVec [12, -5, 0], false, false⟩ [1, 1, 1] = ([12, -5, 0], ⟨[], true, false⟩) := by decide

end Xo.ContT
