import Verif.Model.CircularIter
import Verif.Props.C11_CircularDeque

/-!
C148: iterators of a circular deque.
-/
namespace Xo
open Spec
variable {T : Type}

namespace Spec

/-- Where the element in the place `p` of a queue of length `n` is after a call; `none`: it was removed. -/
def place (n p : Nat) : DequeOp T → Option Nat
  | .pushBack _ => some p
  | .pushFront _ => some (p + 1)
  | .popBack => if p + 1 = n then none else some p
  | .popFront => if p = 0 then none else some (p - 1)
  | .clear => none

/-- The same after a history. -/
def places (l : List T) (p : Nat) : List (DequeOp T) → Option Nat
  | [] => some p
  | op :: ops => (place l.length p op).bind fun q => places (dequeNext l op) q ops

end Spec

namespace CDeque

theorem word_nat {n : Nat} (h : n < 2 ^ 64) : word n = n := by
  unfold word
  omega

theorem word_natCast {a b : Nat} (h : a + b < 2 ^ 64) : word ((a : Int) + b) = a + b := by
  unfold word
  omega

theorem deref_place {d : CDeque T} {l : List T} (h : Rel d l) {p i : Nat} {x : T} (hx : l[p]? = some x) (hi : i % d.buf.length = (d.front + p) % d.buf.length) :
    d.deref ⟨i⟩ = .ok x := by
  have hp : p < d.size := by
    rw [← h.len]
    by_contra c
    rw [List.getElem?_eq_none (by omega)] at hx
    simp at hx
  have hc := h.cap
  unfold deref umod
  simp only [Res.bind]
  rw [if_neg (by omega)]
  simp only [Res.bind]
  rw [hi]
  exact Vec.get_ok (by rw [h.el p hp, hx])

theorem mapM_range {n : Nat} {g : Nat → Res T} {l : List T} (hl : l.length = n) (h : ∀ (k : Nat) (x : T), l[k]? = some x → g k = .ok x) :
    (List.range n).mapM g = .ok l := by
  have key : ∀ (m : Nat) (l : List T) (s : Nat), l.length = m → (∀ (k : Nat) (x : T), l[k]? = some x → g (s + k) = .ok x) → (List.range' s m).mapM g = .ok l := by
    intro m
    induction m with
    | zero =>
      intro l s hl _
      rw [List.length_eq_zero_iff.1 hl]
      rfl
    | succ m ih =>
      intro l s hl h
      cases l with
      | nil => simp at hl
      | cons a t =>
        rw [List.range'_succ, List.mapM_cons]
        have h0 := h 0 a rfl
        rw [Nat.add_zero] at h0
        rw [h0]
        have ht := ih t (s + 1) (by simpa using hl) (fun k x hk => by
          have := h (k + 1) x (by simpa using hk)
          rwa [Nat.add_assoc, Nat.add_comm 1 k])
        show Res.bind _ _ = _
        rw [ht]
        rfl
  rw [List.range_eq_range']
  exact key n l 0 hl (fun k x hk => by rw [Nat.zero_add]; exact h k x hk)

end CDeque
open CDeque

/-- **C148, a loop.** A loop from `begin()` to `end()` visits the elements in order, each once. Their distance is the number of elements, and `begin() + k` is at the element `k`. -/
theorem C148_loop (d : CDeque T) (l : List T) (h : Rel d l) (hs : d.front + d.size < 2 ^ 64) :
    d.walk d.first d.last = .ok l ∧ d.last.diff d.first = l.length ∧
    ∀ (k : Nat) (x : T), l[k]? = some x → d.deref (d.first.plus k) = .ok x ∧ d.deref (d.last.minus (l.length - k : Nat)) = .ok x := by
  have hlen := h.len
  have e0 : (d.last).index = d.front + d.size := word_natCast hs
  have ed : d.last.diff d.first = d.size := by
    unfold It.diff first
    rw [e0]
    unfold word
    simp only
    omega
  have hk : ∀ (k : Nat) (x : T), l[k]? = some x → k < d.size := fun k x hx => by
    rw [← hlen]
    by_contra c
    rw [List.getElem?_eq_none (by omega)] at hx
    simp at hx
  have hd : ∀ (k : Nat) (x : T), l[k]? = some x → d.deref (d.first.plus k) = .ok x := fun k x hx => by
    have hk' := hk k x hx
    have : d.first.plus k = ⟨d.front + k⟩ := by
      show It.mk (word ((d.front : Int) + (k : Int))) = _
      rw [word_natCast (by omega)]
    rw [this]
    exact deref_place h hx rfl
  refine ⟨?_, by rw [ed, hlen], fun k x hx => ⟨hd k x hx, ?_⟩⟩
  · unfold walk
    rw [ed]
    exact mapM_range hlen hd
  · have hk' := hk k x hx
    have : d.last.minus (l.length - k : Nat) = ⟨d.front + k⟩ := by
      unfold It.minus
      rw [e0]
      unfold word
      congr 1
      omega
    rw [this]
    exact deref_place h hx rfl

namespace CDeque

/-- One call that does not make the buffer grow. -/
theorem hold_step {d : CDeque T} {l : List T} (h : Rel d l) (op : DequeOp T) (hn : (dequeNext l op).length ≤ d.buf.length) {p i q : Nat} (hp : p < l.length)
    (hi : i % d.buf.length = (d.front + p) % d.buf.length) (hq : place l.length p op = some q) :
    (d.step op).1 ≠ .ub ∧ (d.step op).2.buf.length = d.buf.length ∧ Rel (d.step op).2 (dequeNext l op) ∧ (dequeNext l op)[q]? = l[p]? ∧
      i % d.buf.length = ((d.step op).2.front + q) % d.buf.length := by
  have hlen := h.len
  have hcap := h.cap
  have hf : d.front < d.buf.length := by rcases h.fr with hf | hf <;> omega
  have hs := C11_step_partial d l h op
  have nb : ¬ Bad d op := by
    rintro ⟨⟨v, rfl⟩, hfull, _⟩
    simp only [dequeNext, dequeStep, Option.getD_some, List.length_append, List.length_singleton] at hn
    unfold capacity at hfull
    omega
  have nu : (d.step op).1 ≠ .ub := fun hu => nb (hs.1.1 hu)
  obtain ⟨_, hr⟩ := hs.2 nu
  refine ⟨nu, ?_⟩
  suffices (d.step op).2.buf.length = d.buf.length ∧ (dequeNext l op)[q]? = l[p]? ∧ i % d.buf.length = ((d.step op).2.front + q) % d.buf.length from ⟨this.1, hr, this.2⟩
  cases op with
  | pushBack v =>
    simp only [place, Option.some.injEq] at hq
    subst hq
    simp only [dequeNext, dequeStep, Option.getD_some, List.length_append, List.length_singleton] at hn ⊢
    have c : ¬ d.size + 1 > d.buf.length := by omega
    have c2 : ¬ d.buf.length = 0 := by omega
    have e : d.pushBack v = .ok ⟨d.front, d.size + 1, d.buf.set ((d.front + (d.size + 1) - 1) % d.buf.length) v⟩ := by
      unfold pushBack capacity umod
      rw [if_neg c, if_neg c2]
      simp only [Res.bind]
      rw [Vec.set_ok (Nat.mod_lt _ (by omega))]
    simp only [step, e]
    exact ⟨by simp, List.getElem?_append_left hp, hi⟩
  | pushFront v =>
    simp only [place, Option.some.injEq] at hq
    subst hq
    simp only [dequeNext, dequeStep, Option.getD_some, List.length_cons] at hn ⊢
    have c : ¬ d.size + 1 > d.buf.length := by omega
    have c2 : ¬ d.buf.length = 0 := by omega
    have e : d.pushFront v = .ok ⟨(d.front + d.buf.length - 1) % d.buf.length, d.size + 1, d.buf.set ((d.front + d.buf.length - 1) % d.buf.length) v⟩ := by
      unfold pushFront capacity umod
      rw [if_neg c, if_neg c2]
      simp only [Res.bind]
      rw [Vec.set_ok (Nat.mod_lt _ (by omega))]
    simp only [step, e]
    refine ⟨by simp, by simp, ?_⟩
    rw [hi, Nat.mod_add_mod, show d.front + d.buf.length - 1 + (p + 1) = d.front + p + d.buf.length by omega, Nat.add_mod_right]
  | popBack =>
    simp only [place] at hq
    split at hq
    · simp at hq
    · next c =>
      simp only [Option.some.injEq] at hq
      subst hq
      have hne : l ≠ [] := by rintro rfl; simp at hp
      have c1 : 0 < d.size := by omega
      have e : d.popBack = .ok { d with size := d.size - 1 } := if_pos c1
      simp only [step, e, dequeNext, dequeStep, if_neg hne, Option.getD_some]
      exact ⟨trivial, by rw [List.getElem?_dropLast, if_pos (by omega)], hi⟩
  | popFront =>
    simp only [place] at hq
    split at hq
    · simp at hq
    · next c =>
      simp only [Option.some.injEq] at hq
      subst hq
      have hne : l ≠ [] := by rintro rfl; simp at hp
      have c1 : 0 < d.size := by omega
      have c2 : ¬ d.buf.length = 0 := by omega
      have e : d.popFront = .ok { d with front := (d.front + 1) % d.buf.length, size := d.size - 1 } := by
        unfold popFront capacity umod
        rw [if_pos c1, if_neg c2]
        rfl
      simp only [step, e, dequeNext, dequeStep, if_neg hne, Option.getD_some]
      refine ⟨trivial, ?_, ?_⟩
      · rw [List.getElem?_tail, Nat.sub_add_cancel (by omega)]
      · rw [hi, Nat.mod_add_mod, show d.front + 1 + (p - 1) = d.front + p by omega]
  | clear => simp [place] at hq

theorem hold_run : ∀ (ops : List (DequeOp T)) {d : CDeque T} {l : List T} {p i q : Nat}, Rel d l → neverAbove d.buf.length l ops → p < l.length →
    i % d.buf.length = (d.front + p) % d.buf.length → places l p ops = some q →
    ∃ d', d.run ops = .ok (dequeOuts l ops, d') ∧ Rel d' (dequeRun l ops) ∧ (dequeRun l ops)[q]? = l[p]? ∧ i % d'.buf.length = (d'.front + q) % d'.buf.length := by
  intro ops
  induction ops with
  | nil =>
    intro d l p i q h _ _ hi hq
    simp only [places, Option.some.injEq] at hq
    subst hq
    exact ⟨d, rfl, h, rfl, hi⟩
  | cons op ops ih =>
    intro d l p i q h hn hp hi hq
    simp only [places, Option.bind_eq_some_iff] at hq
    obtain ⟨r, hr, hq⟩ := hq
    have hn2 : (dequeNext l op).length ≤ d.buf.length := by
      have := hn.2
      cases ops with
      | nil => exact this
      | cons => exact this.1
    obtain ⟨nu, hb, hrel, hel, hi'⟩ := hold_step h op hn2 hp hi hr
    have hp' : r < (dequeNext l op).length := by
      by_contra c
      rw [List.getElem?_eq_none (by omega), List.getElem?_eq_getElem hp] at hel
      simp at hel
    obtain ⟨d', h1, h2, h3, h4⟩ := ih (i := i) hrel (by rw [hb]; exact hn.2) hp' (by rw [hb]; exact hi') hq
    refine ⟨d', ?_, h2, by rw [← hel]; exact h3, h4⟩
    have ho := ((C11_step_partial d l h op).2 nu).1
    unfold run
    cases hst : d.step op with
    | mk o d1 =>
      rw [hst] at h1 nu ho
      simp only [dequeOuts]
      cases o with
      | ub => exact absurd rfl nu
      | ok u => simp only [h1, Res.bind]; rw [← ho]
      | err => simp only [h1, Res.bind]; rw [← ho]

end CDeque

/-- **C148, held iterators.** An iterator stays at its element through any number of pushes and pops at both ends, as long as the element is not removed and the
buffer does not have to grow. -/
theorem C148_hold (d : CDeque T) (l : List T) (h : Rel d l) (ops : List (DequeOp T)) (hn : neverAbove d.capacity l ops) (p : Nat) (x : T) (hx : l[p]? = some x)
    (hs : d.front + d.size < 2 ^ 64) (q : Nat) (hq : places l p ops = some q) :
    ∃ d', d.run ops = .ok (dequeOuts l ops, d') ∧ d'.deref (d.first.plus p) = .ok x ∧ (dequeRun l ops)[q]? = some x := by
  have hp : p < l.length := by
    by_contra c
    rw [List.getElem?_eq_none (by omega)] at hx
    simp at hx
  have hlen := h.len
  have e : d.first.plus p = ⟨d.front + p⟩ := by
    show It.mk (word ((d.front : Int) + (p : Int))) = _
    rw [word_natCast (by omega)]
  obtain ⟨d', h1, h2, h3, h4⟩ := hold_run ops h hn hp rfl hq
  rw [hx] at h3
  exact ⟨d', h1, by rw [e]; exact deref_place h2 h3 h4, h3⟩

/-- **C148, violated.** An iterator can be at an element of the deque and yet not be found by a loop: when the front passes the end of the buffer, an iterator to an element that stays compares
different to `begin() + k` for its element, and a loop from it to `end()` makes more than `2^63` steps over the same elements again and again. -/
theorem C148_compare_violated (d : CDeque T) (l : List T) (h : Rel d l) (hf : d.front + 1 = d.capacity) (hs : d.capacity < 2 ^ 62) (p : Nat) (x : T) (hp : 0 < p) (hx : l[p]? = some x) :
    ∃ d', d.popFront = .ok d' ∧ Rel d' l.tail ∧ d'.deref (d.first.plus p) = .ok x ∧ d'.deref (d'.first.plus (p - 1 : Nat)) = .ok x ∧
      d.first.plus p ≠ d'.first.plus (p - 1 : Nat) ∧ 2 ^ 63 < d'.last.diff (d.first.plus p) := by
  have hlen := h.len
  have hcap := h.cap
  have hp' : p < l.length := by
    by_contra c
    rw [List.getElem?_eq_none (by omega)] at hx
    simp at hx
  have hne : l ≠ [] := by rintro rfl; simp at hp'
  unfold capacity at hf hs
  have c1 : 0 < d.size := by omega
  have c2 : ¬ d.buf.length = 0 := by omega
  have hpop := popFront_spec h
  rw [if_neg hne] at hpop
  obtain ⟨d', e', hr⟩ := hpop
  have e2 : d' = { d with front := 0, size := d.size - 1 } := by
    unfold popFront capacity umod at e'
    rw [if_pos c1, if_neg c2, hf, Nat.mod_self] at e'
    simpa [Res.bind] using e'.symm
  have e : d.first.plus p = ⟨d.front + p⟩ := by
    show It.mk (word ((d.front : Int) + (p : Int))) = _
    rw [word_natCast (by omega)]
  have e3 : d'.first.plus (p - 1 : Nat) = ⟨p - 1⟩ := by
    rw [e2]
    show It.mk (word (((0 : Nat) : Int) + ((p - 1 : Nat) : Int))) = _
    rw [word_natCast (by omega)]
    simp
  have hx' : l.tail[p - 1]? = some x := by rw [List.getElem?_tail, Nat.sub_add_cancel hp, hx]
  have hb : d'.buf.length = d.buf.length := by rw [e2]
  have hfr : d'.front = 0 := by rw [e2]
  refine ⟨d', e', hr, ?_, ?_, ?_, ?_⟩
  · rw [e]
    refine deref_place hr hx' ?_
    rw [hb, hfr, Nat.zero_add, show d.front + p = (p - 1) + d.buf.length by omega, Nat.add_mod_right]
  · rw [e3]
    exact deref_place hr hx' (by rw [hfr, Nat.zero_add])
  · rw [e, e3]
    simp only [ne_eq, It.mk.injEq]
    omega
  · rw [e]
    have el : d'.last.index = d.size - 1 := by
      rw [e2]
      unfold last
      simp only
      rw [word_natCast (by omega)]
      omega
    unfold It.diff
    rw [el]
    unfold word
    simp only
    omega

/-- **C148, violated.** The value of `it++` may not be used. -/
theorem C148_postfix_violated (i : It) : i.postfix = .ub := rfl

/-- **C148, violated.** When `push_front` makes the buffer grow, every iterator to an element in front of the end of the storage is then at the element before it, the first one at the new element. -/
theorem C148_grow_violated (d : CDeque T) (l : List T) (h : Rel d l) (hfull : d.size = d.capacity) (hs : d.front + d.size < 2 ^ 64) (v : T) (p : Nat) (hp : p < l.length) (hw : d.front + p < d.capacity) :
    ∃ d', d.pushFront v = .ok d' ∧ Rel d' (v :: l) ∧ ∀ x, (v :: l)[p]? = some x → d'.deref (d.first.plus p) = .ok x := by
  have hlen := h.len
  obtain ⟨d', e', hr⟩ := pushFront_spec h v
  refine ⟨d', e', hr, fun x hx => ?_⟩
  have e : d.first.plus p = ⟨d.front + p⟩ := by
    show It.mk (word ((d.front : Int) + (p : Int))) = _
    rw [word_natCast (by omega)]
  have hf : d'.front = d.front := by
    unfold capacity at hfull
    have c : d.size + 1 > d.buf.length := by omega
    have hle : d.front ≤ d.buf.length := by rcases h.fr with hf | hf <;> omega
    unfold pushFront capacity insertAt at e'
    rw [if_pos c, if_pos hle] at e'
    simp only [Res.bind, Res.ok.injEq] at e'
    rw [← e']
  rw [e]
  exact deref_place hr hx (by rw [hf])

/-- Non-vacuity: a deque of capacity three whose front is in the last place. -/
example : (⟨2, 2, [10, 20, 30]⟩ : CDeque Nat).walk ⟨2⟩ ⟨4⟩ = .ok [30, 10] ∧ Rel (⟨2, 2, [10, 20, 30]⟩ : CDeque Nat) [30, 10] ∧
    places [30, 10] 1 [.pushFront 7, .popBack, .pushBack 9] = none ∧ places [30, 10] 1 [.pushBack 7, .popFront, .pushFront 9, .popBack] = some 1 ∧
    neverAbove 3 [30, 10] [.pushBack 7, .popFront, .pushFront 9, .popBack] :=
  ⟨by decide, ⟨rfl, by decide, by decide, by decide⟩, by decide, by decide, by simp [neverAbove, dequeNext, dequeStep]⟩

end Xo
