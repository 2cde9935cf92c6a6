import Verif.Model.TypedIndex
import Mathlib.Data.List.Nodup
import Mathlib.Data.List.Range
import Mathlib.Tactic.Ring

/-!
C92: typed indices and collections. An index that a collection gave out addresses the element it was given for, until that element
is removed, whatever happens to other elements and other types; the indices of a span are visited once each, in order.
-/
namespace Xo.TIdx
open Xo

/-! ## Single indices -/

/-- **C92.** A size gives an index with its value, or the invalid index if it is not below the invalid one. -/
theorem C92_of_size (I : ITy) (hN : 2 ≤ I.N) (n : Nat) :
    (n < I.N - 1 → (ofSize I n).idx = n ∧ toBool I (ofSize I n) = true) ∧ (I.N - 1 ≤ n → toBool I (ofSize I n) = false) := by
  constructor
  · intro h
    have h1 : n ≤ maxValue I := by unfold maxValue; omega
    have h2 : n % I.N = n := Nat.mod_eq_of_lt (by omega)
    simp only [ofSize, h1, if_true, ofIndex, h2, toBool, invalid, decide_eq_true_eq, ne_eq, Idx.mk.injEq, true_and]
    omega
  · intro h
    have h1 : ¬ n ≤ maxValue I := by unfold maxValue; omega
    simp [ofSize, h1, toBool]

/-- **C92.** A signed number gives an index with its value, or the invalid index if it is negative or too large. -/
theorem C92_of_int (I : ITy) (hN : 2 ≤ I.N) (n : Int) :
    (0 ≤ n ∧ n < I.N - 1 → ((ofInt I n).idx : Int) = n ∧ toBool I (ofInt I n) = true) ∧
    (n < 0 ∨ (I.N : Int) - 1 ≤ n → toBool I (ofInt I n) = false) := by
  constructor
  · intro h
    have h1 : 0 ≤ n ∧ n.toNat ≤ maxValue I := by unfold maxValue; omega
    have h2 : n.toNat % I.N = n.toNat := Nat.mod_eq_of_lt (by omega)
    simp only [ofInt, h1, and_self, if_true, ofIndex, h2, toBool, invalid, decide_eq_true_eq, ne_eq, Idx.mk.injEq]
    omega
  · intro h
    have h1 : ¬ (0 ≤ n ∧ n.toNat ≤ maxValue I) := by unfold maxValue; omega
    simp only [ofInt, if_neg h1, toBool, ne_eq, not_true, decide_false]

/-- A result that is the value of a valid index is computed exactly, for narrow and wide types. -/
theorem ofArith_eq (I : ITy) {n : Nat} (hn : n < I.N - 1) : ofArith I (n : Int) = ⟨n⟩ := by
  have h2 : n % I.N = n := Nat.mod_eq_of_lt (by omega)
  unfold ofArith
  split
  · have h1 : (0 : Int) ≤ n ∧ (n : Int).toNat ≤ maxValue I := by unfold maxValue; omega
    unfold ofInt; rw [if_pos h1]; simp only [ofIndex, Int.toNat_natCast, h2]
  · have : ((n : Int) % (I.N : Int)).toNat = n := by
      rw [Int.emod_eq_of_lt (by omega) (by omega)]; simp
    rw [this]

/-- **C92.** Moving an index forward and back again gives the index, as long as the result is below the invalid index. -/
theorem C92_add_sub_partial (I : ITy) (i : Idx) (k : Nat) (h : i.idx + k < I.N - 1) :
    (add I i k).idx = i.idx + k ∧ toBool I (add I i k) = true ∧ sub I (add I i k) k = i ∧ (∀ j ≤ i.idx, (sub I i j).idx = i.idx - j) := by
  have h1 : add I i k = ⟨i.idx + k⟩ := by
    unfold add; rw [show ((i.idx : Int) + k) = ((i.idx + k : Nat) : Int) by push_cast; rfl]; exact ofArith_eq I h
  refine ⟨by rw [h1], ?_, ?_, ?_⟩
  · rw [h1]; simp only [toBool, invalid, decide_eq_true_eq, ne_eq, Idx.mk.injEq]; omega
  · rw [h1]; unfold sub
    rw [show (((⟨i.idx + k⟩ : Idx).idx : Int) - k) = (i.idx : Int) by push_cast; ring]
    exact ofArith_eq I (by omega)
  · intro j hj
    unfold sub
    rw [show ((i.idx : Int) - j) = ((i.idx - j : Nat) : Int) by omega, ofArith_eq I (by omega)]

/-- **C92 is violated by wide types**: an index moved beyond the largest value is valid again and addresses an element near the beginning. -/
theorem C92_wide_violated (N : Nat) (hN : 3 ≤ N) : let I : ITy := ⟨N, false⟩
    ∀ i : Idx, i.idx < N - 1 → ∀ k, N ≤ i.idx + k → i.idx + k < 2 * N - 1 → toBool I (add I i k) = true ∧ (add I i k).idx < k := by
  intro I i hi k hk hk2
  have : add I i k = ⟨i.idx + k - N⟩ := by
    simp only [add, ofArith, I]
    rw [show ((i.idx : Int) + k) = ((i.idx + k - N : Nat) : Int) + N by omega]
    rw [Int.add_emod_right, Int.emod_eq_of_lt (by omega) (by omega)]; simp
  rw [this]
  simp only [toBool, invalid, I, decide_eq_true_eq, ne_eq, Idx.mk.injEq]
  omega

/-- Narrow types give the invalid index instead, in both directions. -/
theorem C92_narrow (N : Nat) (_hN : 3 ≤ N) (i : Idx) (k : Nat) :
    (N - 1 ≤ i.idx + k → toBool ⟨N, true⟩ (add ⟨N, true⟩ i k) = false) ∧ (i.idx < k → toBool ⟨N, true⟩ (sub ⟨N, true⟩ i k) = false) := by
  constructor
  · intro h
    have := (C92_of_int ⟨N, true⟩ (by show 2 ≤ N; omega) ((i.idx : Int) + k)).2 (Or.inr (by show (N : Int) - 1 ≤ _; omega))
    simpa [add, ofArith] using this
  · intro h
    have := (C92_of_int ⟨N, true⟩ (by show 2 ≤ N; omega) ((i.idx : Int) - k)).2 (Or.inl (by omega))
    simpa [sub, ofArith] using this

/-- **C92.** `++` goes to the next index, and the invalid index follows the largest one; `i++` gives the index before. -/
theorem C92_next (I : ITy) (i : Idx) (h : i.idx < I.N - 1) :
    (inc I i).idx = i.idx + 1 ∧ (toBool I (inc I i) = true ↔ i.idx + 1 ≠ I.N - 1) ∧ incPost I i = (i, inc I i) := by
  have h1 : (i.idx + 1) % I.N = i.idx + 1 := Nat.mod_eq_of_lt (by omega)
  have h2 : i.idx % I.N = i.idx := Nat.mod_eq_of_lt (by omega)
  simp [inc, h1, toBool, invalid, incPost, ofIndex, h2]

/-- **C92.** The comparisons are those of one total order: exactly one of `<`, `==`, `>` holds. -/
theorem C92_order (a b c : Idx) :
    (lt a b = true ∧ a ≠ b ∧ gt a b = false ∨ lt a b = false ∧ a = b ∧ gt a b = false ∨ lt a b = false ∧ a ≠ b ∧ gt a b = true) ∧
    le a b = !gt a b ∧ ge a b = !lt a b ∧ gt a b = lt b a ∧ (lt a b = true → lt b c = true → lt a c = true) := by
  rcases a with ⟨a⟩; rcases b with ⟨b⟩; rcases c with ⟨c⟩
  simp only [lt, gt, le, ge, Idx.mk.injEq, decide_eq_true_eq, decide_eq_false_iff_not, ne_eq, gt_iff_lt, ge_iff_le]
  refine ⟨by omega, ?_, ?_, trivial, by omega⟩
  · rw [Bool.eq_iff_iff]; simp
  · rw [Bool.eq_iff_iff]; simp

/-- **C92.** The target of a move has the index of the source, which is invalid afterwards. -/
theorem C92_move (I : ITy) (t o : Idx) :
    (moveCtor I o).1 = o ∧ toBool I (moveCtor I o).2 = false ∧ (moveAssign I t o).1 = o ∧ toBool I (moveAssign I t o).2 = false := by
  simp [moveCtor, moveAssign, toBool]

/-- **C92 is violated by moving an index to itself**: it is lost, whatever it was. -/
theorem C92_self_move_violated (I : ITy) (x : Idx) : toBool I (moveSelf I x) = false := by simp [moveSelf, toBool]

/-! ## Spans -/

theorem visit_eq (I : ITy) (e : Nat) (he : e < I.N) : ∀ (n fuel b : Nat), b + n = e → n ≤ fuel →
    visit I fuel ⟨b⟩ ⟨e⟩ = some ((List.range' b n).map Idx.mk) := by
  intro n
  induction n with
  | zero => intro fuel b hb _; cases fuel <;> simp [visit, show b = e by omega]
  | succ n ih =>
    intro fuel b hb hf
    cases fuel with
    | zero => omega
    | succ fuel =>
      have h1 : (b + 1) % I.N = b + 1 := Nat.mod_eq_of_lt (by omega)
      have h2 : ¬ b = e := by omega
      simp only [visit, Idx.mk.injEq, h2, if_false, inc, h1, ih fuel (b + 1) (by omega) (by omega), Option.map_some, List.range'_succ, List.map_cons]

/-- **C92.** A loop over a span visits the indices from the first to the one before the last, once each and in order; `size` counts them and
`empty` says that there are none. -/
theorem C92_span (I : ITy) (b e : Nat) (hbe : b ≤ e) (he : e < I.N) :
    let s : Span := ⟨⟨b⟩, ⟨e⟩⟩
    s.visited I = some ((List.range' b (e - b)).map Idx.mk) ∧ s.size I = e - b ∧ (s.empty = true ↔ s.visited I = some []) := by
  have h := visit_eq I e he (e - b) I.N b (by omega) (by omega)
  refine ⟨h, ?_, ?_⟩
  · simp only [Span.size]
    rw [show ((e : Int) - b) = ((e - b : Nat) : Int) by omega, Int.emod_eq_of_lt (by omega) (by omega)]; simp
  · show _ ↔ visit I I.N ⟨b⟩ ⟨e⟩ = some []
    rw [h]
    simp only [Span.empty, decide_eq_true_eq, Idx.mk.injEq, Option.some.injEq, List.map_eq_nil_iff, List.range'_eq_nil_iff]
    omega

example : (⟨⟨1⟩, ⟨4⟩⟩ : Span).visited ⟨256, true⟩ = some [⟨1⟩, ⟨2⟩, ⟨3⟩] := by decide +kernel

/-! ## Collections -/
variable {Ty : Type} [DecidableEq Ty] {E : Ty → Type}

@[simp] theorem setVec_same (c : Coll E) (t : Ty) (v : List (E t)) : setVec c t v t = v := by simp [setVec]
theorem setVec_other (c : Coll E) (t : Ty) (v : List (E t)) {u : Ty} (h : t ≠ u) : setVec c t v u = c u := by simp [setVec, h]

/-- What a client does with a collection. -/
inductive Op (E : Ty → Type) where
  | push (t : Ty) (e : E t)
  | set (t : Ty) (n : Nat) (e : E t)  -- through the `n`-th index the client holds for this type
  | pop (t : Ty)
  | clear

/-- A client and its collection: for each type the client notes the index it got for each element, with the element. -/
structure Client (E : Ty → Type) where
  coll : Coll E
  held : (t : Ty) → List (Idx × E t)

def upd {F : Ty → Type} (f : (t : Ty) → F t) (t : Ty) (v : F t) : (t : Ty) → F t := fun u => if h : t = u then h ▸ v else f u

/-- One step of a client. -/
def Client.step (I : ITy) (c : Client E) : Op E → Res (Client E)
  | .push t e => let r := pushBack I c.coll t e; .ok ⟨r.2, upd c.held t (c.held t ++ [(r.1, e)])⟩
  | .set t n e => match (c.held t)[n]? with
    | none => .ok c
    | some p => (put c.coll t p.1 e).bind fun c' => .ok ⟨c', upd c.held t ((c.held t).set n (p.1, e))⟩
  | .pop t => match c.held t with
    | [] => .ok c
    | _ :: _ => (popBack c.coll t).bind fun c' => .ok ⟨c', upd c.held t (c.held t).dropLast⟩
  | .clear => .ok ⟨TIdx.clear c.coll, fun _ => []⟩

def Client.run (I : ITy) (c : Client E) : List (Op E) → Res (Client E)
  | [] => .ok c
  | o :: os => (c.step I o).bind fun c' => Client.run I c' os

/-- The client's elements, without any index: a stack for each type. -/
def Spec.step (s : (t : Ty) → List (E t)) : Op E → (t : Ty) → List (E t)
  | .push t e => upd s t (s t ++ [e])
  | .set t n e => upd s t ((s t).set n e)
  | .pop t => upd s t (s t).dropLast
  | .clear => fun _ => []

/-- No vector ever holds more than `cap` elements. -/
def Spec.fits (cap : Nat) (s : (t : Ty) → List (E t)) : List (Op E) → Prop
  | [] => ∀ t, (s t).length ≤ cap
  | o :: os => (∀ t, (s t).length ≤ cap) ∧ Spec.fits cap (Spec.step s o) os

/-- The elements in position order with their indices. -/
def numbered {α : Type} (l : List α) : List (Idx × α) := (l.zipIdx 0).map fun p => (⟨p.2⟩, p.1)

theorem numbered_get {α : Type} (l : List α) (n : Nat) : (numbered l)[n]? = (l[n]?).map fun a => (⟨n⟩, a) := by
  simp only [numbered, List.getElem?_map, List.getElem?_zipIdx, Nat.zero_add]; cases l[n]? <;> rfl

theorem numbered_push {α : Type} (l : List α) (a : α) : numbered (l ++ [a]) = numbered l ++ [(⟨l.length⟩, a)] := by
  simp [numbered, List.zipIdx_append]

theorem numbered_length {α : Type} (l : List α) : (numbered l).length = l.length := by simp [numbered]

theorem numbered_dropLast {α : Type} (l : List α) : (numbered l).dropLast = numbered l.dropLast := by
  apply List.ext_getElem?
  intro i
  rw [List.getElem?_dropLast, numbered_get, numbered_get, List.getElem?_dropLast, numbered_length]
  split <;> simp

theorem numbered_set {α : Type} (l : List α) (n : Nat) (a : α) : (numbered l).set n (⟨n⟩, a) = numbered (l.set n a) := by
  apply List.ext_getElem?
  intro i
  rw [List.getElem?_set, numbered_get, numbered_get, List.getElem?_set, numbered_length]
  split
  · subst_vars; split <;> simp
  · rfl

theorem backIdx_eq (I : ITy) {n : Nat} (hn : n + 1 < I.N) : backIdx I (n + 1) = ⟨n⟩ := by
  unfold backIdx
  rw [Nat.mod_eq_of_lt hn, show (((n + 1 : Nat) : Int) - 1) = (n : Int) by push_cast; ring]
  exact ofArith_eq I (by omega)

theorem upd_same {F : Ty → Type} (f : (t : Ty) → F t) (t : Ty) (v : F t) : upd f t v t = v := by simp [upd]
theorem upd_other {F : Ty → Type} (f : (t : Ty) → F t) (t : Ty) (v : F t) {u : Ty} (h : t ≠ u) : upd f t v u = f u := by simp [upd, h]

/-- The client's notes agree with the collection, and with the specification. -/
def Agree (c : Client E) (s : (t : Ty) → List (E t)) : Prop := ∀ t, c.coll t = s t ∧ c.held t = numbered (s t)

theorem agree_upd {c : Client E} {s : (t : Ty) → List (E t)} (h : Agree c s) (t : Ty) (v : List (E t)) :
    Agree ⟨setVec c.coll t v, upd c.held t (numbered v)⟩ (upd s t v) := by
  intro u
  by_cases hu : t = u
  · subst hu; simp [upd_same]
  · simp only [setVec_other _ _ _ hu, upd_other _ _ _ hu]; exact h u

theorem upd_self {F : Ty → Type} (f : (t : Ty) → F t) (t : Ty) : upd f t (f t) = f := by
  funext u
  by_cases hu : t = u
  · subst hu; exact upd_same _ _ _
  · exact upd_other _ _ _ hu

theorem step_agree (I : ITy) {c : Client E} {s : (t : Ty) → List (E t)} (h : Agree c s) (o : Op E)
    (hf : ∀ t, (Spec.step s o t).length < I.N) : ∃ c', c.step I o = .ok c' ∧ Agree c' (Spec.step s o) := by
  cases o with
  | push t e =>
    refine ⟨_, rfl, ?_⟩
    have hl := hf t
    simp only [Spec.step, upd_same, List.length_append, List.length_singleton] at hl
    have := agree_upd h t (s t ++ [e])
    simpa only [Spec.step, pushBack, (h t).1, (h t).2, List.length_append, List.length_singleton, backIdx_eq I hl, numbered_push] using this
  | set t n e =>
    simp only [Client.step, (h t).2, numbered_get, Spec.step]
    cases hn : (s t)[n]? with
    | none =>
      refine ⟨c, rfl, ?_⟩
      rw [List.set_eq_of_length_le (by simpa using hn), upd_self]; exact h
    | some a =>
      have hlt : n < (s t).length := (List.getElem?_eq_some_iff.1 hn).1
      simp only [Option.map_some, put, (h t).1, hlt, if_true, Res.bind, numbered_set]
      exact ⟨_, rfl, agree_upd h t _⟩
  | pop t =>
    simp only [Client.step, Spec.step]
    cases hs : s t with
    | nil =>
      have : c.held t = [] := by rw [(h t).2, hs]; rfl
      rw [this]
      refine ⟨c, rfl, ?_⟩
      rw [List.dropLast_nil, ← hs, upd_self]; exact h
    | cons a l =>
      have h1 : c.held t = (⟨0⟩, a) :: ((l.zipIdx 1).map fun p => (⟨p.2⟩, p.1)) := by rw [(h t).2, hs]; rfl
      have h2 : (c.held t).dropLast = numbered (a :: l).dropLast := by rw [(h t).2, hs, numbered_dropLast]
      split
      · rename_i hh; rw [h1] at hh; cases hh
      · simp only [popBack, (h t).1, hs, List.length_cons, Nat.succ_ne_zero, if_false, Res.bind, h2]
        exact ⟨_, rfl, agree_upd h t _⟩
  | clear => exact ⟨_, rfl, fun t => ⟨rfl, rfl⟩⟩

theorem run_agree (I : ITy) (os : List (Op E)) : ∀ (c : Client E) (s : (t : Ty) → List (E t)), Agree c s → 0 < I.N →
    Spec.fits (I.N - 1) s os → ∃ c', c.run I os = .ok c' ∧ Agree c' (os.foldl Spec.step s) := by
  induction os with
  | nil => intro c s h _ _; exact ⟨c, rfl, h⟩
  | cons o os ih =>
    intro c s h hN hf
    have h2 : ∀ t, (Spec.step s o t).length < I.N := by
      intro t
      have : (Spec.step s o t).length ≤ I.N - 1 := by
        cases os with
        | nil => exact hf.2 t
        | cons o' os => exact hf.2.1 t
      omega
    obtain ⟨c1, e1, h1⟩ := step_agree I h o h2
    obtain ⟨c2, e2, h3⟩ := ih c1 _ h1 hN hf.2
    exact ⟨c2, by simp only [Client.run, e1, Res.bind, e2], h3⟩

/-- **C92.** For every history in which no type has more elements than there are valid indices: the collection holds for each type the elements of
the specification; each index that the client holds is valid, addresses its element, is found again from the element, and differs from all other
indices of that type; and a loop over the indices of a type visits exactly those that the client holds, in order. -/
theorem C92_collection_partial (I : ITy) (hN : 2 ≤ I.N) (os : List (Op E)) (hf : Spec.fits (I.N - 1) (fun _ => []) os) :
    ∃ c, Client.run I ⟨fun _ => [], fun _ => []⟩ os = .ok c ∧
      ∀ t, (c.held t).map Prod.snd = os.foldl Spec.step (fun _ => []) t ∧
        ((c.held t).map Prod.fst).Nodup ∧ (indexSpan I c.coll t).visited I = some ((c.held t).map Prod.fst) ∧
        (indexSpan I c.coll t).size I = (c.held t).length ∧
        ∀ n p, (c.held t)[n]? = some p → toBool I p.1 = true ∧ get c.coll t p.1 = .ok p.2 ∧ getIndex I c.coll t n = .ok p.1 := by
  obtain ⟨c, e, h⟩ := run_agree I os ⟨fun _ => [], fun _ => []⟩ _ (fun _ => ⟨rfl, rfl⟩) (by omega) hf
  have hfin : ∀ (os : List (Op E)) (s : (t : Ty) → List (E t)), Spec.fits (I.N - 1) s os → ∀ t, (os.foldl Spec.step s t).length ≤ I.N - 1 := by
    intro os; induction os with
    | nil => intro s h; exact h
    | cons o os ih => intro s h; exact ih _ h.2
  refine ⟨c, e, fun t => ?_⟩
  obtain ⟨h1, h2⟩ := h t
  have hl := hfin os _ hf t
  revert h1 h2 hl
  generalize (os.foldl Spec.step (fun _ => []) t) = l
  intro h1 h2 hl
  have h3 : (c.held t).map Prod.fst = (List.range' 0 l.length).map Idx.mk := by
    rw [h2]; apply List.ext_getElem?; intro i
    rw [List.getElem?_map, numbered_get, List.getElem?_map]
    by_cases hi : i < l.length
    · simp [hi]
    · simp [hi]
  have h4 : (indexSpan I c.coll t) = ⟨⟨0⟩, ⟨l.length⟩⟩ := by
    simp only [indexSpan, ofIndex, endIdx, h1, Nat.zero_mod, Nat.mod_eq_of_lt (show l.length < I.N by omega)]
  refine ⟨?_, ?_, ?_, ?_, ?_⟩
  · rw [h2]; apply List.ext_getElem?; intro i
    rw [List.getElem?_map, numbered_get]; cases l[i]? <;> rfl
  · rw [h3]; exact List.Nodup.map (fun a b h => by cases h; rfl) List.nodup_range'
  · rw [h3, h4, (C92_span I 0 l.length (by omega) (by omega)).1]; rfl
  · rw [h4, (C92_span I 0 l.length (by omega) (by omega)).2.1, h2, numbered_length]; omega
  · intro n p hp
    rw [h2, numbered_get] at hp
    cases hn : l[n]? with
    | none => rw [hn] at hp; cases hp
    | some a =>
      rw [hn] at hp; cases hp
      have hlt : n < l.length := (List.getElem?_eq_some_iff.1 hn).1
      refine ⟨?_, ?_, ?_⟩
      · simp only [toBool, invalid, decide_eq_true_eq, ne_eq, Idx.mk.injEq]; omega
      · simp only [get, h1, Vec.get, hn, Res.ofOptionUb]
      · simp only [getIndex, h1, ofIndex, Nat.mod_eq_of_lt (show n < I.N by omega)]
        rw [if_neg (by omega)]

/-- Non-vacuity: two types, elements added, changed and removed. -/
example : Spec.fits (E := fun b : Bool => if b then Nat else String) 255 (fun _ => [])
    [.push true (3 : Nat), .push false "a", .push true (4 : Nat), .set true 0 (5 : Nat), .pop false] := by
  simp only [Spec.fits, Spec.step]
  refine ⟨?_, ?_, ?_, ?_, ?_, ?_⟩ <;> intro t <;> cases t <;> simp [upd]

/-- **C92 is violated when the indices run out**: the element that is added to as many elements as there are valid indices gets the invalid index,
and the next one gets the index of the first element. -/
theorem C92_full_violated (I : ITy) (hN : 3 ≤ I.N) (c : Coll E) (t : Ty) (e : E t) :
    ((c t).length = I.N - 1 → toBool I (pushBack I c t e).1 = false) ∧
    ((c t).length = I.N → (pushBack I c t e).1 = ⟨0⟩ ∧ toBool I (pushBack I c t e).1 = true ∧
      get (pushBack I c t e).2 t (pushBack I c t e).1 = get c t ⟨0⟩) := by
  constructor
  · intro h
    have h1 : backIdx I (c t ++ [e]).length = invalid I := by
      have h2 : ((I.N - 1 + 1) % I.N : Nat) = 0 := by rw [show I.N - 1 + 1 = I.N by omega, Nat.mod_self]
      simp only [backIdx, List.length_append, List.length_singleton, h, h2, ofArith]
      split
      · simp [ofInt]
      · simp only [invalid, Idx.mk.injEq]
        have : (((0 : Nat) : Int) - 1) % (I.N : Int) = I.N - 1 := by
          rw [← Int.add_emod_right, Int.emod_eq_of_lt (by omega) (by omega)]; push_cast; ring
        rw [this]; omega
    simp only [pushBack, h1, toBool, ne_eq, not_true, decide_false]
  · intro h
    have h1 : backIdx I (c t ++ [e]).length = ⟨0⟩ := by
      have h2 : ((I.N + 1) % I.N : Nat) = 1 := by rw [Nat.add_mod_left]; exact Nat.mod_eq_of_lt (by omega)
      simp only [backIdx, List.length_append, List.length_singleton, h, h2]
      exact ofArith_eq I (n := 0) (by omega)
    refine ⟨h1, ?_, ?_⟩
    · simp only [pushBack, h1, toBool, invalid, decide_eq_true_eq, ne_eq, Idx.mk.injEq]; omega
    · simp only [pushBack, h1, get, setVec_same, Vec.get, List.getElem?_append_left (show 0 < (c t).length by omega)]

/-- **C92 is violated by full types**: with as many elements as the index type has values, a loop over the indices visits none. -/
theorem C92_span_full_violated (I : ITy) (hN : 2 ≤ I.N) (c : Coll E) (t : Ty) (h : (c t).length = I.N) :
    (indexSpan I c t).visited I = some [] ∧ (indexSpan I c t).size I = 0 := by
  have h1 : indexSpan I c t = ⟨⟨0⟩, ⟨0⟩⟩ := by simp [indexSpan, ofIndex, endIdx, h]
  rw [h1]
  exact ⟨(C92_span I 0 0 (by omega) (by omega)).1, (C92_span I 0 0 (by omega) (by omega)).2.1⟩

/-- **C92 is violated by `erase`**: there is no defined outcome for any collection, type and index. -/
theorem C92_erase_violated (c : Coll E) (t : Ty) (i : Idx) : ∀ r, erase c t i ≠ .ok r := by intro r h; cases h

/-! ## Collections with handles -/
variable {w : Nat}

/-- **C92.** A collection with handles: the handle of a new element addresses it, the handles from before address their elements, for every type,
and the handle is found again from the element. -/
theorem C92_handles_partial (c : Coll E) (t : Ty) (e : E t) (hc : (c t).length < 2 ^ w - 1) :
    let r : Handle w × Coll E := hPush c t e
    hGet r.2 t r.1 = .ok e ∧ r.1.toBool = true ∧ hHandle r.2 t (c t).length = .ok r.1 ∧ hGet c t r.1 = .ub ∧
    (∀ u (h : Handle w) (x : E u), hGet c u h = .ok x → hGet r.2 u h = .ok x) := by
  intro r
  have hv : (BitVec.ofNat w (c t).length).toNat = (c t).length := by
    rw [BitVec.toNat_ofNat]; exact Nat.mod_eq_of_lt (by omega)
  have hr : r = (⟨BitVec.ofNat w (c t).length⟩, setVec c t (c t ++ [e])) := by
    show hPush c t e = _
    simp [hPush, HandleVec.pushBack, Handle.ofNat]
  rw [hr]
  refine ⟨?_, ?_, ?_, ?_, ?_⟩
  · simp [hGet, HandleVec.get, Vec.get, hv, Res.ofOptionUb]
  · simp only [Handle.toBool, Handle.invalid, bne_iff_ne, ne_eq, Handle.mk.injEq]
    intro h
    have := congrArg BitVec.toNat h
    rw [hv] at this; simp at this; omega
  · simp [hHandle, Handle.ofNat]
  · simp [hGet, HandleVec.get, Vec.get, hv, Res.ofOptionUb]
  · intro u h x hx
    by_cases hu : t = u
    · subst hu
      simp only [hGet, HandleVec.get, Vec.get, setVec_same] at hx ⊢
      cases hg : (c t)[h.value.toNat]? with
      | none => rw [hg] at hx; cases hx
      | some y =>
        rw [hg] at hx
        rw [List.getElem?_append_left (List.getElem?_eq_some_iff.1 hg).1, hg]; exact hx
    · simpa only [hGet, setVec_other _ _ _ hu] using hx

/-- **C92.** Erasing by handle removes that element only: later ones move down by one, other types keep theirs. -/
theorem C92_handle_erase (c : Coll E) (t : Ty) (h : Handle w) :
    (h.value.toNat < (c t).length → ∃ c' : Coll E, hErase c t h = .ok (h, c') ∧ c' t = (c t).eraseIdx h.value.toNat ∧ ∀ u, u ≠ t → c' u = c u) ∧
    ((c t).length ≤ h.value.toNat → hErase c t h = .ub) := by
  constructor
  · intro hl
    refine ⟨_, by simp only [hErase, HandleVec.erase, hl, if_true, Res.map]; rfl, by simp, ?_⟩
    intro u hu
    exact setVec_other _ _ _ (Ne.symm hu)
  · intro hl
    simp only [hErase, HandleVec.erase]
    rw [if_neg (by omega)]; rfl

end Xo.TIdx
