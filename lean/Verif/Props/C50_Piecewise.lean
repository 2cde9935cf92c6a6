import Verif.Model.Interp
import Verif.Lemmas.FlatMap
import Mathlib.Tactic.Linarith
import Mathlib.Tactic.FieldSimp
import Mathlib.Tactic.Ring
import Mathlib.Data.Rat.Floor
import Mathlib.Tactic.NormNum

/-!
C50: piecewise linear and constant functions, `lerp_map` and `lerp_span`.
-/
namespace Xo
namespace Spec
variable {K : Type} [Field K] [LinearOrder K]

/-- The value last given to `x` by a sequence of points. -/
def stored (pts : List (K × K)) (x : K) : Option K := (pts.reverse.find? fun p => p.1 = x).map (·.2)

/-- `x0` and `x1` are neighbouring abscissae. -/
def Neighbours (pts : List (K × K)) (x0 y0 x1 y1 : K) : Prop :=
  stored pts x0 = some y0 ∧ stored pts x1 = some y1 ∧ x0 < x1 ∧ ∀ x, x0 < x → x < x1 → stored pts x = none

/-- No abscissa is below `x`. -/
def IsFirst (pts : List (K × K)) (x : K) : Prop := ∀ x', x' < x → stored pts x' = none

/-- No abscissa is above `x`. -/
def IsLast (pts : List (K × K)) (x : K) : Prop := ∀ x', x < x' → stored pts x' = none

/-- The line through two points. -/
def line (x0 y0 x1 y1 x : K) : K := y0 + (y1 - y0) / (x1 - x0) * (x - x0)

end Spec

open Interp Spec FlatMap
variable {K : Type} [Field K] [LinearOrder K]

theorem rel_ofPoints (pts : List (K × K)) : FlatMap.Rel (ofPoints pts) (stored pts) := by
  unfold ofPoints
  suffices h : ∀ (m : FlatMap K K) (done : List (K × K)), FlatMap.Rel m (stored done) →
      FlatMap.Rel (pts.foldl insertPoint m) (stored (done ++ pts)) by
    have := h FlatMap.empty [] ⟨List.Pairwise.nil, by simp [FlatMap.empty, stored]⟩
    simpa using this
  induction pts with
  | nil => intro m done h; simpa using h
  | cons p pts ih =>
    intro m done hr
    have e : done ++ p :: pts = (done ++ [p]) ++ pts := by simp
    rw [e]
    apply ih
    have hu : stored (done ++ [p]) = AMap.update (stored done) p.1 (some p.2) := by
      funext x
      unfold stored AMap.update
      by_cases hx : x = p.1
      · subst hx; simp
      · simp [hx, Ne.symm hx]
    rw [hu]
    obtain ⟨l⟩ := m
    unfold insertPoint
    rcases locate l hr.1 p.1 with ⟨as, w, cs, rfl, h1, h2⟩ | ⟨as, cs, rfl, h1, h2⟩
    · rw [assign_hit h1 h2]
      exact rel_put p.2 (sorted_remove hr.1) (rel_others_hit hr) h1 h2
    · rw [assign_miss h1 h2]
      exact rel_put p.2 hr.1 (fun k' v' _ => hr.2 k' v') h1 h2

/-- A stored abscissa splits the sorted points. -/
theorem split_stored {pts : List (K × K)} {x y : K} (h : stored pts x = some y) :
    ∃ as cs, (ofPoints pts).data = as ++ (x, y) :: cs ∧ (∀ a ∈ as, a.1 < x) ∧ (∀ c ∈ cs, x < c.1) := by
  have hr := rel_ofPoints pts
  obtain ⟨as, cs, e⟩ := List.append_of_mem ((hr.2 x y).2 h)
  have hs := hr.1
  rw [e] at hs
  unfold FlatMap.Sorted at hs
  rw [List.pairwise_append, List.pairwise_cons] at hs
  exact ⟨as, cs, e, fun a ha => hs.2.2 a ha (x, y) (by simp), fun c hc => hs.2.1.1 c hc⟩

/-- Neighbouring abscissae are next to each other in the sorted points. -/
theorem split_neighbours {pts : List (K × K)} {x0 y0 x1 y1 : K} (h : Neighbours pts x0 y0 x1 y1) :
    ∃ as cs, (ofPoints pts).data = as ++ (x0, y0) :: (x1, y1) :: cs ∧ (∀ a ∈ as, a.1 < x0) ∧ (∀ c ∈ cs, x1 < c.1) := by
  obtain ⟨h0, h1, hlt, hgap⟩ := h
  obtain ⟨as, cs, e, ha, hc⟩ := split_stored h0
  have hr := rel_ofPoints pts
  have hm : (x1, y1) ∈ cs := by
    have := (hr.2 x1 y1).2 h1
    rw [e] at this
    rcases List.mem_append.1 this with h | h
    · exact absurd (ha _ h) (not_lt.2 (le_of_lt hlt))
    · rcases List.mem_cons.1 h with h | h
      · exact absurd (congrArg Prod.fst h) (ne_of_gt hlt)
      · exact h
  obtain ⟨c, cs', rfl⟩ := List.exists_cons_of_ne_nil (List.ne_nil_of_mem hm)
  have hs := hr.1
  rw [e] at hs
  unfold FlatMap.Sorted at hs
  rw [List.pairwise_append, List.pairwise_cons, List.pairwise_cons] at hs
  have hcs := hs.2.1.2.1
  have hstored : ∀ p ∈ c :: cs', stored pts p.1 = some p.2 := fun p hp => (hr.2 p.1 p.2).1 (by
    rw [e]; exact List.mem_append_right _ (List.mem_cons_of_mem _ hp))
  have hceq : c = (x1, y1) := by
    rcases List.mem_cons.1 hm with h | h
    · exact h.symm
    · have hlt1 : c.1 < x1 := hcs _ h
      have hgt0 : x0 < c.1 := hc c (by simp)
      have := hgap c.1 hgt0 hlt1
      rw [hstored c (by simp)] at this
      cases this
  subst hceq
  exact ⟨as, cs', e, ha, fun p hp => hcs p hp⟩

variable [IsStrictOrderedRing K]

theorem lerpAt_eq {p0 p1 : K × K} (h : p0.1 < p1.1) (x : K) :
    lerpAt p0 p1 x = .ok (line p0.1 p0.2 p1.1 p1.2 x) := by
  unfold lerpAt lerp line
  have : p1.1 - p0.1 ≠ 0 := ne_of_gt (by linarith)
  rw [if_neg this]
  congr 1
  field_simp

theorem line_left {x0 y0 x1 y1 : K} : line x0 y0 x1 y1 x0 = y0 := by simp [line]
theorem line_right {x0 y0 x1 y1 : K} (h : x0 < x1) : line x0 y0 x1 y1 x1 = y1 := by
  unfold line
  have : x1 - x0 ≠ 0 := ne_of_gt (by linarith)
  field_simp
  ring

section
omit [IsStrictOrderedRing K]

theorem deref_at {m : FlatMap K K} {as cs : List (K × K)} {p : K × K} (e : m.data = as ++ p :: cs) {i : Nat}
    (hi : i = as.length) : deref m i = .ok p := by
  subst hi; unfold deref; rw [e]; simp [Res.ofOptionUb]
end

/-- **C50.** After any sequence of points, the piecewise linear function follows the line through two neighbouring
points between them, and also beyond them when they are the outermost two. -/
theorem C50_linear (pts : List (K × K)) (x0 y0 x1 y1 : K) (h : Neighbours pts x0 y0 x1 y1) (x : K)
    (hx0 : x0 ≤ x ∨ IsFirst pts x0) (hx1 : x ≤ x1 ∨ IsLast pts x1) :
    linear (ofPoints pts) x = .ok (line x0 y0 x1 y1 x) := by
  obtain ⟨as, cs, e, ha, hc⟩ := split_neighbours h
  have hlt := h.2.2.1
  have hr := rel_ofPoints pts
  have hsize : (ofPoints pts).size = as.length + (cs.length + 2) := by simp [FlatMap.size, e]
  have hst : ∀ p ∈ (ofPoints pts).data, stored pts p.1 = some p.2 := fun p hp => (hr.2 p.1 p.2).1 hp
  have hfirst : IsFirst pts x0 → as = [] := by
    intro hf
    cases as with
    | nil => rfl
    | cons a as =>
      have h1 := hf a.1 (ha a (by simp))
      rw [hst a (by rw [e]; simp)] at h1
      cases h1
  have hlast : IsLast pts x1 → cs = [] := by
    intro hf
    cases cs with
    | nil => rfl
    | cons c cs =>
      have h1 := hf c.1 (hc c (by simp))
      rw [hst c (by rw [e]; simp)] at h1
      cases h1
  have e1 : (ofPoints pts).data = (as ++ [(x0, y0)]) ++ (x1, y1) :: cs := by rw [e]; simp
  have main : ∀ it1, it1 = as.length + 1 →
      (do let p0 ← deref (ofPoints pts) (it1 - 1); let p1 ← deref (ofPoints pts) it1; lerpAt p0 p1 x : Res K) =
        .ok (line x0 y0 x1 y1 x) := by
    intro it1 hit
    rw [deref_at e (by omega), deref_at e1 (by simp [hit])]
    exact lerpAt_eq hlt x
  unfold linear
  rw [if_pos (by omega)]
  simp only
  generalize hm : ofPoints pts = m at *
  obtain ⟨l⟩ := m
  simp only at e e1
  subst e
  rcases lt_trichotomy x x0 with hx | hx | hx
  · -- before the first point
    have has := hfirst (hx0.resolve_left (not_le.2 hx))
    subst has
    have hlb : lowerBound (⟨[] ++ (x0, y0) :: (x1, y1) :: cs⟩ : FlatMap K K) x = 0 := by
      refine lb_eq (as := []) (by simp) ?_
      intro b hb
      simp only [List.nil_append, List.mem_cons] at hb
      rcases hb with rfl | rfl | hb
      · exact not_lt.2 (le_of_lt hx)
      · exact not_lt.2 (le_of_lt (lt_trans hx hlt))
      · exact not_lt.2 (le_of_lt (lt_trans (lt_trans hx hlt) (hc b hb)))
    rw [hlb, if_neg (by omega), if_pos rfl]
    exact main _ (by simp)
  · -- at the left point
    subst hx
    have hlb : lowerBound (⟨as ++ (x, y0) :: (x1, y1) :: cs⟩ : FlatMap K K) x = as.length := by
      refine lb_eq ha ?_
      intro b hb
      simp only [List.mem_cons] at hb
      rcases hb with rfl | rfl | hb
      · exact lt_irrefl _
      · exact not_lt.2 (le_of_lt hlt)
      · exact not_lt.2 (le_of_lt (lt_trans hlt (hc b hb)))
    rw [hlb, if_neg (by omega)]
    by_cases h0 : as.length = 0
    · rw [if_pos h0]; exact main _ rfl
    · rw [if_neg h0]
      obtain ⟨as', a, rfl⟩ : ∃ as' a, as = as' ++ [a] := by
        have hne : as ≠ [] := by rintro rfl; simp at h0
        exact ⟨as.dropLast, as.getLast hne, (List.dropLast_append_getLast hne).symm⟩
      have ha1 : a.1 < x := ha a (by simp)
      rw [deref_at (as := as') (p := a) (cs := (x, y0) :: (x1, y1) :: cs) (by simp) (by simp),
        deref_at (as := as' ++ [a]) (p := (x, y0)) (cs := (x1, y1) :: cs) rfl rfl]
      show lerpAt a (x, y0) x = _
      rw [lerpAt_eq ha1, line_left, line_right ha1]
  · rcases le_or_gt x x1 with hx' | hx'
    · -- inside
      have hlb : lowerBound (⟨as ++ (x0, y0) :: (x1, y1) :: cs⟩ : FlatMap K K) x = as.length + 1 := by
        have := lb_eq (as := as ++ [(x0, y0)]) (bs := (x1, y1) :: cs) (k := x) ?_ ?_
        · simpa using this
        · intro a h
          rcases List.mem_append.1 h with h | h
          · exact lt_trans (ha a h) hx
          · rw [List.mem_singleton] at h; subst h; exact hx
        · intro b hb
          rcases List.mem_cons.1 hb with rfl | hb
          · exact not_lt.2 hx'
          · exact not_lt.2 (le_of_lt (lt_of_le_of_lt hx' (hc b hb)))
      rw [hlb, if_neg (by omega), if_neg (by omega)]
      exact main _ rfl
    · -- beyond the last point
      have hcs := hlast (hx1.resolve_left (not_le.2 hx'))
      subst hcs
      have hlb : lowerBound (⟨as ++ (x0, y0) :: (x1, y1) :: []⟩ : FlatMap K K) x = as.length + 2 := by
        have := lb_eq (as := as ++ [(x0, y0), (x1, y1)]) (bs := []) (k := x) ?_ (by simp)
        · simpa using this
        · intro a h
          simp only [List.mem_append, List.mem_cons, List.not_mem_nil, or_false] at h
          rcases h with h | rfl | rfl
          · exact lt_trans (ha a h) hx
          · exact hx
          · exact hx'
      rw [hlb, if_pos (by simp at hsize; omega)]
      exact main _ (by omega)

/-- On a segment the line stays between the two values. -/
theorem C50_between (x0 y0 x1 y1 x : K) (h : x0 < x1) (h0 : x0 ≤ x) (h1 : x ≤ x1) :
    min y0 y1 ≤ line x0 y0 x1 y1 x ∧ line x0 y0 x1 y1 x ≤ max y0 y1 := by
  have hp : 0 < x1 - x0 := by linarith
  have e : line x0 y0 x1 y1 x = y0 + (x - x0) / (x1 - x0) * (y1 - y0) := by unfold line; field_simp
  rw [e]
  have ht0 : 0 ≤ (x - x0) / (x1 - x0) := div_nonneg (by linarith) (by linarith)
  have ht1 : (x - x0) / (x1 - x0) ≤ 1 := by rw [div_le_one hp]; linarith
  generalize (x - x0) / (x1 - x0) = t at *
  rcases le_total y0 y1 with h2 | h2
  · rw [min_eq_left h2, max_eq_right h2]; constructor <;> nlinarith
  · rw [min_eq_right h2, max_eq_left h2]; constructor <;> nlinarith

/-- With two abscissae there is always a segment for `x`, so `C50_linear` covers every argument. -/
theorem C50_segment_exists (pts : List (K × K)) (a b ya yb : K) (hab : a ≠ b) (ha : stored pts a = some ya)
    (hb : stored pts b = some yb) (x : K) :
    ∃ x0 y0 x1 y1, Neighbours pts x0 y0 x1 y1 ∧ (x0 ≤ x ∨ IsFirst pts x0) ∧ (x ≤ x1 ∨ IsLast pts x1) := by
  have hr := rel_ofPoints pts
  have hma := (hr.2 a ya).2 ha
  have hmb := (hr.2 b yb).2 hb
  have hst : ∀ k v, (k, v) ∈ (ofPoints pts).data ↔ stored pts k = some v := hr.2
  have hs := hr.1
  generalize (ofPoints pts).data = l at *
  -- any two consecutive entries are neighbours
  have nb : ∀ as p q cs, l = as ++ p :: q :: cs → Neighbours pts p.1 p.2 q.1 q.2 := by
    rintro as p q cs rfl
    unfold FlatMap.Sorted at hs
    rw [List.pairwise_append, List.pairwise_cons, List.pairwise_cons] at hs
    refine ⟨(hst _ _).1 (by simp), (hst _ _).1 (by simp), hs.2.1.1 q (by simp), ?_⟩
    intro y h1 h2
    cases hy : stored pts y with
    | none => rfl
    | some v =>
      have := (hst y v).2 hy
      simp only [List.mem_append, List.mem_cons] at this
      rcases this with h | h | h | h
      · exact absurd (lt_trans h1 (hs.2.2 _ h p (by simp))) (lt_irrefl _)
      · rw [← h] at h1; exact absurd h1 (lt_irrefl _)
      · rw [← h] at h2; exact absurd h2 (lt_irrefl _)
      · exact absurd (lt_trans h2 (hs.2.1.2.1 _ h)) (lt_irrefl _)
  have hfirst : ∀ p cs, l = p :: cs → IsFirst pts p.1 := by
    rintro p cs rfl y hy
    cases h : stored pts y with
    | none => rfl
    | some v =>
      have := (hst y v).2 h
      rcases List.mem_cons.1 this with h | h
      · rw [← h] at hy; exact absurd hy (lt_irrefl _)
      · exact absurd (lt_trans hy ((List.pairwise_cons.1 hs).1 _ h)) (lt_irrefl _)
  have hlast : ∀ as p, l = as ++ [p] → IsLast pts p.1 := by
    rintro as p rfl y hy
    cases h : stored pts y with
    | none => rfl
    | some v =>
      have := (hst y v).2 h
      rcases List.mem_append.1 this with h | h
      · exact absurd (lt_trans hy ((List.pairwise_append.1 hs).2.2 _ h p (by simp))) (lt_irrefl _)
      · rw [List.mem_singleton] at h; rw [← h] at hy; exact absurd hy (lt_irrefl _)
  -- split at `x`
  have hsplit : ∃ as cs, l = as ++ cs ∧ (∀ p ∈ as, p.1 ≤ x) ∧ (∀ p ∈ cs, x ≤ p.1) := by
    rcases locate l hs x with ⟨as, v, cs, e, h1, h2⟩ | ⟨as, cs, e, h1, h2⟩
    · refine ⟨as, (x, v) :: cs, e, fun p hp => le_of_lt (h1 p hp), ?_⟩
      intro p hp
      rcases List.mem_cons.1 hp with rfl | hp
      · exact le_refl _
      · exact le_of_lt (h2 p hp)
    · exact ⟨as, cs, e, fun p hp => le_of_lt (h1 p hp), fun p hp => le_of_lt (h2 p hp)⟩
  obtain ⟨as, cs, e, h1, h2⟩ := hsplit
  rcases List.eq_nil_or_concat as with rfl | ⟨as', p, rfl⟩
  · -- everything is at or after `x`
    rw [List.nil_append] at e
    match cs, e with
    | [], e => subst e; simp at hma
    | [p], e =>
      subst e
      rw [List.mem_singleton] at hma hmb
      exact absurd ((congrArg Prod.fst hma).trans (congrArg Prod.fst hmb).symm) hab
    | p :: q :: cs, e =>
      exact ⟨p.1, p.2, q.1, q.2, nb [] p q cs e, Or.inr (hfirst _ _ e), Or.inl (h2 q (by simp))⟩
  · match cs, e with
    | q :: cs, e =>
      exact ⟨p.1, p.2, q.1, q.2, nb as' p q cs (by rw [e]; simp), Or.inl (h1 p (by simp)), Or.inl (h2 q (by simp))⟩
    | [], e =>
      rw [List.append_nil] at e
      rcases List.eq_nil_or_concat as' with rfl | ⟨as'', o, rfl⟩
      · subst e
        simp only [List.concat_eq_append, List.nil_append, List.mem_singleton] at hma hmb
        exact absurd ((congrArg Prod.fst hma).trans (congrArg Prod.fst hmb).symm) hab
      · exact ⟨o.1, o.2, p.1, p.2, nb as'' o p [] (by rw [e]; simp), Or.inl (h1 o (by simp)),
          Or.inr (hlast (as'' ++ [o]) p (by rw [e]; simp))⟩

/-- **C50.** The stored value is returned at every abscissa. -/
theorem C50_linear_at (pts : List (K × K)) (x y x' y' : K) (hx : stored pts x = some y) (hx' : stored pts x' = some y')
    (hne : x ≠ x') : linear (ofPoints pts) x = .ok y := by
  obtain ⟨x0, y0, x1, y1, hn, h0, h1⟩ := C50_segment_exists pts x x' y y' hne hx hx' x
  rw [C50_linear pts x0 y0 x1 y1 hn x h0 h1]
  have hlt := hn.2.2.1
  rcases lt_trichotomy x x0 with h | h | h
  · exact absurd ((h0.resolve_left (not_le.2 h)) x h) (by rw [hx]; simp)
  · subst h
    have := hn.1; rw [hx] at this
    rw [line_left]; simpa using this.symm
  · rcases lt_trichotomy x x1 with h' | h' | h'
    · exact absurd (hn.2.2.2 x h h') (by rw [hx]; simp)
    · subst h'
      have := hn.2.1; rw [hx] at this
      rw [line_right hlt]; simpa using this.symm
    · exact absurd ((h1.resolve_left (not_le.2 h')) x h') (by rw [hx]; simp)

/-- **C50.** Points on a line give that line everywhere. -/
theorem C50_linear_exact (pts : List (K × K)) (c s a b : K) (hab : a ≠ b) (ha : (stored pts a).isSome)
    (hb : (stored pts b).isSome) (hline : ∀ x y, stored pts x = some y → y = c + s * x) (x : K) :
    linear (ofPoints pts) x = .ok (c + s * x) := by
  obtain ⟨ya, ha⟩ := Option.isSome_iff_exists.1 ha
  obtain ⟨yb, hb⟩ := Option.isSome_iff_exists.1 hb
  obtain ⟨x0, y0, x1, y1, hn, h0, h1⟩ := C50_segment_exists pts a b ya yb hab ha hb x
  rw [C50_linear pts x0 y0 x1 y1 hn x h0 h1, hline _ _ hn.1, hline _ _ hn.2.1]
  have hp : x1 - x0 ≠ 0 := ne_of_gt (sub_pos.2 hn.2.2.1)
  unfold line
  congr 1
  field_simp
  ring

section
omit [IsStrictOrderedRing K]

/-- With fewer than two different abscissae evaluation is reported as an error. -/
theorem C50_linear_error (pts : List (K × K)) (x : K)
    (h : ∀ a b, (stored pts a).isSome → (stored pts b).isSome → a = b) : linear (ofPoints pts) x = .err := by
  have hr := rel_ofPoints pts
  unfold linear
  rw [if_neg]
  unfold FlatMap.size
  intro hlen
  match hl : (ofPoints pts).data with
  | [] => rw [hl] at hlen; simp at hlen
  | [_] => rw [hl] at hlen; simp at hlen
  | p :: q :: cs =>
    have hp := (hr.2 p.1 p.2).1 (by rw [hl]; simp)
    have hq := (hr.2 q.1 q.2).1 (by rw [hl]; simp)
    have hs := hr.1
    rw [hl] at hs
    have := (List.pairwise_cons.1 hs).1 q (by simp)
    rw [h p.1 q.1 (by rw [hp]; rfl) (by rw [hq]; rfl)] at this
    exact absurd this (lt_irrefl _)

/-- The upper bound of `x`, when everything up to `x` comes before. -/
theorem ub_split {m : FlatMap K K} {as cs : List (K × K)} {x : K} (e : m.data = as ++ cs) (h1 : ∀ a ∈ as, a.1 ≤ x)
    (h2 : ∀ c ∈ cs, x < c.1) : m.upperBound x = as.length := by
  obtain ⟨l⟩ := m
  simp only at e
  subst e
  exact ub_eq (fun a ha => not_lt.2 (h1 a ha)) h2

/-- **C50.** The piecewise constant function gives the value of the last abscissa that is not beyond the argument. -/
theorem C50_constant (pts : List (K × K)) (x0 y0 x : K) (h : stored pts x0 = some y0) (hx : x0 ≤ x)
    (hgap : ∀ x', x0 < x' → x' ≤ x → stored pts x' = none) : constant (ofPoints pts) x = .ok y0 := by
  obtain ⟨as, cs, e, ha, hc⟩ := split_stored h
  have hr := rel_ofPoints pts
  have hc' : ∀ c ∈ cs, x < c.1 := by
    intro c hcm
    by_contra hcx
    have := hgap c.1 (hc c hcm) (not_lt.1 hcx)
    rw [(hr.2 c.1 c.2).1 (by rw [e]; simp [hcm])] at this
    cases this
  have hub : (ofPoints pts).upperBound x = as.length + 1 := by
    rw [ub_split (as := as ++ [(x0, y0)]) (cs := cs) (by rw [e]; simp) ?_ hc']
    · simp
    · intro a h
      rcases List.mem_append.1 h with h | h
      · exact le_trans (le_of_lt (ha a h)) hx
      · rw [List.mem_singleton] at h; subst h; exact hx
  unfold constant
  have hsize : (ofPoints pts).size = as.length + (cs.length + 1) := by simp [FlatMap.size, e]
  rw [if_pos (by omega)]
  simp only
  rw [hub]
  split
  · rw [deref_at e (by omega)]; rfl
  · rw [if_neg (by omega), deref_at e (by omega)]; rfl

/-- Before the first abscissa the piecewise constant function gives the first value. -/
theorem C50_constant_before (pts : List (K × K)) (x0 y0 x : K) (h : stored pts x0 = some y0) (hx : x < x0)
    (hfirst : IsFirst pts x0) : constant (ofPoints pts) x = .ok y0 := by
  obtain ⟨as, cs, e, ha, hc⟩ := split_stored h
  have hr := rel_ofPoints pts
  have has : as = [] := by
    cases as with
    | nil => rfl
    | cons a as =>
      have h1 := hfirst a.1 (ha a (by simp))
      rw [(hr.2 a.1 a.2).1 (by rw [e]; simp)] at h1
      cases h1
  subst has
  have hub : (ofPoints pts).upperBound x = 0 := by
    refine ub_split (as := []) (cs := (x0, y0) :: cs) (by rw [e]) (by simp) ?_
    intro c hcm
    rcases List.mem_cons.1 hcm with rfl | hcm
    · exact hx
    · exact lt_trans hx (hc c hcm)
  unfold constant
  have hsize : (ofPoints pts).size = cs.length + 1 := by simp [FlatMap.size, e]
  rw [if_pos (by omega)]
  simp only
  rw [hub, if_neg (by omega), if_pos rfl, deref_at (i := 0) e rfl]
  rfl

end

/-- **C50.** `lerp_map` follows the line between neighbouring keys. -/
theorem C50_lerp_map (pts : List (K × K)) (x0 y0 x1 y1 : K) (h : Neighbours pts x0 y0 x1 y1) (x : K)
    (hx0 : x0 ≤ x) (hx1 : x ≤ x1) : lerpMap (ofPoints pts) x = .ok (line x0 y0 x1 y1 x) := by
  obtain ⟨as, cs, e, ha, hc⟩ := split_neighbours h
  have hlt := h.2.2.1
  have hsize : (ofPoints pts).size = as.length + (cs.length + 2) := by simp [FlatMap.size, e]
  have e1 : (ofPoints pts).data = (as ++ [(x0, y0)]) ++ (x1, y1) :: cs := by rw [e]; simp
  unfold lerpMap
  rw [if_pos (by omega)]
  simp only
  rcases lt_or_eq_of_le hx1 with hx | hx
  · have hub : (ofPoints pts).upperBound x = as.length + 1 := by
      rw [ub_split (as := as ++ [(x0, y0)]) (cs := (x1, y1) :: cs) e1]
      · simp
      · intro a h
        rcases List.mem_append.1 h with h | h
        · exact le_trans (le_of_lt (ha a h)) hx0
        · rw [List.mem_singleton] at h; subst h; exact hx0
      · intro c hcm
        rcases List.mem_cons.1 hcm with rfl | hcm
        · exact hx
        · exact lt_trans hx (hc c hcm)
    rw [hub, if_neg (by omega), if_neg (by omega), deref_at e (by omega), deref_at e1 (by simp)]
    exact lerpAt_eq hlt x
  · subst hx
    have hub : (ofPoints pts).upperBound x = as.length + 2 := by
      rw [ub_split (as := as ++ [(x0, y0), (x, y1)]) (cs := cs) (by rw [e]; simp) ?_ hc]
      · simp
      · intro a h
        simp only [List.mem_append, List.mem_cons, List.not_mem_nil, or_false] at h
        rcases h with h | rfl | rfl
        · exact le_trans (le_of_lt (ha a h)) hx0
        · exact hx0
        · exact le_refl _
    rw [hub, line_right hlt]
    split
    · rw [deref_at e1 (by simp)]; rfl
    · next hne =>
      rw [if_neg (by omega)]
      cases cs with
      | nil => simp at hsize; omega
      | cons c cs =>
        rw [deref_at e1 (by simp), deref_at (as := as ++ [(x0, y0), (x, y1)]) (p := c) (cs := cs) (by rw [e]; simp) (by simp)]
        show lerpAt (x, y1) c x = _
        rw [lerpAt_eq (hc c (by simp)), line_left]

/-- **C50.** `lerp_map` gives the boundary value outside the covered range, and an error without keys. -/
theorem C50_lerp_map_outside (pts : List (K × K)) :
    (∀ x0 y0, stored pts x0 = some y0 → IsFirst pts x0 → ∀ x, x ≤ x0 → lerpMap (ofPoints pts) x = .ok y0) ∧
    (∀ x1 y1, stored pts x1 = some y1 → IsLast pts x1 → ∀ x, x1 ≤ x → lerpMap (ofPoints pts) x = .ok y1) ∧
    ((∀ x, stored pts x = none) → ∀ x, lerpMap (ofPoints pts) x = .err) := by
  have hr := rel_ofPoints pts
  have hlastcase : ∀ x1 y1, stored pts x1 = some y1 → IsLast pts x1 → ∀ x, x1 ≤ x →
      lerpMap (ofPoints pts) x = .ok y1 := by
    intro x1 y1 h hl x hx
    obtain ⟨as, cs, e, ha, hc⟩ := split_stored h
    have hcs : cs = [] := by
      cases cs with
      | nil => rfl
      | cons c cs =>
        have h1 := hl c.1 (hc c (by simp))
        rw [(hr.2 c.1 c.2).1 (by rw [e]; simp)] at h1
        cases h1
    subst hcs
    have hsize : (ofPoints pts).size = as.length + 1 := by simp [FlatMap.size, e]
    have hub : (ofPoints pts).upperBound x = as.length + 1 := by
      rw [ub_split (as := as ++ [(x1, y1)]) (cs := []) (by rw [e]; simp) ?_ (by simp)]
      · simp
      · intro a h
        rcases List.mem_append.1 h with h | h
        · exact le_trans (le_of_lt (ha a h)) hx
        · rw [List.mem_singleton] at h; subst h; exact hx
    unfold lerpMap
    rw [if_pos (by omega)]
    simp only
    rw [hub, if_pos (by omega), deref_at e (by omega)]
    rfl
  refine ⟨?_, hlastcase, ?_⟩
  · intro x0 y0 h hf x hx
    obtain ⟨as, cs, e, ha, hc⟩ := split_stored h
    have has : as = [] := by
      cases as with
      | nil => rfl
      | cons a as =>
        have h1 := hf a.1 (ha a (by simp))
        rw [(hr.2 a.1 a.2).1 (by rw [e]; simp)] at h1
        cases h1
    subst has
    rcases lt_or_eq_of_le hx with hx | hx
    · have hub : (ofPoints pts).upperBound x = 0 := by
        refine ub_split (as := []) (cs := (x0, y0) :: cs) (by rw [e]) (by simp) ?_
        intro c hcm
        rcases List.mem_cons.1 hcm with rfl | hcm
        · exact hx
        · exact lt_trans hx (hc c hcm)
      have hsize : (ofPoints pts).size = cs.length + 1 := by simp [FlatMap.size, e]
      unfold lerpMap
      rw [if_pos (by omega)]
      simp only
      rw [hub, if_neg (by omega), if_pos rfl, deref_at (i := 0) e rfl]
      rfl
    · subst hx
      cases cs with
      | nil =>
        refine hlastcase x y0 h ?_ x (le_refl _)
        intro x' hx'
        cases hx'' : stored pts x' with
        | none => rfl
        | some v =>
          have := (hr.2 x' v).2 hx''
          rw [e] at this
          simp at this
          rw [this.1] at hx'
          exact absurd hx' (lt_irrefl _)
      | cons c cs =>
        have hn : Neighbours pts x y0 c.1 c.2 := by
          refine ⟨h, (hr.2 _ _).1 (by rw [e]; simp), hc c (by simp), ?_⟩
          intro x' h1 h2
          cases hx'' : stored pts x' with
          | none => rfl
          | some v =>
            have := (hr.2 x' v).2 hx''
            rw [e] at this
            simp only [List.nil_append, List.mem_cons] at this
            have hs := hr.1
            rw [e, List.nil_append] at hs
            rcases this with h3 | h3 | h3
            · have h4 : x' = x := congrArg Prod.fst h3
              rw [h4] at h1; exact absurd h1 (lt_irrefl _)
            · rw [← h3] at h2; exact absurd h2 (lt_irrefl _)
            · exact absurd (lt_trans h2 ((List.pairwise_cons.1 (List.pairwise_cons.1 hs).2).1 _ h3)) (lt_irrefl _)
        rw [C50_lerp_map pts x y0 c.1 c.2 hn x (le_refl _) (le_of_lt hn.2.2.1), line_left]
  · intro h x
    unfold lerpMap
    rw [if_neg]
    simp only [not_not]
    unfold FlatMap.size
    match hl : (ofPoints pts).data with
    | [] => rfl
    | p :: cs =>
      have := (hr.2 p.1 p.2).1 (by rw [hl]; simp)
      rw [h] at this
      cases this

/-- `lerp` starts at the first and ends at the second value. -/
theorem C50_lerp (v1 v2 : K) : lerp v1 v2 0 = v1 ∧ lerp v1 v2 1 = v2 := by
  constructor <;> unfold lerp <;> ring

/-- **C50 is violated** by `lerp_precise`: at 0 it is the negative of the first value. -/
theorem C50_lerp_precise_violated (v1 v2 : K) : lerpPrecise v1 v2 0 = -v1 ∧ (v1 ≠ 0 → lerpPrecise v1 v2 0 ≠ v1) := by
  have e : lerpPrecise v1 v2 0 = -v1 := by unfold lerpPrecise; ring
  refine ⟨e, fun h h' => h ?_⟩
  rw [e] at h'
  linarith

variable [FloorRing K]

/-- **C50 (partial).** `lerp_span` gives the elements at whole indices, the line between them, and the boundary elements
outside, for indices below the largest `int`. -/
theorem C50_lerp_span_partial (l : List K) (hl : l ≠ []) :
    (∀ x : K, x ≤ 0 → lerpSpan l x = .ok (l.head hl)) ∧
    (∀ x : K, (l.length : K) - 1 ≤ x → 0 < x → x < 2147483647 → lerpSpan l x = .ok (l.getLast hl)) ∧
    (∀ (i : Nat) (a b : K), i + 1 < 2147483647 → l[i]? = some a → l[i + 1]? = some b →
      ∀ t : K, 0 ≤ t → t ≤ 1 → lerpSpan l (i + t) = .ok (a + t * (b - a))) ∧
    (∀ (i : Nat) (a : K), i < 2147483647 → l[i]? = some a → lerpSpan l i = .ok a) := by
  have hlen : 0 < l.length := List.length_pos_iff.2 hl
  have hhead : l[0]? = some (l.head hl) := by rw [← List.head?_eq_getElem?, List.head?_eq_some_head hl]
  have hlast : l[l.length - 1]? = some (l.getLast hl) := by rw [← List.getLast?_eq_getElem?, List.getLast?_eq_some_getLast hl]
  have p1 : ∀ x : K, x ≤ 0 → lerpSpan l x = .ok (l.head hl) := by
    intro x hx
    unfold lerpSpan
    rw [if_pos hlen, if_pos hx, hhead]
    rfl
  have p2 : ∀ x : K, (l.length : K) - 1 ≤ x → 0 < x → x < 2147483647 → lerpSpan l x = .ok (l.getLast hl) := by
    intro x h1 h2 h3
    have hf : ⌊x⌋ < 2147483647 := Int.floor_lt.2 (by exact_mod_cast h3)
    have hf2 : (l.length : ℤ) - 1 ≤ ⌊x⌋ := Int.le_floor.2 (by push_cast; exact h1)
    unfold lerpSpan
    rw [if_pos hlen, if_neg (not_le.2 h2)]
    simp only
    rw [if_neg (by omega), if_neg (by omega), if_pos (by omega), hlast]
    rfl
  have p3 : ∀ (i : Nat) (a b : K), i < 2147483647 → l[i]? = some a → l[i + 1]? = some b →
      ∀ t : K, 0 ≤ t → t < 1 → 0 < (i : K) + t → lerpSpan l (i + t) = .ok (a + t * (b - a)) := by
    intro i a b hi ha hb t ht0 ht1 hpos
    have hil : i + 1 < l.length := by
      rw [List.getElem?_eq_some_iff] at hb
      exact hb.1
    have hf : ⌊(i : K) + t⌋ = i := by
      rw [Int.floor_eq_iff]; push_cast; constructor <;> linarith
    unfold lerpSpan
    rw [if_pos hlen, if_neg (not_le.2 hpos)]
    simp only
    rw [hf, if_neg (by omega), if_neg (by omega), if_neg (by omega), Int.toNat_natCast, ha, hb]
    show Res.ok (lerp a b ((i : K) + t - ((i : ℤ) : K))) = _
    push_cast
    unfold lerp
    rw [add_sub_cancel_left]
  have p4 : ∀ (i : Nat) (a : K), i < 2147483647 → l[i]? = some a → lerpSpan l i = .ok a := by
    intro i a hi ha
    have hil : i < l.length := by
      rw [List.getElem?_eq_some_iff] at ha
      exact ha.1
    rcases Nat.eq_zero_or_pos i with rfl | h0
    · rw [p1 _ (by simp)]
      rw [hhead] at ha
      injection ha with ha; rw [ha]
    · have hpos : (0 : K) < i := by exact_mod_cast h0
      by_cases hlt : i + 1 < l.length
      · have := p3 i a l[i + 1] (by omega) ha (List.getElem?_eq_getElem hlt) 0 (le_refl _) (by norm_num) (by linarith)
        simpa using this
      · have hi' : i = l.length - 1 := by omega
        rw [p2 _ (by rw [hi', Nat.cast_sub hlen]; simp) hpos (by exact_mod_cast hi)]
        rw [hi', hlast] at ha
        injection ha with ha; rw [ha]
  refine ⟨p1, p2, ?_, p4⟩
  intro i a b hi ha hb t ht0 ht1
  rcases lt_or_eq_of_le ht1 with h | h
  · by_cases hpos : 0 < (i : K) + t
    · exact p3 i a b (by omega) ha hb t ht0 h hpos
    · have hi0 : (0 : K) ≤ i := Nat.cast_nonneg i
      have ht : t = 0 := by linarith
      subst ht
      simpa using p4 i a (by omega) ha
  · subst h
    have := p4 (i + 1) b (by omega) hb
    push_cast at this
    rw [this]
    congr 1
    ring

/-- **C50 is violated** by `lerp_span` for large indices: the conversion to `int`, or adding 1 to it, is undefined. -/
theorem C50_lerp_span_violated (l : List K) (hl : l ≠ []) (x : K) (hx : 2147483647 ≤ x) : lerpSpan l x = .ub := by
  have hlen : 0 < l.length := List.length_pos_iff.2 hl
  have hf : 2147483647 ≤ ⌊x⌋ := Int.le_floor.2 (by exact_mod_cast hx)
  have hpos : ¬ x ≤ 0 := by intro h; linarith
  unfold lerpSpan
  rw [if_pos hlen, if_neg hpos]
  simp only
  by_cases h : 2 ^ 31 ≤ ⌊x⌋
  · rw [if_pos h]
  · rw [if_neg h, if_pos (by omega)]

/-- **C50, regular grid.** The sampled function is reproduced at the grid points, the line between two grid points is
followed, and beyond the grid the outermost line, for every argument whose grid index is in the range of `int`. -/
theorem C50_regular (n : Nat) (hn : 2 ≤ n) (xmin xmax : K) (hne : xmin < xmax) (fn : K → K) (i : Nat) (hi : i + 2 ≤ n)
    (x s : K) (hs : s = (xmax - xmin) / ((n - 1 : Nat) : K))
    (hr : xmin - 2 ^ 31 * s ≤ x ∧ x < xmin + 2 ^ 31 * s)
    (hx0 : xmin + i * s ≤ x ∨ i = 0) (hx1 : x ≤ xmin + (i + 1) * s ∨ i + 2 = n) :
    (Regular.make n xmin xmax fn).eval x =
      .ok (line (xmin + i * s) (fn (xmin + i * s)) (xmin + (i + 1) * s) (fn (xmin + (i + 1) * s)) x) := by
  have hn1 : (0 : K) < ((n - 1 : Nat) : K) := by exact_mod_cast (show 0 < n - 1 by omega)
  have hs0 : 0 < s := by rw [hs]; exact div_pos (by linarith) hn1
  have hstep : (Regular.make n xmin xmax fn).step = s := hs.symm
  have hbase : (Regular.make n xmin xmax fn).base = xmin := rfl
  have hdata : (Regular.make n xmin xmax fn).data = (List.range n).map fun j : Nat => fn (xmin + j * s) := by
    unfold Regular.make; simp only; rw [← hs]
  have hlen : (Regular.make n xmin xmax fn).data.length = n := by rw [hdata]; simp
  unfold Regular.eval
  rw [hstep, if_neg (ne_of_gt hs0), hbase, hlen]
  simp only
  have hidx : (x - xmin) / s * s = x - xmin := div_mul_cancel₀ _ (ne_of_gt hs0)
  generalize hq : (x - xmin) / s = q at *
  have hxq : x = xmin + q * s := by linarith
  have hq1 : -2 ^ 31 ≤ q := by
    by_contra h
    have : q * s < (-2 ^ 31) * s := mul_lt_mul_of_pos_right (not_le.1 h) hs0
    linarith [hr.1]
  have hq2 : q < 2 ^ 31 := by
    by_contra h
    have : 2 ^ 31 * s ≤ q * s := mul_le_mul_of_nonneg_right (not_lt.1 h) (le_of_lt hs0)
    linarith [hr.2]
  have hf1 : -2 ^ 31 ≤ ⌊q⌋ := Int.le_floor.2 (by push_cast; linarith)
  have hf2 : ⌊q⌋ < 2 ^ 31 := Int.floor_lt.2 (by push_cast; linarith)
  rw [if_neg (by omega)]
  have hq3 : (i : K) ≤ q ∨ i = 0 := by
    rcases hx0 with h | h
    · left
      by_contra hlt
      have : q * s < i * s := mul_lt_mul_of_pos_right (not_le.1 hlt) hs0
      linarith
    · exact Or.inr h
  have hq4 : q ≤ (i : K) + 1 ∨ i + 2 = n := by
    rcases hx1 with h | h
    · left
      by_contra hlt
      have : ((i : K) + 1) * s < q * s := mul_lt_mul_of_pos_right (not_le.1 hlt) hs0
      linarith
    · exact Or.inr h
  have hget : ∀ j : Nat, j < n → (Regular.make n xmin xmax fn).data[j]? = some (fn (xmin + j * s)) := by
    intro j hj
    rw [hdata]
    simp [hj]
  -- evaluating between the points `j` and `j + 1`
  have ev : ∀ j : Nat, j + 2 ≤ n → ((do
        let a ← Res.ofOptionUb (Regular.make n xmin xmax fn).data[((j : ℤ)).toNat]?
        let b ← Res.ofOptionUb (Regular.make n xmin xmax fn).data[((j : ℤ)).toNat + 1]?
        pure ((1 - (q - ((j : ℤ) : K))) * a + (q - ((j : ℤ) : K)) * b) : Res K)) =
        .ok (line (xmin + j * s) (fn (xmin + j * s)) (xmin + (j + 1) * s) (fn (xmin + (j + 1) * s)) x) := by
    intro j hj
    rw [Int.toNat_natCast, hget j (by omega), hget (j + 1) (by omega)]
    show Res.ok _ = _
    congr 1
    unfold line
    push_cast
    have e1 : xmin + ((j : K) + 1) * s - (xmin + j * s) = s := by ring
    have e2 : x - (xmin + j * s) = (q - j) * s := by rw [hxq]; ring
    rw [e1, e2]
    field_simp
    ring
  -- which of the two points is used
  have hcases : ∃ j : Nat, j + 2 ≤ n ∧ (if ⌊q⌋ < 0 then (0 : ℤ) else if ⌊q⌋ > (n : ℤ) - 2 then (n : ℤ) - 2 else ⌊q⌋) = j ∧
      (j = i ∨ (j = i + 1 ∧ q = j)) := by
    by_cases h0 : ⌊q⌋ < 0
    · rw [if_pos h0]
      refine ⟨0, by omega, rfl, Or.inl ?_⟩
      rcases hq3 with h | h
      · have hq0 : q < 0 := by
          have := Int.lt_floor_add_one q
          have h' : ((⌊q⌋ : ℤ) : K) + 1 ≤ 0 := by exact_mod_cast (show ⌊q⌋ + 1 ≤ 0 by omega)
          linarith
        have : (0 : K) ≤ i := Nat.cast_nonneg i
        linarith
      · exact h.symm
    · rw [if_neg h0]
      by_cases h1 : ⌊q⌋ > (n : ℤ) - 2
      · rw [if_pos h1]
        refine ⟨n - 2, by omega, by omega, ?_⟩
        left
        rcases hq4 with h | h
        · have : (⌊q⌋ : ℤ) ≤ (i : ℤ) + 1 := by
            have hh := Int.floor_le q
            have : ((⌊q⌋ : ℤ) : K) ≤ (((i : ℤ) + 1 : ℤ) : K) := by push_cast; linarith
            exact_mod_cast this
          omega
        · omega
      · rw [if_neg h1]
        refine ⟨⌊q⌋.toNat, by omega, by omega, ?_⟩
        have hlow : (i : ℤ) ≤ ⌊q⌋ := by
          rcases hq3 with h | h
          · exact Int.le_floor.2 (by exact_mod_cast h)
          · omega
        rcases hq4 with h | h
        · have hup : (⌊q⌋ : ℤ) ≤ (i : ℤ) + 1 := by
            have hh := Int.floor_le q
            have : ((⌊q⌋ : ℤ) : K) ≤ (((i : ℤ) + 1 : ℤ) : K) := by push_cast; linarith
            exact_mod_cast this
          by_cases he : ⌊q⌋ = (i : ℤ)
          · left; omega
          · right
            have he' : ⌊q⌋ = (i : ℤ) + 1 := by omega
            have ht : ⌊q⌋.toNat = i + 1 := by omega
            refine ⟨ht, ?_⟩
            rw [ht]
            have hh := Int.floor_le q
            rw [he'] at hh
            push_cast at hh ⊢
            linarith
        · left; omega
  obtain ⟨j, hj, hje, hji⟩ := hcases
  rw [hje]
  rw [ev j hj]
  rcases hji with rfl | ⟨rfl, hqj⟩
  · rfl
  · push_cast at hqj ⊢
    have hxe : x = xmin + ((i : K) + 1) * s := by rw [hxq, hqj]
    rw [← hxe, line_left, line_right]
    rw [hxe]
    nlinarith

/-- Non-vacuity: three points inserted out of order, one of them twice. -/
example : stored [(2, 5), (0, 1), (1, 7), (1, 2)] (1 : ℚ) = some 2 ∧
    Neighbours [(2, 5), (0, 1), (1, 7), (1, 2)] (1 : ℚ) 2 2 5 ∧ IsLast [(2, 5), (0, 1), (1, 7), (1, 2)] (2 : ℚ) := by
  have hs : ∀ x : ℚ, x ≠ 0 → x ≠ 1 → x ≠ 2 → stored [(2, 5), (0, 1), (1, 7), (1, 2)] x = none := by
    intro x h0 h1 h2
    simp [stored, Ne.symm h0, Ne.symm h1, Ne.symm h2]
  refine ⟨by simp [stored], ⟨by simp [stored], by norm_num [stored], by norm_num, ?_⟩, ?_⟩
  · intro x h1 h2
    exact hs x (by linarith) (by linarith) (by linarith)
  · intro x h
    exact hs x (by linarith) (by linarith) (by linarith)
example : lerpSpan [(1 : ℚ), 4, 2] ((0 : Nat) + 1 / 2) = .ok (1 + 1 / 2 * (4 - 1)) :=
  (C50_lerp_span_partial [(1 : ℚ), 4, 2] (by simp)).2.2.1 0 1 4 (by norm_num) rfl rfl (1 / 2) (by norm_num) (by norm_num)

end Xo
