import Verif.Lemmas.Norm

/-!
The error of a sum of any number of rounded terms.
-/
namespace Xo.LongSum
open Num
open Ieee Norm
open Ieee.Spec (OfType)

/-- A multiple of the smallest number. -/
def Grid (f : Fmt) (x : Rat) : Prop := ∃ k : Int, x = k * 2 ^ f.emin

theorem grid_add {f : Fmt} {x y : Rat} (hx : Grid f x) (hy : Grid f y) : Grid f (x + y) := by
  obtain ⟨k, rfl⟩ := hx
  obtain ⟨l, rfl⟩ := hy
  exact ⟨k + l, by push_cast; ring⟩

theorem grid_neg {f : Fmt} {x : Rat} (hx : Grid f x) : Grid f (-x) := by
  obtain ⟨k, rfl⟩ := hx
  exact ⟨-k, by push_cast; ring⟩

theorem grid_zero {f : Fmt} : Grid f 0 := ⟨0, by simp⟩

theorem grid_type {f : Fmt} {a : Fl} (ha : Ieee.Spec.Finite a) (h : OfType f a) : Grid f (val a) := by
  cases a with
  | nan => exact ha.elim
  | inf => exact ha.elim
  | fin s m =>
    obtain ⟨k, e, _, h1, _, h2⟩ := val_mul h
    exact ⟨k * 2 ^ (e - f.emin).toNat, by rw [h2, two_split h1]; push_cast; ring⟩

/-- Sums of numbers of the type lose nothing at the lower end. -/
theorem rq_grid {f : Fmt} {x : Rat} (hx : Grid f x) : |rq f x - x| ≤ un f * |x| := by
  have pos : ∀ x : Rat, 0 < x → Grid f x → |rq f x - x| ≤ un f * |x| := by
    rintro x h0 ⟨k, hk⟩
    rw [abs_of_pos (a := x) h0]
    by_cases hx : 2 ^ (f.emin + f.prec - 1) ≤ x
    · have := TimeReal.rq_err hx
      unfold un
      rw [one_div_mul_eq_div]
      exact this
    · have hl : Int.log 2 x < f.emin + f.prec - 1 := by
        rw [← Int.lt_zpow_iff_log_lt (by norm_num) h0]; exact_mod_cast not_le.1 hx
      have hu : Num.ulpExp f x = f.emin := max_eq_right (by omega)
      have he : (0 : Rat) < 2 ^ f.emin := zpow_pos (by norm_num) _
      have e1 : x / 2 ^ f.emin = (k : Rat) := by rw [hk]; field_simp
      have e : rq f x = x := by
        rw [rq_pos h0]
        unfold rndVal
        rw [hu, e1, Num.rhe_eq (n := k) (by simp), ← hk]
      rw [e, sub_self, abs_zero]
      exact mul_nonneg (un_pos f).le h0.le
  rcases lt_trichotomy x 0 with h | h | h
  · have := pos (-x) (by linarith) (grid_neg hx)
    have e : -rq f x - -x = -(rq f x - x) := by ring
    rwa [rq_neg, e, abs_neg, abs_neg] at this
  · subst h
    rw [rq_zero]
    simp
  · exact pos x h hx

/-- A finite number of the type. -/
def Fine (f : Fmt) (a : Fl) : Prop := Ieee.Spec.Finite a ∧ OfType f a

theorem Fine.grid {f : Fmt} {a : Fl} (h : Fine f a) : Grid f (val a) := grid_type h.1 h.2

theorem fine_round {f : Fmt} (w : Wide f) {z : Bool} {x : Rat} (h : |rq f x| < 2 ^ f.emax) : Fine f (ofRat f z x) ∧ val (ofRat f z x) = rq f x := by
  have t := ofRat_ofType w.1 z x
  obtain ⟨s, m, e, e'⟩ := ofRat_finite (z := z) h
  rw [e] at t ⊢
  exact ⟨⟨trivial, t⟩, e'⟩

theorem finite_fin {a : Fl} (h : Ieee.Spec.Finite a) : ∃ s m, a = .fin s m := by
  cases a with
  | nan => exact h.elim
  | inf => exact h.elim
  | fin s m => exact ⟨s, m, rfl⟩

/-- One addition. -/
theorem add_fine {f : Fmt} (hf : Wide f) {a b : Fl} (ha : Fine f a) (hb : Fine f b) {M : Rat} (hM : |val a + val b| ≤ M) (hB : 2 * M < 2 ^ f.emax) :
    Fine f (add f a b) ∧ |val (add f a b) - (val a + val b)| ≤ un f * M := by
  have h := rq_grid (grid_add ha.grid hb.grid)
  have u0 := un_pos f
  have u1 := un_le hf
  have M0 : 0 ≤ M := (abs_nonneg _).trans hM
  have h1 : |rq f (val a + val b) - (val a + val b)| ≤ un f * M := h.trans (mul_le_mul_of_nonneg_left hM u0.le)
  have h2 : |rq f (val a + val b)| < 2 ^ f.emax := by
    have := abs_add_le (rq f (val a + val b) - (val a + val b)) (val a + val b)
    rw [sub_add_cancel] at this
    have k : un f * M ≤ 1 * M := mul_le_mul_of_nonneg_right (u1.trans (by norm_num)) M0
    linarith
  obtain ⟨s, m, rfl⟩ := finite_fin ha.1
  obtain ⟨t, n, rfl⟩ := finite_fin hb.1
  obtain ⟨h3, h4⟩ := fine_round hf (z := s && t) h2
  exact ⟨h3, by rw [show add f (.fin s m) (.fin t n) = ofRat f (s && t) (val (.fin s m) + val (.fin t n)) from rfl, h4]; exact h1⟩

/-- One multiplication. -/
theorem mul_fine {f : Fmt} (hf : Wide f) {a b : Fl} (ha : Ieee.Spec.Finite a) (hb : Ieee.Spec.Finite b) (hB : 2 * |val a * val b| + 1 ≤ 2 ^ f.emax) :
    Fine f (mul f a b) ∧ |val (mul f a b) - val a * val b| ≤ un f * |val a * val b| + et f := by
  have h := rq_un f (val a * val b)
  have u0 := un_pos f
  have u1 := un_le hf
  have e0 := et_pos f
  have e1 := et_le hf
  have e2 : et f ≤ 1 / 2 := e1.trans ((pow_le_pow_left₀ u0.le u1 5).trans (by norm_num))
  have h2 : |rq f (val a * val b)| < 2 ^ f.emax := by
    have := abs_add_le (rq f (val a * val b) - val a * val b) (val a * val b)
    rw [sub_add_cancel] at this
    have k : un f * |val a * val b| ≤ 1 / 2 * |val a * val b| := mul_le_mul_of_nonneg_right (u1.trans (by norm_num)) (abs_nonneg _)
    linarith [abs_nonneg (val a * val b)]
  obtain ⟨s, m, rfl⟩ := finite_fin ha
  obtain ⟨t, n, rfl⟩ := finite_fin hb
  obtain ⟨h3, h4⟩ := fine_round hf (z := s != t) h2
  exact ⟨h3, by rw [show mul f (.fin s m) (.fin t n) = ofRat f (s != t) (val (.fin s m) * val (.fin t n)) from rfl, h4]; exact h⟩

/-- A term of a sum: the computed number, the exact one, and a bound for the absolute part of the error. -/
structure Term where
  y : Fl
  x : Rat
  β : Rat

/-- The error of a term is `a` roundings and the absolute part. -/
def Term.Ok (f : Fmt) (a : Rat) (t : Term) : Prop := Fine f t.y ∧ |val t.y - t.x| ≤ a * un f * |t.x| + t.β ∧ 0 ≤ t.β

theorem sum_arith {u a k A B S s X x y β S' c : Rat} (hu : 0 < u) (hu1 : u ≤ 1 / 2 ^ 24) (k0 : 0 ≤ k) (a0 : 0 ≤ a) (hk : (k + a) * u ≤ 1 / 8) (hX : X = |x|) (hA : |s| ≤ A) (B0 : 0 ≤ B) (β0 : 0 ≤ β)
    (h1 : |S - s| ≤ 5 / 4 * (k + a) * u * A + (1 + 2 * k * u) * B) (h2 : |y - x| ≤ a * u * X + β) (hc : |S + y| ≤ c) (hc' : c = A + X + (5 / 4 * (k + a) * u * A + (1 + 2 * k * u) * B) + (a * u * X + β))
    (h3 : |S' - (S + y)| ≤ u * c) : |S' - (s + x)| ≤ 5 / 4 * (k + 1 + a) * u * (A + X) + (1 + 2 * (k + 1) * u) * (B + β) := by
  have X0 : 0 ≤ X := hX ▸ abs_nonneg x
  have A0 : 0 ≤ A := (abs_nonneg _).trans hA
  have e : S' - (s + x) = (S' - (S + y)) + (S - s) + (y - x) := by ring
  rw [e]
  refine (abs_add_three _ _ _).trans ((add_le_add (add_le_add h3 h1) h2).trans ?_)
  rw [hc']
  norm_num at hu1
  have ku : k * u ≤ 1 / 8 := by nlinarith
  have k1 : (k + a) * u * A ≤ 1 / 8 * A := mul_le_mul_of_nonneg_right hk A0
  have k2 : u * ((k + a) * u * A) ≤ u * (1 / 8 * A) := mul_le_mul_of_nonneg_left k1 hu.le
  have au0 : 0 ≤ a * u := by positivity
  have au : a * u ≤ 1 / 8 := by nlinarith
  have k3 : u * (a * u * X) ≤ u * (1 / 8 * X) := mul_le_mul_of_nonneg_left (mul_le_mul_of_nonneg_right au X0) hu.le
  have k4 : k * u * B ≤ 1 / 8 * B := mul_le_mul_of_nonneg_right ku B0
  have k5 : u * (k * u * B) ≤ u * (1 / 8 * B) := mul_le_mul_of_nonneg_left k4 hu.le
  have p1 : 0 ≤ u * A := by positivity
  have p2 : 0 ≤ u * X := by positivity
  have p3 : 0 ≤ u * B := by positivity
  have p4 : 0 ≤ u * β := by positivity
  have p5 : 0 ≤ k * u * X := by positivity
  have p6 : 0 ≤ a * u * X := by positivity
  have p7 : 0 ≤ k * u * β := by positivity
  nlinarith

theorem sum_close {f : Fmt} (hf : Wide f) {a : Rat} (a0 : 0 ≤ a) : ∀ (L : List Term) (k : Nat) (S : Fl) (s A B : Rat), (∀ t ∈ L, t.Ok f a) → ((k : Rat) + L.length + a) * un f ≤ 1 / 8 →
    Fine f S → |val S - s| ≤ 5 / 4 * (k + a) * un f * A + (1 + 2 * k * un f) * B → |s| ≤ A → 0 ≤ B →
    4 * (A + (L.map fun t => |t.x|).sum) + 4 * (B + (L.map fun t => t.β).sum) < 2 ^ f.emax →
    Fine f ((L.map fun t => t.y).foldl (add f) S) ∧
      |val ((L.map fun t => t.y).foldl (add f) S) - (s + (L.map fun t => t.x).sum)| ≤
        5 / 4 * (k + L.length + a) * un f * (A + (L.map fun t => |t.x|).sum) + (1 + 2 * (k + L.length) * un f) * (B + (L.map fun t => t.β).sum)
  | [], k, S, s, A, B, _, _, hS, h, _, _, _ => by
    simp only [List.map_nil, List.foldl_nil, List.sum_nil, List.length_nil, Nat.cast_zero, add_zero]
    exact ⟨hS, h⟩
  | t :: L, k, S, s, A, B, ht, hk, hS, h, hA, B0, hM => by
    have u0 := un_pos f
    have u1 := un_le hf
    obtain ⟨t1, t2, t3⟩ := ht t (by simp)
    simp only [List.map_cons, List.sum_cons, List.foldl_cons, List.length_cons] at hk hM ⊢
    push_cast at hk ⊢
    have s1 : 0 ≤ (L.map fun t => |t.x|).sum := List.sum_nonneg (by
      intro z hz
      obtain ⟨t, _, rfl⟩ := List.mem_map.1 hz
      exact abs_nonneg _)
    have s2 : 0 ≤ (L.map fun t => t.β).sum := List.sum_nonneg (by
      intro z hz
      obtain ⟨t, h, rfl⟩ := List.mem_map.1 hz
      exact (ht t (by simp [h])).2.2)
    have l0 : (0 : Rat) ≤ L.length := by positivity
    have k0 : (0 : Rat) ≤ k := by positivity
    have hka : ((k : Rat) + a) * un f ≤ 1 / 8 := by
      refine le_trans (mul_le_mul_of_nonneg_right ?_ u0.le) hk
      linarith
    have A0 : 0 ≤ A := (abs_nonneg _).trans hA
    have X0 := abs_nonneg t.x
    have ka : 5 / 4 * ((k : Rat) + a) * un f * A ≤ 1 / 4 * A := by
      have := mul_le_mul_of_nonneg_right hka A0
      linarith
    have ku : (k : Rat) * un f ≤ 1 / 8 := by nlinarith
    have kb : (1 + 2 * (k : Rat) * un f) * B ≤ 5 / 4 * B := mul_le_mul_of_nonneg_right (by linarith) B0
    have kx : a * un f * |t.x| ≤ 1 / 8 * |t.x| := mul_le_mul_of_nonneg_right (by nlinarith) X0
    have hc : |val S + val t.y| ≤ A + |t.x| + (5 / 4 * (k + a) * un f * A + (1 + 2 * k * un f) * B) + (a * un f * |t.x| + t.β) := by
      have e : val S + val t.y = s + t.x + (val S - s) + (val t.y - t.x) := by ring
      rw [e]
      refine (abs_add_le _ _).trans (add_le_add ((abs_add_le _ _).trans (add_le_add ((abs_add_le _ _).trans (add_le_add hA (le_refl _))) h)) t2)
    obtain ⟨f1, f2⟩ := add_fine hf hS t1 hc (by linarith)
    have st := sum_arith u0 u1 k0 a0 hka rfl hA B0 t3 h t2 hc rfl f2
    have := sum_close hf a0 L (k + 1) (add f S t.y) (s + t.x) (A + |t.x|) (B + t.β) (fun r hr => ht r (by simp [hr])) (by push_cast; linarith) f1 (by push_cast; exact st)
      ((abs_add_le _ _).trans (add_le_add hA (le_refl _))) (by linarith) (by linarith)
    push_cast at this
    refine ⟨this.1, ?_⟩
    have e1 : s + (t.x + (L.map fun t => t.x).sum) = s + t.x + (L.map fun t => t.x).sum := by ring
    have e2 : (k : Rat) + (L.length + 1) = k + 1 + L.length := by ring
    rw [e1, e2, ← add_assoc A, ← add_assoc B]
    exact this.2

/-- Sums of numbers that are not negative are not negative. -/
theorem sum_nonneg {f : Fmt} : ∀ (l : List Fl) (S : Fl), (∀ y ∈ l, Ieee.Spec.Finite y ∧ 0 ≤ val y) → Ieee.Spec.Finite S → 0 ≤ val S → 0 ≤ val (l.foldl (add f) S)
  | [], _, _, _, h0 => h0
  | y :: l, S, hl, hS, h0 => by
    obtain ⟨h1, h2⟩ := hl y (by simp)
    obtain ⟨s, m, rfl⟩ := finite_fin hS
    obtain ⟨t, n, rfl⟩ := finite_fin h1
    have e : add f (.fin s m) (.fin t n) = ofRat f (s && t) (val (.fin s m) + val (.fin t n)) := rfl
    rw [List.foldl_cons]
    rcases ofRat_cases (f := f) (s && t) (val (.fin s m) + val (.fin t n)) with h | h | ⟨_, r, k, h, h'⟩
    · rw [e, h.2]
      clear h
      induction l with
      | nil => exact le_refl _
      | cons z l ih =>
        rw [List.foldl_cons]
        obtain ⟨z1, _⟩ := hl z (by simp)
        obtain ⟨t, n, rfl⟩ := finite_fin z1
        exact ih (fun y hy => hl y (by
          rcases List.mem_cons.1 hy with rfl | hy
          · exact List.mem_cons_self
          · exact List.mem_cons_of_mem _ (List.mem_cons_of_mem _ hy)))
    · have := rq_nonneg (f := f) (add_nonneg h0 h2)
      have p : (0 : Rat) < 2 ^ f.emax := zpow_pos (by norm_num) _
      linarith [h.1]
    · rw [e, h]
      refine sum_nonneg l _ (fun y hy => hl y (by simp [hy])) trivial ?_
      rw [h']
      exact rq_nonneg (add_nonneg h0 h2)

end Xo.LongSum
