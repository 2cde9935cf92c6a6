import Verif.Model.Plot
import Mathlib.Tactic.Linarith
import Mathlib.Tactic.FieldSimp
import Mathlib.Tactic.Ring
import Mathlib.Tactic.NormNum
import Mathlib.Order.Bounds.Basic
import Mathlib.Data.Rat.Floor

/-!
C100: plotting functions on the console. Every value is marked in its column and in the nearest row; later functions cover earlier ones; the
rest of the picture is the frame and the axes.
-/
namespace Xo.Plot

/-- The character in row `r` (from the top) and column `c`. -/
def Spec.cell (g : List (List Nat)) (r c : Nat) : Option Nat := (g[r]?).bind (·[c]?)

/-- All rows have `w` characters, and there are `h` of them. -/
def Spec.Rect (g : List (List Nat)) (h w : Nat) : Prop := g.length = h ∧ ∀ row ∈ g, row.length = w

section
variable {K : Type} [Field K] [LinearOrder K]

/-- Position `i` of the positions `0, …, n - 1`, spread evenly over `[lo, hi]`, is the one nearest to `v`; halfway, the upper one. -/
def Spec.Nearest (n : Nat) (lo hi v : K) (i : Int) : Prop :=
  (i : K) - 1 / 2 ≤ ((n : K) - 1) * ((v - lo) / (hi - lo)) ∧ ((n : K) - 1) * ((v - lo) / (hi - lo)) < (i : K) + 1 / 2

/-- The number at column `xi`. -/
def Spec.column (xmin xmax : K) (w xi : Nat) : K := xmin + (xmax - xmin) * ((xi : K) / ((w : K) - 1))

/-- A function that is not asked about NaN. -/
def Spec.total (f : K → K) : Option K → Option K := Option.map f
end
open Spec

/-! ### Assignments in a picture -/

theorem setCell_spec {g : List (List Nat)} {h w : Nat} (hg : Rect g h w) (i j c : Nat) (hi : i < h) (hj : j < w) :
    ∃ g', setCell g i j c = .ok g' ∧ Rect g' h w ∧ cell g' i j = some c ∧ ∀ r x, (r, x) ≠ (i, j) → cell g' r x = cell g r x := by
  obtain ⟨hl, hw⟩ := hg
  have hil : i < g.length := by omega
  have hrow : (g[i]).length = w := hw _ (List.getElem_mem _)
  refine ⟨g.set i ((g[i]).set j c), ?_, ⟨?_, ?_⟩, ?_, ?_⟩
  · unfold setCell
    rw [if_pos ⟨by omega, by omega⟩]
    simp only [Int.toNat_natCast, List.getElem?_eq_getElem hil]
    rw [if_pos (by omega)]
  · simpa using hl
  · intro row hr
    rcases List.mem_or_eq_of_mem_set hr with h1 | h1
    · exact hw _ h1
    · rw [h1, List.length_set, hrow]
  · unfold cell
    rw [List.getElem?_set_self hil]
    simp [hrow, hj]
  · intro r x hne
    unfold cell
    by_cases hr : r = i
    · subst hr
      have hx : x ≠ j := fun h => hne (by rw [h])
      rw [List.getElem?_set_self hil, List.getElem?_eq_getElem hil]
      simp [Ne.symm hx]
    · rw [List.getElem?_set_ne (Ne.symm hr)]

theorem paint_append (g : List (List Nat)) (A B : List (Res Int × Int × Nat)) : paint g (A ++ B) = paint g A >>= fun g => paint g B := by
  induction A generalizing g with
  | nil => rfl
  | cons e A ih =>
    obtain ⟨i, j, c⟩ := e
    cases i with
    | err => rfl
    | ub => rfl
    | ok i =>
      show (setCell g i j c >>= fun g => paint g (A ++ B)) = _
      cases hs : setCell g i j c with
      | err => simp [paint, hs]
      | ub => simp [paint, hs]
      | ok g' => simp [paint, hs, ih]

/-- An assignment inside the picture. -/
def Inside (h w : Nat) (e : Res Int × Int × Nat) : Prop := ∃ i j : Nat, e.1 = .ok (i : Int) ∧ e.2.1 = (j : Int) ∧ i < h ∧ j < w

/-- It does not touch this place. -/
def Misses (r x : Nat) (e : Res Int × Int × Nat) : Prop := ¬ (e.1 = .ok (r : Int) ∧ e.2.1 = (x : Int))

theorem paint_spec {h w : Nat} : ∀ (L : List (Res Int × Int × Nat)) (g : List (List Nat)), Rect g h w → (∀ e ∈ L, Inside h w e) →
    ∃ g', paint g L = .ok g' ∧ Rect g' h w ∧ (∀ r x, (∀ e ∈ L, Misses r x e) → cell g' r x = cell g r x) ∧
      (∀ A B c (r x : Nat), L = A ++ (.ok (r : Int), (x : Int), c) :: B → (∀ e ∈ B, Misses r x e) → cell g' r x = some c) := by
  intro L
  induction L with
  | nil => intro g hg _; exact ⟨g, rfl, hg, fun _ _ _ => rfl, fun A B c r x h => by simp at h⟩
  | cons e L ih =>
    intro g hg hL
    obtain ⟨ei, ej, ec⟩ := e
    obtain ⟨i, j, h1, h2, hi, hj⟩ := hL _ List.mem_cons_self
    simp only at h1 h2
    subst h1 h2
    obtain ⟨g1, s1, s2, s3, s4⟩ := setCell_spec hg i j ec hi hj
    obtain ⟨g2, p1, p2, p3, p4⟩ := ih g1 s2 (fun e he => hL e (List.mem_cons_of_mem _ he))
    refine ⟨g2, by simp [paint, s1, p1], p2, ?_, ?_⟩
    · intro r x hm
      rw [p3 r x (fun e he => hm e (List.mem_cons_of_mem _ he)), s4 r x]
      intro heq
      injection heq with e1 e2
      exact hm _ List.mem_cons_self (by rw [e1, e2]; exact ⟨rfl, rfl⟩)
    · intro A B c r x hAB hB
      cases A with
      | nil =>
        simp only [List.nil_append] at hAB
        injection hAB with e1 e2
        injection e1 with e1 e3
        injection e3 with e3 e4
        injection e1 with e1
        have e1 : i = r := by omega
        have e3 : j = x := by omega
        subst e2 e1 e3 e4
        rw [p3 _ _ hB, s3]
      | cons a A =>
        rw [List.cons_append] at hAB
        injection hAB with _ e2
        exact p4 A B c r x e2 hB

/-! ### Positions -/
section
variable {K : Type} [Field K] [LinearOrder K] [FloorRing K] [IsStrictOrderedRing K]

theorem nearest_unique {n : Nat} {lo hi v : K} {i j : Int} (h1 : Nearest n lo hi v i) (h2 : Nearest n lo hi v j) : i = j := by
  have a : (i : K) < (j : K) + 1 := by linarith [h1.1, h2.2]
  have b : (j : K) < (i : K) + 1 := by linarith [h2.1, h1.2]
  have a' : i < j + 1 := by exact_mod_cast a
  have b' : j < i + 1 := by exact_mod_cast b
  omega

theorem quantize_spec {n : Nat} (hn : 1 ≤ n) {lo hi v : K} (h : lo < hi) {i : Int} (hi' : Nearest n lo hi v i) (ho : intOk i = true) :
    quantize n lo (hi - lo) (some v) = .ok i := by
  have e : ⌊(1 : K) / 2 + ((n - 1 : Nat) : K) * (v - lo) / (hi - lo)⌋ = i := by
    rw [Int.floor_eq_iff, mul_div_assoc, Nat.cast_sub hn, Nat.cast_one]
    constructor <;> linarith [hi'.1, hi'.2]
  unfold quantize
  simp only []
  rw [if_neg (sub_ne_zero.2 h.ne')]
  simp only [e, ho, if_true]

/-- Each number has a nearest position. -/
theorem nearest_exists (n : Nat) (lo hi v : K) : ∃ i : Int, Nearest n lo hi v i := by
  refine ⟨⌊(1 : K) / 2 + ((n : K) - 1) * ((v - lo) / (hi - lo))⌋, ?_⟩
  have h1 := Int.floor_le ((1 : K) / 2 + ((n : K) - 1) * ((v - lo) / (hi - lo)))
  have h2 := Int.lt_floor_add_one ((1 : K) / 2 + ((n : K) - 1) * ((v - lo) / (hi - lo)))
  constructor <;> linarith

/-- Within the interval it is one of the positions. -/
theorem nearest_inside {n : Nat} (hn : 1 ≤ n) {lo hi v : K} (h : lo < hi) (h1 : lo ≤ v) (h2 : v ≤ hi) {i : Int} (hi' : Nearest n lo hi v i) :
    0 ≤ i ∧ i < n := by
  have hp : (0 : K) < hi - lo := sub_pos.2 h
  have q0 : 0 ≤ (v - lo) / (hi - lo) := div_nonneg (sub_nonneg.2 h1) hp.le
  have q1 : (v - lo) / (hi - lo) ≤ 1 := (div_le_one hp).2 (by linarith)
  have hn' : (0 : K) ≤ (n : K) - 1 := by
    have : (1 : K) ≤ (n : K) := by exact_mod_cast hn
    linarith
  have p0 := mul_nonneg hn' q0
  have p1 := mul_le_mul_of_nonneg_left q1 hn'
  constructor
  · have : (-1 : K) < (i : K) := by linarith [hi'.2]
    have : (-1 : Int) < i := by exact_mod_cast this
    omega
  · have : (i : K) < (n : K) := by linarith [hi'.1]
    exact_mod_cast this

/-! ### The range of the values -/

theorem foldl_lower (l : List K) (m : K) : (l.map some).foldl lower m = l.foldl min m := by
  induction l generalizing m with
  | nil => rfl
  | cons y l ih =>
    rw [List.map_cons, List.foldl_cons, List.foldl_cons, ih]
    congr 1
    show (if y < m then y else m) = min m y
    by_cases h : y < m
    · rw [if_pos h, min_eq_right h.le]
    · rw [if_neg h, min_eq_left (not_lt.1 h)]

theorem foldl_upper (l : List K) (m : K) : (l.map some).foldl upper m = l.foldl max m := by
  induction l generalizing m with
  | nil => rfl
  | cons y l ih =>
    rw [List.map_cons, List.foldl_cons, List.foldl_cons, ih]
    congr 1
    show (if m < y then y else m) = max m y
    by_cases h : m < y
    · rw [if_pos h, max_eq_right h.le]
    · rw [if_neg h, max_eq_left (not_lt.1 h)]

theorem foldl_min_least (l : List K) (m lo : K) (h : IsLeast {y | y ∈ l} lo) (hm : lo ≤ m) : l.foldl min m = lo := by
  have a : ∀ (l : List K) (m : K), l.foldl min m ≤ m ∧ (∀ y ∈ l, l.foldl min m ≤ y) ∧ (l.foldl min m = m ∨ l.foldl min m ∈ l) := by
    intro l
    induction l with
    | nil => intro m; exact ⟨le_rfl, by simp, Or.inl rfl⟩
    | cons z l ih =>
      intro m
      obtain ⟨i1, i2, i3⟩ := ih (min m z)
      rw [List.foldl_cons]
      refine ⟨le_trans i1 (min_le_left _ _), ?_, ?_⟩
      · intro y hy
        rcases List.mem_cons.1 hy with rfl | hy
        · exact le_trans i1 (min_le_right _ _)
        · exact i2 y hy
      · rcases i3 with i3 | i3
        · rcases min_choice m z with hc | hc
          · left; rw [i3, hc]
          · right; rw [i3, hc]; exact List.mem_cons_self
        · right; exact List.mem_cons_of_mem _ i3
  obtain ⟨a1, a2, a3⟩ := a l m
  refine le_antisymm (a2 lo h.1) ?_
  rcases a3 with a3 | a3
  · rw [a3]; exact hm
  · exact h.2 a3

theorem foldl_max_greatest (l : List K) (m hi : K) (h : IsGreatest {y | y = m ∨ y ∈ l} hi) : l.foldl max m = hi := by
  have a : ∀ (l : List K) (m : K), m ≤ l.foldl max m ∧ (∀ y ∈ l, y ≤ l.foldl max m) ∧ (l.foldl max m = m ∨ l.foldl max m ∈ l) := by
    intro l
    induction l with
    | nil => intro m; exact ⟨le_rfl, by simp, Or.inl rfl⟩
    | cons z l ih =>
      intro m
      obtain ⟨i1, i2, i3⟩ := ih (max m z)
      rw [List.foldl_cons]
      refine ⟨le_trans (le_max_left _ _) i1, ?_, ?_⟩
      · intro y hy
        rcases List.mem_cons.1 hy with rfl | hy
        · exact le_trans (le_max_right _ _) i1
        · exact i2 y hy
      · rcases i3 with i3 | i3
        · rcases max_choice m z with hc | hc
          · left; rw [i3, hc]
          · right; rw [i3, hc]; exact List.mem_cons_self
        · right; exact List.mem_cons_of_mem _ i3
  obtain ⟨a1, a2, a3⟩ := a l m
  refine le_antisymm (h.2 ?_) ?_
  · exact a3
  · rcases h.1 with e | e
    · rw [e]; exact a1
    · exact a2 _ e

/-- The values of total functions. -/
theorem values_total (fs : List (K → K)) (xmin xmax : K) (w : Nat) (hw : 2 ≤ w) :
    values (fs.map total) xmin (xmax - xmin) w = fs.map fun f => (List.range w).map fun xi => some (f (column xmin xmax w xi)) := by
  unfold values
  rw [List.map_map]
  refine List.map_congr_left fun f _ => ?_
  refine List.map_congr_left fun xi _ => ?_
  unfold arg total column
  rw [if_neg (by omega), Option.map_some, Nat.cast_sub (by omega), Nat.cast_one]
  congr 3
  ring

theorem lines_spec (h w : Nat) (hh : 1 ≤ h) (yi0 : Int) : Rect (lines h w yi0) h w ∧
    ∀ r x, r < h → x < w → cell (lines h w yi0) r x = some (if r = 0 ∨ r = h - 1 ∨ (r : Int) = yi0 then 196 else 32) := by
  have base : Rect (((List.replicate h (List.replicate w 32)).set 0 (List.replicate w 196)).set (h - 1) (List.replicate w 196)) h w := by
    refine ⟨by simp, fun row hr => ?_⟩
    rcases List.mem_or_eq_of_mem_set hr with h1 | h1
    · rcases List.mem_or_eq_of_mem_set h1 with h2 | h2
      · rw [List.eq_of_mem_replicate h2]; simp
      · rw [h2]; simp
    · rw [h1]; simp
  have base2 : ∀ r x, r < h → x < w →
      cell (((List.replicate h (List.replicate w 32)).set 0 (List.replicate w 196)).set (h - 1) (List.replicate w 196)) r x =
        some (if r = 0 ∨ r = h - 1 then 196 else 32) := by
    intro r x hr hx
    unfold cell
    by_cases h1 : r = h - 1
    · rw [← h1, List.getElem?_set_self (by simpa using hr)]
      simp [hx]
    · rw [List.getElem?_set_ne (Ne.symm h1)]
      by_cases h2 : r = 0
      · subst h2
        rw [List.getElem?_set_self (by simpa using hr)]
        simp [hx]
      · rw [List.getElem?_set_ne (Ne.symm h2)]
        simp [hx, hr, h1, h2]
  unfold lines
  simp only []
  split
  · next hy =>
    refine ⟨⟨by simpa using base.1, fun row hr => ?_⟩, fun r x hr hx => ?_⟩
    · rcases List.mem_or_eq_of_mem_set hr with h1 | h1
      · exact base.2 _ h1
      · rw [h1]; simp
    · by_cases he : (r : Int) = yi0
      · have : r = yi0.toNat := by omega
        rw [if_pos (Or.inr (Or.inr he))]
        unfold cell
        rw [← this, List.getElem?_set_self (by simpa using hr)]
        simp [hx]
      · have hne : yi0.toNat ≠ r := by omega
        have : cell _ r x = _ := base2 r x hr hx
        unfold cell at this ⊢
        rw [List.getElem?_set_ne hne, this]
        simp [he]
  · next hy =>
    refine ⟨base, fun r x hr hx => ?_⟩
    have he : ¬ (r : Int) = yi0 := by omega
    rw [base2 r x hr hx]
    simp [he]

/-- The picture without the functions: the frame, the axis through zero and the vertical axis. -/
def Spec.background (h : Nat) (zeroRow : Option Nat) (zeroCol : Option Nat) (r x : Nat) : Nat :=
  if zeroCol = some x then (if r = 0 then 194 else if zeroRow = some r then 197 else if r = h - 1 then 193 else 179)
  else if r = 0 ∨ r = h - 1 ∨ zeroRow = some r then 196 else 32

/-- The marks of the functions. -/
def Spec.mark (k : Nat) : Nat := if k % 4 = 0 then 219 else if k % 4 = 1 then 178 else if k % 4 = 2 then 177 else 176

theorem mark_eq (k : Nat) : plotChars.getD (k % 4) 0 = mark k := by
  unfold mark plotChars
  have : k % 4 < 4 := Nat.mod_lt _ (by decide)
  generalize k % 4 = m at *
  rcases m with _ | _ | _ | _ | m
  · rfl
  · rfl
  · rfl
  · rfl
  · omega

theorem range_split (n k : Nat) (hk : k < n) : List.range n = List.range k ++ k :: (List.range (n - k - 1)).map (k + 1 + ·) := by
  have e : n = k + 1 + (n - k - 1) := by omega
  conv_lhs => rw [e]
  rw [List.range_add, List.range_succ, List.append_assoc]
  rfl

/-- **C100 (partial: two columns or more, at least one function, values that differ or are not above zero, and the origin not too far away).** The
picture has the given size. Every value of every function is marked in its column, in the row that is nearest to it, unless a later function is
marked there. Where there is no mark are the frame and the axes. -/
theorem C100_plot_partial (tmax tmin : K) (fs : List (K → K)) (xmin xmax lo hi : K) (w h : Nat) (hw : 2 ≤ w) (hh : 1 ≤ h) (hx : xmin < xmax)
    (hw' : w ≤ 2 ^ 30) (hh' : h ≤ 2 ^ 30)
    (hlo : IsLeast {y | ∃ f ∈ fs, ∃ xi < w, y = f (column xmin xmax w xi)} lo) (hlo' : lo ≤ tmax)
    (hhi : IsGreatest {y | y = tmin ∨ ∃ f ∈ fs, ∃ xi < w, y = f (column xmin xmax w xi)} hi) (hy : lo < hi)
    (yz : Int) (hyz : Nearest h lo hi 0 yz) (hyz' : -2 ^ 30 ≤ yz ∧ yz ≤ 2 ^ 30)
    (xz : Int) (hxz : Nearest w xmin xmax 0 xz) (hxz' : -2 ^ 30 ≤ xz ∧ xz ≤ 2 ^ 30) :
    ∃ g, plot tmax tmin (fs.map total) xmin xmax w h = .ok (.rows g) ∧ Rect g h w ∧
      (∀ k f xi, fs[k]? = some f → xi < w → ∃ r, r < h ∧ Nearest h lo hi (f (column xmin xmax w xi)) ((h : Int) - 1 - r) ∧
        ((∀ k' f', k < k' → fs[k']? = some f' → ¬ Nearest h lo hi (f' (column xmin xmax w xi)) ((h : Int) - 1 - r)) →
          cell g r xi = some (mark k))) ∧
      (∀ r xi, r < h → xi < w → (∀ f ∈ fs, ¬ Nearest h lo hi (f (column xmin xmax w xi)) ((h : Int) - 1 - r)) →
        cell g r xi = some (background h (if 0 ≤ (h : Int) - 1 - yz ∧ (h : Int) - 1 - yz < h then some ((h : Int) - 1 - yz).toNat else none)
          (if xmin ≤ 0 ∧ 0 ≤ xmax then some xz.toNat else none) r xi)) := by
  have hvals := values_total fs xmin xmax w hw
  have hflat : (values (fs.map total) xmin (xmax - xmin) w).flatten =
      ((fs.map fun f => (List.range w).map fun xi => f (column xmin xmax w xi)).flatten).map some := by
    rw [hvals, List.map_flatten, List.map_map]
    congr 1
    refine List.map_congr_left fun f _ => ?_
    simp
  have hmem : ∀ y, y ∈ (fs.map fun f => (List.range w).map fun xi => f (column xmin xmax w xi)).flatten ↔
      ∃ f ∈ fs, ∃ xi < w, y = f (column xmin xmax w xi) := by
    intro y
    simp only [List.mem_flatten, List.mem_map, exists_exists_and_eq_and, List.mem_range]
    constructor
    · rintro ⟨f, hf, xi, hxi, e⟩; exact ⟨f, hf, xi, hxi, e.symm⟩
    · rintro ⟨f, hf, xi, hxi, e⟩; exact ⟨f, hf, xi, hxi, e.symm⟩
  have hmin : (values (fs.map total) xmin (xmax - xmin) w).flatten.foldl lower tmax = lo := by
    rw [hflat, foldl_lower]
    refine foldl_min_least _ _ _ ?_ hlo'
    simpa only [hmem] using hlo
  have hmax : (values (fs.map total) xmin (xmax - xmin) w).flatten.foldl upper tmin = hi := by
    rw [hflat, foldl_upper]
    refine foldl_max_greatest _ _ _ ?_
    simpa only [hmem] using hhi
  have hval : ∀ (k : Nat) (f : K → K) (xi : Nat), fs[k]? = some f → xi < w →
      (((values (fs.map total) xmin (xmax - xmin) w)[k]?).bind (·[xi]?)).getD none = some (f (column xmin xmax w xi)) := by
    intro k f xi hk hxi
    rw [hvals]
    simp [hk, hxi]
  have hrow : ∀ (v : K) (i : Int), lo ≤ v → v ≤ hi → Nearest h lo hi v i → gridY h lo (hi - lo) (some v) = .ok ((h : Int) - 1 - i) := by
    intro v i h1 h2 hn
    have hin := nearest_inside hh hy h1 h2 hn
    unfold gridY
    rw [quantize_spec hh hy hn (by unfold intOk; simp; omega)]
    simp only [Res.bind_ok]
    rw [if_pos (by unfold intOk; simp; omega)]
  have hbnd : ∀ f ∈ fs, ∀ xi < w, lo ≤ f (column xmin xmax w xi) ∧ f (column xmin xmax w xi) ≤ hi :=
    fun f hf xi hxi => ⟨hlo.2 ⟨f, hf, xi, hxi, rfl⟩, hhi.2 (Or.inr ⟨f, hf, xi, hxi, rfl⟩)⟩
  have hyi : gridY h lo (hi - lo) (some 0) = .ok ((h : Int) - 1 - yz) := by
    unfold gridY
    rw [quantize_spec hh hy hyz (by unfold intOk; simp; omega)]
    simp only [Res.bind_ok]
    rw [if_pos (by unfold intOk; simp; omega)]
  have hxi0 : quantize w xmin (xmax - xmin) (some 0) = .ok xz :=
    quantize_spec (by omega) hx hxz (by unfold intOk; simp; omega)
  obtain ⟨lr, lc⟩ := lines_spec h w hh ((h : Int) - 1 - yz)
  -- the axes
  obtain ⟨g1, hg1, hr1, hc1⟩ : ∃ g1, (if xmin ≤ 0 ∧ 0 ≤ xmax then paint (lines h w ((h : Int) - 1 - yz)) (axisMarks h ((h : Int) - 1 - yz) xz)
      else .ok (lines h w ((h : Int) - 1 - yz))) = .ok g1 ∧ Rect g1 h w ∧ ∀ r x, r < h → x < w → cell g1 r x =
        some (background h (if 0 ≤ (h : Int) - 1 - yz ∧ (h : Int) - 1 - yz < h then some ((h : Int) - 1 - yz).toNat else none)
          (if xmin ≤ 0 ∧ 0 ≤ xmax then some xz.toNat else none) r x) := by
    have hz : ∀ r : Nat, r < h → (((if 0 ≤ (h : Int) - 1 - yz ∧ (h : Int) - 1 - yz < h then some ((h : Int) - 1 - yz).toNat else none) = some r) ↔
        (r : Int) = (h : Int) - 1 - yz) := by
      intro r hr
      split
      · next hc => rw [Option.some.injEq]; omega
      · next hc => constructor
                   · intro h; cases h
                   · intro h; omega
    by_cases hax : xmin ≤ 0 ∧ 0 ≤ xmax
    · have hin := nearest_inside (by omega) hx hax.1 hax.2 hxz
      obtain ⟨xc, rfl⟩ := Int.eq_ofNat_of_zero_le hin.1
      have hxc : xc < w := by omega
      have hinside : ∀ e ∈ axisMarks h ((h : Int) - 1 - yz) xc, Inside h w e := by
        intro e he
        unfold axisMarks at he
        obtain ⟨yi, hyi, rfl⟩ := List.mem_map.1 he
        exact ⟨yi, xc, rfl, rfl, List.mem_range.1 hyi, hxc⟩
      obtain ⟨g1, p1, p2, p3, p4⟩ := paint_spec _ _ lr hinside
      refine ⟨g1, by rw [if_pos hax]; exact p1, p2, ?_⟩
      intro r x hr hx'
      unfold background
      rw [if_pos hax, Int.toNat_natCast]
      by_cases hxe : xc = x
      · subst hxe
        rw [if_pos rfl]
        simp only [hz r hr]
        unfold axisMarks at p4
        refine p4 _ _ _ r xc (by rw [range_split h r hr, List.map_append, List.map_cons]) ?_
        intro e he
        rw [List.mem_map] at he
        obtain ⟨yi, hyi, rfl⟩ := he
        rw [List.mem_map] at hyi
        obtain ⟨d, -, rfl⟩ := hyi
        rintro ⟨q, -⟩
        injection q with q
        omega
      · rw [p3 r x, lc r x hr hx', if_neg (show ¬ (some xc = some x) by simpa using hxe)]
        · simp only [hz r hr]
        · intro e he
          unfold axisMarks at he
          obtain ⟨yi, hyi, rfl⟩ := List.mem_map.1 he
          rintro ⟨-, q⟩
          exact hxe (by simpa using q)
    · refine ⟨_, by rw [if_neg hax], lr, ?_⟩
      intro r x hr hx'
      rw [lc r x hr hx']
      unfold background
      rw [if_neg hax, if_neg (show ¬ ((none : Option Nat) = some x) by simp)]
      simp only [hz r hr]
  -- the functions
  have hentry : ∀ k xi, k < fs.length → xi < w → ∃ f, fs[k]? = some f ∧ ∃ r : Nat, r < h ∧
      Nearest h lo hi (f (column xmin xmax w xi)) ((h : Int) - 1 - r) ∧
      gridY h lo (hi - lo) ((((values (fs.map total) xmin (xmax - xmin) w)[k]?).bind (·[xi]?)).getD none) = .ok (r : Int) := by
    intro k xi hk hxi
    have hf : fs[k]? = some fs[k] := List.getElem?_eq_getElem hk
    obtain ⟨b1, b2⟩ := hbnd _ (List.getElem_mem hk) xi hxi
    obtain ⟨i, hi'⟩ := nearest_exists h lo hi (fs[k] (column xmin xmax w xi))
    have hin := nearest_inside hh hy b1 b2 hi'
    refine ⟨_, hf, ((h : Int) - 1 - i).toNat, by omega, ?_, ?_⟩
    · have e : (h : Int) - 1 - (((h : Int) - 1 - i).toNat : Int) = i := by omega
      rw [e]
      exact hi'
    · rw [hval k _ xi hf hxi, hrow _ _ b1 b2 hi']
      congr 1
      omega
  have hinside : ∀ e ∈ fnMarks h w lo (hi - lo) (fun k xi => (((values (fs.map total) xmin (xmax - xmin) w)[k]?).bind (·[xi]?)).getD none)
      fs.length, Inside h w e := by
    intro e he
    unfold fnMarks at he
    rw [List.mem_flatMap] at he
    obtain ⟨k, hk, he⟩ := he
    rw [List.mem_map] at he
    obtain ⟨xi, hxi, rfl⟩ := he
    obtain ⟨f, -, r, hr, -, hg⟩ := hentry k xi (List.mem_range.1 hk) (List.mem_range.1 hxi)
    exact ⟨r, xi, hg, rfl, hr, List.mem_range.1 hxi⟩
  obtain ⟨g2, p1, p2, p3, p4⟩ := paint_spec _ _ hr1 hinside
  have hmiss : ∀ (k xi r x : Nat), k < fs.length → xi < w → r < h →
      (xi = x → ∀ f, fs[k]? = some f → ¬ Nearest h lo hi (f (column xmin xmax w x)) ((h : Int) - 1 - r)) →
      Misses r x (gridY h lo (hi - lo) ((((values (fs.map total) xmin (xmax - xmin) w)[k]?).bind (·[xi]?)).getD none), (xi : Int),
        plotChars.getD (k % 4) 0) := by
    intro k xi r x hk hxi hr hn
    rintro ⟨q1, q2⟩
    have hx' : xi = x := by simpa using q2
    subst hx'
    obtain ⟨f, hf, r', hr', hn', hg⟩ := hentry k xi hk hxi
    have : (Res.ok (r' : Int)) = .ok (r : Int) := hg.symm.trans q1
    injection this with this
    have : r' = r := by omega
    subst this
    exact hn rfl f hf hn'
  refine ⟨g2, ?_, p2, ?_, ?_⟩
  · unfold plot
    rw [if_neg (by omega), if_neg (not_le.2 hx)]
    simp only [Int.toNat_natCast, hmin, hmax, hyi, hxi0, Res.bind_ok, hg1, List.length_map, p1]
  · intro k f xi hk hxi
    have hkl : k < fs.length := by
      by_contra hc
      rw [List.getElem?_eq_none (by omega)] at hk
      cases hk
    obtain ⟨f', hf', r, hr, hn, hg⟩ := hentry k xi hkl hxi
    rw [hk] at hf'
    injection hf' with hf'
    subst hf'
    refine ⟨r, hr, hn, fun hlater => ?_⟩
    rw [← mark_eq]
    refine p4 ((List.range k).flatMap (fun (k : Nat) => (List.range w).map fun (xi : Nat) => (gridY h lo (hi - lo)
        ((((values (fs.map total) xmin (xmax - xmin) w)[k]?).bind (·[xi]?)).getD none), (xi : Int), plotChars.getD (k % 4) 0)) ++
        (List.range xi).map fun (xi : Nat) => (gridY h lo (hi - lo)
        ((((values (fs.map total) xmin (xmax - xmin) w)[k]?).bind (·[xi]?)).getD none), (xi : Int), plotChars.getD (k % 4) 0))
      (((List.range (w - xi - 1)).map (xi + 1 + ·)).map (fun (xi : Nat) => (gridY h lo (hi - lo)
        ((((values (fs.map total) xmin (xmax - xmin) w)[k]?).bind (·[xi]?)).getD none), (xi : Int), plotChars.getD (k % 4) 0)) ++
        ((List.range (fs.length - k - 1)).map (k + 1 + ·)).flatMap fun (k : Nat) => (List.range w).map fun (xi : Nat) => (gridY h lo (hi - lo)
        ((((values (fs.map total) xmin (xmax - xmin) w)[k]?).bind (·[xi]?)).getD none), (xi : Int), plotChars.getD (k % 4) 0))
      _ r xi ?_ ?_
    · unfold fnMarks
      conv_lhs => rw [range_split fs.length k hkl, List.flatMap_append, List.flatMap_cons]
      conv_lhs =>
        enter [2, 1]
        rw [range_split w xi hxi, List.map_append, List.map_cons, hg]
      simp only [List.append_assoc, List.cons_append]
    · intro e he
      rw [List.mem_append] at he
      rcases he with he | he
      · rw [List.mem_map] at he
        obtain ⟨xj, hxj, rfl⟩ := he
        rw [List.mem_map] at hxj
        obtain ⟨d, hd, rfl⟩ := hxj
        have := List.mem_range.1 hd
        exact hmiss k _ r xi hkl (by omega) hr (fun e => by omega)
      · rw [List.mem_flatMap] at he
        obtain ⟨k', hk', he⟩ := he
        rw [List.mem_map] at hk' he
        obtain ⟨d, hd, rfl⟩ := hk'
        obtain ⟨xj, hxj, rfl⟩ := he
        have := List.mem_range.1 hd
        exact hmiss _ xj r xi (by omega) (List.mem_range.1 hxj) hr (fun e f' hf' => hlater _ f' (by omega) hf')
  · intro r xi hr hxi hno
    rw [p3 r xi, hc1 r xi hr hxi]
    intro e he
    unfold fnMarks at he
    rw [List.mem_flatMap] at he
    obtain ⟨k, hk, he⟩ := he
    rw [List.mem_map] at he
    obtain ⟨xj, hxj, rfl⟩ := he
    refine hmiss k xj r xi (List.mem_range.1 hk) (List.mem_range.1 hxj) hr (fun _ f hf => hno f ?_)
    exact List.mem_of_getElem? hf

/-- **C100.** A size below one or an empty interval is refused with a message. -/
theorem C100_refused (tmax tmin : K) (fns : List (Option K → Option K)) (xmin xmax : K) (w h : Int) :
    ((w < 1 ∨ h < 1) → plot tmax tmin fns xmin xmax w h = .ok (.message "width and height must be > 1")) ∧
    (1 ≤ w → 1 ≤ h → xmax ≤ xmin → plot tmax tmin fns xmin xmax w h = .ok (.message "x_min must be smaller than x_max")) := by
  unfold plot
  constructor
  · intro hc; rw [if_pos hc]
  · intro h1 h2 h3; rw [if_neg (by omega), if_pos h3]

/-- **C100 is violated** for functions that take one and the same value, above zero, in all columns: the behaviour is undefined. -/
theorem C100_constant_violated (tmax tmin c : K) (f : K → K) (fs : List (K → K)) (xmin xmax : K) (w h : Nat) (hw : 2 ≤ w) (hh : 1 ≤ h)
    (hx : xmin < xmax) (hc : tmin ≤ c) (hc' : c ≤ tmax) (hf : ∀ g ∈ f :: fs, ∀ x, g x = c) :
    plot tmax tmin ((f :: fs).map total) xmin xmax w h = .ub := by
  have hmem : ∀ y, y ∈ ((f :: fs).map fun f => (List.range w).map fun xi => f (column xmin xmax w xi)).flatten ↔ y = c := by
    intro y
    simp only [List.mem_flatten, List.mem_map, exists_exists_and_eq_and, List.mem_range]
    constructor
    · rintro ⟨g, hg, xi, hxi, e⟩; rw [← e, hf g hg]
    · rintro rfl; exact ⟨f, List.mem_cons_self, 0, by omega, hf f List.mem_cons_self _⟩
  have hflat : (values ((f :: fs).map total) xmin (xmax - xmin) w).flatten =
      (((f :: fs).map fun f => (List.range w).map fun xi => f (column xmin xmax w xi)).flatten).map some := by
    rw [values_total (f :: fs) xmin xmax w hw, List.map_flatten, List.map_map]
    congr 1
    refine List.map_congr_left fun f _ => ?_
    simp
  have hmin : (values ((f :: fs).map total) xmin (xmax - xmin) w).flatten.foldl lower tmax = c := by
    rw [hflat, foldl_lower]
    refine foldl_min_least _ _ _ ⟨(hmem c).2 rfl, fun y hy => ((hmem y).1 hy).ge⟩ hc'
  have hmax : (values ((f :: fs).map total) xmin (xmax - xmin) w).flatten.foldl upper tmin = c := by
    rw [hflat, foldl_upper]
    refine foldl_max_greatest _ _ _ ⟨Or.inr ((hmem c).2 rfl), ?_⟩
    rintro y (rfl | hy)
    · exact hc
    · exact ((hmem y).1 hy).le
  unfold plot
  rw [if_neg (by omega), if_neg (not_le.2 hx)]
  simp only [Int.toNat_natCast, hmin, hmax]
  unfold gridY quantize
  simp

/-- **C100 is violated** for one column: the functions are asked about NaN, and if one of them answers NaN nothing is shown: the behaviour is
undefined. -/
theorem C100_one_column_violated (tmax tmin : K) (f : Option K → Option K) (fs : List (Option K → Option K)) (xmin xmax : K) (h : Nat)
    (hn : f none = none) (hh : 1 ≤ h) (hx : xmin < xmax) : plot tmax tmin (f :: fs) xmin xmax 1 h = .ub := by
  unfold plot
  rw [if_neg (by omega), if_neg (not_le.2 hx)]
  simp only [Int.toNat_natCast, Int.toNat_one]
  generalize (values (f :: fs) xmin (xmax - xmin) 1).flatten.foldl lower tmax = lo
  generalize (values (f :: fs) xmin (xmax - xmin) 1).flatten.foldl upper tmin = hi
  have hm : ∀ g, paint g (fnMarks h 1 lo (hi - lo) (fun k xi => (((values (f :: fs) xmin (xmax - xmin) 1)[k]?).bind (·[xi]?)).getD none)
      (f :: fs).length) = .ub := by
    intro g
    unfold fnMarks
    rw [List.length_cons, range_split (fs.length + 1) 0 (by omega)]
    have e : (((values (f :: fs) xmin (xmax - xmin) 1)[0]?).bind (·[0]?)).getD none = (none : Option K) := by
      simp [values, arg, hn]
    simp [paint, gridY, quantize, values, arg, hn]
  simp only [hm, Res.bind_ub]
  have n1 : ∀ {α : Type} (g : List (List Nat)) (L : List (Res Int × Int × Nat)) , (∀ e ∈ L, ∃ i, e.1 = .ok i) → paint g L ≠ .err := by
    intro _ g L
    induction L generalizing g with
    | nil => intro _ h; cases h
    | cons e L ih =>
      intro hL h
      obtain ⟨i, j, c⟩ := e
      obtain ⟨i', hi'⟩ := hL _ List.mem_cons_self
      simp only at hi'
      subst hi'
      simp only [paint, Res.bind_ok] at h
      cases hs : setCell g i' j c with
      | err => unfold setCell at hs; split at hs
               · split at hs
                 · split at hs <;> cases hs
                 · cases hs
               · cases hs
      | ub => rw [hs] at h; cases h
      | ok g' => rw [hs] at h; exact ih g' (fun e he => hL e (List.mem_cons_of_mem _ he)) h
  have n2 : ∀ (n : Nat) (lo sp : K) v, quantize n lo sp v ≠ .err := by
    intro n lo sp v h
    unfold quantize at h
    split at h
    · cases h
    · split at h
      · cases h
      · simp only [] at h
        split at h <;> cases h
  have n3 : gridY h lo (hi - lo) (some 0) ≠ .err := by
    intro hc
    unfold gridY at hc
    cases hq : quantize h lo (hi - lo) (some 0) with
    | err => exact n2 _ _ _ _ hq
    | ub => rw [hq] at hc; cases hc
    | ok i => rw [hq] at hc; simp only [Res.bind_ok] at hc; split at hc <;> cases hc
  cases hy : gridY h lo (hi - lo) (some 0) with
  | err => exact absurd hy n3
  | ub => rfl
  | ok y =>
    cases hq : quantize 1 xmin (xmax - xmin) (some 0) with
    | err => exact absurd hq (n2 _ _ _ _)
    | ub => rfl
    | ok x =>
      simp only [Res.bind_ok]
      split
      · have := n1 (α := Nat) (lines h 1 y) (axisMarks h y x) (by
          intro e he
          unfold axisMarks at he
          obtain ⟨yi, -, rfl⟩ := List.mem_map.1 he
          exact ⟨_, rfl⟩)
        cases hp : paint (lines h 1 y) (axisMarks h y x) with
        | err => exact absurd hp this
        | ub => rfl
        | ok g => rfl
      · rfl
end

/-- **C100 is violated** far from the origin: the column of zero is computed although it is not shown, and does not fit in an `int`. -/
theorem C100_far_violated : plot (10 ^ 300 : ℚ) (1 / 10 ^ 300) [total fun x => x] (10 ^ 10) (10 ^ 10 + 1) 80 24 = .ub := by
  decide +kernel

/-! ### An example: two functions, 5 columns and 5 rows -/

example : plot (10 ^ 300 : ℚ) (1 / 10 ^ 300) [total fun x => x, total fun x => - x] (-2) 2 5 5 = .ok (.rows
    [[178, 196, 194, 196, 219], [32, 178, 179, 219, 32], [196, 196, 178, 196, 196], [32, 219, 179, 178, 32], [219, 196, 193, 196, 178]]) := by
  decide +kernel

example : plot (10 ^ 300 : ℚ) (1 / 10 ^ 300) [total fun _ => 3] (-2) 2 5 5 = .ub := by decide +kernel

/-- The conditions of `C100_plot_partial` can be met. -/
example : ∃ g, plot (10 ^ 20 : ℚ) (1 / 10 ^ 20) ([fun x : ℚ => x].map total) (-2) 2 (5 : Nat) (5 : Nat) = .ok (.rows g) ∧ Rect g 5 5 := by
  have hcol : ∀ xi : Nat, column (-2 : ℚ) 2 5 xi = -2 + xi := by intro xi; unfold column; push_cast; ring
  have h1 : IsLeast {y : ℚ | ∃ f ∈ [fun x : ℚ => x], ∃ xi < 5, y = f (column (-2) 2 5 xi)} (-2) := by
    refine ⟨⟨_, List.mem_singleton.2 rfl, 0, by norm_num, by simp [hcol]⟩, ?_⟩
    rintro y ⟨f, hf, xi, -, rfl⟩
    rw [List.mem_singleton.1 hf, hcol]
    have : (0 : ℚ) ≤ xi := Nat.cast_nonneg _
    linarith
  have h2 : IsGreatest {y : ℚ | y = 1 / 10 ^ 20 ∨ ∃ f ∈ [fun x : ℚ => x], ∃ xi < 5, y = f (column (-2) 2 5 xi)} 2 := by
    refine ⟨Or.inr ⟨_, List.mem_singleton.2 rfl, 4, by norm_num, by simp [hcol]; norm_num⟩, ?_⟩
    rintro y (rfl | ⟨f, hf, xi, hxi, rfl⟩)
    · norm_num
    · rw [List.mem_singleton.1 hf, hcol]
      have : (xi : ℚ) ≤ 4 := by exact_mod_cast Nat.le_of_lt_succ hxi
      linarith
  obtain ⟨g, e, r, -⟩ := C100_plot_partial (10 ^ 20 : ℚ) (1 / 10 ^ 20) [fun x => x] (-2) 2 (-2) 2 5 5 (by norm_num) (by norm_num)
    (by norm_num) (by norm_num) (by norm_num) h1 (by norm_num) h2 (by norm_num) 2 (by unfold Nearest; norm_num) (by norm_num)
    2 (by unfold Nearest; norm_num) (by norm_num)
  exact ⟨g, e, r⟩

end Xo.Plot
