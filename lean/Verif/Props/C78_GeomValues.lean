import Verif.Props.C77_PnValues
import Verif.Props.C25_Split
import Verif.Props.C58_Bounds
import Verif.Lemmas.NumTail

/-!
C78: vectors, rotations, scales, transforms, shapes and intervals stored in a property node are read back as they were
written, and all documented notations of a vector mean the same vector.
-/
namespace Xo
open Conv PropNode Geom Spec

theorem getKey_some {α : Type} {c : Conv α} {n m : PropNode} {k : Str} (h : n.tryGetChild k = some m) :
    getKey c n k = Conv.get c m := by
  simp [getKey, getChild, h, Res.ofOptionErr]

theorem getKey_none {α : Type} {c : Conv α} {n : PropNode} {k : Str} (h : n.tryGetChild k = none) :
    getKey c n k = .err := by
  simp [getKey, getChild, h, Res.ofOptionErr]

theorem get_text {α : Type} (t : Text α) (v : Str) (ks : Kids) (a : Bool) :
    Conv.get t.conv (.mk v ks a) = Res.ofOptionErr (t.fromS v) := by
  unfold Conv.get Text.conv
  cases h : t.fromS v <;> simp [h, Res.ofOptionErr]

theorem get_leaf {α : Type} (t : Text α) (v : Str) : Conv.get t.conv (.leaf v) = Res.ofOptionErr (t.fromS v) := get_text t v [] false

theorem survives_text {α : Type} (t : Text α) (v : α) : Survives t.conv v ↔ t.fromS (t.toS v) = some v := by
  unfold Survives
  have : t.conv.enc v = .mk (t.toS v) [] false := rfl
  rw [this, get_text]
  cases t.fromS (t.toS v) <;> simp [Res.ofOptionErr]

/-! ## Vectors -/

theorem vec3_enc {α : Type} (t : Text α) (v : Vec3 α) : (vec3C t).enc v =
    .mk [] [("x".toList, .leaf (t.toS v.x)), ("y".toList, .leaf (t.toS v.y)), ("z".toList, .leaf (t.toS v.z))] false := rfl

/-- Three children with the keys `x`, `y`, `z`, in any order. -/
theorem vec3_group {α : Type} (t : Text α) (n a b c : PropNode)
    (h : n.kids.Perm [("x".toList, a), ("y".toList, b), ("z".toList, c)]) :
    (vec3C t).dec n = ((do
      let x ← Conv.get t.conv a
      let y ← Conv.get t.conv b
      let z ← Conv.get t.conv c
      pure ⟨x, y, z⟩ : Res (Vec3 α))).map some := by
  have hnd : (keys n.kids).Nodup := by
    have : (keys n.kids).Perm ["x".toList, "y".toList, "z".toList] := h.map Prod.fst
    rw [this.nodup_iff]; decide
  have hfind : ∀ k m, (k, m) ∈ n.kids → n.tryGetChild k = some m := by
    intro k m hm
    unfold tryGetChild
    obtain ⟨as, bs, e⟩ := List.append_of_mem hm
    rw [e, findKid_append_hit]
    intro hk
    rw [e] at hnd
    simp only [keys, List.map_append, List.map_cons] at hnd hk
    exact (List.nodup_append.1 hnd).2.2 _ hk _ (by simp) rfl
  have h3 : n.kids.length = 3 := h.length_eq
  have hx := hfind _ _ (h.mem_iff.2 (show ("x".toList, a) ∈ _ by simp))
  have hy := hfind _ _ (h.mem_iff.2 (show ("y".toList, b) ∈ _ by simp))
  have hz := hfind _ _ (h.mem_iff.2 (show ("z".toList, c) ∈ _ by simp))
  have harr : n.isArray = false := by
    unfold isArray
    rw [List.all_eq_false]
    refine ⟨_, h.mem_iff.2 (show ("x".toList, a) ∈ _ by simp), ?_⟩
    show ¬ "x".toList.isEmpty = true
    decide
  show (if n.kids.length = 3 then (decXyz t.conv n).map some else _) = _
  rw [if_pos h3]
  unfold decXyz
  rw [harr]
  simp only [Bool.false_eq_true, if_false, getKey_some hx, getKey_some hy, getKey_some hz]

theorem vec3_array {α : Type} (t : Text α) (v : Str) (f : Bool) (a b c : PropNode) :
    (vec3C t).dec (.mk v [([], a), ([], b), ([], c)] f) = ((do
      let x ← Conv.get t.conv a
      let y ← Conv.get t.conv b
      let z ← Conv.get t.conv c
      pure ⟨x, y, z⟩ : Res (Vec3 α))).map some := rfl

theorem ofOptionErr_ok {α : Type} {o : Option α} {v : α} : Res.ofOptionErr o = .ok v ↔ o = some v := by
  cases o <;> simp [Res.ofOptionErr]

/-- A vector survives exactly if its three components do. -/
theorem C78_vec3 {α : Type} (t : Text α) (v : Vec3 α) :
    Survives (vec3C t) v ↔ Survives t.conv v.x ∧ Survives t.conv v.y ∧ Survives t.conv v.z := by
  rw [Survives, get_ok_iff, vec3_enc, vec3_group t _ (.leaf (t.toS v.x)) (.leaf (t.toS v.y)) (.leaf (t.toS v.z)) (List.Perm.refl _)]
  simp only [survives_text]
  unfold leaf
  simp only [get_text]
  obtain ⟨x, y, z⟩ := v
  simp only
  cases t.fromS (t.toS x) <;> cases t.fromS (t.toS y) <;> cases t.fromS (t.toS z) <;>
    simp [Res.ofOptionErr, Res.map]

/-- The three notations of a vector: a list of values, a group with the keys `x`, `y` and `z` in any order, and a text of three
numbers with blanks and tabs around them. All mean the vector of the three values. -/
theorem C78_vec3_notations {α : Type} (t : Text α) (p q r : Str) (x y z : α) (hp : t.fromS p = some x)
    (hq : t.fromS q = some y) (hr : t.fromS r = some z) :
    (∀ v f, Conv.get (vec3C t) (.mk v [([], .leaf p), ([], .leaf q), ([], .leaf r)] f) = .ok ⟨x, y, z⟩) ∧
    (∀ n : PropNode, n.kids.Perm [("x".toList, .leaf p), ("y".toList, .leaf q), ("z".toList, .leaf r)] →
      Conv.get (vec3C t) n = .ok ⟨x, y, z⟩) ∧
    ∀ s f, Splits " \t".toList s [p, q, r] → Conv.get (vec3C t) (.mk s [] f) = .ok ⟨x, y, z⟩ := by
  have hread : ((do
      let x ← Conv.get t.conv (.leaf p)
      let y ← Conv.get t.conv (.leaf q)
      let z ← Conv.get t.conv (.leaf r)
      pure ⟨x, y, z⟩ : Res (Vec3 α))).map some = .ok (some ⟨x, y, z⟩) := by
    unfold leaf
    simp [get_text, hp, hq, hr, Res.ofOptionErr, Res.map]
  refine ⟨?_, ?_, ?_⟩
  · intro v f
    rw [get_ok_iff, vec3_array, hread]
  · intro n h
    rw [get_ok_iff, vec3_group t n _ _ _ h, hread]
  · intro s f hs
    have hsplit : splitStr s " \t".toList = [p, q, r] := by
      apply C25_split_unique
      rwa [C25_separators _ (by decide)]
    have hne : s ≠ [] := by
      intro e
      cases hs with
      | piece g p' rest ps hg hpne hpp hr' h =>
        have := congrArg List.length e
        simp at this
        exact hpne this.2.1
    rw [get_ok_iff]
    show (if ([] : Kids).length = 3 then (decXyz t.conv (.mk s [] f)).map some
      else if ([] : Kids).length = 0 ∧ PropNode.hasValue (.mk s [] f) then Res.ok (vec3FromText t s) else Res.ok none) = _
    rw [if_neg (by simp), if_pos ⟨rfl, by simp [hasValue, hne]⟩]
    unfold vec3FromText
    rw [hsplit]
    simp only [hp, hq, hr]
    rfl

example : Conv.get (vec3C intT) (.leaf " 1\t22 -3".toList) = .ok ⟨1, 22, -3⟩ := by decide +kernel

/-- Everything else is refused: other numbers of children or of words are no vector, a group without one of the keys throws. -/
theorem C78_vec3_refused {α : Type} (t : Text α) (n : PropNode) :
    (n.kids.length ≠ 3 → n.kids.length ≠ 0 → (vec3C t).dec n = .ok none) ∧
    (n.kids = [] → (splitStr n.value " \t".toList).length ≠ 3 → (vec3C t).dec n = .ok none) ∧
    (n.kids.length = 3 → n.isArray = false → (n.hasKey "x".toList && n.hasKey "y".toList && n.hasKey "z".toList) = false →
      ∀ v, Conv.get (vec3C t) n ≠ .ok v) := by
  refine ⟨?_, ?_, ?_⟩
  · intro h1 h2
    show (if n.kids.length = 3 then _ else if n.kids.length = 0 ∧ n.hasValue then _ else Res.ok none) = _
    rw [if_neg h1, if_neg (by simp [h2])]
  · intro h1 h2
    show (if n.kids.length = 3 then _ else if n.kids.length = 0 ∧ n.hasValue then Res.ok (vec3FromText t n.value)
      else Res.ok none) = _
    rw [h1, if_neg (by simp)]
    split
    · unfold vec3FromText
      split
      · rename_i h; rw [h] at h2; simp at h2
      · rfl
    · rfl
  · intro h1 h2 h3 v
    rw [Ne, get_ok_iff]
    show ¬ (if n.kids.length = 3 then (decXyz t.conv n).map some else _) = _
    rw [if_pos h1]
    unfold decXyz
    rw [h2]
    simp only [Bool.false_eq_true, if_false]
    unfold hasKey at h3
    cases hx : n.tryGetChild "x".toList with
    | none => rw [getKey_none hx]; simp [Res.map]
    | some a =>
      cases hy : n.tryGetChild "y".toList with
      | none =>
        rw [getKey_none hy]
        cases getKey t.conv n "x".toList <;> simp [Res.map]
      | some b =>
        have hz : n.tryGetChild "z".toList = none := by
          cases hz : n.tryGetChild "z".toList with
          | none => rfl
          | some c => simp only [hx, hy, hz, Option.isSome] at h3; cases h3
        rw [getKey_none hz]
        cases getKey t.conv n "x".toList <;> cases getKey t.conv n "y".toList <;> simp [Res.map]

/-! ## Rotations -/

theorem quat_enc {α : Type} (t : Text α) (ot : Text Order) (eu : Vec3 α → Order → Quat α) (q : Quat α) :
    (quatC t ot eu).enc q = .mk [] [("w".toList, .leaf (t.toS q.w)), ("x".toList, .leaf (t.toS q.x)),
      ("y".toList, .leaf (t.toS q.y)), ("z".toList, .leaf (t.toS q.z))] false := rfl

/-- A quaternion survives exactly if its four components do. -/
theorem C78_quat {α : Type} (t : Text α) (ot : Text Order) (eu : Vec3 α → Order → Quat α) (q : Quat α) :
    Survives (quatC t ot eu) q ↔
      Survives t.conv q.w ∧ Survives t.conv q.x ∧ Survives t.conv q.y ∧ Survives t.conv q.z := by
  rw [Survives, get_ok_iff]
  have hdec : (quatC t ot eu).dec ((quatC t ot eu).enc q) = (do
      let w ← Conv.get t.conv (.leaf (t.toS q.w))
      let x ← Conv.get t.conv (.leaf (t.toS q.x))
      let y ← Conv.get t.conv (.leaf (t.toS q.y))
      let z ← Conv.get t.conv (.leaf (t.toS q.z))
      pure (some ⟨w, x, y, z⟩)) := rfl
  rw [hdec]
  simp only [survives_text]
  unfold leaf
  simp only [get_text]
  obtain ⟨w, x, y, z⟩ := q
  simp only
  cases t.fromS (t.toS w) <;> cases t.fromS (t.toS x) <;> cases t.fromS (t.toS y) <;> cases t.fromS (t.toS z) <;>
    simp [Res.ofOptionErr]

/-- A node that is read as Euler angles has no key `order`. -/
theorem euler_no_order {α : Type} (t : Text α) (n : PropNode) (v : Vec3 α) (h : (vec3C t).dec n = .ok (some v)) :
    n.tryGetChild "order".toList = none := by
  replace h : (if n.kids.length = 3 then (decXyz t.conv n).map some
    else if n.kids.length = 0 ∧ n.hasValue then Res.ok (vec3FromText t n.value) else .ok none) = .ok (some v) := h
  by_cases h3 : n.kids.length = 3
  · rw [if_pos h3] at h
    unfold decXyz at h
    by_cases ha : n.isArray
    · unfold tryGetChild
      rw [findKid_none_iff]
      intro hm
      obtain ⟨p, hp, e⟩ := List.mem_map.1 hm
      have := List.all_eq_true.1 ha p hp
      rw [e] at this
      revert this; decide
    · rw [if_neg ha] at h
      have hk : ∀ k, n.tryGetChild k = none → k ∉ keys n.kids := fun k hk => findKid_none_iff.1 hk
      have hin : ∀ k, n.tryGetChild k ≠ none → k ∈ keys n.kids := by
        intro k hk
        by_contra hc
        exact hk (findKid_none_iff.2 hc)
      have hx : n.tryGetChild "x".toList ≠ none := by
        intro e; rw [getKey_none e] at h; cases h
      have hy : n.tryGetChild "y".toList ≠ none := by
        intro e; rw [getKey_none e] at h
        cases hg : getKey t.conv n "x".toList <;> rw [hg] at h <;> cases h
      have hz : n.tryGetChild "z".toList ≠ none := by
        intro e; rw [getKey_none e] at h
        cases hg : getKey t.conv n "x".toList <;> rw [hg] at h <;> try cases h
        cases hg' : getKey t.conv n "y".toList <;> rw [hg'] at h <;> cases h
      by_contra ho
      have hsub : ["x".toList, "y".toList, "z".toList, "order".toList] ⊆ keys n.kids := by
        intro k hk
        simp only [List.mem_cons, List.not_mem_nil, or_false] at hk
        rcases hk with rfl | rfl | rfl | rfl
        exacts [hin _ hx, hin _ hy, hin _ hz, hin _ ho]
      have hnd : ["x".toList, "y".toList, "z".toList, "order".toList].Nodup := by decide
      have := (List.subperm_of_subset hnd hsub).length_le
      simp [keys, h3] at this
  · rw [if_neg h3] at h
    split at h
    · rename_i h0
      have : n.kids = [] := List.length_eq_zero_iff.1 h0.1
      unfold tryGetChild
      rw [this]
      rfl
    · cases h

/-- Euler angles in degrees: the three notations of a vector are read as angles about x, y and z, in this order. What is missing:
another order can never be read (`C78_euler_order_violated`). -/
theorem C78_euler_partial {α : Type} (t : Text α) (ot : Text Order) (eu : Vec3 α → Order → Quat α) (n : PropNode) (v : Vec3 α)
    (h4 : n.hasKey "w".toList = false) (h : Conv.get (vec3C t) n = .ok v) :
    Conv.get (quatC t ot eu) n = .ok (eu v .xyz) := by
  rw [get_ok_iff] at h ⊢
  show (if n.kids.length = 4 ∧ n.hasKey "w".toList then _ else _) = _
  rw [if_neg (by rw [h4]; simp), h]
  simp only [Res.bind_ok, getDef, euler_no_order t n v h]
  rfl

example : Conv.get (vec3C intT) (.mk [] [([], .leaf "10".toList), ([], .leaf "20".toList), ([], .leaf "30".toList)] false) =
    .ok ⟨10, 20, 30⟩ := by decide +kernel

/-- Whatever a node says about the order of the rotations, it is not used: when angles are read the order is `xyz`, and a
node with the keys `x`, `y`, `z` and `order` is refused. -/
theorem C78_euler_order_violated {α : Type} (t : Text α) (ot : Text Order) (eu : Vec3 α → Order → Quat α) :
    (∀ n q, Conv.get (quatC t ot eu) n = .ok q → n.hasKey "w".toList = false →
      ∃ v, Conv.get (vec3C t) n = .ok v ∧ q = eu v .xyz) ∧
    ∀ v f a b c o, Conv.get (quatC t ot eu) (.mk v [("x".toList, a), ("y".toList, b), ("z".toList, c), ("order".toList, o)] f) =
      .err := by
  refine ⟨?_, ?_⟩
  · intro n q h hw
    rw [get_ok_iff] at h
    replace h : (if n.kids.length = 4 ∧ n.hasKey "w".toList then _ else _) = _ := h
    rw [if_neg (by rw [hw]; simp)] at h
    cases hd : (vec3C t).dec n with
    | ok o =>
      rw [hd] at h
      cases o with
      | none => cases h
      | some v =>
        simp only [Res.bind_ok, getDef, euler_no_order t n v hd, Res.pure_eq, Res.ok.injEq, Option.some.injEq] at h
        exact ⟨v, get_ok_iff.2 hd, h.symm⟩
    | err => rw [hd] at h; cases h
    | ub => rw [hd] at h; cases h
  · intro v f a b c o
    rfl

/-! ## Scales -/

theorem scale_text {α : Type} (t : Text α) (p : Str) (f : Bool) (hne : p ≠ []) :
    (scale3C t).dec (.mk p [] f) = match t.fromS p with
      | some v => .ok (some ⟨v, v, v⟩)
      | none => .ok none := by
  show (if ([] : Kids).length = 3 then (decXyz t.conv (.mk p [] f)).map some
    else if ([] : Kids).length = 0 ∧ PropNode.hasValue (.mk p [] f) then (do
      match ← tryGet t.conv (.mk p [] f) with
      | some v => pure (some (⟨v, v, v⟩ : Vec3 α))
      | none => pure none)
    else Res.ok none) = _
  rw [if_neg (by simp), if_pos ⟨rfl, by simp [hasValue, hne]⟩]
  show (do
      match ← Res.ok (t.fromS p) with
      | some v => pure (some (⟨v, v, v⟩ : Vec3 α))
      | none => pure none) = _
  cases t.fromS p <;> rfl

/-- A scale is read from a single number (the same in all directions) and from the notations of a vector with children. -/
theorem C78_scale_partial {α : Type} (t : Text α) (p q r : Str) (x y z : α) (hp : t.fromS p = some x)
    (hq : t.fromS q = some y) (hr : t.fromS r = some z) :
    (∀ f, p ≠ [] → Conv.get (scale3C t) (.mk p [] f) = .ok ⟨x, x, x⟩) ∧
    (∀ v f, Conv.get (scale3C t) (.mk v [([], .leaf p), ([], .leaf q), ([], .leaf r)] f) = .ok ⟨x, y, z⟩) ∧
    ∀ v f, Conv.get (scale3C t) (.mk v [("x".toList, .leaf p), ("y".toList, .leaf q), ("z".toList, .leaf r)] f) =
      .ok ⟨x, y, z⟩ := by
  obtain ⟨h1, h2, _⟩ := C78_vec3_notations t p q r x y z hp hq hr
  refine ⟨?_, fun v f => ?_, fun v f => ?_⟩
  · intro f hne
    rw [get_ok_iff]
    rw [scale_text t p f hne, hp]
  · exact h1 v f
  · exact h2 _ (List.Perm.refl _)

/-- A number is read up to the first blank. -/
def StopsAtBlank {α : Type} (t : Text α) (v : α) : Prop := ∀ s, t.fromS (t.toS v ++ ' ' :: s) = t.fromS (t.toS v)

theorem fl_stops (f : Num.Fmt) (v : Num.Fl) (hv : ∀ neg x, v = .fin neg x → 0 ≤ x) : StopsAtBlank (flT f) v :=
  fun s => Num.strtod_toStr_tail f v hv (Num.stop_blank s)

/-- A scale that is stored is read back with the same factor in all directions, the one for x: only uniform scales survive,
and nothing is reported. -/
theorem C78_scale_violated {α : Type} (t : Text α) (v : Vec3 α) (hs : StopsAtBlank t v.x) (hx : Survives t.conv v.x) :
    Conv.get (scale3C t) ((scale3C t).enc v) = .ok ⟨v.x, v.x, v.x⟩ ∧
    (Survives (scale3C t) v ↔ v.x = v.y ∧ v.x = v.z) := by
  have h : Conv.get (scale3C t) ((scale3C t).enc v) = .ok ⟨v.x, v.x, v.x⟩ := by
    rw [get_ok_iff]
    have hne : vec3ToS t v ≠ [] := by unfold vec3ToS; simp
    have : t.fromS (vec3ToS t v) = some v.x := by
      unfold vec3ToS
      rw [hs, (survives_text t v.x).1 hx]
    rw [show (scale3C t).enc v = .mk (vec3ToS t v) [] false from rfl, scale_text t _ _ hne, this]
  refine ⟨h, ?_⟩
  unfold Survives
  rw [h]
  obtain ⟨x, y, z⟩ := v
  simp

example : Conv.get (scale3C intT) ((scale3C intT).enc ⟨1, 2, 3⟩) = .ok ⟨1, 1, 1⟩ := by decide +kernel

example : StopsAtBlank (flT Num.binary32) (.fin false 1) ∧ Survives (flT Num.binary32).conv (.fin false 1) :=
  ⟨fl_stops _ _ (by rintro neg x h; cases h; norm_num), by
    rw [survives_text]; decide +kernel⟩

/-! ## Transforms -/

/-- A transform is read from a position and a rotation. -/
theorem C78_transform {α : Type} (cv : Conv (Vec3 α)) (cq : Conv (Quat α)) (n a b : PropNode) (p : Vec3 α) (q : Quat α)
    (h1 : n.tryGetChild "p".toList = some a) (h2 : n.tryGetChild "q".toList = some b)
    (h3 : Conv.get cv a = .ok p) (h4 : Conv.get cq b = .ok q) : decTransform cv cq n = .ok (some (p, q)) := by
  rw [get_ok_iff] at h3 h4
  simp only [decTransform, getChild, h1, h2, Res.ofOptionErr, h3, h4, Res.bind_ok, Res.pure_eq]

/-- Both parts must be there. -/
theorem C78_transform_missing {α : Type} (cv : Conv (Vec3 α)) (cq : Conv (Quat α)) (n : PropNode)
    (h : n.hasKey "p".toList = false ∨ n.hasKey "q".toList = false) (r : Vec3 α × Quat α) :
    decTransform cv cq n ≠ .ok (some r) := by
  have conv : ∀ {k}, n.hasKey k = false → n.tryGetChild k = none := by
    intro q h
    unfold hasKey at h
    cases hc : n.tryGetChild q with
    | none => rfl
    | some m => rw [hc] at h; cases h
  rcases h with h | h
  · simp only [decTransform, getChild, conv h, Res.ofOptionErr, Res.bind_err]
    exact fun e => by cases e
  · intro e
    unfold decTransform at e
    rw [getChild, getChild, conv h] at e
    cases hp : n.tryGetChild "p".toList with
    | none => rw [hp] at e; cases e
    | some a =>
      rw [hp] at e
      simp only [Res.ofOptionErr, Res.bind_ok] at e
      cases hd : cv.dec a with
      | ok o => rw [hd] at e; cases o <;> cases e
      | err => rw [hd] at e; cases e
      | ub => rw [hd] at e; cases e

/-! ## Shapes -/

/-- The conditions under which a shape survives: its numbers do; of a box, the full dimensions do, and halving them gives the
half dimensions back. -/
def Spec.ShapeOk {α : Type} (s : Scal α) : Shape α → Prop
  | .sphere r => Survives s.conv r
  | .box h => Survives (vec3C s.toText) ⟨s.two h.x, s.two h.y, s.two h.z⟩ ∧ s.half (s.two h.x) = h.x ∧
      s.half (s.two h.y) = h.y ∧ s.half (s.two h.z) = h.z
  | .cylinder r h => Survives s.conv r ∧ Survives s.conv h
  | .capsule r h => Survives s.conv r ∧ Survives s.conv h
  | .cone r h => Survives s.conv r ∧ Survives s.conv h
  | .plane n => Survives (vec3C s.toText) n

section
variable {α : Type} {s : Scal α} {n : PropNode}

theorem decShape_sphere (h : getKey strT.conv n "type".toList = .ok "sphere".toList) :
    decShape s n = (do
      let r ← getKey s.conv n "radius".toList
      pure (some (.sphere r))) := by
  unfold decShape
  rw [h, Res.bind_ok, if_pos (by decide +kernel)]

theorem decShape_box (h : getKey strT.conv n "type".toList = .ok "box".toList) :
    decShape s n = (do
      let d ← getKey (vec3C s.toText) n "dim".toList
      pure (some (.box (mapVec s.half d)))) := by
  unfold decShape
  rw [h, Res.bind_ok, if_neg (by decide +kernel), if_pos (by decide +kernel)]

theorem decShape_cylinder (h : getKey strT.conv n "type".toList = .ok "cylinder".toList) :
    decShape s n = (do
      let r ← getKey s.conv n "radius".toList
      let h ← getKey s.conv n "height".toList
      pure (some (.cylinder r h))) := by
  unfold decShape
  rw [h, Res.bind_ok, if_neg (by decide +kernel), if_neg (by decide +kernel), if_pos (by decide +kernel)]

theorem decShape_capsule (h : getKey strT.conv n "type".toList = .ok "capsule".toList) :
    decShape s n = (do
      let c ← decCapsule s n
      pure (some c)) := by
  unfold decShape
  rw [h, Res.bind_ok, if_neg (by decide +kernel), if_neg (by decide +kernel), if_neg (by decide +kernel),
    if_pos (by decide +kernel)]

theorem decShape_cone (h : getKey strT.conv n "type".toList = .ok "cone".toList) :
    decShape s n = (do
      let r ← getKey s.conv n "radius".toList
      let h ← getKey s.conv n "height".toList
      pure (some (.cone r h))) := by
  unfold decShape
  rw [h, Res.bind_ok, if_neg (by decide +kernel), if_neg (by decide +kernel), if_neg (by decide +kernel),
    if_neg (by decide +kernel), if_pos (by decide +kernel)]

theorem decShape_plane (h : getKey strT.conv n "type".toList = .ok "plane".toList) :
    decShape s n = (do
      let v ← getDef (vec3C s.toText) n "normal".toList ⟨s.one, s.zero, s.zero⟩
      pure (some (.plane v))) := by
  unfold decShape
  rw [h, Res.bind_ok, if_neg (by decide +kernel), if_neg (by decide +kernel), if_neg (by decide +kernel),
    if_neg (by decide +kernel), if_neg (by decide +kernel), if_pos (by decide +kernel)]
end

/-- A shape of each of the six kinds survives. -/
theorem C78_shape {α : Type} (s : Scal α) (sh : Shape α) (h : ShapeOk s sh) : Survives (shapeC s) sh := by
  rw [Survives, get_ok_iff]
  have num : ∀ {n : PropNode} {k : Str} {v : α}, Survives s.conv v → n.tryGetChild k = some (.leaf (s.toS v)) →
      getKey s.conv n k = .ok v := by
    intro n k v hv hk
    rw [getKey_some hk, get_leaf, (survives_text s.toText v).1 hv]
    rfl
  cases sh with
  | sphere r =>
    show decShape s (.mk [] [("type".toList, .leaf "sphere".toList), ("radius".toList, .leaf (s.toS r))] false) = _
    rw [decShape_sphere rfl, num (v := r) h rfl]
    rfl
  | box d =>
    obtain ⟨h1, h2, h3, h4⟩ := h
    show decShape s (.mk [] [("type".toList, .leaf "box".toList), ("dim".toList, (vec3C s.toText).enc (mapVec s.two d))] false) = _
    rw [decShape_box rfl, getKey_some (m := (vec3C s.toText).enc (mapVec s.two d)) rfl,
      show Conv.get (vec3C s.toText) ((vec3C s.toText).enc (mapVec s.two d)) = .ok (mapVec s.two d) from h1]
    simp only [Res.bind_ok, Res.pure_eq, mapVec, h2, h3, h4]
  | cylinder r g =>
    show decShape s (.mk [] [("type".toList, .leaf "cylinder".toList), ("radius".toList, .leaf (s.toS r)),
      ("height".toList, .leaf (s.toS g))] false) = _
    rw [decShape_cylinder rfl, num (v := r) h.1 rfl, Res.bind_ok, num (v := g) h.2 rfl]
    rfl
  | capsule r g =>
    show decShape s (.mk [] [("type".toList, .leaf "capsule".toList), ("radius".toList, .leaf (s.toS r)),
      ("height".toList, .leaf (s.toS g))] false) = _
    rw [decShape_capsule rfl, decCapsule, num (v := r) h.1 rfl, Res.bind_ok, num (v := g) h.2 rfl]
    rfl
  | cone r g =>
    show decShape s (.mk [] [("type".toList, .leaf "cone".toList), ("radius".toList, .leaf (s.toS r)),
      ("height".toList, .leaf (s.toS g))] false) = _
    rw [decShape_cone rfl, num (v := r) h.1 rfl, Res.bind_ok, num (v := g) h.2 rfl]
    rfl
  | plane v =>
    show decShape s (.mk [] [("type".toList, .leaf "plane".toList), ("normal".toList, (vec3C s.toText).enc v)] false) = _
    rw [decShape_plane rfl]
    have : getDef (vec3C s.toText) (.mk [] [("type".toList, .leaf "plane".toList), ("normal".toList, (vec3C s.toText).enc v)] false)
      "normal".toList ⟨s.one, s.zero, s.zero⟩ = .ok v := h
    rw [this]
    rfl

/-- Doubling and halving a `float` is exact when the double is finite, so a box survives if the double dimensions do. -/
theorem C78_box_exact (neg : Bool) (x : Rat) (h0 : 0 < x) (hb : Binary 24 (-149) 128 x) (hm : Binary 24 (-149) 128 (2 * x)) :
    (flScal Num.binary32).half ((flScal Num.binary32).two (.fin neg x)) = .fin neg x := by
  have e1 : Num.rnd Num.binary32 (2 * x) = some (2 * x) := Num.rnd_exact Num.binary32_ok (by positivity) hm
  have e2 : Num.rnd Num.binary32 x = some x := Num.rnd_exact Num.binary32_ok h0 hb
  show flScale Num.binary32 (1 / 2) (flScale Num.binary32 2 (.fin neg x)) = _
  simp only [flScale, Num.roundFl, e1]
  rw [show (1 / 2 : Rat) * (2 * x) = x by ring, e2]

/-- A capsule can also be given by its total length, which includes the two half spheres. -/
theorem C78_capsule_length {α : Type} (s : Scal α) (n a b : PropNode) (r l : α)
    (ht : getKey strT.conv n "type".toList = .ok "capsule".toList)
    (h1 : n.tryGetChild "radius".toList = some a) (h2 : n.tryGetChild "total_length".toList = some b)
    (h3 : Conv.get s.conv a = .ok r) (h4 : Conv.get s.conv b = .ok l) :
    Conv.get (shapeC s) n = .ok (.capsule r (s.sub l (s.two r))) := by
  rw [get_ok_iff]
  show decShape s n = _
  rw [decShape_capsule ht, decCapsule, getKey_some h1, h3, Res.bind_ok, h2]
  simp only [h4, Res.bind_ok, Res.pure_eq]

/-- A shape without a type, or of a sphere without a radius, cannot be read; a plane without a normal faces along x. -/
theorem C78_shape_missing {α : Type} (s : Scal α) (n : PropNode) :
    (n.hasKey "type".toList = false → Conv.get (shapeC s) n = .err) ∧
    (getKey strT.conv n "type".toList = .ok "sphere".toList → n.hasKey "radius".toList = false → Conv.get (shapeC s) n = .err) ∧
    (getKey strT.conv n "type".toList = .ok "plane".toList → n.hasKey "normal".toList = false →
      Conv.get (shapeC s) n = .ok (.plane ⟨s.one, s.zero, s.zero⟩)) := by
  have conv : ∀ {k}, n.hasKey k = false → n.tryGetChild k = none := by
    intro q h
    unfold hasKey at h
    cases hc : n.tryGetChild q with
    | none => rfl
    | some m => rw [hc] at h; cases h
  refine ⟨fun h => ?_, fun h1 h2 => ?_, fun h1 h2 => ?_⟩
  · show Conv.get ⟨encShape s, decShape s⟩ n = _
    have : decShape s n = .err := by unfold decShape; rw [getKey_none (conv h)]; rfl
    unfold Conv.get
    simp only [this, Res.bind_err]
  · show Conv.get ⟨encShape s, decShape s⟩ n = _
    unfold Conv.get
    simp only [decShape_sphere h1, getKey_none (conv h2), Res.bind_err]
  · rw [get_ok_iff]
    show decShape s n = _
    rw [decShape_plane h1, getDef, conv h2]
    rfl

example : ShapeOk (flScal Num.binary32) (.cylinder (.fin false (1 / 2)) (.fin false 3)) := by
  constructor <;> rw [show (flScal Num.binary32).conv = (flT Num.binary32).conv from rfl, survives_text] <;> decide +kernel

/-! ## Intervals -/

theorem findFrom_dots (a r : Str) (ha : ∀ p b, a = p ++ '.' :: b → ∃ d q, b = d :: q ∧ d ≠ '.') :
    ∀ i, findFrom "..".toList (a ++ ("..".toList ++ r)) i = some (i + a.length) := by
  induction a with
  | nil => intro i; simp [findFrom]
  | cons c cs ih =>
    intro i
    have hno : ¬ "..".toList.isPrefixOf (c :: (cs ++ ("..".toList ++ r))) := by
      intro h
      by_cases hc : c = '.'
      · subst hc
        obtain ⟨d, q, e, hd⟩ := ha [] cs rfl
        subst e
        simp [List.isPrefixOf] at h
        exact hd h.symm
      · simp [List.isPrefixOf] at h
        exact hc h.1.symm
    rw [List.cons_append, findFrom, if_neg hno, ih]
    · congr 1; simp; omega
    · intro p b e
      exact ha (c :: p) b (by rw [e]; rfl)

/-- An interval of floating-point numbers survives exactly if its ends do. -/
theorem C78_bounds (f : Num.Fmt) (b : Bounds Num.Fl) (h1 : ∀ neg x, b.lower = .fin neg x → 0 ≤ x) :
    Survives (boundsC (flT f)) b ↔ Survives (flT f).conv b.lower ∧ Survives (flT f).conv b.upper := by
  have hne : (boundsT (flT f)).toS b ≠ [] := by
    unfold boundsT; simp
  have hfind : strFind ((boundsT (flT f)).toS b) "..".toList 0 = some (Num.toStr b.lower).length := by
    unfold strFind
    rw [if_neg (by omega), List.drop_zero]
    show findFrom "..".toList (Num.toStr b.lower ++ ("..".toList ++ Num.toStr b.upper)) 0 = _
    rw [findFrom_dots _ _ (Num.toStr_dots b.lower h1)]
    simp
  have hdrop : ((boundsT (flT f)).toS b).drop ((Num.toStr b.lower).length + 2) = Num.toStr b.upper := by
    show (Num.toStr b.lower ++ ("..".toList ++ Num.toStr b.upper)).drop _ = _
    rw [List.drop_append, List.drop_eq_nil_of_le (by omega)]
    simp
  have hlow : (flT f).fromS ((boundsT (flT f)).toS b) = (flT f).fromS ((flT f).toS b.lower) :=
    Num.strtod_toStr_tail f b.lower h1 (Num.stop_dots _)
  rw [Survives, get_ok_iff, survives_text, survives_text]
  show (if (PropNode.leaf ((boundsT (flT f)).toS b)).hasValue then Res.ok ((boundsT (flT f)).fromS ((boundsT (flT f)).toS b)) else _) = _ ↔ _
  rw [if_pos (by simp [hasValue, leaf, hne])]
  have : (boundsT (flT f)).fromS ((boundsT (flT f)).toS b) = (do
      let lo ← (flT f).fromS ((flT f).toS b.lower)
      let hi ← (flT f).fromS ((flT f).toS b.upper)
      pure ⟨lo, hi⟩) := by
    show (do
      let lo ← (flT f).fromS ((boundsT (flT f)).toS b)
      match strFind ((boundsT (flT f)).toS b) "..".toList 0 with
      | some p =>
        let hi ← (flT f).fromS (((boundsT (flT f)).toS b).drop (p + 2))
        pure (⟨lo, hi⟩ : Bounds Num.Fl)
      | none => pure ⟨lo, lo⟩) = _
    rw [hlow, hfind]
    simp only [hdrop]
    rfl
  rw [this]
  obtain ⟨lo, hi⟩ := b
  simp only
  cases (flT f).fromS ((flT f).toS lo) <;> cases (flT f).fromS ((flT f).toS hi) <;> simp

example : Survives (boundsC (flT Num.binary32)) ⟨.fin true (1 / 4), .inf false⟩ := by
  rw [C78_bounds _ _ (by rintro neg x h; cases h; norm_num), survives_text, survives_text]
  constructor <;> decide +kernel

theorem bounds_dec {α : Type} (t : Text α) (k l p q : Str) (x y : α) (f : Bool) (hp : t.fromS p = some x) (hq : t.fromS q = some y) :
    (boundsC t).dec (.mk [] [(k, .leaf p), (l, .leaf q)] f) = .ok (some
      ⟨if k = "min".toList then x else if l = "min".toList then y else if k = "lower".toList then x else if l = "lower".toList then y else x,
       if k = "max".toList then x else if l = "max".toList then y else if k = "upper".toList then x else if l = "upper".toList then y else y⟩) := by
  have g1 : Conv.get t.conv (.leaf p) = .ok x := by rw [get_leaf, hp]; rfl
  have g2 : Conv.get t.conv (.leaf q) = .ok y := by rw [get_leaf, hq]; rfl
  have hc : ∀ (a b : Str) (d : α), getAnyDef t.conv (.mk [] [(k, .leaf p), (l, .leaf q)] f) [a, b] d =
      .ok (if k = a then x else if l = a then y else if k = b then x else if l = b then y else d) := by
    intro a b d
    unfold getAnyDef
    have ht : ∀ a : Str, (PropNode.mk [] [(k, .leaf p), (l, .leaf q)] f).tryGetChild a =
        if k = a then some (.leaf p) else if l = a then some (.leaf q) else none := by
      intro a
      unfold tryGetChild
      simp only [PropNode.kids, findKid]
    simp only [anyChild, ht]
    by_cases h1 : k = a
    · simp only [h1, if_true]; exact g1
    · by_cases h2 : l = a
      · simp only [h1, h2, if_true, if_false]; exact g2
      · by_cases h3 : k = b
        · simp only [h1, h2, h3, if_true, if_false]; rw [ite_self]; by_cases e : b = a <;> simp only [e, if_true, if_false] <;> exact g1
        · by_cases h4 : l = b
          · simp only [h1, h2, h3, h4, if_true, if_false]; rw [ite_self]; by_cases e : b = a <;> simp only [e, if_true, if_false] <;> exact g2
          · simp only [h1, h2, h3, h4, if_false]
  show (do
      let d0 ← getIdx t.conv (.mk [] [(k, .leaf p), (l, .leaf q)] f) 0
      let lo ← getAnyDef t.conv (.mk [] [(k, .leaf p), (l, .leaf q)] f) ["min".toList, "lower".toList] d0
      let d1 ← getIdx t.conv (.mk [] [(k, .leaf p), (l, .leaf q)] f) 1
      let hi ← getAnyDef t.conv (.mk [] [(k, .leaf p), (l, .leaf q)] f) ["max".toList, "upper".toList] d1
      pure (some (⟨lo, hi⟩ : Bounds α))) = _
  have i0 : getIdx t.conv (.mk [] [(k, .leaf p), (l, .leaf q)] f) 0 = .ok x := g1
  have i1 : getIdx t.conv (.mk [] [(k, .leaf p), (l, .leaf q)] f) 1 = .ok y := g2
  rw [i0, i1]
  simp only [Res.bind_ok, hc]
  rfl

/-- The notations of an interval as a group: two values in order, or two values named `min` or `lower` and `max` or `upper`, in any order.
Groups with fewer than two values are refused. -/
theorem C78_bounds_notations {α : Type} (t : Text α) (p q : Str) (x y : α) (hp : t.fromS p = some x) (hq : t.fromS q = some y) (f : Bool) :
    Conv.get (boundsC t) (.mk [] [([], .leaf p), ([], .leaf q)] f) = .ok ⟨x, y⟩ ∧
    (∀ k l : String, (k = "min" ∨ k = "lower") → (l = "max" ∨ l = "upper") →
      Conv.get (boundsC t) (.mk [] [(k.toList, .leaf p), (l.toList, .leaf q)] f) = .ok ⟨x, y⟩ ∧
      Conv.get (boundsC t) (.mk [] [(l.toList, .leaf q), (k.toList, .leaf p)] f) = .ok ⟨x, y⟩) ∧
    ∀ ks : Kids, ks.length < 2 → Conv.get (boundsC t) (.mk [] ks f) = .err := by
  refine ⟨?_, ?_, ?_⟩
  · rw [get_ok_iff, bounds_dec t _ _ _ _ x y f hp hq]
    rfl
  · rintro k l hk hl
    rw [get_ok_iff, get_ok_iff, bounds_dec t _ _ _ _ x y f hp hq, bounds_dec t _ _ _ _ y x f hq hp]
    rcases hk with rfl | rfl <;> rcases hl with rfl | rfl <;> exact ⟨rfl, rfl⟩
  · intro ks h
    have : (boundsC t).dec (.mk [] ks f) = .ok none := by
      show (if 2 ≤ ks.length then _ else Res.ok none) = _
      rw [if_neg (by omega)]
    unfold Conv.get
    rw [this]
    rfl

/-- **C78 is violated by an interval with one named value**: the value named `max` is also taken as the lower end, because it comes first. -/
theorem C78_bounds_violated {α : Type} (t : Text α) (p q k : Str) (x y : α) (hp : t.fromS p = some x) (hq : t.fromS q = some y) (f : Bool)
    (h1 : k ≠ "min".toList) (h2 : k ≠ "lower".toList) (h3 : k ≠ "max".toList) :
    Conv.get (boundsC t) (.mk [] [("max".toList, .leaf p), (k, .leaf q)] f) = .ok ⟨x, x⟩ := by
  rw [get_ok_iff, bounds_dec t _ _ _ _ x y f hp hq]
  simp only [if_neg h1, if_neg h2]
  rfl

example : Conv.get (boundsC intT) (.mk [] [("upper".toList, .leaf "7".toList), ("min".toList, .leaf "-2".toList)] false) = .ok ⟨-2, 7⟩ := by
  decide +kernel

end Xo
