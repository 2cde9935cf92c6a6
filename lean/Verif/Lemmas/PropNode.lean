import Verif.Model.PropNode
import Mathlib.Data.List.Basic

/-!
Lemmas about children of a `PropNode`.
-/
namespace Xo.PropNode

@[simp] theorem value_mk (v ks a) : (PropNode.mk v ks a).value = v := rfl
@[simp] theorem kids_mk (v ks a) : (PropNode.mk v ks a).kids = ks := rfl
@[simp] theorem flag_mk (v ks a) : (PropNode.mk v ks a).flag = a := rfl
@[simp] theorem kids_withKids (n : PropNode) (ks) : (n.withKids ks).kids = ks := rfl
@[simp] theorem value_withKids (n : PropNode) (ks) : (n.withKids ks).value = n.value := rfl
@[simp] theorem flag_withKids (n : PropNode) (ks) : (n.withKids ks).flag = n.flag := rfl

theorem eta (n : PropNode) : PropNode.mk n.value n.kids n.flag = n := by cases n; rfl

/-- The keys of a list of children. -/
def keys (ks : Kids) : List Str := ks.map Prod.fst

theorem findKid_none_iff {k : Str} {ks : Kids} : findKid k ks = none ↔ k ∉ keys ks := by
  induction ks with
  | nil => simp [findKid, keys]
  | cons p cs ih =>
    obtain ⟨k', c⟩ := p
    by_cases h : k' = k
    · simp [findKid, keys, h]
    · simp only [findKid, h, if_false, ih, keys, List.map_cons, List.mem_cons, not_or]
      exact ⟨fun h' => ⟨fun e => h e.symm, h'⟩, fun h' => h'.2⟩

theorem findKid_split {k : Str} {ks : Kids} {c : PropNode} (h : findKid k ks = some c) :
    ∃ as bs, ks = as ++ (k, c) :: bs ∧ k ∉ keys as := by
  induction ks with
  | nil => simp [findKid] at h
  | cons p cs ih =>
    obtain ⟨k', c'⟩ := p
    simp only [findKid] at h
    split at h
    · next he => cases h; subst he; exact ⟨[], cs, rfl, by simp [keys]⟩
    · next he =>
      obtain ⟨as, bs, e, hn⟩ := ih h
      refine ⟨(k', c') :: as, bs, by rw [e]; rfl, ?_⟩
      simp only [keys, List.map_cons, List.mem_cons, not_or] at hn ⊢
      exact ⟨fun e => he e.symm, hn⟩

theorem findKid_append_hit {k : Str} {as bs : Kids} {c : PropNode} (hn : k ∉ keys as) :
    findKid k (as ++ (k, c) :: bs) = some c := by
  induction as with
  | nil => simp [findKid]
  | cons p as ih =>
    obtain ⟨k', c'⟩ := p
    simp only [keys, List.map_cons, List.mem_cons, not_or] at hn
    simp only [List.cons_append, findKid, if_neg (fun e => hn.1 (Eq.symm e))]
    exact ih hn.2

theorem findKid_append {k : Str} (as bs : Kids) :
    findKid k (as ++ bs) = (findKid k as).or (findKid k bs) := by
  induction as with
  | nil => simp [findKid]
  | cons p as ih =>
    obtain ⟨k', c'⟩ := p
    simp only [List.cons_append, findKid]
    split
    · rfl
    · exact ih

theorem updKid_append_hit {k : Str} {f : PropNode → PropNode} {as bs : Kids} {c : PropNode} (hn : k ∉ keys as) :
    updKid k f (as ++ (k, c) :: bs) = as ++ (k, f c) :: bs := by
  induction as with
  | nil => simp [updKid]
  | cons p as ih =>
    obtain ⟨k', c'⟩ := p
    simp only [keys, List.map_cons, List.mem_cons, not_or] at hn
    simp only [List.cons_append, updKid, if_neg (fun e => hn.1 (Eq.symm e))]
    rw [ih hn.2]

theorem keys_updKid (k : Str) (f : PropNode → PropNode) (ks : Kids) : keys (updKid k f ks) = keys ks := by
  induction ks with
  | nil => rfl
  | cons p as ih =>
    obtain ⟨k', c'⟩ := p
    simp only [updKid]
    split
    · rfl
    · simp only [keys, List.map_cons] at ih ⊢; rw [ih]

theorem findKid_updKid_self (k : Str) (f : PropNode → PropNode) (ks : Kids) :
    findKid k (updKid k f ks) = (findKid k ks).map f := by
  induction ks with
  | nil => rfl
  | cons p as ih =>
    obtain ⟨k', c'⟩ := p
    simp only [updKid, findKid]
    split
    · next h => simp [findKid, h]
    · next h => simp only [findKid, if_neg h]; exact ih

theorem findKid_updKid_ne {k k2 : Str} (hne : k2 ≠ k) (f : PropNode → PropNode) (ks : Kids) :
    findKid k2 (updKid k f ks) = findKid k2 ks := by
  induction ks with
  | nil => rfl
  | cons p as ih =>
    obtain ⟨k', c'⟩ := p
    simp only [updKid]
    split
    · next h =>
      have h1 : k' ≠ k2 := fun e => hne (e ▸ h)
      simp [findKid, h1]
    · next h => simp only [findKid]; rw [ih]

theorem eraseKid_append_hit {k : Str} {as bs : Kids} {c : PropNode} (hn : k ∉ keys as) :
    eraseKid k (as ++ (k, c) :: bs) = (true, as ++ bs) := by
  induction as with
  | nil => simp [eraseKid]
  | cons p as ih =>
    obtain ⟨k', c'⟩ := p
    simp only [keys, List.map_cons, List.mem_cons, not_or] at hn
    simp only [List.cons_append, eraseKid, if_neg (fun e => hn.1 (Eq.symm e))]
    rw [ih hn.2]

theorem eraseKid_miss {k : Str} {ks : Kids} (hn : k ∉ keys ks) : eraseKid k ks = (false, ks) := by
  induction ks with
  | nil => rfl
  | cons p as ih =>
    obtain ⟨k', c'⟩ := p
    simp only [keys, List.map_cons, List.mem_cons, not_or] at hn
    simp only [eraseKid, if_neg (fun e => hn.1 (Eq.symm e))]
    rw [ih hn.2]

end Xo.PropNode
