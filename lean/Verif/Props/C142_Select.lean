import Verif.Model.Select
import Verif.Props.C68_ContainerTools
import Verif.Props.C69_Glob

/-!
C142: children of a node selected by key or by pattern.
-/
namespace Xo
namespace Select
open PropNode (Kids)
open Xo.Spec (GlobMatch)

/-- The children with a key, in their order. -/
def Spec.withKey (key : Str) (l : Kids) : Kids := l.filter fun p => decide (p.1 = key)

open Spec

theorem select_eq (n : PropNode) (key : Str) : select n key (n.kids.length + 1) = some (.ok (withKey key n.kids)) :=
  Cont.C68_view_container _ _

theorem find_head (key : Str) (l : Kids) : PropNode.findKid key l = (withKey key l).head?.map Prod.snd := by
  induction l with
  | nil => rfl
  | cons p l ih =>
    obtain ⟨k, c⟩ := p
    unfold PropNode.findKid withKey
    by_cases h : k = key
    · rw [if_pos h, List.filter_cons_of_pos (by simpa using h)]; rfl
    · rw [if_neg h, List.filter_cons_of_neg (by simpa using h), ih]; rfl

theorem erase_tail (key : Str) (l : Kids) : withKey key (PropNode.eraseKid key l).2 = (withKey key l).tail ∧
    ∀ k, k ≠ key → withKey k (PropNode.eraseKid key l).2 = withKey k l := by
  induction l with
  | nil => exact ⟨rfl, fun _ _ => rfl⟩
  | cons p l ih =>
    obtain ⟨k, c⟩ := p
    unfold PropNode.eraseKid
    by_cases h : k = key
    · rw [if_pos h]
      refine ⟨?_, fun k' hk' => ?_⟩
      · show withKey key l = _
        rw [withKey, withKey, List.filter_cons_of_pos (by simpa using h)]; rfl
      · show withKey k' l = _
        rw [withKey, withKey, List.filter_cons_of_neg (by simpa [h] using Ne.symm hk')]
    · rw [if_neg h]
      refine ⟨?_, fun k' hk' => ?_⟩
      · show withKey key ((k, c) :: (PropNode.eraseKid key l).2) = _
        rw [withKey, List.filter_cons_of_neg (by simpa using h)]
        conv_rhs => rw [withKey, List.filter_cons_of_neg (by simpa using h)]
        exact ih.1
      · show withKey k' ((k, c) :: (PropNode.eraseKid key l).2) = _
        have := ih.2 k' hk'
        unfold withKey at this ⊢
        rw [List.filter_cons, List.filter_cons, this]

/-- **C142, by key.** A loop over `select( key )` visits exactly the children with that key, in the order of the node. There are as many as
`count_key` tells, none if and only if the node does not have the key, and the first one is the child that `try_get_child` finds. -/
theorem C142_select (n : PropNode) (key : Str) : ∃ r, select n key (n.kids.length + 1) = some (.ok r) ∧
    r.Sublist n.kids ∧ (∀ p, p ∈ r ↔ p ∈ n.kids ∧ p.1 = key) ∧
    r.length = n.countKey key ∧ (r = [] ↔ n.hasKey key = false) ∧ r.head?.map Prod.snd = n.tryGetChild key := by
  refine ⟨_, select_eq n key, List.filter_sublist, fun p => by simp [withKey], ?_, ?_, (find_head key n.kids).symm⟩
  · unfold PropNode.countKey
    have : ∀ (l : Kids) (c : Nat), l.foldl (fun c p => if p.1 = key then c + 1 else c) c = c + (withKey key l).length := by
      intro l
      induction l with
      | nil => intro c; rfl
      | cons p l ih =>
        intro c
        rw [List.foldl_cons, ih]
        unfold withKey
        by_cases h : p.1 = key
        · rw [if_pos h, List.filter_cons_of_pos (by simpa using h), List.length_cons]; omega
        · rw [if_neg h, List.filter_cons_of_neg (by simpa using h)]
    rw [this, Nat.zero_add]
  · unfold PropNode.hasKey PropNode.tryGetChild
    rw [find_head]
    cases withKey key n.kids <;> simp

/-- **C142, changes.** A child that is added is the last one of its key, and other keys do not change. Erasing a key takes away its first child
only, and other keys do not change. -/
theorem C142_changes (n c : PropNode) (key : Str) :
    select (n.addChild key c) key (n.kids.length + 2) = some (.ok (withKey key n.kids ++ [(key, c)])) ∧
    (∀ k, k ≠ key → select (n.addChild key c) k (n.kids.length + 2) = some (.ok (withKey k n.kids))) ∧
    select (n.erase key).2 key ((n.erase key).2.kids.length + 1) = some (.ok (withKey key n.kids).tail) ∧
    ∀ k, k ≠ key → select (n.erase key).2 k ((n.erase key).2.kids.length + 1) = some (.ok (withKey k n.kids)) := by
  have hk : (n.addChild key c).kids = n.kids ++ [(key, c)] := by cases n; rfl
  have hl : (n.addChild key c).kids.length + 1 = n.kids.length + 2 := by rw [hk]; simp
  have he : (n.erase key).2.kids = (PropNode.eraseKid key n.kids).2 := rfl
  refine ⟨?_, fun k h => ?_, ?_, fun k h => ?_⟩
  · rw [← hl, select_eq, hk]; simp [withKey]
  · rw [← hl, select_eq, hk]
    have : ¬ key = k := fun e => h e.symm
    simp [withKey, this]
  · rw [select_eq, he, (erase_tail key n.kids).1]
  · rw [select_eq, he, (erase_tail key n.kids).2 k h]

theorem glob_plain {p s : Str} (h : ∀ c ∈ p, c ≠ '*' ∧ c ≠ '?') : GlobMatch p s ↔ p = s := by
  constructor
  · intro hm
    induction hm with
    | nil => rfl
    | star _ _ _ _ _ => exact absurd rfl (h '*' (.head _)).1
    | any _ _ _ _ _ => exact absurd rfl (h '?' (.head _)).2
    | lit c p s _ _ _ ih => rw [ih fun d hd => h d (.tail _ hd)]
  · rintro rfl
    induction p with
    | nil => exact .nil
    | cons c p ih => exact .lit c p p (h c (.head _)).1 (h c (.head _)).2 (ih fun d hd => h d (.tail _ hd))

/-- **C142, by pattern (partial).** For keys without the zero character and patterns without brackets, a loop over `select_pattern( pattern )`
visits exactly the children whose key matches the pattern, in the order of the node. A pattern without `*` and `?` selects the same
children as the key does, and `*` selects all of them.
Missing: patterns with brackets, for which the meaning is that of `C69_set`. -/
theorem C142_pattern_partial (n : PropNode) (pattern : Str) (h0 : Char.ofNat 0 ∉ pattern) (hb : '[' ∉ pattern)
    (hk : ∀ p ∈ n.kids, Char.ofNat 0 ∉ p.1) :
    (∃ r, selectPattern n pattern (n.kids.length + 1) = some (.ok r) ∧ r.Sublist n.kids ∧
      (∀ p, p ∈ r ↔ p ∈ n.kids ∧ GlobMatch pattern p.1)) ∧
    ('*' ∉ pattern → '?' ∉ pattern → selectPattern n pattern (n.kids.length + 1) = select n pattern (n.kids.length + 1)) ∧
    (pattern = ['*'] → selectPattern n pattern (n.kids.length + 1) = some (.ok n.kids)) := by
  have hs : selectPattern n pattern (n.kids.length + 1) = some (.ok (n.kids.filter fun p => Glob.patternMatch p.1 pattern)) :=
    Cont.C68_view_container _ _
  have hm : ∀ p ∈ n.kids, (Glob.patternMatch p.1 pattern = true ↔ GlobMatch pattern p.1) := fun p hp =>
    C69_match_partial p.1 pattern hb h0 (hk p hp)
  refine ⟨⟨_, hs, List.filter_sublist, fun p => ?_⟩, fun h1 h2 => ?_, fun h => ?_⟩
  · rw [List.mem_filter]
    exact ⟨fun h => ⟨h.1, (hm p h.1).1 h.2⟩, fun h => ⟨h.1, (hm p h.1).2 h.2⟩⟩
  · rw [hs, select_eq]
    congr 2
    refine List.filter_congr fun p hp => ?_
    rw [Bool.eq_iff_iff, hm p hp, glob_plain fun c hc => ⟨fun e => h1 (e ▸ hc), fun e => h2 (e ▸ hc)⟩, decide_eq_true_iff]
    exact eq_comm
  · rw [hs]
    congr 2
    refine List.filter_eq_self.2 fun p hp => (hm p hp).2 ?_
    rw [h]
    have := GlobMatch.star p.1 [] [] .nil
    rwa [List.append_nil] at this

example : ∃ r, selectPattern (.mk [] [("arm_l".toList, .mk [] [] false), ("leg".toList, .mk [] [] false), ("arm_r".toList, .mk ['2'] [] false)]
    false) "arm*".toList 4 = some (.ok r) ∧ r.map Prod.fst = ["arm_l".toList, "arm_r".toList] :=
  ⟨_, Cont.C68_view_container _ _, by decide +kernel⟩

end Select
end Xo
