import Verif.Model.Ini
import Verif.Lemmas.ZmlRead
import Verif.Props.C26_Trim

/-!
C23: writing a tree as INI and reading the text back.
-/
namespace Xo
namespace Ini

namespace Spec

/-- No line ends and no NUL. -/
def OneLine (s : Str) : Prop := ∀ c ∈ s, c ≠ '\n' ∧ c ≠ Char.ofNat 0

/-- No blanks at the ends. -/
def Tight (s : Str) : Prop :=
  (∀ c, s.head? = some c → c ∉ [' ', '\t', '\r', '\n', Char.ofNat 12, Char.ofNat 11]) ∧
  ∀ c, s.getLast? = some c → c ∉ [' ', '\t', '\r', '\n', Char.ofNat 12, Char.ofNat 11]

/-- Keys and values that keep their meaning as a line `key=value`. -/
structure SafeEntry (k v : Str) : Prop where
  key : OneLine k ∧ Tight k
  value : OneLine v ∧ Tight v
  noEq : '=' ∉ k
  noComment : k.head? ≠ some ';'
  noGroup : ¬ (k.head? = some '[' ∧ v.getLast? = some ']')
  short : k.length + v.length + 1 ≤ 1023

/-- Items without children. -/
def SafeItems (ks : PropNode.Kids) : Prop :=
  (ks.map Prod.fst).Nodup ∧ ∀ k c, (k, c) ∈ ks → c.kids = [] ∧ SafeEntry k c.value

/-- The trees that can be written and read: first items with a value, then groups. -/
def SafeTree (n : PropNode) : Prop :=
  n.value = [] ∧ ∃ mains groups, n.kids = mains ++ groups ∧ SafeItems mains ∧ (∀ k c, (k, c) ∈ mains → c.value ≠ []) ∧
    ∀ k c, (k, c) ∈ groups → c.value = [] ∧ c.kids ≠ [] ∧ k ≠ [] ∧ OneLine k ∧ k.length ≤ 1021 ∧ SafeItems c.kids

end Spec
open Spec

theorem lines_line {l : Str} (h : '\n' ∉ l) (t : Str) : lines (l ++ '\n' :: t) = l :: lines t := by
  induction l with
  | nil => simp [lines]
  | cons c l ih =>
    simp only [List.mem_cons, not_or] at h
    rw [List.cons_append, lines, if_neg (fun e => h.1 e.symm), ih h.2]

theorem cstr_id {s : Str} (h : ∀ c ∈ s, c ≠ Char.ofNat 0) : cstr s = s := by
  induction s with
  | nil => rfl
  | cons c s ih =>
    unfold cstr at ih ⊢
    rw [List.takeWhile_cons_of_pos (by simpa using h c (by simp)), ih (fun d hd => h d (by simp [hd]))]

theorem trim_tight {s : Str} (h : Tight s) (hs : s.length < 2 ^ 64) :
    trimStr [' ', '\t', '\r', '\n', Char.ofNat 12, Char.ofNat 11] s = .ok s := by
  obtain ⟨m, h1, h2⟩ := C26_trim [' ', '\t', '\r', '\n', Char.ofNat 12, Char.ofNat 11] s hs
  rw [h1, C26_trimmed_unique _ s m s h2 ⟨[], [], by simp, by simp, by simp, h.1, h.2⟩]

theorem makeKeyValue_entry {k v : Str} (h : SafeEntry k v) : makeKeyValue (k ++ '=' :: v) ['='] = .ok (k, v) := by
  have h1 : findFirstOf (cstr ['=']) (k ++ '=' :: v) = some k.length := by
    have : cstr ['='] = ['='] := by decide
    rw [this]
    unfold findFirstOf
    exact findIdx?_append_hit (by decide) (fun x hx => by
      have : x ≠ '=' := fun e => h.noEq (e ▸ hx)
      simpa using this)
  have hs := h.short
  unfold makeKeyValue
  simp only [h1]
  have h2 : substr (k ++ '=' :: v) 0 (some k.length) = .ok k := by
    simp [substr]
  have h3 : midStr (k ++ '=' :: v) (k.length + 1) none = .ok v := by
    have : (k ++ '=' :: v).drop (k.length + 1) = v := by
      rw [show k ++ '=' :: v = (k ++ ['=']) ++ v by simp, List.drop_left' (by simp)]
    unfold midStr substr
    rw [if_neg (by simp), this]
  rw [h2]
  simp only [Res.bind]
  rw [trim_tight h.key.2 (by omega), h3]
  simp only [Res.bind]
  rw [trim_tight h.value.2 (by omega)]

/-- Reading the line of an item. -/
theorem readLoop_entry {k v : Str} (h : SafeEntry k v) (throws : Bool) (st : St) (ls : List Str) :
    readLoop throws st ((k ++ '=' :: v) :: ls) = readLoop throws (assign st k v) ls := by
  have hs := h.short
  rw [readLoop, if_neg (by simp only [List.length_append, List.length_cons]; omega)]
  have hc : cstr (k ++ '=' :: v) = k ++ '=' :: v := by
    apply cstr_id
    intro c hc
    rcases List.mem_append.1 hc with hc | hc
    · exact (h.key.1 c hc).2
    · rcases List.mem_cons.1 hc with rfl | hc
      · decide
      · exact (h.value.1 c hc).2
  rw [hc]
  have hl : readLine st (k ++ '=' :: v) = .ok (assign st k v) := by
    unfold readLine
    rw [if_neg (by simp), if_neg, if_neg, makeKeyValue_entry h]
    · simp only
      rw [if_neg]
      intro e
      have := congrArg List.length e
      simp at this
    · rintro ⟨_, h1, h2⟩
      rw [List.getLast?_append_of_ne_nil _ (by simp)] at h2
      cases k with
      | nil => simp at h1
      | cons c k =>
        simp only [List.cons_append, List.head?_cons] at h1
        cases v with
        | nil => simp at h2
        | cons d v =>
          rw [List.getLast?_cons_cons] at h2
          exact h.noGroup ⟨by simpa using h1, h2⟩
    · cases k with
      | nil => simp
      | cons c k => simpa using h.noComment
  rw [hl]
  rfl

/-- Reading the line of a group. -/
theorem readLoop_group {k : Str} (h0 : k ≠ []) (h1 : OneLine k) (h2 : k.length ≤ 1021) (throws : Bool) (st : St) (ls : List Str) :
    readLoop throws st (('[' :: k ++ [']']) :: ls) = readLoop throws ⟨st.root.addChild k .empty, true, st.failed⟩ ls := by
  rw [readLoop, if_neg (by simp; omega)]
  have hc : cstr ('[' :: k ++ [']']) = '[' :: k ++ [']'] := by
    apply cstr_id
    intro c hc
    simp only [List.cons_append, List.mem_cons, List.mem_append, List.not_mem_nil, or_false] at hc
    rcases hc with rfl | hc | rfl
    · decide
    · exact (h1 c hc).2
    · decide
  rw [hc]
  have hlen : 0 < k.length := List.length_pos_iff.2 h0
  have hl : readLine st ('[' :: k ++ [']']) = .ok ⟨st.root.addChild k .empty, true, st.failed⟩ := by
    unfold readLine
    rw [if_neg (by simp), if_neg (by simp), if_pos ⟨by simp; omega, by simp, by simp [List.getLast?_cons]⟩]
    simp
  rw [hl]
  rfl

/-- The items as they are read. -/
def leaves (ks : PropNode.Kids) : PropNode.Kids := ks.map fun e => (e.1, .leaf e.2.value)

theorem set_new {n : PropNode} {k : Str} (h : k ∉ n.kids.map Prod.fst) (c : PropNode) : n.set k c = n.addChild k c := by
  have : n.tryGetChild k = none := by
    unfold PropNode.tryGetChild
    generalize n.kids = ks at h
    induction ks with
    | nil => rfl
    | cons e ks ih =>
      obtain ⟨k', c'⟩ := e
      simp only [List.map_cons, List.mem_cons, not_or] at h
      rw [PropNode.findKid, if_neg (fun e => h.1 e.symm), ih h.2]
  simp [PropNode.set, PropNode.updOrAdd, this]

theorem modify_last {α : Type} (l : List α) (a : α) (f : α → α) : (l ++ [a]).modify ((l ++ [a]).length - 1) f = l ++ [f a] := by
  induction l with
  | nil => rfl
  | cons e l ih =>
    simp only [List.cons_append, List.length_cons, List.length_append, List.length_nil, Nat.zero_add, Nat.add_sub_cancel] at ih ⊢
    rw [List.modify_succ_cons, ih]

/-- Reading the items of a group. -/
theorem read_items (throws : Bool) (items : PropNode.Kids) : SafeItems items → ∀ (pre have_ : PropNode.Kids) (g : Str) (t : Str),
    (∀ k, k ∈ have_.map Prod.fst → k ∉ items.map Prod.fst) →
    readLoop throws ⟨.mk [] (pre ++ [(g, .mk [] have_ false)]) false, true, false⟩ (lines (writeKids items ++ t)) =
    readLoop throws ⟨.mk [] (pre ++ [(g, .mk [] (have_ ++ leaves items) false)]) false, true, false⟩ (lines t) := by
  induction items with
  | nil => intro _ pre have_ g t _; simp [writeKids, leaves]
  | cons e items ih =>
    obtain ⟨k, c⟩ := e
    rintro ⟨hnd, hs⟩ pre have_ g t hdis
    have he := hs k c (by simp)
    simp only [List.map_cons, List.nodup_cons] at hnd
    have hnl : '\n' ∉ k ++ '=' :: c.value := by
      simp only [List.mem_append, List.mem_cons, not_or]
      exact ⟨fun h => (he.2.key.1 _ h).1 rfl, by decide, fun h => (he.2.value.1 _ h).1 rfl⟩
    rw [writeKids, show k ++ '=' :: c.value ++ '\n' :: writeKids items ++ t = (k ++ '=' :: c.value) ++ '\n' :: (writeKids items ++ t) by
      simp, lines_line hnl, readLoop_entry he.2]
    have ha : assign ⟨.mk [] (pre ++ [(g, .mk [] have_ false)]) false, true, false⟩ k c.value =
        ⟨.mk [] (pre ++ [(g, .mk [] (have_ ++ [(k, .leaf c.value)]) false)]) false, true, false⟩ := by
      simp only [assign, if_true, PropNode.kids, PropNode.withKids, PropNode.value, PropNode.flag]
      rw [modify_last, set_new]
      · rfl
      · intro hm; exact hdis k hm (by simp)
    rw [ha, ih ⟨hnd.2, fun k c h => hs k c (by simp [h])⟩]
    · simp [leaves]
    · intro k' hk' hm
      rw [List.map_append, List.mem_append] at hk'
      rcases hk' with hk' | hk'
      · exact hdis k' hk' (by simp only [List.map_cons, List.mem_cons]; exact .inr hm)
      · simp only [List.map_cons, List.map_nil, List.mem_cons, List.not_mem_nil, or_false] at hk'
        subst hk'
        exact hnd.1 hm

/-- The groups as they are read. -/
def groupsOf (ks : PropNode.Kids) : PropNode.Kids := ks.map fun e => (e.1, .mk [] (leaves e.2.kids) false)

theorem read_groups (throws : Bool) (groups : PropNode.Kids) : (∀ k c, (k, c) ∈ groups → c.value = [] ∧ c.kids ≠ [] ∧ k ≠ [] ∧ OneLine k ∧
      k.length ≤ 1021 ∧ SafeItems c.kids) → ∀ (pre : PropNode.Kids) (gr : Bool),
    ∃ gr', readLoop throws ⟨.mk [] pre false, gr, false⟩ (lines (write groups)) =
      .ok ⟨.mk [] (pre ++ groupsOf groups) false, gr', false⟩ := by
  induction groups with
  | nil =>
    intro _ pre gr
    refine ⟨gr, ?_⟩
    simp [write, lines, readLoop, cstr, readLine, groupsOf, Res.bind]
  | cons e groups ih =>
    obtain ⟨k, c⟩ := e
    intro hs pre gr
    obtain ⟨h1, h2, h3, h4, h5, h6⟩ := hs k c (by simp)
    have hnl : '\n' ∉ '[' :: k ++ [']'] := by
      simp only [List.cons_append, List.mem_cons, List.mem_append, List.not_mem_nil, or_false, not_or]
      exact ⟨by decide, fun h => (h4 _ h).1 rfl, by decide⟩
    rw [write, if_pos h2, show '[' :: k ++ ']' :: '\n' :: writeKids c.kids ++ write groups =
      ('[' :: k ++ [']']) ++ '\n' :: (writeKids c.kids ++ write groups) by simp, lines_line hnl, readLoop_group h3 h4 h5]
    have := read_items throws c.kids h6 pre [] k (write groups) (by simp)
    simp only [List.nil_append] at this
    obtain ⟨gr', hg⟩ := ih (fun k c h => hs k c (by simp [h])) (pre ++ [(k, .mk [] (leaves c.kids) false)]) true
    refine ⟨gr', ?_⟩
    show readLoop throws ⟨.mk [] (pre ++ [(k, .mk [] [] false)]) false, true, false⟩ _ = _
    rw [this, hg]
    simp [groupsOf]

theorem read_mains (throws : Bool) (mains : PropNode.Kids) : SafeItems mains → (∀ k c, (k, c) ∈ mains → c.value ≠ []) →
    ∀ (pre groups : PropNode.Kids), (∀ k, k ∈ pre.map Prod.fst → k ∉ mains.map Prod.fst) →
    readLoop throws ⟨.mk [] pre false, false, false⟩ (lines (write (mains ++ groups))) =
    readLoop throws ⟨.mk [] (pre ++ leaves mains) false, false, false⟩ (lines (write groups)) := by
  induction mains with
  | nil => intro _ _ pre groups _; simp [leaves]
  | cons e mains ih =>
    obtain ⟨k, c⟩ := e
    rintro ⟨hnd, hs⟩ hv pre groups hdis
    have he := hs k c (by simp)
    have hv' : c.hasValue = true := by
      have := hv k c (by simp)
      unfold PropNode.hasValue
      cases h : c.value <;> simp_all
    simp only [List.map_cons, List.nodup_cons] at hnd
    have hnl : '\n' ∉ k ++ '=' :: c.value := by
      simp only [List.mem_append, List.mem_cons, not_or]
      exact ⟨fun h => (he.2.key.1 _ h).1 rfl, by decide, fun h => (he.2.value.1 _ h).1 rfl⟩
    rw [List.cons_append, write, if_neg (by simp [he.1]), if_pos hv',
      show k ++ '=' :: c.value ++ ['\n'] ++ write (mains ++ groups) = (k ++ '=' :: c.value) ++ '\n' :: write (mains ++ groups) by
      simp, lines_line hnl, readLoop_entry he.2]
    have ha : assign ⟨.mk [] pre false, false, false⟩ k c.value = ⟨.mk [] (pre ++ [(k, .leaf c.value)]) false, false, false⟩ := by
      simp only [assign, Bool.false_eq_true, if_false]
      rw [set_new]
      · rfl
      · intro hm; exact hdis k hm (by simp)
    rw [ha, ih ⟨hnd.2, fun k c h => hs k c (by simp [h])⟩ (fun k c h => hv k c (by simp [h]))]
    · simp [leaves]
    · intro k' hk' hm
      rw [List.map_append, List.mem_append] at hk'
      rcases hk' with hk' | hk'
      · exact hdis k' hk' (by simp only [List.map_cons, List.mem_cons]; exact .inr hm)
      · simp only [List.map_cons, List.map_nil, List.mem_cons, List.not_mem_nil, or_false] at hk'
        subst hk'
        exact hnd.1 hm

theorem norm_leaves {ks : PropNode.Kids} (h : ∀ k c, (k, c) ∈ ks → c.kids = []) : leaves ks = PropNode.setAccessedRecKids false ks := by
  induction ks with
  | nil => rfl
  | cons e ks ih =>
    obtain ⟨k, v, l, a⟩ := e
    have := h k (.mk v l a) (by simp)
    simp only [PropNode.kids] at this
    subst this
    rw [PropNode.setAccessedRecKids, ← ih (fun k c hm => h k c (by simp [hm]))]
    rfl

theorem norm_append (a b : PropNode.Kids) : PropNode.setAccessedRecKids false (a ++ b) =
    PropNode.setAccessedRecKids false a ++ PropNode.setAccessedRecKids false b := by
  induction a with
  | nil => rfl
  | cons e a ih => obtain ⟨k, c⟩ := e; simp [PropNode.setAccessedRecKids, ih]

theorem norm_groups {ks : PropNode.Kids} (h : ∀ k c, (k, c) ∈ ks → c.value = [] ∧ ∀ k' c', (k', c') ∈ c.kids → c'.kids = []) :
    groupsOf ks = PropNode.setAccessedRecKids false ks := by
  induction ks with
  | nil => rfl
  | cons e ks ih =>
    obtain ⟨k, v, l, a⟩ := e
    have := h k (.mk v l a) (by simp)
    simp only [PropNode.kids, PropNode.value] at this
    obtain ⟨rfl, h2⟩ := this
    rw [PropNode.setAccessedRecKids, ← ih (fun k c hm => h k c (by simp [hm])), PropNode.setAccessedRec, ← norm_leaves h2]
    rfl

/-- **C23 (partial).** Trees that consist of items and then groups of items, with any number of each and safe keys and values, are
read back equal. -/
theorem C23_roundtrip_partial (throws : Bool) {n : PropNode} (h : SafeTree n) :
    ∃ m, read throws (write n.kids) = .ok (m, false) ∧ m.eq n = true := by
  obtain ⟨v, ks, a⟩ := n
  obtain ⟨hv, mains, groups, hk, hm, hmv, hg⟩ := h
  simp only [PropNode.value] at hv
  simp only [PropNode.kids] at hk ⊢
  subst hv hk
  obtain ⟨gr, hgr⟩ := read_groups throws groups hg (leaves mains) false
  have hmr := read_mains throws mains hm hmv [] groups (by simp)
  refine ⟨.mk [] (leaves mains ++ groupsOf groups) false, ?_, ?_⟩
  · unfold read
    show Res.map _ (readLoop throws ⟨.mk [] [] false, false, false⟩ _) = _
    rw [hmr, List.nil_append, hgr]
    rfl
  · rw [norm_leaves (fun k c h => (hm.2 k c h).1), norm_groups (fun k c h => ⟨(hg k c h).1, fun k' c' h' => ((hg k c h).2.2.2.2.2.2 k' c' h').1⟩),
      ← norm_append]
    have := Zml.eq_norm (.mk [] (mains ++ groups) a)
    rwa [PropNode.setAccessedRec] at this

/-- Reading gives back an equal tree. -/
def roundTrips (n : PropNode) : Bool :=
  match read true (write n.kids) with
  | .ok (m, bad) => !bad && m.eq n
  | _ => false

private def item (k v : String) : Str × PropNode := (k.toList, .leaf v.toList)

/-- **C23 is violated** when an item follows a group: it is read into the group. -/
theorem C23_item_after_group_violated :
    roundTrips (.mk [] [(['g'], .mk [] [item "a" "1"] false), item "b" "2"] false) = false ∧
    roundTrips (.mk [] [item "b" "2", (['g'], .mk [] [item "a" "1"] false)] false) = true := by decide +kernel

/-- **C23 is violated** by what is not written: items without value, values of groups, deeper levels, the value of the root. -/
theorem C23_dropped_violated :
    roundTrips (.mk [] [item "a" ""] false) = false ∧
    roundTrips (.mk [] [(['g'], .mk ['v'] [item "a" "1"] false)] false) = false ∧
    roundTrips (.mk [] [(['g'], .mk [] [(['h'], .mk [] [item "a" "1"] false)] false)] false) = false ∧
    roundTrips (.mk ['v'] [item "a" "1"] false) = false := by decide +kernel

/-- **C23 is violated** by keys and values that mean something else on a line: repeated keys, blanks at the ends, `=` in keys, comments,
brackets, line ends, a group with an empty name. -/
theorem C23_texts_violated :
    roundTrips (.mk [] [item "a" "1", item "a" "2"] false) = false ∧ roundTrips (.mk [] [item "a" " 1"] false) = false ∧
    roundTrips (.mk [] [item "a=b" "1"] false) = false ∧ roundTrips (.mk [] [item ";a" "1"] false) = false ∧
    roundTrips (.mk [] [item "[a" "1]"] false) = false ∧ roundTrips (.mk [] [item "a" "1\nb=2"] false) = false ∧
    roundTrips (.mk [] [([], .mk [] [item "a" "1"] false)] false) = false := by decide +kernel

/-- **C23 is violated** by every item whose line has more than 1023 characters: an exception, or an error and no item. -/
theorem C23_long_violated {k v : Str} (hk : OneLine k) (hv : OneLine v) (hne : v ≠ []) (hl : 1023 < k.length + v.length + 1) :
    read true (write [(k, .leaf v)]) = .err ∧ read false (write [(k, .leaf v)]) = .ok (.empty, true) := by
  have hnl : '\n' ∉ k ++ '=' :: v := by
    simp only [List.mem_append, List.mem_cons, not_or]
    exact ⟨fun h => (hk _ h).1 rfl, by decide, fun h => (hv _ h).1 rfl⟩
  have hw : write [(k, .leaf v)] = (k ++ '=' :: v) ++ '\n' :: [] := by
    have : (PropNode.leaf v).hasValue = true := by cases v <;> simp_all [PropNode.hasValue, PropNode.leaf, PropNode.value]
    rw [write, if_neg (by simp [PropNode.leaf, PropNode.kids]), if_pos this]
    simp [write, PropNode.leaf, PropNode.value]
  unfold read
  have hlen : (k ++ '=' :: v).length > 1023 := by simp; omega
  rw [hw, lines_line hnl, readLoop, if_pos hlen, readLoop, if_pos hlen]
  exact ⟨rfl, rfl⟩

/-- A tree with items and groups. -/
example : SafeTree (.mk [] [item "a" "x = [y]", item "" "2", (" g ".toList, .mk [] [item "a" "", item "[b" "1"] false)] false) := by
  have e : ∀ k v : String, (∀ c ∈ k.toList, c ≠ '\n' ∧ c ≠ Char.ofNat 0) → (∀ c ∈ v.toList, c ≠ '\n' ∧ c ≠ Char.ofNat 0) →
      Tight k.toList → Tight v.toList → '=' ∉ k.toList → k.toList.head? ≠ some ';' →
      ¬ (k.toList.head? = some '[' ∧ v.toList.getLast? = some ']') → k.toList.length + v.toList.length + 1 ≤ 1023 →
      SafeEntry k.toList v.toList := fun k v h1 h2 h3 h4 h5 h6 h7 h8 => ⟨⟨h1, h3⟩, ⟨h2, h4⟩, h5, h6, h7, h8⟩
  have t : ∀ s : String, (s.toList.head?.all fun c => c ∉ [' ', '\t', '\r', '\n', Char.ofNat 12, Char.ofNat 11]) = true →
      (s.toList.getLast?.all fun c => c ∉ [' ', '\t', '\r', '\n', Char.ofNat 12, Char.ofNat 11]) = true → Tight s.toList := by
    intro s h1 h2
    refine ⟨fun c hc => ?_, fun c hc => ?_⟩
    · rw [hc] at h1; simpa using h1
    · rw [hc] at h2; simpa using h2
  refine ⟨rfl, [item "a" "x = [y]", item "" "2"], [(" g ".toList, .mk [] [item "a" "", item "[b" "1"] false)], rfl, ⟨by decide, ?_⟩, ?_, ?_⟩
  · intro k c h
    simp only [List.mem_cons, List.not_mem_nil, or_false] at h
    rcases h with h | h <;> (unfold item at h; cases h)
    · exact ⟨rfl, e "a" "x = [y]" (by decide) (by decide) (t _ (by decide) (by decide)) (t _ (by decide) (by decide)) (by decide) (by decide)
        (by decide) (by decide)⟩
    · exact ⟨rfl, e "" "2" (by decide) (by decide) (t _ (by decide) (by decide)) (t _ (by decide) (by decide)) (by decide) (by decide)
        (by decide) (by decide)⟩
  · intro k c h
    simp only [List.mem_cons, List.not_mem_nil, or_false] at h
    rcases h with h | h <;> (unfold item at h; cases h; decide)
  · intro k c h
    simp only [List.mem_cons, List.not_mem_nil, or_false] at h
    cases h
    refine ⟨rfl, by simp [PropNode.kids], by decide, fun c h => ?_, by decide, by decide, ?_⟩
    · revert c; decide
    · intro k c h
      simp only [PropNode.kids, List.mem_cons, List.not_mem_nil, or_false] at h
      rcases h with h | h <;> (unfold item at h; cases h)
      · exact ⟨rfl, e "a" "" (by decide) (by decide) (t _ (by decide) (by decide)) (t _ (by decide) (by decide)) (by decide) (by decide)
          (by decide) (by decide)⟩
      · exact ⟨rfl, e "[b" "1" (by decide) (by decide) (t _ (by decide) (by decide)) (t _ (by decide) (by decide)) (by decide) (by decide)
          (by decide) (by decide)⟩

/-! ### Lines that are not understood -/

theorem readLine_failed {st st' : St} {line : Str} (h : readLine st line = .ok st') : st'.failed = st.failed := by
  unfold readLine at h
  split at h
  · cases h; rfl
  · split at h
    · cases h; rfl
    · split at h
      · cases h; rfl
      · split at h
        · split at h
          · cases h
          · cases h
            unfold assign
            split <;> rfl
        · cases h
        · cases h

/-- A line that is not empty, not a comment and not a group, and has no equals sign. -/
def NotUnderstood (line : Str) : Prop :=
  line ≠ [] ∧ line.head? ≠ some ';' ∧ ¬ (line.length > 2 ∧ line.head? = some '[' ∧ line.getLast? = some ']') ∧ '=' ∉ line

theorem readLine_bad {line : Str} (h : NotUnderstood line) (st : St) : readLine st line = .err := by
  obtain ⟨h1, h2, h3, h4⟩ := h
  have hf : findFirstOf (cstr ['=']) line = none := by
    unfold findFirstOf
    rw [List.findIdx?_eq_none_iff]
    intro c hc
    have : c ≠ '=' := fun e => h4 (e ▸ hc)
    rw [show cstr ['='] = ['='] by decide +kernel]
    simpa using this
  unfold readLine
  rw [if_neg h1, if_neg h2, if_neg h3]
  unfold makeKeyValue
  simp [hf]

/-- **C23.** A text with a line that is not empty, not a comment, not a group and not an item is not accepted: an exception is thrown, or
an error is reported. -/
theorem C23_not_understood (throws : Bool) (text l : Str) (hl : l ∈ lines text) (hb : NotUnderstood (cstr l)) (t : PropNode) :
    read throws text ≠ .ok (t, false) := by
  have key : ∀ (ls : List Str) (st st' : St), l ∈ ls → readLoop throws st ls = .ok st' → st'.failed = true := by
    intro ls
    induction ls with
    | nil => intro st st' hm; cases hm
    | cons a ls ih =>
      intro st st' hm h
      rw [readLoop] at h
      split at h
      · split at h
        · cases h
        · cases h; rfl
      · rcases List.mem_cons.1 hm with rfl | hm
        · rw [readLine_bad hb] at h; cases h
        · cases hr : readLine st (cstr a) with
          | ok st1 => rw [hr] at h; exact ih st1 st' hm h
          | err => rw [hr] at h; cases h
          | ub => rw [hr] at h; cases h
  intro h
  unfold read at h
  cases hr : readLoop throws ⟨.empty, false, false⟩ (lines text) with
  | ok st =>
    have := key _ _ _ hl hr
    rw [hr] at h
    simp [Res.map, this] at h
  | err => rw [hr] at h; cases h
  | ub => rw [hr] at h; cases h

example (t : PropNode) : read false "a=1\nb\nc=2".toList ≠ .ok (t, false) :=
  C23_not_understood _ _ "b".toList (by decide +kernel) (by unfold NotUnderstood; decide +kernel) t

end Ini
end Xo
