import Verif.Model.PnConv
import Verif.Lemmas.FlatMap
import Verif.Props.C15_PropNodeAccess
import Verif.Props.C29_IntText
import Verif.Props.C72_NumText

/-!
C77: a typed value stored in a property node is read back as the same value; lookups with defaults, with several keys and
of repeated keys return what is stored.
-/
namespace Xo
open Conv PropNode

namespace Spec
/-- What is written can be read, and it is the value that was written. -/
def Survives {α : Type} (c : Conv α) (v : α) : Prop := get c (c.enc v) = .ok v
end Spec
open Spec

theorem get_ok_iff {α : Type} {c : Conv α} {n : PropNode} {v : α} : get c n = .ok v ↔ c.dec n = .ok (some v) := by
  unfold Conv.get
  cases h : c.dec n with
  | ok o => cases o <;> simp
  | err => simp
  | ub => simp

theorem tryGetChild_set (n : PropNode) (k : Str) (v : PropNode) :
    (n.set k v).tryGetChild k = some v ∧ ∀ k2, k2 ≠ k → (n.set k v).tryGetChild k2 = n.tryGetChild k2 := by
  obtain ⟨h1, h2⟩ := C15_set_get n k v
  have inj : ∀ {a b : Option PropNode}, Res.ofOptionErr a = Res.ofOptionErr b → a = b := by
    intro a b h; cases a <;> cases b <;> simp_all [Res.ofOptionErr]
  refine ⟨?_, fun k2 hk => inj (h2 k2 hk)⟩
  exact inj (b := some v) h1

/-! ## Single values -/

/-- A value stored under a key is what every way of reading the key returns, also when there is a default or there are
other keys to try later; other keys are as before. -/
theorem C77_set_get {α : Type} (c : Conv α) (n : PropNode) (k : Str) (v : α) (h : Survives c v) :
    getKey c (setKey c n k v) k = .ok v ∧ tryGetKey c (setKey c n k v) k = .ok (some v) ∧
    tryGetInto c (setKey c n k v) k = .ok (some v) ∧ (∀ d, getDef c (setKey c n k v) k d = .ok v) ∧
    (∀ ks, getAny c (setKey c n k v) (k :: ks) = .ok v ∧ tryGetAny c (setKey c n k v) (k :: ks) = .ok (some v)) ∧
    ∀ (β : Type) (c' : Conv β) (k2 : Str), k2 ≠ k → getKey c' (setKey c n k v) k2 = getKey c' n k2 ∧
      ∀ d, getDef c' (setKey c n k v) k2 d = getDef c' n k2 d := by
  obtain ⟨h1, h2⟩ := tryGetChild_set n k (c.enc v)
  have hd := get_ok_iff.1 h
  unfold Survives at h
  refine ⟨?_, ?_, ?_, ?_, ?_, ?_⟩
  · simp only [getKey, getChild, setKey, h1, Res.ofOptionErr, Res.bind_ok, h]
  · simp only [tryGetKey, setKey, h1, tryGet, hd]
  · simp only [tryGetInto, setKey, h1, h, Res.map]
  · intro d; simp only [getDef, setKey, h1, h]
  · intro ks
    simp only [getAny, tryGetAny, setKey, anyChild, h1, h, Res.map, and_self]
  · intro β c' k2 hk
    refine ⟨?_, fun d => ?_⟩
    · simp only [getKey, getChild, setKey, h2 k2 hk]
    · simp only [getDef, setKey, h2 k2 hk]

/-- The types that are stored as their text: strings, truth values, integers, and the floating-point numbers that six digits
describe. -/
theorem C77_text_partial :
    (∀ s, Survives strT.conv s) ∧ (∀ b, Survives boolT.conv b) ∧
    (∀ i : Int, -2 ^ 31 ≤ i ∧ i < 2 ^ 31 → Survives intT.conv i) ∧
    ∀ f, f = Num.binary32 ∨ f = Num.binary64 → ∀ (neg : Bool) (x : Rat), minNormal f ≤ x →
      Binary f.prec f.emin f.emax x →
      (Survives (flT f).conv (.fin neg x) ↔ ∃ d, 0 < d ∧ Decimal 6 d ∧ Num.rnd f d = some x) := by
  refine ⟨fun s => rfl, fun b => by cases b <;> rfl, ?_, ?_⟩
  · intro i hi
    have := C29_int i hi
    rw [Survives, get_ok_iff]
    exact congrArg Res.ok this
  · intro f hf neg x h1 h2
    rw [← C72_survive hf neg h1 h2, Survives, get_ok_iff]
    constructor
    · intro h; exact Res.ok.inj h
    · intro h; exact congrArg Res.ok h

example : Survives intT.conv (-2147483648) := C77_text_partial.2.2.1 _ (by decide)

/-- A missing key: the default, nothing, or an exception. -/
theorem C77_missing {α : Type} (c : Conv α) (n : PropNode) (k : Str) (d : α) (h : n.hasKey k = false) :
    getDef c n k d = .ok d ∧ tryGetKey c n k = .ok none ∧ tryGetInto c n k = .ok none ∧ getKey c n k = .err := by
  have h' : n.tryGetChild k = none := by
    unfold hasKey at h
    cases hc : n.tryGetChild k with
    | none => rfl
    | some m => rw [hc] at h; cases h
  simp [getDef, tryGetKey, tryGetInto, getKey, getChild, h', Res.ofOptionErr]

/-- A value that is there but cannot be converted is never replaced by the default: reading throws. Only `try_get( key )`
reports it as missing. -/
theorem C77_malformed {α : Type} (c : Conv α) (n m : PropNode) (k : Str) (d : α) (h : n.tryGetChild k = some m)
    (hm : c.dec m = .ok none) :
    getKey c n k = .err ∧ getDef c n k d = .err ∧ tryGetInto c n k = .err ∧ tryGetAny c n [k] = .err ∧
    tryGetKey c n k = .ok none := by
  have hg : get c m = .err := by simp [Conv.get, hm]
  simp [getDef, tryGetKey, tryGetInto, tryGetAny, anyChild, tryGet, getKey, getChild, h, hm, hg, Res.ofOptionErr, Res.map]

example : getDef intT.conv (.mk [] [("n".toList, .leaf "abc".toList)] false) "n".toList 5 = .err := by decide +kernel

theorem anyChild_some {n m : PropNode} {pre post : List Str} {k : Str} (hpre : ∀ q ∈ pre, n.tryGetChild q = none)
    (hk : n.tryGetChild k = some m) : anyChild n (pre ++ k :: post) = some m := by
  induction pre with
  | nil => simp [anyChild, hk]
  | cons q pre ih =>
    simp only [List.cons_append, anyChild, hpre q (by simp)]
    exact ih fun q hq => hpre q (by simp [hq])

theorem anyChild_none {n : PropNode} {ks : List Str} (h : ∀ q ∈ ks, n.tryGetChild q = none) : anyChild n ks = none := by
  induction ks with
  | nil => rfl
  | cons q ks ih =>
    simp only [anyChild, h q (by simp)]
    exact ih fun q hq => h q (by simp [hq])

/-- Of several keys, the first one in the list that is there counts, wherever it stands in the node; without any of them, the
default or an exception. -/
theorem C77_any {α : Type} (c : Conv α) (n : PropNode) (d : α) :
    (∀ pre k post m, (∀ q ∈ pre, n.hasKey q = false) → n.tryGetChild k = some m →
      getAnyDef c n (pre ++ k :: post) d = get c m ∧ getAny c n (pre ++ k :: post) = get c m) ∧
    ∀ ks, (∀ q ∈ ks, n.hasKey q = false) →
      getAnyDef c n ks d = .ok d ∧ getAny c n ks = .err ∧ tryGetAny c n ks = .ok none := by
  have conv : ∀ {q}, n.hasKey q = false → n.tryGetChild q = none := by
    intro q h
    unfold hasKey at h
    cases hc : n.tryGetChild q with
    | none => rfl
    | some m => rw [hc] at h; cases h
  refine ⟨?_, ?_⟩
  · intro pre k post m hpre hk
    have := anyChild_some (post := post) (fun q hq => conv (hpre q hq)) hk
    simp [getAnyDef, getAny, this]
  · intro ks h
    have := anyChild_none fun q hq => conv (h q hq)
    simp [getAnyDef, getAny, tryGetAny, this]

example : getAny strT.conv (.mk [] [("b".toList, .leaf "1".toList), ("a".toList, .leaf "2".toList)] false)
    ["x".toList, "a".toList, "b".toList] = .ok "2".toList := by decide +kernel

/-- All values of a repeated key, in order; an exception if one of them cannot be converted. -/
theorem C77_all {α : Type} (c : Conv α) (n : PropNode) (k : Str) (vs : List α) :
    getAll c n k = .ok vs ↔
      List.Forall₂ (fun p v => get c p.2 = .ok v) (n.kids.filter fun p => p.1 = k) vs := by
  unfold getAll
  generalize n.kids = ks
  induction ks generalizing vs with
  | nil => simp [getAllKids, eq_comm]
  | cons p ks ih =>
    obtain ⟨k', m⟩ := p
    unfold getAllKids
    by_cases hk : k' = k
    · subst hk
      simp only [if_true, decide_true, List.filter_cons_of_pos]
      cases hg : get c m with
      | ok v =>
        simp only [Res.bind_ok]
        constructor
        · intro h
          cases hr : getAllKids c k' ks with
          | ok ws =>
            rw [hr] at h
            simp only [Res.bind_ok, Res.pure_eq, Res.ok.injEq] at h
            subst h
            exact .cons hg ((ih ws).1 hr)
          | err => rw [hr] at h; cases h
          | ub => rw [hr] at h; cases h
        · intro h
          cases h with
          | cons h1 h2 =>
            rw [(ih _).2 h2]
            simp only [hg, Res.ok.injEq] at h1
            subst h1
            rfl
      | err =>
        simp only [Res.bind_err, reduceCtorEq, false_iff]
        intro h
        cases h with
        | cons h1 h2 => simp [hg] at h1
      | ub =>
        simp only [Res.bind_ub, reduceCtorEq, false_iff]
        intro h
        cases h with
        | cons h1 h2 => simp [hg] at h1
    · rw [if_neg hk, List.filter_cons_of_neg (by simpa using hk)]
      exact ih vs

example : getAll intT.conv (.mk [] [("a".toList, .leaf "1".toList), ("b".toList, .leaf "x".toList),
    ("a".toList, .leaf "3".toList)] false) "a".toList = .ok [1, 3] := by decide +kernel

/-! ## Vectors and arrays -/

theorem decKids_iff {α : Type} {c : Conv α} {ks : Kids} {vs : List α} :
    decKids c ks = .ok (some vs) ↔ List.Forall₂ (fun p v => c.dec p.2 = .ok (some v)) ks vs := by
  induction ks generalizing vs with
  | nil => simp [decKids, eq_comm]
  | cons p ks ih =>
    obtain ⟨k, m⟩ := p
    unfold decKids
    constructor
    · intro h
      cases hd : c.dec m with
      | ok o =>
        cases o with
        | none => rw [hd] at h; cases h
        | some v =>
          rw [hd] at h
          cases hr : decKids c ks with
          | ok o =>
            cases o with
            | none => rw [hr] at h; cases h
            | some ws =>
              rw [hr] at h
              simp only [Res.bind_ok, Res.pure_eq, Res.ok.injEq, Option.some.injEq] at h
              subst h
              exact .cons hd (ih.1 hr)
          | err => rw [hr] at h; cases h
          | ub => rw [hr] at h; cases h
      | err => rw [hd] at h; cases h
      | ub => rw [hd] at h; cases h
    · intro h
      cases h with
      | cons h1 h2 =>
        simp only at h1
        rw [h1, ih.2 h2]
        rfl

/-- A vector is read from the children in order, whatever their keys; an exception if one of them cannot be converted. -/
theorem C77_vector_read {α : Type} (c : Conv α) (n : PropNode) (vs : List α) :
    get (vecC c) n = .ok vs ↔ List.Forall₂ (fun p v => get c p.2 = .ok v) n.kids vs := by
  rw [get_ok_iff]
  simp only [vecC, decKids_iff, get_ok_iff]

theorem vec_enc {α : Type} (c : Conv α) (l : List α) :
    (vecC c).enc l = .mk [] (l.map fun v => ([], c.enc v)) false := by
  have aux : ∀ (l : List α) (ks : Kids), l.foldl (fun (n : PropNode) v => n.addChild [] (c.enc v)) (PropNode.mk [] ks false) =
      PropNode.mk [] (ks ++ l.map fun v => ([], c.enc v)) false := by
    intro l
    induction l with
    | nil => intro ks; simp
    | cons v l ih =>
      intro ks
      rw [List.foldl_cons]
      have : (PropNode.mk [] ks false).addChild [] (c.enc v) = .mk [] (ks ++ [([], c.enc v)]) false := rfl
      rw [this, ih]
      simp
  exact aux l []

/-- A vector survives exactly if all its elements do. -/
theorem C77_vector {α : Type} (c : Conv α) (l : List α) : Survives (vecC c) l ↔ ∀ v ∈ l, Survives c v := by
  unfold Survives
  rw [C77_vector_read, vec_enc]
  simp only [kids_mk]
  induction l with
  | nil => simp
  | cons v l ih => simp [ih]

example : Survives (vecC (vecC intT.conv)) [[1, -2], [], [3]] := by
  rw [C77_vector]
  intro v hv
  rw [C77_vector]
  intro i hi
  refine C77_text_partial.2.2.1 i ?_
  simp at hv
  rcases hv with rfl | rfl | rfl <;> simp at hi <;> omega

/-- A vector that survives has an element for each child: its node is a list of values without keys. -/
theorem C77_vector_layout {α : Type} (c : Conv α) (l : List α) :
    ((vecC c).enc l).isArray = true ∧ ((vecC c).enc l).kids.length = l.length ∧
    ∀ i v, l[i]? = some v → ((vecC c).enc l).getChildIdx i = .ok (c.enc v) := by
  rw [vec_enc]
  refine ⟨by simp [isArray], by simp, ?_⟩
  intro i v h
  obtain ⟨hi, hv⟩ := List.getElem?_eq_some_iff.1 h
  unfold getChildIdx
  rw [if_neg (by simp; omega)]
  simp [h]

/-- An array of fixed size is read from a node with at least as many children. What is missing: with fewer children nothing
is reported (`C77_array_violated`). -/
theorem C77_array_partial {α : Type} (c : Conv α) (N : Nat) (n : PropNode) (vs : List α) (h : N ≤ n.kids.length)
    (hv : List.Forall₂ (fun p v => c.dec p.2 = .ok (some v)) (n.kids.take N) vs) :
    decArr c N n = .ok (some (vs.map some)) ∧ vs.length = N := by
  have hl : vs.length = N := by rw [← hv.length_eq, List.length_take]; omega
  unfold decArr
  rw [decKids_iff.2 hv]
  simp [hl]

/-- With fewer children than elements, reading succeeds and leaves the other elements indeterminate. -/
theorem C77_array_violated {α : Type} (c : Conv α) (N : Nat) (n : PropNode) (vs : List α) (h : n.kids.length < N)
    (hv : List.Forall₂ (fun p v => c.dec p.2 = .ok (some v)) n.kids vs) :
    ∃ l, decArr c N n = .ok (some l) ∧ l.length = N ∧ ∀ i, n.kids.length ≤ i → i < N → l[i]? = some none := by
  have hl : n.kids.length = vs.length := hv.length_eq
  unfold decArr
  rw [List.take_of_length_le h.le, decKids_iff.2 hv]
  refine ⟨_, rfl, by simp; omega, ?_⟩
  intro i h1 h2
  rw [List.getElem?_append_right (by simp; omega), List.getElem?_replicate, if_pos (by simp; omega)]

example : decArr intT.conv 3 (.mk [] [([], .leaf "1".toList)] false) = .ok (some [some 1, none, none]) := by decide +kernel

/-! ## Maps -/

theorem encMap_eq {V : Type} (c : Conv V) {l : List (Str × V)} (hs : FlatMap.Sorted l) :
    encMap c ⟨l⟩ = .mk [] (l.map fun e => (e.1, c.enc e.2)) false := by
  have aux : ∀ (l : List (Str × V)) (ks : Kids), FlatMap.Sorted l → (∀ k ∈ keys ks, ∀ e ∈ l, k ≠ e.1) →
      l.foldl (fun (n : PropNode) e => n.set e.1 (c.enc e.2)) (PropNode.mk [] ks false) =
        PropNode.mk [] (ks ++ l.map fun e => (e.1, c.enc e.2)) false := by
    intro l
    induction l with
    | nil => intro ks _ _; simp
    | cons e l ih =>
      intro ks hs hk
      have hs' := List.pairwise_cons.1 hs
      have hab : findKid e.1 ks = none := findKid_none_iff.2 fun hm => hk _ hm e (by simp) rfl
      have : (PropNode.mk [] ks false).set e.1 (c.enc e.2) = .mk [] (ks ++ [(e.1, c.enc e.2)]) false := by
        unfold PropNode.set updOrAdd tryGetChild
        simp only [kids_mk, hab]
        rfl
      rw [List.foldl_cons, this, ih _ hs'.2]
      · simp
      · intro k hk' f hf
        simp only [keys, List.map_append, List.map_cons, List.map_nil, List.mem_append, List.mem_singleton] at hk'
        rcases hk' with h | rfl
        · exact hk k h f (by simp [hf])
        · exact (hs'.1 f hf).ne
  exact aux l [] hs (by simp [keys])

theorem decMap_forward {V : Type} (c : Conv V) (dflt : V) : ∀ (l as : List (Str × V)), FlatMap.Sorted (as ++ l) →
    (∀ e ∈ l, c.dec (c.enc e.2) = .ok (some e.2)) →
    decMapKids c dflt (l.map fun e => (e.1, c.enc e.2)) ⟨as⟩ true = .ok (⟨as ++ l⟩, true) := by
  intro l
  induction l with
  | nil => intro as _ _; simp [decMapKids]
  | cons e l ih =>
    intro as hs hv
    have h1 : ∀ a ∈ as, a.1 < e.1 := fun a ha => (List.pairwise_append.1 hs).2.2 a ha e (by simp)
    have := FlatMap.assign_miss (as := as) (cs := []) h1 (by simp) e.2
    rw [List.append_nil] at this
    simp only [List.map_cons, decMapKids, hv e (by simp), Res.bind_ok, this]
    rw [ih (as ++ [(e.1, e.2)]) (by simpa using hs) fun f hf => hv f (by simp [hf])]
    simp

theorem decMap_back {V : Type} (c : Conv V) (dflt : V) : ∀ (l as : List (Str × V)) (b : Bool), FlatMap.Sorted (as ++ l) →
    ∀ m r, decMapKids c dflt (l.map fun e => (e.1, c.enc e.2)) ⟨as⟩ b = .ok (m, r) →
    ∃ l', m.data = as ++ l' ∧ l'.map Prod.fst = l.map Prod.fst ∧
      (r = true → b = true ∧ List.Forall₂ (fun e e' => c.dec (c.enc e.2) = .ok (some e'.2)) l l') := by
  intro l
  induction l with
  | nil =>
    intro as b _ m r h
    simp only [List.map_nil, decMapKids, Res.ok.injEq, Prod.mk.injEq] at h
    obtain ⟨rfl, rfl⟩ := h
    exact ⟨[], by simp, rfl, fun h => ⟨h, .nil⟩⟩
  | cons e l ih =>
    intro as b hs m r h
    have h1 : ∀ a ∈ as, a.1 < e.1 := fun a ha => (List.pairwise_append.1 hs).2.2 a ha e (by simp)
    have hs' : ∀ v : V, FlatMap.Sorted (as ++ [(e.1, v)] ++ l) := by
      intro v
      unfold FlatMap.Sorted at hs ⊢
      have e1 : (as ++ [(e.1, v)] ++ l).map Prod.fst = (as ++ e :: l).map Prod.fst := by simp
      have e2 := (List.pairwise_map (f := Prod.fst) (R := (· < ·)) (l := as ++ e :: l)).2 hs
      rw [← e1] at e2
      exact List.pairwise_map.1 e2
    have ha : ∀ v, FlatMap.assign ⟨as⟩ e.1 v = ⟨as ++ [(e.1, v)]⟩ := by
      intro v
      have := FlatMap.assign_miss (as := as) (cs := []) h1 (by simp) v
      rwa [List.append_nil] at this
    have hg : (FlatMap.getOrDefault dflt ⟨as⟩ e.1).1 = ⟨as ++ [(e.1, dflt)]⟩ := by
      have := FlatMap.read_miss (as := as) (cs := []) h1 (by simp) dflt
      rw [List.append_nil] at this
      rw [this]
    simp only [List.map_cons, decMapKids] at h
    cases hd : c.dec (c.enc e.2) with
    | ok o =>
      rw [hd] at h
      cases o with
      | some v =>
        simp only [Res.bind_ok, ha] at h
        obtain ⟨l', e1, e2, e3⟩ := ih _ b (hs' v) m r h
        refine ⟨(e.1, v) :: l', by rw [e1]; simp, by simp [e2], fun hr => ?_⟩
        exact ⟨(e3 hr).1, .cons hd (e3 hr).2⟩
      | none =>
        simp only [Res.bind_ok, hg] at h
        obtain ⟨l', e1, e2, e3⟩ := ih _ false (hs' dflt) m r h
        refine ⟨(e.1, dflt) :: l', by rw [e1]; simp, by simp [e2], fun hr => ?_⟩
        exact absurd (e3 hr).1 (by simp)
    | err => rw [hd] at h; cases h
    | ub => rw [hd] at h; cases h

/-- A map with text keys, converted by `to_prop_node`, survives exactly if all its values do. The invariant of `flat_map`
(C01) is that its keys ascend. -/
theorem C77_map_partial {V : Type} (c : Conv V) (dflt : V) (m : FlatMap Str V) (hs : FlatMap.Sorted m.data) :
    Survives (mapC c dflt) m ↔ ∀ e ∈ m.data, Survives c e.2 := by
  obtain ⟨l⟩ := m
  simp only at hs
  unfold Survives
  rw [get_ok_iff]
  simp only [mapC, decMap, encMap_eq c hs, kids_mk, get_ok_iff]
  constructor
  · intro h
    cases hd : decMapKids c dflt (l.map fun e => (e.1, c.enc e.2)) .empty true with
    | ok p =>
      obtain ⟨m', r⟩ := p
      rw [hd] at h
      obtain ⟨l', e1, e2, e3⟩ := decMap_back c dflt l [] true hs m' r hd
      simp only [Res.bind_ok, Res.pure_eq, Res.ok.injEq] at h
      cases r with
      | false => simp at h
      | true =>
        simp at h
        subst h
        simp only [List.nil_append] at e1
        subst e1
        have := (e3 rfl).2
        intro e he
        rw [List.forall₂_same] at this
        exact this e he
    | err => rw [hd] at h; cases h
    | ub => rw [hd] at h; cases h
  · intro h
    have := decMap_forward c dflt l [] hs h
    rw [List.nil_append] at this
    have e : (FlatMap.empty : FlatMap Str V) = ⟨[]⟩ := rfl
    rw [e, this]
    rfl

example : FlatMap.Sorted [("a".toList, (1 : Int)), ("b".toList, 2)] := by
  unfold FlatMap.Sorted; simp; decide

/-- A map stored with `set` is lost: reading it back returns the empty map and reports no error. -/
theorem C77_map_set_violated {V : Type} (t : Text V) (dflt : V) (n : PropNode) (k : Str) (m : FlatMap Str V) :
    getKey (mapSetC t dflt) (setKey (mapSetC t dflt) n k m) k = .ok .empty ∧
    (Survives (mapSetC t dflt) m ↔ m.data = []) := by
  have h : get (mapSetC t dflt) ((mapSetC t dflt).enc m) = .ok .empty := by
    rw [get_ok_iff]
    simp [mapSetC, decMap, leaf, decMapKids]
  refine ⟨?_, ?_⟩
  · simp only [getKey, getChild, setKey, (tryGetChild_set n k _).1, Res.ofOptionErr, Res.bind_ok, h]
  · unfold Survives
    rw [h]
    obtain ⟨l⟩ := m
    simp only [FlatMap.empty, Res.ok.injEq, FlatMap.mk.injEq]
    exact eq_comm

/-- **C77, the text of a map.** The text of a map is made of the texts of its entries in the order of the map, each a key, an equals sign and a value, between braces. -/
theorem C77_map_text {V : Type} (t : Text V) (l : List (Str × V)) :
    mapToS t ⟨l⟩ = ['{', ' '] ++ l.flatMap (fun e => e.1 ++ [' ', '=', ' '] ++ t.toS e.2 ++ [' ']) ++ ['}'] := by
  have h : ∀ (l : List (Str × V)) (s : Str), l.foldl (fun s e => s ++ (e.1 ++ " = ".toList ++ t.toS e.2 ++ " ".toList)) s =
      s ++ l.flatMap (fun e => e.1 ++ [' ', '=', ' '] ++ t.toS e.2 ++ [' ']) := fun l => by
    induction l with
    | nil => intro s; simp
    | cons e l ih =>
      intro s
      rw [List.foldl_cons, ih, List.flatMap_cons, List.append_assoc]
      rfl
  unfold mapToS
  rw [h]
  rfl

example : mapToS intT ⟨[("a".toList, 1), ("b".toList, 2)]⟩ = "{ a = 1 b = 2 }".toList := by decide +kernel

end Xo
