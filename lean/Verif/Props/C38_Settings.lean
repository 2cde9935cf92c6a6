import Verif.Model.Settings
import Verif.Lemmas.PropPath
import Verif.Props.C19_PropNodeEq
import Mathlib.Data.Rat.Cast.Order
import Mathlib.Tactic.Linarith

/-!
C38: settings.
-/
namespace Xo
open Spec PropNode Settings

namespace Spec
/-- None of the keys of the id (between the dots) starts with `#`. -/
def PlainId (id : Str) : Prop := ∀ k ks, PathKeys '.' k ks → id = pathStr '.' k ks → ∀ x ∈ k :: ks, PlainKey x

/-- `b` lies below `a`. -/
def Below (a b : Str) : Prop := ∃ t, b = a ++ '.' :: t

/-- A call of `set` and what it returned. -/
structure SetCall where
  id : Str
  value : PropNode
  result : Bool

/-- The last accepted value for an id. -/
def lastAccepted (id : Str) (h : List SetCall) : Option PropNode :=
  ((h.filter fun c => c.id = id ∧ c.result).getLast?).map (·.value)

/-- The number nearest to `x` in the range. -/
def nearest (r : Rat × Rat) (x : Rat) : Rat := max r.1 (min r.2 x)

/-- What `get` reads: the default after the default or an empty value was set, or when nothing was ever accepted;
otherwise the value itself, or, with a range, its number restricted to the range. -/
def reads (env : Env) (setting dflt : PropNode) : Option PropNode → PropNode → Prop
  | none, n => n = dflt
  | some v, n =>
    if v.eq dflt ∨ (v.value = [] ∧ v.kids = []) then n = dflt
    else match rangeOf env setting with
      | .ok (some r) => ∀ x, env.fromD v.value = some (some x) → r.1 ≤ r.2 → n = leaf (env.toD (some (nearest r x)))
      | _ => n = v
end Spec

/-- A history of calls of `set`, with the results they gave. -/
def runSets (env : Env) (schema : PropNode) : List (Str × PropNode) → PropNode → Res (PropNode × List SetCall)
  | [], data => .ok (data, [])
  | (id, v) :: h, data => (trySet env schema data id v).bind fun r =>
    (runSets env schema h r.2).bind fun q => .ok (q.1, ⟨id, v, r.1⟩ :: q.2)

theorem restrict_nearest (r : Rat × Rat) (x : Rat) (h : r.1 ≤ r.2) : restrict r (some x) = some (nearest r x) := by
  unfold restrict nearest
  simp only [ge_iff_le, gt_iff_lt]
  split
  · next h => rw [min_eq_right h.2, max_eq_right h.1]
  · split
    · next h1 => rw [max_eq_left (le_trans (min_le_right _ _) (le_of_lt h1))]
    · split
      · next h1 => rw [min_eq_left (le_of_lt h1), max_eq_right h]
      · next h1 h2 h3 => exact absurd ⟨not_lt.1 h2, not_lt.1 h3⟩ h1

/-- **C38, rejected calls.** `set` returns false and changes nothing for an id that is not a setting, for a value of a
wrong type, and for a value that is not in the list of allowed values (unless it is the default or empty). -/
theorem C38_rejected (env : Env) (schema data : PropNode) (id : Str) (v : PropNode) :
    (tryFind schema id = none → trySet env schema data id v = .ok (false, data)) ∧
    (∀ s dflt a, tryFind schema id = some s → s.tryGetChild "default".toList = some dflt → v.eq dflt = false →
      isEmpty v = false → s.tryGetChild "allowed".toList = some a → (∀ p ∈ a.kids, p.2.eq v = false) →
      trySet env schema data id v = .ok (false, data)) ∧
    (∀ s dflt, tryFind schema id = some s → s.tryGetChild "default".toList = some dflt → v.eq dflt = false →
      isEmpty v = false → typeOf s = "float".toList → env.float v = false → trySet env schema data id v = .ok (false, data)) ∧
    (∀ r, trySet env schema data id v = .ok r → r.1 = false → r.2 = data) := by
  refine ⟨fun h => by simp only [trySet, h], ?_, ?_, ?_⟩
  · intro s dflt a h1 h2 h3 h4 h5 h6
    have : allowedOk s v = false := by
      unfold allowedOk
      rw [h5]
      show (a.kids.any fun p => p.2.eq v) = false
      rw [List.any_eq_false]; intro p hp; rw [h6 p hp]; simp
    simp only [trySet, h1, getChild, h2, Res.ofOptionErr, Res.bind, h3, h4, Bool.or_self, Bool.false_eq_true, if_false,
      this, Bool.not_false, if_true]
    split <;> rfl
  · intro s dflt h1 h2 h3 h4 h5 h6
    have : typeOk env (typeOf s) v = false := by rw [h5]; simp [typeOk, h6]
    simp only [trySet, h1, getChild, h2, Res.ofOptionErr, Res.bind, h3, h4, Bool.or_self, Bool.false_eq_true, if_false,
      this, Bool.not_false, if_true]
  · intro r h hf
    unfold trySet at h
    cases hs : tryFind schema id with
    | none => rw [hs] at h; cases h; rfl
    | some s =>
      rw [hs] at h
      simp only [getChild, Res.ofOptionErr] at h
      cases hd : s.tryGetChild "default".toList with
      | none => rw [hd] at h; simp [Res.bind] at h
      | some dflt =>
        rw [hd] at h
        simp only [Res.bind] at h
        split at h
        · cases h; cases hf
        · split at h
          · cases h; rfl
          · split at h
            · cases h; rfl
            · cases hr : rangeOf env s with
              | ok r0 =>
                rw [hr] at h
                simp only at h
                cases r0 with
                | none => cases h; cases hf
                | some r1 =>
                  simp only at h
                  split at h
                  · cases h
                  · cases h; cases hf
              | err => rw [hr] at h; cases h
              | ub => rw [hr] at h; cases h

/-- What an accepted call does to the data. -/
theorem accepted_cases {env : Env} {schema data : PropNode} {id : Str} {v data' : PropNode}
    (h : trySet env schema data id v = .ok (true, data')) :
    ∃ s dflt, tryFind schema id = some s ∧ s.tryGetChild "default".toList = some dflt ∧
      ((v.eq dflt ∨ isEmpty v) ∧ data' = (data.eraseQuery id '.').2 ∨
       ¬(v.eq dflt ∨ isEmpty v) ∧
        (rangeOf env s = .ok none ∧ data' = data.setQuery id '.' v ∨
        ∃ r, rangeOf env s = .ok (some r) ∧
          data' = data.setQuery id '.' (leaf (env.toD (restrict r ((env.fromD v.value).getD (some 0))))))) := by
  unfold trySet at h
  cases hs : tryFind schema id with
  | none => rw [hs] at h; simp at h
  | some s =>
    rw [hs] at h
    simp only [getChild, Res.ofOptionErr] at h
    cases hd : s.tryGetChild "default".toList with
    | none => rw [hd] at h; simp [Res.bind] at h
    | some dflt =>
      rw [hd] at h
      simp only [Res.bind] at h
      refine ⟨s, dflt, rfl, hd, ?_⟩
      split at h
      · next hc =>
        cases h
        left
        exact ⟨by simpa using hc, rfl⟩
      · next hc =>
        right
        refine ⟨by simpa using hc, ?_⟩
        split at h
        · cases h
        · split at h
          · cases h
          · cases hr : rangeOf env s with
            | ok r0 =>
              rw [hr] at h
              simp only at h
              cases r0 with
              | none => cases h; exact Or.inl ⟨rfl, rfl⟩
              | some r1 =>
                simp only at h
                split at h
                · cases h
                · cases h; exact Or.inr ⟨r1, rfl, rfl⟩
            | err => rw [hr] at h; cases h
            | ub => rw [hr] at h; cases h

/-- The effect of a call on what is found at an id. -/
theorem trySet_lookup {env : Env} {schema data data' : PropNode} {id : Str} {v : PropNode}
    {k : Str} {ks : List Str} (hp : PathKeys '.' k ks) (e : id = pathStr '.' k ks) (hpl : ∀ x ∈ k :: ks, PlainKey x)
    (hu : UniqAlong data (k :: ks)) (h : trySet env schema data id v = .ok (true, data')) :
    UniqAlong data' (k :: ks) ∧ ∃ s dflt, tryFind schema id = some s ∧ s.tryGetChild "default".toList = some dflt ∧
      reads env s dflt (some v) ((data'.lookup (k :: ks)).getD dflt) := by
  obtain ⟨s, dflt, h1, h2, h3⟩ := accepted_cases h
  rcases h3 with ⟨hc, rfl⟩ | ⟨hc, h3⟩
  · rw [e, eraseQuery_path _ k ks hp hpl]
    refine ⟨uniqAlong_erasePath _ _ (Or.inl rfl) hu, s, dflt, e ▸ h1, h2, ?_⟩
    rw [lookup_erasePath_self (by simp) hu]
    simp only [reads]
    rw [if_pos]
    · rfl
    · rcases hc with hc | hc
      · exact Or.inl hc
      · right
        simpa [isEmpty] using hc
  · have hcond : ¬(v.eq dflt ∨ (v.value = [] ∧ v.kids = [])) := by
      rintro (hh | hh)
      · exact hc (Or.inl hh)
      · exact hc (Or.inr (by simp [isEmpty, hh.1, hh.2]))
    rcases h3 with ⟨hr, rfl⟩ | ⟨r, hr, rfl⟩
    · rw [setQuery, e, updQuery_path _ k ks _ hp hpl]
      refine ⟨uniqAlong_updPath_self _ _ hu, s, dflt, e ▸ h1, h2, ?_⟩
      rw [lookup_updPath_self]
      simp only [reads]
      rw [if_neg hcond, hr]
      rfl
    · rw [setQuery, e, updQuery_path _ k ks _ hp hpl]
      refine ⟨uniqAlong_updPath_self _ _ hu, s, dflt, e ▸ h1, h2, ?_⟩
      rw [lookup_updPath_self]
      simp only [reads]
      rw [if_neg hcond, hr]
      intro x hx hle
      rw [hx]
      show leaf (env.toD (restrict r (some x))) = _
      rw [restrict_nearest r x hle]

theorem trySet_other {env : Env} {schema data : PropNode} {id : Str} {v : PropNode} {r : Bool × PropNode}
    {k : Str} {ks q : List Str} (hp : PathKeys '.' k ks) (e : id = pathStr '.' k ks) (hpl : ∀ x ∈ k :: ks, PlainKey x)
    (hd : Diverge (k :: ks) q) (hu : UniqAlong data q) (h : trySet env schema data id v = .ok r) :
    UniqAlong r.2 q ∧ r.2.lookup q = data.lookup q := by
  obtain ⟨b, data'⟩ := r
  cases b with
  | false => rw [(C38_rejected env schema data id v).2.2.2 _ h rfl]; exact ⟨hu, rfl⟩
  | true =>
    obtain ⟨s, dflt, h1, h2, h3⟩ := accepted_cases h
    rcases h3 with ⟨_, rfl⟩ | ⟨_, ⟨_, rfl⟩ | ⟨r, _, rfl⟩⟩
    · rw [e, eraseQuery_path _ k ks hp hpl]
      exact ⟨uniqAlong_erasePath _ _ (Or.inr hd) hu, lookup_erasePath_diverge hd _⟩
    · rw [setQuery, e, updQuery_path _ k ks _ hp hpl]
      exact ⟨uniqAlong_updPath_diverge hd _ hu, lookup_updPath_diverge hd _ _⟩
    · rw [setQuery, e, updQuery_path _ k ks _ hp hpl]
      exact ⟨uniqAlong_updPath_diverge hd _ hu, lookup_updPath_diverge hd _ _⟩

/-- **C38 (partial), histories.** After any history of calls of `set` on fresh settings, `get` of a setting reads the
last accepted value (restricted to the range, when it is a number), or the default when nothing was accepted or the
last accepted value was the default or empty. The ids that are settings are made of plain names (no `#`), and no other
one lies above or below the setting that is read. -/
theorem C38_history_partial (env : Env) (schema : PropNode) (h : List (Str × PropNode)) (data : PropNode)
    (calls : List SetCall) (hrun : runSets env schema h .empty = .ok (data, calls))
    (id : Str) (s dflt : PropNode) (hs : tryFind schema id = some s) (hdf : s.tryGetChild "default".toList = some dflt)
    (hplain : PlainId id) (hothers : ∀ c ∈ h, (tryFind schema c.1).isSome →
      PlainId c.1 ∧ (c.1 = id ∨ ¬Below c.1 id ∧ ¬Below id c.1)) :
    calls.map (fun c => (c.id, c.value)) = h ∧
    ∃ n, getNode schema data id = .ok n ∧ reads env s dflt (lastAccepted id calls) n := by
  obtain ⟨k, ks, hp, e⟩ := C16_every_query_is_a_path '.' id
  have hpl := hplain k ks hp e
  -- one call after another, from any data
  have gen : ∀ (h : List (Str × PropNode)) (d : PropNode) (pre : List SetCall) (data : PropNode) (calls : List SetCall),
      UniqAlong d (k :: ks) → reads env s dflt (lastAccepted id pre) ((d.lookup (k :: ks)).getD dflt) →
      (∀ c ∈ h, (tryFind schema c.1).isSome → PlainId c.1 ∧ (c.1 = id ∨ ¬Below c.1 id ∧ ¬Below id c.1)) →
      runSets env schema h d = .ok (data, calls) →
      calls.map (fun c => (c.id, c.value)) = h ∧
        reads env s dflt (lastAccepted id (pre ++ calls)) ((data.lookup (k :: ks)).getD dflt) := by
    intro h
    induction h with
    | nil =>
      intro d pre data calls _ hr _ hrun
      cases hrun
      exact ⟨rfl, by rw [List.append_nil]; exact hr⟩
    | cons c h ih =>
      intro d pre data calls hu hr hoth hrun
      obtain ⟨cid, v⟩ := c
      simp only [runSets] at hrun
      cases ht : trySet env schema d cid v with
      | err => rw [ht] at hrun; cases hrun
      | ub => rw [ht] at hrun; cases hrun
      | ok r =>
        rw [ht] at hrun
        simp only [Res.bind] at hrun
        cases hq : runSets env schema h r.2 with
        | err => rw [hq] at hrun; cases hrun
        | ub => rw [hq] at hrun; cases hrun
        | ok q =>
          rw [hq] at hrun
          simp only [Res.ok.injEq, Prod.mk.injEq] at hrun
          obtain ⟨rfl, rfl⟩ := hrun
          have step : UniqAlong r.2 (k :: ks) ∧
              reads env s dflt (lastAccepted id (pre ++ [⟨cid, v, r.1⟩])) ((r.2.lookup (k :: ks)).getD dflt) := by
            have last : lastAccepted id (pre ++ [⟨cid, v, r.1⟩]) =
                if cid = id ∧ r.1 = true then some v else lastAccepted id pre := by
              unfold lastAccepted
              rw [List.filter_append]
              by_cases hc : cid = id ∧ r.1 = true
              · simp [hc]
              · rw [if_neg hc]
                have : List.filter (fun c : SetCall => decide (c.id = id ∧ c.result)) [⟨cid, v, r.1⟩] = [] := by
                  simp only [List.filter_cons, List.filter_nil]
                  rw [if_neg]
                  simpa using hc
                rw [this, List.append_nil]
            rw [last]
            by_cases hset : (tryFind schema cid).isSome
            · obtain ⟨hpc, hrel⟩ := hoth (cid, v) (by simp) hset
              by_cases hid : cid = id
              · subst hid
                cases hb : r.1 with
                | false =>
                  rw [if_neg (by simp), (C38_rejected env schema d cid v).2.2.2 _ ht hb]
                  exact ⟨hu, hr⟩
                | true =>
                  rw [if_pos ⟨rfl, rfl⟩]
                  obtain ⟨b, d'⟩ := r
                  cases hb
                  obtain ⟨h1, s', dflt', h2, h3, h4⟩ := trySet_lookup hp e hpl hu ht
                  rw [hs] at h2
                  cases h2
                  rw [hdf] at h3
                  cases h3
                  exact ⟨h1, h4⟩
              · rw [if_neg (fun hh => hid hh.1)]
                obtain ⟨k2, ks2, hp2, e2⟩ := C16_every_query_is_a_path '.' cid
                rcases hrel with hh | ⟨n1, n2⟩
                · exact absurd hh hid
                · have hd : Diverge (k2 :: ks2) (k :: ks) := by
                    apply diverge_of (d := '.')
                    · rw [← e2, ← e]; exact hid
                    · intro t ht; exact n1 ⟨t, by rw [e, e2]; exact ht⟩
                    · intro t ht; exact n2 ⟨t, by rw [e, e2]; exact ht⟩
                  have := trySet_other hp2 e2 (hpc k2 ks2 hp2 e2) hd hu ht
                  exact ⟨this.1, by rw [this.2]; exact hr⟩
            · have hn : tryFind schema cid = none := by
                cases hf : tryFind schema cid with
                | none => rfl
                | some x => rw [hf] at hset; exact absurd rfl hset
              have := (C38_rejected env schema d cid v).1 hn
              rw [ht] at this
              cases this
              rw [if_neg (by simp)]
              exact ⟨hu, hr⟩
          obtain ⟨h1, h2⟩ := ih r.2 (pre ++ [⟨cid, v, r.1⟩]) q.1 q.2 step.1 step.2
            (fun c hc => hoth c (List.mem_cons_of_mem _ hc)) hq
          refine ⟨by simp [h1], ?_⟩
          rw [List.append_assoc] at h2
          exact h2
  obtain ⟨h1, h2⟩ := gen h .empty [] data calls (uniqAlong_empty _) (by
    simp only [lastAccepted, List.filter_nil, List.getLast?_nil, Option.map_none, reads]
    rw [lookup_empty (by simp)]; rfl) hothers hrun
  refine ⟨h1, _, ?_, h2⟩
  unfold getNode
  rw [e, tryGetQuery_lookup _ k ks hp hpl, ← e, hs]
  cases hl : data.lookup (k :: ks) with
  | some n => rfl
  | none => simp only [getChild, hdf, Res.ofOptionErr]; rfl

/-- **C38, ranges.** The number that is stored lies in the range, if the range is not empty. -/
theorem C38_range (r : Rat × Rat) (x : Rat) (h : r.1 ≤ r.2) : r.1 ≤ nearest r x ∧ nearest r x ≤ r.2 ∧
    (r.1 ≤ x → x ≤ r.2 → nearest r x = x) := by
  refine ⟨le_max_left _ _, max_le h (min_le_left _ _), ?_⟩
  intro h1 h2
  unfold nearest
  rw [min_eq_right h2, max_eq_right h1]

/-- The settings of a file are set one after another: loading is a history of calls of `set`. -/
theorem C38_load (env : Env) (schema : PropNode) : ∀ (file : Kids) (data data' : PropNode),
    load env schema file data = .ok data' → ∃ h calls, runSets env schema h data = .ok (data', calls) ∧
      ∀ c ∈ h, (tryFind schema c.1).isSome := by
  have comp : ∀ (h1 h2 : List (Str × PropNode)) (d0 d1 d2 : PropNode) (c1 c2 : List SetCall),
      runSets env schema h1 d0 = .ok (d1, c1) → runSets env schema h2 d1 = .ok (d2, c2) →
      runSets env schema (h1 ++ h2) d0 = .ok (d2, c1 ++ c2) := by
    intro h1
    induction h1 with
    | nil => intro h2 d0 d1 d2 c1 c2 e1 e2; cases e1; exact e2
    | cons c h1 ih =>
      intro h2 d0 d1 d2 c1 c2 e1 e2
      obtain ⟨id, v⟩ := c
      simp only [List.cons_append, runSets] at e1 ⊢
      cases ht : trySet env schema d0 id v with
      | err => rw [ht] at e1; cases e1
      | ub => rw [ht] at e1; cases e1
      | ok r =>
        rw [ht] at e1
        simp only [Res.bind] at e1 ⊢
        cases hq : runSets env schema h1 r.2 with
        | err => rw [hq] at e1; cases e1
        | ub => rw [hq] at e1; cases e1
        | ok q =>
          rw [hq] at e1
          simp only [Res.ok.injEq, Prod.mk.injEq] at e1
          obtain ⟨rfl, rfl⟩ := e1
          rw [ih h2 r.2 q.1 d2 q.2 c2 hq e2]
          rfl
  have kidsGen : ∀ (ks : Kids),
      (∀ k c, (k, c) ∈ ks → ∀ id d d', setRecursive env schema c id d = .ok d' →
        ∃ h calls, runSets env schema h d = .ok (d', calls) ∧ ∀ c ∈ h, (tryFind schema c.1).isSome) →
      ∀ id d d', setRecursiveKids env schema ks id d = .ok d' →
        ∃ h calls, runSets env schema h d = .ok (d', calls) ∧ ∀ c ∈ h, (tryFind schema c.1).isSome := by
    intro ks
    induction ks with
    | nil => intro _ id d d' h; rw [setRecursiveKids] at h; cases h; exact ⟨[], [], rfl, by simp⟩
    | cons p ks ih =>
      intro hk id d d' h
      obtain ⟨k, c⟩ := p
      rw [setRecursiveKids] at h
      cases h1 : setRecursive env schema c (id ++ '.' :: k) d with
      | err => rw [h1] at h; cases h
      | ub => rw [h1] at h; cases h
      | ok d1 =>
        rw [h1] at h
        obtain ⟨a1, b1, e1, f1⟩ := hk k c (by simp) _ _ _ h1
        obtain ⟨a2, b2, e2, f2⟩ := ih (fun k c hc => hk k c (by simp [hc])) _ _ _ h
        refine ⟨a1 ++ a2, b1 ++ b2, comp _ _ _ _ _ _ _ e1 e2, ?_⟩
        intro c hc
        rcases List.mem_append.1 hc with hc | hc
        · exact f1 c hc
        · exact f2 c hc
  have recGen : ∀ (n : PropNode) id d d', setRecursive env schema n id d = .ok d' →
      ∃ h calls, runSets env schema h d = .ok (d', calls) ∧ ∀ c ∈ h, (tryFind schema c.1).isSome := by
    intro n
    induction n using PropNode.ind with
    | h v ks a ih =>
      intro id d d' h
      rw [setRecursive] at h
      split at h
      · next hf =>
        cases ht : trySet env schema d id (.mk v ks a) with
        | err => rw [ht] at h; cases h
        | ub => rw [ht] at h; cases h
        | ok r =>
          rw [ht] at h
          cases h
          exact ⟨[(id, .mk v ks a)], [⟨id, .mk v ks a, r.1⟩], by simp only [runSets, ht, Res.bind], by simpa using hf⟩
      · exact kidsGen ks (fun k c hc => ih k c hc) id d d' h
  intro file
  induction file with
  | nil => intro d d' h; cases h; exact ⟨[], [], rfl, by simp⟩
  | cons p ks ih =>
    intro d d' h
    obtain ⟨k, c⟩ := p
    rw [load] at h
    split at h
    · exact ih d d' h
    · cases h1 : setRecursive env schema c k d with
      | err => rw [h1] at h; cases h
      | ub => rw [h1] at h; cases h
      | ok d1 =>
        rw [h1] at h
        obtain ⟨a1, b1, e1, f1⟩ := recGen c _ _ _ h1
        obtain ⟨a2, b2, e2, f2⟩ := ih _ _ h
        refine ⟨a1 ++ a2, b1 ++ b2, comp _ _ _ _ _ _ _ e1 e2, ?_⟩
        intro c hc
        rcases List.mem_append.1 hc with hc | hc
        · exact f1 c hc
        · exact f2 c hc

/-! ### Violations -/

/-- Conversions for the examples: whole numbers, and nothing else. -/
def exampleEnv : Env where
  fromD s := if s = "nan".toList then some none else (strtol s).map fun i => some (i : Rat)
  toD x := match x with
    | none => "nan".toList
    | some q => intToStr q.num
  float _ := true
  int _ := true
  bool _ := true
  color _ := true
  vec3 _ := true
  string _ := true
  bounds n := if n.value = "1..9".toList then .ok (some (1, 9)) else .ok none

/-- A setting with a default and nothing else. -/
def plainSetting (d : Str) : PropNode := .mk [] [("default".toList, leaf d)] false

/-- The text that `get` reads after a history. -/
def readAfter (schema : PropNode) (h : List (Str × PropNode)) (id : Str) : Option (Str × List Bool) :=
  match runSets exampleEnv schema h .empty with
  | .ok (d, calls) => match getNode schema d id with
    | .ok n => some (n.value, calls.map (·.result))
    | _ => none
  | _ => none

/-- **C38 is violated by positions.** With the settings `a` and `b`, setting `b` to 5 and then `#1` (which is `a` in
the schema) to 7 changes `b` and not `a`: the data has `b` at the first place. -/
theorem C38_position_violated :
    let schema := PropNode.mk [] [("a".toList, plainSetting "0".toList), ("b".toList, plainSetting "0".toList)] false
    let h := [("b".toList, leaf "5".toList), ("#1".toList, leaf "7".toList)]
    readAfter schema h "b".toList = some ("7".toList, [true, true]) ∧
    readAfter schema h "a".toList = some ("0".toList, [true, true]) := by decide +kernel

/-- **C38 is violated by nested settings.** With the settings `a` and `a.b`, setting `a.b` makes `get( "a" )` read an
empty node instead of the default of `a`. -/
theorem C38_nested_violated :
    let schema := PropNode.mk [] [("a".toList, .mk [] [("default".toList, leaf "1".toList),
      ("b".toList, plainSetting "2".toList)] false)] false
    readAfter schema [] "a".toList = some ("1".toList, []) ∧
    readAfter schema [("a.b".toList, leaf "5".toList)] "a".toList = some ([], [true]) := by decide +kernel

/-- **C38 is violated by values that are not numbers.** A ranged setting without a type accepts every value: it stores 0,
restricted to the range, for a text that is not a number; and it stores NaN, which is in no range. -/
theorem C38_range_text_violated (env : Env) (schema data : PropNode) (id : Str) (s dflt v : PropNode) (r : Rat × Rat)
    (hs : tryFind schema id = some s) (hd : s.tryGetChild "default".toList = some dflt)
    (hty : s.tryGetChild "type".toList = none) (hal : s.tryGetChild "allowed".toList = none)
    (hr : rangeOf env s = .ok (some r)) (hnum : env.fromD dflt.value ≠ none)
    (hv : v.eq dflt = false) (he : isEmpty v = false) :
    (env.fromD v.value = none → ∃ data', trySet env schema data id v = .ok (true, data') ∧
        getNode schema data' id = .ok (leaf (env.toD (restrict r (some 0))))) ∧
    (env.fromD v.value = some none → ∃ data', trySet env schema data id v = .ok (true, data') ∧
        getNode schema data' id = .ok (leaf (env.toD none))) := by
  have hg : ∀ x, getNode schema (data.setQuery id '.' x) id = .ok x := by
    intro x
    unfold getNode
    rw [C16_set_then_get]
  have hset : trySet env schema data id v =
      .ok (true, data.setQuery id '.' (leaf (env.toD (restrict r ((env.fromD v.value).getD (some 0)))))) := by
    have h1 : typeOk env (typeOf s) v = true := by
      unfold typeOf; rw [hty]; rfl
    have h2 : allowedOk s v = true := by unfold allowedOk; rw [hal]
    simp only [trySet, hs, getChild, hd, Res.ofOptionErr, Res.bind, hv, he, Bool.or_self, Bool.false_eq_true, if_false,
      h1, h2, Bool.not_true, hr, if_neg hnum]
  refine ⟨fun hx => ⟨_, hset, ?_⟩, fun hx => ⟨_, hset, ?_⟩⟩
  · rw [hg, hx]; rfl
  · rw [hg, hx]; rfl

/-- Non-vacuity: a history with accepted, restricted, rejected and withdrawn values. -/
def exampleSchema : PropNode := .mk [] [("g".toList, .mk [] [
    ("x".toList, .mk [] [("default".toList, leaf "3".toList), ("range".toList, leaf "1..9".toList)] false),
    ("y".toList, .mk [] [("default".toList, leaf "p".toList),
      ("allowed".toList, .mk [] [([], leaf "p".toList), ([], leaf "q".toList)] false)] false)] false)] false
example : readAfter exampleSchema [("g.x".toList, leaf "12".toList), ("g.y".toList, leaf "q".toList),
      ("g.y".toList, leaf "r".toList), ("g.z".toList, leaf "1".toList)] "g.x".toList =
    some ("9".toList, [true, true, false, false]) := by decide +kernel
example : readAfter exampleSchema [("g.x".toList, leaf "12".toList), ("g.y".toList, leaf "q".toList),
      ("g.x".toList, leaf "3".toList)] "g.x".toList = some ("3".toList, [true, true, true]) := by decide +kernel
example : readAfter exampleSchema [("g.x".toList, leaf "abc".toList)] "g.x".toList = some ("1".toList, [true]) := by
  decide +kernel
example : ¬Below "g.x".toList "g.y".toList := by
  rintro ⟨t, h⟩
  have := congrArg (fun l => l.take 3) h
  exact absurd this (by simp)

/-- **C38.** Only nodes of the schema with a default are settings: setting anything else is refused and changes nothing. -/
theorem C38_only_settings (env : Env) (schema data : PropNode) (id : Str) (v : PropNode)
    (h : ∀ s, schema.tryGetQuery id '.' = some s → s.tryGetChild "default".toList = none) :
    trySet env schema data id v = .ok (false, data) := by
  refine (C38_rejected env schema data id v).1 ?_
  unfold tryFind
  cases hq : schema.tryGetQuery id '.' with
  | none => rfl
  | some s =>
    have := h s hq
    have hk : s.hasKey "default".toList = false := by unfold PropNode.hasKey; rw [this]; rfl
    dsimp only
    rw [hk]
    rfl

/-- **C38.** A node of the schema with a default is a setting. -/
theorem C38_settings_found (schema : PropNode) (id : Str) (s : PropNode) (h : tryFind schema id = some s) :
    schema.tryGetQuery id '.' = some s ∧ s.hasKey "default".toList = true := by
  unfold tryFind at h
  split at h
  · next q hq =>
    split at h
    · next hk => cases h; exact ⟨hq, hk⟩
    · cases h
  · cases h

end Xo
