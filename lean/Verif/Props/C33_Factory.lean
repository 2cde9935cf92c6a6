import Verif.Model.Factory
import Verif.Lemmas.FlatMap
import Mathlib.Data.Nat.Basic
import Mathlib.Order.Lattice

/-!
C33: the factory is a registry under every history.
-/
namespace Xo
variable {K A O : Type} [LinearOrder K]

namespace Spec
open Factory (Op Out)

/-- The registry of creators after a history, newest call first: a `register` counts only if the name was free. -/
def registered : List (Op K A O) → K → Option (A → Res O)
  | [], _ => none
  | .register id c :: past, k =>
    if k = id then (match registered past id with | some old => some old | none => some c) else registered past k
  | .unregister id :: past, k => if k = id then none else registered past k
  | .create _ _ :: past, k => registered past k
  | .tryCreate _ _ :: past, k => registered past k

/-- What a call must report when `reg` are the creators registered so far. -/
def factoryReport (reg : K → Option (A → Res O)) : Op K A O → Out O
  | .register id _ => .done (if (reg id).isSome then .err else .ok ())
  | .unregister id => .done (if (reg id).isSome then .ok () else .err)
  | .create id a => .made (match reg id with | some c => c a | none => .err)
  | .tryCreate id a => .tried (match reg id with | some c => (c a).map some | none => .ok none)

/-- The reports of a history that continues `past` (newest first). -/
def factoryReports (past : List (Op K A O)) : List (Op K A O) → List (Out O)
  | [] => []
  | op :: ops => factoryReport (registered past) op :: factoryReports (op :: past) ops

end Spec
open FlatMap Spec

theorem findIt_getElem_hit {as cs : List (K × (A → Res O))} {k : K} {c : A → Res O}
    (h1 : ∀ a ∈ as, a.1 < k) (h2 : ∀ x ∈ cs, k < x.1) :
    (as ++ (k, c) :: cs)[findIt ⟨as ++ (k, c) :: cs⟩ k]? = some (k, c) ∧
      findIt ⟨as ++ (k, c) :: cs⟩ k ≠ (as ++ (k, c) :: cs).length := by
  rw [findIt_hit h1 h2]
  simp

theorem C33_step (f : Factory K A O) (past : List (Factory.Op K A O)) (hr : Rel f.funcs (registered past))
    (op : Factory.Op K A O) :
    Rel (f.step op).1.funcs (registered (op :: past)) ∧ (f.step op).2 = factoryReport (registered past) op := by
  obtain ⟨⟨l⟩⟩ := f
  cases op with
  | register id c =>
    have hreg : registered (.register id c :: past) =
        AMap.update (registered past) id (match registered past id with | some old => some old | none => some c) := by
      funext k; simp only [registered, AMap.update]
    rcases locate l hr.1 id with ⟨as, w, cs, rfl, h1, h2⟩ | ⟨as, cs, rfl, h1, h2⟩
    · have hs := rel_hit hr
      refine ⟨?_, ?_⟩
      · rw [hreg, hs]
        simp only [Factory.step, Factory.registerType, contains_hit h1 h2, if_true]
        rw [update_self hs]; exact hr
      · simp only [Factory.step, Factory.registerType, contains_hit h1 h2, if_true, factoryReport, hs, Option.isSome]
    · have hs := rel_miss hr h1 h2
      refine ⟨?_, ?_⟩
      · rw [hreg, hs]
        simp only [Factory.step, Factory.registerType, contains_miss h1 h2, assign_miss h1 h2, Bool.false_eq_true,
          if_false]
        exact rel_put c hr.1 (fun k' v' _ => hr.2 k' v') h1 h2
      · simp [Factory.step, Factory.registerType, contains_miss h1 h2, factoryReport, hs]
  | unregister id =>
    have hreg : registered (.unregister id :: past) = AMap.update (registered past) id none := by
      funext k; simp only [registered, AMap.update]
    rw [hreg]
    rcases locate l hr.1 id with ⟨as, w, cs, rfl, h1, h2⟩ | ⟨as, cs, rfl, h1, h2⟩
    · have hs := rel_hit hr
      have hne := (findIt_getElem_hit (c := w) h1 h2).2
      simp only [Factory.step, Factory.unregisterType, if_neg hne, factoryReport, hs, Option.isSome, if_true]
      rw [findIt_hit h1 h2, eraseIdx_append_length]
      exact ⟨rel_del (sorted_remove hr.1) (rel_others_hit hr) h1 h2, by trivial⟩
    · have hs := rel_miss hr h1 h2
      simp only [Factory.step, Factory.unregisterType, findIt_miss h1 h2, if_true, factoryReport, hs, Option.isSome]
      exact ⟨rel_del hr.1 (fun k' v' _ => hr.2 k' v') h1 h2, by simp⟩
  | create id a =>
    refine ⟨hr, ?_⟩
    rcases locate l hr.1 id with ⟨as, w, cs, rfl, h1, h2⟩ | ⟨as, cs, rfl, h1, h2⟩
    · have hh := findIt_getElem_hit (c := w) h1 h2
      simp only [Factory.step, Factory.create, if_neg hh.2, hh.1, factoryReport, rel_hit hr]
    · simp only [Factory.step, Factory.create, findIt_miss h1 h2, if_true, factoryReport, rel_miss hr h1 h2]
  | tryCreate id a =>
    refine ⟨hr, ?_⟩
    rcases locate l hr.1 id with ⟨as, w, cs, rfl, h1, h2⟩ | ⟨as, cs, rfl, h1, h2⟩
    · have hh := findIt_getElem_hit (c := w) h1 h2
      simp only [Factory.step, Factory.tryCreate, if_neg hh.2, hh.1, factoryReport, rel_hit hr]
    · simp only [Factory.step, Factory.tryCreate, findIt_miss h1 h2, if_true, factoryReport, rel_miss hr h1 h2]

theorem C33_run (ops : List (Factory.Op K A O)) :
    ∀ (f : Factory K A O) (past : List (Factory.Op K A O)), Rel f.funcs (registered past) →
      Rel (f.run ops).1.funcs (registered (ops.reverse ++ past)) ∧ (f.run ops).2 = factoryReports past ops := by
  induction ops with
  | nil => intro f past h; exact ⟨h, rfl⟩
  | cons op ops ih =>
    intro f past h
    have h1 := C33_step f past h op
    have h2 := ih _ _ h1.1
    simp only [Factory.run, factoryReports]
    refine ⟨?_, by rw [h1.2, h2.2]⟩
    simpa using h2.1

theorem Rel_empty : Rel (Factory.empty : Factory K A O).funcs (registered []) :=
  ⟨List.Pairwise.nil, by simp [Factory.empty, FlatMap.empty, registered]⟩

theorem hasType_of_rel (f : Factory K A O) (s : AMap K (A → Res O)) (hr : Rel f.funcs s) (k : K) :
    f.hasType k = (s k).isSome := by
  obtain ⟨⟨l⟩⟩ := f
  rcases locate l hr.1 k with ⟨as, w, cs, rfl, h1, h2⟩ | ⟨as, cs, rfl, h1, h2⟩
  · rw [rel_hit hr]
    have := (findIt_getElem_hit (c := w) h1 h2).2
    simpa [Factory.hasType] using this
  · rw [rel_miss hr h1 h2]
    simp [Factory.hasType, findIt_miss h1 h2]

/-- **C33.** After any history of calls every report is that of the registry of the history: registering a used
name and unregistering or creating an unknown one are errors, `create` runs the creator registered under the name,
`try_create` gives null exactly for unknown names; `has_type` tells exactly the registered names, `empty` that
there are none. -/
theorem C33_factory_is_registry (ops : List (Factory.Op K A O)) :
    let r := (Factory.empty : Factory K A O).run ops
    let reg := registered ops.reverse
    r.2 = factoryReports [] ops ∧
    (∀ k, r.1.hasType k = (reg k).isSome) ∧
    (r.1.isEmpty = true ↔ ∀ k, reg k = none) := by
  have h := C33_run ops Factory.empty [] Rel_empty
  rw [List.append_nil] at h
  refine ⟨h.2, fun k => hasType_of_rel _ _ h.1 k, ?_⟩
  simp only [Factory.isEmpty, List.isEmpty_iff]
  constructor
  · intro he k
    cases hk : registered ops.reverse k with
    | none => rfl
    | some c => have := (h.1.2 k c).2 hk; rw [he] at this; simp at this
  · intro hn
    rw [List.eq_nil_iff_forall_not_mem]
    rintro ⟨k, c⟩ hm
    have := (h.1.2 k c).1 hm
    rw [hn k] at this; cases this

/-- Registering a used name is an error and changes nothing, in any state. -/
theorem C33_register_used_changes_nothing (f : Factory K A O) (id : K) (c : A → Res O)
    (h : (f.registerType id c).1 ≠ .ok ()) : (f.registerType id c) = (.err, f) := by
  unfold Factory.registerType at *
  split
  · rfl
  · next hc => rw [if_neg hc] at h; exact absurd rfl h

/-- `find_factory_prop_node` gives the first child whose key is registered, and nothing iff there is none. -/
theorem C33_find_prop_node {B : Type} (ops : List (Factory.Op K A O)) (kids : List (K × B)) :
    (∀ kv, ((Factory.empty : Factory K A O).run ops).1.findPropNode kids = some kv ↔
      ∃ pre post, kids = pre ++ kv :: post ∧ (registered ops.reverse kv.1).isSome = true ∧
        ∀ x ∈ pre, registered ops.reverse x.1 = none) := by
  have h := (C33_factory_is_registry (A := A) (O := O) ops).2.1
  intro kv
  unfold Factory.findPropNode
  rw [List.find?_eq_some_iff_append]
  constructor
  · rintro ⟨hp, as, bs, rfl, hn⟩
    refine ⟨as, bs, rfl, by rw [← h]; exact hp, fun x hx => ?_⟩
    have := hn x hx
    rw [h] at this; simpa using this
  · rintro ⟨as, bs, rfl, hp, hn⟩
    refine ⟨by rw [h]; exact hp, as, bs, rfl, fun x hx => ?_⟩
    rw [h, hn x hx]; rfl

/-- The creator in force under a name is the last one registered while the name was free: the history splits at
its registration, and the name is neither free before nor unregistered after. -/
theorem C33_last_successful (past : List (Factory.Op K A O)) (k : K) (c : A → Res O) :
    registered past k = some c ↔
      ∃ newer older, past = newer ++ .register k c :: older ∧ registered older k = none ∧
        (Factory.Op.unregister k : Factory.Op K A O) ∉ newer := by
  induction past with
  | nil => simp [registered]
  | cons op past ih =>
    have lift : (∃ newer older, past = newer ++ .register k c :: older ∧ registered older k = none ∧
        (Factory.Op.unregister k : Factory.Op K A O) ∉ newer) → op ≠ .unregister k →
        ∃ newer older, op :: past = newer ++ .register k c :: older ∧ registered older k = none ∧
        (Factory.Op.unregister k : Factory.Op K A O) ∉ newer := by
      rintro ⟨n, o, rfl, h1, h2⟩ hne
      exact ⟨op :: n, o, rfl, h1, by simp [h2, Ne.symm hne]⟩
    have lower : (∃ newer older, op :: past = newer ++ .register k c :: older ∧ registered older k = none ∧
        (Factory.Op.unregister k : Factory.Op K A O) ∉ newer) →
        (op = .register k c ∧ registered past k = none) ∨
        (op ≠ .unregister k ∧ registered past k = some c) := by
      rintro ⟨n, o, he, h1, h2⟩
      cases n with
      | nil =>
        simp only [List.nil_append, List.cons.injEq] at he
        obtain ⟨rfl, rfl⟩ := he
        exact .inl ⟨rfl, h1⟩
      | cons x n =>
        simp only [List.cons_append, List.cons.injEq] at he
        obtain ⟨rfl, rfl⟩ := he
        simp only [List.mem_cons, not_or] at h2
        exact .inr ⟨Ne.symm h2.1, ih.2 ⟨n, o, rfl, h1, h2.2⟩⟩
    constructor
    · intro h
      cases op with
      | register id d =>
        simp only [registered] at h
        split at h
        · next hk =>
          subst hk
          split at h
          · next old ho => cases h; exact lift (ih.1 ho) (by simp)
          · next ho => cases h; exact ⟨[], past, rfl, ho, by simp⟩
        · exact lift (ih.1 h) (by simp)
      | unregister id =>
        simp only [registered] at h
        split at h
        · cases h
        · next hk => exact lift (ih.1 h) (by simpa using Ne.symm hk)
      | create id a => exact lift (ih.1 h) (by simp)
      | tryCreate id a => exact lift (ih.1 h) (by simp)
    · intro h
      rcases lower h with ⟨rfl, h1⟩ | ⟨hne, h1⟩
      · simp [registered, h1]
      · cases op with
        | register id d =>
          simp only [registered]
          split
          · next hk => subst hk; rw [h1]
          · exact h1
        | unregister id =>
          simp only [registered]
          rw [if_neg (by rintro rfl; exact hne rfl)]; exact h1
        | create id a => exact h1
        | tryCreate id a => exact h1

/-- A `factory_registrant` whose scope leaves its name alone restores the registry it found. -/
theorem C33_registrant_restores (before ops : List (Factory.Op K A O)) (id : K) (c : A → Res O)
    (hfree : registered before.reverse id = none) (hkeep : (Factory.Op.unregister id : Factory.Op K A O) ∉ ops) :
    ∃ f', ((Factory.empty : Factory K A O).run before).1.registrantScope id c ops = .ok f' ∧
      (∀ k, f'.hasType k = if k = id then false
        else (registered (ops.reverse ++ before.reverse) k).isSome) := by
  have h0 := (C33_run before (Factory.empty : Factory K A O) [] Rel_empty).1
  rw [List.append_nil] at h0
  generalize ((Factory.empty : Factory K A O).run before).1 = f at h0
  have s1 := C33_step f before.reverse h0 (.register id c)
  have e1 : (f.registerType id c).1 = .ok () := by
    have := s1.2
    simpa [Factory.step, factoryReport, hfree] using this
  have r1 : Rel (f.registerType id c).2.funcs (registered (.register id c :: before.reverse)) := s1.1
  have r2 := (C33_run ops _ _ r1).1
  have hreg : registered (ops.reverse ++ .register id c :: before.reverse) id = some c :=
    (C33_last_successful _ id c).2 ⟨ops.reverse, before.reverse, rfl, hfree, by simpa using hkeep⟩
  have s3 := C33_step _ _ r2 (.unregister id)
  have e3 : (((f.registerType id c).2.run ops).1.unregisterType id).1 = .ok () := by
    have := s3.2
    simpa [Factory.step, factoryReport, hreg] using this
  refine ⟨(((f.registerType id c).2.run ops).1.unregisterType id).2, ?_, ?_⟩
  · unfold Factory.registrantScope
    generalize f.registerType id c = p at *
    obtain ⟨p1, p2⟩ := p
    simp only at e1 e3 ⊢
    subst e1
    simp only
    generalize (p2.run ops).1.unregisterType id = q at *
    obtain ⟨q1, q2⟩ := q
    simp only at e3; subst e3; rfl
  · intro k
    have e4 := hasType_of_rel _ _ s3.1 k
    simp only [Factory.step] at e4
    rw [e4]
    simp only [registered]
    split
    · rfl
    · next hk =>
      congr 1
      generalize ops.reverse = l
      induction l with
      | nil => simp [registered, hk]
      | cons op l ih =>
        cases op with
        | register i d =>
          simp only [List.cons_append, registered]
          split
          · next hki => subst hki; rw [ih]
          · exact ih
        | unregister i => simp only [List.cons_append, registered]; split <;> [rfl; exact ih]
        | create _ _ => simpa [registered] using ih
        | tryCreate _ _ => simpa [registered] using ih

/-- Beyond C33: if the name is unregistered by hand inside the scope of a `factory_registrant` and not registered
again, the destructor throws, which ends the program. -/
theorem C33_registrant_manual_unregister_terminates (before : List (Factory.Op K A O)) (id : K) (c : A → Res O)
    (hfree : registered before.reverse id = none) :
    ((Factory.empty : Factory K A O).run before).1.registrantScope id c [.unregister id] = .ub := by
  have h0 := (C33_run before (Factory.empty : Factory K A O) [] Rel_empty).1
  rw [List.append_nil] at h0
  generalize ((Factory.empty : Factory K A O).run before).1 = f at h0
  have s1 := C33_step f before.reverse h0 (.register id c)
  have e1 : (f.registerType id c).1 = .ok () := by
    have := s1.2
    simpa [Factory.step, factoryReport, hfree] using this
  have r1 : Rel (f.registerType id c).2.funcs (registered (.register id c :: before.reverse)) := s1.1
  have s2 := C33_step _ _ r1 (.unregister id)
  have s3 := C33_step _ _ s2.1 (.unregister id)
  have e3 : ((((f.registerType id c).2.step (.unregister id)).1).unregisterType id).1 = .err := by
    have := s3.2
    simpa [Factory.step, factoryReport, registered] using this
  unfold Factory.registrantScope
  generalize f.registerType id c = p at *
  obtain ⟨p1, p2⟩ := p
  simp only at e1 e3 ⊢
  subst e1
  simp only [Factory.run]
  generalize ((p2.step (.unregister id)).1).unregisterType id = q at *
  obtain ⟨q1, q2⟩ := q
  simp only at e3; subst e3; rfl

/-- Non-vacuity: register 1, register 1 again (error), create 1 and 2, unregister 1, create 1 (error). -/
example : (((Factory.empty : Factory Nat Nat Nat).run
    [.register 1 (fun a => .ok (a + 10)), .register 1 (fun a => .ok (a + 20)), .create 1 5, .tryCreate 2 5,
     .unregister 1, .create 1 5]).2.map fun
      | .done r => (0, r.isOk, 0)
      | .made (.ok v) => (1, true, v)
      | .made _ => (1, false, 0)
      | .tried (.ok (some v)) => (2, true, v)
      | .tried (.ok none) => (2, true, 99)
      | .tried _ => (2, false, 0))
    = [(0, true, 0), (0, false, 0), (1, true, 15), (2, true, 99), (0, true, 0), (1, false, 0)] := by
  decide +kernel

example : registered ([] : List (Factory.Op Nat Nat Nat)).reverse 3 = none := rfl

end Xo
