import Verif.Lemmas.SettingsFile
import Verif.Props.C31_VersionText

/-!
C112: settings on disk.
-/
namespace Xo
namespace SetDisk
open _root_.Xo.Spec PropNode Settings

namespace Spec
/-- The id names a setting. -/
def Setting (schema : PropNode) (id : Str) : Prop := (tryFind schema id).isSome = true

/-- A well-formed description of settings: no setting lies below another one, none is called `version`, and a setting
with a range has a number as its default, no list of allowed values, and writes its numbers in a way that it accepts
and reads as the same number. -/
structure Proper (cfg : Cfg) : Prop where
  nested : ∀ a b, Setting cfg.schema a → Setting cfg.schema b → PlainId a → PlainId b → ¬Below a b
  version : ∀ a, Setting cfg.schema a → PlainId a → a ≠ "version".toList ∧ ¬Below "version".toList a
  ranges : ∀ a s, tryFind cfg.schema a = some s → rangeOf cfg.env s = .ok none ∨
    ∃ r dflt, rangeOf cfg.env s = .ok (some r) ∧ s.tryGetChild "default".toList = some dflt ∧
      cfg.env.fromD dflt.value ≠ none ∧ s.tryGetChild "allowed".toList = none ∧
      ∀ y, cfg.env.toD (restrict r y) ≠ [] ∧ typeOk cfg.env (typeOf s) (leaf (cfg.env.toD (restrict r y))) = true ∧
        cfg.env.toD (restrict r ((cfg.env.fromD (cfg.env.toD (restrict r y))).getD (some 0))) = cfg.env.toD (restrict r y)

/-- The ids of the settings in a file do not use positions. -/
def PlainFile (schema t : PropNode) : Prop := ∀ c ∈ entries schema t.kids, PlainId c.1

/-- The calls do not use positions. -/
def PlainOps (ops : List Op) : Prop := ∀ id v, Op.set id v ∈ ops → PlainId id

/-- Two objects give equal values for a setting. -/
def ReadSame (schema a b : PropNode) (id : Str) : Prop :=
  ∃ n m, getNode schema a id = .ok n ∧ getNode schema b id = .ok m ∧ n.eq m = true

/-- All files are without positions. -/
def PlainDisk (schema : PropNode) (d : Disk) : Prop := ∀ name t, d.files name = some (some t) → PlainFile schema t

/-- An object and a disk that a program reaches: it creates the settings from a file, and then sets, loads, saves and
resets as often as it likes. -/
def Reached (cfg : Cfg) (o : Obj) (d : Disk) : Prop := ∃ name d0 o0 d1 ops, PlainDisk cfg.schema d0 ∧
  create cfg name d0 = (some o0, d1) ∧ PlainOps ops ∧ run cfg ops (o0, d1) = (o, d)

/-- What a call with a value makes of what is stored: nothing when it is rejected, otherwise the default (nothing is
stored), or a value. -/
def becomes (cfg : Cfg) (id : Str) (old : Option PropNode) (v : PropNode) : Option PropNode :=
  match trySet cfg.env cfg.schema .empty id v with
  | .ok (true, d) => d.tryGetQuery id '.'
  | _ => old
end Spec

open _root_.Xo.SetDisk.Spec

/-! ### The invariant -/

/-- A stored value is accepted again, as it is or as the default. -/
def Keeps (cfg : Cfg) (id : Str) (n : PropNode) : Prop :=
  verdict cfg id n = .ok (some (some n)) ∨ verdict cfg id n = .ok (some none) ∧
    ∃ s dflt, tryFind cfg.schema id = some s ∧ s.tryGetChild "default".toList = some dflt ∧ n.eq dflt = true

structure Inv (cfg : Cfg) (d : PropNode) : Prop where
  grp : Grp cfg.schema d []
  keeps : ∀ p, (∀ x ∈ p, Name x) → isSet cfg.schema p = true → ∀ n, d.lookup p = some n → Keeps cfg (idOf p) n
  ver : ∀ c, d.lookup ["version".toList] = some c → c = leaf cfg.current.toStr

theorem isSet_iff {schema : PropNode} {p : List Str} : isSet schema p = true ↔ p ≠ [] ∧ Setting schema (idOf p) := by
  simp [isSet, Setting]

theorem flat_of {cfg : Cfg} (h : Proper cfg) : Flat cfg.schema := by
  intro p q hn h1 h2
  rw [isSet_iff] at h1 h2
  cases q with
  | nil => rfl
  | cons k ks =>
    exfalso
    refine h.nested _ _ h1.2 h2.2 (plainId_idOf h1.1 (fun x hx => hn x (by simp [hx])))
      (plainId_idOf h2.1 hn) ⟨idOf (k :: ks), ?_⟩
    exact idOf_append h1.1 (by simp)

theorem diverge_settings {cfg : Cfg} (h : Proper cfg) {p q : List Str} (hp : ∀ x ∈ p, Name x) (hq : ∀ x ∈ q, Name x)
    (h1 : isSet cfg.schema p = true) (h2 : isSet cfg.schema q = true) (hne : p ≠ q) : Diverge p q := by
  rw [isSet_iff] at h1 h2
  cases p with
  | nil => exact absurd rfl h1.1
  | cons k ks => cases q with
    | nil => exact absurd rfl h2.1
    | cons k2 ks2 =>
      apply diverge_of (d := '.')
      · intro e
        exact hne (idOf_inj (by simp) (by simp) (fun x hx => (hp x hx).1) (fun x hx => (hq x hx).1) e)
      · rintro t e
        exact h.nested _ _ h1.2 h2.2 (plainId_idOf (by simp) hp) (plainId_idOf (by simp) hq) ⟨t, e⟩
      · rintro t e
        exact h.nested _ _ h2.2 h1.2 (plainId_idOf (by simp) hq) (plainId_idOf (by simp) hp) ⟨t, e⟩

theorem diverge_version {cfg : Cfg} (h : Proper cfg) {p : List Str} (hp : ∀ x ∈ p, Name x)
    (h1 : isSet cfg.schema p = true) : Diverge p ["version".toList] := by
  rw [isSet_iff] at h1
  cases p with
  | nil => exact absurd rfl h1.1
  | cons k ks =>
    have := h.version _ h1.2 (plainId_idOf (by simp) hp)
    apply Diverge.here
    rintro rfl
    cases ks with
    | nil => exact this.1 rfl
    | cons k ks => exact this.2 ⟨_, rfl⟩

theorem pathKeys {k : Str} {ks : List Str} (h : ∀ x ∈ k :: ks, Name x) : PathKeys '.' k ks :=
  ⟨(h k (by simp)).1, fun x hx => (h x (by simp [hx])).1⟩

theorem setting_dflt {schema : PropNode} {id : Str} {s : PropNode} (h : tryFind schema id = some s) :
    ∃ dflt, s.tryGetChild "default".toList = some dflt := by
  have := (C38_settings_found schema id s h).2
  unfold PropNode.hasKey at this
  exact Option.isSome_iff_exists.1 this

/-- A call never throws. -/
theorem verdict_ok {cfg : Cfg} (h : Proper cfg) (id : Str) (v : PropNode) : ∃ r, verdict cfg id v = .ok r := by
  unfold verdict
  cases hs : tryFind cfg.schema id with
  | none => exact ⟨_, rfl⟩
  | some s =>
    obtain ⟨dflt, hd⟩ := setting_dflt hs
    simp only [getChild, hd, Res.ofOptionErr, Res.bind]
    split
    · exact ⟨_, rfl⟩
    · split
      · exact ⟨_, rfl⟩
      · split
        · exact ⟨_, rfl⟩
        · rcases h.ranges id s hs with hr | ⟨r, dflt', hr, hd', hx, _⟩
          · rw [hr]; exact ⟨_, rfl⟩
          · rw [hd] at hd'
            cases hd'
            rw [hr]
            simp only [if_neg hx]
            exact ⟨_, rfl⟩

/-- What is stored is accepted again. -/
theorem verdict_keeps {cfg : Cfg} (h : Proper cfg) {id : Str} {v n : PropNode}
    (hv : verdict cfg id v = .ok (some (some n))) : Keeps cfg id n := by
  have hv' := hv
  unfold verdict at hv
  cases hs : tryFind cfg.schema id with
  | none => rw [hs] at hv; cases hv
  | some s =>
    obtain ⟨dflt, hd⟩ := setting_dflt hs
    rw [hs] at hv
    simp only [getChild, hd, Res.ofOptionErr, Res.bind] at hv
    split at hv
    · cases hv
    · split at hv
      · cases hv
      · split at hv
        · cases hv
        · rcases h.ranges id s hs with hr | ⟨r, dflt', hr, hd', hx, ha, hy⟩
          · rw [hr] at hv
            simp only [Res.ok.injEq, Option.some.injEq] at hv
            subst hv
            exact Or.inl hv'
          · rw [hd] at hd'
            cases hd'
            rw [hr] at hv
            simp only [if_neg hx, Res.ok.injEq, Option.some.injEq] at hv
            subst hv
            obtain ⟨y1, y2, y3⟩ := hy ((cfg.env.fromD v.value).getD (some 0))
            unfold Keeps verdict
            rw [hs]
            simp only [getChild, hd, Res.ofOptionErr, Res.bind]
            by_cases he : (leaf (cfg.env.toD (restrict r ((cfg.env.fromD v.value).getD (some 0))))).eq dflt = true
            · right
              rw [he]
              exact ⟨rfl, s, dflt, rfl, hd, he⟩
            · left
              have e0 : isEmpty (leaf (cfg.env.toD (restrict r ((cfg.env.fromD v.value).getD (some 0))))) = false := by
                simp [isEmpty, leaf, y1]
              have e1 : allowedOk s (leaf (cfg.env.toD (restrict r ((cfg.env.fromD v.value).getD (some 0))))) = true := by
                unfold allowedOk; rw [ha]
              rw [Bool.eq_false_iff.2 he, e0, y2, e1, hr]
              simp only [Bool.or_self, Bool.false_eq_true, if_false, Bool.not_true, if_neg hx]
              exact congrArg (fun z => Res.ok (some (some (leaf z)))) y3

theorem applyV_path {p : List Str} (hp : p ≠ []) (hn : ∀ x ∈ p, Name x) (d : PropNode) (r : Option (Option PropNode)) :
    applyV (idOf p) d r = match r with
      | none => d
      | some none => erasePath p d
      | some (some n) => updPath (fun _ => n) p d := by
  cases p with
  | nil => exact absurd rfl hp
  | cons k ks =>
    match r with
    | none => rfl
    | some none => exact eraseQuery_path d k ks (pathKeys hn) (fun x hx => (hn x hx).2)
    | some (some n) => exact updQuery_path d k ks _ (pathKeys hn) (fun x hx => (hn x hx).2)

theorem not_setting {cfg : Cfg} {id : Str} (h : ¬Setting cfg.schema id) (v : PropNode) : verdict cfg id v = .ok none := by
  unfold verdict
  cases hs : tryFind cfg.schema id with
  | none => rfl
  | some s => exact absurd (by simp [Setting, hs]) h

/-- What a verdict makes of what is stored. -/
def upd (old : Option PropNode) : Res (Option (Option PropNode)) → Option PropNode
  | .ok (some r) => r
  | _ => old

/-- One call keeps the invariant, and changes one setting. -/
theorem inv_step {cfg : Cfg} (h : Proper cfg) {d : PropNode} (hi : Inv cfg d) {id : Str} (hid : PlainId id)
    (v : PropNode) : (setStep cfg d id v).2 = true ∧ Inv cfg (setStep cfg d id v).1 ∧
      ∀ p, (∀ x ∈ p, Name x) → isSet cfg.schema p = true → (setStep cfg d id v).1.lookup p =
        if id = idOf p then upd (d.lookup p) (verdict cfg id v) else d.lookup p := by
  obtain ⟨r, hr⟩ := verdict_ok h id v
  rw [setStep_verdict, hr]
  refine ⟨rfl, ?_⟩
  dsimp only
  by_cases hset : Setting cfg.schema id
  · obtain ⟨q, hq, rfl, hqn⟩ := path_of_plain hid
    have hqs : isSet cfg.schema q = true := isSet_iff.2 ⟨hq, hset⟩
    have hu := grp_uniq (flat_of h) q d [] hqn hqs hi.grp
    rw [applyV_path hq hqn]
    have look : ∀ p, (∀ x ∈ p, Name x) → isSet cfg.schema p = true →
        (match r with
          | none => d
          | some none => erasePath q d
          | some (some n) => updPath (fun _ => n) q d).lookup p =
        if idOf q = idOf p then upd (d.lookup p) (.ok r) else d.lookup p := by
      intro p hpn hps
      by_cases e : q = p
      · subst e
        rw [if_pos rfl]
        match r with
        | none => rfl
        | some none => exact lookup_erasePath_self hq hu
        | some (some n) => exact lookup_updPath_self _ _ _
      · have : ¬ idOf q = idOf p := fun he => e (idOf_inj hq (isSet_iff.1 hps).1 (fun x hx => (hqn x hx).1)
          (fun x hx => (hpn x hx).1) he)
        rw [if_neg this]
        have hd := diverge_settings h hqn hpn hqs hps e
        match r with
        | none => rfl
        | some none => exact lookup_erasePath_diverge hd d
        | some (some n) => exact lookup_updPath_diverge hd _ d
    refine ⟨⟨?_, ?_, ?_⟩, look⟩
    · match r with
      | none => exact hi.grp
      | some none => exact grp_erase (flat_of h) q d [] hqn hqs hi.grp
      | some (some n) => exact grp_upd (flat_of h) _ q d [] hqn hqs hi.grp
    · intro p hpn hps n hl
      rw [look p hpn hps] at hl
      split at hl
      · next e =>
        match r, hr, hl with
        | none, _, hl => exact hi.keeps p hpn hps n hl
        | some none, _, hl => cases hl
        | some (some m), hr, hl =>
          cases hl
          rw [← e]
          exact verdict_keeps h hr
      · exact hi.keeps p hpn hps n hl
    · intro c hc
      have hd := diverge_version h hqn hqs
      apply hi.ver c
      match r, hc with
      | none, hc => exact hc
      | some none, hc => rw [lookup_erasePath_diverge hd] at hc; exact hc
      | some (some m), hc => rw [lookup_updPath_diverge hd] at hc; exact hc
  · have : r = none := by
      have := not_setting hset v
      rw [hr] at this
      cases this; rfl
    subst this
    refine ⟨hi, ?_⟩
    intro p hpn hps
    rw [if_neg]
    · rfl
    · rintro rfl
      exact hset (isSet_iff.1 hps).2

/-- Calls, one after another. -/
theorem inv_calls {cfg : Cfg} (h : Proper cfg) : ∀ (cs : List (Str × PropNode)) (d : PropNode), Inv cfg d →
    (∀ c ∈ cs, PlainId c.1) → (runCalls cfg cs d).2 = true ∧ Inv cfg (runCalls cfg cs d).1 ∧
      ∀ p, (∀ x ∈ p, Name x) → isSet cfg.schema p = true → (runCalls cfg cs d).1.lookup p =
        (cs.filter fun c => c.1 = idOf p).foldl (fun old c => upd old (verdict cfg (idOf p) c.2)) (d.lookup p) := by
  intro cs
  induction cs with
  | nil => intro d hi _; exact ⟨rfl, hi, fun p _ _ => rfl⟩
  | cons c cs ih =>
    intro d hi hpl
    obtain ⟨id, v⟩ := c
    obtain ⟨h1, h2, h3⟩ := inv_step h hi (hpl (id, v) (by simp)) v
    obtain ⟨g1, g2, g3⟩ := ih _ h2 (fun c hc => hpl c (by simp [hc]))
    simp only [runCalls, if_pos h1]
    refine ⟨g1, g2, ?_⟩
    intro p hpn hps
    rw [g3 p hpn hps, h3 p hpn hps, List.filter_cons]
    by_cases e : id = idOf p
    · simp only [e, decide_true, if_true, List.foldl_cons]
    · simp only [e, decide_false, if_false, Bool.false_eq_true]

/-- The version entries of a file can be read. -/
def verOk (ks : Kids) : Prop := ∀ c, ("version".toList, c) ∈ ks → (Version.fromStr c.value noVersion).1 = true

/-- The last version entry. -/
def lastVer (old : Version) : Kids → Version
  | [] => old
  | (k, c) :: ks => if k = "version".toList then lastVer (Version.fromStr c.value noVersion).2 ks else lastVer old ks

/-- Reading a file: the calls for its entries. -/
theorem loadKids_calls (cfg : Cfg) : ∀ (ks : Kids) (o : Obj), verOk ks →
    (loadKids cfg ks o).2 = (runCalls cfg (entries cfg.schema ks) o.data).2 ∧
    (loadKids cfg ks o).1.data = (runCalls cfg (entries cfg.schema ks) o.data).1 ∧
    (loadKids cfg ks o).1.file = o.file ∧
    ((loadKids cfg ks o).2 = true → (loadKids cfg ks o).1.fileVersion = lastVer o.fileVersion ks) := by
  intro ks
  induction ks with
  | nil => intro o _; exact ⟨rfl, rfl, rfl, fun _ => rfl⟩
  | cons y ks ih =>
    obtain ⟨k, c⟩ := y
    intro o hv
    rw [loadKids, entries, lastVer]
    by_cases e : k = "version".toList
    · subst e
      have := hv c (by simp)
      simp only [if_pos, if_pos this, List.nil_append]
      obtain ⟨a, b, c', d'⟩ := ih { o with fileVersion := (Version.fromStr c.value noVersion).2 }
        (fun c hc => hv c (List.mem_cons_of_mem _ hc))
      exact ⟨a, b, c', d'⟩
    · simp only [if_neg e]
      rw [runCalls_append, ← setRec_flat]
      by_cases hs : (setRec cfg c k o.data).2 = true
      · simp only [if_pos hs]
        exact ih { o with data := (setRec cfg c k o.data).1 } (fun c hc => hv c (List.mem_cons_of_mem _ hc))
      · rw [if_neg hs]
        simp only [if_neg hs]
        exact ⟨(by simpa using hs), True.intro, True.intro, fun hh => absurd hh (by simp)⟩

theorem inv_loadKids {cfg : Cfg} (h : Proper cfg) : ∀ (ks : Kids) (o : Obj), Inv cfg o.data →
    (∀ c ∈ entries cfg.schema ks, PlainId c.1) → Inv cfg (loadKids cfg ks o).1.data := by
  intro ks
  induction ks with
  | nil => intro o hi _; exact hi
  | cons y ks ih =>
    obtain ⟨k, c⟩ := y
    intro o hi hp
    rw [loadKids]
    rw [entries] at hp
    have hp2 : ∀ c ∈ entries cfg.schema ks, PlainId c.1 := fun c hc => hp c (List.mem_append_right _ hc)
    by_cases e : k = "version".toList
    · simp only [if_pos e]
      split
      · exact ih _ hi hp2
      · exact hi
    · simp only [if_neg e]
      rw [if_neg e] at hp
      have : Inv cfg (setRec cfg c k o.data).1 := by
        rw [setRec_flat]
        exact (inv_calls h _ _ hi (fun c hc => hp c (List.mem_append_left _ hc))).2.1
      split
      · exact ih _ this hp2
      · exact this

theorem inv_empty (cfg : Cfg) : Inv cfg .empty := by
  refine ⟨grp_empty _ _, ?_, ?_⟩
  · intro p _ hs n hn
    rw [lookup_empty (isSet_iff.1 hs).1] at hn
    cases hn
  · intro c hc; cases hc

theorem name_version : Name "version".toList := by
  constructor
  · decide
  · unfold PlainKey; decide

/-- Writing the version keeps the invariant and every setting. -/
theorem inv_stamp {cfg : Cfg} (h : Proper cfg) {o : Obj} (hi : Inv cfg o.data) :
    Inv cfg (stamp cfg o).data ∧ ∀ p, (∀ x ∈ p, Name x) → isSet cfg.schema p = true →
      (stamp cfg o).data.lookup p = o.data.lookup p := by
  unfold stamp
  split
  · exact ⟨hi, fun _ _ _ => rfl⟩
  · have e : o.data.set "version".toList (leaf cfg.current.toStr) =
        updPath (fun _ => leaf cfg.current.toStr) ["version".toList] o.data := rfl
    have look : ∀ p, (∀ x ∈ p, Name x) → isSet cfg.schema p = true →
        (o.data.set "version".toList (leaf cfg.current.toStr)).lookup p = o.data.lookup p := by
      intro p hpn hps
      rw [e, lookup_updPath_diverge (diverge_version h hpn hps).symm]
    refine ⟨⟨?_, ?_, ?_⟩, look⟩
    · show Grp cfg.schema (o.data.set "version".toList (leaf cfg.current.toStr)) []
      have hg := hi.grp
      rw [grp_iff] at hg ⊢
      rcases hg with hg | ⟨h1, h2⟩
      · exact absurd rfl (isSet_iff.1 hg).1
      right
      have hleaf : ∀ q, Grp cfg.schema (leaf cfg.current.toStr) q := by
        intro q; rw [grp_iff]; right; exact ⟨List.nodup_nil, by intro k c h; cases h⟩
      unfold PropNode.set updOrAdd tryGetChild
      cases hfk : findKid "version".toList o.data.kids with
      | some c =>
        simp only [kids_withKids, keys_updKid]
        refine ⟨h1, ?_⟩
        intro k' c' hm
        rcases mem_updKid hm with hm | ⟨rfl, c, hc, rfl⟩
        · exact h2 k' c' hm
        · exact ⟨name_version, hleaf _⟩
      | none =>
        simp only [addChild, kids_withKids]
        refine ⟨?_, ?_⟩
        · have := findKid_none_iff.1 hfk
          simp only [keys, List.map_append, List.map_cons, List.map_nil]
          rw [List.nodup_append]
          refine ⟨h1, by simp, ?_⟩
          intro a ha b hb
          simp only [List.mem_singleton] at hb
          rintro rfl
          rw [hb] at ha
          exact this ha
        · intro k' c' hm
          rcases List.mem_append.1 hm with hm | hm
          · exact h2 k' c' hm
          · simp only [List.mem_singleton, Prod.mk.injEq] at hm
            obtain ⟨rfl, rfl⟩ := hm
            exact ⟨name_version, hleaf _⟩
    · intro p hpn hps n hn
      have := look p hpn hps
      exact hi.keeps p hpn hps n (this ▸ hn)
    · intro c hc
      have : (o.data.set "version".toList (leaf cfg.current.toStr)).lookup ["version".toList] = some (leaf cfg.current.toStr) := by
        rw [e, lookup_updPath_self]
      have hc' : (o.data.set "version".toList (leaf cfg.current.toStr)).lookup ["version".toList] = some c := hc
      rw [this] at hc'
      cases hc'; rfl

theorem rename_data (name : Str) (o : Obj) : (rename name o).data = o.data := by unfold rename; split <;> rfl

theorem inv_grp_kids {cfg : Cfg} {d : PropNode} (hi : Inv cfg d) :
    (keys d.kids).Nodup ∧ ∀ k c, (k, c) ∈ d.kids → Name k ∧ Grp cfg.schema c [k] := by
  have := hi.grp
  rw [grp_iff] at this
  rcases this with hg | hg
  · exact absurd rfl (isSet_iff.1 hg).1
  · exact hg

/-- What an object writes is a file without positions. -/
theorem inv_plainFile {cfg : Cfg} {d : PropNode} (hi : Inv cfg d) : PlainFile cfg.schema d :=
  fun c hc => (entries_plain (inv_grp_kids hi).2 c hc).2

theorem inv_save {cfg : Cfg} (h : Proper cfg) {o : Obj} {d : Disk} (hi : Inv cfg o.data) (hd : PlainDisk cfg.schema d)
    (name : Str) : Inv cfg (save cfg name o d).1.data ∧ PlainDisk cfg.schema (save cfg name o d).2.1 := by
  have hs := (inv_stamp h (o := rename name o) (by rw [rename_data]; exact hi)).1
  unfold save
  dsimp only
  split
  · refine ⟨hs, ?_⟩
    intro n t ht
    unfold Disk.write at ht
    simp only at ht
    split at ht
    · cases ht; exact inv_plainFile hs
    · exact hd n t ht
  · exact ⟨hs, hd⟩

theorem inv_load {cfg : Cfg} (h : Proper cfg) {o : Obj} {d : Disk} (hi : Inv cfg o.data) (hd : PlainDisk cfg.schema d)
    (name : Str) : Inv cfg (load cfg name o d).1.data ∧ PlainDisk cfg.schema (load cfg name o d).2.1 := by
  have hi' : Inv cfg (rename name o).data := by rw [rename_data]; exact hi
  unfold load
  dsimp only
  split
  · exact ⟨hi', hd⟩
  · split
    · next t ht => exact ⟨inv_loadKids h t.kids _ hi' (hd _ t ht), hd⟩
    · exact ⟨hi', hd⟩
    · exact inv_save h (inv_empty cfg) hd []

theorem inv_run {cfg : Cfg} (h : Proper cfg) : ∀ (ops : List Op) (w : Obj × Disk), PlainOps ops → Inv cfg w.1.data →
    PlainDisk cfg.schema w.2 → Inv cfg (run cfg ops w).1.data ∧ PlainDisk cfg.schema (run cfg ops w).2 := by
  intro ops
  induction ops with
  | nil => intro w _ hi hd; exact ⟨hi, hd⟩
  | cons op ops ih =>
    intro w hp hi hd
    obtain ⟨o, d⟩ := w
    have : Inv cfg (step cfg op (o, d)).1.data ∧ PlainDisk cfg.schema (step cfg op (o, d)).2 := by
      cases op with
      | set id v => exact ⟨(inv_step h hi (hp id v (by simp)) v).2.1, hd⟩
      | load name => exact inv_load h hi hd name
      | save name => exact inv_save h hi hd name
      | reset => exact ⟨inv_empty cfg, hd⟩
    exact ih _ (fun id v hm => hp id v (by simp [hm])) this.1 this.2

theorem getNode_lookup {schema d : PropNode} {p : List Str} (hn : ∀ x ∈ p, Name x) (hs : isSet schema p = true) :
    ∃ s dflt, tryFind schema (idOf p) = some s ∧ s.tryGetChild "default".toList = some dflt ∧
      getNode schema d (idOf p) = .ok ((d.lookup p).getD dflt) := by
  have h2 := isSet_iff.1 hs
  obtain ⟨s, hs'⟩ := Option.isSome_iff_exists.1 h2.2
  obtain ⟨dflt, hd⟩ := setting_dflt hs'
  refine ⟨s, dflt, hs', hd, ?_⟩
  cases p with
  | nil => exact absurd rfl h2.1
  | cons k ks =>
    unfold getNode
    rw [hs']
    have : d.tryGetQuery (idOf (k :: ks)) '.' = d.lookup (k :: ks) :=
      tryGetQuery_lookup d k ks (pathKeys hn) (fun x hx => (hn x hx).2)
    rw [this]
    cases d.lookup (k :: ks) with
    | none => simp only [getChild, hd, Res.ofOptionErr]; rfl
    | some n => rfl

/-- Reading back what was written. -/
theorem reload {cfg : Cfg} (h : Proper cfg) {cfg2 : Cfg} (he : cfg2.env = cfg.env) (hsch : cfg2.schema = cfg.schema)
    {d : PropNode} (hi : Inv cfg d) (hver : (Version.fromStr cfg.current.toStr noVersion).1 = true) (o2 : Obj)
    (ho2 : o2.data = .empty) :
    (loadKids cfg2 d.kids o2).2 = true ∧
    ∀ p, (∀ x ∈ p, Name x) → isSet cfg.schema p = true →
      ReadSame cfg.schema d (loadKids cfg2 d.kids o2).1.data (idOf p) := by
  have h2 : Proper cfg2 := by
    obtain ⟨a, b, c⟩ := h
    exact ⟨by rw [hsch]; exact a, by rw [hsch]; exact b, by rw [hsch, he]; exact c⟩
  obtain ⟨g1, g2⟩ := inv_grp_kids hi
  have hvo : verOk d.kids := by
    intro c hc
    have : d.lookup ["version".toList] = some c := by
      rw [lookup]
      obtain ⟨as, bs, e⟩ := List.append_of_mem hc
      have : findKid "version".toList d.kids = some c := by
        rw [e]
        apply findKid_append_hit
        rw [e] at g1
        simp only [keys, List.map_append, List.map_cons, List.nodup_append] at g1
        intro hm
        exact g1.2.2 _ hm _ (List.mem_cons_self) rfl
      rw [this]; rfl
    rw [hi.ver c this]
    exact hver
  obtain ⟨l1, l2, _, _⟩ := loadKids_calls cfg2 d.kids o2 hvo
  have hpl : ∀ c ∈ entries cfg2.schema d.kids, PlainId c.1 := by rw [hsch]; exact inv_plainFile hi
  obtain ⟨r1, _, r3⟩ := inv_calls h2 (entries cfg2.schema d.kids) o2.data (by rw [ho2]; exact inv_empty cfg2) hpl
  refine ⟨by rw [l1, r1], ?_⟩
  intro p hpn hps
  rw [l2]
  obtain ⟨s, dflt, hs, hd, hg⟩ := getNode_lookup (d := d) hpn hps
  obtain ⟨s', dflt', hs', hd', hg'⟩ := getNode_lookup (d := (runCalls cfg2 (entries cfg2.schema d.kids) o2.data).1) hpn hps
  rw [hs] at hs'
  cases hs'
  rw [hd] at hd'
  cases hd'
  refine ⟨_, _, hg, hg', ?_⟩
  rw [r3 p hpn (by rw [hsch]; exact hps), hsch]
  have hver := (diverge_version h hpn hps)
  cases p with
  | nil => exact absurd rfl (isSet_iff.1 hps).1
  | cons k ks =>
    have hkv : k ≠ "version".toList := by
      cases hver with
      | here hne => exact hne
      | there hd => exact absurd rfl hd.ne_nil.2
    rw [entries_filter (flat_of h) hpn hps hkv g1 g2]
    have el : ((findKid k d.kids).bind fun c => c.lookup ks) = d.lookup (k :: ks) := rfl
    rw [el, ho2, lookup_empty (by simp)]
    have ev : ∀ v, verdict cfg2 (idOf (k :: ks)) v = verdict cfg (idOf (k :: ks)) v := by
      intro v; unfold verdict; rw [he, hsch]
    cases hl : d.lookup (k :: ks) with
    | none => exact (C19_eq_iff _ _).2 (Same.refl _)
    | some n =>
      simp only [Option.toList_some, List.map_cons, List.map_nil, List.foldl_cons, List.foldl_nil, Option.getD_some, ev]
      rcases hi.keeps _ hpn hps n hl with hk | ⟨hk, s', dflt', hs', hd', hq⟩
      · rw [hk]; exact (C19_eq_iff _ _).2 (Same.refl _)
      · rw [hs] at hs'
        cases hs'
        rw [hd] at hd'
        cases hd'
        rw [hk]
        exact hq

theorem inv_reached {cfg : Cfg} (h : Proper cfg) {o : Obj} {d : Disk} (hr : Reached cfg o d) :
    Inv cfg o.data ∧ PlainDisk cfg.schema d := by
  obtain ⟨name, d0, o0, d1, ops, hd, hc, hp, hrun⟩ := hr
  unfold create at hc
  have hl := inv_load h (o := ⟨.empty, [], noVersion⟩) (inv_empty cfg) hd name
  dsimp only at hc
  split at hc
  · simp only [Prod.mk.injEq, Option.some.injEq] at hc
    obtain ⟨rfl, rfl⟩ := hc
    have := inv_run h ops (_, _) hp hl.1 hl.2
    rw [hrun] at this
    exact this
  · cases hc

/-! ### The property -/

/-- **C112 (partial: settings without positions and without nesting), round trip.** Whatever a program did before: when
`save` returns, new settings with the same description that are created from that file can be created, and read the
same value for every setting; and saving changed no setting of the object itself. -/
theorem C112_round_trip_partial (cfg cfg2 : Cfg) (h : Proper cfg) (he : cfg2.env = cfg.env)
    (hsch : cfg2.schema = cfg.schema) (hver : (Version.fromStr cfg.current.toStr noVersion).1 = true)
    (o o' : Obj) (d d' : Disk) (hr : Reached cfg o d) (name : Str) (hs : save cfg name o d = (o', d', true))
    (hf : o'.file ≠ []) :
    ∃ o2, create cfg2 o'.file d' = (some o2, d') ∧
      ∀ id, Setting cfg.schema id → PlainId id →
        ReadSame cfg.schema o.data o2.data id ∧ ReadSame cfg.schema o.data o'.data id := by
  obtain ⟨hi, hd⟩ := inv_reached h hr
  obtain ⟨hst, hlook⟩ := inv_stamp h (o := rename name o) (by rw [rename_data]; exact hi)
  unfold save at hs
  dsimp only at hs
  split at hs
  · simp only [Prod.mk.injEq, and_true] at hs
    obtain ⟨rfl, rfl⟩ := hs
    have ho2 : rename (stamp cfg (rename name o)).file ⟨.empty, [], noVersion⟩ =
        ⟨.empty, (stamp cfg (rename name o)).file, noVersion⟩ := if_neg hf
    obtain ⟨g1, g2⟩ := reload h he hsch hst hver ⟨.empty, (stamp cfg (rename name o)).file, noVersion⟩ rfl
    refine ⟨(loadKids cfg2 (stamp cfg (rename name o)).data.kids ⟨.empty, (stamp cfg (rename name o)).file, noVersion⟩).1,
      ?_, ?_⟩
    · unfold create load
      rw [ho2]
      simp only [if_neg hf, Disk.write, if_true, g1]
    · intro id hset hpl
      obtain ⟨p, hp, rfl, hpn⟩ := path_of_plain hpl
      have hps := isSet_iff.2 ⟨hp, hset⟩
      obtain ⟨n, m, a1, a2, a3⟩ := g2 p hpn hps
      have e : ∀ n, getNode cfg.schema (stamp cfg (rename name o)).data (idOf p) = .ok n →
          getNode cfg.schema o.data (idOf p) = .ok n := by
        intro n hn
        obtain ⟨s, dflt, q1, q2, q3⟩ := getNode_lookup (d := (stamp cfg (rename name o)).data) hpn hps
        obtain ⟨s', dflt', q1', q2', q3'⟩ := getNode_lookup (d := o.data) hpn hps
        rw [q1] at q1'
        cases q1'
        rw [q2] at q2'
        cases q2'
        rw [q3, hlook p hpn hps, rename_data] at hn
        rw [q3', hn]
      exact ⟨⟨n, m, e n a1, a2, a3⟩, ⟨n, n, e n a1, a1, (C19_eq_iff _ _).2 (Same.refl _)⟩⟩
  · simp at hs

theorem becomes_upd {cfg : Cfg} (h : Proper cfg) {id : Str} (hid : PlainId id) (hset : Setting cfg.schema id)
    (old : Option PropNode) (v : PropNode) : becomes cfg id old v = upd old (verdict cfg id v) := by
  obtain ⟨p, hp, rfl, hpn⟩ := path_of_plain hid
  have hps := isSet_iff.2 ⟨hp, hset⟩
  obtain ⟨h1, h2, h3⟩ := inv_step h (inv_empty cfg) hid v
  have h4 := h3 p hpn hps
  rw [if_pos rfl, lookup_empty hp] at h4
  obtain ⟨r, hr⟩ := verdict_ok h (idOf p) v
  have hv := setStep_verdict cfg .empty (idOf p) v
  rw [hr] at hv
  dsimp only at hv
  have hl : ∀ d : PropNode, d.tryGetQuery (idOf p) '.' = d.lookup p := by
    intro d
    cases p with
    | nil => exact absurd rfl hp
    | cons k ks => exact tryGetQuery_lookup d k ks (pathKeys hpn) (fun x hx => (hpn x hx).2)
  unfold becomes
  have ht : trySet cfg.env cfg.schema .empty (idOf p) v = .ok (r.isSome, applyV (idOf p) .empty r) := by
    obtain ⟨s, hs⟩ := Option.isSome_iff_exists.1 hset
    obtain ⟨dflt, hd⟩ := setting_dflt hs
    unfold verdict at hr
    unfold trySet
    rw [hs] at hr ⊢
    simp only [getChild, hd, Res.ofOptionErr, Res.bind] at hr ⊢
    by_cases c1 : (v.eq dflt || isEmpty v) = true
    · rw [if_pos c1] at hr ⊢; cases hr; rfl
    rw [if_neg c1] at hr ⊢
    by_cases c2 : (!typeOk cfg.env (typeOf s) v) = true
    · rw [if_pos c2] at hr ⊢; cases hr; rfl
    rw [if_neg c2] at hr ⊢
    by_cases c3 : (!allowedOk s v) = true
    · rw [if_pos c3] at hr ⊢; cases hr; rfl
    rw [if_neg c3] at hr ⊢
    cases hg : rangeOf cfg.env s with
    | err => rw [hg] at hr; cases hr
    | ub => rw [hg] at hr; cases hr
    | ok g =>
      rw [hg] at hr
      cases g with
      | none => cases hr; rfl
      | some g =>
        dsimp only at hr ⊢
        by_cases c4 : cfg.env.fromD dflt.value = none
        · rw [if_pos c4] at hr; cases hr
        · rw [if_neg c4] at hr ⊢; cases hr; rfl
  rw [ht, hr]
  rw [hv, hr] at h4
  match r with
  | none => rfl
  | some none => exact (hl _).trans h4
  | some (some n) => exact (hl _).trans h4

/-- **C112 (partial: as above), loading.** Loading a file that exists, can be read and has readable versions never
throws. What is stored for each setting afterwards is what it was before, changed by the entries of the file for that
setting in their order, as calls of `set` would do; the object now has the file's name; and the file is not touched. -/
theorem C112_load_partial (cfg : Cfg) (h : Proper cfg) (o : Obj) (d : Disk) (hr : Reached cfg o d) (name : Str)
    (hname : name ≠ []) (t : PropNode) (ht : d.files name = some (some t))
    (hv : ∀ c, ("version".toList, c) ∈ t.kids → (Version.fromStr c.value noVersion).1 = true) :
    ∃ o', load cfg name o d = (o', d, true) ∧ o'.file = name ∧
      ∀ id, Setting cfg.schema id → PlainId id →
        o'.data.tryGetQuery id '.' = ((entries cfg.schema t.kids).filter fun c => c.1 = id).foldl
          (fun old c => becomes cfg id old c.2) (o.data.tryGetQuery id '.') := by
  obtain ⟨hi, hd⟩ := inv_reached h hr
  obtain ⟨l1, l2, l3, _⟩ := loadKids_calls cfg t.kids (rename name o) hv
  have hi' : Inv cfg (rename name o).data := by rw [rename_data]; exact hi
  obtain ⟨r1, _, r3⟩ := inv_calls h (entries cfg.schema t.kids) _ hi' (hd name t ht)
  have hfile : (rename name o).file = name := by unfold rename; rw [if_neg hname]
  refine ⟨(loadKids cfg t.kids (rename name o)).1, ?_, by rw [l3, hfile], ?_⟩
  · unfold load
    simp only [hfile, if_neg hname, ht, l1, r1]
  · intro id hset hpl
    have hb := fun old v => becomes_upd h hpl hset old v
    obtain ⟨p, hp, rfl, hpn⟩ := path_of_plain hpl
    have hl : ∀ d : PropNode, d.tryGetQuery (idOf p) '.' = d.lookup p := by
      intro d
      cases p with
      | nil => exact absurd rfl hp
      | cons k ks => exact tryGetQuery_lookup d k ks (pathKeys hpn) (fun x hx => (hpn x hx).2)
    rw [hl, hl, l2, r3 p hpn (isSet_iff.2 ⟨hp, hset⟩), rename_data]
    congr 1
    funext old c
    exact (hb old c.2).symm

/-- **C112, no exceptions.** With a well-formed description, setting never throws, and loading throws only when there is
no name, the file cannot be read, its version cannot be read, or there is no file and none can be written. -/
theorem C112_throws (cfg : Cfg) (h : Proper cfg) (o : Obj) (d : Disk) (name : Str) :
    (∀ id v, (setStep cfg o.data id v).2 = true) ∧
    ((load cfg name o d).2.2 = false →
      let f := if name = [] then o.file else name
      f = [] ∨ d.files f = some none ∨ (d.files f = none ∧ d.canWrite f = false) ∨
        ∃ t c, d.files f = some (some t) ∧ ("version".toList, c) ∈ t.kids ∧
          (Version.fromStr c.value noVersion).1 = false) := by
  have hset : ∀ dat id v, (setStep cfg dat id v).2 = true := by
    intro dat id v
    obtain ⟨r, hr⟩ := verdict_ok h id v
    rw [setStep_verdict, hr]
  refine ⟨hset o.data, ?_⟩
  intro hl
  have hfile : (rename name o).file = if name = [] then o.file else name := by unfold rename; split <;> rfl
  unfold load at hl
  rw [← hfile]
  dsimp only at hl ⊢
  split at hl
  · next e => exact Or.inl e
  · split at hl
    · next t ht =>
      right; right; right
      by_cases hv : verOk t.kids
      · obtain ⟨l1, _⟩ := loadKids_calls cfg t.kids (rename name o) hv
        have hall : ∀ (cs : List (Str × PropNode)) (x : PropNode), (runCalls cfg cs x).2 = true := by
          intro cs
          induction cs with
          | nil => intro x; rfl
          | cons c cs ih => intro x; obtain ⟨id, v⟩ := c; simp only [runCalls, if_pos (hset x id v)]; exact ih _
        rw [l1, hall] at hl
        cases hl
      · unfold verOk at hv
        have : ∃ c, ¬(("version".toList, c) ∈ t.kids → (Version.fromStr c.value noVersion).1 = true) :=
          Classical.byContradiction fun hh => hv fun c => Classical.byContradiction fun hc => hh ⟨c, hc⟩
        obtain ⟨c, hc⟩ := this
        refine ⟨t, c, ht, Classical.byContradiction fun hh => hc fun h => absurd h hh, ?_⟩
        cases hb : (Version.fromStr c.value noVersion).1 with
        | false => rfl
        | true => exact absurd (fun _ => hb) hc
    · next ht => exact Or.inr (Or.inl ht)
    · next ht =>
      right; right; left
      refine ⟨ht, ?_⟩
      unfold save at hl
      dsimp only at hl
      split at hl
      · cases hl
      · next hw =>
        have e : (stamp cfg (rename [] (reset (rename name o)))).file = (rename name o).file := by
          unfold stamp; split <;> rfl
        rw [e] at hw
        simpa using hw

/-- **C112, new settings.** When there is no such file, new settings read their defaults (every setting, whatever its
name and the description), and the file is created. -/
theorem C112_new (cfg : Cfg) (name : Str) (hname : name ≠ []) (d : Disk) (hn : d.files name = none)
    (hw : d.canWrite name = true) :
    ∃ o d', create cfg name d = (some o, d') ∧ o.file = name ∧ d'.files name = some (some o.data) ∧
      (∀ n, n ≠ name → d'.files n = d.files n) ∧
      ∀ id s dflt, tryFind cfg.schema id = some s → s.tryGetChild "default".toList = some dflt →
        PlainId id → id ≠ "version".toList → ¬Below "version".toList id → getNode cfg.schema o.data id = .ok dflt := by
  have hfile : (rename name ⟨.empty, [], noVersion⟩ : Obj) = ⟨.empty, name, noVersion⟩ := by
    unfold rename; rw [if_neg hname]
  have e : (stamp cfg (rename [] (reset ⟨.empty, name, noVersion⟩))).file = name := by
    unfold stamp; split <;> rfl
  refine ⟨stamp cfg (rename [] (reset ⟨.empty, name, noVersion⟩)),
    d.write name (stamp cfg (rename [] (reset ⟨.empty, name, noVersion⟩))).data, ?_, e, ?_, ?_, ?_⟩
  · unfold create load
    rw [hfile]
    simp only [if_neg hname, hn]
    unfold save
    simp only [e, hw, if_true]
  · simp [Disk.write]
  · intro n hne; simp [Disk.write, hne]
  · intro id s dflt hs hd hpl hv1 hv2
    obtain ⟨p, hp, rfl, hpn⟩ := path_of_plain hpl
    have hps : isSet cfg.schema p = true := isSet_iff.2 ⟨hp, by simp [Setting, hs]⟩
    obtain ⟨s', dflt', a1, a2, a3⟩ := getNode_lookup (d := (stamp cfg (rename [] (reset ⟨.empty, name, noVersion⟩))).data) hpn hps
    rw [hs] at a1
    cases a1
    rw [hd] at a2
    cases a2
    rw [a3]
    have hl : (stamp cfg (rename [] (reset ⟨.empty, name, noVersion⟩))).data.lookup p = none := by
      unfold stamp
      split
      · exact lookup_empty hp
      · show (updPath (fun _ => leaf cfg.current.toStr) ["version".toList] .empty).lookup p = none
        have : Diverge ["version".toList] p := by
          cases p with
          | nil => exact absurd rfl hp
          | cons k ks =>
            apply Diverge.here
            rintro rfl
            cases ks with
            | nil => exact hv1 rfl
            | cons k ks => exact hv2 ⟨_, rfl⟩
        rw [lookup_updPath_diverge this, lookup_empty hp]
    rw [hl]
    rfl

/-- **C112, resetting.** After `reset`, every setting reads its default. -/
theorem C112_reset (schema : PropNode) (o : Obj) (id : Str) (s dflt : PropNode) (hs : tryFind schema id = some s)
    (hd : s.tryGetChild "default".toList = some dflt) (hpl : PlainId id) :
    getNode schema (reset o).data id = .ok dflt := by
  obtain ⟨p, hp, rfl, hpn⟩ := path_of_plain hpl
  have hps : isSet schema p = true := isSet_iff.2 ⟨hp, by simp [Setting, hs]⟩
  obtain ⟨s', dflt', a1, a2, a3⟩ := getNode_lookup (d := (reset o).data) hpn hps
  rw [hs] at a1
  cases a1
  rw [hd] at a2
  cases a2
  rw [a3]
  show Res.ok ((PropNode.empty.lookup p).getD dflt) = _
  rw [lookup_empty hp]
  rfl

/-- **C112 (partial: versions without postfix and with numbers that `int` can hold), the version of the file.** New
settings created from a saved file know which version wrote it. -/
theorem C112_version_partial (cfg cfg2 : Cfg) (h : Proper cfg) (he : cfg2.env = cfg.env)
    (hsch : cfg2.schema = cfg.schema) (hne : cfg.current.empty = false)
    (h1 : IntRange cfg.current.major) (h2 : IntRange cfg.current.minor) (h3 : IntRange cfg.current.patch)
    (h4 : IntRange cfg.current.build) (h5 : 0 ≤ cfg.current.build) (hpost : cfg.current.post = [])
    (o o' : Obj) (d d' : Disk) (hr : Reached cfg o d) (name : Str) (hs : save cfg name o d = (o', d', true))
    (hf : o'.file ≠ []) (o2 : Obj) (d2 : Disk) (hc : create cfg2 o'.file d' = (some o2, d2)) :
    o2.fileVersion = cfg.current := by
  have hver : Version.fromStr cfg.current.toStr noVersion = (true, cfg.current) :=
    C31_roundtrip_partial _ _ h1 h2 h3 h4 hpost (by
      rcases Int.lt_or_eq_of_le h5 with hh | hh
      · exact Or.inl hh
      · exact Or.inr hh.symm)
  obtain ⟨hi, hd⟩ := inv_reached h hr
  obtain ⟨hst, _⟩ := inv_stamp h (o := rename name o) (by rw [rename_data]; exact hi)
  have hstv : (stamp cfg (rename name o)).data.lookup ["version".toList] = some (leaf cfg.current.toStr) := by
    unfold stamp
    rw [hne]
    exact lookup_updPath_self (fun _ => leaf cfg.current.toStr) ["version".toList] _
  unfold save at hs
  dsimp only at hs
  split at hs
  · simp only [Prod.mk.injEq, and_true] at hs
    obtain ⟨rfl, rfl⟩ := hs
    have ho2 : rename (stamp cfg (rename name o)).file ⟨.empty, [], noVersion⟩ =
        ⟨.empty, (stamp cfg (rename name o)).file, noVersion⟩ := if_neg hf
    obtain ⟨g1, _⟩ := reload h he hsch hst (by rw [hver]) ⟨.empty, (stamp cfg (rename name o)).file, noVersion⟩ rfl
    unfold create load at hc
    rw [ho2] at hc
    simp only [if_neg hf, Disk.write, if_true, g1, Prod.mk.injEq, Option.some.injEq] at hc
    rw [← hc.1]
    obtain ⟨k1, k2⟩ := inv_grp_kids hst
    have hmem : ∀ c, ("version".toList, c) ∈ (stamp cfg (rename name o)).data.kids → c = leaf cfg.current.toStr := by
      intro c hc
      obtain ⟨as, bs, e⟩ := List.append_of_mem hc
      refine hst.ver c ?_
      rw [lookup]
      have : findKid "version".toList (stamp cfg (rename name o)).data.kids = some c := by
        rw [e]
        apply findKid_append_hit
        rw [e] at k1
        simp only [keys, List.map_append, List.map_cons, List.nodup_append] at k1
        intro hm
        exact k1.2.2 _ hm _ (List.mem_cons_self) rfl
      rw [this]; rfl
    have hvo : verOk (stamp cfg (rename name o)).data.kids := by
      intro c hc; rw [hmem c hc]; exact congrArg Prod.fst hver
    obtain ⟨_, _, _, l4⟩ := loadKids_calls cfg2 (stamp cfg (rename name o)).data.kids
      ⟨.empty, (stamp cfg (rename name o)).file, noVersion⟩ hvo
    rw [l4 g1]
    -- the last version entry is the one that was written
    have hfk : findKid "version".toList (stamp cfg (rename name o)).data.kids = some (leaf cfg.current.toStr) := by
      rw [lookup] at hstv
      cases hq : findKid "version".toList (stamp cfg (rename name o)).data.kids with
      | none => rw [hq] at hstv; cases hstv
      | some c => rw [hq] at hstv; exact hstv
    have keep : ∀ (ks : Kids), (∀ c, ("version".toList, c) ∈ ks → c = leaf cfg.current.toStr) →
        lastVer cfg.current ks = cfg.current := by
      intro ks
      induction ks with
      | nil => intro _; rfl
      | cons y ks ih =>
        obtain ⟨k, c⟩ := y
        intro hm
        rw [lastVer]
        split
        · next e =>
          subst e
          rw [hm c (List.mem_cons_self)]
          have : (Version.fromStr (leaf cfg.current.toStr).value noVersion).2 = cfg.current := congrArg Prod.snd hver
          rw [this]
          exact ih fun c hc => hm c (List.mem_cons_of_mem _ hc)
        · exact ih fun c hc => hm c (List.mem_cons_of_mem _ hc)
    have found : ∀ (ks : Kids) (old : Version), (∀ c, ("version".toList, c) ∈ ks → c = leaf cfg.current.toStr) →
        (findKid "version".toList ks).isSome = true → lastVer old ks = cfg.current := by
      intro ks
      induction ks with
      | nil => intro old _ hh; cases hh
      | cons y ks ih =>
        obtain ⟨k, c⟩ := y
        intro old hm hh
        rw [lastVer]
        split
        · next e =>
          subst e
          rw [hm c (List.mem_cons_self)]
          have : (Version.fromStr (leaf cfg.current.toStr).value noVersion).2 = cfg.current := congrArg Prod.snd hver
          rw [this]
          exact keep ks fun c hc => hm c (List.mem_cons_of_mem _ hc)
        · next e =>
          refine ih old (fun c hc => hm c (List.mem_cons_of_mem _ hc)) ?_
          rw [findKid, if_neg e] at hh
          exact hh
    exact found _ _ hmem (by rw [hfk]; rfl)
  · simp at hs

/-! ### Violations -/

/-- **C112 is violated by the default arguments**: settings can never be created without a file name, although the
constructor has a default for it. -/
theorem C112_no_name_violated (cfg : Cfg) (d : Disk) : create cfg [] d = (none, d) := rfl

/-- **C112 is violated by loading into settings that are in use**: a setting that the file does not mention (because it
had its default when the file was saved) keeps its old value. -/
theorem C112_load_keeps_violated (cfg : Cfg) (h : Proper cfg) (o : Obj) (d : Disk) (hr : Reached cfg o d) (name : Str)
    (hname : name ≠ []) (t : PropNode) (ht : d.files name = some (some t))
    (hv : ∀ c, ("version".toList, c) ∈ t.kids → (Version.fromStr c.value noVersion).1 = true)
    (id : Str) (hset : Setting cfg.schema id) (hpl : PlainId id) (hno : ∀ c ∈ entries cfg.schema t.kids, c.1 ≠ id)
    (n : PropNode) (hn : o.data.tryGetQuery id '.' = some n) :
    getNode cfg.schema (load cfg name o d).1.data id = .ok n := by
  obtain ⟨o', h1, _, h3⟩ := C112_load_partial cfg h o d hr name hname t ht hv
  have := h3 id hset hpl
  have e : (entries cfg.schema t.kids).filter (fun c => c.1 = id) = [] := by
    rw [List.filter_eq_nil_iff]; intro c hc; simpa using hno c hc
  rw [e, List.foldl_nil, hn] at this
  rw [h1]
  unfold getNode
  rw [this]

/-- **C112 is violated by a load that fails**: the object takes over the name of a file that cannot be read (someone
made a mistake in it, for example), and the next `save` overwrites that file. -/
theorem C112_failed_load_violated (cfg : Cfg) (o : Obj) (d : Disk) (name : Str) (hname : name ≠ [])
    (hbad : d.files name = some none) (hw : d.canWrite name = true) :
    ∃ o1, load cfg name o d = (o1, d, false) ∧ o1.data = o.data ∧ o1.file = name ∧
      (save cfg [] o1 d).2.1.files name = some (some (stamp cfg o).data) := by
  have hfile : rename name o = { o with file := name } := if_neg hname
  refine ⟨rename name o, ?_, rename_data _ _, by rw [hfile], ?_⟩
  · unfold load
    rw [hfile]
    simp only [if_neg hname, hbad]
  · have e : (stamp cfg (rename [] { o with file := name })).file = name := by unfold stamp; split <;> rfl
    have e2 : (stamp cfg (rename [] { o with file := name })).data = (stamp cfg o).data := by
      unfold stamp rename; split <;> rfl
    rw [hfile]
    unfold save
    simp only [e, hw, if_true, Disk.write, e2]

/-- **C112 is violated by the version**: it is written into the settings, so that after a `save` an id that is no
setting can be read, which throws before. -/
theorem C112_version_visible_violated (cfg : Cfg) (hne : cfg.current.empty = false)
    (hno : tryFind cfg.schema "version".toList = none) (o : Obj) (d : Disk) (name : Str) :
    getNode cfg.schema (reset o).data "version".toList = .err ∧
    getNode cfg.schema (save cfg name (reset o) d).1.data "version".toList = .ok (leaf cfg.current.toStr) := by
  have hk : ∀ n : PropNode, n.tryGetQuery "version".toList '.' = n.lookup ["version".toList] := fun n =>
    tryGetQuery_lookup n "version".toList [] (pathKeys (by intro x hx; simp only [List.mem_singleton] at hx; rw [hx]; exact name_version))
      (by intro x hx; simp only [List.mem_singleton] at hx; rw [hx]; exact name_version.2)
  constructor
  · unfold getNode
    rw [hk, hno]
    rfl
  · have e : (save cfg name (reset o) d).1 = stamp cfg (rename name (reset o)) := by
      unfold save; dsimp only; split <;> rfl
    rw [e]
    unfold getNode
    rw [hk]
    have : (stamp cfg (rename name (reset o))).data.lookup ["version".toList] = some (leaf cfg.current.toStr) := by
      unfold stamp
      rw [hne]
      exact lookup_updPath_self (fun _ => leaf cfg.current.toStr) ["version".toList] _
    rw [this]

/-- A disk without files where everything can be written. -/
def newDisk : Disk := ⟨fun _ => none, fun _ => true⟩

/-- The text that a setting reads after settings were created from a new file `f`, calls were made, and they were saved;
and the text that is read from new settings created from that file. -/
def readBoth (cfg : Cfg) (ops : List Op) (id : Str) : Option (Str × Str) :=
  match create cfg ['f'] newDisk with
  | (some o, d) =>
    let w := run cfg (ops ++ [.save []]) (o, d)
    match create cfg ['f'] w.2 with
    | (some o2, _) => match getNode cfg.schema w.1.data id, getNode cfg.schema o2.data id with
      | .ok a, .ok b => some (a.value, b.value)
      | _, _ => none
    | _ => none
  | _ => none

/-- **C112 is violated by a setting called `version`**: saving replaces it with the version of the program, and reading
the file does not restore it. -/
theorem C112_version_setting_violated :
    let cfg : Cfg := ⟨exampleEnv, .mk [] [("version".toList, plainSetting "low".toList)] false, ⟨1, 2, 3, 0, []⟩⟩
    readBoth cfg [.set "version".toList (leaf "high".toList)] "version".toList =
      some ("1.2.3".toList, "low".toList) := by decide +kernel

/-- **C112 is violated by a list of allowed values together with a range**: an accepted value is stored as a number with
another text, which the list does not allow, so reading the file gives the default. -/
theorem C112_allowed_range_violated :
    let cfg : Cfg := ⟨exampleEnv, .mk [] [("x".toList, .mk [] [("default".toList, leaf "3".toList),
      ("range".toList, leaf "1..9".toList), ("allowed".toList, .mk [] [([], leaf "05".toList)] false)] false)] false,
      ⟨0, 0, 0, 0, []⟩⟩
    readBoth cfg [.set "x".toList (leaf "05".toList)] "x".toList = some ("5".toList, "3".toList) := by decide +kernel

/-- The names in a file after it was loaded and saved again. -/
def keptKeys (cfg : Cfg) (t : PropNode) : Option (List Str) :=
  match create cfg ['f'] (newDisk.write ['f'] t) with
  | (some o, d) => match (save cfg [] o d).2.1.files ['f'] with
    | some (some t') => some (keys t'.kids)
    | _ => none
  | _ => none

/-- **C112 is violated by entries that are no settings (any more)**: loading a file and saving again removes them. -/
theorem C112_unknown_violated :
    let cfg : Cfg := ⟨exampleEnv, .mk [] [("x".toList, plainSetting "3".toList)] false, ⟨0, 0, 0, 0, []⟩⟩
    let t : PropNode := .mk [] [("x".toList, leaf "4".toList), ("y".toList, leaf "5".toList)] false
    keptKeys cfg t = some ["x".toList] ∧ keys t.kids = ["x".toList, "y".toList] := by decide +kernel

/-! ### Examples -/

mutual
/-- All nodes below a node, with their paths. -/
def paths : PropNode → List Str → List (List Str × PropNode)
  | .mk _ ks _, p => pathsKids ks p
def pathsKids : Kids → List Str → List (List Str × PropNode)
  | [], _ => []
  | (k, c) :: ks, p => (p ++ [k], c) :: paths c (p ++ [k]) ++ pathsKids ks p
end

theorem paths_of_kid {ks : Kids} {k : Str} {c : PropNode} (h : (k, c) ∈ ks) (p : List Str) :
    (p ++ [k], c) ∈ pathsKids ks p ∧ ∀ x ∈ paths c (p ++ [k]), x ∈ pathsKids ks p := by
  induction ks with
  | nil => cases h
  | cons y ks ih =>
    obtain ⟨k', c'⟩ := y
    rw [pathsKids]
    rcases List.mem_cons.1 h with e | h
    · cases e; exact ⟨by simp, fun x hx => by simp [hx]⟩
    · exact ⟨by simp [(ih h).1], fun x hx => by simp [(ih h).2 x hx]⟩

theorem paths_of_lookup : ∀ (q : List Str) (n s : PropNode) (p : List Str), q ≠ [] → n.lookup q = some s →
    (p ++ q, s) ∈ paths n p := by
  intro q
  induction q with
  | nil => intro n s p h; exact absurd rfl h
  | cons k ks ih =>
    intro n s p _ hl
    rw [lookup] at hl
    cases hk : findKid k n.kids with
    | none => rw [hk] at hl; cases hl
    | some c =>
      rw [hk, Option.bind_some] at hl
      have := paths_of_kid (mem_of_findKid hk) p
      cases n with
      | mk v cs a =>
        rw [paths]
        cases ks with
        | nil => cases hl; exact this.1
        | cons k2 ks =>
          have := this.2 _ (ih c s (p ++ [k]) (by simp) hl)
          simpa using this

theorem paths_of_query : ∀ (ks : List Str) (k : Str) (n s : PropNode) (p : List Str), PathKeys '.' k ks →
    n.tryGetQuery (pathStr '.' k ks) '.' = some s → ∃ q, (q, s) ∈ paths n p := by
  intro ks
  induction ks with
  | nil =>
    intro k n s p hk h
    rw [tryGetQuery_last hk.1] at h
    cases hq : n.queryIdx k with
    | none => rw [hq] at h; cases h
    | some i =>
      rw [hq] at h
      cases n with
      | mk v cs a =>
        simp only [Option.bind_some, kidAt, Option.map_eq_some_iff] at h
        obtain ⟨y, hy, rfl⟩ := h
        rw [paths]
        exact ⟨_, (paths_of_kid (List.mem_of_getElem? hy) p).1⟩
  | cons k2 ks ih =>
    intro k n s p hk h
    rw [tryGetQuery_cons hk.1] at h
    cases hq : n.queryIdx k with
    | none => rw [hq] at h; cases h
    | some i =>
      rw [hq] at h
      cases n with
      | mk v cs a =>
        simp only [Option.bind_some, kidAt] at h
        cases hy : cs[i]? with
        | none => rw [kids_mk, hy] at h; cases h
        | some y =>
          rw [kids_mk, hy] at h
          obtain ⟨q, hm⟩ := ih k2 y.2 s (p ++ [y.1]) ⟨hk.2 k2 (by simp), fun x hx => hk.2 x (by simp [hx])⟩ h
          rw [paths]
          exact ⟨q, (paths_of_kid (List.mem_of_getElem? hy) p).2 _ hm⟩

/-- Numbers are written as the whole number below them. -/
def floorEnv : Env := { exampleEnv with toD := fun x => match x with
  | none => "nan".toList
  | some q => intToStr q.floor }

/-- Settings in a group: one with a range, one with a list of allowed values. -/
def properCfg : Cfg := ⟨floorEnv, exampleSchema, ⟨1, 0, 0, 0, []⟩⟩

theorem properCfg_paths {id : Str} (h : Setting properCfg.schema id) (hp : PlainId id) :
    id = "g.x".toList ∨ id = "g.y".toList := by
  obtain ⟨p, hne, rfl, hn⟩ := path_of_plain hp
  obtain ⟨s, hs⟩ := Option.isSome_iff_exists.1 h
  obtain ⟨hq, hd⟩ := C38_settings_found _ _ _ hs
  cases p with
  | nil => exact absurd rfl hne
  | cons k ks =>
    rw [idOf, tryGetQuery_lookup _ k ks (pathKeys hn) (fun x hx => (hn x hx).2)] at hq
    have hm := paths_of_lookup (k :: ks) _ s [] (by simp) hq
    have all : ∀ x ∈ paths properCfg.schema [], x.2.hasKey "default".toList = true →
        idOf x.1 = "g.x".toList ∨ idOf x.1 = "g.y".toList := by decide +kernel
    exact all _ hm hd

/-- The description of the example is well-formed. -/
theorem properCfg_proper : Proper properCfg := by
  refine ⟨?_, ?_, ?_⟩
  · rintro a b ha hb pa pb ⟨t, e⟩
    rcases properCfg_paths ha pa with rfl | rfl <;> rcases properCfg_paths hb pb with rfl | rfl <;>
      exact absurd (congrArg List.length e) (by simp)
  · intro a ha pa
    rcases properCfg_paths ha pa with rfl | rfl <;> refine ⟨by decide, ?_⟩ <;> rintro ⟨t, e⟩ <;>
      exact absurd (congrArg List.length e) (by simp)
  · intro a s hs
    obtain ⟨hq, hd⟩ := C38_settings_found _ _ _ hs
    obtain ⟨k, ks, hk, e⟩ := C16_every_query_is_a_path '.' a
    rw [e] at hq
    obtain ⟨q, hm⟩ := paths_of_query ks k _ s [] hk hq
    simp only [properCfg, exampleSchema, paths, pathsKids, leaf, List.nil_append, List.cons_append, List.append_nil,
      List.mem_cons, Prod.mk.injEq, List.not_mem_nil, or_false] at hm
    rcases hm with ⟨_, rfl⟩ | ⟨_, rfl⟩ | ⟨_, rfl⟩ | ⟨_, rfl⟩ | ⟨_, rfl⟩ | ⟨_, rfl⟩ | ⟨_, rfl⟩ | ⟨_, rfl⟩ | ⟨_, rfl⟩
    · exact absurd hd (by decide)
    · right
      refine ⟨(1, 9), .mk "3".toList [] false, rfl, rfl, by decide +kernel, rfl, ?_⟩
      have num : ∀ q : Rat, 1 ≤ q → q ≤ 9 → properCfg.env.toD (some q) ≠ [] ∧
          properCfg.env.toD (restrict (1, 9) ((properCfg.env.fromD (properCfg.env.toD (some q))).getD (some 0))) =
            properCfg.env.toD (some q) := by
        intro q h1 h2
        have e : properCfg.env.toD (some q) = intToStr q.floor := rfl
        have f1 : (1 : Int) ≤ q.floor := Rat.le_floor_iff.2 (by exact_mod_cast h1)
        have f2 : q.floor ≤ 9 := by
          have := Rat.floor_le q
          have : (q.floor : Rat) ≤ 9 := le_trans this h2
          exact_mod_cast this
        rw [e]
        generalize q.floor = z at f1 f2
        have : z = 1 ∨ z = 2 ∨ z = 3 ∨ z = 4 ∨ z = 5 ∨ z = 6 ∨ z = 7 ∨ z = 8 ∨ z = 9 := by omega
        rcases this with rfl | rfl | rfl | rfl | rfl | rfl | rfl | rfl | rfl <;> decide +kernel
      intro y
      cases y with
      | none => decide +kernel
      | some q =>
        obtain ⟨c1, c2, _⟩ := C38_range (1, 9) q (by decide)
        rw [restrict_nearest _ _ (by decide)]
        obtain ⟨n1, n2⟩ := num (nearest (1, 9) q) c1 c2
        exact ⟨n1, rfl, n2⟩
    all_goals first | exact Or.inl rfl | exact absurd hd (by decide)

example : readBoth properCfg [.set "g.x".toList (leaf "12".toList), .save [], .set "g.y".toList (leaf "q".toList),
    .set "g.y".toList (leaf "r".toList)] "g.x".toList = some ("9".toList, "9".toList) := by decide +kernel
example : readBoth properCfg [.set "g.x".toList (leaf "7".toList), .save [], .set "g.y".toList (leaf "q".toList),
    .set "g.y".toList (leaf "r".toList)] "g.y".toList = some ("q".toList, "q".toList) := by decide +kernel
example : readBoth properCfg [.set "g.x".toList (leaf "7".toList), .save [], .reset, .load [],
    .set "g.y".toList (leaf "q".toList)] "g.x".toList = some ("7".toList, "7".toList) := by decide +kernel
example : readBoth properCfg [.set "g.x".toList (leaf "7".toList), .set "g.x".toList (leaf "3".toList)] "g.x".toList =
    some ("3".toList, "3".toList) := by decide +kernel
example : (Version.fromStr properCfg.current.toStr noVersion).1 = true := by decide +kernel
example : Reached properCfg (run properCfg [.set "g.x".toList (leaf "7".toList)]
    ((create properCfg ['f'] newDisk).1.getD ⟨.empty, [], noVersion⟩, (create properCfg ['f'] newDisk).2)).1
    (run properCfg [.set "g.x".toList (leaf "7".toList)]
    ((create properCfg ['f'] newDisk).1.getD ⟨.empty, [], noVersion⟩, (create properCfg ['f'] newDisk).2)).2 := by
  refine ⟨['f'], newDisk, _, _, [.set "g.x".toList (leaf "7".toList)], ?_, rfl, ?_, rfl⟩
  · intro name t h; cases h
  · intro id v hm
    simp only [List.mem_singleton, Op.set.injEq] at hm
    rw [hm.1]
    have : "g.x".toList = idOf ["g".toList, "x".toList] := by decide
    rw [this]
    apply plainId_idOf (by simp)
    intro x hx
    simp only [List.mem_cons, List.not_mem_nil, or_false] at hx
    rcases hx with rfl | rfl
    · constructor
      · decide
      · unfold PlainKey; decide
    · constructor
      · decide
      · unfold PlainKey; decide

end SetDisk
end Xo
