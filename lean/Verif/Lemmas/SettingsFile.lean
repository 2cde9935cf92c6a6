import Verif.Model.SettingsFile
import Verif.Props.C38_Settings

/-!
Settings on disk: paths of names, the entries of a file, and what they do to the data.
-/
namespace Xo
namespace SetDisk
open _root_.Xo.Spec PropNode Settings

/-- The id of a path. -/
def idOf : List Str → Str
  | [] => []
  | k :: ks => pathStr '.' k ks

/-- A name: no dot, and not a position. -/
def Name (k : Str) : Prop := '.' ∉ k ∧ PlainKey k

/-- Whether the path is the one of a setting. -/
def isSet (schema : PropNode) (p : List Str) : Bool := (p != []) && (tryFind schema (idOf p)).isSome

theorem pathStr_snoc (k : Str) (ks : List Str) (x : Str) : pathStr '.' k (ks ++ [x]) = pathStr '.' k ks ++ '.' :: x := by
  induction ks generalizing k with
  | nil => rfl
  | cons k' ks ih => simp only [List.cons_append, pathStr, ih, List.append_assoc]

theorem pathStr_append (k : Str) (ks : List Str) (x : Str) (xs : List Str) :
    pathStr '.' k (ks ++ x :: xs) = pathStr '.' k ks ++ '.' :: pathStr '.' x xs := by
  induction ks generalizing k with
  | nil => rfl
  | cons k' ks ih => simp only [List.cons_append, pathStr, ih, List.append_assoc]

theorem idOf_snoc {p : List Str} (h : p ≠ []) (x : Str) : idOf (p ++ [x]) = idOf p ++ '.' :: x := by
  cases p with
  | nil => exact absurd rfl h
  | cons k ks => exact pathStr_snoc k ks x

theorem idOf_append {p q : List Str} (h : p ≠ []) (h2 : q ≠ []) : idOf (p ++ q) = idOf p ++ '.' :: idOf q := by
  cases p with
  | nil => exact absurd rfl h
  | cons k ks => cases q with
    | nil => exact absurd rfl h2
    | cons x xs => exact pathStr_append k ks x xs

theorem dot_cut : ∀ {a b s t : Str}, '.' ∉ a → '.' ∉ b → a ++ '.' :: s = b ++ '.' :: t → a = b ∧ s = t := by
  intro a
  induction a with
  | nil =>
    intro b s t _ hb h
    cases b with
    | nil => simpa using h
    | cons c b => simp only [List.nil_append, List.cons_append, List.cons.injEq] at h; rw [← h.1] at hb; simp at hb
  | cons c a ih =>
    intro b s t ha hb h
    cases b with
    | nil => simp only [List.nil_append, List.cons_append, List.cons.injEq] at h; rw [h.1] at ha; simp at ha
    | cons c' b =>
      simp only [List.cons_append, List.cons.injEq] at h
      obtain ⟨rfl, h⟩ := h
      obtain ⟨rfl, rfl⟩ := ih (fun hh => ha (by simp [hh])) (fun hh => hb (by simp [hh])) h
      exact ⟨rfl, rfl⟩

theorem dot_not {a b t : Str} (h : '.' ∉ a) : a ≠ b ++ '.' :: t := by
  rintro rfl; simp at h

/-- A path is determined by its id. -/
theorem pathStr_inj : ∀ {ks : List Str} {k k2 : Str} {ks2 : List Str}, PathKeys '.' k ks → PathKeys '.' k2 ks2 →
    pathStr '.' k ks = pathStr '.' k2 ks2 → k = k2 ∧ ks = ks2 := by
  intro ks
  induction ks with
  | nil =>
    intro k k2 ks2 h1 h2 h
    cases ks2 with
    | nil => exact ⟨h, rfl⟩
    | cons x xs => exact absurd h (dot_not h1.1)
  | cons x xs ih =>
    intro k k2 ks2 h1 h2 h
    cases ks2 with
    | nil => exact absurd h.symm (dot_not h2.1)
    | cons y ys =>
      obtain ⟨rfl, h'⟩ := dot_cut h1.1 h2.1 h
      obtain ⟨rfl, rfl⟩ := ih ⟨h1.2 x (by simp), fun z hz => h1.2 z (by simp [hz])⟩
        ⟨h2.2 y (by simp), fun z hz => h2.2 z (by simp [hz])⟩ h'
      exact ⟨rfl, rfl⟩

theorem idOf_inj {p q : List Str} (hp : p ≠ []) (hq : q ≠ []) (h1 : ∀ x ∈ p, '.' ∉ x) (h2 : ∀ x ∈ q, '.' ∉ x)
    (h : idOf p = idOf q) : p = q := by
  cases p with
  | nil => exact absurd rfl hp
  | cons k ks => cases q with
    | nil => exact absurd rfl hq
    | cons k2 ks2 =>
      obtain ⟨rfl, rfl⟩ := pathStr_inj ⟨h1 k (by simp), fun z hz => h1 z (by simp [hz])⟩
        ⟨h2 k2 (by simp), fun z hz => h2 z (by simp [hz])⟩ h
      rfl

theorem plainId_idOf {p : List Str} (hp : p ≠ []) (h : ∀ x ∈ p, Name x) : PlainId (idOf p) := by
  cases p with
  | nil => exact absurd rfl hp
  | cons k ks =>
    intro k2 ks2 h2 e
    obtain ⟨rfl, rfl⟩ := pathStr_inj ⟨(h k (by simp)).1, fun z hz => (h z (by simp [hz])).1⟩ h2 e
    exact fun x hx => (h x hx).2

/-- Every plain id is the id of a path of names. -/
theorem path_of_plain {id : Str} (h : PlainId id) : ∃ p, p ≠ [] ∧ idOf p = id ∧ ∀ x ∈ p, Name x := by
  obtain ⟨k, ks, h1, e⟩ := C16_every_query_is_a_path '.' id
  refine ⟨k :: ks, by simp, e.symm, ?_⟩
  intro x hx
  refine ⟨?_, h k ks h1 e x hx⟩
  rcases List.mem_cons.1 hx with rfl | hx
  · exact h1.1
  · exact h1.2 x hx

/-! ### Entries of a file -/

mutual
/-- The settings found below a node. -/
def flat (schema : PropNode) : PropNode → Str → List (Str × PropNode)
  | .mk v ks a, id => if (tryFind schema id).isSome then [(id, .mk v ks a)] else flatKids schema ks id
def flatKids (schema : PropNode) : Kids → Str → List (Str × PropNode)
  | [], _ => []
  | (k, c) :: ks, id => flat schema c (id ++ '.' :: k) ++ flatKids schema ks id
end

/-- The settings found in a file. -/
def entries (schema : PropNode) : Kids → List (Str × PropNode)
  | [] => []
  | (k, c) :: ks => (if k = "version".toList then [] else flat schema c k) ++ entries schema ks

/-- Calls of `try_set`, until one throws. -/
def runCalls (cfg : Cfg) : List (Str × PropNode) → PropNode → PropNode × Bool
  | [], d => (d, true)
  | (id, v) :: h, d => let r := setStep cfg d id v; if r.2 then runCalls cfg h r.1 else r

theorem runCalls_append (cfg : Cfg) (h1 h2 : List (Str × PropNode)) (d : PropNode) :
    runCalls cfg (h1 ++ h2) d =
      if (runCalls cfg h1 d).2 then runCalls cfg h2 (runCalls cfg h1 d).1 else runCalls cfg h1 d := by
  induction h1 generalizing d with
  | nil => simp [runCalls]
  | cons c h1 ih =>
    obtain ⟨id, v⟩ := c
    simp only [List.cons_append, runCalls]
    by_cases hs : (setStep cfg d id v).2 = true
    · simp only [if_pos hs]; exact ih _
    · simp only [if_neg hs]

theorem setRec_flat (cfg : Cfg) (n : PropNode) : ∀ (id : Str) (d : PropNode),
    setRec cfg n id d = runCalls cfg (flat cfg.schema n id) d := by
  induction n using PropNode.ind with
  | h v ks a ih =>
    intro id d
    rw [setRec, flat]
    split
    · next h =>
      simp only [runCalls]
      cases hs : setStep cfg d id (.mk v ks a) with
      | mk x b => cases b <;> rfl
    · have kids : ∀ (ks : Kids), (∀ k c, (k, c) ∈ ks → ∀ id d, setRec cfg c id d = runCalls cfg (flat cfg.schema c id) d) →
          ∀ d, setRecKids cfg ks id d = runCalls cfg (flatKids cfg.schema ks id) d := by
        intro ks
        induction ks with
        | nil => intro _ d; rw [setRecKids, flatKids]; rfl
        | cons p ks ihk =>
          intro hk d
          obtain ⟨k, c⟩ := p
          rw [setRecKids, flatKids, runCalls_append, ← hk k c (by simp)]
          split
          · exact ihk (fun k c hc => hk k c (by simp [hc])) _
          · rfl
      exact kids ks (fun k c hc => ih k c hc) d

/-! ### What one call does -/

/-- What a call with this value does: `none` rejects it, `some none` forgets the setting, `some (some n)` stores `n`. -/
def verdict (cfg : Cfg) (id : Str) (v : PropNode) : Res (Option (Option PropNode)) :=
  match tryFind cfg.schema id with
  | none => .ok none
  | some s =>
    (s.getChild "default".toList).bind fun dflt =>
    if v.eq dflt || isEmpty v then .ok (some none)
    else if !typeOk cfg.env (typeOf s) v then .ok none
    else if !allowedOk s v then .ok none
    else (rangeOf cfg.env s).bind fun r => match r with
      | some r =>
        if cfg.env.fromD dflt.value = none then .err
        else .ok (some (some (leaf (cfg.env.toD (restrict r ((cfg.env.fromD v.value).getD (some 0)))))))
      | none => .ok (some (some v))

/-- The data after a verdict. -/
def applyV (id : Str) (d : PropNode) : Option (Option PropNode) → PropNode
  | none => d
  | some none => (d.eraseQuery id '.').2
  | some (some n) => d.setQuery id '.' n

theorem setStep_verdict (cfg : Cfg) (d : PropNode) (id : Str) (v : PropNode) :
    setStep cfg d id v = match verdict cfg id v with
      | .ok r => (applyV id d r, true)
      | _ => (d, false) := by
  unfold setStep trySet verdict
  cases tryFind cfg.schema id with
  | none => rfl
  | some s =>
    dsimp only
    cases s.getChild "default".toList with
    | err => rfl
    | ub => rfl
    | ok dflt =>
      simp only [Res.bind]
      by_cases h1 : (v.eq dflt || isEmpty v) = true
      · rw [if_pos h1, if_pos h1]; rfl
      rw [if_neg h1, if_neg h1]
      by_cases h2 : (!typeOk cfg.env (typeOf s) v) = true
      · rw [if_pos h2, if_pos h2]; rfl
      rw [if_neg h2, if_neg h2]
      by_cases h3 : (!allowedOk s v) = true
      · rw [if_pos h3, if_pos h3]; rfl
      rw [if_neg h3, if_neg h3]
      cases rangeOf cfg.env s with
      | err => rfl
      | ub => rfl
      | ok r => cases r with
        | none => rfl
        | some r =>
          dsimp only
          by_cases h4 : cfg.env.fromD dflt.value = none
          · rw [if_pos h4, if_pos h4]
          · rw [if_neg h4, if_neg h4]; rfl

/-! ### Groups -/

mutual
/-- Groups have different names; nothing is asked of what a setting holds. -/
def Grp (schema : PropNode) : PropNode → List Str → Prop
  | .mk _ ks _, p => isSet schema p = true ∨ (keys ks).Nodup ∧ GrpKids schema ks p
def GrpKids (schema : PropNode) : Kids → List Str → Prop
  | [], _ => True
  | (k, c) :: ks, p => (Name k ∧ Grp schema c (p ++ [k])) ∧ GrpKids schema ks p
end

theorem grpKids_iff (schema : PropNode) (ks : Kids) (p : List Str) :
    GrpKids schema ks p ↔ ∀ k c, (k, c) ∈ ks → Name k ∧ Grp schema c (p ++ [k]) := by
  induction ks with
  | nil => simp [GrpKids]
  | cons x ks ih =>
    obtain ⟨k, c⟩ := x
    rw [GrpKids, ih]
    constructor
    · rintro ⟨h1, h2⟩ k' c' hm
      rcases List.mem_cons.1 hm with e | hm
      · cases e; exact h1
      · exact h2 k' c' hm
    · intro h
      exact ⟨h k c (by simp), fun k' c' hm => h k' c' (by simp [hm])⟩

theorem grp_iff (schema n : PropNode) (p : List Str) :
    Grp schema n p ↔ isSet schema p = true ∨
      (keys n.kids).Nodup ∧ ∀ k c, (k, c) ∈ n.kids → Name k ∧ Grp schema c (p ++ [k]) := by
  cases n with
  | mk v ks a => rw [Grp, grpKids_iff, kids_mk]

theorem grp_empty (schema : PropNode) (p : List Str) : Grp schema .empty p := by
  rw [grp_iff]; right; exact ⟨List.nodup_nil, by intro k c h; cases h⟩

theorem mem_updKid {k k' : Str} {f : PropNode → PropNode} {ks : Kids} {c' : PropNode} (h : (k', c') ∈ updKid k f ks) :
    (k', c') ∈ ks ∨ k' = k ∧ ∃ c, (k, c) ∈ ks ∧ c' = f c := by
  induction ks with
  | nil => cases h
  | cons x ks ih =>
    obtain ⟨k2, c2⟩ := x
    simp only [updKid] at h
    split at h
    · next e =>
      subst e
      rcases List.mem_cons.1 h with e | h
      · cases e; exact Or.inr ⟨rfl, c2, by simp, rfl⟩
      · exact Or.inl (by simp [h])
    · rcases List.mem_cons.1 h with e | h
      · cases e; exact Or.inl (by simp)
      · rcases ih h with h | ⟨e, c, h1, h2⟩
        · exact Or.inl (by simp [h])
        · exact Or.inr ⟨e, c, by simp [h1], h2⟩

theorem mem_of_findKid {k : Str} {ks : Kids} {c : PropNode} (h : findKid k ks = some c) : (k, c) ∈ ks := by
  obtain ⟨as, bs, e, _⟩ := findKid_split h
  rw [e]; simp

/-- No setting lies below another one. -/
def Flat (schema : PropNode) : Prop := ∀ p q, (∀ x ∈ p ++ q, Name x) → isSet schema p = true →
  isSet schema (p ++ q) = true → q = []

theorem grp_upd {schema : PropNode} (hf : Flat schema) (f : PropNode → PropNode) : ∀ (q : List Str) (n : PropNode)
    (p : List Str), (∀ x ∈ p ++ q, Name x) → isSet schema (p ++ q) = true → Grp schema n p →
    Grp schema (updPath f q n) p := by
  intro q
  induction q with
  | nil => intro n p _ hs _; rw [grp_iff]; left; simpa using hs
  | cons k ks ih =>
    intro n p hn hs hg
    have hp : ¬ isSet schema p = true := fun h => by simpa using hf p (k :: ks) hn h hs
    rw [grp_iff] at hg ⊢
    rcases hg with hg | ⟨h1, h2⟩
    · exact absurd hg hp
    right
    have e : p ++ k :: ks = (p ++ [k]) ++ ks := by simp
    have hk : Name k := hn k (by simp)
    have hrec : ∀ c, Grp schema c (p ++ [k]) → Grp schema (updPath f ks c) (p ++ [k]) :=
      fun c hc => ih c (p ++ [k]) (by rw [← e]; exact hn) (by rw [← e]; exact hs) hc
    simp only [updPath, updOrAdd, tryGetChild]
    cases hfk : findKid k n.kids with
    | some c =>
      simp only [kids_withKids, keys_updKid]
      refine ⟨h1, ?_⟩
      intro k' c' hm
      rcases mem_updKid hm with hm | ⟨rfl, c, hc, rfl⟩
      · exact h2 k' c' hm
      · exact ⟨hk, hrec c (h2 _ c hc).2⟩
    | none =>
      simp only [addChild, kids_withKids]
      refine ⟨?_, ?_⟩
      · have := findKid_none_iff.1 hfk
        simp only [keys, List.map_append, List.map_cons, List.map_nil]
        rw [List.nodup_append]
        refine ⟨h1, by simp, ?_⟩
        intro a ha b hb
        simp only [List.mem_singleton] at hb
        rintro rfl
        rw [hb] at ha
        exact this ha
      · intro k' c' hm
        rcases List.mem_append.1 hm with hm | hm
        · exact h2 k' c' hm
        · simp only [List.mem_singleton, Prod.mk.injEq] at hm
          obtain ⟨rfl, rfl⟩ := hm
          exact ⟨hk, hrec _ (grp_empty _ _)⟩

theorem mem_erase {n : PropNode} {k : Str} {x : Str × PropNode} (h : x ∈ (n.erase k).2.kids) : x ∈ n.kids := by
  unfold erase at h
  simp only [kids_mk] at h
  cases hk : findKid k n.kids with
  | some c =>
    obtain ⟨as, bs, e, hn⟩ := findKid_split hk
    rw [e, eraseKid_append_hit hn] at h
    rw [e]
    rcases List.mem_append.1 h with h | h <;> simp [h]
  | none => rw [eraseKid_miss (findKid_none_iff.1 hk)] at h; exact h

theorem nodup_erase {n : PropNode} {k : Str} (h : (keys n.kids).Nodup) : (keys (n.erase k).2.kids).Nodup := by
  rw [List.nodup_iff_count]
  intro a
  exact Nat.le_trans (count_erase n k a) (List.nodup_iff_count.1 h a)

theorem grp_erase {schema : PropNode} (hf : Flat schema) : ∀ (q : List Str) (n : PropNode)
    (p : List Str), (∀ x ∈ p ++ q, Name x) → isSet schema (p ++ q) = true → Grp schema n p →
    Grp schema (erasePath q n) p := by
  intro q
  induction q with
  | nil => intro n p _ _ hg; exact hg
  | cons k ks ih =>
    intro n p hn hs hg
    have hp : ¬ isSet schema p = true := fun h => by simpa using hf p (k :: ks) hn h hs
    rw [grp_iff] at hg ⊢
    rcases hg with hg | ⟨h1, h2⟩
    · exact absurd hg hp
    right
    cases ks with
    | nil => exact ⟨nodup_erase h1, fun k' c' hm => h2 k' c' (mem_erase hm)⟩
    | cons k2 ks =>
      rw [erasePath, kids_withKids, keys_updKid]
      refine ⟨h1, ?_⟩
      intro k' c' hm
      rcases mem_updKid hm with hm | ⟨rfl, c, hc, rfl⟩
      · exact h2 k' c' hm
      · have e : p ++ k' :: k2 :: ks = (p ++ [k']) ++ k2 :: ks := by simp
        exact ⟨hn k' (by simp), ih c (p ++ [k']) (by rw [← e]; exact hn) (by rw [← e]; exact hs) (h2 _ c hc).2⟩

theorem grp_uniq {schema : PropNode} (hf : Flat schema) : ∀ (q : List Str) (n : PropNode)
    (p : List Str), (∀ x ∈ p ++ q, Name x) → isSet schema (p ++ q) = true → Grp schema n p → UniqAlong n q := by
  intro q
  induction q with
  | nil => intro n p _ _ _; trivial
  | cons k ks ih =>
    intro n p hn hs hg
    have hp : ¬ isSet schema p = true := fun h => by simpa using hf p (k :: ks) hn h hs
    rw [grp_iff] at hg
    rcases hg with hg | ⟨h1, h2⟩
    · exact absurd hg hp
    refine ⟨List.nodup_iff_count.1 h1 k, fun c hc => ?_⟩
    have e : p ++ k :: ks = (p ++ [k]) ++ ks := by simp
    exact ih c (p ++ [k]) (by rw [← e]; exact hn) (by rw [← e]; exact hs) (h2 _ c (mem_of_findKid hc)).2

/-! ### The entries of a well-formed tree -/

/-- Every id found below a node continues the id of the node. -/
theorem flat_ids (schema : PropNode) (n : PropNode) : ∀ (id : Str), ∀ c ∈ flat schema n id,
    c.1 = id ∨ ∃ t, c.1 = id ++ '.' :: t := by
  induction n using PropNode.ind with
  | h v ks a ih =>
    intro id c hc
    rw [flat] at hc
    split at hc
    · simp only [List.mem_singleton] at hc; rw [hc]; exact Or.inl rfl
    · right
      have kids : ∀ (ks : Kids), (∀ k c, (k, c) ∈ ks → ∀ id, ∀ x ∈ flat schema c id, x.1 = id ∨ ∃ t, x.1 = id ++ '.' :: t) →
          ∀ x ∈ flatKids schema ks id, ∃ t, x.1 = id ++ '.' :: t := by
        intro ks
        induction ks with
        | nil => intro _ x hx; rw [flatKids] at hx; cases hx
        | cons y ks ihk =>
          obtain ⟨k, c⟩ := y
          intro hk x hx
          rw [flatKids] at hx
          rcases List.mem_append.1 hx with hx | hx
          · rcases hk k c (by simp) _ x hx with e | ⟨t, e⟩
            · exact ⟨k, e⟩
            · exact ⟨k ++ '.' :: t, by rw [e]; simp⟩
          · exact ihk (fun k c hc => hk k c (by simp [hc])) x hx
      exact kids ks (fun k c hc => ih k c hc) c hc

/-- Every id found below a node of a well-formed tree is the one of a path of names, and of a setting. -/
theorem flat_plain (schema : PropNode) (n : PropNode) : ∀ (p : List Str), p ≠ [] → (∀ x ∈ p, Name x) →
    Grp schema n p → ∀ c ∈ flat schema n (idOf p),
      (tryFind schema c.1).isSome = true ∧ PlainId c.1 := by
  induction n using PropNode.ind with
  | h v ks a ih =>
    intro p hp hn hg c hc
    rw [flat] at hc
    split at hc
    · next h =>
      simp only [List.mem_singleton] at hc
      rw [hc]
      exact ⟨h, plainId_idOf hp hn⟩
    · next h =>
      rw [grp_iff] at hg
      rcases hg with hg | ⟨_, h2⟩
      · simp only [isSet, Bool.and_eq_true] at hg
        exact absurd hg.2 h
      · have kids : ∀ (ks : Kids), (∀ k c, (k, c) ∈ ks → ∀ x ∈ flat schema c (idOf p ++ '.' :: k),
            (tryFind schema x.1).isSome = true ∧ PlainId x.1) →
            ∀ x ∈ flatKids schema ks (idOf p), (tryFind schema x.1).isSome = true ∧ PlainId x.1 := by
          intro ks
          induction ks with
          | nil => intro _ x hx; rw [flatKids] at hx; cases hx
          | cons y ks ihk =>
            obtain ⟨k, c⟩ := y
            intro hk x hx
            rw [flatKids] at hx
            rcases List.mem_append.1 hx with hx | hx
            · exact hk k c (by simp) x hx
            · exact ihk (fun k c hc => hk k c (by simp [hc])) x hx
        refine kids ks (fun k c hkc x hx => ?_) c hc
        have hk := h2 k c hkc
        rw [← idOf_snoc hp] at hx
        exact ih k c hkc (p ++ [k]) (by simp) (by
          intro y hy
          rcases List.mem_append.1 hy with hy | hy
          · exact hn y hy
          · simp only [List.mem_singleton] at hy; rw [hy]; exact hk.1) hk.2 x hx

/-- Nothing with the id of a path is found below a node with another name. -/
theorem flat_other {schema : PropNode} {c : PropNode} {p : List Str} {k k' : Str} {ks : List Str}
    (hn : ∀ x ∈ p ++ k :: ks, Name x) (hk' : Name k') (hne : k' ≠ k) :
    (flat schema c (idOf (p ++ [k']))).filter (fun x => x.1 = idOf (p ++ k :: ks)) = [] := by
  rw [List.filter_eq_nil_iff]
  intro x hx
  simp only [decide_eq_true_eq]
  intro e
  have d1 : ∀ x ∈ p ++ k :: ks, '.' ∉ x := fun x hx => (hn x hx).1
  have d2 : ∀ x ∈ p ++ [k'], '.' ∉ x := by
    intro y hy
    rcases List.mem_append.1 hy with hy | hy
    · exact d1 y (by simp [hy])
    · simp only [List.mem_singleton] at hy; rw [hy]; exact hk'.1
  rcases flat_ids schema c _ x hx with e2 | ⟨t, e2⟩
  · have := idOf_inj (by simp) (by simp) d2 d1 (e2.symm.trans e)
    have := List.append_cancel_left this
    simp only [List.cons.injEq] at this
    exact hne this.1
  · obtain ⟨k2, ks2, hp2, e3⟩ := C16_every_query_is_a_path '.' t
    have e4 : idOf ((p ++ [k']) ++ k2 :: ks2) = idOf (p ++ k :: ks) := by
      rw [idOf_append (by simp) (by simp), ← e, e2, e3]; rfl
    have := idOf_inj (by simp) (by simp) (by
      intro y hy
      rcases List.mem_append.1 hy with hy | hy
      · exact d2 y hy
      · rcases List.mem_cons.1 hy with rfl | hy
        · exact hp2.1
        · exact hp2.2 y hy) d1 e4
    rw [List.append_assoc] at this
    have := List.append_cancel_left this
    simp only [List.cons_append, List.nil_append, List.cons.injEq] at this
    exact hne this.1

theorem filter_kids {schema : PropNode} {p : List Str} {k : Str} {ks : List Str} (hn : ∀ x ∈ p ++ k :: ks, Name x) :
    ∀ (cs : Kids), (keys cs).Nodup → (∀ k c, (k, c) ∈ cs → Name k) →
    (cs.flatMap fun y => flat schema y.2 (idOf (p ++ [y.1]))).filter (fun x => x.1 = idOf (p ++ k :: ks)) =
      match findKid k cs with
      | some c => (flat schema c (idOf (p ++ [k]))).filter (fun x => x.1 = idOf (p ++ k :: ks))
      | none => [] := by
  intro cs
  induction cs with
  | nil => intro _ _; rfl
  | cons y cs ih =>
    intro hd hm
    obtain ⟨k', c⟩ := y
    simp only [List.flatMap_cons, List.filter_append]
    have hd2 : (keys cs).Nodup := by simp only [keys, List.map_cons, List.nodup_cons] at hd; exact hd.2
    have hnot : k' ∉ keys cs := by simp only [keys, List.map_cons, List.nodup_cons] at hd; exact hd.1
    rw [ih hd2 (fun k c hc => hm k c (by simp [hc]))]
    by_cases e : k' = k
    · subst e
      rw [findKid_none_iff.2 hnot]
      simp [findKid]
    · rw [flat_other hn (hm k' c (by simp)) e]
      simp [findKid, e]

theorem flatKids_flatMap (schema : PropNode) {p : List Str} (hp : p ≠ []) (cs : Kids) :
    flatKids schema cs (idOf p) = cs.flatMap fun y => flat schema y.2 (idOf (p ++ [y.1])) := by
  induction cs with
  | nil => rw [flatKids]; rfl
  | cons y cs ih =>
    obtain ⟨k, c⟩ := y
    rw [flatKids, ih, List.flatMap_cons, idOf_snoc hp]

/-- The value at the path of a setting is found exactly once. -/
theorem flat_filter {schema : PropNode} (hf : Flat schema) : ∀ (q : List Str) (n : PropNode) (p : List Str), p ≠ [] →
    (∀ x ∈ p ++ q, Name x) → isSet schema (p ++ q) = true → Grp schema n p →
    (flat schema n (idOf p)).filter (fun x => x.1 = idOf (p ++ q)) =
      (n.lookup q).toList.map fun v => (idOf (p ++ q), v) := by
  intro q
  induction q with
  | nil =>
    intro n p hp hn hs hg
    rw [List.append_nil] at hs ⊢
    cases n with
    | mk v ks a =>
      rw [flat]
      simp only [isSet, Bool.and_eq_true] at hs
      rw [if_pos hs.2]
      simp [lookup]
  | cons k ks ih =>
    intro n p hp hn hs hg
    have hps : ¬ isSet schema p = true := fun h => by simpa using hf p (k :: ks) hn h hs
    have hpt : ¬ (tryFind schema (idOf p)).isSome = true := fun h => hps (by simp [isSet, hp, h])
    rw [grp_iff] at hg
    rcases hg with hg | ⟨h1, h2⟩
    · exact absurd hg hps
    cases n with
    | mk v cs a =>
      rw [flat, if_neg hpt, flatKids_flatMap schema hp, filter_kids hn cs h1 (fun k c hc => (h2 k c hc).1), lookup]
      simp only [kids_mk]
      cases hfk : findKid k cs with
      | none => simp
      | some c =>
        have e : p ++ k :: ks = (p ++ [k]) ++ ks := by simp
        simp only [Option.bind_some]
        rw [e]
        exact ih c (p ++ [k]) (by simp) (by rw [← e]; exact hn) (by rw [← e]; exact hs) (h2 k c (mem_of_findKid hfk)).2

/-- The same for a whole file. -/
theorem entries_filter {schema : PropNode} (hf : Flat schema) {k : Str} {ks : List Str} {cs : Kids}
    (hn : ∀ x ∈ k :: ks, Name x) (hs : isSet schema (k :: ks) = true) (hv : k ≠ "version".toList)
    (hd : (keys cs).Nodup) (hg : ∀ k c, (k, c) ∈ cs → Name k ∧ Grp schema c [k]) :
    (entries schema cs).filter (fun x => x.1 = idOf (k :: ks)) =
      ((findKid k cs).bind fun c => c.lookup ks).toList.map fun v => (idOf (k :: ks), v) := by
  have e1 : (entries schema cs).filter (fun x => x.1 = idOf (k :: ks)) =
      (cs.flatMap fun y => flat schema y.2 (idOf ([] ++ [y.1]))).filter (fun x => x.1 = idOf ([] ++ k :: ks)) := by
    clear hd
    induction cs with
    | nil => rfl
    | cons y cs ih =>
      obtain ⟨k', c⟩ := y
      rw [entries, List.flatMap_cons, List.filter_append, List.filter_append, ih (fun k c hc => hg k c (by simp [hc]))]
      congr 1
      split
      · next e =>
        subst e
        exact (flat_other (p := []) hn (hg _ c (by simp)).1 (Ne.symm hv)).symm
      · rfl
  rw [e1, filter_kids (p := []) hn cs hd (fun k c hc => (hg k c hc).1)]
  cases hfk : findKid k cs with
  | none => rfl
  | some c =>
    simp only [Option.bind_some]
    exact flat_filter hf ks c [k] (by simp) hn hs (hg k c (mem_of_findKid hfk)).2

theorem entries_plain {schema : PropNode} {cs : Kids} (hg : ∀ k c, (k, c) ∈ cs → Name k ∧ Grp schema c [k]) :
    ∀ c ∈ entries schema cs, (tryFind schema c.1).isSome = true ∧ PlainId c.1 := by
  induction cs with
  | nil => intro c hc; cases hc
  | cons y cs ih =>
    obtain ⟨k, n⟩ := y
    intro c hc
    rw [entries] at hc
    rcases List.mem_append.1 hc with hc | hc
    · split at hc
      · cases hc
      · have := hg k n (by simp)
        exact flat_plain schema n [k] (by simp) (by simpa using this.1) this.2 c hc
    · exact ih (fun k c hc => hg k c (by simp [hc])) c hc

end SetDisk
end Xo
