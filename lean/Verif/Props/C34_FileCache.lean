import Verif.Model.FileCache
import Verif.Lemmas.StdMap
import Verif.Lemmas.SharedMutex
import Mathlib.Data.List.Nodup
import Mathlib.Order.Lattice
import Mathlib.Data.Nat.Basic

/-!
C34: `file_resource_cache` under every interleaving of threads, file changes and failures.
-/
namespace Xo
variable {K C T : Type} [LinearOrder K]
open StdMap (cmp)

namespace FileCache

/-- What a thread holds at each point. -/
def mode : CachePc K → LockMode
  | .shared _ => .shared
  | .shared2 _ => .shared
  | .check _ _ => .unique
  | .reloading _ => .unique
  | .new _ => .unique
  | .creating _ _ _ => .unique
  | _ => .nothing

/-- What the position of a thread says about the entries. -/
def PcOk (items : StdMap K (CacheItem C T)) (created : List (K × Nat)) (lastTime : K → Nat) (mono : Bool) :
    CachePc K → Prop
  | .wantCheck p _ => (items.find cmp p).isSome
  | .check p _ => (items.find cmp p).isSome
  | .wantShared2 p => (items.find cmp p).isSome
  | .shared2 p => (items.find cmp p).isSome
  | .reloading p => ∃ it, items.find cmp p = some it ∧ (mono = true → ∀ ft, (p, ft) ∈ created → ft < it.fileTime)
  | .creating p ft _ => items.find cmp p = none ∧ (mono = true → ft ≤ lastTime p)
  | _ => True

/-- What holds between any two events. -/
structure Inv (create : K → C → Res T) (s : FileCache K C T) : Prop where
  lock : LockInv s.mtx fun t => mode (s.pc t)
  sorted : s.items.Sorted
  pcs : ∀ t, PcOk s.items s.created s.lastTime s.mono (s.pc t)
  files : ∀ p mc, s.files p = some mc → (p, mc) ∈ s.past ∧ mc.1 = s.lastTime p
  made : ∀ p it, s.items.find cmp p = some it →
    create p it.src.2 = .ok it.data ∧ (p, it.src) ∈ s.past ∧ (s.mono = true → it.fileTime ≤ s.lastTime p)
  chk : ∀ p it, s.items.find cmp p = some it → s.checked p = some it.fileTime
  chkNew : ∀ t p ft w, s.pc t = .creating p ft w → s.checked p = some ft
  fresh : ∀ p it, s.items.find cmp p = some it → s.mono = true → s.reloadFailed p = false →
    (∀ t, s.pc t ≠ .reloading p) → it.fileTime ≤ it.src.1
  created : ∀ p ft, (p, ft) ∈ s.created →
    ∃ it, s.items.find cmp p = some it ∧ (s.mono = true → ft ≤ it.fileTime)
  nodup : s.mono = true → s.created.Nodup
  results : ∀ t p d ck src, (t, p, Res.ok (d, ck, src)) ∈ s.results →
    create p src.2 = .ok d ∧ (p, src) ∈ s.past ∧
    ∃ c, ck = some c ∧ (s.mono = true → s.reloadFailed p = false → c ≤ src.1)

theorem inv_init (create : K → C → Res T) : Inv create (init : FileCache K C T) := by
  refine ⟨LockInv.free, StdMap.sorted_empty, ?_, ?_, ?_, ?_, ?_, ?_, ?_, ?_, ?_⟩ <;>
    simp [init, StdMap.find_empty, PcOk]

/-- A step that touches only the mutex, one program counter and the results. -/
theorem inv_quiet {create : K → C → Res T} {s : FileCache K C T} (h : Inv create s) (t : Nat) (p : CachePc K)
    (m : SharedMutex) (res : List (Nat × K × Res (T × Option Nat × Nat × C)))
    (hold : ∀ a, s.pc t ≠ .reloading a) (hnew : ∀ a, p ≠ .reloading a) (hnew2 : ∀ a ft w, p ≠ .creating a ft w)
    (hok : PcOk s.items s.created s.lastTime s.mono p)
    (hl : LockInv m (setPc (fun u => mode (s.pc u)) t (mode p)))
    (hres : ∀ t p d ck src, (t, p, Res.ok (d, ck, src)) ∈ res →
      create p src.2 = .ok d ∧ (p, src) ∈ s.past ∧
      ∃ c, ck = some c ∧ (s.mono = true → s.reloadFailed p = false → c ≤ src.1)) :
    Inv create { s with mtx := m, pc := setPc s.pc t p, results := res } := by
  refine ⟨?_, h.sorted, ?_, h.files, h.made, h.chk, ?_, ?_, h.created, h.nodup, hres⟩
  · show LockInv m fun u => mode (setPc s.pc t p u)
    rw [LockInv.comp_setPc]; exact hl
  · intro u
    show PcOk s.items s.created s.lastTime s.mono (setPc s.pc t p u)
    by_cases hu : u = t
    · subst hu; rw [setPc_same]; exact hok
    · rw [setPc_ne _ _ hu]; exact h.pcs u
  · intro u q ft w hu
    change setPc s.pc t p u = _ at hu
    by_cases hut : u = t
    · subst hut; rw [setPc_same] at hu; exact absurd hu (hnew2 q ft w)
    · rw [setPc_ne _ _ hut] at hu; exact h.chkNew u q ft w hu
  · intro q it hit hmono hf hno
    refine h.fresh q it hit hmono hf fun u hu => hno u ?_
    show setPc s.pc t p u = _
    by_cases hut : u = t
    · subst hut; exact absurd hu (hold q)
    · rw [setPc_ne _ _ hut]; exact hu

theorem find_put_mono {m : StdMap K (CacheItem C T)} (hs : m.Sorted) (p q : K) (it : CacheItem C T)
    (h : (m.find cmp q).isSome) : ((m.put cmp p it).find cmp q).isSome := by
  rw [StdMap.find_put hs]; split
  · rfl
  · exact h

/-- The positions of the threads other than the exclusive owner stay fine when an entry is put. -/
theorem pcOk_others {items : StdMap K (CacheItem C T)} {created created' : List (K × Nat)} {lastTime : K → Nat}
    {mono : Bool} (hs : items.Sorted) (p : K) (it : CacheItem C T) {x : CachePc K} (hx : mode x ≠ .unique)
    (h : PcOk items created lastTime mono x) : PcOk (items.put cmp p it) created' lastTime mono x := by
  cases x <;> first
    | trivial
    | exact find_put_mono hs _ _ _ h
    | exact absurd rfl hx

/-- A finished result list entry that is an error says nothing. -/
theorem results_err {create : K → C → Res T} {s : FileCache K C T} (h : Inv create s) (t : Nat) (p : K) :
    ∀ t' p' d ck src, (t', p', Res.ok (d, ck, src)) ∈ ((t, p, Res.err) :: s.results) →
      create p' src.2 = .ok d ∧ (p', src) ∈ s.past ∧
      ∃ c, ck = some c ∧ (s.mono = true → s.reloadFailed p' = false → c ≤ src.1) := by
  intro t' p' d ck src hm
  rcases List.mem_cons.1 hm with e | hm
  · cases e
  · exact h.results t' p' d ck src hm

/-- Returning the entry found. -/
theorem results_ok {create : K → C → Res T} {s : FileCache K C T} (h : Inv create s) (t : Nat) (p : K)
    (it : CacheItem C T) (hf : s.items.find cmp p = some it) (hno : ∀ u, s.pc u ≠ .reloading p) :
    ∀ t' p' d ck src, (t', p', Res.ok (d, ck, src)) ∈ ((t, p, Res.ok (it.data, s.checked p, it.src)) :: s.results) →
      create p' src.2 = .ok d ∧ (p', src) ∈ s.past ∧
      ∃ c, ck = some c ∧ (s.mono = true → s.reloadFailed p' = false → c ≤ src.1) := by
  intro t' p' d ck src hm
  rcases List.mem_cons.1 hm with e | hm
  · cases e
    have hm := h.made p it hf
    exact ⟨hm.1, hm.2.1, it.fileTime, h.chk p it hf, fun h1 h2 => h.fresh p it hf h1 h2 hno⟩
  · exact h.results t' p' d ck src hm

theorem no_reload_of_shared {create : K → C → Res T} {s : FileCache K C T} (h : Inv create s) {t : Nat}
    (ht : mode (s.pc t) = .shared) (p : K) : ∀ u, s.pc u ≠ .reloading p := by
  intro u hu
  exact h.lock.no_shared (t := u) (u := t) (by simp [hu, mode]) ht

theorem not_unique_of_ne {create : K → C → Res T} {s : FileCache K C T} (h : Inv create s) {t : Nat}
    (ht : mode (s.pc t) = .unique) {u : Nat} (hu : u ≠ t) : mode (s.pc u) ≠ .unique :=
  fun he => hu (h.lock.unique_owner he ht)

theorem upd_same {V : Type} (f : K → V) (p : K) (v : V) : upd f p v p = v := by simp [upd]

theorem upd_ne {V : Type} (f : K → V) {p q : K} (v : V) (h : q ≠ p) : upd f p v q = f q := by simp [upd, h]

theorem make_ok {create : K → C → Res T} {files : K → Option (Nat × C)} {p : K} {d : T} {mc : Nat × C}
    (h : make create files p = .ok (d, mc)) : files p = some mc ∧ create p mc.2 = .ok d := by
  unfold make at h
  cases hf : files p with
  | none => rw [hf] at h; cases h
  | some x =>
    rw [hf] at h
    simp only at h
    cases hc : create p x.2 with
    | ok d' => rw [hc] at h; simp only [Res.map] at h; cases h; exact ⟨rfl, hc⟩
    | err => rw [hc] at h; cases h
    | ub => rw [hc] at h; cases h

/-- Putting back the entry with another check time only. -/
theorem inv_recheck {create : K → C → Res T} {s : FileCache K C T} (h : Inv create s) (t : Nat) (p : K)
    (w w' : Nat) (it : CacheItem C T) (hp : s.pc t = .check p w') (hf : s.items.find cmp p = some it)
    (x : CachePc K) (hx : mode x = .nothing) (hxp : x = .idle ∨ x = .wantShared2 p)
    (ck : K → Option Nat) (hck : ∀ q, ck q = s.checked q)
    (res : List (Nat × K × Res (T × Option Nat × Nat × C)))
    (hres : ∀ t p d ck src, (t, p, Res.ok (d, ck, src)) ∈ res →
      create p src.2 = .ok d ∧ (p, src) ∈ s.past ∧
      ∃ c, ck = some c ∧ (s.mono = true → s.reloadFailed p = false → c ≤ src.1)) :
    Inv create { s with items := s.items.put cmp p { it with lastChecked := w }, mtx := s.mtx.unlock,
                        pc := setPc s.pc t x, checked := ck, results := res } := by
  have ckeq : ck = s.checked := funext hck
  subst ckeq
  have hu : mode (s.pc t) = .unique := by simp [hp, mode]
  have hfind : ∀ q, (s.items.put cmp p { it with lastChecked := w }).find cmp q =
      if q = p then some { it with lastChecked := w } else s.items.find cmp q := StdMap.find_put h.sorted p _
  have hback : ∀ q it', (s.items.put cmp p { it with lastChecked := w }).find cmp q = some it' →
      ∃ it0, s.items.find cmp q = some it0 ∧ it0.fileTime = it'.fileTime ∧ it0.data = it'.data ∧ it0.src = it'.src := by
    intro q it' hq
    rw [hfind] at hq
    split at hq
    · next e => subst e; cases hq; exact ⟨it, hf, rfl, rfl, rfl⟩
    · exact ⟨it', hq, rfl, rfl, rfl⟩
  have hpcx : ∀ u q, setPc s.pc t x u = .reloading q ↔ s.pc u = .reloading q := by
    intro u q
    by_cases hut : u = t
    · subst hut; rcases hxp with rfl | rfl <;> simp [hp]
    · rw [setPc_ne _ _ hut]
  refine ⟨?_, StdMap.sorted_put h.sorted _ _, ?_, h.files, ?_, ?_, ?_, ?_, ?_, h.nodup, hres⟩
  · show LockInv s.mtx.unlock fun u => mode (setPc s.pc t x u)
    rw [LockInv.comp_setPc, hx]; exact h.lock.unlock hu
  · intro u
    by_cases hut : u = t
    · subst hut
      simp only [setPc_same]
      rcases hxp with rfl | rfl
      · trivial
      · show ((s.items.put cmp p _).find cmp p).isSome
        rw [hfind]; simp
    · simp only [setPc_ne _ _ hut]
      exact pcOk_others h.sorted p _ (not_unique_of_ne h hu hut) (h.pcs u)
  · intro q it' hq
    obtain ⟨it0, h0, e1, e2, e3⟩ := hback q it' hq
    have := h.made q it0 h0
    rw [← e1, ← e2, ← e3]; exact this
  · intro q it' hq
    obtain ⟨it0, h0, e1, e2, e3⟩ := hback q it' hq
    rw [← e1]; exact h.chk q it0 h0
  · intro u q ft w'' hu'
    by_cases hut : u = t
    · subst hut; simp only [setPc_same] at hu'; rcases hxp with rfl | rfl <;> cases hu'
    · simp only [setPc_ne _ _ hut] at hu'; exact h.chkNew u q ft w'' hu'
  · intro q it' hq hm hr hno
    obtain ⟨it0, h0, e1, e2, e3⟩ := hback q it' hq
    rw [← e1, ← e3]
    exact h.fresh q it0 h0 hm hr fun u hu' => hno u ((hpcx u q).2 hu')
  · intro q ft hm
    obtain ⟨it0, h0, h1⟩ := h.created q ft hm
    simp only [hfind]
    split
    · next e => subst e; rw [hf] at h0; cases h0; exact ⟨_, rfl, h1⟩
    · exact ⟨it0, h0, h1⟩

theorem inv_act (create : K → C → Res T) (s s' : FileCache K C T) (h : Inv create s) (t : Nat) (arg : K)
    (hs : s.act cmp create t arg = some s') : Inv create s' := by
  unfold act at hs
  cases hp : s.pc t with
  | idle =>
    simp only [hp] at hs; cases hs
    exact inv_quiet h t _ s.mtx s.results (by simp [hp]) (by simp) (by simp) trivial
      (h.lock.stay t (by simp [hp, mode])) h.results
  | wantShared p =>
    simp only [hp] at hs
    cases hm : s.mtx.lockShared t with
    | none => simp [hm] at hs
    | some m =>
      simp only [hm] at hs; cases hs
      exact inv_quiet h t _ m s.results (by simp [hp]) (by simp) (by simp) trivial
        (h.lock.lockShared (by simp [hp, mode]) hm) h.results
  | shared p =>
    have hsh : mode (s.pc t) = .shared := by simp [hp, mode]
    simp only [hp] at hs
    cases hf : s.items.find cmp p with
    | some it =>
      simp only [hf] at hs
      split at hs
      · cases hs
        exact inv_quiet h t _ _ s.results (by simp [hp]) (by simp) (by simp) (by simp [PcOk, hf])
          (h.lock.unlockShared hsh) h.results
      · cases hs
        exact inv_quiet h t _ _ _ (by simp [hp]) (by simp) (by simp) trivial (h.lock.unlockShared hsh)
          (results_ok h t p it hf (no_reload_of_shared h hsh p))
    | none =>
      simp only [hf] at hs
      cases hfile : s.files p with
      | none =>
        simp only [hfile] at hs; cases hs
        exact inv_quiet h t _ _ _ (by simp [hp]) (by simp) (by simp) trivial (h.lock.unlockShared hsh)
          (results_err h t p)
      | some mc =>
        simp only [hfile] at hs; cases hs
        exact inv_quiet h t _ _ s.results (by simp [hp]) (by simp) (by simp) trivial
          (h.lock.unlockShared hsh) h.results
  | wantCheck p w =>
    simp only [hp] at hs
    have hok := h.pcs t
    rw [hp] at hok
    cases hm : s.mtx.lock t with
    | none => simp [hm] at hs
    | some m =>
      simp only [hm] at hs; cases hs
      exact inv_quiet h t _ m s.results (by simp [hp]) (by simp) (by simp) hok (h.lock.lock hm) h.results
  | check p w =>
    have hu : mode (s.pc t) = .unique := by simp [hp, mode]
    simp only [hp] at hs
    cases hf : s.items.find cmp p with
    | none => simp [hf] at hs
    | some it =>
      simp only [hf] at hs
      cases hfile : s.files p with
      | none =>
        simp only [hfile] at hs; cases hs
        exact inv_recheck h t p w w it hp hf .idle rfl (.inl rfl) s.checked (fun _ => rfl) _ (results_err h t p)
      | some mc =>
        simp only [hfile] at hs
        split at hs
        · next hne =>
          cases hs
          have hfl := h.files p mc hfile
          have hfind : ∀ q, (s.items.put cmp p { it with lastChecked := w, fileTime := mc.1 }).find cmp q =
              if q = p then some { it with lastChecked := w, fileTime := mc.1 } else s.items.find cmp q :=
            StdMap.find_put h.sorted p _
          have hmd := h.made p it hf
          have hlt : s.mono = true → it.fileTime < mc.1 := by
            intro hm; have := hmd.2.2 hm; omega
          refine ⟨?_, StdMap.sorted_put h.sorted _ _, ?_, h.files, ?_, ?_, ?_, ?_, ?_, h.nodup, h.results⟩
          · show LockInv s.mtx fun u => mode (setPc s.pc t (.reloading p) u)
            rw [LockInv.comp_setPc]; exact h.lock.stay t hu
          · intro u
            by_cases hut : u = t
            · subst hut
              simp only [setPc_same]
              refine ⟨_, by rw [hfind, if_pos rfl], fun hm ft hft => ?_⟩
              obtain ⟨it0, h0, h1⟩ := h.created p ft hft
              rw [hf] at h0; cases h0
              exact lt_of_le_of_lt (h1 hm) (hlt hm)
            · simp only [setPc_ne _ _ hut]
              exact pcOk_others h.sorted p _ (not_unique_of_ne h hu hut) (h.pcs u)
          · intro q it' hq
            rw [hfind] at hq
            split at hq
            · next e => subst e; cases hq; exact ⟨hmd.1, hmd.2.1, fun _ => le_of_eq hfl.2⟩
            · exact h.made q it' hq
          · intro q it' hq
            rw [hfind] at hq
            split at hq
            · next e => subst e; cases hq; exact upd_same _ _ _
            · next e => exact (upd_ne _ _ e).trans (h.chk q it' hq)
          · intro u q ft w' hu'
            by_cases hut : u = t
            · subst hut; simp at hu'
            · simp only [setPc_ne _ _ hut] at hu'
              exact absurd (by simp [hu', mode]) (not_unique_of_ne h hu hut)
          · intro q it' hq hm hr hno
            rw [hfind] at hq
            split at hq
            · next e => subst e; exact absurd (by simp) (hno t)
            · refine h.fresh q it' hq hm hr fun u hu' => ?_
              have : u = t := h.lock.unique_owner (by simp [hu', mode]) hu
              subst this; rw [hp] at hu'; cases hu'
          · intro q ft hm
            obtain ⟨it0, h0, h1⟩ := h.created q ft hm
            simp only [hfind]
            split
            · next e =>
              subst e; rw [hf] at h0; cases h0
              exact ⟨_, rfl, fun hm => le_of_lt (lt_of_le_of_lt (h1 hm) (hlt hm))⟩
            · exact ⟨it0, h0, h1⟩
        · next heq =>
          cases hs
          have heq : mc.1 = it.fileTime := by
            by_contra hc; exact heq hc
          refine inv_recheck h t p w w it hp hf (.wantShared2 p) rfl (.inr rfl) _ (fun q => ?_) _ h.results
          by_cases hq : q = p
          · subst hq; rw [upd_same, h.chk q it hf, heq]
          · rw [upd_ne _ _ hq]
  | reloading p =>
    have hu : mode (s.pc t) = .unique := by simp [hp, mode]
    have hok := h.pcs t
    rw [hp] at hok
    obtain ⟨it, hf, hcr⟩ := hok
    simp only [hp, hf] at hs
    have hother : ∀ u q, s.pc u = .reloading q → u = t ∧ q = p := by
      intro u q hu'
      have : u = t := h.lock.unique_owner (by simp [hu', mode]) hu
      subst this; rw [hp] at hu'; cases hu'; exact ⟨rfl, rfl⟩
    have hbad : Inv create (finish { s with reloadFailed := upd s.reloadFailed p true } t s.mtx.unlock p .err) := by
      refine ⟨?_, h.sorted, ?_, h.files, h.made, h.chk, ?_, ?_, h.created, h.nodup, ?_⟩
      · show LockInv s.mtx.unlock fun u => mode (setPc s.pc t (.idle : CachePc K) u)
        rw [LockInv.comp_setPc]; exact h.lock.unlock hu
      · intro u
        show PcOk s.items s.created s.lastTime s.mono (setPc s.pc t .idle u)
        by_cases hut : u = t
        · subst hut; rw [setPc_same]; trivial
        · rw [setPc_ne _ _ hut]; exact h.pcs u
      · intro u q ft w' hu'
        change setPc s.pc t .idle u = _ at hu'
        by_cases hut : u = t
        · subst hut; simp at hu'
        · rw [setPc_ne _ _ hut] at hu'; exact h.chkNew u q ft w' hu'
      · intro q it' hq hm hr _
        change upd s.reloadFailed p true q = false at hr
        have hqp : q ≠ p := by rintro rfl; rw [upd_same] at hr; cases hr
        rw [upd_ne _ _ hqp] at hr
        exact h.fresh q it' hq hm hr fun u hu' => hqp (hother u q hu').2
      · intro t' p' d ck src hm
        change (t', p', Res.ok (d, ck, src)) ∈ (t, p, Res.err) :: s.results at hm
        obtain ⟨h1, h2, c, h3, h4⟩ := results_err h t p t' p' d ck src hm
        refine ⟨h1, h2, c, h3, fun hm' hr => h4 hm' ?_⟩
        change upd s.reloadFailed p true p' = false at hr
        unfold upd at hr
        split at hr
        · cases hr
        · exact hr
    cases hmk : make create s.files p with
    | err => simp only [hmk] at hs; cases hs; exact hbad
    | ub => simp only [hmk] at hs; cases hs; exact hbad
    | ok dm =>
      obtain ⟨d, mc⟩ := dm
      simp only [hmk] at hs; cases hs
      obtain ⟨hfile, hcreate⟩ := make_ok hmk
      have hfl := h.files p mc hfile
      have hmd := h.made p it hf
      have hfind : ∀ q, (s.items.put cmp p { it with data := d, src := mc }).find cmp q =
          if q = p then some { it with data := d, src := mc } else s.items.find cmp q :=
        StdMap.find_put h.sorted p _
      refine ⟨?_, StdMap.sorted_put h.sorted _ _, ?_, h.files, ?_, ?_, ?_, ?_, ?_, ?_, h.results⟩
      · show LockInv s.mtx.unlock fun u => mode (setPc s.pc t (.wantShared2 p) u)
        rw [LockInv.comp_setPc]; exact h.lock.unlock hu
      · intro u
        by_cases hut : u = t
        · subst hut
          simp only [setPc_same, PcOk, hfind, if_true, Option.isSome]
        · simp only [setPc_ne _ _ hut]
          exact pcOk_others h.sorted p _ (not_unique_of_ne h hu hut) (h.pcs u)
      · intro q it' hq
        rw [hfind] at hq
        split at hq
        · next e => subst e; cases hq; exact ⟨hcreate, hfl.1, hmd.2.2⟩
        · exact h.made q it' hq
      · intro q it' hq
        rw [hfind] at hq
        split at hq
        · next e => subst e; cases hq; exact h.chk q it hf
        · exact h.chk q it' hq
      · intro u q ft w' hu'
        by_cases hut : u = t
        · subst hut; simp at hu'
        · simp only [setPc_ne _ _ hut] at hu'; exact h.chkNew u q ft w' hu'
      · intro q it' hq hm hr hno
        rw [hfind] at hq
        split at hq
        · next e =>
          subst e; cases hq
          have := hmd.2.2 hm
          show it.fileTime ≤ mc.1
          rw [hfl.2]; exact this
        · next e => exact h.fresh q it' hq hm hr fun u hu' => e (hother u q hu').2
      · intro q ft hm
        simp only [hfind]
        rcases List.mem_cons.1 hm with e | hm
        · cases e; rw [if_pos rfl]; exact ⟨_, rfl, fun _ => le_refl _⟩
        · obtain ⟨it0, h0, h1⟩ := h.created q ft hm
          split
          · next e => subst e; rw [hf] at h0; cases h0; exact ⟨_, rfl, h1⟩
          · exact ⟨it0, h0, h1⟩
      · intro hm
        refine List.nodup_cons.2 ⟨fun hmem => ?_, h.nodup hm⟩
        exact lt_irrefl _ (hcr hm _ hmem)
  | wantNew p =>
    simp only [hp] at hs
    cases hm : s.mtx.lock t with
    | none => simp [hm] at hs
    | some m =>
      simp only [hm] at hs; cases hs
      exact inv_quiet h t _ m s.results (by simp [hp]) (by simp) (by simp) trivial (h.lock.lock hm) h.results
  | new p =>
    have hu : mode (s.pc t) = .unique := by simp [hp, mode]
    simp only [hp] at hs
    cases hf : s.items.find cmp p with
    | some it =>
      simp only [hf] at hs; cases hs
      exact inv_quiet h t _ _ s.results (by simp [hp]) (by simp) (by simp) (by simp [PcOk, hf])
        (h.lock.unlock hu) h.results
    | none =>
      simp only [hf] at hs
      cases hfile : s.files p with
      | none =>
        simp only [hfile] at hs; cases hs
        exact inv_quiet h t _ _ _ (by simp [hp]) (by simp) (by simp) trivial (h.lock.unlock hu) (results_err h t p)
      | some mc =>
        simp only [hfile] at hs; cases hs
        have hfl := h.files p mc hfile
        refine ⟨?_, h.sorted, ?_, h.files, h.made, ?_, ?_, ?_, h.created, h.nodup, h.results⟩
        · show LockInv s.mtx fun u => mode (setPc s.pc t (.creating p mc.1 s.clock) u)
          rw [LockInv.comp_setPc]; exact h.lock.stay t hu
        · intro u
          by_cases hut : u = t
          · subst hut; simp only [setPc_same]; exact ⟨hf, fun _ => le_of_eq hfl.2⟩
          · simp only [setPc_ne _ _ hut]; exact h.pcs u
        · intro q it hq
          have hqp : q ≠ p := by rintro rfl; rw [hf] at hq; cases hq
          exact (upd_ne _ _ hqp).trans (h.chk q it hq)
        · intro u q ft w' hu'
          by_cases hut : u = t
          · subst hut; simp only [setPc_same] at hu'; cases hu'; exact upd_same _ _ _
          · simp only [setPc_ne _ _ hut] at hu'
            exact absurd (by simp [hu', mode]) (not_unique_of_ne h hu hut)
        · intro q it' hq hm hr hno
          refine h.fresh q it' hq hm hr fun u hu' => hno u ?_
          have hut : u ≠ t := by rintro rfl; rw [hp] at hu'; cases hu'
          simp only [setPc_ne _ _ hut]; exact hu'
  | creating p ft w =>
    have hu : mode (s.pc t) = .unique := by simp [hp, mode]
    have hok := h.pcs t
    rw [hp] at hok
    obtain ⟨hf, hle⟩ := hok
    simp only [hp] at hs
    have hno' : ∀ u q, s.pc u ≠ .reloading q := by
      intro u q hu'
      have : u = t := h.lock.unique_owner (by simp [hu', mode]) hu
      subst this; rw [hp] at hu'; cases hu'
    have hbad : Inv create (finish s t s.mtx.unlock p .err) :=
      inv_quiet h t _ _ _ (by simp [hp]) (by simp) (by simp) trivial (h.lock.unlock hu) (results_err h t p)
    cases hmk : make create s.files p with
    | err => simp only [hmk] at hs; cases hs; exact hbad
    | ub => simp only [hmk] at hs; cases hs; exact hbad
    | ok dm =>
      obtain ⟨d, mc⟩ := dm
      simp only [hmk] at hs; cases hs
      obtain ⟨hfile, hcreate⟩ := make_ok hmk
      have hfl := h.files p mc hfile
      have hfind : ∀ q, (s.items.put cmp p ⟨ft, w, d, mc⟩).find cmp q =
          if q = p then some ⟨ft, w, d, mc⟩ else s.items.find cmp q := StdMap.find_put h.sorted p _
      refine ⟨?_, StdMap.sorted_put h.sorted _ _, ?_, h.files, ?_, ?_, ?_, ?_, ?_, ?_, h.results⟩
      · show LockInv s.mtx.unlock fun u => mode (setPc s.pc t (.wantShared2 p) u)
        rw [LockInv.comp_setPc]; exact h.lock.unlock hu
      · intro u
        by_cases hut : u = t
        · subst hut
          simp only [setPc_same, PcOk, hfind, if_true, Option.isSome]
        · simp only [setPc_ne _ _ hut]
          exact pcOk_others h.sorted p _ (not_unique_of_ne h hu hut) (h.pcs u)
      · intro q it' hq
        rw [hfind] at hq
        split at hq
        · next e => subst e; cases hq; exact ⟨hcreate, hfl.1, hle⟩
        · exact h.made q it' hq
      · intro q it' hq
        rw [hfind] at hq
        split at hq
        · next e => subst e; cases hq; exact h.chkNew t _ ft w hp
        · exact h.chk q it' hq
      · intro u q ft' w' hu'
        by_cases hut : u = t
        · subst hut; simp at hu'
        · simp only [setPc_ne _ _ hut] at hu'; exact h.chkNew u q ft' w' hu'
      · intro q it' hq hm hr hno
        rw [hfind] at hq
        split at hq
        · next e =>
          subst e; cases hq
          show ft ≤ mc.1
          rw [hfl.2]; exact hle hm
        · exact h.fresh q it' hq hm hr fun u => hno' u q
      · intro q ft' hm
        simp only [hfind]
        rcases List.mem_cons.1 hm with e | hm
        · cases e; rw [if_pos rfl]; exact ⟨_, rfl, fun _ => le_refl _⟩
        · obtain ⟨it0, h0, h1⟩ := h.created q ft' hm
          split
          · next e => subst e; rw [hf] at h0; cases h0
          · exact ⟨it0, h0, h1⟩
      · intro hm
        refine List.nodup_cons.2 ⟨fun hmem => ?_, h.nodup hm⟩
        obtain ⟨it0, h0, _⟩ := h.created p ft hmem
        rw [hf] at h0; cases h0
  | wantShared2 p =>
    simp only [hp] at hs
    have hok := h.pcs t
    rw [hp] at hok
    cases hm : s.mtx.lockShared t with
    | none => simp [hm] at hs
    | some m =>
      simp only [hm] at hs; cases hs
      exact inv_quiet h t _ m s.results (by simp [hp]) (by simp) (by simp) hok
        (h.lock.lockShared (by simp [hp, mode]) hm) h.results
  | shared2 p =>
    have hsh : mode (s.pc t) = .shared := by simp [hp, mode]
    simp only [hp] at hs
    cases hf : s.items.find cmp p with
    | none => simp [hf] at hs
    | some it =>
      simp only [hf] at hs; cases hs
      exact inv_quiet h t _ _ _ (by simp [hp]) (by simp) (by simp) trivial (h.lock.unlockShared hsh)
        (results_ok h t p it hf (no_reload_of_shared h hsh p))

theorem inv_step (create : K → C → Res T) (s : FileCache K C T) (h : Inv create s) (e : CacheEv K C) :
    Inv create (s.step cmp create e) := by
  cases e with
  | thread t p =>
    show Inv create ((s.act cmp create t p).getD s)
    cases hs : s.act cmp create t p with
    | none => simpa using h
    | some s' => simpa using inv_act create s s' h t p hs
  | tick n => exact ⟨h.lock, h.sorted, h.pcs, h.files, h.made, h.chk, h.chkNew, h.fresh, h.created, h.nodup, h.results⟩
  | remove p =>
    refine ⟨h.lock, h.sorted, h.pcs, ?_, h.made, h.chk, h.chkNew, h.fresh, h.created, h.nodup, h.results⟩
    intro q mc hq
    change upd s.files p none q = some mc at hq
    unfold upd at hq
    split at hq
    · cases hq
    · exact h.files q mc hq
  | write p mt c =>
    have hm1 : (s.mono && decide (s.lastTime p ≤ mt)) = true → s.mono = true ∧ s.lastTime p ≤ mt := by
      simp [Bool.and_eq_true]
    have hle : (s.mono && decide (s.lastTime p ≤ mt)) = true → ∀ q, s.lastTime q ≤ upd s.lastTime p mt q := by
      intro hm q
      unfold upd; split
      · next e => subst e; exact (hm1 hm).2
      · exact le_refl _
    refine ⟨h.lock, h.sorted, ?_, ?_, ?_, h.chk, h.chkNew, ?_, ?_, ?_, ?_⟩
    · intro u
      have := h.pcs u
      show PcOk s.items s.created (upd s.lastTime p mt) (s.mono && decide (s.lastTime p ≤ mt)) (s.pc u)
      cases hx : s.pc u with
      | idle => trivial
      | wantShared q => trivial
      | shared q => trivial
      | wantCheck q w => rw [hx] at this; exact this
      | check q w => rw [hx] at this; exact this
      | reloading q =>
        rw [hx] at this
        obtain ⟨it, h1, h2⟩ := this
        exact ⟨it, h1, fun hm => h2 (hm1 hm).1⟩
      | wantNew q => trivial
      | new q => trivial
      | creating q ft w =>
        rw [hx] at this
        exact ⟨this.1, fun hm => le_trans (this.2 (hm1 hm).1) (hle hm q)⟩
      | wantShared2 q => rw [hx] at this; exact this
      | shared2 q => rw [hx] at this; exact this
    · intro q mc hq
      change upd s.files p (some (mt, c)) q = some mc at hq
      show (q, mc) ∈ (p, mt, c) :: s.past ∧ mc.1 = upd s.lastTime p mt q
      unfold upd at hq ⊢
      split at hq
      · next e => subst e; cases hq; simp
      · next e => rw [if_neg e]; exact ⟨List.mem_cons_of_mem _ (h.files q mc hq).1, (h.files q mc hq).2⟩
    · intro q it hq
      have := h.made q it hq
      exact ⟨this.1, List.mem_cons_of_mem _ this.2.1, fun hm => le_trans (this.2.2 (hm1 hm).1) (hle hm q)⟩
    · intro q it hq hm hr hno
      exact h.fresh q it hq (hm1 hm).1 hr hno
    · intro q ft hmem
      obtain ⟨it, h1, h2⟩ := h.created q ft hmem
      exact ⟨it, h1, fun hm => h2 (hm1 hm).1⟩
    · intro hm; exact h.nodup (hm1 hm).1
    · intro t' p' d ck src hmem
      obtain ⟨h1, h2, c', h3, h4⟩ := h.results t' p' d ck src hmem
      exact ⟨h1, List.mem_cons_of_mem _ h2, c', h3, fun hm => h4 (hm1 hm).1⟩

theorem inv_run (create : K → C → Res T) (es : List (CacheEv K C)) :
    ∀ s : FileCache K C T, Inv create s → Inv create (s.run cmp create es) := by
  induction es with
  | nil => intro s h; exact h
  | cons e es ih => intro s h; exact ih _ (inv_step create s h e)

/-! ### Ghost fields in terms of the events -/

theorem act_env {create : K → C → Res T} {s s' : FileCache K C T} {t : Nat} {arg : K}
    (hs : s.act cmp create t arg = some s') :
    s'.past = s.past ∧ s'.mono = s.mono ∧ s'.lastTime = s.lastTime ∧ s'.files = s.files := by
  unfold act at hs
  repeat' split at hs
  all_goals first
    | cases hs; exact ⟨rfl, rfl, rfl, rfl⟩
    | cases hs

theorem step_thread_env (create : K → C → Res T) (s : FileCache K C T) (t : Nat) (arg : K) :
    (s.step cmp create (.thread t arg)).past = s.past ∧ (s.step cmp create (.thread t arg)).mono = s.mono ∧
    (s.step cmp create (.thread t arg)).lastTime = s.lastTime ∧
    (s.step cmp create (.thread t arg)).files = s.files := by
  show ((s.act cmp create t arg).getD s).past = _ ∧ ((s.act cmp create t arg).getD s).mono = _ ∧
    ((s.act cmp create t arg).getD s).lastTime = _ ∧ ((s.act cmp create t arg).getD s).files = _
  cases hs : s.act cmp create t arg with
  | none => exact ⟨rfl, rfl, rfl, rfl⟩
  | some s' => exact act_env hs

theorem run_past (create : K → C → Res T) (es : List (CacheEv K C)) :
    ∀ (s : FileCache K C T) (p : K) (mt : Nat) (c : C),
      (p, mt, c) ∈ (s.run cmp create es).past ↔ (p, mt, c) ∈ s.past ∨ CacheEv.write p mt c ∈ es := by
  induction es with
  | nil => intro s p mt c; simp [run]
  | cons e es ih =>
    intro s p mt c
    show (p, mt, c) ∈ ((s.step cmp create e).run cmp create es).past ↔ _
    rw [ih]
    cases e with
    | thread t a => rw [(step_thread_env create s t a).1]; simp
    | write q m d =>
      show (p, mt, c) ∈ (q, m, d) :: s.past ∨ _ ↔ _
      simp only [List.mem_cons, Prod.mk.injEq, CacheEv.write.injEq]
      constructor
      · rintro ((h | h) | h)
        · exact .inr (.inl h)
        · exact .inl h
        · exact .inr (.inr h)
      · rintro (h | h | h)
        · exact .inl (.inr h)
        · exact .inl (.inl h)
        · exact .inr h
    | remove q => show (p, mt, c) ∈ s.past ∨ _ ↔ _; simp
    | tick n => show (p, mt, c) ∈ s.past ∨ _ ↔ _; simp

end FileCache

namespace Spec

/-- In the order of the events, writes of the same file have non-decreasing modification times. -/
def TimesAscend (es : List (CacheEv K C)) : Prop :=
  es.Pairwise fun e e' => ∀ p m c m' c', e = .write p m c → e' = .write p m' c' → m ≤ m'

end Spec

namespace FileCache

theorem run_mono (create : K → C → Res T) (es : List (CacheEv K C)) :
    ∀ s : FileCache K C T, s.mono = true → (∀ p m c, CacheEv.write p m c ∈ es → s.lastTime p ≤ m) →
      Spec.TimesAscend es → (s.run cmp create es).mono = true := by
  induction es with
  | nil => intro s h _ _; exact h
  | cons e es ih =>
    intro s h hb ha
    unfold Spec.TimesAscend at ha
    rw [List.pairwise_cons] at ha
    show ((s.step cmp create e).run cmp create es).mono = true
    cases e with
    | thread t a =>
      have he := step_thread_env create s t a
      refine ih _ (by rw [he.2.1]; exact h) ?_ ha.2
      intro p m c hm
      rw [he.2.2.1]; exact hb p m c (List.mem_cons_of_mem _ hm)
    | write q m d =>
      refine ih _ ?_ ?_ ha.2
      · show (s.mono && decide (s.lastTime q ≤ m)) = true
        simp [h, hb q m d (by simp)]
      · intro p m' c hm
        show upd s.lastTime q m p ≤ m'
        unfold upd
        split
        · next e => subst e; exact ha.1 _ hm _ _ _ _ _ rfl rfl
        · exact hb p m' c (List.mem_cons_of_mem _ hm)
    | remove q => exact ih _ h (fun p m c hm => hb p m c (List.mem_cons_of_mem _ hm)) ha.2
    | tick n => exact ih _ h (fun p m c hm => hb p m c (List.mem_cons_of_mem _ hm)) ha.2

/-- If creating never fails and no file is removed, no reload fails. -/
theorem run_no_fail (create : K → C → Res T) (htot : ∀ p c, ∃ d, create p c = .ok d) (es : List (CacheEv K C)) :
    ∀ s : FileCache K C T, Inv create s → (∀ p mc, (p, mc) ∈ s.past → (s.files p).isSome) →
      (∀ p, CacheEv.remove p ∉ es) → (∀ p, s.reloadFailed p = false) →
      ∀ p, (s.run cmp create es).reloadFailed p = false := by
  induction es with
  | nil => intro s _ _ _ h; exact h
  | cons e es ih =>
    intro s hi hf hn h
    have hn' : ∀ p, CacheEv.remove p ∉ es := fun p hp => hn p (List.mem_cons_of_mem _ hp)
    show ∀ p, ((s.step cmp create e).run cmp create es).reloadFailed p = false
    refine ih _ (inv_step create s hi e) ?_ hn' ?_
    · cases e with
      | thread t a => have he := step_thread_env create s t a; rw [he.1, he.2.2.2]; exact hf
      | write q m d =>
        intro p mc hp
        change (p, mc) ∈ (q, m, d) :: s.past at hp
        show (upd s.files q (some (m, d)) p).isSome
        unfold upd
        split
        · rfl
        · next e =>
          rcases List.mem_cons.1 hp with h1 | h1
          · cases h1; exact absurd rfl e
          · exact hf p mc h1
      | remove q => exact absurd (List.mem_cons_self) (hn q)
      | tick n => exact hf
    · cases e with
      | thread t a =>
        intro p
        show ((s.act cmp create t a).getD s).reloadFailed p = false
        cases hs : s.act cmp create t a with
        | none => exact h p
        | some s' =>
          simp only [Option.getD_some]
          by_cases hr : ∃ q, s.pc t = .reloading q
          · obtain ⟨q, hq⟩ := hr
            have hok := hi.pcs t
            rw [hq] at hok
            obtain ⟨it, hit, _⟩ := hok
            obtain ⟨mc, hmc⟩ := Option.isSome_iff_exists.1 (hf q it.src (hi.made q it hit).2.1)
            obtain ⟨d, hd⟩ := htot q mc.2
            have hmk : make create s.files q = .ok (d, mc) := by simp [make, hmc, hd, Res.map]
            unfold act at hs
            simp only [hq, hit, hmk] at hs
            cases hs; exact h p
          · have : s'.reloadFailed = s.reloadFailed := by
              unfold act at hs
              repeat' split at hs
              all_goals first
                | (cases hs; rfl)
                | exact absurd ⟨_, by assumption⟩ hr
                | cases hs
            rw [this]; exact h p
      | write q m d => exact h
      | remove q => exact h
      | tick n => exact h

end FileCache
open FileCache

/-! ### The claims -/

/-- **C34, right resource.** In any interleaving of any number of threads with any file changes and failures, a
resource returned for a name was created for this name from contents that were written to this file. -/
theorem C34_returns_requested (create : K → C → Res T) (es : List (CacheEv K C)) (t : Nat) (p : K) (d : T)
    (ck : Option Nat) (src : Nat × C)
    (h : (t, p, Res.ok (d, ck, src)) ∈ ((init : FileCache K C T).run cmp create es).results) :
    create p src.2 = .ok d ∧ CacheEv.write p src.1 src.2 ∈ es := by
  have hi := inv_run create es init (inv_init create)
  obtain ⟨h1, h2, _⟩ := hi.results t p d ck src h
  have := (run_past create es init p src.1 src.2).1 h2
  exact ⟨h1, this.resolve_left (by simp [init])⟩

/-- **C34, fresh data (partial).** If modification times of a file never go back and no reload of this name has
failed, every returned resource was created from contents at least as new as the file was at the last check of its
modification time. Missing: histories with a failed reload (see the violation below). -/
theorem C34_fresh_partial (create : K → C → Res T) (es : List (CacheEv K C)) (hasc : Spec.TimesAscend es)
    (t : Nat) (p : K) (d : T) (ck : Option Nat) (src : Nat × C)
    (hnf : ((init : FileCache K C T).run cmp create es).reloadFailed p = false)
    (h : (t, p, Res.ok (d, ck, src)) ∈ ((init : FileCache K C T).run cmp create es).results) :
    ∃ c, ck = some c ∧ c ≤ src.1 := by
  have hi := inv_run create es init (inv_init create)
  obtain ⟨_, _, c, h3, h4⟩ := hi.results t p d ck src h
  exact ⟨c, h3, h4 (run_mono create es init rfl (by simp [init]) hasc) hnf⟩

/-- The same with conditions on the program and its environment only: creating never fails, no file is removed,
modification times ascend. -/
theorem C34_fresh_if_creation_succeeds (create : K → C → Res T) (htot : ∀ p c, ∃ d, create p c = .ok d)
    (es : List (CacheEv K C)) (hrem : ∀ p, CacheEv.remove p ∉ es) (hasc : Spec.TimesAscend es)
    (t : Nat) (p : K) (d : T) (ck : Option Nat) (src : Nat × C)
    (h : (t, p, Res.ok (d, ck, src)) ∈ ((init : FileCache K C T).run cmp create es).results) :
    ∃ c, ck = some c ∧ c ≤ src.1 :=
  C34_fresh_partial create es hasc t p d ck src
    (run_no_fail create htot es init (inv_init create) (by simp [init]) hrem (by simp [init]) p) h

/-- **C34, no double creation.** If modification times of a file never go back, no name is created successfully
twice with the same recorded modification time, in any interleaving, failures included. -/
theorem C34_created_once_per_time (create : K → C → Res T) (es : List (CacheEv K C)) (hasc : Spec.TimesAscend es) :
    ((init : FileCache K C T).run cmp create es).created.Nodup :=
  (inv_run create es init (inv_init create)).nodup (run_mono create es init rfl (by simp [init]) hasc)

/-- No data race: while a thread holds the exclusive lock (the only state in which entries change), no other thread
is at a point where it reads or changes entries. -/
theorem C34_no_data_race (create : K → C → Res T) (es : List (CacheEv K C)) (t u : Nat)
    (ht : mode (((init : FileCache K C T).run cmp create es).pc t) = .unique) (hu : u ≠ t) :
    mode (((init : FileCache K C T).run cmp create es).pc u) = .nothing := by
  have h := inv_run create es init (inv_init create)
  have h1 := h.lock.no_shared (u := u) ht
  have h2 := not_unique_of_ne h ht hu
  cases hm : mode (((init : FileCache K C T).run cmp create es).pc u) with
  | nothing => rfl
  | shared => exact absurd hm h1
  | unique => exact absurd hm h2

/-- No deadlock, and no use of a missing entry: if some thread is inside a call, some such thread can move. -/
theorem C34_no_deadlock (create : K → C → Res T) (es : List (CacheEv K C)) (t : Nat) (arg : K)
    (ht : ((init : FileCache K C T).run cmp create es).pc t ≠ .idle) :
    ∃ u, ((init : FileCache K C T).run cmp create es).pc u ≠ .idle ∧
      (((init : FileCache K C T).run cmp create es).act cmp create u arg).isSome := by
  have h := inv_run create es init (inv_init create)
  generalize (init : FileCache K C T).run cmp create es = s at h ht
  by_cases hh : ∃ u, mode (s.pc u) ≠ .nothing
  · obtain ⟨u, hu⟩ := hh
    refine ⟨u, fun e => hu (by rw [e]; rfl), ?_⟩
    have hok := h.pcs u
    unfold act
    cases hp : s.pc u with
    | idle => simp
    | wantShared p => simp [hp, mode] at hu
    | wantCheck p w => simp [hp, mode] at hu
    | wantNew p => simp [hp, mode] at hu
    | wantShared2 p => simp [hp, mode] at hu
    | shared p => simp only []; repeat' split
                  all_goals rfl
    | check p w =>
      rw [hp] at hok
      obtain ⟨it, hit⟩ := Option.isSome_iff_exists.1 hok
      simp only [hit]
      repeat' split
      all_goals rfl
    | reloading p =>
      rw [hp] at hok
      obtain ⟨it, hit, _⟩ := hok
      simp only [hit]
      split <;> rfl
    | new p => simp only []; repeat' split
               all_goals rfl
    | creating p ft w => simp only []; split <;> rfl
    | shared2 p =>
      rw [hp] at hok
      obtain ⟨it, hit⟩ := Option.isSome_iff_exists.1 hok
      simp only [hit]; rfl
  · have hn : ∀ u, mode (s.pc u) = .nothing := fun u => by
      by_contra hc; exact hh ⟨u, hc⟩
    have he := h.lock.enabled_of_free hn t
    obtain ⟨m1, hm1⟩ := Option.isSome_iff_exists.1 he.1
    obtain ⟨m2, hm2⟩ := Option.isSome_iff_exists.1 he.2
    have hnt := hn t
    refine ⟨t, ht, ?_⟩
    unfold act
    cases hp : s.pc t with
    | idle => simp
    | wantShared p => simp [hm2]
    | wantCheck p w => simp [hm1]
    | wantNew p => simp [hm1]
    | wantShared2 p => simp [hm2]
    | shared p => simp [hp, mode] at hnt
    | check p w => simp [hp, mode] at hnt
    | reloading p => simp [hp, mode] at hnt
    | new p => simp [hp, mode] at hnt
    | creating p ft w => simp [hp, mode] at hnt
    | shared2 p => simp [hp, mode] at hnt

/-! ### Violations -/

/-- The entry of `p` carries the modification time the file has now, and nobody is reloading it. -/
structure Settled (s : FileCache K C T) (p : K) (it : CacheItem C T)
    (old : List (Nat × K × Res (T × Option Nat × Nat × C))) : Prop where
  item : ∃ it', s.items.find cmp p = some it' ∧ it'.data = it.data ∧ it'.fileTime = it.fileTime ∧ it'.src = it.src
  file : ∃ mc, s.files p = some mc ∧ mc.1 = it.fileTime
  quiet : ∀ t, s.pc t ≠ .reloading p
  results : ∀ t o, (t, p, o) ∈ s.results → (t, p, o) ∈ old ∨ ∃ ck, o = .ok (it.data, ck, it.src)

theorem settled_act {create : K → C → Res T} {s s' : FileCache K C T} (hi : Inv create s) {p : K}
    {it : CacheItem C T} {old : List (Nat × K × Res (T × Option Nat × Nat × C))} (h : Settled s p it old)
    {t : Nat} {arg : K} (hs : s.act cmp create t arg = some s') : Settled s' p it old := by
  obtain ⟨it', hit', e1, e2, e3⟩ := h.item
  obtain ⟨mc, hmc, hmt⟩ := h.file
  -- moving a program counter
  have quiet' : ∀ x : CachePc K, x ≠ .reloading p → ∀ u, setPc s.pc t x u ≠ .reloading p := by
    intro x hx u
    by_cases hu : u = t
    · subst hu; rw [setPc_same]; exact hx
    · rw [setPc_ne _ _ hu]; exact h.quiet u
  have res_other : ∀ q (o : Res (T × Option Nat × Nat × C)), q ≠ p → ∀ t' o', (t', p, o') ∈ (t, q, o) :: s.results →
      (t', p, o') ∈ old ∨ ∃ ck, o' = .ok (it.data, ck, it.src) := by
    intro q o hq t' o' hm
    rcases List.mem_cons.1 hm with e | hm
    · cases e; exact absurd rfl hq
    · exact h.results t' o' hm
  have res_ok : ∀ ck t' o', (t', p, o') ∈ (t, p, Res.ok (it'.data, ck, it'.src)) :: s.results →
      (t', p, o') ∈ old ∨ ∃ ck, o' = .ok (it.data, ck, it.src) := by
    intro ck t' o' hm
    rcases List.mem_cons.1 hm with e | hm
    · cases e; exact .inr ⟨ck, by rw [e1, e3]⟩
    · exact h.results t' o' hm
  have put_ne : ∀ q x, q ≠ p → (s.items.put cmp q x).find cmp p = some it' := by
    intro q x hq; rw [StdMap.find_put hi.sorted, if_neg (Ne.symm hq)]; exact hit'
  unfold act at hs
  cases hp : s.pc t with
  | idle => simp only [hp] at hs; cases hs; exact ⟨h.item, h.file, quiet' _ (by simp), h.results⟩
  | wantShared q =>
    simp only [hp] at hs
    split at hs
    · cases hs; exact ⟨h.item, h.file, quiet' _ (by simp), h.results⟩
    · cases hs
  | wantCheck q w =>
    simp only [hp] at hs
    split at hs
    · cases hs; exact ⟨h.item, h.file, quiet' _ (by simp), h.results⟩
    · cases hs
  | wantNew q =>
    simp only [hp] at hs
    split at hs
    · cases hs; exact ⟨h.item, h.file, quiet' _ (by simp), h.results⟩
    · cases hs
  | wantShared2 q =>
    simp only [hp] at hs
    split at hs
    · cases hs; exact ⟨h.item, h.file, quiet' _ (by simp), h.results⟩
    · cases hs
  | shared q =>
    simp only [hp] at hs
    by_cases hq : q = p
    · subst hq
      simp only [hit'] at hs
      split at hs
      · cases hs; exact ⟨h.item, h.file, quiet' _ (by simp), h.results⟩
      · cases hs; exact ⟨h.item, h.file, quiet' _ (by simp), res_ok _⟩
    · repeat' split at hs
      all_goals first
        | (cases hs; exact ⟨h.item, h.file, quiet' _ (by simp), res_other q _ hq⟩)
        | (cases hs; exact ⟨h.item, h.file, quiet' _ (by simp), h.results⟩)
  | shared2 q =>
    simp only [hp] at hs
    by_cases hq : q = p
    · subst hq
      simp only [hit'] at hs
      cases hs; exact ⟨h.item, h.file, quiet' _ (by simp), res_ok _⟩
    · split at hs
      · cases hs; exact ⟨h.item, h.file, quiet' _ (by simp), res_other q _ hq⟩
      · cases hs
  | check q w =>
    simp only [hp] at hs
    by_cases hq : q = p
    · subst hq
      simp only [hit', hmc] at hs
      rw [if_neg (by rw [hmt, e2]; simp)] at hs
      cases hs
      refine ⟨⟨{ it' with lastChecked := w }, by simp only [StdMap.find_put hi.sorted, if_true], e1, e2, e3⟩, h.file, quiet' _ (by simp), h.results⟩
    · split at hs
      · cases hs
      · split at hs
        · cases hs
          exact ⟨⟨it', put_ne _ _ hq, e1, e2, e3⟩, h.file, quiet' _ (by simp), res_other q _ hq⟩
        · split at hs
          · cases hs
            exact ⟨⟨it', put_ne _ _ hq, e1, e2, e3⟩, h.file, quiet' _ (by simpa using hq), h.results⟩
          · cases hs
            exact ⟨⟨it', put_ne _ _ hq, e1, e2, e3⟩, h.file, quiet' _ (by simp), h.results⟩
  | reloading q =>
    have hq : q ≠ p := by rintro rfl; exact h.quiet t hp
    simp only [hp] at hs
    split at hs
    · cases hs
    · split at hs
      · cases hs
        exact ⟨⟨it', put_ne _ _ hq, e1, e2, e3⟩, h.file, quiet' _ (by simp), h.results⟩
      · cases hs
        exact ⟨h.item, h.file, quiet' _ (by simp), res_other q _ hq⟩
  | new q =>
    simp only [hp] at hs
    by_cases hq : q = p
    · subst hq
      simp only [hit'] at hs
      cases hs; exact ⟨h.item, h.file, quiet' _ (by simp), h.results⟩
    · repeat' split at hs
      all_goals first
        | (cases hs; exact ⟨h.item, h.file, quiet' _ (by simp), res_other q _ hq⟩)
        | (cases hs; exact ⟨h.item, h.file, quiet' _ (by simp), h.results⟩)
  | creating q ft w =>
    have hok := hi.pcs t
    rw [hp] at hok
    have hq : q ≠ p := by rintro rfl; rw [hok.1] at hit'; cases hit'
    simp only [hp] at hs
    split at hs
    · cases hs
      exact ⟨⟨it', put_ne _ _ hq, e1, e2, e3⟩, h.file, quiet' _ (by simp), h.results⟩
    · cases hs
      exact ⟨h.item, h.file, quiet' _ (by simp), res_other q _ hq⟩

/-- Once the entry of a name carries the present modification time of its file, whatever its data is, every later
call for the name returns that data without an error until the file is written or removed again. After a failed
reload this is the old data: the recorded time is advanced before `create_` runs. -/
theorem C34_settled_forever (create : K → C → Res T) (p : K) (it : CacheItem C T)
    (old : List (Nat × K × Res (T × Option Nat × Nat × C))) (es : List (CacheEv K C)) :
    ∀ s : FileCache K C T, Inv create s → Settled s p it old →
      (∀ e ∈ es, (∀ m c, e ≠ .write p m c) ∧ e ≠ .remove p) →
      ∀ t o, (t, p, o) ∈ (s.run cmp create es).results → (t, p, o) ∈ old ∨ ∃ ck, o = .ok (it.data, ck, it.src) := by
  induction es with
  | nil => intro s _ h _; exact h.results
  | cons e es ih =>
    intro s hi h hes
    have he := hes e (by simp)
    refine ih _ (inv_step create s hi e) ?_ (fun e' h' => hes e' (List.mem_cons_of_mem _ h'))
    cases e with
    | thread t a =>
      show Settled ((s.act cmp create t a).getD s) p it old
      cases hs : s.act cmp create t a with
      | none => exact h
      | some s' => exact settled_act hi h hs
    | tick n => exact ⟨h.item, h.file, h.quiet, h.results⟩
    | write q m c =>
      have hq : p ≠ q := by rintro rfl; exact he.1 m c rfl
      obtain ⟨mc, h1, h2⟩ := h.file
      exact ⟨h.item, ⟨mc, (upd_ne _ _ hq).trans h1, h2⟩, h.quiet, h.results⟩
    | remove q =>
      have hq : p ≠ q := by rintro rfl; exact he.2 rfl
      obtain ⟨mc, h1, h2⟩ := h.file
      exact ⟨h.item, ⟨mc, (upd_ne _ _ hq).trans h1, h2⟩, h.quiet, h.results⟩

theorem act_pc_other {create : K → C → Res T} {s s' : FileCache K C T} {t u : Nat} {arg : K} (hu : u ≠ t)
    (hs : s.act cmp create t arg = some s') : s'.pc u = s.pc u := by
  unfold act at hs
  repeat' split at hs
  all_goals first
    | (cases hs; exact setPc_ne _ _ hu)
    | cases hs

/-- Only its own steps move a thread. -/
theorem run_pc_other (create : K → C → Res T) (u : Nat) (es : List (CacheEv K C)) :
    ∀ s : FileCache K C T, (∀ e ∈ es, ∀ a, e ≠ .thread u a) → (s.run cmp create es).pc u = s.pc u := by
  induction es with
  | nil => intro s _; rfl
  | cons e es ih =>
    intro s h
    refine (ih _ (fun e' h' => h e' (List.mem_cons_of_mem _ h'))).trans ?_
    have he := h e (by simp)
    cases e with
    | thread t a =>
      show ((s.act cmp create t a).getD s).pc u = s.pc u
      cases hs : s.act cmp create t a with
      | none => rfl
      | some s' => exact act_pc_other (by rintro rfl; exact he a rfl) hs
    | write q m c => rfl
    | remove q => rfl
    | tick n => rfl

instance : DecidableEq (Res (Nat × Option Nat × Nat × Nat)) := inferInstance
instance : DecidableEq (Nat × Nat × Res (Nat × Option Nat × Nat × Nat)) := inferInstance

/-- A resource is the text of the file; an empty file cannot be loaded. -/
def demoCreate (_ : Nat) (c : Nat) : Res Nat := if c = 0 then .err else .ok c

/-- One thread: load the file, wait, the file is replaced by one that cannot be loaded, call (this call fails). -/
def staleHistory : List (CacheEv Nat Nat) :=
  [.write 7 1 5] ++ List.replicate 8 (.thread 0 7) ++ [.write 7 2 0, .tick 4] ++ List.replicate 6 (.thread 0 7)

/-- **C34 is violated after a failed reload.** The file of name 7 is replaced (time 2) by contents that cannot be
loaded. The call that notices reports the failure; the next call returns the resource of the old file (time 1) as
if it were current, although the last check saw time 2. Modification times ascend. -/
theorem C34_fresh_violated :
    Spec.TimesAscend (staleHistory ++ List.replicate 3 (.thread 0 7)) ∧
    ((init : FileCache Nat Nat Nat).run cmp demoCreate (staleHistory ++ List.replicate 3 (.thread 0 7))).results =
      [(0, 7, .ok (5, some 2, 1, 5)), (0, 7, .err), (0, 7, .ok (5, some 1, 1, 5))] := by
  refine ⟨?_, by decide +kernel⟩
  simp [Spec.TimesAscend, staleHistory, List.replicate]
  omega

/-- … and this goes on until the file is written again, for any number of threads and any waiting time. -/
theorem C34_failure_reported_again_violated (es : List (CacheEv Nat Nat))
    (hes : ∀ e ∈ es, (∀ m c, e ≠ .write 7 m c) ∧ e ≠ .remove 7) (t : Nat) (o : Res (Nat × Option Nat × Nat × Nat))
    (h : (t, 7, o) ∈ (((init : FileCache Nat Nat Nat).run cmp demoCreate staleHistory).run cmp demoCreate es).results) :
    (t, 7, o) ∈ ((init : FileCache Nat Nat Nat).run cmp demoCreate staleHistory).results ∨
    ∃ ck, o = .ok (5, ck, 1, 5) := by
  refine C34_settled_forever demoCreate 7 ⟨2, 4, 5, 1, 5⟩ _ es _ (inv_run demoCreate _ _ (inv_init demoCreate))
    ⟨⟨⟨2, 4, 5, 1, 5⟩, by decide +kernel, rfl, rfl, rfl⟩, ⟨(2, 0), by decide +kernel, rfl⟩, fun u => ?_,
     fun _ _ h => .inl h⟩ hes t o h
  by_cases hu : u = 0
  · subst hu; decide +kernel
  · rw [run_pc_other demoCreate u staleHistory _ (by simp [staleHistory, List.replicate, Ne.symm hu])]
    simp [init]

/-- The clause "never created twice for the same file time" needs ascending times: a file that is changed and then
restored with its old time is created a second time for that time. -/
theorem C34_created_once_violated_when_time_goes_back :
    ((init : FileCache Nat Nat Nat).run cmp demoCreate
      ([.write 7 1 5] ++ List.replicate 8 (.thread 0 7) ++ [.write 7 2 6, .tick 4] ++ List.replicate 8 (.thread 0 7) ++
       [.write 7 1 5, .tick 4] ++ List.replicate 8 (.thread 0 7))).created = [(7, 1), (7, 2), (7, 1)] := by
  decide +kernel

/-- Also with ascending times the same version of a file can be loaded twice: if it changes between the reading of
its modification time and the reading of its contents, the new contents are recorded under the old time and loaded
again at the next check. -/
theorem C34_version_loaded_twice :
    ((init : FileCache Nat Nat Nat).run cmp demoCreate
      ([.write 7 1 5] ++ List.replicate 5 (.thread 0 7) ++ [.write 7 2 6] ++ List.replicate 3 (.thread 0 7) ++
       [.tick 4] ++ List.replicate 8 (.thread 0 7))).loaded = [(7, 2, 6), (7, 2, 6)] := by
  decide +kernel

/-- Non-vacuity of the freshness and no-double-creation theorems: two threads and a change of the file. -/
example : Spec.TimesAscend ([.write 7 1 5, .thread 0 7, .thread 1 7, .write 7 2 6] : List (CacheEv Nat Nat)) := by
  simp [Spec.TimesAscend]
  omega

example : ((init : FileCache Nat Nat Nat).run cmp demoCreate
    ([.write 7 1 5] ++ List.replicate 8 (.thread 0 7) ++ [.write 7 2 6, .tick 4] ++ List.replicate 8 (.thread 1 7))).results
    = [(1, 7, .ok (6, some 2, 2, 6)), (0, 7, .ok (5, some 1, 1, 5))] := by decide +kernel

end Xo
