import Verif.Model.VhacdAsync
import Mathlib.Tactic

set_option linter.unusedSectionVars false
set_option linter.unusedVariables false

/-!
C166.  The asynchronous V-HACD interface, for every history of calls and every interleaving with the
worker thread.
-/

namespace Verif.Async

variable {H M : Type}

/-! ### Specification -/

/-- What a call may report, given the job of the last `Compute`: a count is zero or the number of hulls of
the decomposition, and a hull is the one of that decomposition with the index asked for. -/
def ObsOk (last : Option (Job H M)) : Obs H → Prop
  | .ready _ => True
  | .count n => n = 0 ∨ ∃ j, last = some j ∧ n = j.hulls.length
  | .hull i h => ∃ j, last = some j ∧ j.hulls[i]? = some h
  | .noHull _ => True

/-- The run contains no call of `Release`. -/
def NoRelease (acts : List (Act H M)) : Prop :=
  ∀ a ∈ acts, a ≠ .call .release ∧ a ≠ .reenter .release

/-! ### Invariant -/

/-- Operations of queries. -/
def har1 : UOp H M → Bool
  | .chkU | .chkL | .lock | .endU | .endL | .retReady | .retCount | .chkHull _ | .chkBase => true
  | _ => false

def Har (r : List (UOp H M)) : Prop := r.all har1 = true

/-- What may follow `Cancel`. -/
def Cont (k : List (UOp H M)) : Prop :=
  Har k ∨ (∃ h j, k = .freeHulls :: .freeInput :: .copyInput :: .setRunning :: .spawn j :: h ∧ Har h) ∨
    (∃ h, k = .freeHulls :: .freeInput :: .cleanBase :: h ∧ Har h)

/-- What may follow `releaseHACD`. -/
def Cont' (k : List (UOp H M)) : Prop :=
  (∃ h j, k = .copyInput :: .setRunning :: .spawn j :: h ∧ Har h) ∨ (∃ h, k = .cleanBase :: h ∧ Har h)

/-- No worker, and none about to be started. -/
def Off (s : St H M) : Prop := s.worker = none ∧ s.running = false

def Fit (s : St H M) : List (UOp H M) → Prop
  | .ifRunning :: r => (s.worker = none → s.running = false) ∧ ∃ k, r = .join :: .clearCancel :: k ∧ Cont k
  | .setCancel :: r => (s.worker = none → s.running = false) ∧ ∃ k, r = .join :: .clearCancel :: k ∧ Cont k
  | .join :: r => (s.worker = none → s.running = false) ∧ ∃ k, r = .clearCancel :: k ∧ Cont k
  | .postLog :: r => Off s ∧ ∃ k, r = .clearCancel :: k ∧ Cont k
  | .clearCancel :: k => Off s ∧ Cont k
  | .freeHulls :: r => Off s ∧ ∃ k, r = .freeInput :: k ∧ Cont' k
  | .freeInput :: k => Off s ∧ s.count = 0 ∧ s.hulls = none ∧ Cont' k
  | .copyInput :: r => Off s ∧ s.count = 0 ∧ s.hulls = none ∧ ∃ j h, r = .setRunning :: .spawn j :: h ∧ Har h
  | .setRunning :: r => Off s ∧ s.count = 0 ∧ s.hulls = none ∧ s.input = true ∧ ∃ j h, r = .spawn j :: h ∧ Har h
  | .spawn _ :: h => s.worker = none ∧ s.running = true ∧ s.count = 0 ∧ s.hulls = none ∧ s.input = true ∧ Har h
  | .cleanBase :: h => Off s ∧ s.count = 0 ∧ Har h
  | .delBase :: _ => False
  | .readHull i :: h => i < s.count ∧ (s.worker = none → s.running = false) ∧ Har h
  | .readBase :: h => s.running = false ∧ Har h
  | r => (s.worker = none → s.running = false) ∧ Har r

/-- Either no hulls are shown, or all those of the job. -/
def Res (s : St H M) (j : Job H M) : Prop :=
  (s.count = 0 ∧ (s.hit = true ∨ j.empty = true ∨ j.hulls = [])) ∨
    (j.empty = false ∧ s.count = j.hulls.length ∧ s.hulls = some (j.hulls.map some))

/-- The worker before it has published a result. -/
structure Busy (s : St H M) : Prop where
  cnt : s.count = 0
  run : s.running = true
  inp : s.input = true

/-- Programs before the result is fetched: the stages of the base computation. -/
inductive Stage (s : St H M) (w : Worker H M) : Prop
  | pre (p : List (WOp M))
      (hp : p = [.count0, .setCb, .setLg] ∨ p = [.setCb, .setLg] ∨ p = [.setLg] ∨ p = [])
      (hw : w.prog = p ++
        (if w.job.empty then [] else .baseInit :: w.job.script.map .base ++ [.baseEnd, .alloc]) ++ [.countRet, .runFalse])
      (hh : s.hulls = none) (hr : w.ret = 0)
  | base (l : List (BOp M))
      (hw : w.prog = l.map .base ++ [.baseEnd, .alloc, .countRet, .runFalse])
      (hh : s.hulls = none) (hr : w.ret = 0) (hc : s.cancel = true → s.hit = true) (he : w.job.empty = false)
  | fetch (hw : w.prog = [.alloc, .countRet, .runFalse]) (hh : s.hulls = none) (hr : w.ret = 0)
      (hok : w.ok = true → s.baseHulls = w.job.hulls) (hno : w.ok = false → s.hit = true) (he : w.job.empty = false)
  | copy (k : ℕ) (hk : k ≤ w.job.hulls.length)
      (hw : w.prog = (List.range' k (w.job.hulls.length - k)).map .copy ++ [.countRet, .runFalse])
      (hh : s.hulls = some ((w.job.hulls.take k).map some ++ List.replicate (w.job.hulls.length - k) none))
      (hr : w.ret = w.job.hulls.length) (hb : s.baseHulls = w.job.hulls) (he : w.job.empty = false)
  | none (hw : w.prog = [.countRet, .runFalse]) (hr : w.ret = 0)
      (hz : s.hit = true ∨ w.job.empty = true ∨ w.job.hulls = [])

/-- The worker and the data it shares. -/
def WInv (s : St H M) (w : Worker H M) : Prop :=
  s.last = some w.job ∧
    ((Busy s ∧ Stage s w) ∨ (w.prog = [.runFalse] ∧ s.running = true ∧ Res s w.job) ∨
      (w.prog = [] ∧ s.running = false ∧ Res s w.job))

def Data (s : St H M) : Prop :=
  match s.worker with
  | none => s.count = 0 ∨ ∃ j, s.last = some j ∧ Res s j
  | some w => WInv s w

structure Inv (s : St H M) : Prop where
  fit : Fit s s.user
  data : Data s
  nc : s.mCancel = false
  al : s.alive = true

theorem inv_init (m₀ : M) : Inv (init m₀ : St H M) :=
  ⟨by simp [init, Fit, Har], by simp [init, Data], rfl, rfl⟩

theorem fit_har {s : St H M} {r : List (UOp H M)} (h : Har r) (hr : s.worker = none → s.running = false) :
    Fit s r := by
  cases r with
  | nil => exact ⟨hr, h⟩
  | cons a r =>
    cases a <;> first
      | exact ⟨hr, h⟩
      | (simp [Har, har1] at h)

theorem fit_cont {s : St H M} {k : List (UOp H M)} (h : Cont k) (ho : Off s) : Fit s k := by
  rcases h with h | ⟨h, j, rfl, hh⟩ | ⟨h, rfl, hh⟩
  · exact fit_har h fun _ => ho.2
  · exact ⟨ho, _, rfl, Or.inl ⟨h, j, rfl, hh⟩⟩
  · exact ⟨ho, _, rfl, Or.inr ⟨h, rfl, hh⟩⟩

theorem fit_cont' {s : St H M} {k : List (UOp H M)} (h : Cont' k) (ho : Off s) (hc : s.count = 0)
    (hh : s.hulls = none) : Fit s k := by
  rcases h with ⟨h, j, rfl, hh'⟩ | ⟨h, rfl, hh'⟩
  · exact ⟨ho, hc, hh, j, h, rfl, hh'⟩
  · exact ⟨ho, hc, hh'⟩

/-- Fit and Data look at few fields. -/
theorem fit_congr {s t : St H M} (r : List (UOp H M)) (h1 : t.worker = s.worker) (h2 : t.running = s.running)
    (h3 : t.count = s.count) (h4 : t.hulls = s.hulls) (h5 : t.input = s.input) (h : Fit s r) : Fit t r := by
  cases r with
  | nil => simpa [Fit, Off, h1, h2, h3, h4, h5] using h
  | cons a r => cases a <;> simpa [Fit, Off, h1, h2, h3, h4, h5] using h

theorem data_congr {s t : St H M} (h : Data s) (h1 : t.worker = s.worker) (h2 : t.running = s.running)
    (h3 : t.count = s.count) (h4 : t.hulls = s.hulls) (h5 : t.input = s.input) (h6 : t.last = s.last)
    (h7 : t.hit = s.hit) (h8 : t.cancel = s.cancel) (h9 : t.baseHulls = s.baseHulls) : Data t := by
  unfold Data at h ⊢
  rw [h1]
  cases hw : s.worker with
  | none => simpa [hw, Res, h3, h4, h6, h7] using h
  | some w =>
    rw [hw] at h
    simp only at h ⊢
    obtain ⟨hl, hc⟩ := h
    refine ⟨by rw [h6, hl], ?_⟩
    rcases hc with ⟨hb, hs⟩ | hc | hc
    · refine Or.inl ⟨⟨by rw [h3]; exact hb.cnt, by rw [h2]; exact hb.run, by rw [h5]; exact hb.inp⟩, ?_⟩
      cases hs with
      | pre p hp hw hh hr => exact .pre p hp hw (by rw [h4]; exact hh) hr
      | base l hw hh hr hc he => exact .base l hw (by rw [h4]; exact hh) hr (by rw [h7, h8]; exact hc) he
      | fetch hw hh hr hok hno he =>
        exact .fetch hw (by rw [h4]; exact hh) hr (by rw [h9]; exact hok) (by rw [h7]; exact hno) he
      | copy k hk hw hh hr hb he => exact .copy k hk hw (by rw [h4]; exact hh) hr (by rw [h9]; exact hb) he
      | none hw hr hz => exact .none hw hr (by rw [h7]; exact hz)
    · refine Or.inr (Or.inl ⟨hc.1, by rw [h2]; exact hc.2.1, ?_⟩)
      simpa [Res, h3, h4, h7] using hc.2.2
    · refine Or.inr (Or.inr ⟨hc.1, by rw [h2]; exact hc.2.1, ?_⟩)
      simpa [Res, h3, h4, h7] using hc.2.2

theorem har_tail {a : UOp H M} {r : List (UOp H M)} (h : Har (a :: r)) : Har r := by
  unfold Har at h ⊢
  simp at h ⊢
  exact h.2

/-- Raising the cancel flag. -/
theorem data_setCancel {s : St H M} (u : List (UOp H M)) (h : Data s) :
    Data { s with user := u, cancel := true, hit := true } := by
  unfold Data at h ⊢
  simp only
  cases hw : s.worker with
  | none =>
    rw [hw] at h
    simp only at h ⊢
    rcases h with h | ⟨j, hl, hr⟩
    · exact Or.inl h
    · refine Or.inr ⟨j, hl, ?_⟩
      rcases hr with hr | hr
      · exact Or.inl ⟨hr.1, Or.inl rfl⟩
      · exact Or.inr hr
  | some w =>
    rw [hw] at h
    simp only at h ⊢
    obtain ⟨hl, hc⟩ := h
    refine ⟨hl, ?_⟩
    have res : Res s w.job → Res { s with user := u, cancel := true, hit := true } w.job := by
      rintro (hr | hr)
      · exact Or.inl ⟨hr.1, Or.inl rfl⟩
      · exact Or.inr hr
    rcases hc with ⟨hb, hs⟩ | hc | hc
    · refine Or.inl ⟨⟨hb.cnt, hb.run, hb.inp⟩, ?_⟩
      cases hs with
      | pre p hp hw hh hr => exact .pre p hp hw hh hr
      | base l hw hh hr hc he => exact .base l hw hh hr (fun _ => rfl) he
      | fetch hw hh hr hok hno he => exact .fetch hw hh hr hok (fun _ => rfl) he
      | copy k hk hw hh hr hb he => exact .copy k hk hw hh hr hb he
      | none hw hr hz => exact .none hw hr (Or.inl rfl)
    · exact Or.inr (Or.inl ⟨hc.1, hc.2.1, res hc.2.2⟩)
    · exact Or.inr (Or.inr ⟨hc.1, hc.2.1, res hc.2.2⟩)

theorem inv_user (cm : M) {s s' : St H M} (h : Inv s) (hs : userStep cm s = some s') : Inv s' := by
  obtain ⟨hf, hd, hn, ha⟩ := h
  unfold userStep at hs
  split at hs
  · cases hs
  · -- ifRunning
    rename_i r hu
    cases hs
    rw [hu] at hf
    obtain ⟨h1, k, rfl, hk⟩ := hf
    refine ⟨?_, data_congr hd rfl rfl rfl rfl rfl rfl rfl rfl rfl, hn, ha⟩
    by_cases hr : s.running = true
    · rw [if_pos hr]
      exact ⟨h1, k, rfl, hk⟩
    · rw [if_neg hr]
      exact ⟨h1, k, rfl, hk⟩
  · rename_i r hu
    cases hs
    rw [hu] at hf
    obtain ⟨h1, k, rfl, hk⟩ := hf
    exact ⟨⟨h1, k, rfl, hk⟩, data_setCancel _ hd, hn, ha⟩
  · -- join
    rename_i r hu
    rw [hu] at hf
    obtain ⟨h1, k, rfl, hk⟩ := hf
    split at hs
    · rename_i hw
      cases hs
      refine ⟨?_, data_congr hd rfl rfl rfl rfl rfl rfl rfl rfl rfl, hn, ha⟩
      exact ⟨⟨hw, h1 hw⟩, hk⟩
    · rename_i w hw
      split_ifs at hs with hp
      cases hs
      unfold Data at hd
      rw [hw] at hd
      obtain ⟨hl, hc⟩ := hd
      have hdone : s.running = false ∧ Res s w.job := by
        rcases hc with ⟨hb, hst⟩ | hc | hc
        · exfalso
          cases hst <;> simp_all
        · rw [hp] at hc
          simp at hc
        · exact hc.2
      refine ⟨⟨⟨rfl, hdone.1⟩, k, rfl, hk⟩, ?_, hn, ha⟩
      unfold Data
      exact Or.inr ⟨w.job, hl, hdone.2⟩
  · -- postLog
    rename_i r hu
    rw [hu] at hf
    obtain ⟨ho, k, rfl, hk⟩ := hf
    split_ifs at hs
    cases hs
    exact ⟨⟨ho, hk⟩, data_congr hd rfl rfl rfl rfl rfl rfl rfl rfl rfl, hn, ha⟩
  · -- clearCancel
    rename_i k hu
    rw [hu] at hf
    obtain ⟨ho, hk⟩ := hf
    cases hs
    exact ⟨fit_cont hk ho, data_congr hd rfl rfl rfl rfl rfl rfl rfl rfl rfl, rfl, ha⟩
  · -- freeHulls
    rename_i k hu
    rw [hu] at hf
    obtain ⟨ho, k, rfl, hk⟩ := hf
    cases hs
    refine ⟨⟨ho, rfl, rfl, hk⟩, ?_, hn, ha⟩
    unfold Data
    rw [ho.1]
    exact Or.inl rfl
  · -- freeInput
    rename_i k hu
    rw [hu] at hf
    obtain ⟨ho, hc, hh, hk⟩ := hf
    cases hs
    refine ⟨fit_cont' hk ho hc hh, ?_, hn, ha⟩
    unfold Data
    rw [ho.1]
    exact Or.inl hc
  · -- copyInput
    rename_i k hu
    rw [hu] at hf
    obtain ⟨ho, hc, hh, j, h, rfl, hk⟩ := hf
    cases hs
    refine ⟨⟨ho, hc, hh, rfl, j, h, rfl, hk⟩, ?_, hn, ha⟩
    unfold Data
    rw [ho.1]
    exact Or.inl hc
  · -- setRunning
    rename_i k hu
    rw [hu] at hf
    obtain ⟨ho, hc, hh, hi, j, h, rfl, hk⟩ := hf
    cases hs
    refine ⟨⟨ho.1, rfl, hc, hh, hi, hk⟩, ?_, hn, ha⟩
    unfold Data
    rw [ho.1]
    exact Or.inl hc
  · -- spawn
    rename_i j k hu
    rw [hu] at hf
    obtain ⟨hw, hr, hc, hh, hi, hk⟩ := hf
    cases hs
    refine ⟨fit_har hk (by simp), ?_, hn, ha⟩
    unfold Data
    refine ⟨rfl, Or.inl ⟨⟨hc, hr, hi⟩, ?_⟩⟩
    exact .pre [.count0, .setCb, .setLg] (Or.inl rfl) (by simp [workerProg]) hh rfl
  · -- cleanBase
    rename_i k hu
    rw [hu] at hf
    obtain ⟨ho, hc, hk⟩ := hf
    cases hs
    refine ⟨fit_har hk fun _ => ho.2, ?_, hn, ha⟩
    unfold Data
    rw [ho.1]
    exact Or.inl hc
  · -- delBase
    rename_i k hu
    rw [hu] at hf
    exact hf.elim
  · -- chkU
    rename_i k hu
    rw [hu] at hf
    obtain ⟨h1, hk⟩ := hf
    cases hs
    refine ⟨fit_har ?_ h1, data_congr hd rfl rfl rfl rfl rfl rfl rfl rfl rfl, hn, ha⟩
    have := har_tail hk
    simp only [Har] at this ⊢
    split_ifs <;> simp [har1, this] <;> exact List.all_eq_true.mp this
  · -- chkL
    rename_i k hu
    rw [hu] at hf
    obtain ⟨h1, hk⟩ := hf
    cases hs
    refine ⟨fit_har ?_ h1, data_congr hd rfl rfl rfl rfl rfl rfl rfl rfl rfl, hn, ha⟩
    have := har_tail hk
    simp only [Har] at this ⊢
    split_ifs <;> simp [har1, this] <;> exact List.all_eq_true.mp this
  · -- lock
    rename_i k hu
    rw [hu] at hf
    obtain ⟨h1, hk⟩ := hf
    split_ifs at hs
    cases hs
    exact ⟨fit_har (har_tail hk) h1, data_congr hd rfl rfl rfl rfl rfl rfl rfl rfl rfl, hn, ha⟩
  · rename_i k hu
    rw [hu] at hf
    obtain ⟨h1, hk⟩ := hf
    split at hs
    · cases hs
    · cases hs
      exact ⟨fit_har (har_tail hk) h1, data_congr hd rfl rfl rfl rfl rfl rfl rfl rfl rfl, hn, ha⟩
  · rename_i k hu
    rw [hu] at hf
    obtain ⟨h1, hk⟩ := hf
    split at hs
    · cases hs
    · cases hs
      exact ⟨fit_har (har_tail hk) h1, data_congr hd rfl rfl rfl rfl rfl rfl rfl rfl rfl, hn, ha⟩
  · rename_i k hu
    rw [hu] at hf
    obtain ⟨h1, hk⟩ := hf
    cases hs
    exact ⟨fit_har (har_tail hk) h1, data_congr hd rfl rfl rfl rfl rfl rfl rfl rfl rfl, hn, ha⟩
  · rename_i k hu
    rw [hu] at hf
    obtain ⟨h1, hk⟩ := hf
    cases hs
    exact ⟨fit_har (har_tail hk) h1, data_congr hd rfl rfl rfl rfl rfl rfl rfl rfl rfl, hn, ha⟩
  · -- chkHull
    rename_i i k hu
    rw [hu] at hf
    obtain ⟨h1, hk⟩ := hf
    split_ifs at hs with hi
    · cases hs
      exact ⟨⟨hi, h1, har_tail hk⟩, data_congr hd rfl rfl rfl rfl rfl rfl rfl rfl rfl, hn, ha⟩
    · cases hs
      exact ⟨fit_har (har_tail hk) h1, data_congr hd rfl rfl rfl rfl rfl rfl rfl rfl rfl, hn, ha⟩
  · -- readHull
    rename_i i k hu
    rw [hu] at hf
    obtain ⟨hi, h1, hk⟩ := hf
    split at hs
    · cases hs
    · split at hs
      · cases hs
        exact ⟨fit_har hk h1, data_congr hd rfl rfl rfl rfl rfl rfl rfl rfl rfl, hn, ha⟩
      · cases hs
  · -- chkBase
    rename_i k hu
    rw [hu] at hf
    obtain ⟨h1, hk⟩ := hf
    cases hs
    refine ⟨?_, data_congr hd rfl rfl rfl rfl rfl rfl rfl rfl rfl, hn, ha⟩
    by_cases hr : s.running = true
    · rw [if_pos hr]
      exact fit_har (har_tail hk) h1
    · rw [if_neg hr]
      exact ⟨by simpa using hr, har_tail hk⟩
  · rename_i k hu
    rw [hu] at hf
    obtain ⟨h1, hk⟩ := hf
    cases hs
    exact ⟨fit_har hk fun _ => h1, data_congr hd rfl rfl rfl rfl rfl rfl rfl rfl rfl, hn, ha⟩

/-- While the worker is busy, the using thread is in no operation that depends on the result. -/
theorem fit_worker {s t : St H M} (w : Worker H M) (hw : s.worker = some w) (hw' : t.worker.isSome = true)
    (hr : t.running = s.running ∨ (s.running = true ∧ t.running = false)) (hc : s.count ≠ 0 → t.count = s.count)
    (h : Fit s s.user) : Fit t s.user := by
  have ht : t.worker ≠ none := by
    intro h0
    simp [h0] at hw'
  have hto : ∀ {P : Prop}, t.worker = none → P := fun h0 => (ht h0).elim
  generalize s.user = u at h ⊢
  cases u with
  | nil => exact ⟨hto, rfl⟩
  | cons a r =>
    cases a <;> simp only [Fit, Off, hw, reduceCtorEq, false_and] at h ⊢
    all_goals first
      | exact ⟨hto, h.2⟩
      | (have h0 : s.count ≠ 0 := by omega
         rw [hc h0]
         exact ⟨h.1, hto, h.2.2⟩)
      | (refine ⟨?_, h.2⟩
         rcases hr with hr | hr
         · rw [hr]; exact h.1
         · exact hr.2)

theorem data_some {s : St H M} {w : Worker H M} (hw : s.worker = some w) (h : Data s) : WInv s w := by
  unfold Data at h
  rw [hw] at h
  exact h

theorem post_frame {j : Job H M} {b : BOp M} {s s' : St H M} (h : post j b s = some s') :
    ∃ hu hl mu ml pu pl, s' = { s with haveU := hu, haveL := hl, msgU := mu, msgL := ml, postedU := pu, postedL := pl } := by
  unfold post at h
  split at h
  · split_ifs at h
    · cases h; exact ⟨_, s.haveL, _, s.msgL, _, s.postedL, rfl⟩
    · cases h; exact ⟨s.haveU, s.haveL, s.msgU, s.msgL, s.postedU, s.postedL, rfl⟩
  · split_ifs at h
    · cases h; exact ⟨s.haveU, _, s.msgU, _, s.postedU, _, rfl⟩
    · cases h; exact ⟨s.haveU, s.haveL, s.msgU, s.msgL, s.postedU, s.postedL, rfl⟩
  · cases h; exact ⟨s.haveU, s.haveL, s.msgU, s.msgL, s.postedU, s.postedL, rfl⟩

/-- The program of a worker that has yet to publish a result determines its stage. -/
theorem inv_worker {s s' : St H M} (h : Inv s) (hs : workerStep s = some s') : Inv s' := by
  obtain ⟨hf, hd, hn, ha⟩ := h
  unfold workerStep at hs
  split at hs
  · cases hs
  rename_i w hw
  have hW := data_some hw hd
  obtain ⟨hl, hc⟩ := hW
  rcases hc with ⟨⟨hcnt, hrun, hinp⟩, hst⟩ | ⟨hp, hrun, hres⟩ | ⟨hp, hrun, hres⟩
  · cases hst with
    | pre p hp hwp hh hr =>
      rcases hp with rfl | rfl | rfl | rfl
      · rw [hwp] at hs
        simp only [List.cons_append, List.nil_append, Option.some.injEq] at hs
        subst hs
        refine ⟨fit_worker (s := s) w hw rfl (Or.inl rfl) (fun h0 => absurd hcnt h0) hf, ?_, hn, ha⟩
        exact ⟨hl, Or.inl ⟨⟨rfl, hrun, hinp⟩, .pre [.setCb, .setLg] (by simp) (by simp) hh hr⟩⟩
      · rw [hwp] at hs
        simp only [List.cons_append, List.nil_append, Option.some.injEq] at hs
        subst hs
        refine ⟨fit_worker (s := s) w hw rfl (Or.inl rfl) (fun h0 => absurd hcnt h0) hf, ?_, hn, ha⟩
        exact ⟨hl, Or.inl ⟨⟨hcnt, hrun, hinp⟩, .pre [.setLg] (by simp) (by simp) hh hr⟩⟩
      · rw [hwp] at hs
        simp only [List.cons_append, List.nil_append, Option.some.injEq] at hs
        subst hs
        refine ⟨fit_worker (s := s) w hw rfl (Or.inl rfl) (fun h0 => absurd hcnt h0) hf, ?_, hn, ha⟩
        exact ⟨hl, Or.inl ⟨⟨hcnt, hrun, hinp⟩, .pre [] (by simp) (by simp) hh hr⟩⟩
      · by_cases he : w.job.empty = true
        · rw [hwp] at hs
          simp only [he, if_true, List.cons_append, List.nil_append, Option.some.injEq] at hs
          subst hs
          refine ⟨fit_worker (s := s) w hw rfl (Or.inl rfl) (fun h0 => absurd hcnt h0) hf, ?_, hn, ha⟩
          exact ⟨hl, Or.inr (Or.inl ⟨rfl, hrun, Or.inl ⟨hr, Or.inr (Or.inl he)⟩⟩)⟩
        · rw [hwp] at hs
          simp only [he, if_false, Bool.false_eq_true, List.cons_append, List.nil_append, Option.some.injEq] at hs
          subst hs
          refine ⟨fit_worker (s := s) w hw rfl (Or.inl rfl) (fun h0 => absurd hcnt h0) hf, ?_, hn, ha⟩
          exact ⟨hl, Or.inl ⟨⟨hcnt, hrun, hinp⟩, .base w.job.script (by simp) hh hr (by simp) (by simpa using he)⟩⟩
    | base l hwp hh hr hcc he =>
      cases l with
      | nil =>
        rw [hwp] at hs
        simp only [List.map_nil, List.nil_append] at hs
        split_ifs at hs with hcan
        · cases hs
          refine ⟨fit_worker (s := s) w hw rfl (Or.inl rfl) (fun h0 => absurd hcnt h0) hf, ?_, hn, ha⟩
          exact ⟨hl, Or.inl ⟨⟨hcnt, hrun, hinp⟩, .fetch rfl hh hr (by simp) (fun _ => hcc hcan) he⟩⟩
        · cases hs
          refine ⟨fit_worker (s := s) w hw rfl (Or.inl rfl) (fun h0 => absurd hcnt h0) hf, ?_, hn, ha⟩
          exact ⟨hl, Or.inl ⟨⟨hcnt, hrun, hinp⟩, .fetch rfl hh hr (fun _ => rfl) (by simp) he⟩⟩
      | cons b l =>
        rw [hwp] at hs
        simp only [List.map_cons, List.cons_append, Option.map_eq_some_iff] at hs
        obtain ⟨s1, hpost, rfl⟩ := hs
        obtain ⟨a1, a2, a3, a4, a5, a6, rfl⟩ := post_frame hpost
        refine ⟨fit_worker (s := s) w hw rfl (Or.inl rfl) (fun h0 => absurd hcnt h0) hf, ?_, hn, ha⟩
        exact ⟨hl, Or.inl ⟨⟨hcnt, hrun, hinp⟩, .base l rfl hh hr hcc he⟩⟩
    | fetch hwp hh hr hok hno he =>
      rw [hwp] at hs
      simp only at hs
      split_ifs at hs with hk
      · cases hs
        refine ⟨fit_worker (s := s) w hw rfl (Or.inl rfl) (fun h0 => absurd hcnt h0) hf, ?_, hn, ha⟩
        have hb := hok hk
        refine ⟨hl, Or.inl ⟨⟨hcnt, hrun, hinp⟩, .copy 0 (Nat.zero_le _) ?_ ?_ ?_ hb he⟩⟩
        · simp [hb, List.range_eq_range']
        · simp [hb]
        · simp [hb]
      · cases hs
        refine ⟨fit_worker (s := s) w hw rfl (Or.inl rfl) (fun h0 => absurd hcnt h0) hf, ?_, hn, ha⟩
        exact ⟨hl, Or.inl ⟨⟨hcnt, hrun, hinp⟩, .none rfl hr (Or.inl (hno (by simpa using hk)))⟩⟩
    | copy k hk hwp hh hr hb he =>
      by_cases hkn : k = w.job.hulls.length
      · subst hkn
        rw [hwp] at hs
        simp only [Nat.sub_self, List.range'_zero, List.map_nil, List.nil_append, Option.some.injEq] at hs
        subst hs
        refine ⟨fit_worker (s := s) w hw rfl (Or.inl rfl) (fun h0 => absurd hcnt h0) hf, ?_, hn, ha⟩
        refine ⟨hl, Or.inr (Or.inl ⟨rfl, hrun, Or.inr ⟨he, hr, ?_⟩⟩)⟩
        simpa using hh
      · have hlt : k < w.job.hulls.length := by omega
        obtain ⟨d, hd'⟩ : ∃ d, w.job.hulls.length - k = d + 1 := ⟨w.job.hulls.length - k - 1, by omega⟩
        rw [hwp, hd', List.range'_succ] at hs
        simp only [List.map_cons, List.cons_append, hn, Bool.false_eq_true, if_false, Option.some.injEq] at hs
        subst hs
        refine ⟨fit_worker (s := s) w hw rfl (Or.inl rfl) (fun h0 => absurd hcnt h0) hf, ?_, rfl, ha⟩
        refine ⟨hl, Or.inl ⟨⟨hcnt, hrun, hinp⟩, .copy (k + 1) (by simpa using hlt) ?_ ?_ hr hb he⟩⟩
        · have : w.job.hulls.length - (k + 1) = d := by omega
          simp only [this]
        · have : w.job.hulls.length - (k + 1) = d := by omega
          simp only [hh, hd', this, Option.map_some, Option.some.injEq, hb]
          have hlen : ((w.job.hulls.take k).map some).length = k := by
            simp; omega
          rw [List.set_append_right _ _ (by omega), hlen, Nat.sub_self, List.replicate_succ, List.set_cons_zero,
            ← List.take_concat_get' _ _ hlt, List.map_append, List.append_assoc]
          simp [List.getElem?_eq_getElem hlt]
    | none hwp hr hz =>
      rw [hwp] at hs
      simp only [Option.some.injEq] at hs
      subst hs
      refine ⟨fit_worker (s := s) w hw rfl (Or.inl rfl) (fun h0 => absurd hcnt h0) hf, ?_, hn, ha⟩
      exact ⟨hl, Or.inr (Or.inl ⟨rfl, hrun, Or.inl ⟨hr, hz⟩⟩)⟩
  · rw [hp] at hs
    simp only [Option.some.injEq] at hs
    subst hs
    refine ⟨fit_worker (s := s) w hw rfl (Or.inr ⟨hrun, rfl⟩) (fun _ => rfl) hf, ?_, hn, ha⟩
    exact ⟨hl, Or.inr (Or.inr ⟨rfl, rfl, hres⟩)⟩
  · rw [hp] at hs
    simp at hs

theorem inv_skip {s s' : St H M} (h : Inv s) (hs : skipStep s = some s') : Inv s' := by
  obtain ⟨hf, hd, hn, ha⟩ := h
  unfold skipStep at hs
  split at hs
  · rename_i w hw
    split at hs
    · rename_i b r hp
      split_ifs at hs with hc
      cases hs
      obtain ⟨hl, hcs⟩ := data_some hw hd
      rcases hcs with ⟨⟨hcnt, hrun, hinp⟩, hst⟩ | ⟨hp', hrun, hres⟩ | ⟨hp', hrun, hres⟩
      · refine ⟨fit_worker (s := s) w hw rfl (Or.inl rfl) (fun _ => rfl) hf, ?_, hn, ha⟩
        refine ⟨hl, Or.inl ⟨⟨hcnt, hrun, hinp⟩, ?_⟩⟩
        cases hst with
        | pre p hp' hwp hh hr =>
          exfalso
          rw [hwp] at hp
          rcases hp' with rfl | rfl | rfl | rfl
          · simp at hp
          · simp at hp
          · simp at hp
          · split_ifs at hp <;> simp at hp
        | base l hwp hh hr hcc he =>
          cases l with
          | nil => rw [hwp] at hp; simp at hp
          | cons b' l =>
            rw [hwp] at hp
            simp only [List.map_cons, List.cons_append, List.cons.injEq] at hp
            exact .base l hp.2.symm hh hr hcc he
        | fetch hwp hh hr hok hno he => rw [hwp] at hp; simp at hp
        | copy k hk hwp hh hr hb he =>
          exfalso
          rw [hwp] at hp
          cases hq : w.job.hulls.length - k with
          | zero => rw [hq] at hp; simp at hp
          | succ d => rw [hq, List.range'_succ] at hp; simp at hp
        | none hwp hr hz => rw [hwp] at hp; simp at hp
      · rw [hp'] at hp
        simp at hp
      · rw [hp'] at hp
        simp at hp
    · cases hs
  · cases hs

theorem fit_api {s : St H M} (a : Api H M) (ha : a ≠ .release) (r : List (UOp H M)) (hr : Har r)
    (hw : s.worker = none → s.running = false) : Fit s (apiOps a ++ r) := by
  unfold Har at hr
  cases a with
  | compute j => exact ⟨hw, _, rfl, Or.inr (Or.inl ⟨r, j, rfl, hr⟩)⟩
  | cancel => exact ⟨hw, r, rfl, Or.inl hr⟩
  | clean => exact ⟨hw, _, rfl, Or.inr (Or.inr ⟨r, rfl, hr⟩)⟩
  | isReady => exact ⟨hw, by simpa [Har, har1, apiOps, pendOps] using hr⟩
  | getN => exact ⟨hw, by simpa [Har, har1, apiOps, pendOps] using hr⟩
  | getHull i => exact ⟨hw, by simpa [Har, har1, apiOps, pendOps] using hr⟩
  | centerOfMass => exact ⟨hw, by simpa [Har, har1, apiOps, pendOps] using hr⟩
  | release => exact absurd rfl ha

theorem inv_step (cm : M) {s s' : St H M} {a : Act H M} (ha : a ≠ .call .release ∧ a ≠ .reenter .release)
    (h : Inv s) (hs : step cm s a = some s') : Inv s' := by
  cases a with
  | call a =>
    simp only [step] at hs
    split_ifs at hs with hc
    cases hs
    have hu : s.user = [] := by simpa using hc.2
    have hf := h.fit
    rw [hu] at hf
    refine ⟨?_, data_congr h.data rfl rfl rfl rfl rfl rfl rfl rfl rfl, h.nc, h.al⟩
    have := fit_api (s := { s with user := apiOps a }) a (by rintro rfl; exact ha.1 rfl) [] rfl hf.1
    simpa using this
  | reenter a =>
    simp only [step] at hs
    split_ifs at hs with hc
    cases hs
    have hu : Har s.user ∧ (s.worker = none → s.running = false) := by
      have hf := h.fit
      have hi := hc.2
      generalize s.user = u at hf hi
      cases u with
      | nil => simp [inCallback] at hi
      | cons b r => cases b <;> first | exact ⟨hf.2, hf.1⟩ | (simp [inCallback] at hi)
    refine ⟨?_, data_congr h.data rfl rfl rfl rfl rfl rfl rfl rfl rfl, h.nc, h.al⟩
    exact fit_api (s := { s with user := apiOps a ++ s.user }) a (by rintro rfl; exact ha.2 rfl) s.user hu.1 hu.2
  | user => exact inv_user cm h hs
  | worker => exact inv_worker h hs
  | skip => exact inv_skip h hs

theorem inv_exec (cm : M) : ∀ (acts : List (Act H M)) {s s' : St H M}, NoRelease acts → Inv s →
    exec cm s acts = some s' → Inv s'
  | [], s, s', _, h, hs => by
    cases hs
    exact h
  | a :: as, s, s', ha, h, hs => by
    simp only [exec, Option.bind_eq_some_iff] at hs
    obtain ⟨s1, h1, h2⟩ := hs
    exact inv_exec cm as (fun b hb => ha b (List.mem_cons_of_mem _ hb))
      (inv_step cm (ha a List.mem_cons_self) h h1) h2

/-! ### Memory and results -/

theorem res_of_count {s : St H M} (h : Data s) (hc : s.count ≠ 0) :
    ∃ j, s.last = some j ∧ s.count = j.hulls.length ∧ s.hulls = some (j.hulls.map some) ∧
      ∀ w, s.worker = some w → w.prog = [.runFalse] ∨ w.prog = [] := by
  unfold Data at h
  have hres : ∀ j, Res s j → s.count = j.hulls.length ∧ s.hulls = some (j.hulls.map some) := by
    rintro j (⟨h0, _⟩ | ⟨_, h1⟩)
    · exact absurd h0 hc
    · exact h1
  split at h
  · rename_i hw
    rcases h with h | ⟨j, hl, hr⟩
    · exact absurd h hc
    · exact ⟨j, hl, (hres j hr).1, (hres j hr).2, by simp [hw]⟩
  · rename_i w hw
    obtain ⟨hl, ⟨hb, _⟩ | ⟨hp, _, hr⟩ | ⟨hp, _, hr⟩⟩ := h
    · exact absurd hb.cnt hc
    · refine ⟨w.job, hl, (hres _ hr).1, (hres _ hr).2, ?_⟩
      rintro w' h'
      rw [hw] at h'
      cases h'
      exact Or.inl hp
    · refine ⟨w.job, hl, (hres _ hr).1, (hres _ hr).2, ?_⟩
      rintro w' h'
      rw [hw] at h'
      cases h'
      exact Or.inr hp

theorem stage_prog {s : St H M} {w : Worker H M} (h : Stage s w) : w.prog ≠ [] := by
  cases h <;> simp_all

/-- The worker is done exactly when `mRunning` is off. -/
theorem running_iff {s : St H M} {w : Worker H M} (h : WInv s w) : s.running = false ↔ w.prog = [] := by
  obtain ⟨_, ⟨hb, hs⟩ | ⟨hp, hr, _⟩ | ⟨hp, hr, _⟩⟩ := h
  · have := stage_prog hs
    simp [hb.run, this]
  · simp [hp, hr]
  · simp [hp, hr]

theorem race_free {s : St H M} (h : Inv s) (l : Loc) (hl : l = .input ∨ l = .hulls ∨ l = .base) : ¬ RaceOn l s := by
  rintro ⟨u, us, w, op, ops, bu, bw, hu, hw, hp, h1, h2, h3⟩
  have hf := h.fit
  rw [hu] at hf
  have hW := data_some hw h.data
  cases u
  case readHull i =>
    obtain ⟨hi, -, -⟩ := hf
    obtain ⟨j, -, -, -, hfin⟩ := res_of_count h.data (by omega)
    rcases hfin w hw with h0 | h0
    · rw [hp] at h0
      cases h0
      simp [wAcc] at h2
    · rw [hp] at h0
      cases h0
  case readBase =>
    have h0 := (running_iff hW).1 hf.1
    rw [hp] at h0
    cases h0
  case chkU =>
    rcases hl with rfl | rfl | rfl <;> simp only [uAcc] at h1 <;> split_ifs at h1 <;> simp at h1
  case chkL =>
    rcases hl with rfl | rfl | rfl <;> simp only [uAcc] at h1 <;> split_ifs at h1 <;> simp at h1
  all_goals first
    | exact hf.elim
    | (simp [Fit, Off, hw] at hf; done)
    | (rcases hl with rfl | rfl | rfl <;> simp [uAcc] at h1)

/-- C166, memory.  For every history of calls, also from inside callbacks, and every interleaving, as
long as the object is not released: the threads never access the copied input, the array of hulls or the base
object at the same time with one of them writing, the input is there whenever the worker reads it, and
a hull that `GetConvexHull` reads has been written. -/
theorem C166_memory (cm m₀ : M) (acts : List (Act H M)) (hn : NoRelease acts) (s : St H M)
    (h : exec cm (init m₀) acts = some s) :
    (∀ l, l = Loc.input ∨ l = Loc.hulls ∨ l = Loc.base → ¬ RaceOn l s) ∧ ¬ ReadsFreed s ∧
      ∀ i r, s.user = .readHull i :: r → (step cm s .user).isSome = true := by
  have hi := inv_exec cm acts hn (inv_init m₀) h
  refine ⟨race_free hi, ?_, ?_⟩
  · rintro ⟨w, op, ops, hw, hp, ha, hf⟩
    obtain ⟨_, ⟨hb, _⟩ | ⟨hp', _, _⟩ | ⟨hp', _, _⟩⟩ := data_some hw hi.data
    · rw [hb.inp] at hf
      cases hf
    · rw [hp] at hp'
      cases hp'
      simp [wAcc] at ha
    · rw [hp] at hp'
      cases hp'
  · intro i r hu
    have hf := hi.fit
    rw [hu] at hf
    obtain ⟨hlt, -, -⟩ := hf
    obtain ⟨j, hl, hc, hh, -⟩ := res_of_count hi.data (by omega)
    have : (j.hulls.map some)[i]? = some (some (j.hulls[i]'(by omega))) := by
      rw [List.getElem?_map, List.getElem?_eq_getElem (by omega)]
      rfl
    simp only [step, userStep, hu, hh, this]
    rfl

/-- C166, results.  Whatever a call reports belongs to the last `Compute`: the count is zero or complete, and
a hull is that of the decomposition; `IsReady` is true exactly when the computation has ended. -/
theorem C166_results (cm m₀ : M) (acts : List (Act H M)) (hn : NoRelease acts) (s s' : St H M) (o : Obs H)
    (h : exec cm (init m₀) acts = some s) (hs : step cm s .user = some s') (ho : s'.obs = s.obs ++ [o]) :
    ObsOk s.last o ∧ ∀ b, o = .ready b → (b = true ↔ ∀ w, s.worker = some w → w.prog = []) := by
  have hi := inv_exec cm acts hn (inv_init m₀) h
  have hno : ∀ {l : List (Obs H)} {x : Obs H}, l ≠ l ++ [x] := by
    intro l x hx
    have := congrArg List.length hx
    simp at this
  have hcnt : s.count = 0 ∨ ∃ j, s.last = some j ∧ s.count = j.hulls.length := by
    by_cases h0 : s.count = 0
    · exact Or.inl h0
    · obtain ⟨j, hl, hc, -⟩ := res_of_count hi.data h0
      exact Or.inr ⟨j, hl, hc⟩
  simp only [step, userStep] at hs
  split at hs
  case h_1 => cases hs
  case h_19 r hu =>
    cases hs
    have ho' : o = .ready (!s.running) := by simpa using ho.symm
    subst ho'
    refine ⟨trivial, ?_⟩
    rintro b hb
    cases hb
    have hf := hi.fit
    rw [hu] at hf
    constructor
    · intro hr w hw
      exact (running_iff (data_some hw hi.data)).1 (by simpa using hr)
    · intro hall
      cases hw : s.worker with
      | none => simp [hf.1 hw]
      | some w => simp [(running_iff (data_some hw hi.data)).2 (hall w hw)]
  case h_20 r hu =>
    cases hs
    have ho' : o = .count s.count := by simpa using ho.symm
    subst ho'
    exact ⟨hcnt, by simp⟩
  case h_21 i r hu =>
    split_ifs at hs
    · cases hs
      exact absurd ho hno
    · cases hs
      have ho' : o = .noHull i := by simpa using ho.symm
      subst ho'
      exact ⟨trivial, by simp⟩
  case h_22 i r hu =>
    split at hs
    · cases hs
    · rename_i hs' hh
      split at hs
      · rename_i x hx
        cases hs
        have ho' : o = .hull i x := by simpa using ho.symm
        subst ho'
        refine ⟨?_, by simp⟩
        have hf := hi.fit
        rw [hu] at hf
        obtain ⟨j, hl, hc, hh', -⟩ := res_of_count hi.data (by have := hf.1; omega)
        rw [hh] at hh'
        cases hh'
        refine ⟨j, hl, ?_⟩
        rw [List.getElem?_map] at hx
        cases hj : j.hulls[i]? with
        | none => rw [hj] at hx; cases hx
        | some y => rw [hj] at hx; cases hx; rfl
      · cases hs
  all_goals
    (try split at hs) <;> first
      | (cases hs; exact absurd ho hno)
      | (split at hs <;> first | (cases hs; exact absurd ho hno) | cases hs)
      | cases hs

/-! ### Completeness -/

/-- Calls that only ask. -/
def Query : Act H M → Prop
  | .call .isReady | .call .getN | .call (.getHull _) | .call .centerOfMass => True
  | .reenter .isReady | .reenter .getN | .reenter (.getHull _) | .reenter .centerOfMass => True
  | .user | .worker | .skip => True
  | _ => False

/-- Operations of `Compute` before the thread is started. -/
def prep : UOp H M → Bool
  | .ifRunning | .setCancel | .join | .postLog | .clearCancel | .freeHulls | .freeInput | .copyInput | .setRunning => true
  | _ => false

def ask : UOp H M → Bool
  | .readHull _ | .readBase => true
  | o => har1 o

/-- `Compute` with job `j` is in progress or has been followed by questions only. -/
def After (j : Job H M) (s : St H M) : Prop :=
  (∃ p, s.user = p ++ [.spawn j] ∧ p.all prep = true) ∨
    (s.last = some j ∧ s.hit = false ∧ s.user.all ask = true ∧ ∃ w, s.worker = some w ∧ w.job = j)

theorem query_ops {a : Api H M} (h : Query (.call a)) : (apiOps a).all ask = true := by
  cases a <;> simp [Query] at h <;> rfl

theorem after_step (cm : M) {j : Job H M} {s s' : St H M} {a : Act H M} (ha : Query a) (h : After j s)
    (hs : step cm s a = some s') : After j s' := by
  cases a with
  | call a =>
    simp only [step] at hs
    split_ifs at hs with hc
    cases hs
    have hu : s.user = [] := by simpa using hc.2
    rcases h with ⟨p, hp, _⟩ | ⟨h1, h2, h3, h4⟩
    · rw [hu] at hp
      simp at hp
    · exact Or.inr ⟨h1, h2, query_ops ha, h4⟩
  | reenter a =>
    simp only [step] at hs
    split_ifs at hs with hc
    cases hs
    rcases h with ⟨p, hp, hall⟩ | ⟨h1, h2, h3, h4⟩
    · exfalso
      rw [hp] at hc
      cases p with
      | nil => simp [inCallback] at hc
      | cons b p => cases b <;> simp [prep] at hall <;> simp [inCallback] at hc
    · refine Or.inr ⟨h1, h2, ?_, h4⟩
      have ha' : Query (.call a) := by cases a <;> exact ha
      simp only [List.all_append, query_ops ha', h3, Bool.and_self]
  | worker =>
    simp only [step, workerStep] at hs
    have key : s'.user = s.user ∧ s'.last = s.last ∧ s'.hit = s.hit ∧ ∀ w, s.worker = some w →
        ∃ w', s'.worker = some w' ∧ w'.job = w.job := by
      split at hs
      · cases hs
      rename_i w hw
      split at hs
      case h_1 => cases hs
      case h_6 b r hp =>
        simp only [Option.map_eq_some_iff] at hs
        obtain ⟨s1, hpost, rfl⟩ := hs
        obtain ⟨a1, a2, a3, a4, a5, a6, rfl⟩ := post_frame hpost
        exact ⟨rfl, rfl, rfl, by simp [hw]⟩
      all_goals first
        | (cases hs; exact ⟨rfl, rfl, rfl, by simp [hw]⟩)
        | (split_ifs at hs <;> cases hs <;> exact ⟨rfl, rfl, rfl, by simp [hw]⟩)
        | (simp only at hs; split_ifs at hs <;> cases hs <;> exact ⟨rfl, rfl, rfl, by simp [hw]⟩)
    obtain ⟨k1, k2, k3, k4⟩ := key
    rcases h with ⟨p, hp, hall⟩ | ⟨h1, h2, h3, w, hw, hj⟩
    · exact Or.inl ⟨p, by rw [k1, hp], hall⟩
    · obtain ⟨w', hw', hj'⟩ := k4 w hw
      exact Or.inr ⟨by rw [k2, h1], by rw [k3, h2], by rw [k1, h3], w', hw', by rw [hj', hj]⟩
  | skip =>
    simp only [step, skipStep] at hs
    split at hs
    · rename_i w hw
      split at hs
      · split_ifs at hs
        cases hs
        rcases h with ⟨p, hp, hall⟩ | ⟨h1, h2, h3, w0, hw0, hj⟩
        · exact Or.inl ⟨p, hp, hall⟩
        · rw [hw] at hw0
          cases hw0
          exact Or.inr ⟨h1, h2, h3, _, rfl, hj⟩
      · cases hs
    · cases hs
  | user =>
    simp only [step, userStep] at hs
    rcases h with ⟨p, hp, hall⟩ | ⟨h1, h2, h3, h4⟩
    · cases p with
      | nil =>
        simp only [List.nil_append] at hp
        rw [hp] at hs
        cases hs
        exact Or.inr ⟨rfl, rfl, rfl, _, rfl, rfl⟩
      | cons b p =>
        simp only [List.cons_append] at hp
        rw [hp] at hs
        have hp' : p.all prep = true := by
          simp only [List.all_cons, Bool.and_eq_true] at hall
          exact hall.2
        cases b <;> simp [prep] at hall <;> simp only at hs
        · cases hs
          refine Or.inl ?_
          by_cases hr : s.running = true
          · exact ⟨.setCancel :: p, by simp [hr], by rw [List.all_cons, hp']; rfl⟩
          · exact ⟨p, by simp [hr], hp'⟩
        · cases hs; exact Or.inl ⟨p, rfl, hp'⟩
        · split at hs
          · cases hs; exact Or.inl ⟨p, rfl, hp'⟩
          · split_ifs at hs
            cases hs
            exact Or.inl ⟨.postLog :: p, rfl, by rw [List.all_cons, hp']; rfl⟩
        · split_ifs at hs
          cases hs; exact Or.inl ⟨p, rfl, hp'⟩
        all_goals (cases hs; exact Or.inl ⟨p, rfl, hp'⟩)
    · refine Or.inr ?_
      split at hs
      · cases hs
      all_goals
        rename_i r hu
        rw [hu] at h3
        simp only [List.all_cons, ask, har1, Bool.false_and, Bool.false_eq_true, Bool.true_and] at h3
      all_goals first
        | (cases hs; exact ⟨h1, h2, h3, h4⟩)
        | (cases hs; refine ⟨h1, h2, ?_, h4⟩; simp only; split_ifs <;> simp only [List.all_cons, ask, har1, h3, Bool.and_self])
        | (split_ifs at hs <;> cases hs <;> refine ⟨h1, h2, ?_, h4⟩ <;> simp only [List.all_cons, ask, har1, h3, Bool.and_self])
        | (split at hs <;> first | (cases hs; exact ⟨h1, h2, h3, h4⟩) | cases hs | (split at hs <;> first | (cases hs; exact ⟨h1, h2, h3, h4⟩) | cases hs))

theorem after_exec (cm : M) {j : Job H M} : ∀ (acts : List (Act H M)) {s s' : St H M}, (∀ a ∈ acts, Query a) →
    After j s → exec cm s acts = some s' → After j s'
  | [], s, s', _, h, hs => by
    cases hs
    exact h
  | a :: as, s, s', ha, h, hs => by
    simp only [exec, Option.bind_eq_some_iff] at hs
    obtain ⟨s1, h1, h2⟩ := hs
    exact after_exec cm as (fun b hb => ha b (List.mem_cons_of_mem _ hb))
      (after_step cm (ha a List.mem_cons_self) h h1) h2

theorem exec_append (cm : M) (s : St H M) : ∀ (a b : List (Act H M)),
    exec cm s (a ++ b) = (exec cm s a).bind fun s' => exec cm s' b
  | [], b => rfl
  | x :: a, b => by
    simp only [List.cons_append, exec, Option.bind_assoc]
    congr 1
    funext s1
    exact exec_append cm s1 a b

theorem query_noRelease {acts : List (Act H M)} (h : ∀ a ∈ acts, Query a) : NoRelease acts := by
  intro a ha
  have := h a ha
  constructor <;> rintro rfl <;> exact this

/-- C166, completeness.  After `Compute`, followed by nothing but questions, once the computation
has ended the object shows every hull of the decomposition of that input, whatever happened before. -/
theorem C166_complete (cm m₀ : M) (acts qs : List (Act H M)) (hn : NoRelease acts) (j : Job H M)
    (hq : ∀ a ∈ qs, Query a) (s : St H M)
    (h : exec cm (init m₀) (acts ++ .call (.compute j) :: qs) = some s) (hu : s.user = [])
    (hr : s.running = false) :
    s.count = (if j.empty then 0 else j.hulls.length) ∧
      (j.empty = false → j.hulls ≠ [] → s.hulls = some (j.hulls.map some)) := by
  have hi : Inv s := by
    refine inv_exec cm _ ?_ (inv_init m₀) h
    intro a ha
    rcases List.mem_append.1 ha with h1 | h1
    · exact hn a h1
    · rcases List.mem_cons.1 h1 with rfl | h1
      · constructor <;> simp
      · exact query_noRelease hq a h1
  rw [exec_append, Option.bind_eq_some_iff] at h
  obtain ⟨s0, h0, h1⟩ := h
  simp only [exec, Option.bind_eq_some_iff] at h1
  obtain ⟨s1, hc, h2⟩ := h1
  have ha1 : After j s1 := by
    simp only [step] at hc
    split_ifs at hc
    cases hc
    exact Or.inl ⟨cancelOps ++ releaseOps ++ [.copyInput, .setRunning], rfl, rfl⟩
  rcases after_exec cm qs hq ha1 h2 with ⟨p, hp, _⟩ | ⟨hl, hh, -, w, hw, rfl⟩
  · rw [hu] at hp
    simp at hp
  · obtain ⟨_, ⟨hb, _⟩ | ⟨_, hr', _⟩ | ⟨_, _, hres⟩⟩ := data_some hw hi.data
    · rw [hb.run] at hr
      cases hr
    · rw [hr'] at hr
      cases hr
    · rcases hres with ⟨h0, h1⟩ | ⟨he, h1, h2⟩
      · rw [hh] at h1
        rcases h1 with h1 | h1 | h1
        · cases h1
        · simp [h0, h1]
        · simp [h0, h1]
      · simp [he, h1, h2]

/-! ### Messages -/

def crit : UOp H M → Bool
  | .lock | .endU | .endL => true
  | _ => false

def isEnd : UOp H M → Bool
  | .endU | .endL => true
  | _ => false

/-- No delivery of a message in progress. -/
def NoCrit (r : List (UOp H M)) : Prop := ∀ o ∈ r, crit o = false

/-- No delivery, or one that is about to take the mutex. -/
def Front (u : List (UOp H M)) : Prop :=
  NoCrit u ∨ ∃ e r, u = .lock :: e :: r ∧ isEnd e = true ∧ NoCrit r

def Locks (locked : Bool) (u : List (UOp H M)) : Prop :=
  (locked = false ∧ Front u) ∨
    (locked = true ∧ ∃ p e r, u = p ++ e :: r ∧ isEnd e = true ∧ NoCrit r ∧ Front p)

theorem noCrit_tail {o : UOp H M} {r : List (UOp H M)} (h : NoCrit (o :: r)) : NoCrit r :=
  fun x hx => h x (List.mem_cons_of_mem _ hx)

theorem front_tail {o : UOp H M} {r : List (UOp H M)} (ho : crit o = false) (h : Front (o :: r)) : NoCrit r := by
  rcases h with h | ⟨e, r', hu, -, -⟩
  · exact noCrit_tail h
  · cases hu
    cases ho

theorem front_cons {o : UOp H M} {r : List (UOp H M)} (ho : crit o = false) (h : NoCrit r) : Front (o :: r) :=
  Or.inl fun x hx => by
    rcases List.mem_cons.1 hx with rfl | hx
    · exact ho
    · exact h x hx

/-- Replacing an operation at the front that has nothing to do with messages. -/
theorem locks_repl {b : Bool} {o : UOp H M} {r n : List (UOp H M)} (ho : crit o = false)
    (hn : NoCrit n) (h : Locks b (o :: r)) : Locks b (n ++ r) := by
  rcases h with ⟨hb, h⟩ | ⟨hb, p, e, r', hu, he, hr, hp⟩
  · refine Or.inl ⟨hb, Or.inl ?_⟩
    intro x hx
    rcases List.mem_append.1 hx with hx | hx
    · exact hn x hx
    · exact front_tail ho h x hx
  · cases p with
    | nil =>
      cases hu
      cases o <;> simp [crit] at ho <;> simp [isEnd] at he
    | cons q p =>
      cases hu
      refine Or.inr ⟨hb, n ++ p, e, r', by simp, he, hr, Or.inl ?_⟩
      intro x hx
      rcases List.mem_append.1 hx with hx | hx
      · exact hn x hx
      · exact front_tail ho hp x hx

theorem locks_tail {b : Bool} {o : UOp H M} {r : List (UOp H M)} (ho : crit o = false)
    (h : Locks b (o :: r)) : Locks b r := by
  have := locks_repl (n := []) ho (fun x hx => by simp at hx) h
  simpa using this

theorem locks_one {b : Bool} {o n : UOp H M} {r : List (UOp H M)} (ho : crit o = false) (hn : crit n = false)
    (h : Locks b (o :: r)) : Locks b (n :: r) :=
  locks_repl (n := [n]) ho (fun x hx => by simp at hx; rw [hx]; exact hn) h

/-- Starting a delivery. -/
theorem locks_deliver {b : Bool} {o e : UOp H M} {r : List (UOp H M)} (ho : crit o = false) (he : isEnd e = true)
    (h : Locks b (o :: r)) : Locks b (.lock :: e :: r) := by
  rcases h with ⟨hb, h⟩ | ⟨hb, p, e', r', hu, he', hr, hp⟩
  · exact Or.inl ⟨hb, Or.inr ⟨e, r, rfl, he, front_tail ho h⟩⟩
  · cases p with
    | nil =>
      cases hu
      cases o <;> simp [crit] at ho <;> simp [isEnd] at he'
    | cons q p =>
      cases hu
      exact Or.inr ⟨hb, .lock :: e :: p, e', r', rfl, he', hr, Or.inr ⟨e, p, rfl, he, front_tail ho hp⟩⟩

theorem locks_lock {r : List (UOp H M)} (h : Locks false (.lock :: r)) : Locks true r := by
  rcases h with ⟨-, h⟩ | ⟨hb, -⟩
  · rcases h with h | ⟨e, r', hu, he, hr⟩
    · have := h .lock List.mem_cons_self
      cases this
    · cases hu
      exact Or.inr ⟨rfl, [], e, r', rfl, he, hr, Or.inl fun x hx => by simp at hx⟩
  · cases hb

theorem locks_end {b : Bool} {e : UOp H M} {r : List (UOp H M)} (he : isEnd e = true) (h : Locks b (e :: r)) :
    b = true ∧ NoCrit r := by
  have hc : crit e = true := by cases e <;> simp [isEnd] at he <;> rfl
  have hnl : e ≠ .lock := by rintro rfl; simp [isEnd] at he
  rcases h with ⟨hb, h⟩ | ⟨hb, p, e', r', hu, he', hr, hp⟩
  · rcases h with h | ⟨e', r', hu, -, -⟩
    · rw [h e List.mem_cons_self] at hc
      cases hc
    · cases hu
      exact absurd rfl hnl
  · cases p with
    | nil =>
      cases hu
      exact ⟨hb, hr⟩
    | cons q p =>
      cases hu
      rcases hp with h | ⟨e', r', hu, -, -⟩
      · rw [h e List.mem_cons_self] at hc
        cases hc
      · cases hu
        exact absurd rfl hnl

/-- One kind of message: whether there is one, what it is, all posted so far, all delivered so far. -/
def Mail (have' : Bool) (msg : M) (posted : List M) (out : List (ℕ × M)) : Prop :=
  (have' = false → (out.map Prod.snd).Sublist posted ∧ (out.map Prod.snd).getLast? = posted.getLast?) ∧
    (have' = true → ∃ p, posted = p ++ [msg] ∧ (out.map Prod.snd).Sublist p)

theorem mail_post {b : Bool} {msg : M} {posted : List M} {out : List (ℕ × M)} (m : M) (h : Mail b msg posted out) :
    Mail true m (posted ++ [m]) out := by
  refine ⟨by simp, fun _ => ⟨posted, rfl, ?_⟩⟩
  cases b with
  | false => exact (h.1 rfl).1
  | true =>
    obtain ⟨p, rfl, hs⟩ := h.2 rfl
    exact hs.trans (List.sublist_append_left _ _)

theorem mail_deliver {msg : M} {posted : List M} {out : List (ℕ × M)} (c : ℕ) (h : Mail true msg posted out) :
    Mail false msg posted (out ++ [(c, msg)]) := by
  obtain ⟨p, rfl, hs⟩ := h.2 rfl
  refine ⟨fun _ => ⟨?_, ?_⟩, by simp⟩
  · simpa using hs.append_right [msg]
  · simp

structure MInv (s : St H M) : Prop where
  locks : Locks s.locked s.user
  hu : .endU ∈ s.user → s.haveU = true
  hl : .endL ∈ s.user → s.haveL = true
  mu : Mail s.haveU s.msgU s.postedU s.outU
  ml : Mail s.haveL s.msgL s.postedL s.outL

theorem minv_init (m₀ : M) : MInv (init m₀ : St H M) :=
  ⟨Or.inl ⟨rfl, Or.inl fun x hx => by simp [init] at hx⟩, by simp [init], by simp [init],
    ⟨by simp [init], by simp [init]⟩, ⟨by simp [init], by simp [init]⟩⟩

theorem noCrit_not {r : List (UOp H M)} (h : NoCrit r) : .endU ∉ r ∧ .endL ∉ r :=
  ⟨fun hx => (by have := h _ hx; simp [crit] at this), fun hx => (by have := h _ hx; simp [crit] at this)⟩

theorem minv_user (cm : M) {s s' : St H M} (h : MInv s) (hs : userStep cm s = some s') : MInv s' := by
  obtain ⟨hk, h1, h2, h3, h4⟩ := h
  unfold userStep at hs
  split at hs
  case h_1 => cases hs
  case h_5 r hu =>
    rw [hu] at hk h1 h2
    split_ifs at hs
    cases hs
    exact ⟨locks_tail rfl hk, fun hx => h1 (List.mem_cons_of_mem _ hx), fun _ => rfl, h3, mail_post _ h4⟩
  case h_14 r hu =>
    rw [hu] at hk h1 h2
    cases hs
    by_cases hc : (s.haveU && s.cbv.isSome) = true
    · have : s.haveU = true := by simp at hc; exact hc.1
      refine ⟨?_, fun _ => this, ?_, h3, h4⟩
      · simp only [hc, if_true]
        exact locks_deliver rfl rfl hk
      · simp only [hc, if_true]
        intro hx
        simp at hx
        exact h2 (List.mem_cons_of_mem _ hx)
    · refine ⟨?_, ?_, ?_, h3, h4⟩
      · simp only [hc]
        exact locks_tail rfl hk
      · simp only [hc]
        exact fun hx => h1 (List.mem_cons_of_mem _ hx)
      · simp only [hc]
        exact fun hx => h2 (List.mem_cons_of_mem _ hx)
  case h_15 r hu =>
    rw [hu] at hk h1 h2
    cases hs
    by_cases hc : (s.haveL && s.lgv.isSome) = true
    · have : s.haveL = true := by simp at hc; exact hc.1
      refine ⟨?_, ?_, fun _ => this, h3, h4⟩
      · simp only [hc, if_true]
        exact locks_deliver rfl rfl hk
      · simp only [hc, if_true]
        intro hx
        simp at hx
        exact h1 (List.mem_cons_of_mem _ hx)
    · refine ⟨?_, ?_, ?_, h3, h4⟩
      · simp only [hc]
        exact locks_tail rfl hk
      · simp only [hc]
        exact fun hx => h1 (List.mem_cons_of_mem _ hx)
      · simp only [hc]
        exact fun hx => h2 (List.mem_cons_of_mem _ hx)
  case h_16 r hu =>
    rw [hu] at hk h1 h2
    split_ifs at hs with hl
    cases hs
    have hl' : s.locked = false := by simpa using hl
    rw [hl'] at hk
    exact ⟨locks_lock hk, fun hx => h1 (List.mem_cons_of_mem _ hx), fun hx => h2 (List.mem_cons_of_mem _ hx), h3, h4⟩
  case h_17 r hu =>
    rw [hu] at hk h1 h2
    split at hs
    · cases hs
    · rename_i c hc
      cases hs
      obtain ⟨-, hr⟩ := locks_end rfl hk
      have hv : s.haveU = true := h1 List.mem_cons_self
      rw [hv] at h3
      exact ⟨Or.inl ⟨rfl, Or.inl hr⟩, fun hx => absurd hx (noCrit_not hr).1, fun hx => absurd hx (noCrit_not hr).2,
        mail_deliver c h3, h4⟩
  case h_18 r hu =>
    rw [hu] at hk h1 h2
    split at hs
    · cases hs
    · rename_i c hc
      cases hs
      obtain ⟨-, hr⟩ := locks_end rfl hk
      have hv : s.haveL = true := h2 List.mem_cons_self
      rw [hv] at h4
      exact ⟨Or.inl ⟨rfl, Or.inl hr⟩, fun hx => absurd hx (noCrit_not hr).1, fun hx => absurd hx (noCrit_not hr).2,
        h3, mail_deliver c h4⟩
  case h_2 r hu =>
    rw [hu] at hk h1 h2
    cases hs
    refine ⟨?_, ?_, ?_, h3, h4⟩
    · simp only
      split_ifs
      · exact locks_one rfl rfl hk
      · exact locks_tail rfl hk
    · simp only
      split_ifs <;> intro hx <;> (try simp at hx) <;> exact h1 (List.mem_cons_of_mem _ hx)
    · simp only
      split_ifs <;> intro hx <;> (try simp at hx) <;> exact h2 (List.mem_cons_of_mem _ hx)
  case h_4 r hu =>
    rw [hu] at hk h1 h2
    split at hs
    · cases hs
      exact ⟨locks_tail rfl hk, fun hx => h1 (List.mem_cons_of_mem _ hx), fun hx => h2 (List.mem_cons_of_mem _ hx), h3, h4⟩
    · split_ifs at hs
      cases hs
      refine ⟨locks_one rfl rfl hk, ?_, ?_, h3, h4⟩ <;> intro hx <;> (try simp at hx)
      · exact h1 (List.mem_cons_of_mem _ hx)
      · exact h2 (List.mem_cons_of_mem _ hx)
  case h_21 i r hu =>
    rw [hu] at hk h1 h2
    split_ifs at hs
    · cases hs
      refine ⟨locks_one rfl rfl hk, ?_, ?_, h3, h4⟩ <;> intro hx <;> (try simp at hx)
      · exact h1 (List.mem_cons_of_mem _ hx)
      · exact h2 (List.mem_cons_of_mem _ hx)
    · cases hs
      exact ⟨locks_tail rfl hk, fun hx => h1 (List.mem_cons_of_mem _ hx), fun hx => h2 (List.mem_cons_of_mem _ hx), h3, h4⟩
  case h_22 i r hu =>
    rw [hu] at hk h1 h2
    split at hs
    · cases hs
    · split at hs
      · cases hs
        exact ⟨locks_tail rfl hk, fun hx => h1 (List.mem_cons_of_mem _ hx), fun hx => h2 (List.mem_cons_of_mem _ hx), h3, h4⟩
      · cases hs
  case h_23 r hu =>
    rw [hu] at hk h1 h2
    cases hs
    refine ⟨?_, ?_, ?_, h3, h4⟩
    · simp only
      split_ifs
      · exact locks_tail rfl hk
      · exact locks_one rfl rfl hk
    · simp only
      split_ifs <;> intro hx <;> (try simp at hx) <;> exact h1 (List.mem_cons_of_mem _ hx)
    · simp only
      split_ifs <;> intro hx <;> (try simp at hx) <;> exact h2 (List.mem_cons_of_mem _ hx)
  all_goals
    rename_i r hu
    rw [hu] at hk h1 h2
    cases hs
    exact ⟨locks_tail rfl hk, fun hx => h1 (List.mem_cons_of_mem _ hx), fun hx => h2 (List.mem_cons_of_mem _ hx), h3, h4⟩

theorem minv_worker {s s' : St H M} (h : MInv s) (hs : workerStep s = some s') : MInv s' := by
  obtain ⟨hk, h1, h2, h3, h4⟩ := h
  unfold workerStep at hs
  split at hs
  · cases hs
  rename_i w hw
  split at hs
  case h_1 => cases hs
  case h_6 b r hp =>
    simp only [Option.map_eq_some_iff] at hs
    obtain ⟨s1, hpost, rfl⟩ := hs
    unfold post at hpost
    split at hpost
    · split_ifs at hpost
      · cases hpost
        exact ⟨hk, fun _ => rfl, h2, mail_post _ h3, h4⟩
      · cases hpost
        exact ⟨hk, h1, h2, h3, h4⟩
    · split_ifs at hpost
      · cases hpost
        exact ⟨hk, h1, fun _ => rfl, h3, mail_post _ h4⟩
      · cases hpost
        exact ⟨hk, h1, h2, h3, h4⟩
    · cases hpost
      exact ⟨hk, h1, h2, h3, h4⟩
  all_goals first
    | (cases hs; exact ⟨hk, h1, h2, h3, h4⟩)
    | (split_ifs at hs <;> cases hs <;> exact ⟨hk, h1, h2, h3, h4⟩)
    | (simp only at hs; split_ifs at hs <;> cases hs <;> exact ⟨hk, h1, h2, h3, h4⟩)

theorem noCrit_api (a : Api H M) : NoCrit (apiOps a) := by
  intro o ho
  cases a <;> simp [apiOps, cancelOps, releaseOps, pendOps] at ho <;> aesop

theorem minv_step (cm : M) {s s' : St H M} {a : Act H M} (h : MInv s) (hs : step cm s a = some s') : MInv s' := by
  cases a with
  | call a =>
    simp only [step] at hs
    split_ifs at hs with hc
    cases hs
    have hu : s.user = [] := by simpa using hc.2
    obtain ⟨hk, h1, h2, h3, h4⟩ := h
    rw [hu] at hk
    have hnc := noCrit_api a
    refine ⟨?_, fun hx => absurd hx (noCrit_not hnc).1, fun hx => absurd hx (noCrit_not hnc).2, h3, h4⟩
    rcases hk with ⟨hb, -⟩ | ⟨-, p, e, r, hx, -⟩
    · exact Or.inl ⟨hb, Or.inl hnc⟩
    · simp at hx
  | reenter a =>
    simp only [step] at hs
    split_ifs at hs with hc
    cases hs
    obtain ⟨hk, h1, h2, h3, h4⟩ := h
    have hnc := noCrit_api a
    obtain ⟨e, r, hu, he⟩ : ∃ e r, s.user = e :: r ∧ isEnd e = true := by
      have hi := hc.2
      generalize s.user = u at hi ⊢
      cases u with
      | nil => simp [inCallback] at hi
      | cons b r => cases b <;> simp [inCallback] at hi <;> exact ⟨_, _, rfl, rfl⟩
    refine ⟨?_, ?_, ?_, h3, h4⟩
    · rw [hu] at hk ⊢
      obtain ⟨hb, hr⟩ := locks_end he hk
      exact Or.inr ⟨hb, apiOps a, e, r, rfl, he, hr, Or.inl hnc⟩
    · intro hx
      rcases List.mem_append.1 hx with hx | hx
      · exact absurd hx (noCrit_not hnc).1
      · exact h1 hx
    · intro hx
      rcases List.mem_append.1 hx with hx | hx
      · exact absurd hx (noCrit_not hnc).2
      · exact h2 hx
  | user => exact minv_user cm h hs
  | worker => exact minv_worker h hs
  | skip =>
    simp only [step, skipStep] at hs
    split at hs
    · split at hs
      · split_ifs at hs
        cases hs
        exact ⟨h.locks, h.hu, h.hl, h.mu, h.ml⟩
      · cases hs
    · cases hs

theorem minv_exec (cm : M) : ∀ (acts : List (Act H M)) {s s' : St H M}, MInv s → exec cm s acts = some s' → MInv s'
  | [], s, s', h, hs => by
    cases hs
    exact h
  | a :: as, s, s', h, hs => by
    simp only [exec, Option.bind_eq_some_iff] at hs
    obtain ⟨s1, h1, h2⟩ := hs
    exact minv_exec cm as (minv_step cm h h1) h2

/-- C166, messages.  What the user's callback and logger are given are messages that were posted, in the
order in which they were posted and each at most once; if there is none waiting, the last one
posted was the last one delivered. -/
theorem C166_messages (cm m₀ : M) (acts : List (Act H M)) (s : St H M) (h : exec cm (init m₀) acts = some s) :
    (s.outU.map Prod.snd).Sublist s.postedU ∧ (s.outL.map Prod.snd).Sublist s.postedL ∧
      (s.haveU = false → (s.outU.map Prod.snd).getLast? = s.postedU.getLast?) ∧
      (s.haveL = false → (s.outL.map Prod.snd).getLast? = s.postedL.getLast?) := by
  have hm := minv_exec cm acts (minv_init m₀) h
  have sub : ∀ {b : Bool} {msg : M} {p : List M} {o : List (ℕ × M)}, Mail b msg p o → (o.map Prod.snd).Sublist p := by
    intro b msg p o hx
    cases b with
    | false => exact (hx.1 rfl).1
    | true =>
      obtain ⟨q, rfl, hs⟩ := hx.2 rfl
      exact hs.trans (List.sublist_append_left _ _)
  exact ⟨sub hm.mu, sub hm.ml, fun hb => (hm.mu.1 hb).2, fun hb => (hm.ml.1 hb).2⟩

/-! ### Progress -/

/-- The run has no call from inside a callback. -/
def NoReenter (acts : List (Act H M)) : Prop := ∀ a ∈ acts, ∀ b, a ≠ .reenter b

/-- Without such calls the mutex is held only inside the user's callback. -/
def PInv (s : St H M) : Prop := s.locked = true → inCallback s.user = true

theorem pinv_step (cm : M) {s s' : St H M} {a : Act H M} (ha : ∀ b, a ≠ .reenter b) (hm : MInv s) (h : PInv s)
    (hs : step cm s a = some s') : PInv s' := by
  unfold PInv at h ⊢
  cases a with
  | call a =>
    simp only [step] at hs
    split_ifs at hs with hc
    cases hs
    have hu : s.user = [] := by simpa using hc.2
    intro hl
    have := h hl
    rw [hu] at this
    cases this
  | reenter a => exact absurd rfl (ha a)
  | skip =>
    simp only [step, skipStep] at hs
    split at hs
    · split at hs
      · split_ifs at hs
        cases hs
        exact h
      · cases hs
    · cases hs
  | worker =>
    simp only [step, workerStep] at hs
    split at hs
    · cases hs
    rename_i w hw
    split at hs
    case h_1 => cases hs
    case h_6 b r hp =>
      simp only [Option.map_eq_some_iff] at hs
      obtain ⟨s1, hpost, rfl⟩ := hs
      obtain ⟨a1, a2, a3, a4, a5, a6, rfl⟩ := post_frame hpost
      exact h
    all_goals first
      | (cases hs; exact h)
      | (split_ifs at hs <;> cases hs <;> exact h)
      | (simp only at hs; split_ifs at hs <;> cases hs <;> exact h)
  | user =>
    have hk := hm.locks
    by_cases hl : s.locked = true
    · have hc := h hl
      have hs' := hs
      simp only [step, userStep] at hs
      generalize hu : s.user = u at hc hs
      cases u with
      | nil => cases hc
      | cons b r =>
        cases b <;> simp [inCallback] at hc <;> simp only at hs <;> split at hs <;>
          first | (cases hs; done) | (intro h0; cases hs; cases h0)
    · have hl' : s.locked = false := by simpa using hl
      simp only [step, userStep] at hs
      split at hs
      case h_16 r hu =>
        rw [if_neg hl] at hs
        cases hs
        rw [hu, hl'] at hk
        rcases hk with ⟨-, h0 | ⟨e, r', h0, he, -⟩⟩ | ⟨h0, -⟩
        · have := h0 .lock List.mem_cons_self
          cases this
        · cases h0
          intro _
          cases e <;> simp [isEnd] at he <;> rfl
        · cases h0
      all_goals first
        | (cases hs; done)
        | (cases hs; intro h0; exact absurd h0 hl)
        | (split_ifs at hs <;> cases hs <;> intro h0 <;> exact absurd h0 hl)
        | (split at hs <;> first | (cases hs; done) | (cases hs; intro h0; exact absurd h0 hl) | (cases hs; intro h0; cases h0) | (split_ifs at hs; cases hs; intro h0; exact absurd h0 hl) | (split at hs <;> first | (cases hs; intro h0; exact absurd h0 hl) | cases hs))

theorem pinv_exec (cm : M) : ∀ (acts : List (Act H M)) {s s' : St H M}, NoReenter acts → MInv s → PInv s →
    exec cm s acts = some s' → PInv s'
  | [], s, s', _, _, h, hs => by
    cases hs
    exact h
  | a :: as, s, s', ha, hm, h, hs => by
    simp only [exec, Option.bind_eq_some_iff] at hs
    obtain ⟨s1, h1, h2⟩ := hs
    exact pinv_exec cm as (fun b hb => ha b (List.mem_cons_of_mem _ hb)) (minv_step cm hm h1)
      (pinv_step cm (ha a List.mem_cons_self) hm h h1) h2

/-- The next step calls a callback or logger that has been taken away. -/
def NullCall (s : St H M) : Prop :=
  (∃ r, s.user = .endU :: r ∧ s.cbv = none) ∨ (∃ r, s.user = .endL :: r ∧ s.lgv = none)

theorem stuck_cases (cm : M) {s : St H M} (hi : Inv s) (hp : PInv s) (hu : step cm s .user = none)
    (hw : step cm s .worker = none) :
    (s.user = [] ∧ ∀ w, s.worker = some w → w.prog = []) ∨ NullCall s := by
  have hfin : s.locked = false → ∀ w, s.worker = some w → w.prog = [] := by
    intro hl w hww
    simp only [step, workerStep, hww] at hw
    split at hw
    case h_1 h0 => exact h0
    case h_6 b r h0 =>
      exfalso
      cases b <;> simp [post, hl] at hw <;> split_ifs at hw <;> simp at hw
    all_goals first
      | (cases hw; done)
      | (split_ifs at hw)
      | (simp only at hw; split_ifs at hw)
  have hlock : ∀ {o : UOp H M} {r}, s.user = o :: r → isEnd o = false → s.locked = false := by
    intro o r h0 he
    by_contra hc
    have := hp (by simpa using hc)
    rw [h0] at this
    cases o <;> simp [isEnd] at he <;> simp [inCallback] at this
  have hun : s.user = [] → s.locked = false := by
    intro h0
    by_contra hc
    have := hp (by simpa using hc)
    rw [h0] at this
    cases this
  simp only [step, userStep] at hu
  split at hu
  case h_1 h0 => exact Or.inl ⟨h0, hfin (hun h0)⟩
  case h_4 r h0 =>
    exfalso
    split at hu
    · cases hu
    · rename_i w hww
      split_ifs at hu with hne
      exact hne (hfin (hlock h0 rfl) w hww)
  case h_5 r h0 =>
    exfalso
    rw [hlock h0 rfl] at hu
    simp at hu
  case h_16 r h0 =>
    exfalso
    rw [hlock h0 rfl] at hu
    simp at hu
  case h_17 r h0 =>
    split at hu
    · rename_i hc
      exact Or.inr (Or.inl ⟨r, h0, hc⟩)
    · cases hu
  case h_18 r h0 =>
    split at hu
    · rename_i hc
      exact Or.inr (Or.inr ⟨r, h0, hc⟩)
    · cases hu
  case h_22 i r h0 =>
    exfalso
    have hf := hi.fit
    rw [h0] at hf
    obtain ⟨hlt, -, -⟩ := hf
    obtain ⟨j, hl, hc, hh, -⟩ := res_of_count hi.data (by omega)
    have : (j.hulls.map some)[i]? = some (some (j.hulls[i]'(by omega))) := by
      rw [List.getElem?_map, List.getElem?_eq_getElem (by omega)]
      rfl
    rw [hh] at hu
    simp only [this] at hu
    cases hu
  all_goals first
    | (cases hu; done)
    | (split_ifs at hu)

/-- How much the worker and the using thread have left to do. -/
def wWeight (j : Job H M) : WOp M → ℕ
  | .alloc => 2 + j.hulls.length
  | _ => 1

def progWeight (j : Job H M) (p : List (WOp M)) : ℕ := (p.map (wWeight j)).sum

def uWeight : UOp H M → ℕ
  | .ifRunning => 2
  | .join => 2
  | .spawn j => 1 + progWeight j (workerProg j)
  | .chkU => 3
  | .chkL => 3
  | .chkHull _ => 2
  | .chkBase => 2
  | _ => 1

def work (s : St H M) : ℕ :=
  (s.user.map uWeight).sum + (match s.worker with | none => 0 | some w => progWeight w.job w.prog)

theorem progWeight_cons (j : Job H M) (o : WOp M) (p : List (WOp M)) :
    progWeight j (o :: p) = wWeight j o + progWeight j p := by simp [progWeight]

theorem progWeight_copies (j : Job H M) (l : List ℕ) (p : List (WOp M)) :
    progWeight j (l.map .copy ++ p) = l.length + progWeight j p := by
  simp only [progWeight, List.map_append, List.sum_append, List.map_map]
  congr 1
  induction l with
  | nil => rfl
  | cons a l ih =>
    simp only [List.map_cons, List.sum_cons, ih, List.length_cons, Function.comp, wWeight]
    omega

theorem wWeight_pos (j : Job H M) (o : WOp M) : 0 < wWeight j o := by cases o <;> simp [wWeight]

theorem uWeight_pos (o : UOp H M) : 0 < uWeight o := by cases o <;> simp [uWeight] 

theorem work_user (cm : M) {s s' : St H M} (hi : Inv s) (hs : userStep cm s = some s') : work s' < work s := by
  have hf := hi.fit
  unfold work
  unfold userStep at hs
  split at hs
  case h_1 => cases hs
  case h_4 r hu =>
    split at hs
    · cases hs
      simp [hu, uWeight]
    · rename_i w hw
      split_ifs at hs with hp
      cases hs
      simp [hu, hw, hp, uWeight, progWeight]
  case h_11 j r hu =>
    cases hs
    rw [hu] at hf
    simp only [hu, hf.1, List.map_cons, List.sum_cons, uWeight]
    omega
  case h_22 i r hu =>
    split at hs
    · cases hs
    · split at hs
      · cases hs
        simp [hu, uWeight]
      · cases hs
  all_goals
    rename_i hu
    first
      | (cases hs; simp [hu, uWeight]; done)
      | (cases hs; simp only [hu]; split_ifs <;> simp [uWeight] <;> omega)
      | (split_ifs at hs <;> cases hs <;> simp [hu, uWeight]; done)
      | (split at hs <;> first | (cases hs; simp [hu, uWeight]; done) | (cases hs; done))

theorem work_worker {s s' : St H M} (hi : Inv s) (hs : workerStep s = some s') : work s' < work s := by
  unfold workerStep at hs
  split at hs
  · cases hs
  rename_i w hw
  split at hs
  case h_1 => cases hs
  case h_6 b r hp =>
    simp only [Option.map_eq_some_iff] at hs
    obtain ⟨s1, hpost, rfl⟩ := hs
    obtain ⟨a1, a2, a3, a4, a5, a6, rfl⟩ := post_frame hpost
    simp [work, hw, hp, progWeight_cons, wWeight]
  case h_8 r hp =>
    obtain ⟨_, ⟨hb, hst⟩ | ⟨hp', _, _⟩ | ⟨hp', _, _⟩⟩ := data_some hw hi.data
    · have hok : w.ok = true → s.baseHulls = w.job.hulls := by
        cases hst with
        | pre p hp' hwp hh hr =>
          rw [hwp] at hp
          rcases hp' with rfl | rfl | rfl | rfl
          · simp at hp
          · simp at hp
          · simp at hp
          · split_ifs at hp <;> simp at hp
        | base l hwp hh hr hcc he =>
          rw [hwp] at hp
          cases l <;> simp at hp
        | fetch hwp hh hr hok hno he => exact hok
        | copy k hk hwp hh hr hb he =>
          rw [hwp] at hp
          cases hq : w.job.hulls.length - k with
          | zero => rw [hq] at hp; simp at hp
          | succ d => rw [hq, List.range'_succ] at hp; simp at hp
        | none hwp hr hz => rw [hwp] at hp; simp at hp
      split_ifs at hs with hk
      · cases hs
        simp [work, hw, hp, progWeight_cons, progWeight_copies, wWeight, hok hk]
      · cases hs
        simp [work, hw, hp, progWeight_cons, wWeight]
    · rw [hp] at hp'
      cases hp'
    · rw [hp] at hp'
      cases hp'
  case h_9 i r hp =>
    simp only [hi.nc] at hs
    simp only [Bool.false_eq_true, if_false] at hs
    cases hs
    simp [work, hw, hp, progWeight_cons, wWeight]
  all_goals first
    | (cases hs; simp [work, hw, ‹w.prog = _›, progWeight_cons, wWeight]; done)
    | (split_ifs at hs <;> cases hs <;> simp [work, hw, ‹w.prog = _›, progWeight_cons, wWeight])

theorem work_skip {s s' : St H M} (hs : skipStep s = some s') : work s' < work s := by
  unfold skipStep at hs
  split at hs
  · rename_i w hw
    split at hs
    · rename_i b r hp
      split_ifs at hs
      cases hs
      simp [work, hw, hp, progWeight_cons, wWeight]
    · cases hs
  · cases hs

/-- Steps of the threads, no new calls. -/
def Internal : Act H M → Prop
  | .user | .worker | .skip => True
  | _ => False

theorem work_exec (cm : M) : ∀ (acts : List (Act H M)) {s s' : St H M}, (∀ a ∈ acts, Internal a) → Inv s →
    exec cm s acts = some s' → acts.length + work s' ≤ work s
  | [], s, s', _, _, hs => by
    cases hs
    simp
  | a :: as, s, s', ha, h, hs => by
    simp only [exec, Option.bind_eq_some_iff] at hs
    obtain ⟨s1, h1, h2⟩ := hs
    have ha0 := ha a List.mem_cons_self
    have hlt : work s1 < work s := by
      cases a with
      | call a => exact ha0.elim
      | reenter a => exact ha0.elim
      | user => exact work_user cm h h1
      | worker => exact work_worker h h1
      | skip => exact work_skip h1
    have hi1 : Inv s1 := by
      refine inv_step cm ?_ h h1
      cases a <;> first | exact ha0.elim | (constructor <;> simp)
    have := work_exec cm as (fun b hb => ha b (List.mem_cons_of_mem _ hb)) hi1 h2
    simp only [List.length_cons]
    omega

/-- C166, progress.  If callbacks do not call the object, every call returns and the worker ends after finitely
many steps: from every reachable state there is a bound on the number of steps that can be taken without new calls,
and as long as a call has not returned or the worker has not ended, a step is possible, unless the callback or
logger has been taken away in the middle of a delivery (see `C166_violated_null`). -/
theorem C166_progress_partial (cm m₀ : M) (acts : List (Act H M)) (hn : NoRelease acts) (hre : NoReenter acts) (s : St H M)
    (h : exec cm (init m₀) acts = some s) :
    (∃ bound : ℕ, ∀ (more : List (Act H M)) (s' : St H M), (∀ a ∈ more, Internal a) → exec cm s more = some s' →
      more.length ≤ bound) ∧
    ((step cm s .user).isSome = true ∨ (step cm s .worker).isSome = true ∨
      (s.user = [] ∧ ∀ w, s.worker = some w → w.prog = []) ∨ NullCall s) := by
  have hi := inv_exec cm acts hn (inv_init m₀) h
  have hp := pinv_exec cm acts hre (minv_init m₀) (by intro h0; cases h0) h
  refine ⟨⟨work s, fun more s' hm hx => ?_⟩, ?_⟩
  · have := work_exec cm more hm hi hx
    omega
  · cases hu : step cm s .user with
    | some x => exact Or.inl rfl
    | none =>
      cases hw : step cm s .worker with
      | some x => exact Or.inr (Or.inl rfl)
      | none => exact Or.inr (Or.inr (stuck_cases cm hi hp hu hw))

/-! ### Violations -/

/-- C166 is violated by the destructor: it frees the input before it waits for the worker.  Whenever `Release` is
called while the worker has still to read its input, it can read it after it has been freed. -/
theorem C166_violated_release (cm m₀ : M) (acts : List (Act H M)) (hn : NoRelease acts) (s : St H M)
    (h : exec cm (init m₀) acts = some s) (hu : s.user = []) (w : Worker H M) (r : List (WOp M))
    (hw : s.worker = some w) (hp : w.prog = .base .work :: r) :
    (∃ s1, exec cm s [.call .release, .user] = some s1 ∧ RaceOn .input s1) ∧
      ∃ s2, exec cm s [.call .release, .user, .user] = some s2 ∧ ReadsFreed s2 := by
  have hi := inv_exec cm acts hn (inv_init m₀) h
  constructor
  · refine ⟨{ s with user := .freeInput :: cancelOps ++ [.delBase], hulls := none, count := 0 }, ?_, ?_⟩
    · simp [exec, step, hi.al, hu, apiOps, releaseOps, userStep]
    · exact ⟨_, _, w, _, r, true, false, rfl, hw, hp, by simp [uAcc], by simp [wAcc], Or.inl rfl⟩
  · refine ⟨{ s with user := cancelOps ++ [.delBase], hulls := none, count := 0, input := false }, ?_, ?_⟩
    · simp [exec, step, hi.al, hu, apiOps, releaseOps, userStep]
    · exact ⟨w, _, r, hw, hp, by simp [wAcc], rfl⟩

/-- The state after a second `Compute` and the beginning of `IsReady`. -/
def second (cm : M) (s : St H M) (j : Job H M) : St H M :=
  { s with
    haveL := true, msgL := cm, postedL := s.postedL ++ [cm], mCancel := false, hulls := none, count := 0,
    input := true, running := true, worker := some ⟨j, (workerProg j).drop 2, false, 0⟩, last := some j, hit := false,
    cbv := j.cb, user := [.chkU, .chkL, .retReady] }

theorem second_exec (cm : M) (s : St H M) (j : Job H M) (w : Worker H M) (hal : s.alive = true) (hu : s.user = [])
    (hr : s.running = false) (hw : s.worker = some w) (hp : w.prog = []) (hl : s.locked = false) :
    exec cm s (.call (.compute j) :: List.replicate 9 .user ++ [.worker, .worker, .call .isReady]) =
      some (second cm s j) := by
  simp [exec, step, hal, hu, apiOps, releaseOps, cancelOps, pendOps, userStep, workerStep, hr, hw, hp, hl, workerProg,
    List.replicate, second]

/-- C166 is violated by the pointer to the logger: `Compute` after an earlier `Compute` leaves a message (that the
earlier thread was cancelled, although it had ended), and `IsReady` then looks at the pointer
while the new worker writes it. -/
theorem C166_violated_logger (cm m₀ : M) (acts : List (Act H M)) (hn : NoRelease acts) (hre : NoReenter acts) (s : St H M)
    (h : exec cm (init m₀) acts = some s) (hu : s.user = []) (w : Worker H M)
    (hw : s.worker = some w) (hp : w.prog = []) (j : Job H M) :
    ∃ us s', exec cm s (.call (.compute j) :: List.replicate 9 .user ++ [.worker, .worker, .call .isReady] ++ us) = some s' ∧
      (∀ a ∈ us, a = .user) ∧ RaceOn .logger s' := by
  have hi := inv_exec cm acts hn (inv_init m₀) h
  have hpv := pinv_exec cm acts hre (minv_init m₀) (by intro h0; cases h0) h
  have hr : s.running = false := (running_iff (data_some hw hi.data)).2 hp
  have hl : s.locked = false := by
    by_contra hc
    have := hpv (by simpa using hc)
    rw [hu] at this
    cases this
  have key := second_exec cm s j w hi.al hu hr hw hp hl
  simp only [exec_append, key, Option.bind_some]
  by_cases hc : (s.haveU && j.cb.isSome) = true
  · obtain ⟨c, hcb⟩ : ∃ c, j.cb = some c := by
      simp at hc
      exact Option.isSome_iff_exists.1 hc.2
    have hv : s.haveU = true := by simp at hc; exact hc.1
    refine ⟨[.user, .user, .user], { second cm s j with
        user := [.chkL, .retReady], haveU := false, locked := false, outU := s.outU ++ [(c, s.msgU)] }, ?_, by simp, ?_⟩
    · simp [exec, step, second, userStep, hl, hv, hcb]
    · exact ⟨_, _, _, _, _, false, true, rfl, rfl, rfl, by simp [uAcc, second], by simp [wAcc], Or.inr rfl⟩
  · refine ⟨[.user], { second cm s j with user := [.chkL, .retReady] }, ?_, by simp, ?_⟩
    · have hc' : (s.haveU && j.cb.isSome) = false := by simpa using hc
      simp only [exec, step, second, userStep, hc', Option.bind_some, Bool.false_eq_true, if_false]
    · exact ⟨_, _, _, _, _, false, true, rfl, rfl, rfl, by simp [uAcc, second], by simp [wAcc], Or.inr rfl⟩

/-- C166 is violated by the cancel flag: the base computation reads it in places without the mutex, so
that `Cancel` during a computation is a data race. -/
theorem C166_violated_flag (cm m₀ : M) (acts : List (Act H M)) (hn : NoRelease acts) (s : St H M)
    (h : exec cm (init m₀) acts = some s) (hu : s.user = []) (w : Worker H M) (r : List (WOp M))
    (hw : s.worker = some w) (hp : w.prog = .base .peek :: r) :
    ∃ s', exec cm s [.call .cancel, .user] = some s' ∧ RaceOn .cancelFlag s' := by
  have hi := inv_exec cm acts hn (inv_init m₀) h
  have hr : s.running = true := by
    by_contra hc
    have := (running_iff (data_some hw hi.data)).1 (by simpa using hc)
    rw [hp] at this
    cases this
  refine ⟨{ s with user := [.setCancel, .join, .clearCancel] }, ?_, ?_⟩
  · simp [exec, step, hi.al, hu, apiOps, cancelOps, userStep, hr]
  · exact ⟨_, _, w, _, r, true, false, rfl, hw, hp, by simp [uAcc], by simp [wAcc], Or.inl rfl⟩

/-- Inside `Cancel` called from a callback. -/
def Doomed (u : List (UOp H M)) (s : St H M) : Prop :=
  s.locked = true ∧ inCallback u = true ∧
    ((s.worker.isSome = true ∧ (s.user = .ifRunning :: .join :: .clearCancel :: u ∨
      s.user = .setCancel :: .join :: .clearCancel :: u ∨ s.user = .join :: .clearCancel :: u)) ∨
    s.user = .postLog :: .clearCancel :: u)

theorem doomed_step (cm : M) {u : List (UOp H M)} {s s' : St H M} {a : Act H M} (h : Doomed u s)
    (hs : step cm s a = some s') : Doomed u s' := by
  obtain ⟨hl, hc, hd⟩ := h
  cases a with
  | call a =>
    simp only [step] at hs
    split_ifs at hs with hcc
    have : s.user = [] := by simpa using hcc.2
    rcases hd with ⟨_, h0 | h0 | h0⟩ | h0 <;> rw [h0] at this <;> cases this
  | reenter a =>
    simp only [step] at hs
    split_ifs at hs with hcc
    have := hcc.2
    rcases hd with ⟨_, h0 | h0 | h0⟩ | h0 <;> rw [h0] at this <;> cases this
  | user =>
    simp only [step, userStep] at hs
    rcases hd with ⟨hw, h0 | h0 | h0⟩ | h0
    · rw [h0] at hs
      cases hs
      by_cases hr : s.running = true
      · exact ⟨hl, hc, Or.inl ⟨hw, Or.inr (Or.inl (by simp [hr]))⟩⟩
      · exact ⟨hl, hc, Or.inl ⟨hw, Or.inr (Or.inr (by simp [hr]))⟩⟩
    · rw [h0] at hs
      cases hs
      exact ⟨hl, hc, Or.inl ⟨hw, Or.inr (Or.inr rfl)⟩⟩
    · rw [h0] at hs
      obtain ⟨w, hww⟩ := Option.isSome_iff_exists.1 hw
      simp only [hww] at hs
      split_ifs at hs
      cases hs
      exact ⟨hl, hc, Or.inr rfl⟩
    · rw [h0] at hs
      simp [hl] at hs
  | worker =>
    have key : s'.user = s.user ∧ s'.locked = s.locked ∧ (s.worker.isSome = true → s'.worker.isSome = true) := by
      simp only [step, workerStep] at hs
      split at hs
      · cases hs
      rename_i w hw
      split at hs
      case h_1 => cases hs
      case h_6 b r hp =>
        simp only [Option.map_eq_some_iff] at hs
        obtain ⟨s1, hpost, rfl⟩ := hs
        obtain ⟨a1, a2, a3, a4, a5, a6, rfl⟩ := post_frame hpost
        exact ⟨rfl, rfl, fun _ => rfl⟩
      all_goals first
        | (cases hs; exact ⟨rfl, rfl, fun _ => rfl⟩)
        | (split_ifs at hs <;> cases hs <;> exact ⟨rfl, rfl, fun _ => rfl⟩)
        | (simp only at hs; split_ifs at hs <;> cases hs <;> exact ⟨rfl, rfl, fun _ => rfl⟩)
    refine ⟨by rw [key.2.1]; exact hl, hc, ?_⟩
    rw [key.1]
    rcases hd with ⟨hw, h0⟩ | h0
    · exact Or.inl ⟨key.2.2 hw, h0⟩
    · exact Or.inr h0
  | skip =>
    simp only [step, skipStep] at hs
    split at hs
    · split at hs
      · split_ifs at hs
        cases hs
        refine ⟨hl, hc, ?_⟩
        rcases hd with ⟨hw, h0⟩ | h0
        · exact Or.inl ⟨rfl, h0⟩
        · exact Or.inr h0
      · cases hs
    · cases hs

theorem doomed_exec (cm : M) {u : List (UOp H M)} : ∀ (acts : List (Act H M)) {s s' : St H M}, Doomed u s →
    exec cm s acts = some s' → Doomed u s'
  | [], s, s', h, hs => by
    cases hs
    exact h
  | a :: as, s, s', h, hs => by
    simp only [exec, Option.bind_eq_some_iff] at hs
    obtain ⟨s1, h1, h2⟩ := hs
    exact doomed_exec cm as (doomed_step cm h h1) h2

/-- C166 is violated by a callback (or logger) that cancels the computation: the mutex is held while the
user's function is called, and `Cancel` needs it too.  Whatever happens afterwards, the call never returns. -/
theorem C166_violated_cancel_in_callback (cm m₀ : M) (acts more : List (Act H M)) (s s' : St H M)
    (h : exec cm (init m₀) acts = some s) (hc : inCallback s.user = true) (hw : s.worker.isSome = true)
    (hx : exec cm s (.reenter .cancel :: more) = some s') :
    ∃ p, p ≠ [] ∧ s'.user = p ++ s.user := by
  have hm := minv_exec cm acts (minv_init m₀) h
  have hl : s.locked = true := by
    have hk := hm.locks
    generalize s.user = u at hk hc
    cases u with
    | nil => cases hc
    | cons b r =>
      have : isEnd b = true := by cases b <;> simp [inCallback] at hc <;> rfl
      exact (locks_end this hk).1
  simp only [exec, Option.bind_eq_some_iff] at hx
  obtain ⟨s1, h1, h2⟩ := hx
  have hd : Doomed s.user s1 := by
    simp only [step] at h1
    split_ifs at h1
    cases h1
    exact ⟨hl, hc, Or.inl ⟨hw, Or.inl rfl⟩⟩
  rcases (doomed_exec cm more hd h2).2.2 with ⟨_, h0 | h0 | h0⟩ | h0
  · exact ⟨[.ifRunning, .join, .clearCancel], by simp, h0⟩
  · exact ⟨[.setCancel, .join, .clearCancel], by simp, h0⟩
  · exact ⟨[.join, .clearCancel], by simp, h0⟩
  · exact ⟨[.postLog, .clearCancel], by simp, h0⟩

/-! Concrete runs.  Messages and hulls are numbers, `0` the message of `Cancel`. -/

/-- Three hulls, one report. -/
def job1 : Job ℕ ℕ := ⟨false, [10, 11, 12], [.work, .update 5, .peek], some 1, some 2⟩

/-- Another job, with another callback. -/
def job2 : Job ℕ ℕ := ⟨false, [20], [.work], some 7, some 2⟩

/-- A job without a callback. -/
def job3 : Job ℕ ℕ := ⟨false, [20], [.work], none, some 2⟩

def users (n : ℕ) : List (Act ℕ ℕ) := List.replicate n .user
def workers (n : ℕ) : List (Act ℕ ℕ) := List.replicate n .worker

/-- C166 is violated by a cancellation that comes early: the base computation clears the flag when it
starts, and `Cancel` waits for the whole computation, whose result is then shown. -/
theorem C166_violated_cancel_lost : ∃ acts : List (Act ℕ ℕ), ∃ s, NoRelease acts ∧ NoReenter acts ∧
    exec 0 (init 0) acts = some s ∧ s.user = [] ∧ Act.call Api.cancel ∈ acts ∧ s.last = some job1 ∧ s.count = 3 ∧
      s.postedU = [5] := by
  refine ⟨[.call (.compute job1)] ++ users 8 ++ [.call .cancel] ++ users 2 ++ workers 14 ++ users 3, ?_⟩
  refine ⟨(exec 0 (init 0) ([.call (.compute job1)] ++ users 8 ++ [.call .cancel] ++ users 2 ++ workers 14 ++ users 3)).get
    (by decide +kernel), ?_, ?_, by simp, by decide +kernel, by decide +kernel, by decide +kernel, by decide +kernel,
    by decide +kernel⟩
  · intro a ha
    simp [users, workers] at ha
    rcases ha with rfl | rfl | rfl | rfl | rfl | rfl <;> simp
  · intro a ha b
    simp [users, workers] at ha
    rcases ha with rfl | rfl | rfl | rfl | rfl | rfl <;> simp

/-- C166 is violated by messages left over: a report of the first computation is given to the callback of the
second, which never reports it. -/
theorem C166_violated_stale : ∃ acts : List (Act ℕ ℕ), ∃ s, NoRelease acts ∧ NoReenter acts ∧
    exec 0 (init 0) acts = some s ∧ s.outU = [(7, 5)] ∧ job2.cb = some 7 ∧ BOp.update 5 ∉ job2.script := by
  refine ⟨[.call (.compute job1)] ++ users 8 ++ workers 14 ++ [.call (.compute job2)] ++ users 9 ++ workers 2 ++
    [.call .isReady] ++ users 3, ?_⟩
  refine ⟨(exec 0 (init 0) ([.call (.compute job1)] ++ users 8 ++ workers 14 ++ [.call (.compute job2)] ++ users 9 ++ workers 2 ++
    [.call .isReady] ++ users 3)).get (by decide +kernel), ?_, ?_, by simp, by decide +kernel, rfl, by decide +kernel⟩
  · intro a ha
    simp [users, workers] at ha
    rcases ha with rfl | rfl | rfl | rfl | rfl | rfl | rfl | rfl <;> simp
  · intro a ha b
    simp [users, workers] at ha
    rcases ha with rfl | rfl | rfl | rfl | rfl | rfl | rfl | rfl <;> simp

/-- C166 is violated by a callback taken away: between the test of the pointer and the call, the worker of a new
computation without callback sets it to null. -/
theorem C166_violated_null : ∃ acts : List (Act ℕ ℕ), ∃ s, NoRelease acts ∧ NoReenter acts ∧
    exec 0 (init 0) acts = some s ∧ NullCall s := by
  refine ⟨[.call (.compute job1)] ++ users 8 ++ workers 14 ++ [.call (.compute job3)] ++ users 9 ++ workers 1 ++
    [.call .isReady] ++ users 1 ++ workers 1 ++ users 1, ?_⟩
  refine ⟨(exec 0 (init 0) ([.call (.compute job1)] ++ users 8 ++ workers 14 ++ [.call (.compute job3)] ++ users 9 ++ workers 1 ++
    [.call .isReady] ++ users 1 ++ workers 1 ++ users 1)).get (by decide +kernel), ?_, ?_, by simp, ?_⟩
  · intro a ha
    simp [users, workers] at ha
    rcases ha with rfl | rfl | rfl | rfl | rfl | rfl | rfl | rfl | rfl | rfl <;> simp
  · intro a ha b
    simp [users, workers] at ha
    rcases ha with rfl | rfl | rfl | rfl | rfl | rfl | rfl | rfl | rfl | rfl <;> simp
  · exact Or.inl ⟨[.chkL, .retReady], by decide +kernel, by decide +kernel⟩

/-- C166 is violated by `IsReady` and the last message: it looks for messages before it looks whether the
computation has ended, so that it can report the end with a message still waiting. -/
theorem C166_violated_last : ∃ acts : List (Act ℕ ℕ), ∃ s, NoRelease acts ∧ NoReenter acts ∧
    exec 0 (init 0) acts = some s ∧ s.user = [] ∧ s.obs = [.ready true] ∧ s.cbv = some 1 ∧ s.postedU = [5] ∧ s.outU = [] := by
  refine ⟨[.call (.compute job1)] ++ users 8 ++ workers 5 ++ [.call .isReady] ++ users 1 ++ workers 9 ++ users 2, ?_⟩
  refine ⟨(exec 0 (init 0) ([.call (.compute job1)] ++ users 8 ++ workers 5 ++ [.call .isReady] ++ users 1 ++ workers 9 ++
    users 2)).get (by decide +kernel), ?_, ?_, by simp, by decide +kernel, by decide +kernel, by decide +kernel, by decide +kernel,
    by decide +kernel⟩
  · intro a ha
    simp [users, workers] at ha
    rcases ha with rfl | rfl | rfl | rfl | rfl | rfl | rfl <;> simp
  · intro a ha b
    simp [users, workers] at ha
    rcases ha with rfl | rfl | rfl | rfl | rfl | rfl | rfl <;> simp

/-- The hypotheses of `C166_violated_release` (worker in its computation) and `C166_violated_flag` are met. -/
example : ∃ s : St ℕ ℕ, exec 0 (init 0) ([.call (.compute job1)] ++ users 8 ++ workers 4) = some s ∧ s.user = [] ∧
    ∃ w r, s.worker = some w ∧ w.prog = .base .work :: r :=
  ⟨_, rfl, rfl, _, _, rfl, rfl⟩

example : ∃ s : St ℕ ℕ, exec 0 (init 0) ([.call (.compute job1)] ++ users 8 ++ workers 6) = some s ∧ s.user = [] ∧
    ∃ w r, s.worker = some w ∧ w.prog = .base .peek :: r :=
  ⟨_, rfl, rfl, _, _, rfl, rfl⟩

/-- A completed run, as `C166_violated_logger` and `C166_complete` assume: all three hulls are read. -/
example : ∃ s : St ℕ ℕ, exec 0 (init 0) ([.call (.compute job1)] ++ users 8 ++ workers 14 ++
      [.call (.getHull 2)] ++ users 2 ++ [.call .getN] ++ users 5) = some s ∧
    s.user = [] ∧ s.running = false ∧ s.obs = [.hull 2 12, .count 3] ∧ s.outU = [(1, 5)] ∧
    ∃ w, s.worker = some w ∧ w.prog = [] :=
  ⟨_, rfl, rfl, rfl, rfl, rfl, _, rfl, rfl⟩

/-- Inside the callback, as `C166_violated_cancel_in_callback` assumes. -/
example : ∃ s : St ℕ ℕ, exec 0 (init 0) ([.call (.compute job1)] ++ users 8 ++ workers 6 ++ [.call .isReady] ++ users 2) = some s ∧
    inCallback s.user = true ∧ s.worker.isSome = true :=
  ⟨_, rfl, rfl, rfl⟩

end Verif.Async
