import Verif.Model.AdaptiveOdeint
import Mathlib.Algebra.Order.Field.Basic
import Mathlib.Tactic.Linarith
import Mathlib.Data.List.TakeWhile

/-! Lemmas about `_adaptive_odeint`. -/

set_option linter.unusedSectionVars false
set_option linter.unusedSimpArgs false

namespace Torchdyn

variable {K V : Type} [Field K] [LinearOrder K] [IsStrictOrderedRing K]

/-- The stepper never raises and returns a 4-tuple `(k, x, e, stages) = out x t dt k1`. -/
def FourStep {K V : Type} (cfg : AdaptiveCfg (Except PyErr) K V)
    (out : V → K → K → V → V × V × V × List V) : Prop :=
  ∀ x t dt k1, cfg.step x t dt k1 =
    .ok (.four (out x t dt k1).1 (out x t dt k1).2.1 (out x t dt k1).2.2.1 (out x t dt k1).2.2.2)

/-- Invariant of the control variables of the loop. -/
structure AInv (tEval : List K) (t0 T : K) (s : AState K V) : Prop where
  flag : s.ckptFlag = false
  dt_pos : 0 < s.dt
  ge0 : t0 ≤ s.t
  t_le : s.t ≤ T
  past : ∀ te ∈ tEval.take s.ckpt, te ≤ s.t
  future : ∀ te ∈ tEval.drop s.ckpt, s.t < te
  ckpt_le : s.ckpt ≤ tEval.length

theorem interpCkpts_eq (dense : K → V) (tNew : K) (rest : List K) (ckpt : Nat) (et : List K)
    (sol : List V) :
    interpCkpts dense tNew rest ckpt et sol =
      (ckpt + (rest.takeWhile (fun te => decide (te < tNew))).length,
        et ++ rest.takeWhile (fun te => decide (te < tNew)),
        sol ++ (rest.takeWhile (fun te => decide (te < tNew))).map dense) := by
  induction rest generalizing ckpt et sol with
  | nil => simp [interpCkpts]
  | cons te rest ih =>
    by_cases h : te < tNew
    · simp [interpCkpts, h, ih, List.takeWhile_cons]; omega
    · simp [interpCkpts, h, List.takeWhile_cons]

theorem clampDt_spec {T : K} {s : AState K V} (hdt : 0 < s.dt) (ht : s.t < T) :
    0 < clampDt T s ∧ s.t + clampDt T s ≤ T ∧ clampDt T s ≤ s.dt := by
  unfold clampDt
  split_ifs with h
  · exact ⟨by linarith, by linarith, by linarith⟩
  · exact ⟨hdt, not_lt.1 h, le_refl _⟩

/-- What the checkpoint logic does, without interpolator. -/
theorem checkpointDt_none {tEval : List K} {s : AState K V} {dtc te : K} {l : List K}
    (hflag : s.ckptFlag = false) (hdt : 0 < dtc) (hd : tEval.drop s.ckpt = te :: l) (hte : s.t < te) :
    ∃ dt dtOld flag, checkpointDt false tEval s dtc = (dt, dtOld, flag) ∧ 0 < dt ∧ s.t + dt ≤ te ∧
      dt ≤ dtc ∧ (flag = true → dtOld = dtc ∧ dt < dtc ∧ dt = te - s.t) ∧
      (flag = false → dt = dtc) := by
  have hget : tEval[s.ckpt]? = some te := by
    have := congrArg (fun l => l[0]?) hd
    simpa using this
  unfold checkpointDt
  rw [hget]
  by_cases h : te < s.t + dtc
  · refine ⟨te - s.t, dtc, true, ?_, by linarith, by linarith, by linarith,
      fun _ => ⟨rfl, by linarith, rfl⟩, by simp⟩
    simp [h]
  · refine ⟨dtc, s.dtOld, false, ?_, hdt, not_lt.1 h, le_refl _, by simp, fun _ => rfl⟩
    simp [h, hflag]

/-- With an interpolator the step size is left alone. -/
theorem checkpointDt_some {tEval : List K} {s : AState K V} {dtc : K} (hflag : s.ckptFlag = false) :
    checkpointDt true tEval s dtc = (dtc, s.dtOld, false) := by
  unfold checkpointDt
  split
  · simp [hflag]
  · simp [hflag]

/-- The checkpoints strictly before `tNew` that have not been consumed yet. -/
def passed (tEval : List K) (ckpt : Nat) (tNew : K) : List K :=
  (tEval.drop ckpt).takeWhile (fun te => decide (te < tNew))

/-- Everything one iteration does. -/
structure IterSpec (cfg : AdaptiveCfg (Except PyErr) K V) (out : V → K → K → V → V × V × V × List V)
    (tEval : List K) (T : K) (s s' : AState K V) (dt : K) : Prop where
  dt_pos : 0 < dt
  le_T : s.t + dt ≤ T
  dt_le : dt ≤ s.dt
  le_next : cfg.interp = none → ∀ te ∈ tEval.drop s.ckpt, s.t + dt ≤ te
  hit_next : s.t + dt ∈ tEval →
    tEval[s.ckpt + (passed tEval s.ckpt (s.t + dt)).length]? = some (s.t + dt)
  accepted : cfg.errRatio s.x (out s.x s.t dt s.k1).2.1 (out s.x s.t dt s.k1).2.2.1 ≤ 1 →
    s'.t = s.t + dt ∧ s'.x = (out s.x s.t dt s.k1).2.1 ∧ s'.k1 = (out s.x s.t dt s.k1).1 ∧
    s'.ckpt = s.ckpt + (passed tEval s.ckpt (s.t + dt)).length +
      (if s.t + dt ∈ tEval then 1 else 0) ∧
    s'.evalTimes = s.evalTimes ++ passed tEval s.ckpt (s.t + dt) ++
      (if s.t + dt ∈ tEval ∨ cfg.returnAllEval = true then [s.t + dt] else []) ∧
    ∃ mids : List V, mids.length = (passed tEval s.ckpt (s.t + dt)).length ∧
      (∀ dense, cfg.interp = some dense → mids = (passed tEval s.ckpt (s.t + dt)).map
        (dense s.t dt s.k1 (out s.x s.t dt s.k1).1 s.x (out s.x s.t dt s.k1).2.1
          (out s.x s.t dt s.k1).2.2.2)) ∧
      s'.sol = s.sol ++ mids ++
        (if s.t + dt ∈ tEval ∨ cfg.returnAllEval = true then [(out s.x s.t dt s.k1).2.1] else [])
  rejected : ¬ cfg.errRatio s.x (out s.x s.t dt s.k1).2.1 (out s.x s.t dt s.k1).2.2.1 ≤ 1 →
    s'.t = s.t ∧ s'.x = s.x ∧ s'.k1 = s.k1 ∧ s'.ckpt = s.ckpt ∧ s'.evalTimes = s.evalTimes ∧
      s'.sol = s.sol

theorem takeWhile_lt_append_dropWhile (l : List K) (b : K) (hs : l.Pairwise (· < ·)) :
    (∀ a ∈ l.takeWhile (fun te => decide (te < b)), a < b) ∧
    (∀ a ∈ l.drop (l.takeWhile (fun te => decide (te < b))).length, b ≤ a) := by
  induction l with
  | nil => simp
  | cons c l ih =>
    rw [List.pairwise_cons] at hs
    obtain ⟨h1, h2⟩ := ih hs.2
    by_cases h : c < b
    · simp only [List.takeWhile_cons, h, decide_true, if_true, List.length_cons, List.drop_succ_cons]
      refine ⟨?_, h2⟩
      intro a ha
      rcases List.mem_cons.1 ha with rfl | ha
      · exact h
      · exact h1 a ha
    · simp only [List.takeWhile_cons, h, decide_false, Bool.false_eq_true, if_false, List.length_nil,
        List.drop_zero]
      refine ⟨by simp, ?_⟩
      intro a ha
      rcases List.mem_cons.1 ha with rfl | ha
      · exact not_lt.1 h
      · exact (not_lt.1 h).trans (hs.1 a ha).le

/-- One iteration succeeds, does what `IterSpec` says and preserves the invariant. -/
theorem adaptiveIter_spec {cfg : AdaptiveCfg (Except PyErr) K V}
    {out : V → K → K → V → V × V × V × List V} (hout : FourStep cfg out)
    (hadapt : ∀ dt er, 0 < dt → 0 < cfg.adapt dt er)
    {tEval : List K} {t0 T : K} (hsort : tEval.Pairwise (· < ·)) (hT : tEval.getLast? = some T)
    {s : AState K V} (hinv : AInv tEval t0 T s) (ht : s.t < T) :
    ∃ dt s', adaptiveIter cfg tEval T s = .ok s' ∧ IterSpec cfg out tEval T s s' dt ∧
      AInv tEval t0 T s' ∧
      (∃ dt', 0 < dt' ∧ s'.dt = cfg.adapt dt'
        (cfg.errRatio s.x (out s.x s.t dt s.k1).2.1 (out s.x s.t dt s.k1).2.2.1) ∧
        (dt' = dt ∧ dt = clampDt T s ∨ (cfg.interp = none ∧ dt' = clampDt T s - dt ∧ dt < clampDt T s ∧
          s.t + dt ∈ tEval)) ∧
        (cfg.interp.isSome → dt = clampDt T s)) := by
  obtain ⟨hc1, hc2, hc3⟩ := clampDt_spec hinv.dt_pos ht
  -- the next checkpoint exists
  have hTmem : T ∈ tEval := List.mem_of_getLast? hT
  have hTle : ∀ te ∈ tEval, te ≤ T := by
    intro te hte
    have hne : tEval ≠ [] := List.ne_nil_of_mem hte
    rw [List.getLast?_eq_some_getLast hne] at hT
    cases hT
    obtain ⟨i, hi, rfl⟩ := List.getElem_of_mem hte
    rw [List.getLast_eq_getElem]
    rcases Nat.lt_or_ge i (tEval.length - 1) with h | h
    · exact (List.pairwise_iff_getElem.1 hsort i _ hi (by omega) h).le
    · have : i = tEval.length - 1 := by omega
      subst this; exact le_refl _
  have hnext : ∃ te l, tEval.drop s.ckpt = te :: l := by
    cases hd : tEval.drop s.ckpt with
    | nil =>
      exfalso
      have : T ∈ tEval.take s.ckpt := by
        have := List.take_append_drop s.ckpt tEval
        rw [hd, List.append_nil] at this
        rw [this]; exact hTmem
      exact absurd (hinv.past T this) (not_le.2 ht)
    | cons te l => exact ⟨te, l, rfl⟩
  obtain ⟨te, l, hd⟩ := hnext
  have htte : s.t < te := hinv.future te (by rw [hd]; simp)
  have hsd : (te :: l).Pairwise (· < ·) := hd ▸ hsort.sublist (List.drop_sublist _ _)
  have hdsub : ∀ a ∈ te :: l, a ∈ tEval := fun a ha => List.mem_of_mem_drop (hd ▸ ha)
  -- the attempted step size
  obtain ⟨dt, dtOld, flag, hck, hdt0, hle, hnx, hdtle, hflag, hint⟩ : ∃ dt dtOld flag,
      checkpointDt cfg.interp.isSome tEval s (clampDt T s) = (dt, dtOld, flag) ∧ 0 < dt ∧
      s.t + dt ≤ T ∧ (cfg.interp = none → ∀ te ∈ tEval.drop s.ckpt, s.t + dt ≤ te) ∧
      dt ≤ clampDt T s ∧
      (∃ dt', 0 < dt' ∧ (if flag = true then dtOld - dt else dt) = dt' ∧ 
        (dt' = dt ∧ dt = clampDt T s ∨ (cfg.interp = none ∧ dt' = clampDt T s - dt ∧ dt < clampDt T s ∧
          s.t + dt ∈ tEval))) ∧
      (cfg.interp.isSome → dt = clampDt T s) := by
    cases hi : cfg.interp with
    | none =>
      obtain ⟨dt, dtOld, flag, h1, h2, h3, h4, h5, h6⟩ := checkpointDt_none hinv.flag hc1 hd htte
      refine ⟨dt, dtOld, flag, h1, h2, ?_, ?_, h4, ?_, by simp⟩
      · exact h3.trans (hTle te (hdsub te (by simp)))
      · intro _ a ha
        rw [hd] at ha
        rcases List.mem_cons.1 ha with rfl | ha
        · exact h3
        · exact h3.trans ((List.pairwise_cons.1 hsd).1 a ha).le
      · cases flag with
        | true =>
          obtain ⟨h5a, h5b, h5c⟩ := h5 rfl
          refine ⟨dtOld - dt, by rw [h5a]; linarith, by simp, Or.inr ⟨rfl, by rw [h5a], h5b, ?_⟩⟩
          rw [h5c, add_sub_cancel]
          exact hdsub te (by simp)
        | false => exact ⟨dt, h2, by simp, Or.inl ⟨rfl, h6 rfl⟩⟩
    | some dense =>
      refine ⟨clampDt T s, s.dtOld, false, checkpointDt_some hinv.flag, hc1, hc2, by simp, le_refl _,
        ⟨clampDt T s, hc1, by simp, Or.inl ⟨rfl, rfl⟩⟩, fun _ => rfl⟩
  obtain ⟨dt', hdt'0, hdt'e, hdt'c⟩ := hflag
  -- the checkpoints passed
  obtain ⟨hp1, hp2⟩ := takeWhile_lt_append_dropWhile (tEval.drop s.ckpt) (s.t + dt) (hd ▸ hsd)
  have hpnone : cfg.interp = none → passed tEval s.ckpt (s.t + dt) = [] := by
    intro hi
    rw [passed, hd, List.takeWhile_cons, if_neg]
    simpa using hnx hi te (by rw [hd]; simp)
  set p := passed tEval s.ckpt (s.t + dt) with hp
  -- a checkpoint remains
  have hrem : ∃ te' l', tEval.drop (s.ckpt + p.length) = te' :: l' := by
    cases hd' : tEval.drop (s.ckpt + p.length) with
    | nil =>
      exfalso
      have hall : ∀ a ∈ tEval.drop s.ckpt, a < s.t + dt := by
        rw [← List.drop_drop] at hd'
        have hpre : p <+: tEval.drop s.ckpt := List.takeWhile_prefix _
        obtain ⟨r, hr⟩ := hpre
        have : (tEval.drop s.ckpt).drop p.length = r := by rw [← hr]; simp
        rw [this] at hd'
        rw [hd', List.append_nil] at hr
        rw [← hr]; exact hp1
      have hTd : T ∈ tEval.drop s.ckpt := by
        rcases List.mem_append.1 ((List.take_append_drop s.ckpt tEval).symm ▸ hTmem) with h | h
        · exact absurd (hinv.past T h) (not_le.2 ht)
        · exact h
      exact absurd (hall T hTd) (not_lt.2 hle)
    | cons te' l' => exact ⟨te', l', rfl⟩
  obtain ⟨te', l', hd'⟩ := hrem
  have hget : tEval[s.ckpt + p.length]? = some te' := by
    have := congrArg (fun l => l[0]?) hd'
    simpa using this
  have hp2' : ∀ a ∈ te' :: l', s.t + dt ≤ a := by
    intro a ha
    apply hp2
    rw [List.drop_drop]
    rw [passed] at hp
    rw [← hp, hd']; exact ha
  have hsd' : (te' :: l').Pairwise (· < ·) := hd' ▸ hsort.sublist (List.drop_sublist _ _)
  have htake : ∀ a ∈ tEval.take (s.ckpt + p.length), a < s.t + dt := by
    intro a ha
    rw [List.take_add, List.mem_append] at ha
    rcases ha with ha | ha
    · have := hinv.past a ha; linarith
    · have hpre : p <+: tEval.drop s.ckpt := List.takeWhile_prefix _
      rw [List.prefix_iff_eq_take] at hpre
      rw [← hpre] at ha
      exact hp1 a ha
  have hhit : (s.t + dt = te') ↔ s.t + dt ∈ tEval := by
    constructor
    · intro h
      rw [h]
      exact List.mem_of_mem_drop (hd' ▸ List.mem_cons_self : te' ∈ tEval.drop _)
    · intro h
      rcases List.mem_append.1 ((List.take_append_drop (s.ckpt + p.length) tEval).symm ▸ h) with h | h
      · exact absurd (htake _ h) (lt_irrefl _)
      · rw [hd'] at h
        rcases List.mem_cons.1 h with h | h
        · exact h
        · have h1 := (List.pairwise_cons.1 hsd').1 _ h
          have h2 := hp2' te' (by simp)
          exact absurd h1 (not_lt.2 h2)
  set o := out s.x s.t dt s.k1 with ho
  set er := cfg.errRatio s.x o.2.1 o.2.2.1 with her
  have hlen : s.ckpt + p.length < tEval.length := by
    have := congrArg List.length hd'
    simp at this
    omega
  have hstep : cfg.step s.x s.t dt s.k1 = .ok (.four o.1 o.2.1 o.2.2.1 o.2.2.2) := hout _ _ _ _
  -- run the iteration
  by_cases hacc : er ≤ 1
  · -- accepted
    obtain ⟨mids, hm1, hm2, hm3⟩ : ∃ mids : List V, mids.length = p.length ∧
        (∀ dense, cfg.interp = some dense → mids = p.map
          (dense s.t dt s.k1 o.1 s.x o.2.1 o.2.2.2)) ∧
        interpPhase cfg tEval s dt o.1 o.2.1 o.2.2.2 =
        (s.ckpt + p.length, s.evalTimes ++ p, s.sol ++ mids) := by
      cases hi : cfg.interp with
      | none =>
        refine ⟨[], by rw [hpnone hi]; rfl, by simp, ?_⟩
        simp [interpPhase, hi, hpnone hi]
      | some dense =>
        refine ⟨p.map (dense s.t dt s.k1 o.1 s.x o.2.1 o.2.2.2), by simp, ?_, ?_⟩
        · intro d hd; cases hd; rfl
        · simp only [interpPhase, hi]
          rw [interpCkpts_eq]
          rfl
    refine ⟨dt, {
      t := s.t + dt, dt := cfg.adapt dt' er, x := o.2.1, k1 := o.1,
      ckpt := s.ckpt + p.length + (if s.t + dt ∈ tEval then 1 else 0), ckptFlag := false,
      dtOld := dtOld,
      evalTimes := s.evalTimes ++ p ++
        (if s.t + dt ∈ tEval ∨ cfg.returnAllEval = true then [s.t + dt] else []),
      sol := s.sol ++ mids ++
        (if s.t + dt ∈ tEval ∨ cfg.returnAllEval = true then [o.2.1] else []) }, ?_, ?_, ?_, ?_⟩
    · simp only [adaptiveIter, hck, hstep, bind, Except.bind, StepOut.unpack4, pure, Except.pure,
        acceptStep, ← ho, ← her, if_pos hacc]
      rw [hm3]
      simp only [getItem, hget, pure, Except.pure]
      rw [hdt'e]
      simp only [hhit]
      congr 1
      congr 1
      · split_ifs <;> simp
      · split_ifs <;> simp
      · split_ifs <;> simp
    · exact ⟨hdt0, hle, hdtle.trans hc3, hnx, fun h => hget.trans (congrArg some (hhit.2 h).symm), fun _ => ⟨rfl, rfl, rfl, rfl, rfl, mids, hm1, hm2, rfl⟩,
        fun h => absurd hacc h⟩
    · refine ⟨rfl, hadapt _ _ hdt'0, ?_, hle, ?_, ?_, ?_⟩
      · have := hinv.ge0; simp only; linarith
      · simp only
        intro a ha
        split_ifs at ha with hh
        · rw [List.take_add, List.mem_append] at ha
          rcases ha with ha | ha
          · exact (htake a ha).le
          · rw [hd'] at ha
            simp at ha
            rw [ha]; exact (hhit.2 hh).ge
        · exact (htake a ha).le
      · simp only
        intro a ha
        split_ifs at ha with hh
        · rw [← List.drop_drop, hd'] at ha
          simp only [List.drop_succ_cons, List.drop_zero] at ha
          rw [hhit.2 hh]
          exact (List.pairwise_cons.1 hsd').1 a ha
        · rw [Nat.add_zero, hd'] at ha
          refine lt_of_le_of_ne (hp2' a ha) ?_
          intro heq
          apply hh
          rw [heq]
          exact List.mem_of_mem_drop (hd' ▸ ha : a ∈ tEval.drop _)
      · simp only
        split_ifs <;> omega
    · exact ⟨dt', hdt'0, rfl, hdt'c, hint⟩
  · refine ⟨dt, { s with dt := cfg.adapt dt' er, dtOld := dtOld, ckptFlag := false }, ?_, ?_, ?_, ?_⟩
    · simp only [adaptiveIter, hck, hstep, bind, Except.bind, StepOut.unpack4, pure, Except.pure,
        ← ho, ← her, if_neg hacc]
      rw [hdt'e]
    · exact ⟨hdt0, hle, hdtle.trans hc3, hnx, fun h => hget.trans (congrArg some (hhit.2 h).symm), fun h => absurd h hacc,
        fun _ => ⟨rfl, rfl, rfl, rfl, rfl, rfl⟩⟩
    · exact ⟨rfl, hadapt _ _ hdt'0, hinv.ge0, hinv.t_le, hinv.past, hinv.future, hinv.ckpt_le⟩
    · exact ⟨dt', hdt'0, rfl, hdt'c, hint⟩

/-- Induction over the iterations of the loop. -/
theorem adaptiveLoop_induct {cfg : AdaptiveCfg (Except PyErr) K V}
    {out : V → K → K → V → V × V × V × List V} (hout : FourStep cfg out)
    (hadapt : ∀ dt er, 0 < dt → 0 < cfg.adapt dt er)
    {tEval : List K} {t0 T : K} (hsort : tEval.Pairwise (· < ·)) (hT : tEval.getLast? = some T)
    (P : AState K V → Prop)
    (hP : ∀ s s' dt, P s → AInv tEval t0 T s → s.t < T → IterSpec cfg out tEval T s s' dt →
      AInv tEval t0 T s' → P s') (fuel : Nat) :
    ∀ s, AInv tEval t0 T s → P s → ∃ r, adaptiveLoop cfg tEval T fuel s = .ok r ∧
      ∀ s', r = some s' → P s' ∧ AInv tEval t0 T s' ∧ s'.t = T := by
  induction fuel with
  | zero => intro s _ _; exact ⟨none, rfl, by simp⟩
  | succ fuel ih =>
    intro s hinv hPs
    by_cases ht : s.t < T
    · obtain ⟨dt, s', h1, h2, h3, _⟩ := adaptiveIter_spec hout hadapt hsort hT hinv ht
      obtain ⟨r, hr, hr'⟩ := ih s' h3 (hP s s' dt hPs hinv ht h2 h3)
      refine ⟨r, ?_, hr'⟩
      rw [adaptiveLoop, if_pos ht, h1]
      exact hr
    · refine ⟨some s, ?_, ?_⟩
      · rw [adaptiveLoop, if_neg ht]; rfl
      · rintro s' hs'
        cases hs'
        exact ⟨hPs, hinv, le_antisymm hinv.t_le (not_lt.1 ht)⟩

theorem getLast?_cons_cons (a b : K) (l : List K) : (a :: b :: l).getLast? = (b :: l).getLast? := by
  simp [List.getLast?_cons]

/-- The invariant holds initially. -/
theorem adaptiveInit_inv {t0 t1 T dt : K} {rest : List K} (k1 x : V) (hdt : 0 < dt)
    (hsort : (t0 :: t1 :: rest).Pairwise (· < ·)) (hT : (t1 :: rest).getLast? = some T) :
    AInv (t1 :: rest) t0 T (adaptiveInit k1 x dt t0) := by
  have h := (List.pairwise_cons.1 hsort).1
  refine ⟨rfl, hdt, le_refl _, (h T (List.mem_of_getLast? hT)).le, by simp [adaptiveInit], ?_, ?_⟩
  · simpa [adaptiveInit] using h
  · simp [adaptiveInit]

/-- `_adaptive_odeint` on a strictly increasing grid, with an invariant `P` of the loop. -/
theorem adaptiveOdeint_run {cfg : AdaptiveCfg (Except PyErr) K V}
    {out : V → K → K → V → V × V × V × List V} (hout : FourStep cfg out)
    (hadapt : ∀ dt er, 0 < dt → 0 < cfg.adapt dt er) {t0 t1 dt : K} {rest : List K}
    (hsort : (t0 :: t1 :: rest).Pairwise (· < ·)) (hdt : 0 < dt) (k1 x : V)
    (P : AState K V → Prop) (hP0 : P (adaptiveInit k1 x dt t0))
    (hP : ∀ T s s' dt, (t1 :: rest).getLast? = some T → P s → AInv (t1 :: rest) t0 T s → s.t < T →
      IterSpec cfg out (t1 :: rest) T s s' dt → AInv (t1 :: rest) t0 T s' → P s') (fuel : Nat) :
    ∃ r, adaptiveOdeint cfg fuel k1 x dt (t0 :: t1 :: rest) = .ok r ∧
      ∀ ts xs, r = some (ts, xs) → ∃ s, s.evalTimes = ts ∧ s.sol = xs ∧ P s ∧
        (t1 :: rest).getLast? = some s.t ∧ s.ckpt = (t1 :: rest).length := by
  obtain ⟨T, hT⟩ : ∃ T, (t1 :: rest).getLast? = some T := ⟨_, List.getLast?_eq_some_getLast (by simp)⟩
  have hgT : (t0 :: t1 :: rest)[(t0 :: t1 :: rest).length - 1]? = some T := by
    rw [← List.getLast?_eq_getElem?, getLast?_cons_cons, hT]
  obtain ⟨r, hr, hr'⟩ := adaptiveLoop_induct hout hadapt (List.pairwise_cons.1 hsort).2 hT P
    (fun s s' dt => hP T s s' dt hT) fuel _ (adaptiveInit_inv k1 x hdt hsort hT) hP0
  refine ⟨r.map (fun s => (s.evalTimes, s.sol)), ?_, ?_⟩
  · simp only [adaptiveOdeint, List.drop_succ_cons, List.drop_zero]
    have g0 : (getItem (t0 :: t1 :: rest) 0 : Except PyErr K) = .ok t0 := rfl
    have gT : (getItem (t0 :: t1 :: rest) ((t0 :: t1 :: rest).length - 1) : Except PyErr K) = .ok T := by
      rw [getItem, hgT]; rfl
    rw [g0, gT]
    simp only [bind, Except.bind]
    rw [hr]
    rfl
  · intro ts xs h
    obtain ⟨s, rfl, h2⟩ := Option.map_eq_some_iff.1 h
    cases h2
    obtain ⟨h1, h2, h3⟩ := hr' s rfl
    refine ⟨s, rfl, rfl, h1, by rw [h3]; exact hT, ?_⟩
    refine le_antisymm h2.ckpt_le (not_lt.1 fun hlt => ?_)
    have hTm : T ∈ (t1 :: rest).drop s.ckpt := by
      have hne : (t1 :: rest).drop s.ckpt ≠ [] := by
        intro h0
        have := congrArg List.length h0
        simp only [List.length_drop, List.length_nil] at this
        omega
      have e := List.getLast?_drop (l := t1 :: rest) (i := s.ckpt)
      rw [if_neg (by omega), hT] at e
      exact List.mem_of_getLast? e
    have := h2.future T hTm
    rw [h3] at this
    exact lt_irrefl _ this

/-- Invariant on the recorded times. -/
structure TimesInv (cfg : AdaptiveCfg (Except PyErr) K V) (t0 : K) (tEval : List K) (x0 : V)
    (s : AState K V) : Prop where
  sorted : s.evalTimes.Pairwise (· < ·)
  le_t : ∀ a ∈ s.evalTimes, a ≤ s.t
  sub : ((t0 :: tEval).take (s.ckpt + 1)).Sublist s.evalTimes
  exact_times : cfg.returnAllEval = false → s.evalTimes = (t0 :: tEval).take (s.ckpt + 1)
  last : cfg.returnAllEval = true → s.evalTimes.getLast? = some s.t
  len : s.sol.length = s.evalTimes.length
  head : s.sol[0]? = some x0
  thead : s.evalTimes[0]? = some t0

theorem timesInv_step {cfg : AdaptiveCfg (Except PyErr) K V}
    {out : V → K → K → V → V × V × V × List V} {t0 T : K} {tEval : List K} {x0 : V}
    {s s' : AState K V} {dt : K} (hsort : tEval.Pairwise (· < ·)) (h : TimesInv cfg t0 tEval x0 s)
    (hinv : AInv tEval t0 T s) (hit : IterSpec cfg out tEval T s s' dt) :
    TimesInv cfg t0 tEval x0 s' := by
  by_cases hacc : cfg.errRatio s.x (out s.x s.t dt s.k1).2.1 (out s.x s.t dt s.k1).2.2.1 ≤ 1
  · obtain ⟨ht, _, _, hck, het, mids, hm1, _, hsol⟩ := hit.accepted hacc
    have hdt := hit.dt_pos
    set p := passed tEval s.ckpt (s.t + dt) with hp
    have hpre : p = (tEval.drop s.ckpt).take p.length :=
      List.prefix_iff_eq_take.1 (List.takeWhile_prefix _)
    have hpmem : ∀ a ∈ p, a ∈ tEval.drop s.ckpt := fun a ha =>
      (List.takeWhile_prefix _).subset ha
    have hplt : ∀ a ∈ p, a < s.t + dt :=
      (takeWhile_lt_append_dropWhile _ _ (hsort.sublist (List.drop_sublist _ _))).1
    have hpsort : p.Pairwise (· < ·) :=
      hsort.sublist ((List.takeWhile_sublist _).trans (List.drop_sublist _ _))
    have htake : (t0 :: tEval).take (s'.ckpt + 1) =
        (t0 :: tEval).take (s.ckpt + 1) ++ p ++ (if s.t + dt ∈ tEval then [s.t + dt] else []) := by
      have e : (t0 :: tEval).take (s.ckpt + 1) = t0 :: tEval.take s.ckpt := rfl
      have e' : (t0 :: tEval).take (s'.ckpt + 1) = t0 :: tEval.take s'.ckpt := rfl
      rw [e, e', hck]
      by_cases hh : s.t + dt ∈ tEval
      · rw [if_pos hh, if_pos hh, List.take_add, List.take_add, ← hpre]
        have hd1 : (tEval.drop (s.ckpt + p.length)).take 1 = [s.t + dt] := by
          have := hit.hit_next hh
          rw [← hp] at this
          obtain ⟨hl, hv⟩ := List.getElem?_eq_some_iff.1 this
          rw [List.drop_eq_getElem_cons hl, hv]; rfl
        rw [hd1]; simp
      · rw [if_neg hh, if_neg hh, Nat.add_zero, List.take_add, ← hpre]; simp
    have hnew : ∀ b ∈ (if s.t + dt ∈ tEval ∨ cfg.returnAllEval = true then [s.t + dt] else []),
        b = s.t + dt := by
      intro b hb
      split_ifs at hb with hc
      · simpa using hb
      · simp at hb
    refine ⟨?_, ?_, ?_, ?_, ?_, ?_, ?_, ?_⟩
    · rw [het, List.pairwise_append, List.pairwise_append]
      refine ⟨⟨h.sorted, hpsort, ?_⟩, ?_, ?_⟩
      · intro a ha b hb
        exact (h.le_t a ha).trans_lt (hinv.future b (hpmem b hb))
      · split_ifs <;> simp
      · intro a ha b hb
        rw [hnew b hb]
        rcases List.mem_append.1 ha with ha | ha
        · have := h.le_t a ha; linarith
        · exact hplt a ha
    · intro a ha
      rw [het] at ha
      rw [ht]
      rcases List.mem_append.1 ha with ha | ha
      · rcases List.mem_append.1 ha with ha | ha
        · have := h.le_t a ha; linarith
        · exact (hplt a ha).le
      · exact (hnew a ha).le
    · rw [htake, het]
      refine List.Sublist.append (List.Sublist.append h.sub (List.Sublist.refl _)) ?_
      by_cases hh : s.t + dt ∈ tEval <;> simp [hh]
    · intro hr
      rw [htake, het, h.exact_times hr]
      simp [hr]
    · intro hr
      rw [het, ht]
      simp [hr]
    · rw [het, hsol]
      simp only [List.length_append, hm1, h.len]
      congr 1
      split_ifs <;> rfl
    · rw [hsol, List.append_assoc]
      have : 0 < s.sol.length := by
        rcases List.getElem?_eq_some_iff.1 h.head with ⟨hl, _⟩; exact hl
      rw [List.getElem?_append_left this]; exact h.head
    · rw [het, List.append_assoc, List.getElem?_append_left
        (List.getElem?_eq_some_iff.1 h.thead).1]
      exact h.thead
  · obtain ⟨ht, _, _, hck, het, hsol⟩ := hit.rejected hacc
    exact ⟨het ▸ h.sorted, by rw [het, ht]; exact h.le_t, by rw [het, hck]; exact h.sub,
      by rw [het, hck]; exact h.exact_times, by rw [het, ht]; exact h.last,
      by rw [het, hsol]; exact h.len, by rw [hsol]; exact h.head,
      by rw [het]; exact h.thead⟩

theorem timesInv_init (cfg : AdaptiveCfg (Except PyErr) K V) (t0 : K) (tEval : List K) (x k1 : V)
    (dt : K) : TimesInv cfg t0 tEval x (adaptiveInit k1 x dt t0) :=
  ⟨by simp [adaptiveInit], by simp [adaptiveInit], by simp [adaptiveInit], by simp [adaptiveInit],
    by simp [adaptiveInit], rfl, rfl, rfl⟩

end Torchdyn
