import Verif.Spec.ClockEvents
import Verif.Model.StochasticHybrid
import Verif.Props.HybridTermination
import Verif.Props.AdaptiveAccuracy

/-!
Property C149: runs of `odeint_hybrid` with events triggered by a clock that is compared with random thresholds.
-/

set_option linter.unusedSectionVars false
set_option linter.unusedSimpArgs false

namespace Torchdyn

open Spec

variable {ι A S : Type} [Fintype ι] {solver : Solver (Except PyErr) ℝ (ι → ℝ) A} {args : A}

/-! ### The loop with attributes and the loop without -/

/-- Apart from the attributes, an iteration is one of the loop with the callbacks as they behave now. -/
theorem statefulIter_snd (cfg : HybridCfg (Except PyErr) ℝ (ι → ℝ)) (cbs : List (StatefulCallback S ℝ (ι → ℝ)))
    (tEval : List ℝ) (T : ℝ) (σ : S) (s : HState ℝ (ι → ℝ)) :
    (statefulIter cfg cbs tEval T (σ, s)).map Prod.snd =
      hybridIter { cfg with callbacks := freeze cbs σ } tEval T s := by
  simp only [statefulIter, hybridIter, bind, Except.bind]
  cases cfg.step s.x s.t (hybridDt tEval T s).1 s.k1 with
  | error e => rfl
  | ok o =>
    dsimp only
    cases (o.unpack4 : Except PyErr _) with
    | error e => rfl
    | ok o =>
      simp only
      split_ifs with h
      · simp only [statefulJump, hybridJump, bind, Except.bind]
        cases bisect { cfg with callbacks := freeze cbs σ } (hybridDt tEval T s).1 100
          { tInner := s.t, dtInner := (hybridDt tEval T s).1, xInner := s.x, k1 := s.k1,
            events := eventStates (freeze cbs σ) (s.t + (hybridDt tEval T s).1) o.2.1 } with
        | error e => rfl
        | ok b =>
          simp only
          cases (firstActive b.events : Except PyErr ℕ) with
          | error e => rfl
          | ok i =>
            simp only [getItem, freeze, List.getElem?_map]
            cases cbs[i]? <;> rfl
      · rfl

theorem statefulIter_error {cfg : HybridCfg (Except PyErr) ℝ (ι → ℝ)} {cbs : List (StatefulCallback S ℝ (ι → ℝ))}
    {tEval : List ℝ} {T : ℝ} {σ : S} {s : HState ℝ (ι → ℝ)} {e : PyErr}
    (h : hybridIter { cfg with callbacks := freeze cbs σ } tEval T s = .error e) :
    statefulIter cfg cbs tEval T (σ, s) = .error e := by
  have := statefulIter_snd cfg cbs tEval T σ s
  rw [h] at this
  cases h' : statefulIter cfg cbs tEval T (σ, s) with
  | error e' => rw [h'] at this; cases this; rfl
  | ok r => rw [h'] at this; cases this

/-- Without event the attributes do not change. -/
theorem statefulIter_quiet {cfg : HybridCfg (Except PyErr) ℝ (ι → ℝ)} {cbs : List (StatefulCallback S ℝ (ι → ℝ))}
    {tEval : List ℝ} {T : ℝ} {σ : S} {s s' : HState ℝ (ι → ℝ)} {k x' e st}
    (hst : cfg.step s.x s.t (hybridDt tEval T s).1 s.k1 = .ok (.four k x' e st))
    (hq : Quiet (freeze cbs σ) (s.t + (hybridDt tEval T s).1, x'))
    (h : hybridIter { cfg with callbacks := freeze cbs σ } tEval T s = .ok s') :
    statefulIter cfg cbs tEval T (σ, s) = .ok (σ, s') := by
  have h0 := (triggered_quiet (freeze cbs σ) (s.t + (hybridDt tEval T s).1) x').2 hq
  have e1 := statefulIter_snd cfg cbs tEval T σ s
  rw [h] at e1
  have e2 : statefulIter cfg cbs tEval T (σ, s) = .ok (σ, hybridFlow cfg s (hybridDt tEval T s).1
      (hybridDt tEval T s).2.1 (hybridDt tEval T s).2.2.1 (hybridDt tEval T s).2.2.2 k x' e) := by
    simp only [statefulIter, hst, bind, Except.bind, StepOut.unpack4, pure, Except.pure, h0, lt_irrefl, if_false]
  rw [e2] at e1 ⊢
  cases e1
  rfl

/-- A jump of a clock uses up the threshold. -/
theorem statefulIter_clock {cfg : HybridCfg (Except PyErr) ℝ (ι → ℝ)} {j : ι} {g : ℝ → (ι → ℝ) → (ι → ℝ)}
    {tEval : List ℝ} {T : ℝ} {σ : ℕ → ℝ} {s s' : HState ℝ (ι → ℝ)} {k x' e st}
    (hst : cfg.step s.x s.t (hybridDt tEval T s).1 s.k1 = .ok (.four k x' e st))
    (hq : ¬ Quiet (freeze [clockCallback j g] σ) (s.t + (hybridDt tEval T s).1, x'))
    (h : hybridIter { cfg with callbacks := freeze [clockCallback j g] σ } tEval T s = .ok s') :
    statefulIter cfg [clockCallback j g] tEval T (σ, s) = .ok (fun n => σ (n + 1), s') := by
  have h0 : 0 < triggeredEvents (eventStates (freeze [clockCallback j g] σ) (s.t + (hybridDt tEval T s).1) x') :=
    Nat.pos_of_ne_zero fun h => hq ((triggered_quiet _ _ _).1 h)
  have e1 := statefulIter_snd cfg [clockCallback j g] tEval T σ s
  rw [h] at e1
  have e2 : ∀ r, statefulIter cfg [clockCallback j g] tEval T (σ, s) = .ok r → r.1 = fun n => σ (n + 1) := by
    intro r hr
    simp only [statefulIter, hst, bind, Except.bind, StepOut.unpack4, pure, Except.pure, h0, if_true, statefulJump] at hr
    split at hr
    · cases hr
    · split at hr
      · cases hr
      · split at hr
        · cases hr
        · rename_i cb hcb
          cases hr
          unfold getItem at hcb
          split at hcb
          · rename_i a ha
            cases hcb
            obtain rfl : cb = clockCallback j g := by
              have := List.mem_of_getElem? ha
              simpa using this
            rfl
          · cases hcb
  cases h' : statefulIter cfg [clockCallback j g] tEval T (σ, s) with
  | error e' => rw [h'] at e1; cases e1
  | ok r =>
    rw [h'] at e1
    obtain ⟨r1, r2⟩ := r
    have := e2 _ h'
    simp only at this
    cases e1
    rw [this]

/-- A callback without attributes. -/
def plainCallback (cb : EventCallback ℝ (ι → ℝ)) : StatefulCallback Unit ℝ (ι → ℝ) :=
  { checkEvent := fun _ => cb.checkEvent, jumpMap := fun _ t x => ((), cb.jumpMap t x) }

theorem freeze_plain (cbs : List (EventCallback ℝ (ι → ℝ))) : freeze (cbs.map plainCallback) () = cbs := by
  simp [freeze, Function.comp_def, plainCallback]

theorem statefulLoop_plain (cfg : HybridCfg (Except PyErr) ℝ (ι → ℝ)) (cbs : List (EventCallback ℝ (ι → ℝ)))
    (tEval : List ℝ) (T : ℝ) (jn jSpan fuel : ℕ) : ∀ s,
    (statefulLoop cfg (cbs.map plainCallback) tEval T jn jSpan fuel ((), s)).map (Option.map Prod.snd) =
      hybridLoop { cfg with callbacks := cbs } tEval T jn jSpan fuel s := by
  induction fuel with
  | zero => intro s; rfl
  | succ fuel ih =>
    intro s
    rw [statefulLoop, hybridLoop]
    by_cases h : s.t < T ∧ jn < jSpan
    · rw [if_pos h, if_pos h]
      have e := statefulIter_snd cfg (cbs.map plainCallback) tEval T () s
      rw [freeze_plain] at e
      rw [← e]
      cases statefulIter cfg (cbs.map plainCallback) tEval T ((), s) with
      | error e => rfl
      | ok r => exact ih r.2
    · rw [if_neg h, if_neg h]
      rfl

/-! ### Clocks -/

/-- The entry `j` grows at the rate `r` along solver steps. -/
def ClockRate (solver : Solver (Except PyErr) ℝ (ι → ℝ) A) (args : A) (f : ℝ → (ι → ℝ) → (ι → ℝ)) (j : ι) (r : ℝ) : Prop :=
  ∀ p q, AnyStep solver args f p q → q.2 j = p.2 j + r * (q.1 - p.1)

theorem rkStagesT_length (g : ℝ → (ι → ℝ) → ι → ℝ) (x : ι → ℝ) (t h : ℝ) : ∀ (rows : List (ℝ × List ℝ)) (ks : List (ι → ℝ)),
    (rkStagesT g x t h rows ks).length = rows.length + ks.length := by
  intro rows
  induction rows with
  | nil => intro ks; simp [rkStagesT]
  | cons r rows ih =>
    intro ks
    rw [rkStagesT, ih]
    simp only [List.length_append, List.length_cons, List.length_nil]
    omega

theorem rkStagesT_entry {g : ℝ → (ι → ℝ) → ι → ℝ} {j : ι} {r : ℝ} (hg : ∀ t x, g t x j = r) (x : ι → ℝ) (t h : ℝ) :
    ∀ (rows : List (ℝ × List ℝ)) (ks : List (ι → ℝ)), (∀ k ∈ ks, k j = r) → ∀ k ∈ rkStagesT g x t h rows ks, k j = r := by
  intro rows
  induction rows with
  | nil => intro ks hks; exact hks
  | cons r rows ih =>
    intro ks hks
    rw [rkStagesT]
    refine ih _ fun k hk => ?_
    rcases List.mem_append.1 hk with h | h
    · exact hks k h
    · rw [List.mem_singleton.1 h]; exact hg _ _

theorem comb_entry {j : ι} {r : ℝ} : ∀ (b : List ℝ) (ks : List (ι → ℝ)), (∀ k ∈ ks, k j = r) → b.length ≤ ks.length →
    comb b ks j = b.sum * r := by
  intro b
  induction b with
  | nil => intro ks _ _; simp [comb]
  | cons a b ih =>
    intro ks hks hlen
    cases ks with
    | nil => simp at hlen
    | cons k ks =>
      simp only [List.length_cons] at hlen
      simp only [comb, Pi.add_apply, Pi.smul_apply, smul_eq_mul, List.sum_cons]
      rw [ih ks (fun k hk => hks k (List.mem_cons_of_mem _ hk)) (by omega), hks k (by simp)]
      ring

/-- A field with a constant entry: `dopri5` integrates it exactly. -/
theorem dopri5_clockRate (f : ℝ → (ι → ℝ) → (ι → ℝ)) (j : ι) (r : ℝ) (hf : ∀ t x, f t x j = r) (args : A) :
    ClockRate (dopri5Solver (Except PyErr) ℝ (ι → ℝ) A) args f j r := by
  rintro p q ⟨k, e, st, h⟩
  rw [dopri5_step_rk f p.2 p.1 (q.1 - p.1) h]
  have h1 := rkStagesT_entry hf p.2 p.1 (q.1 - p.1)
    ((0 :: (constructDopri5 ℝ).c).zip (butcherRows (constructDopri5 ℝ))) [] (by simp)
  rw [Pi.add_apply, Pi.smul_apply, smul_eq_mul, comb_entry _ _ h1]
  · have : (constructDopri5 ℝ).bsol.sum = 1 := by
      norm_num [constructDopri5, dopri5Bsol]
    rw [this]; ring
  · rw [rkStagesT_length]
    simp [constructDopri5, butcherRows, dopri5Bsol]

/-- `tsit5` integrates it with the rate `r` times the sum of its weights. -/
theorem tsit5_clockRate (f : ℝ → (ι → ℝ) → (ι → ℝ)) (j : ι) (r : ℝ) (hf : ∀ t x, f t x j = r) (args : A) :
    ClockRate (tsit5Solver (Except PyErr) ℝ (ι → ℝ) A) args f j ((constructTsit5 ℝ).bsol.sum * r) := by
  rintro p q ⟨k, e, st, h⟩
  rw [tsit5_step_rk f p.2 p.1 (q.1 - p.1) h]
  have h1 := rkStagesT_entry hf p.2 p.1 (q.1 - p.1)
    ((0 :: (constructTsit5 ℝ).c).zip (butcherRows (constructTsit5 ℝ))) [] (by simp)
  rw [Pi.add_apply, Pi.smul_apply, smul_eq_mul, comb_entry _ _ h1]
  · ring
  · rw [rkStagesT_length]
    simp [constructTsit5, butcherRows, tsit5Bsol]

theorem quiet_clock {j : ι} {g : ℝ → (ι → ℝ) → (ι → ℝ)} {σ : ℕ → ℝ} {p : Point ι} :
    Quiet (freeze [clockCallback j g] σ) p ↔ p.2 j < σ 0 := by
  simp [Quiet, freeze, clockCallback]

theorem clock_reach {f : ℝ → (ι → ℝ) → (ι → ℝ)} {j : ι} {r : ℝ} (hc : ClockRate solver args f j r) {p q : Point ι}
    (h : FwdReach solver args f p q) : q.2 j = p.2 j + r * (q.1 - p.1) := by
  induction h with
  | refl => ring
  | tail _ h ih => rw [hc _ _ h.2, ih]; ring

theorem clock_persistent {f : ℝ → (ι → ℝ) → (ι → ℝ)} {j : ι} {r : ℝ} (hr : 0 ≤ r) (hc : ClockRate solver args f j r)
    (g : ℝ → (ι → ℝ) → (ι → ℝ)) (σ : ℕ → ℝ) : Persistent solver args f (freeze [clockCallback j g] σ) := by
  intro p q q' h1 h2 h3 h4 h5
  rw [quiet_clock] at h4 h5
  rw [clock_reach hc h1] at h4
  rw [clock_reach hc h2] at h5
  have := mul_le_mul_of_nonneg_left h3 hr
  exact h4 (by linarith)

/-- Where the bisection stops. -/
theorem clock_located (hs : FsalSolver solver args) {f : ℝ → (ι → ℝ) → (ι → ℝ)} {j : ι} {r : ℝ} (hr : 0 < r)
    (hc : ClockRate solver args f j r) {g : ℝ → (ι → ℝ) → (ι → ℝ)} {σ : ℕ → ℝ} {tEval : List ℝ} {t0 T tol : ℝ}
    (hsort : tEval.Pairwise (· ≤ ·)) (hT : T - t0 ≤ 4096 * tol) {atol rtol : ℝ} {sel : Finset ι}
    {s : HState ℝ (ι → ℝ)} (hk : KOk f s.t s.x s.k1) (hD : DInv tEval t0 T s) {x' : ι → ℝ} {b : BState ℝ (ι → ℝ)}
    (hst : AnyStep solver args f (s.t, s.x) (s.t + (hybridDt tEval T s).1, x'))
    (hq0 : s.x j < σ 0)
    (hnq : ¬ Quiet (freeze [clockCallback j g] σ) (s.t + (hybridDt tEval T s).1, x'))
    (hbis : bisect (hybridCfg f solver args atol rtol sel (freeze [clockCallback j g] σ) tol) (hybridDt tEval T s).1 100
      (bisectStart s (hybridDt tEval T s).1
        (eventStates (freeze [clockCallback j g] σ) (s.t + (hybridDt tEval T s).1) x')) = .ok b) :
    FwdReach solver args f (s.t, s.x) (b.tInner, b.xInner) ∧ b.xInner j < σ 0 ∧ σ 0 ≤ b.xInner j + r * tol ∧
      σ 0 ≤ s.x j + r * (T - s.t) ∧ s.t ≤ b.tInner ∧ b.tInner ≤ s.t + (hybridDt tEval T s).1 ∧
      (∃ c, ¬ Quiet (freeze [clockCallback j g] σ) c ∧ b.events = eventStates (freeze [clockCallback j g] σ) c.1 c.2) := by
  have hpers := clock_persistent hr.le hc g σ
  obtain ⟨g1, g2, -⟩ := hybridDt_spec hsort hD
  have hDk : (hybridDt tEval T s).1 ≤ 2 ^ 12 * tol := by
    have := hD.ge
    norm_num
    linarith
  have hsingle : FwdReach solver args f (s.t, s.x) (s.t + (hybridDt tEval T s).1, x') :=
    Relation.ReflTransGen.single ⟨by simp only; linarith, hst⟩
  obtain ⟨b', hb1, hb2, c, hc1, hc2, hc3, hc4, hc5⟩ := bisect_located (atol := atol) (rtol := rtol) (sel := sel)
    hs hpers (s.t, s.x) g1 hDk 100
    (bisectStart s (hybridDt tEval T s).1
      (eventStates (freeze [clockCallback j g] σ) (s.t + (hybridDt tEval T s).1) x')) 0 0 (by decide)
    (by simp [bisectStart]) hk Relation.ReflTransGen.refl
    ⟨_, hsingle, hnq, by simp [bisectStart]⟩
    (Or.inr ⟨_, hst, hnq, by simp [bisectStart], rfl⟩)
  obtain rfl : b = b' := by
    have := hbis.symm.trans hb1
    cases this
    rfl
  obtain ⟨w1, w2⟩ := bisect_within hs hpers (s.t, s.x) (s.t + (hybridDt tEval T s).1, x') hsingle hnq g1 100
    (bisectStart s (hybridDt tEval T s).1
      (eventStates (freeze [clockCallback j g] σ) (s.t + (hybridDt tEval T s).1) x'))
    hk g1 (le_refl _) (by simp only [bisectStart]; linarith) Relation.ReflTransGen.refl b hbis
  refine ⟨hb2.fwd, ?_, ?_, ?_, w1, w2, c, hc2, hc5⟩
  · rcases Relation.ReflTransGen.cases_tail hb2 with h | ⟨_, _, -, -, h⟩
    · have h' := congrArg Prod.snd h
      simp only at h'
      rw [h']
      exact hq0
    · exact quiet_clock.1 h
  · rw [quiet_clock, not_lt, hc _ _ hc1] at hc2
    have := mul_le_mul_of_nonneg_left (show c.1 - b.tInner ≤ tol by linarith) hr.le
    simp only at hc2
    linarith
  · rw [quiet_clock, not_lt, hc _ _ hst] at hnq
    have := mul_le_mul_of_nonneg_left (show s.t + (hybridDt tEval T s).1 - s.t ≤ T - s.t by linarith) hr.le
    simp only at hnq
    linarith

theorem clock_first {j : ι} {g : ℝ → (ι → ℝ) → (ι → ℝ)} {σ : ℕ → ℝ} {c : Point ι} {cb : EventCallback ℝ (ι → ℝ)}
    (h : FirstActive (freeze [clockCallback j g] σ) c cb) : cb.jumpMap = g := by
  obtain ⟨i, hi, -⟩ := h
  have := List.mem_of_getElem? hi
  simp only [freeze, List.map_cons, List.map_nil, List.mem_singleton] at this
  rw [this]
  rfl

/-- Invariant of the main loop. -/
structure ClockRunInv (solver : Solver (Except PyErr) ℝ (ι → ℝ) A) (args : A) (f : ℝ → (ι → ℝ) → (ι → ℝ)) (sel : Finset ι)
    (atol rtol tol : ℝ) (j : ι) (g : ℝ → (ι → ℝ) → (ι → ℝ)) (r : ℝ) (ω : ℕ → ℝ) (tEval : List ℝ) (t0 T : ℝ) (x0 : ι → ℝ)
    (st : (ℕ → ℝ) × HState ℝ (ι → ℝ)) : Prop where
  k1 : KOk f st.2.t st.2.x st.2.k1
  inv : DInv tEval t0 T st.2
  len : st.2.sol.length = st.2.evalTimes.length
  run : ∃ J last, ClockRun solver args f sel atol rtol tol j g r ω t0 T x0 (houts st.2) (st.2.t, st.2.x) J last ∧
    st.1 = (fun n => ω (n + J.length)) ∧ st.2.x j = r * (st.2.t - last) ∧ st.2.x j < ω J.length

theorem clockRunInv_step (hs : FsalSolver solver args) {f : ℝ → (ι → ℝ) → (ι → ℝ)} {sel : Finset ι} {atol rtol tol : ℝ}
    {j : ι} {r : ℝ} (hr : 0 < r) (hc : ClockRate solver args f j r) {g : ℝ → (ι → ℝ) → (ι → ℝ)} (hg : ∀ t x, g t x j = 0)
    {ω : ℕ → ℝ} (hω : ∀ n, 0 < ω n) {tEval : List ℝ} {t0 T : ℝ} (hsort : tEval.Pairwise (· ≤ ·))
    (hT : T - t0 ≤ 4096 * tol) {x0 : ι → ℝ} {st : (ℕ → ℝ) × HState ℝ (ι → ℝ)}
    (h : ClockRunInv solver args f sel atol rtol tol j g r ω tEval t0 T x0 st) :
    ∃ st', statefulIter (hybridCfg f solver args atol rtol sel [] tol) [clockCallback j g] tEval T st = .ok st' ∧
      ClockRunInv solver args f sel atol rtol tol j g r ω tEval t0 T x0 st' := by
  obtain ⟨σ, s⟩ := st
  obtain ⟨hk, hD, hlen, J, last, hrun, hσ, hx, hx'⟩ := h
  simp only at hk hD hlen hrun hσ hx hx'
  obtain ⟨g1, -⟩ := hybridDt_spec hsort hD
  have hσ0 : σ 0 = ω J.length := by rw [hσ]; simp
  obtain ⟨k0, y, e0, st0, q1, q2, q3⟩ := step_kok (atol := atol) (rtol := rtol) (sel := sel) (cbs := [])
    (eventTol := tol) (dt := (hybridDt tEval T s).1) hs hk
  obtain ⟨k', x', e, st', h1, h2, hcase⟩ := hybridIter_cases (sel := sel) (atol := atol) (rtol := rtol)
    (eventTol := tol) (cbs := freeze [clockCallback j g] σ) hs tEval T s hk
  have hst : AnyStep solver args f (s.t, s.x) (s.t + (hybridDt tEval T s).1, x') :=
    ⟨k', e, st', by simp only [add_sub_cancel_left]; exact h1⟩
  have q1' : (hybridCfg f solver args atol rtol sel [] tol).step s.x s.t (hybridDt tEval T s).1 s.k1 =
      .ok (.four k' x' e st') := by
    have := q2.symm.trans h1
    rw [q1]; cases this; rfl
  rcases hcase with ⟨hq, hit⟩ | ⟨hnq, b, hb, hbis, hcase⟩
  · refine ⟨(σ, _), statefulIter_quiet q1' hq hit, ?_⟩
    have hqx := quiet_clock.1 hq
    have hcl := hc _ _ hst
    simp only at hqx hcl
    refine ⟨?_, dinv_flow hs hsort hD f atol rtol sel (freeze [clockCallback j g] σ) tol k' x' e, ?_, ?_⟩
    · simp only [hybridFlow]
      split_ifs <;> first | exact Or.inr (by rw [h2]) | exact hk
    · simp only [hybridFlow]
      split_ifs <;> simp [hlen]
    · refine ⟨J, last, ?_⟩
      simp only [hybridFlow]
      by_cases hacc : errorRatio sel atol rtol s.x x' e ≤ 1
      · rw [if_pos (show (hybridCfg f solver args atol rtol sel (freeze [clockCallback j g] σ) tol).errRatio s.x x' e ≤ 1
          from hacc)]
        have e1 : x' j = r * (s.t + (hybridDt tEval T s).1 - last) := by rw [hcl, hx]; ring
        have e2 : x' j < ω J.length := by rw [← hσ0]; exact hqx
        refine ⟨?_, hσ, e1, e2⟩
        have hout : (s.evalTimes ++ [s.t + (hybridDt tEval T s).1]).zip (s.sol ++ [x']) =
            houts s ++ [(s.t + (hybridDt tEval T s).1, x')] := by
          rw [List.zip_append hlen.symm]; rfl
        simp only [houts, hout]
        refine .flow hrun (by simp only; linarith) ⟨k', e, st', ?_, ?_⟩ e1 e2
        · simp only [add_sub_cancel_left]; exact h1
        · rw [← errorRatio_eq]; exact hacc
      · rw [if_neg (show ¬ (hybridCfg f solver args atol rtol sel (freeze [clockCallback j g] σ) tol).errRatio s.x x' e ≤ 1
          from hacc)]
        exact ⟨hrun, hσ, hx, hx'⟩
  · obtain ⟨l1, l2, l3, l4, w1, w2, c, l5, l6⟩ := clock_located hs hr hc hsort hT hk hD hst (by rw [hσ0]; exact hx') hnq hbis
    have hcl := clock_reach hc l1
    simp only at hcl
    rcases hcase with ⟨hall, -⟩ | ⟨c', cb, hc1', hc2', hev, hit⟩
    · exfalso
      apply l5
      rw [l6] at hall
      exact (triggered_quiet _ c.1 c.2).1 ((triggeredEvents_eq_zero _).2 hall)
    · refine ⟨(fun n => σ (n + 1), _), statefulIter_clock q1' hnq hit, Or.inl rfl, dinv_jump hsort hD b cb w1 w2,
        by simp [afterJump, hlen], J ++ [b.tInner], b.tInner, ?_, ?_, ?_, ?_⟩
      · have hout : (s.evalTimes ++ [b.tInner] ++ [b.tInner]).zip (s.sol ++ [b.xInner] ++ [g b.tInner b.xInner]) =
            houts s ++ [(b.tInner, b.xInner), (b.tInner, g b.tInner b.xInner)] := by
          rw [List.append_assoc, List.append_assoc, List.zip_append hlen.symm]; rfl
        simp only [houts, afterJump, clock_first hc2', hout]
        refine ClockRun.jump (b := (b.tInner, b.xInner)) hrun l1 ?_ ?_ ?_ ?_
        · simp only; rw [hcl, hx]; ring
        · simp only; rw [← hσ0]; exact l2
        · simp only
          rw [← hσ0]
          have e1 : r * (b.tInner + tol - last) = b.xInner j + r * tol := by rw [hcl, hx]; ring
          rw [e1]; exact l3
        · rw [← hσ0]
          have e1 : r * (T - last) = s.x j + r * (T - s.t) := by rw [hx]; ring
          rw [e1]; exact l4
      · simp only [hσ]
        funext n
        rw [List.length_append, List.length_singleton]
        congr 1
        omega
      · simp [afterJump, clock_first hc2', hg]
      · simp only [afterJump, clock_first hc2', hg]
        exact hω _

/-! ### Calls -/

/-- A call that starts where nothing is active is a run of the main loop. -/
theorem odeintHybridStateful_loop (f : ℝ → (ι → ℝ) → (ι → ℝ)) (x : ι → ℝ) (t0 T : ℝ) (tEval : List ℝ)
    (hT : (t0 :: tEval).getLast? = some T) (solver : Solver (Except PyErr) ℝ (ι → ℝ) A)
    (cbs : List (StatefulCallback S ℝ (ι → ℝ))) (σ : S) (hq : Quiet (freeze cbs σ) (t0, x)) (atol rtol tol : ℝ)
    (jumpFirst : Bool) (sel : Finset ι) (args : A) :
    ∃ dt, 0 < dt ∧ ∀ fuel jSpan, odeintHybridStateful fuel (pureField f) x (t0 :: tEval) jSpan solver cbs σ atol rtol tol
      jumpFirst sel args =
        (statefulLoop (hybridCfg f solver args atol rtol sel [] tol) cbs tEval T 0 jSpan fuel
          (σ, hybridInit t0 x (f t0 x) dt)).map (Option.map (fun st => (st.1, st.2.evalTimes, st.2.sol))) := by
  obtain ⟨dt, hdt, hdt'⟩ := initStep_pos f (f t0 x) x t0 solver.order atol rtol
  refine ⟨dt, hdt, fun fuel jSpan => ?_⟩
  have hgT : (t0 :: tEval)[(t0 :: tEval).length - 1]? = some T := by
    rw [← List.getLast?_eq_getElem?, hT]
  have g0 : (getItem (t0 :: tEval) 0 : Except PyErr ℝ) = .ok t0 := rfl
  have gT : (getItem (t0 :: tEval) ((t0 :: tEval).length - 1) : Except PyErr ℝ) = .ok T := by
    rw [getItem, hgT]; rfl
  have hj : (statefulInitialJump cbs jumpFirst σ t0 x : Except PyErr _) = .ok (σ, x, 0) := by
    have h0 := (triggered_quiet (freeze cbs σ) t0 x).2 hq
    unfold statefulInitialJump
    cases jumpFirst
    · rfl
    · simp only [if_true, h0, lt_irrefl, if_false]; rfl
  have hk : (pureField f t0 x : Except PyErr _) = .ok (f t0 x) := rfl
  simp only [odeintHybridStateful, g0, gT, hj, bind, Except.bind, hk, hdt', List.drop_succ_cons, List.drop_zero]
  simp only [hybridCfg, hybridInit]
  generalize statefulLoop (m := Except PyErr) _ cbs tEval T 0 jSpan fuel _ = R
  cases R <;> rfl

/-- **C149.** Integration with a clock callback, for a solver that integrates the clock at the rate `r > 0`, positive thresholds
`ω`, a jump that restarts the clock, and a span of at most 4096 tolerances: nothing raises, and the outputs of every finished call
form a `ClockRun`. Between jumps the recorded points are solver steps within the tolerances at which the clock, which shows
`r` times the time since the last jump, is below the threshold; each jump happens before the threshold is reached and at most
`event_tol` earlier; each jump uses up one threshold, and at `t_span[-1]` the next one has not been reached. -/
theorem C149_clock_run (hs : FsalSolver solver args) (f : ℝ → (ι → ℝ) → (ι → ℝ)) (j : ι) (r : ℝ) (hr : 0 < r)
    (hc : ClockRate solver args f j r) (g : ℝ → (ι → ℝ) → (ι → ℝ)) (hg : ∀ t x, g t x j = 0) (ω : ℕ → ℝ)
    (hω : ∀ n, 0 < ω n) (x : ι → ℝ) (hx : x j = 0) (t0 T : ℝ) (tEval : List ℝ)
    (hsort : (t0 :: tEval).Pairwise (· ≤ ·)) (hT : (t0 :: tEval).getLast? = some T) (jSpan : ℕ) (atol rtol tol : ℝ)
    (htol : T - t0 ≤ 4096 * tol) (jumpFirst : Bool) (sel : Finset ι) (fuel : ℕ) :
    ∃ res, odeintHybridStateful fuel (pureField f) x (t0 :: tEval) jSpan solver [clockCallback j g] ω atol rtol tol
        jumpFirst sel args = .ok res ∧
      ∀ σ ts xs, res = some (σ, ts, xs) → xs.length = ts.length ∧
        ∃ p J last, ClockRun solver args f sel atol rtol tol j g r ω t0 T x (ts.zip xs) p J last ∧
          σ = (fun n => ω (n + J.length)) ∧ (0 < jSpan → p.1 = T ∧ r * (T - last) < ω J.length) := by
  obtain ⟨dt, hdt, e⟩ := odeintHybridStateful_loop f x t0 T tEval hT solver [clockCallback j g] ω
    (quiet_clock.2 (by simp only [hx]; exact hω 0)) atol rtol tol jumpFirst sel args
  have hsort' := (List.pairwise_cons.1 hsort).2
  have hinit := hgood_init (f := f) (x0 := x) hdt hsort hT
  have key : ∀ fuel st, ClockRunInv solver args f sel atol rtol tol j g r ω tEval t0 T x st →
      ∃ res, statefulLoop (hybridCfg f solver args atol rtol sel [] tol) [clockCallback j g] tEval T 0 jSpan fuel st =
        .ok res ∧ ∀ st', res = some st' → ClockRunInv solver args f sel atol rtol tol j g r ω tEval t0 T x st' ∧
          ¬ (st'.2.t < T ∧ 0 < jSpan) := by
    intro fuel
    induction fuel with
    | zero => intro st _; exact ⟨none, rfl, by simp⟩
    | succ fuel ih =>
      intro st hst
      by_cases hcond : st.2.t < T ∧ 0 < jSpan
      · obtain ⟨st', g1, g2⟩ := clockRunInv_step hs hr hc hg hω hsort' htol hst
        obtain ⟨res, g3, g4⟩ := ih st' g2
        refine ⟨res, ?_, g4⟩
        rw [statefulLoop, if_pos hcond, g1]
        exact g3
      · refine ⟨some st, by rw [statefulLoop, if_neg hcond]; rfl, ?_⟩
        intro st' h
        cases h
        exact ⟨hst, hcond⟩
  obtain ⟨res, h1, h2⟩ := key fuel (ω, hybridInit t0 x (f t0 x) dt)
    ⟨hinit.k1, hinit.inv, rfl, [], t0, .start, by simp, by simp [hybridInit, hx], by simpa [hybridInit, hx] using hω 0⟩
  refine ⟨res.map (fun st => (st.1, st.2.evalTimes, st.2.sol)), by rw [e, h1]; rfl, ?_⟩
  intro σ ts xs hres
  cases res with
  | none => cases hres
  | some st =>
    cases hres
    obtain ⟨⟨hk, hD, hlen, J, last, q1, q2, q3, q4⟩, q5⟩ := h2 st rfl
    refine ⟨hlen, _, J, last, q1, q2, fun hj => ?_⟩
    have hTt : st.2.t = T := le_antisymm hD.le (not_lt.1 fun h => q5 ⟨h, hj⟩)
    refine ⟨hTt, ?_⟩
    rw [hTt] at q3
    rw [← q3]
    exact q4

theorem statefulLoop_shift (cfg : HybridCfg (Except PyErr) ℝ (ι → ℝ)) (cbs : List (StatefulCallback S ℝ (ι → ℝ)))
    (tEval : List ℝ) (T : ℝ) (jn jSpan fuel : ℕ) : ∀ st,
    statefulLoop cfg cbs tEval T (jn + 1) (jSpan + 1) fuel st = statefulLoop cfg cbs tEval T jn jSpan fuel st := by
  induction fuel with
  | zero => intro st; rfl
  | succ fuel ih =>
    intro st
    rw [statefulLoop, statefulLoop]
    simp only [ih, Nat.add_lt_add_iff_right]

/-- **C149.** With `priority='jump'` and a threshold that the clock has already reached, the call starts with a jump, which uses up
one threshold and one of the `j_span` jumps: it is the call from the state after the jump with the remaining thresholds. -/
theorem C149_initial (fuel : ℕ) (f : ℝ → (ι → ℝ) → Except PyErr (ι → ℝ)) (j : ι) (g : ℝ → (ι → ℝ) → (ι → ℝ)) (ω : ℕ → ℝ)
    (x : ι → ℝ) (hx : ω 0 ≤ x j) (t0 : ℝ) (tEval : List ℝ) (jSpan : ℕ) (solver : Solver (Except PyErr) ℝ (ι → ℝ) A)
    (atol rtol tol : ℝ) (sel : Finset ι) (args : A) :
    odeintHybridStateful fuel f x (t0 :: tEval) (jSpan + 1) solver [clockCallback j g] ω atol rtol tol true sel args =
      odeintHybridStateful fuel f (g t0 x) (t0 :: tEval) jSpan solver [clockCallback j g] (fun n => ω (n + 1)) atol rtol tol
        false sel args := by
  have h1 : (statefulInitialJump [clockCallback j g] true ω t0 x : Except PyErr _) =
      .ok (fun n => ω (n + 1), g t0 x, 1) := by
    have : eventStates (freeze [clockCallback j g] ω) t0 x = [true] := by
      simp [eventStates, freeze, clockCallback, hx]
    simp only [statefulInitialJump, this, if_true]
    rfl
  have h2 : (statefulInitialJump [clockCallback j g] false (fun n => ω (n + 1)) t0 (g t0 x) : Except PyErr _) =
      .ok (fun n => ω (n + 1), g t0 x, 0) := rfl
  have g0 : (getItem (t0 :: tEval) 0 : Except PyErr ℝ) = .ok t0 := rfl
  simp only [odeintHybridStateful, g0, h1, h2, bind, Except.bind]
  have e := fun cfg T fuel st => statefulLoop_shift (ι := ι) cfg [clockCallback j g] ((t0 :: tEval).drop 1) T 0 jSpan fuel st
  simp only [Nat.zero_add] at e
  simp only [e]

theorem getElem?_snoc {X : Type} (l : List X) (a : X) (k : ℕ) : (l ++ [a])[k]? =
    if k < l.length then l[k]? else if k = l.length then some a else none := by
  split_ifs with h1 h2
  · exact List.getElem?_append_left h1
  · subst h2; simp
  · rw [List.getElem?_eq_none_iff]; simp; omega

/-- **C149.** The times of the jumps of a `ClockRun`: holding time number `k` (from the previous jump, or from `t0`, to jump
number `k`) is shorter than `ω k / r`, by at most `tol`; the threshold would have been reached within the time span. -/
theorem C149_holding_times {f : ℝ → (ι → ℝ) → (ι → ℝ)} {sel : Finset ι} {atol rtol tol : ℝ} {j : ι}
    {g : ℝ → (ι → ℝ) → (ι → ℝ)} {r : ℝ} {ω : ℕ → ℝ} {t0 T : ℝ} {x : ι → ℝ}
    {l : List (Point ι)} {p : Point ι} {J : List ℝ} {last : ℝ}
    (h : ClockRun solver args f sel atol rtol tol j g r ω t0 T x l p J last) :
    HoldingTimes r tol t0 ω J ∧ (t0 :: J).getLast? = some last ∧ last ≤ p.1 ∧
      ∀ (k : ℕ) (prev : ℝ), k < J.length → (t0 :: J)[k]? = some prev → ω k ≤ r * (T - prev) := by
  induction h with
  | start => exact ⟨fun k prev τ _ h => by simp at h, rfl, le_refl _, fun k prev h => by simp at h⟩
  | flow _ h1 _ _ _ ih => exact ⟨ih.1, ih.2.1, ih.2.2.1.trans h1, ih.2.2.2⟩
  | @jump l p b J last _ h1 h2 h3 h4 h5 ih =>
    obtain ⟨i1, i2, i3, i4⟩ := ih
    have hle : last ≤ b.1 := i3.trans (fwdReach_le h1)
    have hlast : (t0 :: J)[J.length]? = some last := by
      rw [← i2, List.getLast?_eq_getElem?]; simp
    refine ⟨?_, List.getLast?_concat (l := t0 :: J), le_refl _, ?_⟩
    · intro k prev τ hprev hτ
      rw [getElem?_snoc] at hτ
      rw [← List.cons_append, getElem?_snoc] at hprev
      split_ifs at hτ with c1 c2
      · rw [if_pos (by simp; omega)] at hprev
        exact i1 k prev τ hprev hτ
      · subst c2
        rw [if_pos (by simp), hlast] at hprev
        cases hprev
        cases hτ
        rw [h2] at h3
        exact ⟨hle, h3, h4⟩
    · intro k prev hk hprev
      rw [← List.cons_append, getElem?_snoc] at hprev
      simp only [List.length_append, List.length_singleton] at hk
      rw [if_pos (by simp; omega)] at hprev
      by_cases c : k < J.length
      · exact i4 k prev c hprev
      · obtain rfl : k = J.length := by omega
        rw [hlast] at hprev
        cases hprev
        exact h5

/-- **C149.** The jumps and the arrival times `t0 + (ω 0 + … + ω k) / r` of the process that is simulated: jump number `k` is
early, by at most `k + 1` tolerances. -/
theorem C149_arrivals {r tol t0 : ℝ} (hr : 0 < r) {ω : ℕ → ℝ} {J : List ℝ} (h : HoldingTimes r tol t0 ω J) :
    ∀ (k : ℕ) (τ : ℝ), J[k]? = some τ →
      τ ≤ t0 + (∑ i ∈ Finset.range (k + 1), ω i) / r ∧
        t0 + (∑ i ∈ Finset.range (k + 1), ω i) / r ≤ τ + (k + 1) * tol := by
  have hdiv : ∀ {a b c : ℝ}, r * (a - b) < c → a ≤ b + c / r := by
    intro a b c h
    have : a - b ≤ c / r := by rw [le_div_iff₀ hr]; linarith
    linarith
  have hdiv' : ∀ {a b c : ℝ}, c ≤ r * (a + tol - b) → b + c / r ≤ a + tol := by
    intro a b c h
    have : c / r ≤ a + tol - b := by rw [div_le_iff₀ hr]; linarith
    linarith
  intro k
  induction k with
  | zero =>
    intro τ hτ
    obtain ⟨-, h2, h3⟩ := h 0 t0 τ rfl hτ
    simp only [zero_add, Finset.sum_range_one, Nat.cast_zero, one_mul]
    exact ⟨hdiv h2, hdiv' h3⟩
  | succ k ih =>
    intro τ hτ
    have hk : k < J.length := by
      have := (List.getElem?_eq_some_iff.1 hτ).1
      omega
    obtain ⟨-, h2, h3⟩ := h (k + 1) J[k] τ (by simp [hk]) hτ
    obtain ⟨i1, i2⟩ := ih J[k] (List.getElem?_eq_getElem hk)
    have h2' := hdiv h2
    have h3' := hdiv' h3
    rw [Finset.sum_range_succ, add_div]
    push_cast
    constructor <;> linarith

/-! ### Termination -/

/-- The loop returns or raises after finitely many iterations. -/
def StatefulEnds (cfg : HybridCfg (Except PyErr) ℝ (ι → ℝ)) (cbs : List (StatefulCallback S ℝ (ι → ℝ))) (tEval : List ℝ)
    (T : ℝ) (jn jSpan : ℕ) (st : S × HState ℝ (ι → ℝ)) : Prop :=
  ∃ fuel, statefulLoop cfg cbs tEval T jn jSpan fuel st ≠ .ok none

theorem statefulEnds_stop {cfg : HybridCfg (Except PyErr) ℝ (ι → ℝ)} {cbs : List (StatefulCallback S ℝ (ι → ℝ))}
    {tEval : List ℝ} {T : ℝ} {jn jSpan : ℕ} {st : S × HState ℝ (ι → ℝ)} (h : ¬ (st.2.t < T ∧ jn < jSpan)) :
    StatefulEnds cfg cbs tEval T jn jSpan st :=
  ⟨1, by rw [statefulLoop, if_neg h]; intro h; cases h⟩

theorem statefulEnds_error {cfg : HybridCfg (Except PyErr) ℝ (ι → ℝ)} {cbs : List (StatefulCallback S ℝ (ι → ℝ))}
    {tEval : List ℝ} {T : ℝ} {jn jSpan : ℕ} {st : S × HState ℝ (ι → ℝ)} {e : PyErr}
    (h : statefulIter cfg cbs tEval T st = .error e) : StatefulEnds cfg cbs tEval T jn jSpan st := by
  by_cases hc : st.2.t < T ∧ jn < jSpan
  · exact ⟨1, by rw [statefulLoop, if_pos hc, h]; intro h; cases h⟩
  · exact statefulEnds_stop hc

theorem statefulEnds_next {cfg : HybridCfg (Except PyErr) ℝ (ι → ℝ)} {cbs : List (StatefulCallback S ℝ (ι → ℝ))}
    {tEval : List ℝ} {T : ℝ} {jn jSpan : ℕ} {st st' : S × HState ℝ (ι → ℝ)}
    (h : statefulIter cfg cbs tEval T st = .ok st') (h' : StatefulEnds cfg cbs tEval T jn jSpan st') :
    StatefulEnds cfg cbs tEval T jn jSpan st := by
  by_cases hc : st.2.t < T ∧ jn < jSpan
  · obtain ⟨fuel, hf⟩ := h'
    exact ⟨fuel + 1, by rw [statefulLoop, if_pos hc, h]; exact hf⟩
  · exact statefulEnds_stop hc

/-- **C149.** For a bounded field, the call returns as soon as the holding times, shortened by `event_tol`, add up to more than
the time span. -/
theorem C149_returns (hs : FsalSolver solver args) (E : ℝ) (hE : ErrorLinear solver args E)
    (hord : 1 ≤ solver.order) (h1 : solver.safety = 9 / 10) (h2 : solver.minFactor = 1 / 5) (h3 : solver.maxFactor = 10)
    (f : ℝ → (ι → ℝ) → (ι → ℝ)) (M : ℝ) (hM : ∀ t x i, |f t x i| ≤ M) (j : ι) (r : ℝ) (hr : 0 < r)
    (hc : ClockRate solver args f j r) (g : ℝ → (ι → ℝ) → (ι → ℝ)) (hg : ∀ t x, g t x j = 0) (ω : ℕ → ℝ)
    (hω : ∀ n, 0 < ω n) (x : ι → ℝ) (hx : x j = 0) (t0 T : ℝ) (tEval : List ℝ)
    (hsort : (t0 :: tEval).Pairwise (· ≤ ·)) (hT : (t0 :: tEval).getLast? = some T) (jSpan : ℕ) (atol rtol tol : ℝ)
    (ha : 0 < atol) (hrt : 0 ≤ rtol)
    (htol : T - t0 ≤ 4096 * tol) (N : ℕ) (hN : T - t0 < ∑ k ∈ Finset.range N, max 0 (ω k / r - tol)) (jumpFirst : Bool)
    (sel : Finset ι) :
    ∃ fuel σ ts xs, odeintHybridStateful fuel (pureField f) x (t0 :: tEval) jSpan solver [clockCallback j g] ω atol rtol tol
        jumpFirst sel args = .ok (some (σ, ts, xs)) := by
  obtain ⟨dt, hdt, e⟩ := odeintHybridStateful_loop f x t0 T tEval hT solver [clockCallback j g] ω
    (quiet_clock.2 (by simp only [hx]; exact hω 0)) atol rtol tol jumpFirst sel args
  have hsort' := (List.pairwise_cons.1 hsort).2
  have key : ∀ N (σ : ℕ → ℝ) last (s : HState ℝ (ι → ℝ)), (∀ n, 0 < σ n) → HGood f tEval t0 T s → s.x j = r * (s.t - last) →
      s.x j < σ 0 → last ≤ s.t → T - last < ∑ k ∈ Finset.range N, max 0 (σ k / r - tol) →
      StatefulEnds (hybridCfg f solver args atol rtol sel [] tol) [clockCallback j g] tEval T 0 jSpan (σ, s) := by
    intro N
    induction N with
    | zero =>
      intro σ last s _ _ _ _ hle hlt
      simp only [Finset.range_zero, Finset.sum_empty] at hlt
      exact statefulEnds_stop fun h => by have := h.1; simp only at this; linarith
    | succ N ih =>
      intro σ last s hσ hgood hxs hxs' hle hlt
      refine flow_phase_gen hs E hE hord h1 h2 h3 hM hsort' (cbs := freeze [clockCallback j g] σ) (eventTol := tol) (sel := sel)
        ha hrt (fun s => StatefulEnds (hybridCfg f solver args atol rtol sel [] tol) [clockCallback j g] tEval T 0 jSpan (σ, s))
        (fun p => p.2 j = r * (p.1 - last) ∧ p.2 j < σ 0 ∧ last ≤ p.1) ?_ ?_ ?_ ?_ ?_ s hgood ⟨hxs, hxs', hle⟩
      · rintro p q ⟨p1, p2, p3⟩ hpq hst hq
        refine ⟨?_, quiet_clock.1 hq, p3.trans hpq⟩
        rw [hc _ _ hst, p1]; ring
      · exact fun s h => statefulEnds_stop fun h' => h h'.1
      · exact fun s _ h => statefulEnds_error (statefulIter_error h)
      · intro s k x' e _ hk hst hq hit hn
        obtain ⟨k0, y, e0, st0, q1, q2, q3⟩ := step_kok (atol := atol) (rtol := rtol) (sel := sel) (cbs := [])
          (eventTol := tol) (dt := (hybridDt tEval T s).1) hs hk
        obtain ⟨k', e', st', h1'⟩ := hst
        simp only [add_sub_cancel_left] at h1'
        have q1' : (hybridCfg f solver args atol rtol sel [] tol).step s.x s.t (hybridDt tEval T s).1 s.k1 =
            .ok (.four k' x' e' st') := by
          have := q2.symm.trans h1'
          rw [q1]; cases this; rfl
        exact statefulEnds_next (statefulIter_quiet q1' hq hit) hn
      · intro s x' b c cb hgood ⟨p1, p2, p3⟩ hlt' hst hnq hbis _ _ hfa _ hit
        obtain ⟨k0, y, e0, st0, q1, q2, q3⟩ := step_kok (atol := atol) (rtol := rtol) (sel := sel) (cbs := [])
          (eventTol := tol) (dt := (hybridDt tEval T s).1) hs hgood.k1
        have hst' := hst
        obtain ⟨k', e', st', h1'⟩ := hst'
        simp only [add_sub_cancel_left] at h1'
        have q1' : (hybridCfg f solver args atol rtol sel [] tol).step s.x s.t (hybridDt tEval T s).1 s.k1 =
            .ok (.four k' x' e' st') := by
          have := q2.symm.trans h1'
          rw [q1]; cases this; rfl
        obtain ⟨l1, l2, l3, l4, w1, w2, -⟩ := clock_located hs hr hc hsort' htol hgood.k1 hgood.inv hst p2 hnq hbis
        have hcl := clock_reach hc l1
        simp only at hcl p1 p3
        refine statefulEnds_next (statefulIter_clock q1' hnq hit) ?_
        refine ih (fun n => σ (n + 1)) b.tInner _ (fun n => hσ _)
          (hgood_jump hs hsort' hgood hlt' (clock_persistent hr.le hc g σ) hst hnq hbis cb) ?_ ?_ (le_refl _) ?_
        · simp [afterJump, clock_first hfa, hg]
        · simp only [afterJump, clock_first hfa, hg]; exact hσ _
        · rw [Finset.sum_range_succ'] at hlt
          have hmax : max 0 (σ 0 / r - tol) ≤ b.tInner - last := by
            refine max_le (by linarith) ?_
            have : σ 0 / r ≤ b.tInner - last + tol := by
              rw [div_le_iff₀ hr]
              rw [hcl, p1] at l3
              linarith
            linarith
          linarith
  have hinit := hgood_init (f := f) (x0 := x) hdt hsort hT
  obtain ⟨fuel, hf⟩ := key N ω t0 (hybridInit t0 x (f t0 x) dt) hω hinit (by simp [hybridInit, hx])
    (by simpa [hybridInit, hx] using hω 0) (le_refl _) hN
  obtain ⟨res, hres, -⟩ := C149_clock_run hs f j r hr hc g hg ω hω x hx t0 T tEval hsort hT jSpan atol rtol tol htol
    jumpFirst sel fuel
  cases res with
  | some res => exact ⟨fuel, res.1, res.2.1, res.2.2, hres⟩
  | none =>
    exfalso
    apply hf
    rw [e] at hres
    cases hl : statefulLoop (hybridCfg f solver args atol rtol sel [] tol) [clockCallback j g] tEval T 0 jSpan fuel
      (ω, hybridInit t0 x (f t0 x) dt) with
    | error e => rw [hl] at hres; cases hres
    | ok o =>
      rw [hl] at hres
      cases o with
      | none => rfl
      | some o => cases hres

end Torchdyn
