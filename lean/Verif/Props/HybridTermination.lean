import Verif.Props.HybridEvents
import Verif.Props.AdaptiveTermination

/-!
Property C142: when `odeint_hybrid` finishes.
-/

set_option linter.unusedSectionVars false
set_option linter.unusedSimpArgs false

namespace Torchdyn

open Spec

variable {ι A : Type} [Fintype ι] {solver : Solver (Except PyErr) ℝ (ι → ℝ) A} {args : A}

/-- The loop returns or raises after finitely many iterations from the state `s`. -/
def LoopEnds (cfg : HybridCfg (Except PyErr) ℝ (ι → ℝ)) (tEval : List ℝ) (T : ℝ) (j jSpan : ℕ) (s : HState ℝ (ι → ℝ)) :
    Prop := ∃ fuel, hybridLoop cfg tEval T j jSpan fuel s ≠ .ok none

theorem loopEnds_stop {cfg : HybridCfg (Except PyErr) ℝ (ι → ℝ)} {tEval : List ℝ} {T : ℝ} {j jSpan : ℕ} {s : HState ℝ (ι → ℝ)}
    (h : ¬ (s.t < T ∧ j < jSpan)) : LoopEnds cfg tEval T j jSpan s :=
  ⟨1, by rw [hybridLoop, if_neg h]; intro h; cases h⟩

theorem loopEnds_error {cfg : HybridCfg (Except PyErr) ℝ (ι → ℝ)} {tEval : List ℝ} {T : ℝ} {j jSpan : ℕ} {s : HState ℝ (ι → ℝ)}
    {err : PyErr} (h : hybridIter cfg tEval T s = .error err) : LoopEnds cfg tEval T j jSpan s := by
  by_cases hc : s.t < T ∧ j < jSpan
  · exact ⟨1, by rw [hybridLoop, if_pos hc, h]; intro h; cases h⟩
  · exact loopEnds_stop hc

theorem loopEnds_next {cfg : HybridCfg (Except PyErr) ℝ (ι → ℝ)} {tEval : List ℝ} {T : ℝ} {j jSpan : ℕ}
    {s s' : HState ℝ (ι → ℝ)} (h : hybridIter cfg tEval T s = .ok s') (hs' : LoopEnds cfg tEval T j jSpan s') :
    LoopEnds cfg tEval T j jSpan s := by
  by_cases hc : s.t < T ∧ j < jSpan
  · obtain ⟨fuel, hf⟩ := hs'
    exact ⟨fuel + 1, by rw [hybridLoop, if_pos hc, h]; exact hf⟩
  · exact loopEnds_stop hc

/-- Invariant of the loop. -/
structure HGood (f : ℝ → (ι → ℝ) → (ι → ℝ)) (tEval : List ℝ) (t0 T : ℝ) (s : HState ℝ (ι → ℝ)) : Prop where
  k1 : KOk f s.t s.x s.k1
  inv : DInv tEval t0 T s
  flag : s.ckptFlag = true → s.dt < s.dtOld
  noflag : s.ckptFlag = false → 0 < s.dt

theorem hybridDt_strict {f : ℝ → (ι → ℝ) → (ι → ℝ)} {tEval : List ℝ} {t0 T : ℝ} {s : HState ℝ (ι → ℝ)}
    (h : HGood f tEval t0 T s) (hlt : s.t < T) :
    let d := hybridDt tEval T s
    (d.2.2.1 = true → d.1 < d.2.1) ∧ (d.2.2.1 = false → 0 < d.1) ∧
      (d.2.2.2 = s.ckpt + 1 ∧ s.ckpt < tEval.length ∨
        d.2.2.2 = s.ckpt ∧ d.2.2.1 = s.ckptFlag ∧ d.1 = if T < s.t + s.dt then T - s.t else s.dt) := by
  intro d
  obtain ⟨c, hc⟩ : ∃ c, c = if T < s.t + s.dt then T - s.t else s.dt := ⟨_, rfl⟩
  have hcd : c ≤ s.dt := by
    rw [hc]; split_ifs with h'
    · linarith
    · exact le_refl _
  have hcpos : s.ckptFlag = false → 0 < c := by
    intro hf
    rw [hc]; split_ifs
    · linarith
    · exact h.noflag hf
  have hd : d = match tEval[s.ckpt]? with
      | some te =>
        if te < s.t + c then (te - s.t, c, true, s.ckpt + 1) else (c, s.dtOld, s.ckptFlag, s.ckpt)
      | none => (c, s.dtOld, s.ckptFlag, s.ckpt) := by
    simp only [d, hybridDt, ← hc]
    cases tEval[s.ckpt]? <;> rfl
  rw [← hc]
  have hkeep : d = (c, s.dtOld, s.ckptFlag, s.ckpt) → (d.2.2.1 = true → d.1 < d.2.1) ∧ (d.2.2.1 = false → 0 < d.1) ∧
      (d.2.2.2 = s.ckpt + 1 ∧ s.ckpt < tEval.length ∨ d.2.2.2 = s.ckpt ∧ d.2.2.1 = s.ckptFlag ∧ d.1 = c) := by
    intro hd
    rw [hd]
    exact ⟨fun hf => hcd.trans_lt (h.flag hf), hcpos, Or.inr ⟨rfl, rfl, rfl⟩⟩
  cases hg : tEval[s.ckpt]? with
  | none =>
    rw [hg] at hd
    exact hkeep hd
  | some te =>
    rw [hg] at hd
    by_cases hlt' : te < s.t + c
    · simp only [if_pos hlt'] at hd
      rw [hd]
      refine ⟨fun _ => ?_, fun h => ?_, Or.inl ⟨rfl, (List.getElem?_eq_some_iff.1 hg).1⟩⟩
      · simp only; linarith
      · exact absurd h (by simp)
    · simp only [if_neg hlt'] at hd
      exact hkeep hd

/-- The flow branch preserves the invariant. -/
theorem hgood_flow (hs : FsalSolver solver args) {f : ℝ → (ι → ℝ) → (ι → ℝ)} {tEval : List ℝ} {t0 T : ℝ}
    (hsort : tEval.Pairwise (· ≤ ·)) {s : HState ℝ (ι → ℝ)} (h : HGood f tEval t0 T s) (hlt : s.t < T)
    (atol rtol : ℝ) (sel : Finset ι) (cbs : List (EventCallback ℝ (ι → ℝ))) (eventTol : ℝ) (k x' e : ι → ℝ)
    (hk : k = f (s.t + (hybridDt tEval T s).1) x') :
    HGood f tEval t0 T (hybridFlow (hybridCfg f solver args atol rtol sel cbs eventTol) s
      (hybridDt tEval T s).1 (hybridDt tEval T s).2.1 (hybridDt tEval T s).2.2.1 (hybridDt tEval T s).2.2.2 k x' e) := by
  obtain ⟨h1, h2, -⟩ := hybridDt_strict h hlt
  have hpos : 0 < (if (hybridDt tEval T s).2.2.1 then (hybridDt tEval T s).2.1 - (hybridDt tEval T s).1
      else (hybridDt tEval T s).1) := by
    split_ifs with hf
    · have := h1 hf
      linarith
    · exact h2 (by simpa using hf)
  have hadapt : ∀ er, 0 < (hybridCfg f solver args atol rtol sel cbs eventTol).adapt
      (if (hybridDt tEval T s).2.2.1 then (hybridDt tEval T s).2.1 - (hybridDt tEval T s).1
        else (hybridDt tEval T s).1) er := fun er => adaptStep_pos hpos hs.min_pos hs.max_pos
  refine ⟨?_, dinv_flow hs hsort h.inv f atol rtol sel cbs eventTol k x' e, ?_, ?_⟩
  · simp only [hybridFlow]
    by_cases hacc : (hybridCfg f solver args atol rtol sel cbs eventTol).errRatio s.x x' e ≤ 1
    · rw [if_pos hacc]; exact Or.inr (by rw [hk])
    · rw [if_neg hacc]; exact h.k1
  · simp only [hybridFlow]
    split_ifs <;> simp
  · intro _
    simp only [hybridFlow]
    split_ifs with ha hb hb
    · simpa [hb] using hadapt ((hybridCfg f solver args atol rtol sel cbs eventTol).errRatio s.x x' e)
    · simpa [hb] using hadapt ((hybridCfg f solver args atol rtol sel cbs eventTol).errRatio s.x x' e)
    · simpa [hb] using hadapt ((hybridCfg f solver args atol rtol sel cbs eventTol).errRatio s.x x' e)
    · simpa [hb] using hadapt ((hybridCfg f solver args atol rtol sel cbs eventTol).errRatio s.x x' e)

/-- The jump branch preserves the invariant when events are persistent. -/
theorem hgood_jump (hs : FsalSolver solver args) {f : ℝ → (ι → ℝ) → (ι → ℝ)} {tEval : List ℝ} {t0 T : ℝ}
    (hsort : tEval.Pairwise (· ≤ ·)) {s : HState ℝ (ι → ℝ)} (h : HGood f tEval t0 T s) (hlt : s.t < T)
    {cbs : List (EventCallback ℝ (ι → ℝ))} (hpers : Persistent solver args f cbs) {atol rtol eventTol : ℝ} {sel : Finset ι}
    {x' : ι → ℝ} (hstep : AnyStep solver args f (s.t, s.x) (s.t + (hybridDt tEval T s).1, x'))
    (hnq : ¬ Quiet cbs (s.t + (hybridDt tEval T s).1, x')) {b : BState ℝ (ι → ℝ)}
    (hbis : bisect (hybridCfg f solver args atol rtol sel cbs eventTol) (hybridDt tEval T s).1 100
      (bisectStart s (hybridDt tEval T s).1 (eventStates cbs (s.t + (hybridDt tEval T s).1) x')) = .ok b)
    (cb : EventCallback ℝ (ι → ℝ)) : HGood f tEval t0 T (afterJump s (hybridDt tEval T s) b cb) := by
  obtain ⟨g1, -⟩ := hybridDt_spec hsort h.inv
  obtain ⟨h1, h2, -⟩ := hybridDt_strict h hlt
  obtain ⟨w1, w2⟩ := bisect_within hs hpers (s.t, s.x) (s.t + (hybridDt tEval T s).1, x')
    (Relation.ReflTransGen.single ⟨by simp only; linarith, hstep⟩) hnq g1 100 _ h.k1 g1 (le_refl _)
    (by simp only [bisectStart]; linarith) Relation.ReflTransGen.refl b hbis
  exact ⟨Or.inl rfl, dinv_jump hsort h.inv b cb w1 w2, h1, h2⟩

theorem flow_ckpt (cfg : HybridCfg (Except PyErr) ℝ (ι → ℝ)) (s : HState ℝ (ι → ℝ)) (dt dtOld : ℝ) (fl : Bool) (ck : ℕ)
    (k x' e : ι → ℝ) : (hybridFlow cfg s dt dtOld fl ck k x' e).ckpt = ck := by
  simp only [hybridFlow]; split_ifs <;> rfl

theorem flow_flag (cfg : HybridCfg (Except PyErr) ℝ (ι → ℝ)) (s : HState ℝ (ι → ℝ)) (dt dtOld : ℝ) (fl : Bool) (ck : ℕ)
    (k x' e : ι → ℝ) : (hybridFlow cfg s dt dtOld fl ck k x' e).ckptFlag = false := by
  simp only [hybridFlow]; split_ifs <;> rfl

theorem flow_dt (cfg : HybridCfg (Except PyErr) ℝ (ι → ℝ)) (s : HState ℝ (ι → ℝ)) (dt dtOld : ℝ) (fl : Bool) (ck : ℕ)
    (k x' e : ι → ℝ) : (hybridFlow cfg s dt dtOld fl ck k x' e).dt =
      cfg.adapt (if fl then dtOld - dt else dt) (cfg.errRatio s.x x' e) := by
  simp only [hybridFlow]; split_ifs <;> rfl

theorem flow_t_acc (cfg : HybridCfg (Except PyErr) ℝ (ι → ℝ)) (s : HState ℝ (ι → ℝ)) (dt dtOld : ℝ) (fl : Bool) (ck : ℕ)
    (k x' e : ι → ℝ) (h : cfg.errRatio s.x x' e ≤ 1) : (hybridFlow cfg s dt dtOld fl ck k x' e).t = s.t + dt := by
  simp only [hybridFlow, if_pos h]

theorem flow_t_rej (cfg : HybridCfg (Except PyErr) ℝ (ι → ℝ)) (s : HState ℝ (ι → ℝ)) (dt dtOld : ℝ) (fl : Bool) (ck : ℕ)
    (k x' e : ι → ℝ) (h : ¬ cfg.errRatio s.x x' e ≤ 1) : (hybridFlow cfg s dt dtOld fl ck k x' e).t = s.t := by
  simp only [hybridFlow, if_neg h]

/-- What holds wherever the loop stops or raises, is inherited backwards through the flow branch and holds before every jump,
holds everywhere, when all steps of some size or less are accepted. `R` is a property of the current point that accepted steps preserve. -/
theorem flow_phase_small (hs : FsalSolver solver args)
    (hord : 1 ≤ solver.order) (h1 : solver.safety = 9 / 10) (h2 : solver.minFactor = 1 / 5) (h3 : solver.maxFactor = 10)
    {f : ℝ → (ι → ℝ) → (ι → ℝ)} {tEval : List ℝ} {t0 T : ℝ}
    (hsort : tEval.Pairwise (· ≤ ·)) {cbs : List (EventCallback ℝ (ι → ℝ))} {atol rtol eventTol : ℝ}
    {sel : Finset ι} {δ : ℝ} (hδ : 0 < δ) (hacc : ∀ x t dt k x' e st, 0 < dt → dt ≤ δ →
      solver.step (fun t x => .ok (f t x)) x t dt none args = .ok (.four k x' e st) → errorNorm sel atol rtol x x' e < 1)
    (P : HState ℝ (ι → ℝ) → Prop) (R : Point ι → Prop)
    (hR : ∀ p q, R p → p.1 ≤ q.1 → AnyStep solver args f p q → Quiet cbs q → R q)
    (hstop : ∀ s, ¬ s.t < T → P s)
    (herr : ∀ s, s.t < T →
      hybridIter (hybridCfg f solver args atol rtol sel cbs eventTol) tEval T s = .error .valueError → P s)
    (hflow : ∀ (s : HState ℝ (ι → ℝ)) k x' e, s.t < T → KOk f s.t s.x s.k1 →
      AnyStep solver args f (s.t, s.x) (s.t + (hybridDt tEval T s).1, x') →
      Quiet cbs (s.t + (hybridDt tEval T s).1, x') →
      hybridIter (hybridCfg f solver args atol rtol sel cbs eventTol) tEval T s =
        .ok (hybridFlow (hybridCfg f solver args atol rtol sel cbs eventTol) s (hybridDt tEval T s).1
          (hybridDt tEval T s).2.1 (hybridDt tEval T s).2.2.1 (hybridDt tEval T s).2.2.2 k x' e) →
      P (hybridFlow (hybridCfg f solver args atol rtol sel cbs eventTol) s (hybridDt tEval T s).1
          (hybridDt tEval T s).2.1 (hybridDt tEval T s).2.2.1 (hybridDt tEval T s).2.2.2 k x' e) → P s)
    (hjump : ∀ (s : HState ℝ (ι → ℝ)) (x' : ι → ℝ) (b : BState ℝ (ι → ℝ)) (c : Point ι) (cb : EventCallback ℝ (ι → ℝ)),
      HGood f tEval t0 T s → R (s.t, s.x) → s.t < T →
      AnyStep solver args f (s.t, s.x) (s.t + (hybridDt tEval T s).1, x') →
      ¬ Quiet cbs (s.t + (hybridDt tEval T s).1, x') →
      bisect (hybridCfg f solver args atol rtol sel cbs eventTol) (hybridDt tEval T s).1 100
        (bisectStart s (hybridDt tEval T s).1 (eventStates cbs (s.t + (hybridDt tEval T s).1) x')) = .ok b →
      BInv solver args f cbs (s.t, s.x) b → AnyStep solver args f (b.tInner, b.xInner) c → FirstActive cbs c cb →
      b.events = eventStates cbs c.1 c.2 →
      hybridIter (hybridCfg f solver args atol rtol sel cbs eventTol) tEval T s =
        .ok (afterJump s (hybridDt tEval T s) b cb) → P s)
    (s : HState ℝ (ι → ℝ)) (hg : HGood f tEval t0 T s) (hRs : R (s.t, s.x)) : P s := by
  set cfg := hybridCfg f solver args atol rtol sel cbs eventTol with hcfg
  have hctrl : ∀ dt er, 0 < dt → 0 ≤ er → dt * (1 / 5) ≤ cfg.adapt dt er ∧
      cfg.adapt dt er ≤ dt * 10 ∧ (er < 1 → dt ≤ cfg.adapt dt er) ∧
      (1 ≤ er → cfg.adapt dt er ≤ dt * max (9 / 10) (1 / 5)) := by
    intro dt er hdt her
    have := C25_controller dt er solver.safety solver.minFactor solver.maxFactor solver.order hdt her
      hs.safety_pos (by rw [h2]; norm_num) (by rw [h3]; norm_num) hord
    rw [h1, h2, h3] at this
    simp only [hcfg, hybridCfg, h1, h2, h3]
    exact this
  -- small steps are accepted
  have hsmall : ∀ x t dt k x' e st, 0 < dt → dt ≤ δ →
      solver.step (fun t x => .ok (f t x)) x t dt none args = .ok (.four k x' e st) → cfg.errRatio x x' e < 1 := by
    intro x t dt k x' e st hdt hle hst
    have e1 : cfg.errRatio x x' e = errorNorm sel atol rtol x x' e := errorRatio_eq _ _ _ _ _ _
    rw [e1]
    exact hacc x t dt k x' e st hdt hle hst
  -- one iteration
  have hone : ∀ s, HGood f tEval t0 T s → R (s.t, s.x) → s.t < T →
      (∀ k x' e st, solver.step (fun t x => .ok (f t x)) s.x s.t (hybridDt tEval T s).1 none args = .ok (.four k x' e st) →
        HGood f tEval t0 T (hybridFlow cfg s (hybridDt tEval T s).1 (hybridDt tEval T s).2.1 (hybridDt tEval T s).2.2.1
          (hybridDt tEval T s).2.2.2 k x' e) →
        R ((hybridFlow cfg s (hybridDt tEval T s).1 (hybridDt tEval T s).2.1 (hybridDt tEval T s).2.2.1
          (hybridDt tEval T s).2.2.2 k x' e).t, (hybridFlow cfg s (hybridDt tEval T s).1 (hybridDt tEval T s).2.1
          (hybridDt tEval T s).2.2.1 (hybridDt tEval T s).2.2.2 k x' e).x) →
        P (hybridFlow cfg s (hybridDt tEval T s).1 (hybridDt tEval T s).2.1
          (hybridDt tEval T s).2.2.1 (hybridDt tEval T s).2.2.2 k x' e)) → P s := by
    intro s hg hRs hlt hnext
    obtain ⟨g1, -⟩ := hybridDt_spec hsort hg.inv
    obtain ⟨k, x', e, st, q1, q2, hcase⟩ := hybridIter_cases (sel := sel) (atol := atol) (rtol := rtol)
      (eventTol := eventTol) (cbs := cbs) hs tEval T s hg.k1
    have hstep : AnyStep solver args f (s.t, s.x) (s.t + (hybridDt tEval T s).1, x') :=
      ⟨k, e, st, by simp only [add_sub_cancel_left]; exact q1⟩
    rcases hcase with ⟨hq, hit⟩ | ⟨hnq, b, hb, hbis, ⟨-, hit⟩ | ⟨c, cb, hc1, hc2, hev, hit⟩⟩
    · refine hflow s k x' e hlt hg.k1 hstep hq hit (hnext k x' e st q1 (hgood_flow hs hsort hg hlt _ _ _ _ _ k x' e q2) ?_)
      simp only [hybridFlow]
      split_ifs
      · exact hR _ _ hRs (by simp only; linarith) hstep hq
      · exact hR _ _ hRs (by simp only; linarith) hstep hq
      · exact hRs
      · exact hRs
    · exact herr s hlt hit
    · exact hjump s x' b c cb hg hRs hlt hstep hnq hbis hb hc1 hc2 hev hit
  -- induction on the remaining checkpoints
  have main : ∀ n : ℕ, ∀ s, HGood f tEval t0 T s → R (s.t, s.x) → tEval.length - s.ckpt ≤ n →
      P s := by
    intro n
    induction n using Nat.strong_induction_on with
    | _ n ih =>
    -- without pending checkpoint
    have key : ∀ m : ℝ, 0 < m → m ≤ δ / 5 → ∀ N i : ℕ, ∀ s, HGood f tEval t0 T s → R (s.t, s.x) → s.ckptFlag = false →
        tEval.length - s.ckpt ≤ n → m ≤ s.dt → T - s.t ≤ N * m → s.dt ≤ δ * (10 / 9) ^ i →
        P s := by
      intro m hm hmδ N
      induction N with
      | zero =>
        intro i s _ _ _ _ _ hT _
        simp only [Nat.cast_zero, zero_mul] at hT
        exact hstop _ fun h => by linarith
      | succ N ihN =>
        -- the cases common to every step size
        have common : ∀ i : ℕ, (∀ s, HGood f tEval t0 T s → R (s.t, s.x) → s.ckptFlag = false →
            tEval.length - s.ckpt ≤ n → m ≤ s.dt → T - s.t ≤ (N + 1 : ℕ) * m → s.dt * (10 / 9) ≤ δ * (10 / 9) ^ i → 
            δ < δ * (10 / 9) ^ i → P s) →
            ∀ s, HGood f tEval t0 T s → R (s.t, s.x) → s.ckptFlag = false →
            tEval.length - s.ckpt ≤ n → m ≤ s.dt → T - s.t ≤ (N + 1 : ℕ) * m → s.dt ≤ δ * (10 / 9) ^ i →
            P s := by
          intro i hrec s hg hRs hfl hck hms hT hdi
          by_cases hlt : s.t < T
          swap
          · exact hstop _ hlt
          refine hone s hg hRs hlt fun k x' e st hst hg' hR' => ?_
          obtain ⟨-, d2, d3⟩ := hybridDt_strict hg hlt
          rcases d3 with ⟨d3, d4⟩ | ⟨d3, d4, d5⟩
          · refine ih (tEval.length - (s.ckpt + 1)) (by omega) _ hg' hR' ?_
            rw [flow_ckpt, d3]
          have hff : (hybridDt tEval T s).2.2.1 = false := d4.trans hfl
          have hdpos := d2 hff
          have hdle : (hybridDt tEval T s).1 ≤ s.dt := by
            rw [d5]; split_ifs <;> linarith
          have her : 0 ≤ cfg.errRatio s.x x' e := hairerNormOn_nonneg _ _
          obtain ⟨c1, c2, c3, c4⟩ := hctrl (hybridDt tEval T s).1 (cfg.errRatio s.x x' e) hdpos her
          have hbig : 1 ≤ cfg.errRatio s.x x' e → δ < (hybridDt tEval T s).1 := by
            intro h
            by_contra hcon
            have := hsmall _ _ _ _ _ _ _ hdpos (not_lt.1 hcon) hst
            linarith
          have hdt' := flow_dt cfg s (hybridDt tEval T s).1 (hybridDt tEval T s).2.1 (hybridDt tEval T s).2.2.1
            (hybridDt tEval T s).2.2.2 k x' e
          rw [hff, if_neg (by simp)] at hdt'
          have hck' : tEval.length - (hybridFlow cfg s (hybridDt tEval T s).1 (hybridDt tEval T s).2.1
              (hybridDt tEval T s).2.2.1 (hybridDt tEval T s).2.2.2 k x' e).ckpt ≤ n := by
            rw [flow_ckpt, d3]; exact hck
          by_cases hacc : cfg.errRatio s.x x' e ≤ 1
          · have ht' : (hybridFlow cfg s (hybridDt tEval T s).1 (hybridDt tEval T s).2.1 (hybridDt tEval T s).2.2.1
                (hybridDt tEval T s).2.2.2 k x' e).t = s.t + (hybridDt tEval T s).1 := flow_t_acc cfg s _ _ _ _ k x' e hacc
            by_cases hclip : T < s.t + s.dt
            · refine hstop _ fun h => ?_
              have := h
              rw [ht', d5, if_pos hclip] at this
              linarith
            · rw [if_neg hclip] at d5
              obtain ⟨i', hi'⟩ := pow_unbounded_of_one_lt ((hybridFlow cfg s (hybridDt tEval T s).1
                (hybridDt tEval T s).2.1 (hybridDt tEval T s).2.2.1 (hybridDt tEval T s).2.2.2 k x' e).dt / δ)
                (show (1 : ℝ) < 10 / 9 by norm_num)
              refine ihN i' _ hg' hR' (flow_flag cfg s _ _ _ _ k x' e) hck' ?_ ?_ ?_
              · rw [hff, hdt']
                rcases lt_or_ge (cfg.errRatio s.x x' e) 1 with h | h
                · have := c3 h
                  linarith
                · have := hbig h
                  linarith
              · rw [ht', d5]
                push_cast at hT
                linarith
              · rw [div_lt_iff₀ hδ] at hi'
                linarith
          · have hgt : 1 ≤ cfg.errRatio s.x x' e := (not_le.1 hacc).le
            have ht' : (hybridFlow cfg s (hybridDt tEval T s).1 (hybridDt tEval T s).2.1 (hybridDt tEval T s).2.2.1
                (hybridDt tEval T s).2.2.2 k x' e).t = s.t := flow_t_rej cfg s _ _ _ _ k x' e hacc
            have h4 := c4 hgt
            rw [show max (9 / 10 : ℝ) (1 / 5) = 9 / 10 by norm_num] at h4
            have hb := hbig hgt
            refine hrec _ hg' hR' (flow_flag cfg s _ _ _ _ k x' e) hck' ?_ ?_ ?_ ?_
            · rw [hff, hdt']; linarith
            · rw [ht']; exact hT
            · rw [hff, hdt']; linarith
            · linarith
        intro i
        induction i with
        | zero =>
          exact common 0 fun s _ _ _ _ _ _ _ h => absurd h (by simp)
        | succ i ihi =>
          refine common (i + 1) fun s q1 q2 q3 q4 q5 q6 q7 _ => ihi s q1 q2 q3 q4 q5 q6 ?_
          rw [pow_succ] at q7
          linarith
    have key' : ∀ s, HGood f tEval t0 T s → R (s.t, s.x) → s.ckptFlag = false → tEval.length - s.ckpt ≤ n →
        P s := by
      intro s hg hRs hfl hck
      have hdt := hg.noflag hfl
      have hm : 0 < min s.dt (δ / 5) := lt_min hdt (by positivity)
      obtain ⟨N, hN⟩ := exists_nat_ge ((T - s.t) / min s.dt (δ / 5))
      obtain ⟨i, hi⟩ := pow_unbounded_of_one_lt (s.dt / δ) (show (1 : ℝ) < 10 / 9 by norm_num)
      rw [div_le_iff₀ hm] at hN
      rw [div_lt_iff₀ hδ] at hi
      exact key _ hm (min_le_right _ _) N i s hg hRs hfl hck (min_le_left _ _) hN (by linarith)
    intro s hg hRs hck
    by_cases hlt : s.t < T
    swap
    · exact hstop _ hlt
    refine hone s hg hRs hlt fun k x' e st _ hg' hR' => key' _ hg' hR' (flow_flag cfg s _ _ _ _ k x' e) ?_
    rw [flow_ckpt]
    rcases (hybridDt_strict hg hlt).2.2 with ⟨d3, -⟩ | ⟨d3, -⟩ <;> rw [d3] <;> omega
  exact main _ s hg hRs le_rfl

/-- What holds wherever the loop stops or raises, is inherited backwards through the flow branch and holds before every jump,
holds everywhere, when the field is bounded. `R` is a property of the current point that accepted steps preserve. -/
theorem flow_phase_gen (hs : FsalSolver solver args) (E : ℝ) (hE : ErrorLinear solver args E)
    (hord : 1 ≤ solver.order) (h1 : solver.safety = 9 / 10) (h2 : solver.minFactor = 1 / 5) (h3 : solver.maxFactor = 10)
    {f : ℝ → (ι → ℝ) → (ι → ℝ)} {M : ℝ} (hM : ∀ t x i, |f t x i| ≤ M) {tEval : List ℝ} {t0 T : ℝ}
    (hsort : tEval.Pairwise (· ≤ ·)) {cbs : List (EventCallback ℝ (ι → ℝ))} {atol rtol eventTol : ℝ} (ha : 0 < atol)
    (hr : 0 ≤ rtol) {sel : Finset ι} (P : HState ℝ (ι → ℝ) → Prop) (R : Point ι → Prop)
    (hR : ∀ p q, R p → p.1 ≤ q.1 → AnyStep solver args f p q → Quiet cbs q → R q)
    (hstop : ∀ s, ¬ s.t < T → P s)
    (herr : ∀ s, s.t < T →
      hybridIter (hybridCfg f solver args atol rtol sel cbs eventTol) tEval T s = .error .valueError → P s)
    (hflow : ∀ (s : HState ℝ (ι → ℝ)) k x' e, s.t < T → KOk f s.t s.x s.k1 →
      AnyStep solver args f (s.t, s.x) (s.t + (hybridDt tEval T s).1, x') →
      Quiet cbs (s.t + (hybridDt tEval T s).1, x') →
      hybridIter (hybridCfg f solver args atol rtol sel cbs eventTol) tEval T s =
        .ok (hybridFlow (hybridCfg f solver args atol rtol sel cbs eventTol) s (hybridDt tEval T s).1
          (hybridDt tEval T s).2.1 (hybridDt tEval T s).2.2.1 (hybridDt tEval T s).2.2.2 k x' e) →
      P (hybridFlow (hybridCfg f solver args atol rtol sel cbs eventTol) s (hybridDt tEval T s).1
          (hybridDt tEval T s).2.1 (hybridDt tEval T s).2.2.1 (hybridDt tEval T s).2.2.2 k x' e) → P s)
    (hjump : ∀ (s : HState ℝ (ι → ℝ)) (x' : ι → ℝ) (b : BState ℝ (ι → ℝ)) (c : Point ι) (cb : EventCallback ℝ (ι → ℝ)),
      HGood f tEval t0 T s → R (s.t, s.x) → s.t < T →
      AnyStep solver args f (s.t, s.x) (s.t + (hybridDt tEval T s).1, x') →
      ¬ Quiet cbs (s.t + (hybridDt tEval T s).1, x') →
      bisect (hybridCfg f solver args atol rtol sel cbs eventTol) (hybridDt tEval T s).1 100
        (bisectStart s (hybridDt tEval T s).1 (eventStates cbs (s.t + (hybridDt tEval T s).1) x')) = .ok b →
      BInv solver args f cbs (s.t, s.x) b → AnyStep solver args f (b.tInner, b.xInner) c → FirstActive cbs c cb →
      b.events = eventStates cbs c.1 c.2 →
      hybridIter (hybridCfg f solver args atol rtol sel cbs eventTol) tEval T s =
        .ok (afterJump s (hybridDt tEval T s) b cb) → P s)
    (s : HState ℝ (ι → ℝ)) (hg : HGood f tEval t0 T s) (hRs : R (s.t, s.x)) : P s := by
  set D := |E| * |M| + 1 with hD
  have hDpos : 0 < D := by positivity
  refine flow_phase_small hs hord h1 h2 h3 hsort (δ := atol / (2 * D)) (by positivity) ?_ P R hR hstop herr hflow hjump s hg hRs
  intro x t dt k x' e st hdt hle hst
  have hb := hE f M hM x t dt (f t x) _ _ _ _ (hM t x) hdt ((hs.first_stage f x t dt).trans hst)
  have hb' : ∀ i, |e i| ≤ D * dt := by
    intro i
    refine (hb i).trans (mul_le_mul_of_nonneg_right ?_ hdt.le)
    have := le_abs_self (E * M)
    rw [abs_mul] at this
    linarith
  refine lt_of_le_of_lt (errorNorm_le sel atol rtol ha hr x x' _ (D * dt) (by positivity) hb') ?_
  rw [div_lt_one ha]
  have : D * dt ≤ D * (atol / (2 * D)) := mul_le_mul_of_nonneg_left hle hDpos.le
  have e2 : D * (atol / (2 * D)) = atol / 2 := by field_simp
  rw [e2] at this
  linarith

/-- The loop ends if it ends after every jump, when the field is bounded. `R` is a property of the current point that
accepted steps preserve. -/
theorem flow_phase (hs : FsalSolver solver args) (E : ℝ) (hE : ErrorLinear solver args E)
    (hord : 1 ≤ solver.order) (h1 : solver.safety = 9 / 10) (h2 : solver.minFactor = 1 / 5) (h3 : solver.maxFactor = 10)
    {f : ℝ → (ι → ℝ) → (ι → ℝ)} {M : ℝ} (hM : ∀ t x i, |f t x i| ≤ M) {tEval : List ℝ} {t0 T : ℝ}
    (hsort : tEval.Pairwise (· ≤ ·)) {cbs : List (EventCallback ℝ (ι → ℝ))} {atol rtol eventTol : ℝ} (ha : 0 < atol)
    (hr : 0 ≤ rtol) {sel : Finset ι} {j jSpan : ℕ} (R : Point ι → Prop)
    (hR : ∀ p q, R p → p.1 ≤ q.1 → AnyStep solver args f p q → Quiet cbs q → R q)
    (hjump : ∀ (s : HState ℝ (ι → ℝ)) (x' : ι → ℝ) (b : BState ℝ (ι → ℝ)) (c : Point ι) (cb : EventCallback ℝ (ι → ℝ)),
      HGood f tEval t0 T s → R (s.t, s.x) → s.t < T →
      AnyStep solver args f (s.t, s.x) (s.t + (hybridDt tEval T s).1, x') →
      ¬ Quiet cbs (s.t + (hybridDt tEval T s).1, x') →
      bisect (hybridCfg f solver args atol rtol sel cbs eventTol) (hybridDt tEval T s).1 100
        (bisectStart s (hybridDt tEval T s).1 (eventStates cbs (s.t + (hybridDt tEval T s).1) x')) = .ok b →
      BInv solver args f cbs (s.t, s.x) b → AnyStep solver args f (b.tInner, b.xInner) c → FirstActive cbs c cb →
      b.events = eventStates cbs c.1 c.2 →
      LoopEnds (hybridCfg f solver args atol rtol sel cbs eventTol) tEval T j jSpan (afterJump s (hybridDt tEval T s) b cb))
    (s : HState ℝ (ι → ℝ)) (hg : HGood f tEval t0 T s) (hRs : R (s.t, s.x)) :
    LoopEnds (hybridCfg f solver args atol rtol sel cbs eventTol) tEval T j jSpan s := by
  refine flow_phase_gen hs E hE hord h1 h2 h3 hM hsort ha hr
    (fun s => LoopEnds (hybridCfg f solver args atol rtol sel cbs eventTol) tEval T j jSpan s) R hR
    (fun s h => loopEnds_stop fun h' => h h'.1) (fun s _ h => loopEnds_error h)
    (fun s k x' e _ _ _ _ hit hn => loopEnds_next hit hn) ?_ s hg hRs
  intro s x' b c cb q1 q2 q3 q4 q5 q6 q7 q8 q9 q10 hit
  exact loopEnds_next hit (hjump s x' b c cb q1 q2 q3 q4 q5 q6 q7 q8 q9 q10)

/-! ### Systems with finitely many jumps -/

theorem hgood_init {f : ℝ → (ι → ℝ) → (ι → ℝ)} {tEval : List ℝ} {t0 T dt : ℝ} {x0 : ι → ℝ} (hdt : 0 < dt)
    (hsort : (t0 :: tEval).Pairwise (· ≤ ·)) (hT : (t0 :: tEval).getLast? = some T) :
    HGood f tEval t0 T (hybridInit t0 x0 (f t0 x0) dt) := by
  have hle : t0 ≤ T := by
    have := List.mem_of_getLast? hT
    rcases List.mem_cons.1 this with h | h
    · exact h.ge
    · exact (List.pairwise_cons.1 hsort).1 T h
  exact ⟨Or.inr rfl, ⟨le_refl _, hle, hdt.le, by simp [hybridInit],
    by simpa [hybridInit] using (List.pairwise_cons.1 hsort).1, by simp [hybridInit], by simp [hybridInit]⟩,
    by simp [hybridInit], fun _ => hdt⟩

theorem loopEnds_map {cfg : HybridCfg (Except PyErr) ℝ (ι → ℝ)} {tEval : List ℝ} {T : ℝ} {j jSpan : ℕ}
    {s : HState ℝ (ι → ℝ)} (h : LoopEnds cfg tEval T j jSpan s) : ∃ fuel,
      (hybridLoop cfg tEval T j jSpan fuel s).map (Option.map (fun s => (s.evalTimes, s.sol))) ≠ .ok none := by
  obtain ⟨fuel, h⟩ := h
  refine ⟨fuel, ?_⟩
  cases hl : hybridLoop cfg tEval T j jSpan fuel s with
  | error e => intro h'; cases h'
  | ok r =>
    cases r with
    | none => exact absurd hl h
    | some r => intro h'; cases h'

/-- **C142 (partial: the field is bounded, events are persistent, jumps consume a resource).** `μ` counts the jumps that a point
still allows: it does not increase along solver steps, and where an event is detected it is positive and the jump decreases it.
Then `odeint_hybrid` returns or raises after finitely many iterations, for every `t_span` and every `j_span`.

Missing: systems with infinitely many jumps; when they may follow each other within `event_tol`, the claim is false
(`C142_close_refuted`), and likewise when a callback stays active after its jump (`C142_active_refuted`). -/
theorem C142_resource_partial (hs : FsalSolver solver args) (E : ℝ) (hE : ErrorLinear solver args E)
    (hord : 1 ≤ solver.order) (h1 : solver.safety = 9 / 10) (h2 : solver.minFactor = 1 / 5) (h3 : solver.maxFactor = 10)
    (f : ℝ → (ι → ℝ) → (ι → ℝ)) (M : ℝ) (hM : ∀ t x i, |f t x i| ≤ M) (x : ι → ℝ) (t0 T : ℝ) (tEval : List ℝ)
    (hsort : (t0 :: tEval).Pairwise (· ≤ ·)) (hT : (t0 :: tEval).getLast? = some T)
    (cbs : List (EventCallback ℝ (ι → ℝ))) (hpers : Persistent solver args f cbs) (μ : Point ι → ℕ)
    (hstep : ∀ p q, AnyStep solver args f p q → μ q ≤ μ p)
    (hjump : ∀ b c cb, AnyStep solver args f b c → FirstActive cbs c cb → μ (b.1, cb.jumpMap b.1 b.2) < μ b)
    (atol rtol eventTol : ℝ) (ha : 0 < atol) (hr : 0 ≤ rtol) (jumpFirst : Bool) (sel : Finset ι) (jSpan : ℕ) :
    ∃ fuel, odeintHybrid fuel (pureField f) x (t0 :: tEval) jSpan solver cbs atol rtol eventTol jumpFirst sel args ≠
      .ok none := by
  obtain ⟨x0, j, dt, _, _, _, _, hdt, _, e⟩ := odeintHybrid_loop f x t0 T tEval hT solver cbs atol rtol
    eventTol jumpFirst sel args
  have hsort' := (List.pairwise_cons.1 hsort).2
  simp only [e]
  refine loopEnds_map ?_
  have key : ∀ n s, HGood f tEval t0 T s → μ (s.t, s.x) ≤ n →
      LoopEnds (hybridCfg f solver args atol rtol sel cbs eventTol) tEval T j jSpan s := by
    intro n
    induction n using Nat.strong_induction_on with
    | _ n ih =>
      intro s hg hμ
      refine flow_phase hs E hE hord h1 h2 h3 hM hsort' ha hr (fun p => μ p ≤ n)
        (fun p q hp _ hpq _ => (hstep p q hpq).trans hp) ?_ s hg hμ
      intro s x' b c cb hg hRs hlt hst hnq hbis hb hc1 hc2 _
      have hμb : μ (b.tInner, b.xInner) ≤ n := by
        have : ∀ p q, Relation.ReflTransGen (fun p q => AnyStep solver args f p q ∧ Quiet cbs q) p q → μ q ≤ μ p := by
          intro p q h
          induction h with
          | refl => exact le_refl _
          | tail _ h ih => exact (hstep _ _ h.1).trans ih
        exact (this _ _ hb.reach).trans hRs
      have := hjump (b.tInner, b.xInner) c cb hc1 hc2
      exact ih (μ (b.tInner, cb.jumpMap b.tInner b.xInner)) (by simp only at this; omega) _
        (hgood_jump hs hsort' hg hlt hpers hst hnq hbis cb) (le_refl _)
  exact key _ _ (hgood_init hdt hsort hT) (le_refl _)

/-- **C142 (partial: no event).** With a bounded field and callbacks that never fire, `odeint_hybrid` returns. -/
theorem C142_quiet_partial (hs : FsalSolver solver args) (E : ℝ) (hE : ErrorLinear solver args E)
    (hord : 1 ≤ solver.order) (h1 : solver.safety = 9 / 10) (h2 : solver.minFactor = 1 / 5) (h3 : solver.maxFactor = 10)
    (f : ℝ → (ι → ℝ) → (ι → ℝ)) (M : ℝ) (hM : ∀ t x i, |f t x i| ≤ M) (x : ι → ℝ) (t0 T : ℝ) (tEval : List ℝ)
    (hsort : (t0 :: tEval).Pairwise (· ≤ ·)) (hT : (t0 :: tEval).getLast? = some T)
    (cbs : List (EventCallback ℝ (ι → ℝ))) (hnf : NeverFires cbs)
    (atol rtol eventTol : ℝ) (ha : 0 < atol) (hr : 0 ≤ rtol) (jumpFirst : Bool) (sel : Finset ι) (jSpan : ℕ) :
    ∃ fuel ts xs, odeintHybrid fuel (pureField f) x (t0 :: tEval) jSpan solver cbs atol rtol eventTol jumpFirst sel args =
      .ok (some (ts, xs)) := by
  have hnone : ∀ c cb, ¬ FirstActive cbs c cb := by
    rintro c cb ⟨i, hi, ha, -⟩
    cases ha.symm.trans (hnf c cb (List.mem_of_getElem? hi))
  obtain ⟨x0, j, dt, _, _, _, _, hdt, _, e⟩ := odeintHybrid_loop f x t0 T tEval hT solver cbs atol rtol
    eventTol jumpFirst sel args
  obtain ⟨fuel, hf⟩ := C142_resource_partial hs E hE hord h1 h2 h3 f M hM x t0 T tEval hsort hT cbs
    (neverFires_persistent hnf) (fun _ => 0) (fun _ _ _ => le_refl _) (fun _ c cb _ h => absurd h (hnone c cb))
    atol rtol eventTol ha hr jumpFirst sel jSpan
  -- without events no iteration raises
  have key : ∀ fuel s, KOk f s.t s.x s.k1 → ∃ r,
      hybridLoop (hybridCfg f solver args atol rtol sel cbs eventTol) tEval T j jSpan fuel s = .ok r := by
    intro fuel
    induction fuel with
    | zero => intro s _; exact ⟨none, rfl⟩
    | succ fuel ih =>
      intro s hk
      by_cases hc : s.t < T ∧ j < jSpan
      · obtain ⟨k, x', e, st, q1, q2, hcase⟩ := hybridIter_cases (sel := sel) (atol := atol) (rtol := rtol)
          (eventTol := eventTol) (cbs := cbs) hs tEval T s hk
        rcases hcase with ⟨-, hit⟩ | ⟨hnq, -⟩
        · rw [hybridLoop, if_pos hc, hit]
          refine ih _ ?_
          simp only [hybridFlow]
          split_ifs <;> first | exact Or.inr (by rw [q2]) | exact hk
        · exact absurd (hnf _) hnq
      · exact ⟨some s, by rw [hybridLoop, if_neg hc]; rfl⟩
  obtain ⟨r, hr'⟩ := key fuel (hybridInit t0 x0 (f t0 x0) dt) (Or.inr rfl)
  rw [e, hr'] at hf
  cases r with
  | none => exact absurd rfl hf
  | some s => exact ⟨fuel, s.evalTimes, s.sol, by rw [e, hr']; rfl⟩

/-! ### Systems with a dwell time -/

theorem fwdReach_le {f : ℝ → (ι → ℝ) → (ι → ℝ)} {p q : Point ι} (h : FwdReach solver args f p q) : p.1 ≤ q.1 := by
  induction h with
  | refl => exact le_refl _
  | tail _ h ih => exact ih.trans h.1

/-- Where a jump happens. -/
theorem jump_located (hs : FsalSolver solver args) {f : ℝ → (ι → ℝ) → (ι → ℝ)} {t0 T : ℝ} {tEval : List ℝ}
    (hsort' : tEval.Pairwise (· ≤ ·)) {cbs : List (EventCallback ℝ (ι → ℝ))} (hpers : Persistent solver args f cbs)
    {atol rtol eventTol : ℝ} (htol : T - t0 ≤ 4096 * eventTol) {sel : Finset ι} (s : HState ℝ (ι → ℝ)) (x' : ι → ℝ)
    (b : BState ℝ (ι → ℝ)) (c' : Point ι) (cb : EventCallback ℝ (ι → ℝ)) (hg : HGood f tEval t0 T s)
    (hst : AnyStep solver args f (s.t, s.x) (s.t + (hybridDt tEval T s).1, x'))
    (hnq : ¬ Quiet cbs (s.t + (hybridDt tEval T s).1, x'))
    (hbis : bisect (hybridCfg f solver args atol rtol sel cbs eventTol) (hybridDt tEval T s).1 100
      (bisectStart s (hybridDt tEval T s).1 (eventStates cbs (s.t + (hybridDt tEval T s).1) x')) = .ok b)
    (hfa : FirstActive cbs c' cb) (hev : b.events = eventStates cbs c'.1 c'.2) :
    FwdQuiet solver args f cbs (s.t, s.x) (b.tInner, b.xInner) ∧ ∃ c, AnyStep solver args f (b.tInner, b.xInner) c ∧
      ¬ Quiet cbs c ∧ b.tInner ≤ c.1 ∧ c.1 ≤ b.tInner + eventTol ∧ FirstActive cbs c cb := by
  obtain ⟨g1, g2, -⟩ := hybridDt_spec hsort' hg.inv
  have hDk : (hybridDt tEval T s).1 ≤ 2 ^ 12 * eventTol := by
    have := hg.inv.ge
    norm_num
    linarith
  obtain ⟨b', hb1, hb2, c, hc1, hc2, hc3, hc4, hc5⟩ := bisect_located (atol := atol) (rtol := rtol) (sel := sel)
    hs hpers (s.t, s.x) g1 hDk 100
    (bisectStart s (hybridDt tEval T s).1 (eventStates cbs (s.t + (hybridDt tEval T s).1) x')) 0 0 (by decide)
    (by simp [bisectStart]) hg.k1 Relation.ReflTransGen.refl
    ⟨_, Relation.ReflTransGen.single ⟨by simp only; linarith, hst⟩, hnq, by simp [bisectStart]⟩
    (Or.inr ⟨_, hst, hnq, by simp [bisectStart], rfl⟩)
  obtain rfl : b = b' := by
    have := hbis.symm.trans hb1
    cases this
    rfl
  exact ⟨hb2, c, hc1, hc2, hc3, hc4, firstActive_congr (hev.symm.trans hc5) hfa⟩

/-- **C142 (partial: the field is bounded, events are persistent, and after each jump nothing is active for a time `τ` longer
than `event_tol`; the whole span is at most 4096 tolerances long).** Then `odeint_hybrid` returns after finitely many
iterations, for every `t_span` and every `j_span`; the number of jumps itself is not bounded by `j_span`.

Missing: with dwell times shorter than `event_tol` the claim is false (`C142_close_refuted`). -/
theorem C142_dwell_partial (hs : FsalSolver solver args) (E : ℝ) (hE : ErrorLinear solver args E)
    (hord : 1 ≤ solver.order) (h1 : solver.safety = 9 / 10) (h2 : solver.minFactor = 1 / 5) (h3 : solver.maxFactor = 10)
    (f : ℝ → (ι → ℝ) → (ι → ℝ)) (M : ℝ) (hM : ∀ t x i, |f t x i| ≤ M) (x : ι → ℝ) (t0 T : ℝ) (tEval : List ℝ)
    (hsort : (t0 :: tEval).Pairwise (· ≤ ·)) (hT : (t0 :: tEval).getLast? = some T)
    (cbs : List (EventCallback ℝ (ι → ℝ))) (hpers : Persistent solver args f cbs) (atol rtol eventTol τ : ℝ)
    (hτ : eventTol < τ) (hdwell : DwellTime solver args f cbs eventTol τ)
    (htol : T - t0 ≤ 4096 * eventTol) (ha : 0 < atol) (hr : 0 ≤ rtol) (jumpFirst : Bool) (sel : Finset ι) (jSpan : ℕ) :
    ∃ fuel ts xs, odeintHybrid fuel (pureField f) x (t0 :: tEval) jSpan solver cbs atol rtol eventTol jumpFirst sel args =
      .ok (some (ts, xs)) := by
  obtain ⟨x0, j, dt, _, _, _, _, hdt, _, e⟩ := odeintHybrid_loop f x t0 T tEval hT solver cbs atol rtol
    eventTol jumpFirst sel args
  have hsort' := (List.pairwise_cons.1 hsort).2
  have hloc := jump_located (cbs := cbs) (eventTol := eventTol) (atol := atol) (rtol := rtol) (sel := sel) hs hsort' hpers htol
  -- after a jump at `p`
  have key : ∀ (n : ℕ) (p : Point ι) s, HGood f tEval t0 T s → FwdReach solver args f p (s.t, s.x) →
      (∀ q, FwdReach solver args f p q → q.1 < p.1 + τ → Quiet cbs q) → T - p.1 ≤ n * (τ - eventTol) →
      LoopEnds (hybridCfg f solver args atol rtol sel cbs eventTol) tEval T j jSpan s := by
    intro n
    induction n with
    | zero =>
      intro p s hg hp _ hn
      simp only [Nat.cast_zero, zero_mul] at hn
      have := fwdReach_le hp
      exact loopEnds_stop fun h => by have := h.1; simp only at *; linarith
    | succ n ih =>
      intro p s hg hp hqu hn
      refine flow_phase hs E hE hord h1 h2 h3 hM hsort' ha hr (fun q => FwdReach solver args f p q)
        (fun p' q hp' hle hpq _ => hp'.tail ⟨hle, hpq⟩) ?_ s hg hp
      intro s x' b c' cb hg hRs hlt hst hnq hbis _ _ hfa hev
      obtain ⟨l1, c, l2, l3, l4, l5, l6⟩ := hloc s x' b c' cb hg hst hnq hbis hfa hev
      have hpb : FwdReach solver args f p (b.tInner, b.xInner) := Relation.ReflTransGen.trans hRs l1.fwd
      have hge : p.1 + τ ≤ c.1 := by
        by_contra hcon
        exact l3 (hqu c (hpb.tail ⟨l4, l2⟩) (not_le.1 hcon))
      refine ih (b.tInner, cb.jumpMap b.tInner b.xInner) _ (hgood_jump hs hsort' hg hlt hpers hst hnq hbis cb)
        Relation.ReflTransGen.refl (fun q hq hq' => hdwell (b.tInner, b.xInner) c cb q l2 l4 l5 l6 hq hq') ?_
      simp only
      push_cast at hn
      linarith
  have hends : LoopEnds (hybridCfg f solver args atol rtol sel cbs eventTol) tEval T j jSpan
      (hybridInit t0 x0 (f t0 x0) dt) := by
    refine flow_phase hs E hE hord h1 h2 h3 hM hsort' ha hr (fun q => True) (fun _ _ _ _ _ _ => trivial) ?_ _
      (hgood_init hdt hsort hT) trivial
    intro s x' b c' cb hg hRs hlt hst hnq hbis _ _ hfa hev
    obtain ⟨l1, c, l2, l3, l4, l5, l6⟩ := hloc s x' b c' cb hg hst hnq hbis hfa hev
    obtain ⟨n, hn⟩ := exists_nat_ge ((T - b.tInner) / (τ - eventTol))
    rw [div_le_iff₀ (by linarith)] at hn
    exact key n (b.tInner, cb.jumpMap b.tInner b.xInner) _ (hgood_jump hs hsort' hg hlt hpers hst hnq hbis cb)
      Relation.ReflTransGen.refl (fun q hq hq' => hdwell (b.tInner, b.xInner) c cb q l2 l4 l5 l6 hq hq') hn
  obtain ⟨fuel, hf⟩ := loopEnds_map hends
  obtain ⟨r, hr', -⟩ := C80_located_partial hs f x t0 T tEval hsort hT jSpan cbs hpers atol rtol eventTol htol jumpFirst
    sel fuel
  rw [← e, hr'] at hf
  cases r with
  | none => exact absurd rfl hf
  | some r => exact ⟨fuel, r.1, r.2, hr'⟩

/-! ### Jumps that stop the clock -/

/-- The bisection does not leave its starting point if every step tried from there ends where an event is active. -/
theorem bisect_frozen (hs : FsalSolver solver args) {f : ℝ → (ι → ℝ) → (ι → ℝ)} {cbs : List (EventCallback ℝ (ι → ℝ))}
    {atol rtol tol : ℝ} {sel : Finset ι} (p : Point ι)
    (hact : ∀ h x', tol / 2 < h → AnyStep solver args f p (p.1 + h, x') → ¬ Quiet cbs (p.1 + h, x')) (dt : ℝ) (n : ℕ) :
    ∀ b : BState ℝ (ι → ℝ), (b.tInner, b.xInner) = p → KOk f b.tInner b.xInner b.k1 →
      (∃ c, ¬ Quiet cbs c ∧ b.events = eventStates cbs c.1 c.2) →
      ∃ b', bisect (hybridCfg f solver args atol rtol sel cbs tol) dt n b = .ok b' ∧ (b'.tInner, b'.xInner) = p ∧
        ∃ c, ¬ Quiet cbs c ∧ b'.events = eventStates cbs c.1 c.2 := by
  induction n with
  | zero => intro b hb _ hc; exact ⟨b, rfl, hb, hc⟩
  | succ n ih =>
    intro b hb hk hc
    by_cases htol : tol < b.dtInner
    · obtain ⟨k, x', e, st, h1, h2, h3⟩ := step_kok (atol := atol) (rtol := rtol) (sel := sel) (cbs := cbs)
        (eventTol := tol) (dt := b.dtInner / 2) hs hk
      have hany : AnyStep solver args f (b.tInner, b.xInner) (b.tInner + b.dtInner / 2, x') :=
        ⟨k, e, st, by simp only [add_sub_cancel_left]; exact h2⟩
      have hnq : ¬ Quiet cbs (b.tInner + b.dtInner / 2, x') := by
        subst hb
        exact hact (b.dtInner / 2) x' (by linarith) hany
      have hcb : (hybridCfg f solver args atol rtol sel cbs tol).callbacks = cbs := rfl
      have htol' : (hybridCfg f solver args atol rtol sel cbs tol).eventTol < b.dtInner := htol
      simp only [bisect, if_pos htol', h1, bind, Except.bind, StepOut.unpack4, pure, Except.pure, hcb]
      rw [if_neg (fun h => hnq ((triggered_quiet _ _ _).1 h))]
      exact ih _ hb hk ⟨_, hnq, rfl⟩
    · have htol' : ¬ (hybridCfg f solver args atol rtol sel cbs tol).eventTol < b.dtInner := htol
      exact ⟨b, by simp only [bisect, if_neg htol']; rfl, hb, hc⟩

/-- The loop does not end if every iteration jumps without moving. -/
theorem loop_frozen (hs : FsalSolver solver args) {f : ℝ → (ι → ℝ) → (ι → ℝ)} {cbs : List (EventCallback ℝ (ι → ℝ))}
    {atol rtol tol : ℝ} {sel : Finset ι} {tEval : List ℝ} {T : ℝ} {j jSpan : ℕ} (hj : j < jSpan)
    (P : HState ℝ (ι → ℝ) → Prop) (hlt : ∀ s, P s → s.t < T) (hk : ∀ s, P s → KOk f s.t s.x s.k1)
    (hact : ∀ s, P s → ∀ h x', (tol / 2 < h ∨ h = (hybridDt tEval T s).1) →
      AnyStep solver args f (s.t, s.x) (s.t + h, x') → ¬ Quiet cbs (s.t + h, x'))
    (hnext : ∀ s, P s → ∀ b cb, (b.tInner, b.xInner) = (s.t, s.x) → cb ∈ cbs → P (afterJump s (hybridDt tEval T s) b cb))
    (fuel : ℕ) : ∀ s, P s → hybridLoop (hybridCfg f solver args atol rtol sel cbs tol) tEval T j jSpan fuel s = .ok none := by
  induction fuel with
  | zero => intro s _; rfl
  | succ fuel ih =>
    intro s hP
    obtain ⟨k, x', e, st, q1, q2, hcase⟩ := hybridIter_cases (sel := sel) (atol := atol) (rtol := rtol)
      (eventTol := tol) (cbs := cbs) hs tEval T s (hk s hP)
    have hstep : AnyStep solver args f (s.t, s.x) (s.t + (hybridDt tEval T s).1, x') :=
      ⟨k, e, st, by simp only [add_sub_cancel_left]; exact q1⟩
    have hnq := hact s hP _ x' (Or.inr rfl) hstep
    rcases hcase with ⟨hq, -⟩ | ⟨-, b, hb, hbis, hr⟩
    · exact absurd hq hnq
    obtain ⟨b', hb1, hb2, c, hc1, hc2⟩ := bisect_frozen (atol := atol) (rtol := rtol) (sel := sel) hs (s.t, s.x)
      (fun h x' hh => hact s hP h x' (Or.inl hh)) (hybridDt tEval T s).1 100
      (bisectStart s (hybridDt tEval T s).1 (eventStates cbs (s.t + (hybridDt tEval T s).1) x')) rfl (hk s hP)
      ⟨_, hnq, rfl⟩
    obtain rfl : b = b' := by
      have := hbis.symm.trans hb1
      cases this
      rfl
    rcases hr with ⟨hall, -⟩ | ⟨c', cb, -, hfa, -, hit⟩
    · rw [hc2] at hall
      exact absurd ((triggered_quiet cbs c.1 c.2).1 ((triggeredEvents_eq_zero _).2 hall)) hc1
    · rw [hybridLoop, if_pos ⟨hlt s hP, hj⟩, hit]
      obtain ⟨i, hi, -⟩ := hfa
      exact ih _ (hnext s hP b cb hb2 (List.mem_of_getElem? hi))

/-- **C142 (refutation).** If some callback is active everywhere, `odeint_hybrid` never finishes, whatever `j_span ≥ 2` (or
`j_span ≥ 1` without initial jump): it goes on jumping at `t_span[0]`. -/
theorem C142_active_refuted (hs : FsalSolver solver args) (f : ℝ → (ι → ℝ) → (ι → ℝ)) (x : ι → ℝ) (t0 T : ℝ)
    (tEval : List ℝ) (hT : (t0 :: tEval).getLast? = some T) (hlt : t0 < T) (cbs : List (EventCallback ℝ (ι → ℝ)))
    (hact : ∀ p, ¬ Quiet cbs p) (atol rtol eventTol : ℝ) (jumpFirst : Bool) (sel : Finset ι) (jSpan : ℕ)
    (hj : 2 ≤ jSpan ∨ 1 ≤ jSpan ∧ jumpFirst = false) (fuel : ℕ) :
    odeintHybrid fuel (pureField f) x (t0 :: tEval) jSpan solver cbs atol rtol eventTol jumpFirst sel args = .ok none := by
  obtain ⟨x0, j, dt, _, hj1, hj2, _, hdt, _, e⟩ := odeintHybrid_loop f x t0 T tEval hT solver cbs atol rtol
    eventTol jumpFirst sel args
  have hjj : j < jSpan := by
    rcases hj with h | ⟨h, h'⟩
    · omega
    · have := (hj2 (Or.inl h')).1
      omega
  rw [e, loop_frozen hs hjj (fun s => s.t = t0 ∧ KOk f s.t s.x s.k1) (fun s h => h.1.trans_lt hlt) (fun s h => h.2)
    (fun s _ _ _ _ _ => hact _)
    (fun s h b cb hb _ => ⟨(congrArg Prod.fst hb).trans h.1, Or.inl rfl⟩) fuel _ ⟨rfl, Or.inr rfl⟩]
  rfl

open Classical in
/-- A ramp that is reset to 0 when it reaches `η`. -/
noncomputable def ramp (η : ℝ) : EventCallback ℝ (Unit → ℝ) :=
  ⟨fun _ x => decide (η ≤ x ()), fun _ _ => fun _ => 0⟩

theorem unit_step (p q : Point Unit) (h : AnyStep wSolver () unitSpeed p q) : q.2 () = p.2 () + (q.1 - p.1) := by
  obtain ⟨k, e, st, h⟩ := h
  obtain ⟨pt, px⟩ := p
  obtain ⟨qt, qx⟩ := q
  simp only at h
  generalize qt - pt = d at h ⊢
  cases h
  have hb : (constructDopri5 ℝ).bsol = [35 / 384, 0, 500 / 1113, 125 / 192, -2187 / 6784, 11 / 84, 0] := rfl
  simp [unitSpeed, hb, nth]
  ring

theorem unit_reach (p q : Point Unit) (h : FwdReach wSolver () unitSpeed p q) : q.2 () = p.2 () + (q.1 - p.1) := by
  induction h with
  | refl => ring
  | tail _ h ih => rw [unit_step _ _ h.2, ih]; ring

theorem ramp_quiet (η : ℝ) (p : Point Unit) : Quiet [ramp η] p ↔ p.2 () < η := by
  simp [Quiet, ramp]

theorem ramp_persistent (η : ℝ) : Persistent wSolver () unitSpeed [ramp η] := by
  intro p q r hq hr hle hnq
  have h1 := unit_reach p q hq
  have h2 := unit_reach p r hr
  rw [ramp_quiet, not_lt] at hnq ⊢
  linarith

/-- **C142 (refutation).** The ramp `x' = 1` that is reset to 0 whenever it reaches `η` jumps finitely often in every time span.
But for every tolerance `event_tol`, however small, and for all small `η`, `odeint_hybrid` never finishes, whatever `j_span ≥ 1`:
after the reset the next event lies within `event_tol`, and the bisection locates it at the time of the reset. -/
theorem C142_close_refuted (T atol rtol eventTol : ℝ) (hT : 0 < T) (htol : 0 < eventTol) :
    ∃ η₀ > 0, ∀ η, 0 < η → η ≤ η₀ → ∀ jSpan ≥ 1, ∀ fuel jumpFirst,
      odeintHybrid fuel (pureField unitSpeed) (fun _ => 0) [0, T] jSpan wSolver [ramp η] atol rtol eventTol jumpFirst
        Finset.univ () = .ok none := by
  obtain ⟨dt, hdt, hinit⟩ := initStep_pos unitSpeed (unitSpeed 0 (fun _ => 0)) (fun _ => 0) 0 wSolver.order atol rtol
  refine ⟨min (min dt T) (eventTol / 2), lt_min (lt_min hdt hT) (by linarith), ?_⟩
  intro η hη hle jSpan hj fuel jumpFirst
  have hle1 : η ≤ min dt T := hle.trans (min_le_left _ _)
  have hle2 : η ≤ eventTol / 2 := hle.trans (min_le_right _ _)
  obtain ⟨x0, j, dt', _, hj1, hj2, _, _, hinit', e⟩ := odeintHybrid_loop unitSpeed (fun _ => 0) 0 T [T] rfl wSolver [ramp η]
    atol rtol eventTol jumpFirst Finset.univ ()
  obtain ⟨hj0, rfl⟩ := hj2 (Or.inr ((ramp_quiet η _).2 hη))
  obtain rfl : dt = dt' := by
    have := hinit.symm.trans hinit'
    cases this
    rfl
  have hd : ∀ s : HState ℝ (Unit → ℝ), s.t = 0 → s.ckpt = 0 → s.ckptFlag = false → (s.dt = dt ∨ s.dt = min dt T) →
      hybridDt [T] T s = (min dt T, s.dtOld, false, 0) := by
    intro s h1 h2 h3 h4
    have hc : (if T < s.t + s.dt then T - s.t else s.dt) = min dt T := by
      rw [h1]
      rcases h4 with h4 | h4 <;> rw [h4]
      · split_ifs with h
        · rw [min_eq_right (by linarith)]; ring
        · rw [min_eq_left (by linarith)]
      · rw [if_neg (by have := min_le_right dt T; linarith)]
    have : ¬ T < 0 + min dt T := by have := min_le_right dt T; linarith
    simp only [hybridDt, hc, h2, h3, List.getElem?_cons_zero]
    rw [h1, if_neg this]
  rw [e, loop_frozen (dopri5_fsalSolver (ι := Unit) ()) (by omega : j < jSpan)
    (fun s => s.t = 0 ∧ KOk unitSpeed s.t s.x s.k1 ∧ s.x () = 0 ∧ s.ckpt = 0 ∧ s.ckptFlag = false ∧
      (s.dt = dt ∨ s.dt = min dt T)) (fun s h => h.1.trans_lt hT) (fun s h => h.2.1) ?_ ?_ fuel _
    ⟨rfl, Or.inr rfl, rfl, rfl, rfl, Or.inl rfl⟩]
  · rfl
  · rintro s ⟨h1, h2, h3, h4, h5, h6⟩ h x' hh hst
    rw [hd s h1 h4 h5 h6] at hh
    have := unit_step _ _ hst
    simp only [h3] at this
    rw [ramp_quiet, not_lt]
    simp only [this]
    rcases hh with hh | rfl <;> linarith
  · rintro s ⟨h1, h2, h3, h4, h5, h6⟩ b cb hb hcb
    rw [hd s h1 h4 h5 h6]
    obtain rfl : cb = ramp η := by simpa using hcb
    exact ⟨(congrArg Prod.fst hb).trans h1, Or.inl rfl, rfl, rfl, rfl, Or.inr rfl⟩

/-- The hypotheses of `C142_active_refuted` are met. -/
example (fuel : ℕ) : odeintHybrid fuel (pureField unitSpeed) (fun _ => 0) [0, 1] 7 wSolver
    [⟨fun _ _ => true, fun _ x => x⟩] (1 / 1000) (1 / 1000) (1 / 10 ^ 4) true Finset.univ () = .ok none :=
  C142_active_refuted (dopri5_fsalSolver (ι := Unit) ()) unitSpeed _ 0 1 [1] rfl one_pos _ (by simp [Quiet]) _ _ _ _ _ 7
    (Or.inl (by norm_num)) fuel

/-- The hypotheses of `C142_dwell_partial` are met: the ramp reset at 1, on `[0, 4]` with `event_tol = 1e-3`. -/
theorem ramp_finishes : ∃ fuel ts xs, odeintHybrid fuel (pureField unitSpeed) (fun _ => 0) [0, 1, 4] 1 wSolver [ramp 1] (1 / 1000)
    (1 / 1000) (1 / 1000) false Finset.univ () = .ok (some (ts, xs)) := by
  obtain ⟨E, hE⟩ := dopri5_errorLinear (ι := Unit) ()
  refine C142_dwell_partial (dopri5_fsalSolver (ι := Unit) ()) E hE (by norm_num [dopri5Solver]) rfl rfl rfl
    unitSpeed 1 (by simp [unitSpeed]) _ 0 4 [1, 4] (by norm_num) rfl [ramp 1] (ramp_persistent 1) _ _ _ 1 (by norm_num) ?_
    (by norm_num) (by norm_num) (by norm_num) false _ 1
  intro b c cb q _ _ _ hfa hq hlt
  obtain ⟨i, hi, -⟩ := hfa
  obtain rfl : cb = ramp 1 := by simpa using List.mem_of_getElem? hi
  rw [ramp_quiet, unit_reach _ _ hq]
  simp only [ramp]
  linarith

/-- The hypotheses of `C142_resource_partial` are met: the staircase of C34, which jumps while the state is below 2. -/
example : ∃ fuel, odeintHybrid fuel (pureField zeroField) (fun _ => -7) [0, 1, 4] 1 wSolver [stairs] (1 / 1000)
    (1 / 1000) (1 / 1000) false Finset.univ () ≠ .ok none := by
  obtain ⟨E, hE⟩ := dopri5_errorLinear (ι := Unit) ()
  have hstep : ∀ p q : Point Unit, AnyStep wSolver () zeroField p q → q.2 = p.2 := by
    rintro p q ⟨k, e, st, h⟩
    obtain ⟨pt, px⟩ := p
    obtain ⟨qt, qx⟩ := q
    simp only at h
    generalize qt - pt = d at h ⊢
    cases h
    simp [zeroField]
  have hq : ∀ p : Point Unit, Quiet [stairs] p ↔ 2 ≤ p.2 () := by
    intro p
    simp [Quiet, stairs]
  have hreach : ∀ p q, FwdReach wSolver () zeroField p q → q.2 = p.2 := by
    intro p q h
    induction h with
    | refl => rfl
    | tail _ h ih => rw [hstep _ _ h.2, ih]
  refine C142_resource_partial (dopri5_fsalSolver (ι := Unit) ()) E hE (by norm_num [dopri5Solver]) rfl rfl rfl zeroField 0
    (by simp [zeroField]) _ 0 4 [1, 4] (by norm_num) rfl [stairs] ?_ (fun p => ⌈2 - p.2 ()⌉₊) ?_ ?_ _ _ _ (by norm_num)
    (by norm_num) false _ 1
  · intro p q r h1 h2 _ hnq
    rw [hq] at hnq ⊢
    rwa [hreach _ _ h2, ← hreach _ _ h1]
  · intro p q h
    simp only [hstep p q h]
    exact le_refl _
  · intro b c cb hbc hfa
    obtain ⟨i, hi, hact, -⟩ := hfa
    obtain rfl : cb = stairs := by simpa using List.mem_of_getElem? hi
    have hlt : b.2 () < 2 := by
      have : c.2 () < 2 := by simpa [stairs] using hact
      rwa [hstep b c hbc] at this
    simp only [stairs]
    rcases le_or_gt 0 (1 - b.2 ()) with h | h
    · rw [show 2 - (b.2 () + 1) = 1 - b.2 () by ring, show 2 - b.2 () = 1 - b.2 () + 1 by ring, Nat.ceil_add_one h]
      omega
    · rw [Nat.ceil_eq_zero.2 (by linarith)]
      exact Nat.ceil_pos.2 (by linarith)

/-- The hypotheses of `C142_quiet_partial` are met. -/
example : ∃ fuel ts xs, odeintHybrid fuel (pureField unitSpeed) (fun _ => 0) [0, 1, 4] 1 wSolver
    [⟨fun _ _ => false, fun _ x => x⟩] (1 / 1000) (1 / 1000) (1 / 1000) true Finset.univ () = .ok (some (ts, xs)) := by
  obtain ⟨E, hE⟩ := dopri5_errorLinear (ι := Unit) ()
  exact C142_quiet_partial (dopri5_fsalSolver (ι := Unit) ()) E hE (by norm_num [dopri5Solver]) rfl rfl rfl
    unitSpeed 1 (by simp [unitSpeed]) _ 0 4 [1, 4] (by norm_num) rfl _ (by intro p; simp [Quiet]) _ _ _ (by norm_num)
    (by norm_num) true _ 1

end Torchdyn
