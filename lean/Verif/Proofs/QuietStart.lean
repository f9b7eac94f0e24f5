import Verif.Proofs.AdaptiveApi
import Verif.Props.Seminorm

/-!
Runs of the adaptive loop over an interval of length one whose first six steps see a field that vanishes: the initial step is
`10⁻⁶` and grows by `maxFactor = 10`, whatever the tolerances, so that the seventh step is the rest of the interval.
-/

set_option linter.unusedSectionVars false
set_option linter.unusedSimpArgs false

namespace Torchdyn

open Spec

variable {V A ι : Type}

/-- The loop variables after `k` steps that saw nothing. -/
noncomputable def quietState (x k1 : V) (a : ℝ) (k : ℕ) : AState ℝ V :=
  { t := a + (10 ^ k - 1) / (9 * 10 ^ 6), dt := 10 ^ k / 10 ^ 6, x := x, k1 := k1, ckpt := 0, ckptFlag := false,
    dtOld := 1 / 10 ^ 6, evalTimes := [a], sol := [x] }

theorem quietState_zero (x k1 : V) (a : ℝ) : adaptiveInit k1 x (1 / 10 ^ 6) a = quietState x k1 a 0 := by
  simp [adaptiveInit, quietState]

/-- One iteration without checkpoint before its end and with error ratio zero or at most one. -/
theorem iter_accept (cfg : AdaptiveCfg (Except PyErr) ℝ V) (hi : cfg.interp = none) (hr : cfg.returnAllEval = false)
    (T : ℝ) (s : AState ℝ V) (hc : s.ckpt = 0) (hf : s.ckptFlag = false) (d : ℝ) (hd : clampDt T s = d) (hT : s.t + d ≤ T)
    (k x' e : V) (st : List V) (hstep : cfg.step s.x s.t d s.k1 = .ok (.four k x' e st)) (he : cfg.errRatio s.x x' e ≤ 1) :
    adaptiveIter cfg [T] T s = .ok
      { t := s.t + d, dt := cfg.adapt d (cfg.errRatio s.x x' e), x := x', k1 := k, ckpt := if s.t + d = T then 1 else 0,
        ckptFlag := false, dtOld := s.dtOld,
        evalTimes := if s.t + d = T then s.evalTimes ++ [s.t + d] else s.evalTimes,
        sol := if s.t + d = T then s.sol ++ [x'] else s.sol } := by
  have h1 : checkpointDt cfg.interp.isSome [T] s d = (d, s.dtOld, false) := by
    simp [checkpointDt, hc, not_lt.2 hT, hf]
  unfold adaptiveIter
  rw [hd]
  simp only [h1, hstep]
  simp only [StepOut.unpack4, bind, Except.bind, pure, Except.pure, he, if_true, acceptStep, interpPhase, hi, hr, hc,
    getItem, List.getElem?_cons_zero, Bool.false_eq_true, or_false, if_false, zero_add]

theorem quiet_iter (cfg : AdaptiveCfg (Except PyErr) ℝ V) (hi : cfg.interp = none) (hr : cfg.returnAllEval = false)
    (hadapt : ∀ d, cfg.adapt d 0 = d * 10) (x z e : V) (herr : cfg.errRatio x x e = 0) (a : ℝ) (k : ℕ) (hk : k < 6)
    (st : List V) (hstep : cfg.step x (a + (10 ^ k - 1) / (9 * 10 ^ 6)) (10 ^ k / 10 ^ 6) z = .ok (.four z x e st)) :
    adaptiveIter cfg [a + 1] (a + 1) (quietState x z a k) = .ok (quietState x z a (k + 1)) := by
  have hp : (10 : ℝ) ^ k ≤ 10 ^ 5 := pow_le_pow_right₀ (by norm_num) (by omega)
  have hend : a + (10 ^ k - 1) / (9 * 10 ^ 6) + 10 ^ k / 10 ^ 6 < a + 1 := by
    have : ((10 : ℝ) ^ k - 1) / (9 * 10 ^ 6) + 10 ^ k / 10 ^ 6 = (10 ^ k * 10 - 1) / (9 * 10 ^ 6) := by ring
    have h2 : ((10 : ℝ) ^ k * 10 - 1) / (9 * 10 ^ 6) < 1 := by rw [div_lt_one (by positivity)]; linarith
    linarith
  have hcl : clampDt (a + 1) (quietState x z a k) = 10 ^ k / 10 ^ 6 := by
    exact if_neg (not_lt.2 hend.le)
  rw [iter_accept cfg hi hr (a + 1) (quietState x z a k) rfl rfl (10 ^ k / 10 ^ 6) hcl hend.le z x e st hstep
    (by show cfg.errRatio x x e ≤ 1; rw [herr]; norm_num)]
  have hne : (quietState x z a k).t + 10 ^ k / 10 ^ 6 ≠ a + 1 := hend.ne
  rw [if_neg hne, if_neg hne, if_neg hne]
  have h3 : cfg.errRatio (quietState x z a k).x x e = 0 := herr
  rw [h3, hadapt]
  simp only [quietState, pow_succ]
  congr 2
  · ring
  · ring

/-- The run: six steps that see nothing, then one step over what is left. -/
theorem quiet_run (cfg : AdaptiveCfg (Except PyErr) ℝ V) (hi : cfg.interp = none) (hr : cfg.returnAllEval = false)
    (hadapt : ∀ d, cfg.adapt d 0 = d * 10) (x z e : V) (herr : cfg.errRatio x x e = 0) (a : ℝ)
    (hstep : ∀ k < 6, ∃ st, cfg.step x (a + (10 ^ k - 1) / (9 * 10 ^ 6)) (10 ^ k / 10 ^ 6) z = .ok (.four z x e st))
    (k' x' e' : V) (st' : List V) (hlast : cfg.step x (a + 111111 / 10 ^ 6) (888889 / 10 ^ 6) z = .ok (.four k' x' e' st'))
    (herr' : cfg.errRatio x x' e' ≤ 1) (fuel : ℕ) :
    adaptiveOdeint cfg (fuel + 8) z x (1 / 10 ^ 6) [a, a + 1] = .ok (some ([a, a + 1], [x, x'])) := by
  have hloop : ∀ k ≤ 6, adaptiveLoop cfg [a + 1] (a + 1) (fuel + 8) (quietState x z a 0)
      = adaptiveLoop cfg [a + 1] (a + 1) (fuel + (8 - k)) (quietState x z a k) := by
    intro k
    induction k with
    | zero => intro _; rfl
    | succ k ih =>
      intro hk
      rw [ih (by omega)]
      obtain ⟨st, hst⟩ := hstep k (by omega)
      have : fuel + (8 - k) = fuel + (8 - (k + 1)) + 1 := by omega
      rw [this]
      have hp : (10 : ℝ) ^ k ≤ 10 ^ 5 := pow_le_pow_right₀ (by norm_num) (by omega)
      have hlt : (quietState x z a k).t < a + 1 := by
        have h2 : ((10 : ℝ) ^ k - 1) / (9 * 10 ^ 6) < 1 := by rw [div_lt_one (by positivity)]; linarith
        show a + (10 ^ k - 1) / (9 * 10 ^ 6) < a + 1
        linarith
      rw [adaptiveLoop, if_pos hlt, quiet_iter cfg hi hr hadapt x z e herr a k (by omega) st hst]
      rfl
  have ht6 : (quietState x z a 6).t = a + 111111 / 10 ^ 6 := by simp only [quietState]; norm_num
  have hcl : clampDt (a + 1) (quietState x z a 6) = 888889 / 10 ^ 6 := by
    simp only [clampDt, ht6]
    have : (quietState x z a 6).dt = 1 := by simp only [quietState]; norm_num
    rw [this, if_pos (by linarith)]
    ring
  have hT : (quietState x z a 6).t + 888889 / 10 ^ 6 = a + 1 := by rw [ht6]; ring
  have hiter := iter_accept cfg hi hr (a + 1) (quietState x z a 6) rfl rfl (888889 / 10 ^ 6) hcl hT.le k' x' e' st'
    (by rw [ht6]; exact hlast) herr'
  rw [if_pos hT, if_pos hT, if_pos hT, hT] at hiter
  have hgo : adaptiveLoop cfg [a + 1] (a + 1) (fuel + 2) (quietState x z a 6)
      = .ok (some { t := a + 1, dt := cfg.adapt (888889 / 10 ^ 6) (cfg.errRatio x x' e'), x := x', k1 := k', ckpt := 1,
                    ckptFlag := false, dtOld := (quietState x z a 6).dtOld, evalTimes := [a] ++ [a + 1], sol := [x] ++ [x'] }) := by
    have hlt : (quietState x z a 6).t < a + 1 := by rw [ht6]; norm_num
    rw [adaptiveLoop, if_pos hlt, hiter]
    simp only [bind, Except.bind]
    rw [adaptiveLoop, if_neg (lt_irrefl _)]
    rfl
  have h0 : getItem (m := Except PyErr) [a, a + 1] 0 = .ok a := rfl
  have h1 : getItem (m := Except PyErr) [a, a + 1] ([a, a + 1].length - 1) = .ok (a + 1) := rfl
  unfold adaptiveOdeint
  simp only [h0, h1, bind, Except.bind, pure, Except.pure]
  rw [show List.drop 1 [a, a + 1] = [a + 1] from rfl, quietState_zero, hloop 6 le_rfl]
  rw [show fuel + (8 - 6) = fuel + 2 from rfl, hgo]
  rfl

/-! ### Steps that see nothing -/

theorem rk7_quiet (tab : Tableau ℝ) (g : ℝ → (ι → ℝ) → (ι → ℝ)) (x : ι → ℝ) (t d : ℝ) (args : A)
    (h : ∀ i < 6, g (t + nth tab.c i * d) x = 0) :
    rk7Step (m := Except PyErr) tab (pureField g) x t d (some 0) args = .ok (.four 0 x 0 [0, 0, 0, 0, 0, 0, 0]) := by
  have h0 := h 0 (by omega)
  have h1 := h 1 (by omega)
  have h2 := h 2 (by omega)
  have h3 := h 3 (by omega)
  have h4 := h 4 (by omega)
  have h5 := h 5 (by omega)
  simp [rk7Step, firstStage, pureField, bind, Except.bind, pure, Except.pure, h0, h1, h2, h3, h4, h5]

variable [Fintype ι]

/-- The initial step when the field vanishes at the two points looked at. -/
theorem initStep_quiet (f : ℝ → (ι → ℝ) → (ι → ℝ)) (x : ι → ℝ) (t0 : ℝ) (order : ℕ) (atol rtol : ℝ)
    (h : f (t0 + 1 / 10 ^ 6) x = 0) :
    initStep (m := Except PyErr) (pureField f) 0 x t0 order atol rtol = .ok (1 / 10 ^ 6) := by
  have hn : hairerNorm (fun _ : ι => (0 : ℝ)) = 0 := by simp [hairerNorm, hairerNormOn]
  have hz : ∀ s : ι → ℝ, hairerNorm (fun i => (0 : ι → ℝ) i / s i) = 0 := fun s => by
    simpa using hn
  have ht : ∀ d0, initTrial d0 0 = 1 / 10 ^ 6 := fun d0 => by
    rw [initTrial, if_pos (Or.inr (by norm_num))]
  have hx : (fun i => x i + 1 / 10 ^ 6 * (0 : ι → ℝ) i) = x := by funext i; simp
  have hz2 : ∀ s : ι → ℝ, hairerNorm (fun i => ((0 : ι → ℝ) i - (0 : ι → ℝ) i) / s i) = 0 := fun s => by
    simpa using hn
  simp only [initStep, hz, ht, hx, pureField, h, bind, Except.bind, pure, Except.pure]
  rw [show (fun i => ((0 : ι → ℝ) i - (0 : ι → ℝ) i) / (atol + |x i| * rtol)) = fun _ => 0 from by funext i; simp, hn]
  rw [initSecond, if_pos ⟨by norm_num, by norm_num⟩]
  norm_num

end Torchdyn
