import Verif.Proofs.QuietStart

/-!
Runs of the adaptive loop over an interval of length one in which every error ratio is zero, or so small that the step size grows by
the largest factor: the steps are those of `Verif.Proofs.QuietStart`, whatever the states are.
-/

set_option linter.unusedSectionVars false
set_option linter.unusedSimpArgs false

namespace Torchdyn

open Spec

variable {V : Type}

/-- The loop variables after `k < 7` steps without error. -/
noncomputable def smoothState (x0 : V) (X Z : ℕ → V) (a : ℝ) (k : ℕ) : AState ℝ V :=
  { t := a + (10 ^ k - 1) / (9 * 10 ^ 6), dt := 10 ^ k / 10 ^ 6, x := X k, k1 := Z k, ckpt := 0, ckptFlag := false,
    dtOld := 1 / 10 ^ 6, evalTimes := [a], sol := [x0] }

theorem smooth_run_gen (cfg : AdaptiveCfg (Except PyErr) ℝ V) (hi : cfg.interp = none) (hr : cfg.returnAllEval = false)
    (X Z : ℕ → V) (a : ℝ)
    (hstep : ∀ k < 6, ∃ e st, cfg.step (X k) (a + (10 ^ k - 1) / (9 * 10 ^ 6)) (10 ^ k / 10 ^ 6) (Z k) =
      .ok (.four (Z (k + 1)) (X (k + 1)) e st) ∧ cfg.errRatio (X k) (X (k + 1)) e ≤ 1 ∧
        ∀ d, cfg.adapt d (cfg.errRatio (X k) (X (k + 1)) e) = d * 10)
    (k' x' e' : V) (st' : List V) (hlast : cfg.step (X 6) (a + 111111 / 10 ^ 6) (888889 / 10 ^ 6) (Z 6) = .ok (.four k' x' e' st'))
    (herr' : cfg.errRatio (X 6) x' e' ≤ 1) (fuel : ℕ) :
    adaptiveOdeint cfg (fuel + 8) (Z 0) (X 0) (1 / 10 ^ 6) [a, a + 1] = .ok (some ([a, a + 1], [X 0, x'])) := by
  have hiter : ∀ k < 6, adaptiveIter cfg [a + 1] (a + 1) (smoothState (X 0) X Z a k) = .ok (smoothState (X 0) X Z a (k + 1)) := by
    intro k hk
    have hp : (10 : ℝ) ^ k ≤ 10 ^ 5 := pow_le_pow_right₀ (by norm_num) (by omega)
    have hend : a + (10 ^ k - 1) / (9 * 10 ^ 6) + 10 ^ k / 10 ^ 6 < a + 1 := by
      have : ((10 : ℝ) ^ k - 1) / (9 * 10 ^ 6) + 10 ^ k / 10 ^ 6 = (10 ^ k * 10 - 1) / (9 * 10 ^ 6) := by ring
      have h2 : ((10 : ℝ) ^ k * 10 - 1) / (9 * 10 ^ 6) < 1 := by rw [div_lt_one (by positivity)]; linarith
      linarith
    have hcl : clampDt (a + 1) (smoothState (X 0) X Z a k) = 10 ^ k / 10 ^ 6 := if_neg (not_lt.2 hend.le)
    obtain ⟨e, st, h1, h2, hadapt⟩ := hstep k hk
    have h2' : cfg.errRatio (smoothState (X 0) X Z a k).x (X (k + 1)) e = cfg.errRatio (X k) (X (k + 1)) e := rfl
    rw [iter_accept cfg hi hr (a + 1) (smoothState (X 0) X Z a k) rfl rfl (10 ^ k / 10 ^ 6) hcl hend.le _ _ e st h1 h2]
    have hne : (smoothState (X 0) X Z a k).t + 10 ^ k / 10 ^ 6 ≠ a + 1 := hend.ne
    rw [if_neg hne, if_neg hne, if_neg hne, h2', hadapt]
    simp only [smoothState, pow_succ]
    congr 2
    · ring
    · ring
  have hloop : ∀ k ≤ 6, adaptiveLoop cfg [a + 1] (a + 1) (fuel + 8) (smoothState (X 0) X Z a 0)
      = adaptiveLoop cfg [a + 1] (a + 1) (fuel + (8 - k)) (smoothState (X 0) X Z a k) := by
    intro k
    induction k with
    | zero => intro _; rfl
    | succ k ih =>
      intro hk
      rw [ih (by omega)]
      have : fuel + (8 - k) = fuel + (8 - (k + 1)) + 1 := by omega
      rw [this]
      have hp : (10 : ℝ) ^ k ≤ 10 ^ 5 := pow_le_pow_right₀ (by norm_num) (by omega)
      have hlt : (smoothState (X 0) X Z a k).t < a + 1 := by
        have h2 : ((10 : ℝ) ^ k - 1) / (9 * 10 ^ 6) < 1 := by rw [div_lt_one (by positivity)]; linarith
        show a + (10 ^ k - 1) / (9 * 10 ^ 6) < a + 1
        linarith
      rw [adaptiveLoop, if_pos hlt, hiter k (by omega)]
      rfl
  have ht6 : (smoothState (X 0) X Z a 6).t = a + 111111 / 10 ^ 6 := by simp only [smoothState]; norm_num
  have hcl : clampDt (a + 1) (smoothState (X 0) X Z a 6) = 888889 / 10 ^ 6 := by
    simp only [clampDt, ht6]
    have : (smoothState (X 0) X Z a 6).dt = 1 := by simp only [smoothState]; norm_num
    rw [this, if_pos (by linarith)]
    ring
  have hT : (smoothState (X 0) X Z a 6).t + 888889 / 10 ^ 6 = a + 1 := by rw [ht6]; ring
  have hit := iter_accept cfg hi hr (a + 1) (smoothState (X 0) X Z a 6) rfl rfl (888889 / 10 ^ 6) hcl hT.le k' x' e' st'
    (by rw [ht6]; exact hlast) herr'
  rw [if_pos hT, if_pos hT, if_pos hT, hT] at hit
  have hgo : adaptiveLoop cfg [a + 1] (a + 1) (fuel + 2) (smoothState (X 0) X Z a 6)
      = .ok (some { t := a + 1, dt := cfg.adapt (888889 / 10 ^ 6) (cfg.errRatio (X 6) x' e'), x := x', k1 := k', ckpt := 1,
                    ckptFlag := false, dtOld := (smoothState (X 0) X Z a 6).dtOld, evalTimes := [a] ++ [a + 1],
                    sol := [X 0] ++ [x'] }) := by
    have hlt : (smoothState (X 0) X Z a 6).t < a + 1 := by rw [ht6]; norm_num
    rw [adaptiveLoop, if_pos hlt, hit]
    simp only [bind, Except.bind]
    rw [adaptiveLoop, if_neg (lt_irrefl _)]
    rfl
  have h0 : getItem (m := Except PyErr) [a, a + 1] 0 = .ok a := rfl
  have h1 : getItem (m := Except PyErr) [a, a + 1] ([a, a + 1].length - 1) = .ok (a + 1) := rfl
  have hs : adaptiveInit (Z 0) (X 0) (1 / 10 ^ 6) a = smoothState (X 0) X Z a 0 := by simp [adaptiveInit, smoothState]
  unfold adaptiveOdeint
  simp only [h0, h1, bind, Except.bind, pure, Except.pure]
  rw [show List.drop 1 [a, a + 1] = [a + 1] from rfl, hs, hloop 6 le_rfl]
  rw [show fuel + (8 - 6) = fuel + 2 from rfl, hgo]
  rfl

theorem smooth_run (cfg : AdaptiveCfg (Except PyErr) ℝ V) (hi : cfg.interp = none) (hr : cfg.returnAllEval = false)
    (hadapt : ∀ d, cfg.adapt d 0 = d * 10) (X Z : ℕ → V) (a : ℝ)
    (hstep : ∀ k < 6, ∃ e st, cfg.step (X k) (a + (10 ^ k - 1) / (9 * 10 ^ 6)) (10 ^ k / 10 ^ 6) (Z k) =
      .ok (.four (Z (k + 1)) (X (k + 1)) e st) ∧ cfg.errRatio (X k) (X (k + 1)) e = 0)
    (k' x' e' : V) (st' : List V) (hlast : cfg.step (X 6) (a + 111111 / 10 ^ 6) (888889 / 10 ^ 6) (Z 6) = .ok (.four k' x' e' st'))
    (herr' : cfg.errRatio (X 6) x' e' ≤ 1) (fuel : ℕ) :
    adaptiveOdeint cfg (fuel + 8) (Z 0) (X 0) (1 / 10 ^ 6) [a, a + 1] = .ok (some ([a, a + 1], [X 0, x'])) :=
  smooth_run_gen cfg hi hr X Z a (fun k hk => by
    obtain ⟨e, st, h1, h2⟩ := hstep k hk
    exact ⟨e, st, h1, by rw [h2]; norm_num, fun d => by rw [h2, hadapt]⟩) k' x' e' st' hlast herr' fuel

end Torchdyn
