import Verif.Props.SplineError
import Verif.Props.InterpAdjoint
import Verif.Props.Rk4Time

/-!
The natural cubic spline through the states of a fixed-step integration stays close to the true solution: its error is that
of the states plus `O(h²)`, on every grid. Part of C141 (sensitivity.py:126-127).
-/

set_option linter.unusedSectionVars false
set_option linter.unusedSimpArgs false

namespace Torchdyn

open Spec Set
open scoped Topology

section increments

variable {V A : Type} [NormedAddCommGroup V] [NormedSpace ℝ V] [FiniteDimensional ℝ V]

/-- One step of `φ` differs from an Euler step by `O(h²)`, uniformly for bounded states. -/
def EulerLike (φ : V → ℝ → ℝ → V) (f : ℝ → V → V) (R t0 T : ℝ) : Prop :=
  ∃ C δ, 0 ≤ C ∧ 0 < δ ∧ ∀ (t h : ℝ) (x : V), t0 ≤ t → 0 ≤ h → h ≤ δ → t + h ≤ T → ‖x‖ ≤ R →
    ‖φ x t h - (x + h • f t x)‖ ≤ C * h ^ 2

theorem consistent_eulerLike {f : ℝ → V → V} (hf : ContDiff ℝ 1 (fun p : ℝ × V => f p.1 p.2)) (rows : List (ℝ × List ℝ))
    (b : List ℝ) (hlen : b.length ≤ rows.length) (hb : b.sum = 1)
    {φ : V → ℝ → ℝ → V} (hφ : ∀ x t h, φ x t h = x + h • comb b (rkStagesT f x t h rows []))
    (t0 T R : ℝ) : EulerLike φ f R t0 T := by
  obtain ⟨G, -, ⟨L, hL0, hL⟩, ⟨B, hB⟩, hFG⟩ := exists_cutoff (n := 1) (by omega) (by exact_mod_cast hf)
    (R := |R| + |t0| + |T| + 2 + 1) (by positivity)
  have hB0 : 0 ≤ B := (norm_nonneg _).trans (hB 0)
  have hag : ∀ t x, t0 - 1 ≤ t → t ≤ T + 1 → ‖x‖ ≤ |R| + 2 → f t x = G (t, x) := by
    intro t x h1 h2 h3
    refine hFG (t, x) ?_
    rw [Prod.norm_def]
    have := neg_abs_le t0
    have := le_abs_self T
    have := abs_nonneg t0
    have := abs_nonneg T
    have := abs_nonneg R
    refine max_le ?_ ?_
    · rw [Real.norm_eq_abs, abs_le]
      constructor <;> linarith
    · linarith
  have hLip : ∀ t t' x x', ‖(fun t x => G (t, x)) t x - (fun t x => G (t, x)) t' x'‖ ≤ L * (|t - t'| + ‖x - x'‖) := by
    intro t t' x x'
    refine (hL _ _).trans (mul_le_mul_of_nonneg_left ?_ hL0)
    rw [Prod.mk_sub_mk, Prod.norm_def]
    exact max_le (le_add_of_nonneg_right (norm_nonneg _)) (le_add_of_nonneg_left (abs_nonneg _))
  obtain ⟨W, hW0, hW⟩ := exists_row_bound rows
  have hden : 0 < 1 + W * B + W := by positivity
  have hs0 : 0 ≤ (b.map abs).sum := List.sum_nonneg (by simp +contextual)
  refine ⟨(b.map abs).sum * (L * (W + W * B)), 1 / (1 + W * B + W), by positivity, div_pos one_pos hden, ?_⟩
  intro t h x ht h0 hhW hT hx
  rw [le_div_iff₀ hden] at hhW
  have hWB : 0 ≤ h * (W * B) := by positivity
  have hhW0 : 0 ≤ h * W := by positivity
  have hexp : h * (1 + W * B + W) = h + h * (W * B) + h * W := by ring
  have hxR : ‖x‖ ≤ |R| + 1 := by
    have := le_abs_self R
    linarith
  have e1 : φ x t h = x + h • comb b (rkStagesT (fun t x => G (t, x)) x t h rows []) := by
    rw [hφ, rkStagesT_congr (g := fun t x => G (t, x)) (fun t x => hB _) hag h0 (W := W) (by linarith) (by linarith)
      (by linarith) rows hW [] (by simp)]
  obtain ⟨hl, hk⟩ := rkStagesT_near (g := fun t x => G (t, x)) (fun t x => hB _) hLip hL0 (x := x) (t := t) h0 rows hW []
    (by simp) (by simp)
  rw [hag t x (by linarith) (by linarith) (by linarith)]
  have hc : ‖comb b (rkStagesT (fun t x => G (t, x)) x t h rows []) - G (t, x)‖ ≤
      (b.map abs).sum * (L * (W + W * B) * h) := by
    have hr := comb_replicate (G (t, x)) b (rows.length + ([] : List V).length) (by simpa using hlen)
    rw [hb, one_smul] at hr
    rw [← hl] at hr
    generalize rkStagesT (fun t x => G (t, x)) x t h rows [] = ks at *
    conv_lhs => rw [← hr]
    refine comb_sub_le b (by positivity) ?_
    rw [List.forall₂_iff_get]
    refine ⟨by simp, fun i hi hi' => ?_⟩
    simp only [List.get_eq_getElem, List.getElem_replicate]
    exact hk _ (List.getElem_mem hi)
  have e2 : φ x t h - (x + h • G (t, x)) = h • (comb b (rkStagesT (fun t x => G (t, x)) x t h rows []) - G (t, x)) := by
    rw [e1, smul_sub]
    abel
  rw [e2, norm_smul, Real.norm_of_nonneg h0]
  refine (mul_le_mul_of_nonneg_left hc h0).trans (le_of_eq ?_)
  ring

/-- Times between the first and last point of a grid lie between two neighbours. -/
theorem grid_cover : ∀ (t0 t1 : ℝ) (rest : List ℝ) (T r : ℝ), (t0 :: t1 :: rest).getLast? = some T → t0 ≤ r → r ≤ T →
    ∃ i t t', (t0 :: t1 :: rest)[i]? = some t ∧ (t0 :: t1 :: rest)[i + 1]? = some t' ∧ t ≤ r ∧ r ≤ t' := by
  intro t0 t1 rest
  induction rest generalizing t0 t1 with
  | nil =>
    intro T r hl h0 h1
    simp at hl
    subst hl
    exact ⟨0, t0, t1, rfl, rfl, h0, h1⟩
  | cons t2 rest ih =>
    intro T r hl h0 h1
    rcases le_total r t1 with h | h
    · exact ⟨0, t0, t1, rfl, rfl, h0, h⟩
    · obtain ⟨i, t, t', e1, e2, e3, e4⟩ := ih t1 t2 T r (by simpa using hl) h h1
      exact ⟨i + 1, t, t', by simpa using e1, by simpa using e2, e3, e4⟩

/-- The spline through the states of a numerical trajectory that is within `ε` of a solution `y` is within `C (h² + ε)` of
`y`; the grid is arbitrary. -/
theorem spline_near_solution {f : ℝ → V → V} (hf : ContDiff ℝ 1 (fun p : ℝ × V => f p.1 p.2)) {y : ℝ → V} {t0 T : ℝ}
    (hy : SolvesOn f y t0 T) {φ : V → ℝ → ℝ → V} (hφ : ∀ R, EulerLike φ f R t0 T) :
    ∃ C δ, 0 ≤ C ∧ 0 < δ ∧ ∀ (t1 : ℝ) (rest : List ℝ) (h ε : ℝ) (x0 : V) (sol : List V) (s : ℝ → V), h ≤ δ → ε ≤ 1 →
      (t0 :: t1 :: rest).Pairwise (· < ·) → (t0 :: t1 :: rest).getLast? = some T →
      (∀ (k : ℕ) (t t' : ℝ), (t0 :: t1 :: rest)[k]? = some t → (t0 :: t1 :: rest)[k + 1]? = some t' → t' - t ≤ h) →
      IsTrajectory φ x0 (t0 :: t1 :: rest) sol →
      (∀ (k : ℕ) (t : ℝ) (x : V), (t0 :: t1 :: rest)[k]? = some t → sol[k]? = some x → ‖x - y t‖ ≤ ε) →
      NaturalSpline (t0 :: t1 :: rest) sol s → ∀ r ∈ Icc t0 T, ‖s r - y r‖ ≤ C * (h ^ 2 + ε) := by
  obtain ⟨R, hR⟩ := isCompact_Icc.exists_bound_of_continuousOn (f := y) (s := Icc t0 T)
    (fun t ht => (hy t ht).continuousWithinAt)
  obtain ⟨G, -, ⟨L, hL0, hL⟩, ⟨B, hB⟩, hFG⟩ := exists_cutoff (n := 1) (by omega) (by exact_mod_cast hf)
    (R := |R| + |t0| + |T| + 1) (by positivity)
  have hB0 : 0 ≤ B := (norm_nonneg _).trans (hB 0)
  obtain ⟨C1, δ1, hC1, hδ1, H1⟩ := hφ (|R| + 1)
  obtain ⟨C2, L2, δ2, hC2, hL2, hδ2, H2⟩ := euler_one_step hf t0 T R
  obtain ⟨D, hD⟩ : ∃ D, C1 + (C1 + L * (1 + (B + C1))) = D := ⟨_, rfl⟩
  have hD0 : 0 ≤ D := by rw [← hD]; positivity
  refine ⟨8 * D + C1 + C2 + (1 + L2), min (min δ1 δ2) 1, by positivity, lt_min (lt_min hδ1 hδ2) one_pos, ?_⟩
  intro t1 rest h ε x0 sol s hh hε hinc hlast hgap htraj hsol hs r hr
  have hh1 : h ≤ δ1 := hh.trans ((min_le_left _ _).trans (min_le_left _ _))
  have hh2 : h ≤ δ2 := hh.trans ((min_le_left _ _).trans (min_le_right _ _))
  have hh3 : h ≤ 1 := hh.trans (min_le_right _ _)
  obtain ⟨i, t, t', hi, hi', hr1, hr2⟩ := grid_cover t0 t1 rest T r hlast hr.1 hr.2
  generalize hts : t0 :: t1 :: rest = ts at *
  have hlen : ts.length = rest.length + 2 := by rw [← hts]; simp
  have hlastT : ts[rest.length + 1]? = some T := by
    rw [List.getLast?_eq_getElem?, hlen] at hlast
    exact hlast
  have hmem : ∀ (k : ℕ) (t : ℝ), ts[k]? = some t → t ∈ Icc t0 T := by
    intro k t hk
    obtain ⟨hj, rfl⟩ := List.getElem?_eq_some_iff.1 hk
    obtain ⟨hl', hTe⟩ := List.getElem?_eq_some_iff.1 hlastT
    have h0l : 0 < ts.length := by omega
    have h00 : ts[0] = t0 := by subst hts; rfl
    constructor
    · rcases Nat.eq_zero_or_pos k with rfl | hk0
      · exact h00.ge
      · rw [← h00]
        exact (List.pairwise_iff_getElem.1 hinc 0 k h0l hj hk0).le
    · rw [← hTe]
      rcases Nat.lt_or_ge k (rest.length + 1) with hlt | hge
      · exact (List.pairwise_iff_getElem.1 hinc k (rest.length + 1) hj hl' hlt).le
      · have : k = rest.length + 1 := by omega
        subst this
        exact le_rfl
  have hlt : ∀ (k : ℕ) (t t' : ℝ), ts[k]? = some t → ts[k + 1]? = some t' → t < t' := by
    intro k t t' h1 h2
    obtain ⟨hj, rfl⟩ := List.getElem?_eq_some_iff.1 h1
    obtain ⟨hj', rfl⟩ := List.getElem?_eq_some_iff.1 h2
    exact List.pairwise_iff_getElem.1 hinc k (k + 1) hj hj' (by omega)
  have hxR : ∀ (k : ℕ) (t : ℝ) (x : V), ts[k]? = some t → sol[k]? = some x → ‖x‖ ≤ |R| + 1 := by
    intro k t x hk hx
    have h1 := (hsol k t x hk hx).trans hε
    have h2 := hR t (hmem k t hk)
    have h3 : ‖x‖ ≤ ‖x - y t‖ + ‖y t‖ := by simpa using norm_add_le (x - y t) (y t)
    have := le_abs_self R
    linarith
  have hfG : ∀ (k : ℕ) (t : ℝ) (x : V), ts[k]? = some t → sol[k]? = some x → f t x = G (t, x) := by
    intro k t x hk hx
    refine hFG (t, x) ?_
    have h1 := hmem k t hk
    have h2 := hxR k t x hk hx
    have := neg_abs_le t0
    have := le_abs_self T
    have := abs_nonneg t0
    have := abs_nonneg T
    have := abs_nonneg R
    rw [Prod.norm_def]
    refine max_le ?_ (by simp only; linarith)
    rw [Real.norm_eq_abs, abs_le]
    constructor <;> linarith [h1.1, h1.2]
  -- slopes of the polygon
  have hslope : ∀ (k : ℕ) (t t' : ℝ) (x x' : V), ts[k]? = some t → ts[k + 1]? = some t' → sol[k]? = some x →
      sol[k + 1]? = some x' → ‖(t' - t)⁻¹ • (x' - x) - f t x‖ ≤ C1 * (t' - t) := by
    intro k t t' x x' h1 h2 h3 h4
    have hp := sub_pos.2 (hlt k t t' h1 h2)
    have hg := hgap k t t' h1 h2
    have e := htraj.next k t t' x h1 h2 h3
    rw [h4, Option.some_inj] at e
    have hb := H1 t (t' - t) x (hmem k t h1).1 hp.le (hg.trans hh1) (by linarith [(hmem _ _ h2).2]) (hxR k t x h1 h3)
    rw [← e] at hb
    have e2 : (t' - t)⁻¹ • (x' - x) - f t x = (t' - t)⁻¹ • (x' - (x + (t' - t) • f t x)) := by
      rw [show x' - (x + (t' - t) • f t x) = (x' - x) - (t' - t) • f t x by abel, smul_sub _ (x' - x), smul_smul,
        inv_mul_cancel₀ hp.ne', one_smul]
    rw [e2, norm_smul, norm_inv, Real.norm_of_nonneg hp.le, inv_mul_le_iff₀ hp]
    linarith [hb, show (t' - t) * (C1 * (t' - t)) = C1 * (t' - t) ^ 2 by ring]
  have hpoly := NaturalSpline.near_polygon hs hinc htraj.length_eq hD0 (by
    intro k t t' t'' x x' x'' h1 h2 h3 h4 h5 h6
    have s1 := hslope k t t' x x' h1 h2 h4 h5
    have s2 := hslope (k + 1) t' t'' x' x'' h2 h3 h5 h6
    have p1 := sub_pos.2 (hlt k t t' h1 h2)
    have p2 := sub_pos.2 (hlt (k + 1) t' t'' h2 h3)
    have g1 := hgap k t t' h1 h2
    have hx' : ‖x' - x‖ ≤ (t' - t) * (B + C1) := by
      have e : x' - x = (t' - t) • (((t' - t)⁻¹ • (x' - x) - f t x) + f t x) := by
        rw [sub_add_cancel, smul_smul, mul_inv_cancel₀ p1.ne', one_smul]
      rw [e, norm_smul, Real.norm_of_nonneg p1.le]
      refine mul_le_mul_of_nonneg_left ((norm_add_le _ _).trans ?_) p1.le
      have hb := hB (t, x)
      rw [← hfG k t x h1 h4] at hb
      have : C1 * (t' - t) ≤ C1 * 1 := mul_le_mul_of_nonneg_left (by linarith) hC1
      linarith
    have hff : ‖f t' x' - f t x‖ ≤ L * (1 + (B + C1)) * (t' - t) := by
      rw [hfG k t x h1 h4, hfG (k + 1) t' x' h2 h5]
      refine (hL _ _).trans ?_
      rw [mul_assoc]
      refine mul_le_mul_of_nonneg_left ?_ hL0
      rw [Prod.mk_sub_mk, Prod.norm_def]
      have hbc : 0 ≤ (t' - t) * (B + C1) := by positivity
      refine max_le ?_ ?_
      · simp only [Real.norm_eq_abs, abs_of_pos p1]
        linarith
      · simp only
        linarith
    have e : (t'' - t')⁻¹ • (x'' - x') - (t' - t)⁻¹ • (x' - x) = ((t'' - t')⁻¹ • (x'' - x') - f t' x') + (f t' x' - f t x) -
        ((t' - t)⁻¹ • (x' - x) - f t x) := by abel
    rw [e]
    have n1 := norm_sub_le (((t'' - t')⁻¹ • (x'' - x') - f t' x') + (f t' x' - f t x)) ((t' - t)⁻¹ • (x' - x) - f t x)
    have n2 := norm_add_le ((t'' - t')⁻¹ • (x'' - x') - f t' x') (f t' x' - f t x)
    have q1 : 0 ≤ L * (1 + (B + C1)) * (t'' - t') := by positivity
    have q2 : 0 ≤ C1 * (t'' - t') := by positivity
    have q3 : 0 ≤ C1 * (t' - t) := by positivity
    have e3 : D * (t'' - t) = C1 * (t'' - t') + C1 * (t' - t) + (C1 * (t'' - t') + C1 * (t' - t) +
        (L * (1 + (B + C1)) * (t'' - t') + L * (1 + (B + C1)) * (t' - t))) := by
      rw [← hD]
      ring
    rw [e3]
    linarith)
  have hil : i + 1 < sol.length := by
    rw [htraj.length_eq]
    exact (List.getElem?_eq_some_iff.1 hi').1
  obtain ⟨x, hx⟩ : ∃ x, sol[i]? = some x := ⟨_, List.getElem?_eq_getElem (by omega)⟩
  obtain ⟨x', hx'⟩ : ∃ x, sol[i + 1]? = some x := ⟨_, List.getElem?_eq_getElem hil⟩
  have b1 := hpoly i t t' x x' hi hi' hx hx' r hr1 hr2
  have b2 := hslope i t t' x x' hi hi' hx hx'
  have p1 := sub_pos.2 (hlt i t t' hi hi')
  have g1 := hgap i t t' hi hi'
  have hxy := hsol i t x hi hx
  have hε0 : 0 ≤ ε := (norm_nonneg _).trans hxy
  have b3 := H2 y t (r - t) x (hmem i t hi).1 (by linarith) (by linarith) (by linarith [hr.2]) (by
    rw [add_sub_cancel]
    intro s' hs'
    have hs0 : t0 ≤ t := (hmem i t hi).1
    exact ⟨(hy.mono hs0 hr.2) s' hs', hR s' ⟨hs0.trans hs'.1, hs'.2.trans hr.2⟩⟩) (hxy.trans hε)
  simp only [add_sub_cancel] at b3
  have e : s r - y r = (s r - (x + (r - t) • ((t' - t)⁻¹ • (x' - x)))) + (r - t) • ((t' - t)⁻¹ • (x' - x) - f t x) +
      (x + (r - t) • f t x - y r) := by
    rw [smul_sub (r - t) ((t' - t)⁻¹ • (x' - x))]
    abel
  rw [e]
  have n1 := norm_add_le ((s r - (x + (r - t) • ((t' - t)⁻¹ • (x' - x)))) + (r - t) • ((t' - t)⁻¹ • (x' - x) - f t x))
    (x + (r - t) • f t x - y r)
  have n2 := norm_add_le (s r - (x + (r - t) • ((t' - t)⁻¹ • (x' - x)))) ((r - t) • ((t' - t)⁻¹ • (x' - x) - f t x))
  rw [norm_smul, Real.norm_of_nonneg (by linarith : 0 ≤ r - t)] at n2
  have hrt : r - t ≤ h := by linarith
  have hrt0 : 0 ≤ r - t := by linarith
  have hh0 : 0 ≤ h := hrt0.trans hrt
  have sq1 : (t' - t) ^ 2 ≤ h ^ 2 := by gcongr
  have sq2 : (r - t) ^ (1 + 1) ≤ h ^ 2 := by
    rw [show 1 + 1 = 2 from rfl]
    gcongr
  have m1 : 8 * D * (t' - t) ^ 2 ≤ 8 * D * h ^ 2 := mul_le_mul_of_nonneg_left sq1 (by positivity)
  have m2 : (r - t) * ‖(t' - t)⁻¹ • (x' - x) - f t x‖ ≤ C1 * h ^ 2 := by
    have : (r - t) * ‖(t' - t)⁻¹ • (x' - x) - f t x‖ ≤ h * (C1 * h) :=
      mul_le_mul hrt (b2.trans (mul_le_mul_of_nonneg_left g1 hC1)) (norm_nonneg _) hh0
    linarith [this, show h * (C1 * h) = C1 * h ^ 2 by ring]
  have m3 : C2 * (r - t) ^ (1 + 1) ≤ C2 * h ^ 2 := mul_le_mul_of_nonneg_left sq2 hC2
  have m4 : (1 + L2 * (r - t)) * ‖x - y t‖ ≤ (1 + L2) * ε := by
    refine mul_le_mul ?_ hxy (norm_nonneg _) (by positivity)
    have : L2 * (r - t) ≤ L2 * 1 := mul_le_mul_of_nonneg_left (by linarith) hL2
    linarith
  have hsq : 0 ≤ h ^ 2 := sq_nonneg h
  have r1 : 0 ≤ (8 * D + C1 + C2) * ε := by positivity
  have r2 : 0 ≤ (1 + L2) * h ^ 2 := by positivity
  have e9 : (8 * D + C1 + C2 + (1 + L2)) * (h ^ 2 + ε) = 8 * D * h ^ 2 + C1 * h ^ 2 + C2 * h ^ 2 + (1 + L2) * ε +
      (8 * D + C1 + C2) * ε + (1 + L2) * h ^ 2 := by ring
  rw [e9]
  linarith

end increments

end Torchdyn
