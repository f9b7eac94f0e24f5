import Verif.Spec.Spline
import Mathlib.Analysis.Normed.Module.Basic
import Mathlib.Tactic.Module
import Mathlib.Tactic.LinearCombination
import Mathlib.Tactic.Linarith
import Mathlib.Tactic.Positivity
import Mathlib.Tactic.FieldSimp

/-!
Natural cubic splines: existence, and distance to the polygon through the knots. Used for the interpolated adjoint
(Props/InterpOrder.lean).
-/

set_option linter.unusedSectionVars false

namespace Torchdyn

open Spec

variable {X : Type} [NormedAddCommGroup X] [NormedSpace ℝ X]

/-- The equations for the half second derivatives `c` of a spline with gaps `g` and slopes `Δ` of the polygon. -/
theorem spline_row {t t' t'' : ℝ} {x x' x'' b b' c c' c'' d d' : X} (h : t < t') (h' : t' < t'')
    (e1 : x' = x + (t' - t) • b + (t' - t) ^ 2 • c + (t' - t) ^ 3 • d)
    (e2 : x'' = x' + (t'' - t') • b' + (t'' - t') ^ 2 • c' + (t'' - t') ^ 3 • d')
    (e3 : b' = b + (2 * (t' - t)) • c + (3 * (t' - t) ^ 2) • d) (e4 : c' = c + (3 * (t' - t)) • d)
    (e5 : c'' = c' + (3 * (t'' - t')) • d') :
    (2 * (t'' - t)) • c' = (3 : ℝ) • ((t'' - t')⁻¹ • (x'' - x') - (t' - t)⁻¹ • (x' - x)) - (t' - t) • c - (t'' - t') • c'' := by
  have hn : t' - t ≠ 0 := (sub_pos.2 h).ne'
  have hn' : t'' - t' ≠ 0 := (sub_pos.2 h').ne'
  have f1 : (t' - t)⁻¹ • (x' - x) = b + (t' - t) • c + (t' - t) ^ 2 • d := by
    rw [e1, show x + (t' - t) • b + (t' - t) ^ 2 • c + (t' - t) ^ 3 • d - x =
      (t' - t) • (b + (t' - t) • c + (t' - t) ^ 2 • d) by module, smul_smul, inv_mul_cancel₀ hn, one_smul]
  have f2 : (t'' - t')⁻¹ • (x'' - x') = b' + (t'' - t') • c' + (t'' - t') ^ 2 • d' := by
    rw [e2, show x' + (t'' - t') • b' + (t'' - t') ^ 2 • c' + (t'' - t') ^ 3 • d' - x' =
      (t'' - t') • (b' + (t'' - t') • c' + (t'' - t') ^ 2 • d') by module, smul_smul, inv_mul_cancel₀ hn', one_smul]
  rw [f1, f2, e5, e3, e4]
  module

/-- The half second derivatives are bounded by the second differences of the values. -/
theorem spline_coeff_bound {n : ℕ} {c r : ℕ → X} {g : ℕ → ℝ} {D : ℝ} (hg : ∀ i < n, 0 < g i) (hD : 0 ≤ D) (h0 : c 0 = 0)
    (hn : c n = 0)
    (hrow : ∀ i, i + 1 < n → (2 * (g i + g (i + 1))) • c (i + 1) = r i - g i • c i - g (i + 1) • c (i + 2))
    (hr : ∀ i, i + 1 < n → ‖r i‖ ≤ D * (g i + g (i + 1))) : ∀ i ≤ n, ‖c i‖ ≤ D := by
  obtain ⟨j, hj, hmax⟩ := Finset.exists_max_image (Finset.range (n + 1)) (fun i => ‖c i‖) ⟨0, by simp⟩
  have hle : ∀ i ≤ n, ‖c i‖ ≤ ‖c j‖ := fun i hi => hmax i (by simp; omega)
  suffices h : ‖c j‖ ≤ D from fun i hi => (hle i hi).trans h
  have hjn : j ≤ n := by simp at hj; omega
  rcases Nat.eq_zero_or_pos j with rfl | hj0
  · rw [h0, norm_zero]; exact hD
  rcases hjn.eq_or_lt with rfl | hjn
  · rw [hn, norm_zero]; exact hD
  obtain ⟨i, rfl⟩ : ∃ i, j = i + 1 := ⟨j - 1, by omega⟩
  have g1 := hg i (by omega)
  have g2 := hg (i + 1) hjn
  have e := congrArg norm (hrow i hjn)
  rw [norm_smul, Real.norm_of_nonneg (by positivity)] at e
  have b1 := norm_sub_le (r i - g i • c i) (g (i + 1) • c (i + 2))
  have b2 := norm_sub_le (r i) (g i • c i)
  rw [norm_smul, Real.norm_of_nonneg g2.le] at b1
  rw [norm_smul (g i), Real.norm_of_nonneg g1.le] at b2
  have b3 := mul_le_mul_of_nonneg_left (hle i (by omega)) g1.le
  have b4 := mul_le_mul_of_nonneg_left (hle (i + 2) (by omega)) g2.le
  have b5 := hr i hjn
  have h1 : (g i + g (i + 1)) * ‖c (i + 1)‖ ≤ (g i + g (i + 1)) * D := by linarith
  exact le_of_mul_le_mul_left h1 (by linarith)

/-- Elimination factors of the tridiagonal system. -/
noncomputable def sweepA (g : ℕ → ℝ) : ℕ → ℝ
  | 0 => 0
  | k + 1 => g (k + 1) / (2 * (g k + g (k + 1)) - g k * sweepA g k)

noncomputable def sweepB (g : ℕ → ℝ) (r : ℕ → X) : ℕ → X
  | 0 => 0
  | k + 1 => (2 * (g k + g (k + 1)) - g k * sweepA g k)⁻¹ • (r k - g k • sweepB g r k)

/-- Back substitution: the unknown with index `n - j`. -/
noncomputable def sweepC (g : ℕ → ℝ) (r : ℕ → X) (n : ℕ) : ℕ → X
  | 0 => 0
  | j + 1 => sweepB g r (n - (j + 1)) - sweepA g (n - (j + 1)) • sweepC g r n j

theorem sweepA_mem {g : ℕ → ℝ} {n : ℕ} (hg : ∀ i < n, 0 < g i) : ∀ k < n, 0 ≤ sweepA g k ∧ sweepA g k ≤ 1 := by
  intro k
  induction k with
  | zero => intro _; simp [sweepA]
  | succ k ih =>
    intro hk
    have g1 := hg k (by omega)
    have g2 := hg (k + 1) hk
    obtain ⟨a0, a1⟩ := ih (by omega)
    have h1 : g k * sweepA g k ≤ g k := mul_le_of_le_one_right g1.le a1
    have hpos : 0 < 2 * (g k + g (k + 1)) - g k * sweepA g k := by linarith
    rw [sweepA]
    exact ⟨div_nonneg g2.le hpos.le, (div_le_one hpos).2 (by linarith)⟩

/-- The tridiagonal system of the spline has a solution. -/
theorem exists_spline_coeff {n : ℕ} {g : ℕ → ℝ} (hg : ∀ i < n, 0 < g i) (r : ℕ → X) :
    ∃ c : ℕ → X, c 0 = 0 ∧ c n = 0 ∧
      ∀ i, i + 1 < n → (2 * (g i + g (i + 1))) • c (i + 1) = r i - g i • c i - g (i + 1) • c (i + 2) := by
  have hstep : ∀ k < n, sweepC g r n (n - k) = sweepB g r k - sweepA g k • sweepC g r n (n - (k + 1)) := by
    intro k hk
    obtain ⟨j, hj⟩ : ∃ j, n - k = j + 1 := ⟨n - k - 1, by omega⟩
    rw [hj, sweepC, show n - (j + 1) = k by omega, show n - (k + 1) = j by omega]
  refine ⟨fun k => sweepC g r n (n - k), ?_, by simp [sweepC], ?_⟩
  · rcases Nat.eq_zero_or_pos n with rfl | hn
    · simp [sweepC]
    · simp only [hstep 0 hn, sweepB, sweepA, zero_smul, sub_zero]
  · intro i hi
    have g1 := hg i (by omega)
    have g2 := hg (i + 1) hi
    obtain ⟨a0, a1⟩ := sweepA_mem hg i (by omega)
    have h1 : g i * sweepA g i ≤ g i := mul_le_of_le_one_right g1.le a1
    have hpos : 0 < 2 * (g i + g (i + 1)) - g i * sweepA g i := by linarith
    simp only
    rw [hstep i (by omega)]
    have e := hstep (i + 1) hi
    generalize sweepC g r n (n - (i + 1)) = c1 at *
    rw [show i + 1 + 1 = i + 2 from rfl] at e
    generalize sweepC g r n (n - (i + 2)) = c2 at *
    rw [sweepB, sweepA] at e
    generalize hm : 2 * (g i + g (i + 1)) - g i * sweepA g i = m at *
    have e' : m • c1 = r i - g i • sweepB g r i - g (i + 1) • c2 := by
      rw [e, smul_sub, smul_smul, smul_smul, mul_inv_cancel₀ hpos.ne', mul_div_cancel₀ _ hpos.ne', one_smul]
    have e2 : (2 * (g i + g (i + 1))) • c1 = m • c1 + (g i * sweepA g i) • c1 := by
      rw [← hm]
      module
    rw [e2, e']
    module

/-- **Existence.** Through all values at increasing knots there is a natural cubic spline. -/
theorem exists_naturalSpline (ts : List ℝ) (xs : List X) (hinc : ts.Pairwise (· < ·)) :
    ∃ s, NaturalSpline ts xs s := by
  classical
  generalize hn : ts.length - 1 = n
  set t : ℕ → ℝ := fun i => ts.getD i 0 with ht
  set x : ℕ → X := fun i => xs.getD i 0 with hx
  have hlt : ∀ i < n, t i < t (i + 1) := by
    intro i hi
    have h1 : i < ts.length := by omega
    have h2 : i + 1 < ts.length := by omega
    simp only [ht, List.getD_eq_getElem?_getD, List.getElem?_eq_getElem h1, List.getElem?_eq_getElem h2, Option.getD_some]
    exact List.pairwise_iff_getElem.1 hinc i (i + 1) h1 h2 (by omega)
  have hmono : ∀ i j, i ≤ j → j ≤ n → t i ≤ t j := by
    intro i j hij
    induction j, hij using Nat.le_induction with
    | base => intro _; exact le_rfl
    | succ j hj ih => intro hjn; exact (ih (by omega)).trans (hlt j (by omega)).le
  obtain ⟨c, hc0, hcn, hrow⟩ := exists_spline_coeff (n := n) (g := fun i => t (i + 1) - t i)
    (fun i hi => sub_pos.2 (hlt i hi)) (fun i => (3 : ℝ) • ((t (i + 2) - t (i + 1))⁻¹ • (x (i + 2) - x (i + 1)) -
      (t (i + 1) - t i)⁻¹ • (x (i + 1) - x i)))
  set d : ℕ → X := fun i => (3 * (t (i + 1) - t i))⁻¹ • (c (i + 1) - c i) with hd
  set b : ℕ → X := fun i => if i < n then (t (i + 1) - t i)⁻¹ • (x (i + 1) - x i) - ((t (i + 1) - t i) / 3) • ((2 : ℝ) • c i + c (i + 1))
    else (t i - t (i - 1))⁻¹ • (x i - x (i - 1)) - ((t i - t (i - 1)) / 3) • ((2 : ℝ) • c (i - 1) + c i) +
      (t i - t (i - 1)) • (c (i - 1) + c i) with hb
  have hbi : ∀ i < n, b i = (t (i + 1) - t i)⁻¹ • (x (i + 1) - x i) - ((t (i + 1) - t i) / 3) • ((2 : ℝ) • c i + c (i + 1)) := by
    intro i hi
    simp only [hb, if_pos hi]
  have hval : ∀ i < n, x (i + 1) = x i + (t (i + 1) - t i) • b i + (t (i + 1) - t i) ^ 2 • c i + (t (i + 1) - t i) ^ 3 • d i := by
    intro i hi
    have hp := (sub_pos.2 (hlt i hi)).ne'
    rw [hbi i hi, hd]
    simp only
    generalize t (i + 1) - t i = g at *
    have e1 : g • (g⁻¹ • (x (i + 1) - x i)) = x (i + 1) - x i := by rw [smul_smul, mul_inv_cancel₀ hp, one_smul]
    have e2 : g ^ 3 • ((3 * g)⁻¹ • (c (i + 1) - c i)) = (g ^ 2 / 3) • (c (i + 1) - c i) := by
      rw [smul_smul]
      congr 1
      field_simp
    rw [smul_sub, e1, e2]
    module
  have hb1 : ∀ i < n, b (i + 1) = b i + (2 * (t (i + 1) - t i)) • c i + (3 * (t (i + 1) - t i) ^ 2) • d i := by
    intro i hi
    have hp := (sub_pos.2 (hlt i hi)).ne'
    have e2 : (3 * (t (i + 1) - t i) ^ 2) • d i = (t (i + 1) - t i) • (c (i + 1) - c i) := by
      rw [hd]
      simp only [smul_smul]
      congr 1
      field_simp
    rw [e2, hbi i hi]
    by_cases h : i + 1 < n
    · rw [hbi _ h]
      have hr := hrow i h
      rw [show i + 1 + 1 = i + 2 from rfl] at *
      generalize (t (i + 2) - t (i + 1))⁻¹ • (x (i + 2) - x (i + 1)) = u at *
      generalize (t (i + 1) - t i)⁻¹ • (x (i + 1) - x i) = v at *
      have e3 : u - v = (3 : ℝ)⁻¹ • ((2 * (t (i + 1) - t i + (t (i + 2) - t (i + 1)))) • c (i + 1) + (t (i + 1) - t i) • c i +
          (t (i + 2) - t (i + 1)) • c (i + 2)) := by
        rw [hr]
        module
      rw [eq_add_of_sub_eq e3]
      module
    · simp only [hb, if_neg h, Nat.add_sub_cancel]
      module
  have hc1 : ∀ i < n, c (i + 1) = c i + (3 * (t (i + 1) - t i)) • d i := by
    intro i hi
    have hp : 3 * (t (i + 1) - t i) ≠ 0 := mul_ne_zero (by norm_num) (sub_pos.2 (hlt i hi)).ne'
    rw [hd]
    simp only
    rw [smul_smul, mul_inv_cancel₀ hp, one_smul]
    abel
  refine ⟨fun r => (fun i => x i + (r - t i) • b i + (r - t i) ^ 2 • c i + (r - t i) ^ 3 • d i)
    (Nat.findGreatest (fun i => t i ≤ r) (n - 1)), b, c, d, hc0, by rw [hn]; exact hcn, ?_⟩
  intro i t1 t2 x1 x2 h1 h2 h3 h4
  have hi : i < n := by
    have := (List.getElem?_eq_some_iff.1 h2).1
    omega
  have et1 : t1 = t i := by simp [ht, List.getD_eq_getElem?_getD, h1]
  have et2 : t2 = t (i + 1) := by simp [ht, List.getD_eq_getElem?_getD, h2]
  have ex1 : x1 = x i := by simp [hx, List.getD_eq_getElem?_getD, h3]
  have ex2 : x2 = x (i + 1) := by simp [hx, List.getD_eq_getElem?_getD, h4]
  rw [et1, et2, ex1, ex2]
  refine ⟨?_, hval i hi, hb1 i hi, hc1 i hi⟩
  intro r hr1 hr2
  have hge : i ≤ Nat.findGreatest (fun i => t i ≤ r) (n - 1) := Nat.le_findGreatest (by omega) hr1
  change (fun i => x i + (r - t i) • b i + (r - t i) ^ 2 • c i + (r - t i) ^ 3 • d i)
    (Nat.findGreatest (fun i => t i ≤ r) (n - 1)) = _
  rcases hge.eq_or_lt with he | hgt
  · rw [← he]
  · have hle := Nat.findGreatest_le (P := fun i => t i ≤ r) (n - 1)
    have hsp : t (Nat.findGreatest (fun i => t i ≤ r) (n - 1)) ≤ r :=
      Nat.findGreatest_spec (P := fun i => t i ≤ r) (m := i) (by omega) hr1
    generalize Nat.findGreatest (fun i => t i ≤ r) (n - 1) = j at *
    have hji : j = i + 1 := by
      by_contra hne
      have h1 := hmono (i + 2) j (by omega) (by omega)
      have h2 := hlt (i + 1) (by omega)
      linarith
    subst hji
    have hre : r = t (i + 1) := le_antisymm hr2 hsp
    subst hre
    simp only [sub_self, zero_smul, add_zero, ne_eq, OfNat.ofNat_ne_zero, not_false_eq_true, zero_pow]
    exact hval i hi

/-- Distance of a natural cubic spline to the polygon through its knots. -/
theorem NaturalSpline.near_polygon {ts : List ℝ} {xs : List X} {s : ℝ → X} (hs : NaturalSpline ts xs s)
    (hinc : ts.Pairwise (· < ·)) (hlen : xs.length = ts.length) {D : ℝ} (hD : 0 ≤ D)
    (hsec : ∀ (i : ℕ) (t t' t'' : ℝ) (x x' x'' : X), ts[i]? = some t → ts[i + 1]? = some t' → ts[i + 2]? = some t'' →
      xs[i]? = some x → xs[i + 1]? = some x' → xs[i + 2]? = some x'' →
      ‖(t'' - t')⁻¹ • (x'' - x') - (t' - t)⁻¹ • (x' - x)‖ ≤ D * (t'' - t)) :
    ∀ (i : ℕ) (t t' : ℝ) (x x' : X), ts[i]? = some t → ts[i + 1]? = some t' → xs[i]? = some x → xs[i + 1]? = some x' →
      ∀ r, t ≤ r → r ≤ t' → ‖s r - (x + (r - t) • ((t' - t)⁻¹ • (x' - x)))‖ ≤ 8 * D * (t' - t) ^ 2 := by
  obtain ⟨b, c, d, hc0, hcn, H⟩ := hs
  generalize hn : ts.length - 1 = n at *
  set g : ℕ → ℝ := fun i => ts.getD (i + 1) 0 - ts.getD i 0 with hg
  have hts : ∀ i ≤ n, 0 < n → ts[i]? = some (ts.getD i 0) := by
    intro i hi h0
    have h1 : i < ts.length := by omega
    rw [List.getD_eq_getElem?_getD, List.getElem?_eq_getElem h1, Option.getD_some]
  have hxs : ∀ i ≤ n, 0 < n → xs[i]? = some (xs.getD i 0) := by
    intro i hi h0
    have h1 : i < xs.length := by omega
    rw [List.getD_eq_getElem?_getD, List.getElem?_eq_getElem h1, Option.getD_some]
  have hlt : ∀ i < n, ts.getD i 0 < ts.getD (i + 1) 0 := by
    intro i hi
    have h1 : i < ts.length := by omega
    have h2 : i + 1 < ts.length := by omega
    simp only [List.getD_eq_getElem?_getD, List.getElem?_eq_getElem h1, List.getElem?_eq_getElem h2, Option.getD_some]
    exact List.pairwise_iff_getElem.1 hinc i (i + 1) h1 h2 (by omega)
  have hcb := spline_coeff_bound (n := n) (c := c) (g := g) (D := 3 * D)
    (r := fun i => (3 : ℝ) • ((ts.getD (i + 2) 0 - ts.getD (i + 1) 0)⁻¹ • (xs.getD (i + 2) 0 - xs.getD (i + 1) 0) -
      (ts.getD (i + 1) 0 - ts.getD i 0)⁻¹ • (xs.getD (i + 1) 0 - xs.getD i 0)))
    (fun i hi => sub_pos.2 (hlt i hi)) (by positivity) hc0 hcn (by
      intro i hi
      obtain ⟨-, h1, h2, h3⟩ := H i _ _ _ _ (hts i (by omega) (by omega)) (hts (i + 1) (by omega) (by omega))
        (hxs i (by omega) (by omega)) (hxs (i + 1) (by omega) (by omega))
      obtain ⟨-, h4, -, h5⟩ := H (i + 1) _ _ _ _ (hts (i + 1) (by omega) (by omega)) (hts (i + 2) (by omega) (by omega))
        (hxs (i + 1) (by omega) (by omega)) (hxs (i + 2) (by omega) (by omega))
      have := spline_row (hlt i (by omega)) (hlt (i + 1) (by omega)) h1 h4 h2 h3 h5
      simp only [hg]
      rw [← this]
      congr 1
      ring) (by
      intro i hi
      have := hsec i _ _ _ _ _ _ (hts i (by omega) (by omega)) (hts (i + 1) (by omega) (by omega))
        (hts (i + 2) (by omega) (by omega)) (hxs i (by omega) (by omega)) (hxs (i + 1) (by omega) (by omega))
        (hxs (i + 2) (by omega) (by omega))
      rw [norm_smul, Real.norm_of_nonneg (by norm_num)]
      simp only [hg]
      rw [show ts.getD (i + 1) 0 - ts.getD i 0 + (ts.getD (i + 1 + 1) 0 - ts.getD (i + 1) 0) = ts.getD (i + 2) 0 - ts.getD i 0 by
        rw [show i + 1 + 1 = i + 2 from rfl]; ring, mul_assoc]
      exact mul_le_mul_of_nonneg_left this (by norm_num))
  intro i t t' x x' h1 h2 h3 h4 r hr1 hr2
  have hin : i < n := by
    have := (List.getElem?_eq_some_iff.1 h2).1
    omega
  have hlt' : t < t' := by
    have := hlt i hin
    simpa [List.getD_eq_getElem?_getD, h1, h2] using this
  obtain ⟨e1, e2, -, e3⟩ := H i t t' x x' h1 h2 h3 h4
  have b0 := hcb i hin.le
  have b1 := hcb (i + 1) (by omega)
  rw [e1 r hr1 hr2]
  have hG : 0 < t' - t := sub_pos.2 hlt'
  have hu0 : 0 ≤ r - t := sub_nonneg.2 hr1
  have hu1 : r - t ≤ t' - t := by linarith
  generalize r - t = u at *
  generalize t' - t = G at *
  have f1 : G⁻¹ • (x' - x) = b i + G • c i + G ^ 2 • d i := by
    rw [e2, show x + G • b i + G ^ 2 • c i + G ^ 3 • d i - x = G • (b i + G • c i + G ^ 2 • d i) by module, smul_smul,
      inv_mul_cancel₀ hG.ne', one_smul]
  have f2 : x + u • b i + u ^ 2 • c i + u ^ 3 • d i - (x + u • (G⁻¹ • (x' - x))) =
      (u ^ 2 - u * G) • c i + ((u ^ 3 - u * G ^ 2) / (3 * G)) • (c (i + 1) - c i) := by
    rw [f1, e3, show c i + (3 * G) • d i - c i = (3 * G) • d i by abel, smul_smul, div_mul_cancel₀ _ (by positivity)]
    module
  rw [f2]
  have k1 : |u ^ 2 - u * G| ≤ G ^ 2 := by
    rw [abs_le]
    constructor <;> nlinarith
  have k2 : |(u ^ 3 - u * G ^ 2) / (3 * G)| ≤ G ^ 2 / 3 := by
    rw [abs_div, abs_of_pos (by positivity : (0 : ℝ) < 3 * G), div_le_div_iff₀ (by positivity) (by norm_num)]
    have : |u ^ 3 - u * G ^ 2| ≤ G ^ 3 := by
      have h5 : u ^ 3 ≤ u * G ^ 2 := by
        have : u ^ 2 ≤ G ^ 2 := by gcongr
        nlinarith
      have h6 : u * G ^ 2 ≤ G ^ 3 := by
        have := mul_le_mul_of_nonneg_right hu1 (sq_nonneg G)
        nlinarith
      have h7 : 0 ≤ u ^ 3 := by positivity
      rw [abs_le]
      constructor <;> nlinarith [pow_pos hG 3]
    nlinarith
  refine (norm_add_le _ _).trans ?_
  rw [norm_smul, norm_smul, Real.norm_eq_abs, Real.norm_eq_abs]
  have k3 : ‖c (i + 1) - c i‖ ≤ 6 * D := (norm_sub_le _ _).trans (by linarith)
  have m1 := mul_le_mul k1 b0 (norm_nonneg _) (sq_nonneg G)
  have m2 := mul_le_mul k2 k3 (norm_nonneg _) (by positivity)
  have : 0 ≤ D * G ^ 2 := by positivity
  linarith

/-- The spline through `(0, 0), (1, 1), (2, 0)` is not the polygon: it exists and has the value `11/16` at `1/2`. -/
example : ∃ s : ℝ → ℝ, NaturalSpline [0, 1, 2] [0, 1, 0] s ∧ s (1 / 2) = 11 / 16 := by
  obtain ⟨s, hs⟩ := exists_naturalSpline [(0 : ℝ), 1, 2] [(0 : ℝ), 1, 0] (by norm_num)
  refine ⟨s, hs, ?_⟩
  obtain ⟨b, c, d, h0, h2, H⟩ := hs
  obtain ⟨a1, a2, a3, a4⟩ := H 0 0 1 0 1 rfl rfl rfl rfl
  obtain ⟨-, b2, b3, b4⟩ := H 1 1 2 1 0 rfl rfl rfl rfl
  simp at h2
  rw [a1 (1 / 2) (by norm_num) (by norm_num)]
  simp only [smul_eq_mul] at *
  norm_num at a2 a3 a4 b2 b3 b4 ⊢
  linarith

end Torchdyn
