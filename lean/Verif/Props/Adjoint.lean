import Verif.Model.Sensitivity
import Mathlib.Analysis.ODE.ExistUnique
import Mathlib.Analysis.Calculus.MeanValue
import Mathlib.Analysis.Calculus.FDeriv.Symmetric
import Mathlib.Analysis.Calculus.Deriv.Prod
import Mathlib.Analysis.SpecialFunctions.ExpDeriv
import Mathlib.MeasureTheory.Integral.IntervalIntegral.FundThmCalculus

/-!
C83: the backward pass of the adjoint sensitivity computes the gradient with respect to initial state and parameters, for
nonlinear time-dependent fields, with losses on all output points and an integral loss, when its solves are exact.
-/

set_option linter.unusedSimpArgs false
set_option linter.unusedSectionVars false

namespace Torchdyn

open Set
open scoped Topology

section adjoint

variable {X P : Type} [NormedAddCommGroup X] [NormedSpace ℝ X] [NormedAddCommGroup P] [NormedSpace ℝ P]

/-- What the backward pass sees of a field `f` with parameters `θ`: its value and, as `torch.autograd.grad` computes them,
the compositions of a cotangent with the partial derivatives. -/
noncomputable def smoothAdjoint (f : P → ℝ → X → X) (θ : P) (dg : Option (ℝ → X → (X →L[ℝ] ℝ))) :
    AdjointField ℝ X (X →L[ℝ] ℝ) (P →L[ℝ] ℝ) where
  vf t x := f θ t x
  vjpX t x l := l.comp (fderiv ℝ (fun x' => f θ t x') x)
  vjpP t x l := l.comp (fderiv ℝ (fun θ' => f θ' t x) θ)
  vjpT t x l := l (deriv (fun s => f θ s x) t)
  pair l x := l x
  lossGrad := dg

/-- `y` solves `y' = g(t, y)` on `[a, b]`. -/
def SolvesOn {S : Type} [NormedAddCommGroup S] [NormedSpace ℝ S] (g : ℝ → S → S) (y : ℝ → S) (a b : ℝ) : Prop :=
  ∀ t ∈ Icc a b, HasDerivWithinAt y (g t (y t)) (Icc a b) t

/-- First variation `u` of the solution `y` of `x' = f(θ, t, x)` in the parameter direction `w`. -/
def IsVariation (f : P → ℝ → X → X) (θ w : P) (y u : ℝ → X) (a b : ℝ) : Prop :=
  SolvesOn (fun t v => fderiv ℝ (fun x => f θ t x) (y t) v + fderiv ℝ (fun θ' => f θ' t (y t)) θ w) u a b

/-- The solves of the backward pass are exact along `y`: between two times of `[a, b]`, started with the state at `y`, the
state returned is the one at the lower time of a solution of the equation it is given. -/
def ExactAlong (solve : (ℝ → AdjState X (X →L[ℝ] ℝ) (P →L[ℝ] ℝ) ℝ → Except PyErr (AdjState X (X →L[ℝ] ℝ) (P →L[ℝ] ℝ) ℝ)) →
      AdjState X (X →L[ℝ] ℝ) (P →L[ℝ] ℝ) ℝ → List ℝ →
      Except PyErr (List ℝ × List (AdjState X (X →L[ℝ] ℝ) (P →L[ℝ] ℝ) ℝ)))
    (F : AdjointField ℝ X (X →L[ℝ] ℝ) (P →L[ℝ] ℝ)) (y : ℝ → X) (a b : ℝ) : Prop :=
  ∀ (A : AdjState X (X →L[ℝ] ℝ) (P →L[ℝ] ℝ) ℝ) (tHi tLo : ℝ), a ≤ tLo → tLo < tHi → tHi ≤ b → A.1 = y tHi →
    ∃ z ts, z tHi = A ∧ SolvesOn (adjointDynamics F) z tLo tHi ∧
      solve (fun t A => pure (adjointDynamics F t A)) A [tHi, tLo] = .ok (ts, [A, z tLo])

/-- Solutions with the same final value agree (locally Lipschitz fields on proper spaces). -/
theorem backward_unique [ProperSpace X] {g : ℝ → X → X} (hg : Continuous fun p : ℝ × X => fderiv ℝ (g p.1) p.2)
    (hd : ∀ t, Differentiable ℝ (g t)) {y z : ℝ → X} {a b : ℝ} (hy : SolvesOn g y a b) (hz : SolvesOn g z a b)
    (heq : y b = z b) : EqOn y z (Icc a b) := by
  by_cases hab : a ≤ b
  swap
  · rw [Icc_eq_empty hab]; exact eqOn_empty _ _
  have hyc : ContinuousOn y (Icc a b) := fun t ht => (hy t ht).continuousWithinAt
  have hzc : ContinuousOn z (Icc a b) := fun t ht => (hz t ht).continuousWithinAt
  obtain ⟨R1, hR1⟩ := (isCompact_Icc.image_of_continuousOn hyc).isBounded.subset_closedBall (0 : X)
  obtain ⟨R2, hR2⟩ := (isCompact_Icc.image_of_continuousOn hzc).isBounded.subset_closedBall (0 : X)
  set R := max R1 R2
  have hcomp : IsCompact (Icc a b ×ˢ Metric.closedBall (0 : X) R) := isCompact_Icc.prod (isCompact_closedBall _ _)
  obtain ⟨C, hC⟩ := hcomp.exists_bound_of_continuousOn hg.continuousOn
  set K : NNReal := Real.toNNReal C
  have hlip : ∀ t ∈ Ioc a b, LipschitzOnWith K (g t) (Metric.closedBall (0 : X) R) := by
    intro t ht
    refine (convex_closedBall (0 : X) R).lipschitzOnWith_of_nnnorm_fderiv_le (fun x _ => hd t x) ?_
    intro x hx
    have := hC (t, x) ⟨⟨ht.1.le, ht.2⟩, hx⟩
    rw [← NNReal.coe_le_coe]
    exact this.trans (Real.le_coe_toNNReal C)
  refine ODE_solution_unique_of_mem_Icc_left (v := g) (s := fun _ => Metric.closedBall (0 : X) R) (K := K) hlip hyc ?_ ?_ hzc
    ?_ ?_ heq
  · intro t ht
    exact (hy t ⟨ht.1.le, ht.2⟩).mono_of_mem_nhdsWithin (by
      exact Filter.mem_of_superset (inter_mem_nhdsWithin _ (Ioi_mem_nhds ht.1)) fun s hs => ⟨hs.2.le, hs.1.trans ht.2⟩)
  · intro t ht
    exact Metric.closedBall_subset_closedBall (le_max_left _ _) (hR1 (mem_image_of_mem _ ⟨ht.1.le, ht.2⟩))
  · intro t ht
    exact (hz t ⟨ht.1.le, ht.2⟩).mono_of_mem_nhdsWithin (by
      exact Filter.mem_of_superset (inter_mem_nhdsWithin _ (Ioi_mem_nhds ht.1)) fun s hs => ⟨hs.2.le, hs.1.trans ht.2⟩)
  · intro t ht
    exact Metric.closedBall_subset_closedBall (le_max_right _ _) (hR2 (mem_image_of_mem _ ⟨ht.1.le, ht.2⟩))

/-- The gradient of the integral loss, zero if there is none. -/
def lossCot (dg : Option (ℝ → X → (X →L[ℝ] ℝ))) (t : ℝ) (x : X) : X →L[ℝ] ℝ :=
  match dg with
  | some dg => dg t x
  | none => 0

/-- The pairing `λ u + μ w` over one solve of the backward pass. -/
theorem adjoint_interval {f : P → ℝ → X → X} {θ w : P} {dg : Option (ℝ → X → (X →L[ℝ] ℝ))}
    (hdg : Continuous fun p : ℝ × X => lossCot dg p.1 p.2) {y u : ℝ → X} {a b : ℝ} (hab : a ≤ b)
    (hy : ContinuousOn y (Icc a b)) (hu : IsVariation f θ w y u a b)
    {z : ℝ → AdjState X (X →L[ℝ] ℝ) (P →L[ℝ] ℝ) ℝ} (hz : SolvesOn (adjointDynamics (smoothAdjoint f θ dg)) z a b)
    (hzy : EqOn (fun t => (z t).1) y (Icc a b)) :
    (z a).2.1 (u a) + (z a).2.2.1 w = (z b).2.1 (u b) + (z b).2.2.1 w + ∫ t in a..b, lossCot dg t (y t) (u t) := by
  have hdyn : ∀ t ∈ Icc a b, adjointDynamics (smoothAdjoint f θ dg) t (z t) =
      (f θ t (y t), -((z t).2.1.comp (fderiv ℝ (fun x' => f θ t x') (y t))) - lossCot dg t (y t),
        -((z t).2.1.comp (fderiv ℝ (fun θ' => f θ' t (y t)) θ)), -((z t).2.1 (deriv (fun s => f θ s (y t)) t))) := by
    intro t ht
    have e : (z t).1 = y t := hzy ht
    unfold adjointDynamics
    simp only [smoothAdjoint, e]
    cases dg <;> simp [lossCot]
  have hder : ∀ t ∈ Icc a b, HasDerivWithinAt (fun t => (z t).2.1 (u t) + (z t).2.2.1 w)
      (-(lossCot dg t (y t) (u t))) (Icc a b) t := by
    intro t ht
    have h := hz t ht
    rw [hdyn t ht] at h
    have h1 : HasDerivWithinAt (fun t => (z t).2.1) (-((z t).2.1.comp (fderiv ℝ (fun x' => f θ t x') (y t))) -
        lossCot dg t (y t)) (Icc a b) t := h.snd.fst
    have h2 : HasDerivWithinAt (fun t => (z t).2.2.1) (-((z t).2.1.comp (fderiv ℝ (fun θ' => f θ' t (y t)) θ)))
        (Icc a b) t := h.snd.snd.fst
    have h3 := (h1.clm_apply (hu t ht)).add (h2.clm_apply (hasDerivWithinAt_const t (Icc a b) w))
    refine h3.congr_deriv ?_
    simp
    ring
  have hzc : ContinuousOn z (Icc a b) := fun t ht => (hz t ht).continuousWithinAt
  have huc : ContinuousOn u (Icc a b) := fun t ht => (hu t ht).continuousWithinAt
  have hint : ContinuousOn (fun t => lossCot dg t (y t) (u t)) (Icc a b) := by
    have : ContinuousOn (fun t => lossCot dg t (y t)) (Icc a b) :=
      hdg.comp_continuousOn (continuousOn_id.prodMk hy)
    exact this.clm_apply huc
  have := intervalIntegral.integral_eq_sub_of_hasDeriv_right_of_le hab (fun t ht => (hder t ht).continuousWithinAt)
    (fun t ht => (hder t ⟨ht.1.le, ht.2.le⟩).mono_of_mem_nhdsWithin (by
      exact Filter.mem_of_superset (inter_mem_nhdsWithin _ (Iio_mem_nhds ht.2)) fun s hs => ⟨(ht.1.trans hs.1).le, hs.2.le⟩))
    (by
      have := (hint.neg).intervalIntegrable_of_Icc hab (μ := MeasureTheory.volume)
      exact this)
  rw [intervalIntegral.integral_neg] at this
  linarith

/-- The loss of a variation: cotangents on the output points from `t` on and the integral loss. -/
noncomputable def pullback (dg : Option (ℝ → X → (X →L[ℝ] ℝ))) (y u : ℝ → X) (b t : ℝ) (gs : List (X →L[ℝ] ℝ))
    (ts : List ℝ) : ℝ :=
  (List.zipWith (fun g s => g (u s)) gs ts).sum + ∫ s in t..b, lossCot dg s (y s) (u s)

theorem IsVariation.mono {f : P → ℝ → X → X} {θ w : P} {y u : ℝ → X} {a b a' b' : ℝ} (h : IsVariation f θ w y u a b)
    (ha : a ≤ a') (hb : b' ≤ b) : IsVariation f θ w y u a' b' :=
  fun t ht => (h t ⟨ha.trans ht.1, ht.2.trans hb⟩).mono (Icc_subset_Icc ha hb)

theorem SolvesOn.mono {S : Type} [NormedAddCommGroup S] [NormedSpace ℝ S] {g : ℝ → S → S} {y : ℝ → S} {a b a' b' : ℝ}
    (h : SolvesOn g y a b) (ha : a ≤ a') (hb : b' ≤ b) : SolvesOn g y a' b' :=
  fun t ht => (h t ⟨ha.trans ht.1, ht.2.trans hb⟩).mono (Icc_subset_Icc ha hb)

theorem adjointLoop_exact [ProperSpace X] {f : P → ℝ → X → X} {θ : P} {dg : Option (ℝ → X → (X →L[ℝ] ℝ))}
    (hf : Continuous fun p : ℝ × X => fderiv ℝ (f θ p.1) p.2) (hd : ∀ t, Differentiable ℝ (f θ t))
    (hdg : Continuous fun p : ℝ × X => lossCot dg p.1 p.2) {y : ℝ → X} {a b : ℝ} (hy : SolvesOn (f θ) y a b)
    {solve} (hsolve : ExactAlong solve (smoothAdjoint f θ dg) y a b)
    (ts : List ℝ) (hinc : ts.Pairwise (· < ·)) (hts : ∀ t ∈ ts, t ∈ Icc a b) (gs : List (X →L[ℝ] ℝ)) (gt : List ℝ)
    (hg : gs.length = ts.length) (hgt : gt.length = ts.length) :
    ∀ (i : ℕ) (A : AdjState X (X →L[ℝ] ℝ) (P →L[ℝ] ℝ) ℝ) (d : ℝ) (hi : i < ts.length), A.1 = y ts[i] →
      (∀ u w, IsVariation f θ w y u a b → A.2.1 (u ts[i]) + A.2.2.1 w =
        pullback dg y u b ts[i] (gs.drop i) (ts.drop i)) →
      ∃ A' d', adjointLoop solve (smoothAdjoint f θ dg) ts gt gs i A d = .ok (A', d') ∧
        ∀ u w, IsVariation f θ w y u a b → A'.2.1 (u (ts[0]'(by omega))) + A'.2.2.1 w =
          pullback dg y u b (ts[0]'(by omega)) gs ts := by
  intro i
  induction i with
  | zero =>
    intro A d hi _ hA
    exact ⟨A, d, rfl, by simpa using hA⟩
  | succ i ih =>
    intro A d hi hA1 hA
    have hi' : i < ts.length := by omega
    have hlt : ts[i] < ts[i + 1] := List.pairwise_iff_getElem.1 hinc i (i + 1) hi' hi (by omega)
    have hLo := hts _ (List.getElem_mem hi')
    have hHi := hts _ (List.getElem_mem hi)
    obtain ⟨z, tr, hz0, hz, hrun⟩ := hsolve A ts[i + 1] ts[i] hLo.1 hlt hHi.2 hA1
    have hy' : SolvesOn (f θ) y ts[i] ts[i + 1] := hy.mono hLo.1 hHi.2
    have hz1 : SolvesOn (f θ) (fun t => (z t).1) ts[i] ts[i + 1] := fun t ht => (hz t ht).fst
    have heq : EqOn (fun t => (z t).1) y (Icc ts[i] ts[i + 1]) :=
      backward_unique hf hd hz1 hy' (by rw [← hA1, ← hz0])
    have hgi : i < gs.length := by omega
    have hgti : i < gt.length := by omega
    obtain ⟨A', d', hloop, hres⟩ := ih ((z ts[i]).1, (z ts[i]).2.1 + gs[i], (z ts[i]).2.2.1, (z ts[i]).2.2.2 - gt[i])
      ((z ts[i]).2.1 (f θ ts[i + 1] (z ts[i]).1)) hi' (heq ⟨le_rfl, hlt.le⟩) (by
        intro u w hu
        have huc : ContinuousOn u (Icc a b) := fun t ht => (hu t ht).continuousWithinAt
        have hyc : ContinuousOn y (Icc a b) := fun t ht => (hy t ht).continuousWithinAt
        have hint : ContinuousOn (fun t => lossCot dg t (y t) (u t)) (Icc a b) :=
          (hdg.comp_continuousOn (continuousOn_id.prodMk hyc)).clm_apply huc
        have key := adjoint_interval hdg hlt.le (fun t ht => (hy' t ht).continuousWithinAt)
          (hu.mono hLo.1 hHi.2) hz heq
        rw [hz0, hA u w hu] at key
        simp only [add_apply]
        unfold pullback at key ⊢
        rw [List.drop_eq_getElem_cons hi', List.drop_eq_getElem_cons hgi]
        simp only [List.zipWith_cons_cons, List.sum_cons]
        have i1 : IntervalIntegrable (fun t => lossCot dg t (y t) (u t)) MeasureTheory.volume ts[i] ts[i + 1] :=
          (hint.mono (Icc_subset_Icc hLo.1 hHi.2)).intervalIntegrable_of_Icc hlt.le
        have i2 : IntervalIntegrable (fun t => lossCot dg t (y t) (u t)) MeasureTheory.volume ts[i + 1] b :=
          (hint.mono (Icc_subset_Icc hHi.1 le_rfl)).intervalIntegrable_of_Icc hHi.2
        rw [← intervalIntegral.integral_add_adjacent_intervals i1 i2]
        linarith)
    refine ⟨A', d', ?_, hres⟩
    rw [adjointLoop]
    simp only [bind, Except.bind, pure, Except.pure, getItem, List.getElem?_eq_getElem hi',
      List.getElem?_eq_getElem hi, List.getElem?_eq_getElem hgi, List.getElem?_eq_getElem hgti] at *
    rw [hrun]
    exact hloop

/-- **C83.** For every field `f(θ, t, x)` whose derivative in the state is continuous, every solution `y` on the interval of
an increasing grid, all cotangents `gs` on the output points and any gradient `dg` of an integral loss: if the solves of the
backward pass are exact, it returns `λ` and `μ` such that `λ u(t0) + μ w = Σ g_i u(t_i) + ∫ dg(t, y(t)) u(t) dt` for every
first variation `u` of `y` with initial value `u(t0)` in the parameter direction `w`. -/
theorem C83_variation [ProperSpace X] {f : P → ℝ → X → X} {θ : P} {dg : Option (ℝ → X → (X →L[ℝ] ℝ))}
    (hf : Continuous fun p : ℝ × X => fderiv ℝ (f θ p.1) p.2) (hd : ∀ t, Differentiable ℝ (f θ t))
    (hdg : Continuous fun p : ℝ × X => lossCot dg p.1 p.2) {y : ℝ → X} {t0 b : ℝ} (hy : SolvesOn (f θ) y t0 b)
    {solve} (hsolve : ExactAlong solve (smoothAdjoint f θ dg) y t0 b) (rest : List ℝ)
    (hinc : (t0 :: rest).Pairwise (· < ·)) (hlast : (t0 :: rest).getLast? = some b) (gs : List (X →L[ℝ] ℝ)) (gt : List ℝ)
    (hg : gs.length = (t0 :: rest).length) (hgt : gt.length = (t0 :: rest).length) :
    ∃ μ lam d d', adjointBackward solve (smoothAdjoint f θ dg) (t0 :: rest) ((t0 :: rest).map y) gt gs =
        .ok (μ, lam, d, d') ∧
      ∀ u w, IsVariation f θ w y u t0 b → lam (u t0) + μ w =
        (List.zipWith (fun g s => g (u s)) gs (t0 :: rest)).sum + ∫ s in t0..b, lossCot dg s (y s) (u s) := by
  set ts := t0 :: rest with hts
  have htne : ts ≠ [] := by simp [hts]
  have hpos : 0 < ts.length := List.length_pos_iff.2 htne
  have hgne : gs ≠ [] := by rw [← List.length_pos_iff, hg]; exact hpos
  have hb : ts.getLast htne = b := by
    rw [List.getLast?_eq_some_getLast htne] at hlast
    exact Option.some.inj hlast
  have hbi : ts[ts.length - 1] = b := by rw [← hb, List.getLast_eq_getElem]
  have hmem : ∀ t ∈ ts, t ∈ Icc t0 b := by
    intro t ht
    obtain ⟨j, hj, rfl⟩ := List.getElem_of_mem ht
    constructor
    · rcases Nat.eq_zero_or_pos j with rfl | hj0
      · simp [hts]
      · have := List.pairwise_iff_getElem.1 hinc 0 j hpos hj hj0
        simpa [hts] using this.le
    · rw [← hbi]
      rcases Nat.lt_or_ge j (ts.length - 1) with hlt | hge
      · exact (List.pairwise_iff_getElem.1 hinc j (ts.length - 1) hj (by omega) hlt).le
      · have : j = ts.length - 1 := by omega
        subst this
        exact le_rfl
  obtain ⟨A', d', hloop, hres⟩ := adjointLoop_exact hf hd hdg hy hsolve ts hinc hmem gs gt hg hgt (ts.length - 1)
    (y b, gs.getLast hgne, 0, gs.getLast hgne (f θ b (y b))) (gs.getLast hgne (f θ b (y b))) (by omega) (by simp [hbi]) (by
      intro u w hu
      have e1 : ts.drop (ts.length - 1) = [ts.getLast htne] := List.drop_length_sub_one htne
      have e2 : gs.drop (ts.length - 1) = [gs.getLast hgne] := by rw [← hg]; exact List.drop_length_sub_one hgne
      rw [e1, e2, hbi, hb]
      simp [pullback])
  refine ⟨A'.2.2.1, A'.2.1, d', gs.getLast hgne (f θ b (y b)), ?_, ?_⟩
  · unfold adjointBackward
    have hml : (ts.map y).getLast? = some (y b) := by rw [List.getLast?_map, hlast]; rfl
    simp only [getLastItem, hml, hlast, List.getLast?_eq_some_getLast hgne, pure_bind]
    change (adjointLoop solve (smoothAdjoint f θ dg) ts gt gs (ts.length - 1)
      (y b, gs.getLast hgne, 0, gs.getLast hgne (f θ b (y b))) (gs.getLast hgne (f θ b (y b))) >>= _) = _
    rw [hloop]
    rfl
  · intro u w hu
    have := hres u w hu
    simpa [hts, pullback] using this

/-- The first variation of a twice differentiable family of solutions. -/
theorem isVariation_of_family {f : P → ℝ → X → X} {θ w : P} {Y : ℝ → ℝ → X} {a b : ℝ}
    (hf : ∀ t x, DifferentiableAt ℝ (fun q : P × X => f q.1 t q.2) (θ, x))
    (hY : ∀ t ∈ Icc a b, ContDiffAt ℝ 2 (fun q : ℝ × ℝ => Y q.1 q.2) (0, t))
    (hode : ∀ t ∈ Icc a b, ∀ᶠ ε in 𝓝 (0 : ℝ), HasDerivAt (Y ε) (f (θ + ε • w) t (Y ε t)) t) :
    IsVariation f θ w (Y 0) (fun t => deriv (fun ε => Y ε t) 0) a b := by
  have hdiff : ∀ t ∈ Icc a b, HasFDerivAt (fun q : ℝ × ℝ => Y q.1 q.2) (fderiv ℝ (fun q : ℝ × ℝ => Y q.1 q.2) (0, t)) (0, t) :=
    fun t ht => ((hY t ht).differentiableAt (by norm_num)).hasFDerivAt
  have hcol : ∀ ε t : ℝ, HasDerivAt (fun s : ℝ => ((ε, s) : ℝ × ℝ)) ((0, 1) : ℝ × ℝ) t := fun ε t =>
    (hasDerivAt_const t ε).prodMk (hasDerivAt_id t)
  have hrow : ∀ ε t : ℝ, HasDerivAt (fun s : ℝ => ((s, t) : ℝ × ℝ)) ((1, 0) : ℝ × ℝ) ε := fun ε t =>
    (hasDerivAt_id ε).prodMk (hasDerivAt_const ε t)
  have hu : ∀ t ∈ Icc a b, HasDerivAt (fun ε => Y ε t) (fderiv ℝ (fun q : ℝ × ℝ => Y q.1 q.2) (0, t) (1, 0)) 0 :=
    fun t ht => HasFDerivAt.comp_hasDerivAt (0 : ℝ) (f := fun ε : ℝ => (ε, t)) (hdiff t ht) (hrow 0 t)
  intro t ht
  set G := fun q : ℝ × ℝ => Y q.1 q.2 with hG
  have hD : HasFDerivAt (fderiv ℝ G) (fderiv ℝ (fderiv ℝ G) (0, t)) (0, t) := by
    have := (hY t ht).fderiv_right (m := 1) (by norm_num)
    exact (this.differentiableAt (by norm_num)).hasFDerivAt
  have hsymm : fderiv ℝ (fderiv ℝ G) (0, t) (0, 1) (1, 0) = fderiv ℝ (fderiv ℝ G) (0, t) (1, 0) (0, 1) :=
    ((hY t ht).isSymmSndFDerivAt (by simp)) _ _
  have h1 : HasDerivAt (fun s => fderiv ℝ G (0, s) (1, 0)) (fderiv ℝ (fderiv ℝ G) (0, t) (0, 1) (1, 0)) t := by
    have := (hD.comp_hasDerivAt t (hcol 0 t)).clm_apply (hasDerivAt_const t ((1, 0) : ℝ × ℝ))
    simpa using this
  have h2 : HasDerivAt (fun ε => fderiv ℝ G (ε, t) (0, 1)) (fderiv ℝ (fderiv ℝ G) (0, t) (1, 0) (0, 1)) 0 := by
    have := (HasFDerivAt.comp_hasDerivAt (0 : ℝ) (f := fun ε : ℝ => (ε, t)) hD (hrow 0 t)).clm_apply
      (hasDerivAt_const (0 : ℝ) ((0, 1) : ℝ × ℝ))
    simpa using this
  have h3 : (fun ε => fderiv ℝ G (ε, t) (0, 1)) =ᶠ[𝓝 0] fun ε => f (θ + ε • w) t (Y ε t) := by
    have hev : ∀ᶠ q in 𝓝 ((0, t) : ℝ × ℝ), ContDiffAt ℝ 2 G q := (hY t ht).eventually (by simp)
    have hc : Filter.Tendsto (fun ε : ℝ => ((ε, t) : ℝ × ℝ)) (𝓝 0) (𝓝 (0, t)) :=
      (hrow 0 t).continuousAt
    filter_upwards [hc.eventually hev, hode t ht] with ε hε hε'
    have := ((hε.differentiableAt (by norm_num)).hasFDerivAt).comp_hasDerivAt t (hcol ε t)
    exact this.unique hε'
  have h4 : HasDerivAt (fun ε => f (θ + ε • w) t (Y ε t)) (fderiv ℝ (fun x => f θ t x) (Y 0 t) (deriv (fun ε => Y ε t) 0) +
      fderiv ℝ (fun θ' => f θ' t (Y 0 t)) θ w) 0 := by
    have hθ : HasDerivAt (fun ε : ℝ => θ + ε • w) w 0 := by
      simpa using ((hasDerivAt_id (0 : ℝ)).smul_const w).const_add θ
    have hpair := hθ.prodMk (hu t ht)
    have hfd := (hf t (Y 0 t)).hasFDerivAt
    have h0 : ((θ + (0 : ℝ) • w, Y 0 t) : P × X) = (θ, Y 0 t) := by simp
    have hcomp := HasFDerivAt.comp_hasDerivAt_of_eq (0 : ℝ) hfd hpair h0.symm
    refine hcomp.congr_deriv ?_
    have p1 : HasFDerivAt (fun θ' => f θ' t (Y 0 t)) ((fderiv ℝ (fun q : P × X => f q.1 t q.2) (θ, Y 0 t)).comp
        (ContinuousLinearMap.inl ℝ P X)) θ := HasFDerivAt.comp θ (f := fun θ' => (θ', Y 0 t)) hfd (hasFDerivAt_prodMk_left _ _)
    have p2 : HasFDerivAt (fun x => f θ t x) ((fderiv ℝ (fun q : P × X => f q.1 t q.2) (θ, Y 0 t)).comp
        (ContinuousLinearMap.inr ℝ P X)) (Y 0 t) := HasFDerivAt.comp _ (f := fun x => (θ, x)) hfd (hasFDerivAt_prodMk_right _ _)
    rw [p1.fderiv, p2.fderiv, (hu t ht).deriv]
    simp only [ContinuousLinearMap.comp_apply, ContinuousLinearMap.inl_apply, ContinuousLinearMap.inr_apply, ← map_add,
      Prod.mk_add_mk, zero_add, add_zero]
  have h5 := (h2.congr_of_eventuallyEq h3.symm).unique h4
  have h6 : HasDerivWithinAt (fun s => fderiv ℝ G (0, s) (1, 0)) (fderiv ℝ (fun x => f θ t x) (Y 0 t)
      (deriv (fun ε => Y ε t) 0) + fderiv ℝ (fun θ' => f θ' t (Y 0 t)) θ w) (Icc a b) t :=
    (h1.congr_deriv (hsymm.trans h5)).hasDerivWithinAt
  exact h6.congr (fun s hs => (hu s hs).deriv) (hu t ht).deriv

/-- **C83.** The gradient. Let `Y ε` be solutions for the parameters `θ + ε w`, twice continuously differentiable in `ε` and
`t`, and let `ℓ_i` be differentiable losses on the output points. If the solves of the backward pass are exact, it returns,
from the gradients of the `ℓ_i` at the computed states, `λ` and `μ` such that the derivative of `Σ ℓ_i (Y ε t_i)` at `ε = 0` is
`λ (∂Y/∂ε (0, t0)) + μ w`: `λ` is the gradient with respect to the initial state, `μ` the one with respect to the
parameters. -/
theorem C83_gradient [ProperSpace X] {f : P → ℝ → X → X} {θ : P}
    (hf : Continuous fun p : ℝ × X => fderiv ℝ (f θ p.1) p.2)
    (hfd : ∀ t x, DifferentiableAt ℝ (fun q : P × X => f q.1 t q.2) (θ, x)) {y : ℝ → X} {t0 b : ℝ}
    (hy : SolvesOn (f θ) y t0 b) {solve} (hsolve : ExactAlong solve (smoothAdjoint f θ none) y t0 b) (rest : List ℝ)
    (hinc : (t0 :: rest).Pairwise (· < ·)) (hlast : (t0 :: rest).getLast? = some b) (ℓ : List (X → ℝ))
    (hℓ : ∀ l ∈ ℓ, Differentiable ℝ l) (hlen : ℓ.length = (t0 :: rest).length) (gt : List ℝ)
    (hgt : gt.length = (t0 :: rest).length) :
    ∃ μ lam d d', adjointBackward solve (smoothAdjoint f θ none) (t0 :: rest) ((t0 :: rest).map y) gt
        (List.zipWith (fun l s => fderiv ℝ l (y s)) ℓ (t0 :: rest)) = .ok (μ, lam, d, d') ∧
      ∀ (w : P) (Y : ℝ → ℝ → X), Y 0 = y →
        (∀ t ∈ Icc t0 b, ContDiffAt ℝ 2 (fun q : ℝ × ℝ => Y q.1 q.2) (0, t)) →
        (∀ t ∈ Icc t0 b, ∀ᶠ ε in 𝓝 (0 : ℝ), HasDerivAt (Y ε) (f (θ + ε • w) t (Y ε t)) t) →
        HasDerivAt (fun ε => (List.zipWith (fun l s => l (Y ε s)) ℓ (t0 :: rest)).sum)
          (lam (deriv (fun ε => Y ε t0) 0) + μ w) 0 := by
  have hd : ∀ t, Differentiable ℝ (f θ t) := fun t x =>
    ((hfd t x).comp x (f := fun x => (θ, x)) (by fun_prop))
  obtain ⟨μ, lam, d, d', hrun, hvar⟩ := C83_variation (dg := none) hf hd (by simpa [lossCot] using continuous_const) hy hsolve
    rest hinc hlast (List.zipWith (fun l s => fderiv ℝ l (y s)) ℓ (t0 :: rest)) gt (by simp [hlen]) hgt
  refine ⟨μ, lam, d, d', hrun, ?_⟩
  intro w Y hY0 hY hode
  have hu := isVariation_of_family hfd hY hode
  rw [hY0] at hu
  have key := hvar _ w hu
  rw [key]
  have hmem : ∀ s ∈ t0 :: rest, s ∈ Icc t0 b := by
    intro s hs
    constructor
    · rcases List.mem_cons.1 hs with rfl | hs
      · exact le_rfl
      · exact ((List.pairwise_cons.1 hinc).1 s hs).le
    · obtain ⟨l, hl⟩ := List.getLast?_eq_some_iff.1 hlast
      rw [hl] at hs hinc
      rcases List.mem_append.1 hs with hs | hs
      · exact ((List.pairwise_append.1 hinc).2.2 s hs b (by simp)).le
      · exact (List.mem_singleton.1 hs).le
  simp only [lossCot, zero_apply, intervalIntegral.integral_zero, add_zero]
  clear key hvar hrun hlen hgt hinc hlast hsolve
  generalize t0 :: rest = ts at hmem
  induction ℓ generalizing ts with
  | nil => simpa using hasDerivAt_const (0 : ℝ) (0 : ℝ)
  | cons l ℓ ih =>
    cases ts with
    | nil => simpa using hasDerivAt_const (0 : ℝ) (0 : ℝ)
    | cons s ts =>
      simp only [List.zipWith_cons_cons, List.sum_cons]
      refine HasDerivAt.add ?_ (ih (fun l' hl' => hℓ l' (by simp [hl'])) ts (fun s' hs' => hmem s' (by simp [hs'])))
      have hs := hmem s (by simp)
      have h1 : HasDerivAt (fun ε => Y ε s) (deriv (fun ε => Y ε s) 0) 0 := by
        refine DifferentiableAt.hasDerivAt ?_
        exact ((hY s hs).differentiableAt (by norm_num)).comp (0 : ℝ) (f := fun ε : ℝ => (ε, s)) (by fun_prop)
      have h2 := ((hℓ l (by simp)) (Y 0 s)).hasFDerivAt
      rw [← hY0]
      exact HasFDerivAt.comp_hasDerivAt (0 : ℝ) h2 h1

/-- The scalar field `θ x`. -/
def growth (θ : ℝ) (_ : ℝ) (x : ℝ) : ℝ := θ * x

theorem growth_fderiv_x (θ t x : ℝ) : fderiv ℝ (fun x' => growth θ t x') x = θ • (1 : ℝ →L[ℝ] ℝ) := by
  have : HasDerivAt (fun x' => growth θ t x') θ x := by simpa [growth] using (hasDerivAt_id x).const_mul θ
  rw [this.hasFDerivAt.fderiv]
  ext; simp

theorem growth_fderiv_p (θ t x : ℝ) : fderiv ℝ (fun θ' => growth θ' t x) θ = x • (1 : ℝ →L[ℝ] ℝ) := by
  have : HasDerivAt (fun θ' => growth θ' t x) x θ := by simpa [growth] using (hasDerivAt_id θ).mul_const x
  rw [this.hasFDerivAt.fderiv]
  ext; simp

/-- An exact solver for the adjoint equation of `growth θ`. -/
noncomputable def growthSolve (θ : ℝ) (_ : ℝ → AdjState ℝ (ℝ →L[ℝ] ℝ) (ℝ →L[ℝ] ℝ) ℝ →
      Except PyErr (AdjState ℝ (ℝ →L[ℝ] ℝ) (ℝ →L[ℝ] ℝ) ℝ))
    (A : AdjState ℝ (ℝ →L[ℝ] ℝ) (ℝ →L[ℝ] ℝ) ℝ) (ts : List ℝ) :
    Except PyErr (List ℝ × List (AdjState ℝ (ℝ →L[ℝ] ℝ) (ℝ →L[ℝ] ℝ) ℝ)) :=
  match ts with
  | [tHi, tLo] => .ok (ts, [A, (Real.exp (θ * (tLo - tHi)) * A.1, Real.exp (-(θ * (tLo - tHi))) • A.2.1,
      A.2.2.1 - ((tLo - tHi) * A.1) • A.2.1, A.2.2.2)])
  | _ => .error .valueError

theorem growthSolve_exact (θ : ℝ) (y : ℝ → ℝ) (a b : ℝ) : ExactAlong (growthSolve θ) (smoothAdjoint growth θ none) y a b := by
  intro A tHi tLo _ _ _ _
  refine ⟨fun t => (Real.exp (θ * (t - tHi)) * A.1, Real.exp (-(θ * (t - tHi))) • A.2.1,
      A.2.2.1 - ((t - tHi) * A.1) • A.2.1, A.2.2.2), [tHi, tLo], by simp, ?_, rfl⟩
  intro t _
  have hs : HasDerivAt (fun t : ℝ => t - tHi) 1 t := (hasDerivAt_id t).sub_const tHi
  have hθ : HasDerivAt (fun t : ℝ => θ * (t - tHi)) θ t := by simpa using hs.const_mul θ
  have h1 : HasDerivAt (fun t => Real.exp (θ * (t - tHi)) * A.1) (growth θ t (Real.exp (θ * (t - tHi)) * A.1)) t := by
    refine (hθ.exp.mul_const A.1).congr_deriv ?_
    unfold growth; ring
  have h2 := (hθ.neg.exp).smul_const A.2.1
  have h3 := ((hs.mul_const A.1).smul_const A.2.1).const_sub A.2.2.1
  have h := h1.prodMk (h2.prodMk (h3.prodMk (hasDerivAt_const t A.2.2.2)))
  refine (h.congr_deriv ?_).hasDerivWithinAt
  unfold adjointDynamics
  simp only [smoothAdjoint, growth_fderiv_x, growth_fderiv_p]
  refine Prod.ext rfl (Prod.ext ?_ (Prod.ext ?_ ?_))
  · ext; simp; ring
  · ext
    have e : Real.exp (θ * (t - tHi)) * Real.exp (-(θ * (t - tHi))) = 1 := by rw [← Real.exp_add]; simp
    simp
    linear_combination (-A.1 * A.2.1 1) * e
  · simp [growth]

/-- C83 applied to `x' = θ x` with `θ = 2`, outputs at `0, 1/2, 1` and the losses `x ↦ x²`. -/
example : ∃ μ lam d d', adjointBackward (growthSolve 2) (smoothAdjoint growth 2 none) [0, 1 / 2, 1]
      ([0, 1 / 2, 1].map fun t => Real.exp (2 * t)) [0, 0, 0]
      (List.zipWith (fun l s => fderiv ℝ l (Real.exp (2 * s))) [fun x => x ^ 2, fun x => x ^ 2, fun x => x ^ 2] [0, 1 / 2, 1]) =
        .ok (μ, lam, d, d') ∧
    ∀ (w : ℝ) (Y : ℝ → ℝ → ℝ), Y 0 = (fun t => Real.exp (2 * t)) →
      (∀ t ∈ Icc (0 : ℝ) 1, ContDiffAt ℝ 2 (fun q : ℝ × ℝ => Y q.1 q.2) (0, t)) →
      (∀ t ∈ Icc (0 : ℝ) 1, ∀ᶠ ε in 𝓝 (0 : ℝ), HasDerivAt (Y ε) (growth (2 + ε • w) t (Y ε t)) t) →
      HasDerivAt (fun ε => (List.zipWith (fun l s => l (Y ε s)) [fun x => x ^ 2, fun x => x ^ 2, fun x => x ^ 2]
        [0, 1 / 2, 1]).sum) (lam (deriv (fun ε => Y ε 0) 0) + μ w) 0 := by
  refine C83_gradient (f := growth) (θ := 2) (y := fun t => Real.exp (2 * t)) (b := 1) ?_ ?_ ?_ (growthSolve_exact 2 _ 0 1)
    [1 / 2, 1] (by norm_num) rfl _ ?_ rfl _ rfl
  · have : (fun p : ℝ × ℝ => fderiv ℝ (growth 2 p.1) p.2) = fun _ => (2 : ℝ) • (1 : ℝ →L[ℝ] ℝ) := by
      funext p; exact growth_fderiv_x 2 p.1 p.2
    rw [this]
    exact continuous_const
  · intro t x
    unfold growth
    fun_prop
  · intro t _
    have h1 : HasDerivAt (fun t : ℝ => 2 * t) 2 t := by simpa using (hasDerivAt_id t).const_mul (2 : ℝ)
    exact (h1.exp.congr_deriv (by unfold growth; ring)).hasDerivWithinAt
  · intro l hl
    simp only [List.mem_cons, List.not_mem_nil, or_false, or_self] at hl
    subst hl
    fun_prop

end adjoint

end Torchdyn
