import Verif.Proofs.Order

/-! Local error of explicit Runge-Kutta methods, uniformly over all solutions that stay in a compact set. -/

set_option linter.unusedSectionVars false

namespace Spec

open Filter Topology Asymptotics Finset RTree Set

variable {E : Type*} [NormedAddCommGroup E] [NormedSpace ℝ E]

/-- Solutions of `y' = f(y)` on `[0, h]` with values in `K`, and their length. -/
def solDom (f : E → E) (K : Set E) : Set ((ℝ → E) × ℝ) :=
  {p | 0 ≤ p.2 ∧ ∀ s ∈ Icc 0 p.2, HasDerivWithinAt p.1 (f (p.1 s)) (Icc 0 p.2) s ∧ p.1 s ∈ K}

/-- Solutions in `K` of length tending to zero. -/
def solFilter (f : E → E) (K : Set E) : Filter ((ℝ → E) × ℝ) := 𝓟 (solDom f K) ⊓ comap Prod.snd (𝓝 0)

theorem solFilter_tendsto (f : E → E) (K : Set E) : Tendsto (Prod.snd : (ℝ → E) × ℝ → ℝ) (solFilter f K) (𝓝 0) :=
  tendsto_comap.mono_left inf_le_right

theorem eventually_solFilter {f : E → E} {K : Set E} {p : (ℝ → E) × ℝ → Prop} :
    (∀ᶠ a in solFilter f K, p a) ↔ ∃ δ, 0 < δ ∧ ∀ y h, (y, h) ∈ solDom f K → h ≤ δ → p (y, h) := by
  rw [solFilter, inf_comm, eventually_inf_principal, eventually_comap]
  constructor
  · intro H
    obtain ⟨δ, hδ, H⟩ := Metric.eventually_nhds_iff.1 H
    refine ⟨δ / 2, by linarith, fun y h h1 h2 => H (y := h) ?_ (y, h) rfl h1⟩
    rw [Real.dist_eq, sub_zero, abs_of_nonneg h1.1]
    linarith
  · rintro ⟨δ, hδ, H⟩
    refine Metric.eventually_nhds_iff.2 ⟨δ, hδ, ?_⟩
    rintro h hh ⟨y, h'⟩ rfl h1
    refine H y _ h1 ?_
    rw [Real.dist_eq, sub_zero] at hh
    exact (le_abs_self _).trans hh.le

theorem solDom_mono {f : E → E} {K : Set E} {y : ℝ → E} {h s : ℝ} (hy : (y, h) ∈ solDom f K) (h0 : 0 ≤ s) (hs : s ≤ h) :
    (y, s) ∈ solDom f K :=
  ⟨h0, fun r hr => ⟨((hy.2 r ⟨hr.1, hr.2.trans hs⟩).1).mono (Icc_subset_Icc le_rfl hs), (hy.2 r ⟨hr.1, hr.2.trans hs⟩).2⟩⟩

theorem sol_bexp {f : E → E} {K : Set E} (hK : IsCompact K) {n : ℕ} (hfc : Continuous f)
    (hf : ∀ m ≤ n, Expands (solFilter f K) f (fun p => p.1 0) (fun p => taylorSeries f (p.1 0)) m) :
    ∀ m ≤ n + 1, BExp (solFilter f K) Prod.snd (fun p => taylorSeries f (p.1 0)) m (fun τ => 1 / (τ.density : ℝ))
      (fun p => p.1 p.2 - p.1 0) := by
  intro m
  induction m with
  | zero =>
    intro _
    obtain ⟨C, hC⟩ := hK.exists_bound_of_continuousOn hfc.continuousOn
    have hemp : treesLe 0 = ∅ := by
      ext τ
      have := τ.order_pos
      simp
      omega
    unfold BExp
    simp only [hemp, sum_empty, sub_zero, zero_add, pow_one]
    refine IsBigO.of_bound C (eventually_solFilter.2 ⟨1, one_pos, fun y h hy _ => ?_⟩)
    have := (convex_Icc 0 h).norm_image_sub_le_of_norm_hasDerivWithin_le (f := y) (f' := fun s => f (y s)) (C := C)
      (fun s hs => (hy.2 s hs).1) (fun s hs => hC _ (hy.2 s hs).2) (left_mem_Icc.2 hy.1)
      (right_mem_Icc.2 hy.1)
    simpa using this
  | succ m ih =>
    intro hm
    have hb := (ih (by omega)).field (solFilter_tendsto f K) (hf m (by omega))
    obtain ⟨C, hC0, hb⟩ := hb.exists_nonneg
    rw [IsBigOWith_def] at hb
    obtain ⟨δ, hδ, hb⟩ := eventually_solFilter.1 hb
    refine IsBigO.of_bound C (eventually_solFilter.2 ⟨δ, hδ, fun y h hy h3 => ?_⟩)
    simp only
    have h2 : 0 ≤ h := hy.1
    set r : ℝ → E := fun s => y s - y 0 -
      ∑ τ ∈ treesLe (m + 1), (s ^ τ.order * (1 / (τ.density : ℝ))) • elemDiff (taylorSeries f (y 0)) τ with hr
    have hder : ∀ s ∈ Icc (0 : ℝ) h, HasDerivWithinAt r (f (y s) - ∑ τ ∈ treesLe (m + 1),
        (s ^ (τ.order - 1) * graft (fun τ => 1 / (τ.density : ℝ)) τ) • elemDiff (taylorSeries f (y 0)) τ) (Icc 0 h) s := by
      intro s hs
      refine (((hy.2 s hs).1).sub_const (y 0)).sub ?_
      refine HasDerivWithinAt.fun_sum fun τ _ => ?_
      refine HasDerivWithinAt.smul_const ?_ _
      rw [graft_density]
      have := ((hasDerivAt_pow τ.order s).mul_const (1 / (τ.density : ℝ))).hasDerivWithinAt (s := Icc 0 h)
      exact this.congr_deriv (by ring)
    have hbound : ∀ s ∈ Icc (0 : ℝ) h, ‖f (y s) - ∑ τ ∈ treesLe (m + 1),
        (s ^ (τ.order - 1) * graft (fun τ => 1 / (τ.density : ℝ)) τ) • elemDiff (taylorSeries f (y 0)) τ‖ ≤
        C * h ^ (m + 1) := by
      intro s hs
      have := hb y s (solDom_mono hy hs.1 hs.2) (hs.2.trans h3)
      simp only [add_sub_cancel] at this
      refine this.trans (mul_le_mul_of_nonneg_left ?_ hC0)
      rw [norm_pow, Real.norm_of_nonneg hs.1]
      exact pow_le_pow_left₀ hs.1 hs.2 _
    have key := (convex_Icc (0 : ℝ) h).norm_image_sub_le_of_norm_hasDerivWithin_le hder hbound
      (left_mem_Icc.2 h2) (right_mem_Icc.2 h2)
    have hr0 : r 0 = 0 := by
      simp only [hr, sub_self, zero_sub, neg_eq_zero]
      refine sum_eq_zero fun τ _ => ?_
      rw [zero_pow (by have := τ.order_pos; omega), zero_mul, zero_smul]
    rw [hr0, sub_zero, sub_zero] at key
    refine key.trans (le_of_eq ?_)
    rw [norm_pow, Real.norm_of_nonneg h2, pow_succ _ (m + 1)]
    ring

/-- The local error of a method of order `n + 1` is `O(h ^ (n + 2))` uniformly over all solutions in a compact set. -/
theorem rk_local_error_uniform {f : E → E} {K : Set E} (hK : IsCompact K) {n : ℕ} (hf : ContDiff ℝ (n + 1) f)
    (A : List (List ℝ)) (hA : Explicit 0 A) (b : List ℝ) (hord : ∀ τ : RTree, τ.order ≤ n + 1 → orderDefect A b τ = 0) :
    ∃ C δ, 0 ≤ C ∧ 0 < δ ∧ ∀ (y : ℝ → E) (h : ℝ), 0 ≤ h → h ≤ δ →
      (∀ s ∈ Icc 0 h, HasDerivWithinAt y (f (y s)) (Icc 0 h) s ∧ y s ∈ K) →
      ‖y 0 + h • comb b (rkStages f (y 0) h A []) - y h‖ ≤ C * h ^ (n + 2) := by
  have hx : ∀ᶠ p in solFilter f K, p.1 0 ∈ K :=
    eventually_solFilter.2 ⟨1, one_pos, fun y h hy _ => (hy.2 0 (left_mem_Icc.2 hy.1)).2⟩
  have hexp : ∀ m ≤ n, Expands (solFilter f K) f (fun p => p.1 0) (fun p => taylorSeries f (p.1 0)) m := fun m hm =>
    expands_of_contDiff (hf.of_le (by exact_mod_cast Nat.succ_le_succ hm)) hK hx
  have hl := solFilter_tendsto f K
  have h1 := rk_bexp hl (hexp n le_rfl) A hA b
  have h2 := sol_bexp hK hf.continuous hexp (n + 1) le_rfl
  have h3 := h1.sub_isBigO h2 (fun τ hτ => by
    have := hord τ hτ
    rw [orderDefect] at this
    linarith)
  obtain ⟨C, hC, h3⟩ := h3.exists_nonneg
  rw [IsBigOWith_def] at h3
  obtain ⟨δ, hδ, h3⟩ := eventually_solFilter.1 h3
  refine ⟨C, δ, hC, hδ, fun y h a2 a3 a4 => ?_⟩
  have := h3 y h ⟨a2, a4⟩ a3
  simp only [norm_pow, Real.norm_of_nonneg a2] at this
  refine le_trans (le_of_eq ?_) this
  congr 1
  abel

end Spec
