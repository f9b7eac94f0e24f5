import Mathlib.Analysis.Calculus.Taylor
import Mathlib.Analysis.Calculus.MeanValue
import Mathlib.Analysis.Calculus.ContDiff.Basic
import Mathlib.Topology.MetricSpace.Thickening
import Verif.Proofs.BSeries

/-! Local error of explicit Runge-Kutta methods on smooth fields from the order conditions over rooted trees. -/

set_option linter.unusedSectionVars false

namespace Spec

open Filter Topology Asymptotics Finset RTree Set

variable {E : Type*} [NormedAddCommGroup E] [NormedSpace ℝ E]

/-! ### Taylor expansion in several variables -/

theorem iteratedDeriv_line {f : E → E} {n : ℕ} (hf : ContDiff ℝ n f) (x v : E) (s : ℝ) :
    iteratedDeriv n (fun s : ℝ => f (x + s • v)) s = iteratedFDeriv ℝ n f (x + s • v) (fun _ => v) := by
  set L : ℝ →L[ℝ] E := ContinuousLinearMap.toSpanSingleton ℝ v with hL
  have e : (fun s : ℝ => f (x + s • v)) = (fun z => f (x + z)) ∘ L := by
    ext s; simp [hL, ContinuousLinearMap.toSpanSingleton_apply]
  have hf' : ContDiff ℝ n (fun z => f (x + z)) := hf.comp (contDiff_const.add contDiff_id)
  rw [iteratedDeriv_eq_iteratedFDeriv, e, L.iteratedFDeriv_comp_right hf' s le_rfl, iteratedFDeriv_comp_add_left]
  simp [hL, ContinuousLinearMap.toSpanSingleton_apply]

theorem taylor_line {f : E → E} {n : ℕ} (hf : ContDiff ℝ (n + 1) f) (x v : E) {M : ℝ}
    (hM : ∀ s ∈ Icc (0 : ℝ) 1, ‖iteratedFDeriv ℝ (n + 1) f (x + s • v)‖ ≤ M) :
    ‖f (x + v) - ∑ k ∈ range (n + 1), ((Nat.factorial k : ℝ)⁻¹ • iteratedFDeriv ℝ k f x) (fun _ => v)‖ ≤ M * ‖v‖ ^ (n + 1) := by
  have hg : ContDiff ℝ (n + 1) (fun s : ℝ => f (x + s • v)) :=
    hf.comp (contDiff_const.add (contDiff_id.smul contDiff_const))
  have hdw : ∀ k : ℕ, k ≤ n + 1 → ∀ s ∈ Icc (0 : ℝ) 1, iteratedDerivWithin k (fun s : ℝ => f (x + s • v)) (Icc 0 1) s =
      iteratedFDeriv ℝ k f (x + s • v) (fun _ => v) := by
    intro k hk s hs
    have hle : ((k : ℕ) : WithTop ℕ∞) ≤ ((n : WithTop ℕ∞) + 1) := by exact_mod_cast hk
    rw [iteratedDerivWithin_eq_iteratedDeriv (uniqueDiffOn_Icc one_pos) ((hg.of_le hle).contDiffAt) hs,
      iteratedDeriv_line (hf.of_le hle)]
  have h := taylor_mean_remainder_bound (f := fun s : ℝ => f (x + s • v)) (a := 0) (b := 1) (x := 1) (n := n)
    (C := M * ‖v‖ ^ (n + 1)) zero_le_one hg.contDiffOn ⟨zero_le_one, le_rfl⟩ (by
      intro s hs
      rw [hdw (n + 1) le_rfl s hs]
      refine ((iteratedFDeriv ℝ (n + 1) f (x + s • v)).le_opNorm _).trans ?_
      rw [prod_const, card_univ, Fintype.card_fin]
      exact mul_le_mul_of_nonneg_right (hM s hs) (by positivity))
  rw [taylor_within_apply] at h
  have e : ∀ k ∈ range (n + 1), (((Nat.factorial k : ℝ)⁻¹ * ((1 : ℝ) - 0) ^ k) •
      iteratedDerivWithin k (fun s : ℝ => f (x + s • v)) (Icc 0 1) 0) =
      ((Nat.factorial k : ℝ)⁻¹ • iteratedFDeriv ℝ k f x) (fun _ => v) := by
    intro k hk
    have hk' := Finset.mem_range.1 hk
    rw [hdw k (by omega) 0 ⟨le_rfl, zero_le_one⟩]
    simp
  rw [sum_congr rfl e] at h
  simp only [one_smul, sub_zero, one_pow, mul_one] at h
  refine h.trans (div_le_self ?_ ?_)
  · have := (norm_nonneg _).trans (hM 0 ⟨le_rfl, zero_le_one⟩)
    positivity
  · exact_mod_cast Nat.one_le_iff_ne_zero.2 (Nat.factorial_ne_zero n)

/-- Taylor coefficients of a smooth field. -/
noncomputable def taylorSeries (f : E → E) (x : E) : FormalMultilinearSeries ℝ E E :=
  fun k => (Nat.factorial k : ℝ)⁻¹ • iteratedFDeriv ℝ k f x

theorem expands_of_contDiff {α : Type*} {l : Filter α} {f : E → E} {n : ℕ} (hf : ContDiff ℝ (n + 1) f) {K : Set E}
    (hK : IsCompact K) {x : α → E} (hx : ∀ᶠ a in l, x a ∈ K) : Expands l f x (fun a => taylorSeries f (x a)) n := by
  have hcont : ∀ k : ℕ, k ≤ n + 1 → Continuous (iteratedFDeriv ℝ k f) := fun k hk =>
    hf.continuous_iteratedFDeriv (by exact_mod_cast hk)
  refine ⟨fun k hk => ?_, fun v hv => ?_⟩
  · obtain ⟨M, hM⟩ := hK.exists_bound_of_continuousOn (hcont k (by omega)).continuousOn
    refine IsBigO.of_bound (‖(Nat.factorial k : ℝ)⁻¹‖ * M) (hx.mono fun a ha => ?_)
    rw [norm_one, mul_one, taylorSeries, norm_smul]
    exact mul_le_mul_of_nonneg_left (hM _ ha) (norm_nonneg _)
  · obtain ⟨M, hM⟩ := hK.exists_bound_of_continuousOn (hcont (n + 1) le_rfl).continuousOn
    have hopen : IsOpen {z : E | ‖iteratedFDeriv ℝ (n + 1) f z‖ < M + 1} :=
      isOpen_lt (hcont (n + 1) le_rfl).norm continuous_const
    obtain ⟨δ, hδ, hsub⟩ := hK.exists_cthickening_subset_open hopen (fun z hz => by
      have := hM z hz
      simp only [mem_ofPred_eq]
      linarith)
    have hsmall : ∀ᶠ a in l, ‖v a‖ ≤ δ := by
      have := hv.norm
      rw [norm_zero] at this
      exact this.eventually_le_const hδ
    refine IsBigO.of_bound (M + 1) ((hx.and hsmall).mono fun a ha => ?_)
    rw [norm_pow, norm_norm]
    refine taylor_line hf (x a) (v a) fun s hs => ?_
    refine (hsub (Metric.mem_cthickening_of_dist_le (x a + s • v a) (x a) δ K ha.1 ?_)).le
    rw [dist_eq_norm, add_sub_cancel_left, norm_smul, Real.norm_of_nonneg hs.1]
    calc s * ‖v a‖ ≤ 1 * ‖v a‖ := mul_le_mul_of_nonneg_right hs.2 (norm_nonneg _)
      _ ≤ δ := by rw [one_mul]; exact ha.2

/-! ### The exact solution -/

/-- Start times and step sizes of steps inside `[t0, T]`. -/
def stepDom (t0 T : ℝ) : Set (ℝ × ℝ) := {p | t0 ≤ p.1 ∧ 0 ≤ p.2 ∧ p.1 + p.2 ≤ T}

/-- Steps inside `[t0, T]` with step size tending to zero. -/
def stepFilter (t0 T : ℝ) : Filter (ℝ × ℝ) := 𝓟 (stepDom t0 T) ⊓ comap Prod.snd (𝓝 0)

theorem stepFilter_tendsto (t0 T : ℝ) : Tendsto (Prod.snd : ℝ × ℝ → ℝ) (stepFilter t0 T) (𝓝 0) :=
  tendsto_comap.mono_left inf_le_right

theorem eventually_stepFilter {t0 T : ℝ} {p : ℝ × ℝ → Prop} :
    (∀ᶠ a in stepFilter t0 T, p a) ↔ ∃ δ, 0 < δ ∧ ∀ t h, t0 ≤ t → 0 ≤ h → h ≤ δ → t + h ≤ T → p (t, h) := by
  rw [stepFilter, inf_comm, eventually_inf_principal, eventually_comap]
  constructor
  · intro H
    obtain ⟨δ, hδ, H⟩ := Metric.eventually_nhds_iff.1 H
    refine ⟨δ / 2, by linarith, fun t h h1 h2 h3 h4 => H (y := h) ?_ (t, h) rfl ⟨h1, h2, h4⟩⟩
    rw [Real.dist_eq, sub_zero, abs_of_nonneg h2]
    linarith
  · rintro ⟨δ, hδ, H⟩
    refine Metric.eventually_nhds_iff.2 ⟨δ, hδ, ?_⟩
    rintro h hh ⟨t, h'⟩ rfl ⟨h1, h2, h3⟩
    refine H t _ h1 h2 ?_ h3
    rw [Real.dist_eq, sub_zero] at hh
    exact (le_abs_self _).trans hh.le

theorem graft_density (τ : RTree) : graft (fun τ => 1 / (τ.density : ℝ)) τ = τ.order * (1 / (τ.density : ℝ)) := by
  obtain ⟨ch⟩ := τ
  have h : ∀ l : List RTree, (l.map fun τ => 1 / (τ.density : ℝ)).prod = 1 / (RTree.densities l : ℝ) := by
    intro l
    induction l with
    | nil => simp [RTree.densities]
    | cons τ l ih => rw [List.map_cons, List.prod_cons, ih, RTree.densities]; push_cast; rw [div_mul_div_comm, one_mul]
  rw [graft, h, RTree.order, RTree.density]
  push_cast
  have : (1 : ℝ) + (RTree.orders ch : ℝ) ≠ 0 := by positivity
  by_cases h0 : (RTree.densities ch : ℝ) = 0
  · simp [h0]
  · field_simp

theorem flow_bexp {f : E → E} {t0 T : ℝ} {y : ℝ → E} {n : ℕ} (hfc : Continuous f)
    (hy : ∀ t ∈ Icc t0 T, HasDerivWithinAt y (f (y t)) (Icc t0 T) t)
    (hf : ∀ m ≤ n, Expands (stepFilter t0 T) f (fun p => y p.1) (fun p => taylorSeries f (y p.1)) m) :
    ∀ m ≤ n + 1, BExp (stepFilter t0 T) Prod.snd (fun p => taylorSeries f (y p.1)) m (fun τ => 1 / (τ.density : ℝ))
      (fun p => y (p.1 + p.2) - y p.1) := by
  have hyc : ContinuousOn y (Icc t0 T) := fun t ht => (hy t ht).continuousWithinAt
  intro m
  induction m with
  | zero =>
    intro _
    obtain ⟨C, hC⟩ := isCompact_Icc.exists_bound_of_continuousOn (hfc.comp_continuousOn hyc)
    have hemp : treesLe 0 = ∅ := by
      ext τ
      have := τ.order_pos
      simp
      omega
    unfold BExp
    simp only [hemp, sum_empty, sub_zero, zero_add, pow_one]
    refine IsBigO.of_bound C (eventually_stepFilter.2 ⟨1, one_pos, fun t h h1 h2 _ h4 => ?_⟩)
    have hsub : Icc t (t + h) ⊆ Icc t0 T := Icc_subset_Icc h1 h4
    have := (convex_Icc t (t + h)).norm_image_sub_le_of_norm_hasDerivWithin_le (f := y) (f' := fun s => f (y s)) (C := C)
      (fun s hs => (hy s (hsub hs)).mono hsub) (fun s hs => hC s (hsub hs)) (left_mem_Icc.2 (by linarith))
      (right_mem_Icc.2 (by linarith))
    simpa using this
  | succ m ih =>
    intro hm
    have hb := (ih (by omega)).field (stepFilter_tendsto t0 T) (hf m (by omega))
    obtain ⟨C, hC0, hb⟩ := hb.exists_nonneg
    rw [IsBigOWith_def] at hb
    obtain ⟨δ, hδ, hb⟩ := eventually_stepFilter.1 hb
    refine IsBigO.of_bound C (eventually_stepFilter.2 ⟨δ, hδ, fun t h h1 h2 h3 h4 => ?_⟩)
    simp only
    have hsub : Icc t (t + h) ⊆ Icc t0 T := Icc_subset_Icc h1 h4
    set r : ℝ → E := fun s => y (t + s) - y t -
      ∑ τ ∈ treesLe (m + 1), (s ^ τ.order * (1 / (τ.density : ℝ))) • elemDiff (taylorSeries f (y t)) τ with hr
    have hder : ∀ s ∈ Icc (0 : ℝ) h, HasDerivWithinAt r (f (y (t + s)) - ∑ τ ∈ treesLe (m + 1),
        (s ^ (τ.order - 1) * graft (fun τ => 1 / (τ.density : ℝ)) τ) • elemDiff (taylorSeries f (y t)) τ) (Icc 0 h) s := by
      intro s hs
      have d1 : HasDerivWithinAt (fun s => y (t + s)) (f (y (t + s))) (Icc 0 h) s := by
        have hmap : MapsTo (fun s => t + s) (Icc 0 h) (Icc t0 T) := fun s hs => ⟨by linarith [hs.1], by linarith [hs.2]⟩
        have := (hy (t + s) (hmap hs)).scomp s (h := fun s => t + s) (s := Icc 0 h) (h' := 1)
          ((hasDerivAt_id s).const_add t).hasDerivWithinAt hmap
        rw [one_smul] at this
        exact this
      refine (d1.sub_const (y t)).sub ?_
      refine HasDerivWithinAt.fun_sum fun τ _ => ?_
      refine HasDerivWithinAt.smul_const ?_ _
      rw [graft_density]
      have := ((hasDerivAt_pow τ.order s).mul_const (1 / (τ.density : ℝ))).hasDerivWithinAt (s := Icc 0 h)
      exact this.congr_deriv (by ring)
    have hbound : ∀ s ∈ Icc (0 : ℝ) h, ‖f (y (t + s)) - ∑ τ ∈ treesLe (m + 1),
        (s ^ (τ.order - 1) * graft (fun τ => 1 / (τ.density : ℝ)) τ) • elemDiff (taylorSeries f (y t)) τ‖ ≤
        C * h ^ (m + 1) := by
      intro s hs
      have := hb t s h1 hs.1 (hs.2.trans h3) (by linarith [hs.2])
      simp only [add_sub_cancel] at this
      refine this.trans (mul_le_mul_of_nonneg_left ?_ hC0)
      rw [norm_pow, Real.norm_of_nonneg hs.1]
      exact pow_le_pow_left₀ hs.1 hs.2 _
    have key := (convex_Icc (0 : ℝ) h).norm_image_sub_le_of_norm_hasDerivWithin_le hder hbound
      (left_mem_Icc.2 h2) (right_mem_Icc.2 h2)
    have hr0 : r 0 = 0 := by
      simp only [hr, add_zero, sub_self, zero_sub, neg_eq_zero]
      refine sum_eq_zero fun τ _ => ?_
      rw [zero_pow (by have := τ.order_pos; omega), zero_mul, zero_smul]
    rw [hr0, sub_zero, sub_zero] at key
    refine key.trans (le_of_eq ?_)
    rw [norm_pow, Real.norm_of_nonneg h2, pow_succ _ (m + 1)]
    ring

/-! ### Explicit Runge-Kutta methods -/

/-- Linear combination of vectors, as long as both lists last. -/
def comb : List ℝ → List E → E
  | a :: as, k :: ks => a • k + comb as ks
  | _, _ => 0

/-- The stages of the explicit Runge-Kutta method with the given rows, for an autonomous field. -/
def rkStages (f : E → E) (x : E) (h : ℝ) : List (List ℝ) → List E → List E
  | [], ks => ks
  | row :: rows, ks => rkStages f x h rows (ks ++ [f (x + h • comb row ks)])

/-- The method is explicit: row `i` has at most `i` entries. -/
def Explicit : ℕ → List (List ℝ) → Prop
  | _, [] => True
  | i, row :: rows => row.length ≤ i ∧ Explicit (i + 1) rows

/-- Coefficients of a stage. -/
noncomputable def rowWeight (A : List (List ℝ)) (row : List ℝ) : RTree → ℝ := graft fun τ => dot row (τ.stageWeights A)

theorem stageWeights_eq (A : List (List ℝ)) (τ : RTree) : τ.stageWeights A = A.map (fun row => rowWeight A row τ) := by
  obtain ⟨ch⟩ := τ
  rw [RTree.stageWeights]
  induction ch with
  | nil => simp [RTree.forestWeights, rowWeight, graft]
  | cons τ ch ih =>
    rw [RTree.forestWeights, ih, List.zipWith_map, List.zipWith_self]
    simp [rowWeight, graft]

theorem dot_append {row : List ℝ} : ∀ {u v : List ℝ}, row.length ≤ u.length → dot row (u ++ v) = dot row u := by
  induction row with
  | nil => intro u v _; cases u <;> cases v <;> simp [dot]
  | cons a row ih =>
    intro u v h
    cases u with
    | nil => simp at h
    | cons b u => simp only [List.cons_append, dot]; rw [ih (by simpa using h)]

variable {α : Type*} {l : Filter α} {h : α → ℝ} {P : α → FormalMultilinearSeries ℝ E E} {f : E → E} {x : α → E} {n : ℕ}

theorem bexp_comb {row : List ℝ} : ∀ {ks : List (α → E)} {cs : List (RTree → ℝ)},
    List.Forall₂ (fun k c => BExp l h P n c (fun a => h a • k a)) ks cs →
    BExp l h P n (fun τ => dot row (cs.map (· τ))) (fun a => h a • comb row (ks.map (· a))) := by
  induction row with
  | nil =>
    intro ks cs _
    have : BExp l h P n (fun _ => 0) (fun _ => (0 : E)) := BExp.zero
    simpa [dot, comb] using this
  | cons b row ih =>
    intro ks cs H
    cases H with
    | nil =>
      have : BExp l h P n (fun _ => 0) (fun _ => (0 : E)) := BExp.zero
      simpa [dot, comb] using this
    | cons hk H =>
      have := (hk.smul b).add (ih H)
      simp only [List.map_cons, dot, comb, smul_add]
      convert this using 3
      rw [smul_comm]

theorem rkStages_bexp (hl : Tendsto h l (𝓝 0)) (hf : Expands l f x P n) (A : List (List ℝ)) :
    ∀ (rows pre : List (List ℝ)) (ks : List (α → E)), A = pre ++ rows → Explicit pre.length rows →
      List.Forall₂ (fun k c => BExp l h P (n + 1) c (fun a => h a • k a)) ks (pre.map (rowWeight A)) →
      ∃ ks' : List (α → E), (∀ a, rkStages f (x a) (h a) rows (ks.map (· a)) = ks'.map (· a)) ∧
        List.Forall₂ (fun k c => BExp l h P (n + 1) c (fun a => h a • k a)) ks' (A.map (rowWeight A)) := by
  intro rows
  induction rows with
  | nil =>
    intro pre ks hA _ H
    rw [List.append_nil] at hA
    exact ⟨ks, fun _ => rfl, hA ▸ H⟩
  | cons row rows ih =>
    intro pre ks hA hex H
    have hc := bexp_comb (row := row) H
    have hcoef : (fun τ : RTree => dot row ((pre.map (rowWeight A)).map (· τ))) = fun τ => dot row (τ.stageWeights A) := by
      ext τ
      rw [stageWeights_eq A τ]
      conv_rhs => rw [hA, List.map_append]
      rw [dot_append (by simpa using hex.1), List.map_map]
      rw [← hA]
      rfl
    rw [hcoef] at hc
    have hst := (hc.trunc hl hf.bdd).stage hl hf
    obtain ⟨ks', h1, h2⟩ := ih (pre ++ [row]) (ks ++ [fun a => f (x a + h a • comb row (ks.map (· a)))])
      (by rw [hA]; simp) (by simpa using hex.2) (by
        rw [List.map_append]
        exact List.rel_append H (List.Forall₂.cons hst List.Forall₂.nil))
    refine ⟨ks', fun a => ?_, h2⟩
    rw [← h1 a, rkStages]
    simp

/-- The increment of an explicit Runge-Kutta step. -/
theorem rk_bexp (hl : Tendsto h l (𝓝 0)) (hf : Expands l f x P n) (A : List (List ℝ)) (hA : Explicit 0 A) (b : List ℝ) :
    BExp l h P (n + 1) (fun τ => dot b (τ.stageWeights A)) (fun a => h a • comb b (rkStages f (x a) (h a) A [])) := by
  obtain ⟨ks, h1, h2⟩ := rkStages_bexp hl hf A A [] [] rfl hA List.Forall₂.nil
  have := bexp_comb (row := b) h2
  have e : (fun τ : RTree => dot b ((A.map (rowWeight A)).map (· τ))) = fun τ => dot b (τ.stageWeights A) := by
    ext τ
    rw [stageWeights_eq A τ, List.map_map]
    rfl
  rw [e] at this
  simp only [List.map_nil] at h1
  simpa only [h1] using this

/-- If two increments have the same coefficients they agree up to the order of the expansions. -/
theorem BExp.sub_isBigO {c d : RTree → ℝ} {v w : α → E} (hv : BExp l h P n c v) (hw : BExp l h P n d w)
    (hcd : ∀ τ : RTree, τ.order ≤ n → c τ = d τ) : (fun a => v a - w a) =O[l] (fun a => h a ^ (n + 1)) := by
  refine (IsBigO.sub hv hw).congr_left fun a => ?_
  have : ∑ τ ∈ treesLe n, (h a ^ τ.order * c τ) • elemDiff (P a) τ =
      ∑ τ ∈ treesLe n, (h a ^ τ.order * d τ) • elemDiff (P a) τ :=
    sum_congr rfl fun τ hτ => by rw [hcd τ (mem_treesLe.1 hτ)]
  rw [this]
  abel

/-- Local error of an explicit Runge-Kutta method satisfying the order conditions up to order `n + 1`. -/
theorem rk_local_error {f : E → E} {t0 T : ℝ} {y : ℝ → E} {n : ℕ} (hf : ContDiff ℝ (n + 1) f)
    (hy : ∀ t ∈ Icc t0 T, HasDerivWithinAt y (f (y t)) (Icc t0 T) t)
    (A : List (List ℝ)) (hA : Explicit 0 A) (b : List ℝ) (hord : ∀ τ : RTree, τ.order ≤ n + 1 → orderDefect A b τ = 0) :
    ∃ C δ, 0 ≤ C ∧ 0 < δ ∧ ∀ t h, t0 ≤ t → 0 ≤ h → h ≤ δ → t + h ≤ T →
      ‖y t + h • comb b (rkStages f (y t) h A []) - y (t + h)‖ ≤ C * h ^ (n + 2) := by
  have hyc : ContinuousOn y (Icc t0 T) := fun t ht => (hy t ht).continuousWithinAt
  have hK : IsCompact (y '' Icc t0 T) := isCompact_Icc.image_of_continuousOn hyc
  have hx : ∀ᶠ p in stepFilter t0 T, y p.1 ∈ y '' Icc t0 T :=
    eventually_stepFilter.2 ⟨1, one_pos, fun t h h1 h2 _ h4 => ⟨t, ⟨h1, by linarith⟩, rfl⟩⟩
  have hexp : ∀ m ≤ n, Expands (stepFilter t0 T) f (fun p => y p.1) (fun p => taylorSeries f (y p.1)) m := fun m hm =>
    expands_of_contDiff (hf.of_le (by exact_mod_cast Nat.succ_le_succ hm)) hK hx
  have hl := stepFilter_tendsto t0 T
  have h1 := rk_bexp hl (hexp n le_rfl) A hA b
  have h2 := flow_bexp hf.continuous hy hexp (n + 1) le_rfl
  have h3 := h1.sub_isBigO h2 (fun τ hτ => by
    have := hord τ hτ
    rw [orderDefect] at this
    linarith)
  obtain ⟨C, hC, h3⟩ := h3.exists_nonneg
  rw [IsBigOWith_def] at h3
  obtain ⟨δ, hδ, h3⟩ := eventually_stepFilter.1 h3
  refine ⟨C, δ, hC, hδ, fun t h a1 a2 a3 a4 => ?_⟩
  have := h3 t h a1 a2 a3 a4
  simp only [norm_pow, Real.norm_of_nonneg a2] at this
  refine le_trans (le_of_eq ?_) this
  congr 1
  abel

/-- An increment whose order conditions up to order `n + 1` are homogeneous (as for an error estimate) is small. -/
theorem rk_small {f : E → E} {t0 T : ℝ} {y : ℝ → E} {n : ℕ} (hf : ContDiff ℝ (n + 1) f) (hyc : ContinuousOn y (Icc t0 T))
    (A : List (List ℝ)) (hA : Explicit 0 A) (b : List ℝ)
    (hord : ∀ τ : RTree, τ.order ≤ n + 1 → dot b (τ.stageWeights A) = 0) :
    ∃ C δ, 0 ≤ C ∧ 0 < δ ∧ ∀ t h, t0 ≤ t → 0 ≤ h → h ≤ δ → t + h ≤ T →
      ‖h • comb b (rkStages f (y t) h A [])‖ ≤ C * h ^ (n + 2) := by
  have hK : IsCompact (y '' Icc t0 T) := isCompact_Icc.image_of_continuousOn hyc
  have hx : ∀ᶠ p in stepFilter t0 T, y p.1 ∈ y '' Icc t0 T :=
    eventually_stepFilter.2 ⟨1, one_pos, fun t h h1 h2 _ h4 => ⟨t, ⟨h1, by linarith⟩, rfl⟩⟩
  have h1 := rk_bexp (stepFilter_tendsto t0 T) (expands_of_contDiff hf hK hx) A hA b
  have h3 := h1.sub_isBigO BExp.zero hord
  obtain ⟨C, hC, h3⟩ := h3.exists_nonneg
  rw [IsBigOWith_def] at h3
  obtain ⟨δ, hδ, h3⟩ := eventually_stepFilter.1 h3
  refine ⟨C, δ, hC, hδ, fun t h a1 a2 a3 a4 => ?_⟩
  have := h3 t h a1 a2 a3 a4
  simpa only [norm_pow, Real.norm_of_nonneg a2, sub_zero] using this

/-- Approximate order conditions: a defect of size `ε` adds an error proportional to `ε h`. -/
theorem rk_local_error_approx {f : E → E} {t0 T : ℝ} {y : ℝ → E} {n : ℕ} (hf : ContDiff ℝ (n + 1) f)
    (hy : ∀ t ∈ Icc t0 T, HasDerivWithinAt y (f (y t)) (Icc t0 T) t)
    (A : List (List ℝ)) (hA : Explicit 0 A) (b : List ℝ) (ε : ℝ)
    (hord : ∀ τ : RTree, τ.order ≤ n + 1 → |orderDefect A b τ| ≤ ε) :
    ∃ C D δ, 0 ≤ C ∧ 0 ≤ D ∧ 0 < δ ∧ ∀ t h, t0 ≤ t → 0 ≤ h → h ≤ δ → t + h ≤ T →
      ‖y t + h • comb b (rkStages f (y t) h A []) - y (t + h)‖ ≤ C * h ^ (n + 2) + ε * (D * h) := by
  have hyc : ContinuousOn y (Icc t0 T) := fun t ht => (hy t ht).continuousWithinAt
  have hK : IsCompact (y '' Icc t0 T) := isCompact_Icc.image_of_continuousOn hyc
  have hx : ∀ᶠ p in stepFilter t0 T, y p.1 ∈ y '' Icc t0 T :=
    eventually_stepFilter.2 ⟨1, one_pos, fun t h h1 h2 _ h4 => ⟨t, ⟨h1, by linarith⟩, rfl⟩⟩
  have hexp : ∀ m ≤ n, Expands (stepFilter t0 T) f (fun p => y p.1) (fun p => taylorSeries f (y p.1)) m := fun m hm =>
    expands_of_contDiff (hf.of_le (by exact_mod_cast Nat.succ_le_succ hm)) hK hx
  have hl := stepFilter_tendsto t0 T
  have h1 := rk_bexp hl (hexp n le_rfl) A hA b
  have h2 := flow_bexp hf.continuous hy hexp (n + 1) le_rfl
  have hsm : (fun p : ℝ × ℝ => ∑ τ ∈ treesLe (n + 1), |p.2| ^ τ.order * ‖elemDiff (taylorSeries f (y p.1)) τ‖)
      =O[stepFilter t0 T] (Prod.snd : ℝ × ℝ → ℝ) := by
    apply IsBigO.fun_sum
    intro τ hτ
    have e := elemDiff_isBigO (hexp n le_rfl).bdd _ τ le_rfl (mem_treesLe.1 hτ)
    have := (IsBigO.norm_left (pow_isBigO hl τ.order_pos)).mul (IsBigO.norm_left e)
    simpa using this
  have h3 := IsBigO.sub h1 h2
  obtain ⟨C, hC, h3⟩ := h3.exists_nonneg
  obtain ⟨D, hD, h4⟩ := hsm.exists_nonneg
  rw [IsBigOWith_def] at h3 h4
  obtain ⟨δ, hδ, h5⟩ := eventually_stepFilter.1 (h3.and h4)
  refine ⟨C, D, δ, hC, hD, hδ, fun t h a1 a2 a3 a4 => ?_⟩
  obtain ⟨b1, b2⟩ := h5 t h a1 a2 a3 a4
  simp only [norm_pow, Real.norm_of_nonneg a2] at b1 b2
  have b3 : ∑ τ ∈ treesLe (n + 1), |h| ^ τ.order * ‖elemDiff (taylorSeries f (y t)) τ‖ ≤ D * h := (le_abs_self _).trans b2
  have hdiff : ‖∑ τ ∈ treesLe (n + 1), (h ^ τ.order * dot b (τ.stageWeights A)) • elemDiff (taylorSeries f (y t)) τ -
      ∑ τ ∈ treesLe (n + 1), (h ^ τ.order * (1 / (τ.density : ℝ))) • elemDiff (taylorSeries f (y t)) τ‖ ≤ ε * (D * h) := by
    rw [← sum_sub_distrib]
    refine (norm_sum_le _ _).trans ?_
    have hε : 0 ≤ ε := (abs_nonneg _).trans (hord (.node []) (by simp [RTree.order, RTree.orders]))
    refine le_trans ?_ (mul_le_mul_of_nonneg_left b3 hε)
    rw [mul_sum]
    refine sum_le_sum fun τ hτ => ?_
    rw [← sub_smul, ← mul_sub, norm_smul, norm_mul, norm_pow, Real.norm_eq_abs, Real.norm_eq_abs]
    have hd := hord τ (mem_treesLe.1 hτ)
    rw [orderDefect] at hd
    calc |h| ^ τ.order * |dot b (τ.stageWeights A) - 1 / (τ.density : ℝ)| * ‖elemDiff (taylorSeries f (y t)) τ‖
        = |dot b (τ.stageWeights A) - 1 / (τ.density : ℝ)| * (|h| ^ τ.order * ‖elemDiff (taylorSeries f (y t)) τ‖) := by ring
      _ ≤ _ := mul_le_mul_of_nonneg_right hd (by positivity)
  have e : y t + h • comb b (rkStages f (y t) h A []) - y (t + h) =
      (h • comb b (rkStages f (y t) h A []) -
          ∑ τ ∈ treesLe (n + 1), (h ^ τ.order * dot b (τ.stageWeights A)) • elemDiff (taylorSeries f (y t)) τ -
        (y (t + h) - y t -
          ∑ τ ∈ treesLe (n + 1), (h ^ τ.order * (1 / (τ.density : ℝ))) • elemDiff (taylorSeries f (y t)) τ)) +
      (∑ τ ∈ treesLe (n + 1), (h ^ τ.order * dot b (τ.stageWeights A)) • elemDiff (taylorSeries f (y t)) τ -
      ∑ τ ∈ treesLe (n + 1), (h ^ τ.order * (1 / (τ.density : ℝ))) • elemDiff (taylorSeries f (y t)) τ) := by abel
  rw [e]
  exact (norm_add_le _ _).trans (add_le_add b1 hdiff)

end Spec
