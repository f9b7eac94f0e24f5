import Verif.Props.LongTimeAdaptive

/-!
Property C155 for `dopri5` and equilibria: the adaptive integration of a contracting field converges to the equilibrium from every
initial state, with no error term.
-/

set_option linter.unusedSectionVars false

namespace Torchdyn

open Spec Set

variable {ι A : Type} [Fintype ι]

theorem comb_zeros : ∀ (row : List ℝ) (ks : List (ι → ℝ)), (∀ k ∈ ks, k = 0) → comb row ks = 0 := by
  intro row
  induction row with
  | nil => intro ks _; simp [comb]
  | cons c row ih =>
    intro ks hks
    cases ks with
    | nil => simp [comb]
    | cons k ks => simp [comb, hks k (by simp), ih ks (fun k hk => hks k (by simp [hk]))]

theorem rkStagesT_rest {F : (ι → ℝ) → ι → ℝ} {z : ι → ℝ} (hz : F z = 0) (t s : ℝ) : ∀ (rows : List (ℝ × List ℝ)) (ks : List (ι → ℝ)),
    (∀ k ∈ ks, k = 0) → ∀ k ∈ rkStagesT (fun _ => F) z t s rows ks, k = 0 := by
  intro rows
  induction rows with
  | nil => intro ks hks; exact hks
  | cons r rows ih =>
    intro ks hks
    rw [rkStagesT]
    refine ih _ fun k hk => ?_
    rcases List.mem_append.1 hk with hk | hk
    · exact hks k hk
    · rw [List.mem_singleton] at hk
      rw [hk, comb_zeros r.2 ks hks, smul_zero, add_zero, hz]

theorem dopri5Map_rest {F : (ι → ℝ) → ι → ℝ} {z : ι → ℝ} (hz : F z = 0) (t s : ℝ) : dopri5Map F z t s = z := by
  rw [dopri5Map, comb_zeros _ _ (rkStagesT_rest hz t s _ [] (by simp)), smul_zero, add_zero]

/-- **C155.** Equilibria with `dopri5`: for an autonomous field with two continuous derivatives that contracts at rate `μ` (no
Lipschitz or growth condition) and rests at `z`, and every radius `ρ`, there is `δ > 0` such that from every initial state within `ρ`
of `z`, on every increasing grid of any length with gaps at most `δ` and for all tolerances, `odeint` returns, and the states
approach `z` in the Euclidean norm like `exp (-μ (t - a) / 2)`. -/
theorem C155_dopri5_equilibrium {F : (ι → ℝ) → ι → ℝ} (hF : ContDiff ℝ 2 F) {μ : ℝ} (hμ : 0 < μ) (hc : ContractingEuclid μ F)
    (args : A) (z : ι → ℝ) (hz : F z = 0) (ρ : ℝ) : ∃ δ, 0 < δ ∧
    ∀ (x0 : ι → ℝ) (a t1 : ℝ) (rest : List ℝ) (atol rtol : ℝ) (saveAt : List ℝ) (sel : Finset ι), eucl (x0 - z) ≤ ρ →
    Increasing (a :: t1 :: rest) → GapsAtMost δ (a :: t1 :: rest) → 0 < atol → 0 ≤ rtol →
    ∃ fuel0 xs, (∀ fuel, fuel0 ≤ fuel → odeint fuel (pureField fun _ x => F x) x0 (a :: t1 :: rest)
        (dopri5Solver (Except PyErr) ℝ (ι → ℝ) A) atol rtol false false saveAt args sel = .ok (some (a :: t1 :: rest, xs))) ∧
      xs.length = (a :: t1 :: rest).length ∧ xs[0]? = some x0 ∧
      ∀ (k : ℕ) (t : ℝ) (x : ι → ℝ), (a :: t1 :: rest)[k]? = some t → xs[k]? = some x →
        eucl (x - z) ≤ Real.exp (-(μ * (t - a) / 2)) * eucl (x0 - z) := by
  have hf : ContDiff ℝ 2 (fun p : ℝ × (ι → ℝ) => F p.2) := hF.comp contDiff_snd
  obtain ⟨E, δe, hE, hδe, herr⟩ := rk_stages_ball (f := fun _ x => F x) (hf.of_le (by norm_num)) 0 0 (ρ + ‖z‖)
    ((0 :: (constructDopri5 ℝ).c).zip (butcherRows (constructDopri5 ℝ))) (constructDopri5 ℝ).berr
  obtain ⟨δc, hδc, hcon⟩ := rk_contract_local hF hμ hc
    ((0 :: (constructDopri5 ℝ).c).zip (butcherRows (constructDopri5 ℝ))) (constructDopri5 ℝ).bsol dopri5_bsol_sum.1
    dopri5_bsol_sum.2 (|ρ| + ‖z‖)
  refine ⟨δc, hδc, ?_⟩
  intro x0 a t1 rest atol rtol saveAt sel hx0 hinc hgap hat hrt
  have hs := dopri5_fsalSolver (ι := ι) args
  have h01 : a < t1 := (List.pairwise_cons.1 hinc).1 t1 (by simp)
  set e0 := eucl (x0 - z) with he0
  have he0n : 0 ≤ e0 := norm_nonneg _
  -- the bound of the distance at time `t`
  let Inv : ℝ → (ι → ℝ) → Prop := fun t x => eucl (x - z) ≤ Real.exp (-(μ * (t - a) / 2)) * e0
  have hexp1 : ∀ t, a ≤ t → Real.exp (-(μ * (t - a) / 2)) ≤ 1 := fun t ht =>
    Real.exp_le_one_iff.2 (by have := mul_nonneg hμ.le (sub_nonneg.2 ht); linarith)
  have hball : ∀ t x, a ≤ t → Inv t x → ‖x‖ ≤ ρ + ‖z‖ := by
    intro t x h1 h3
    have a1 : ‖x - z‖ ≤ e0 := (norm_le_eucl _).trans (le_trans h3 (by
      have := mul_le_mul_of_nonneg_right (hexp1 t h1) he0n
      linarith))
    have a3 : ‖x‖ ≤ ‖x - z‖ + ‖z‖ := by simpa using norm_add_le (x - z) z
    linarith
  have hinv : ∀ t s x, a ≤ t → 0 ≤ s → s ≤ δc → Inv t x → Inv (t + s) (dopri5Map F x t s) := by
    intro t s x h1 h2 h3 h4
    have hρ := le_abs_self ρ
    have hρ0 := abs_nonneg ρ
    obtain ⟨f0, f1⟩ := hcon x z t s ((hball t x h1 h4).trans (by linarith)) (by linarith) h2 h3
    change eucl (dopri5Map F x t s - z) ≤ _
    have e : dopri5Map F x t s - z = dopri5Map F x t s - dopri5Map F z t s := by rw [dopri5Map_rest hz]
    rw [e]
    refine le_trans f1 ?_
    have g1 := mul_le_mul_of_nonneg_left h4 f0
    have g2 := exp_step (μ := μ) (g := s) (τ := t - a)
    have g3 : t - a + s = t + s - a := by ring
    rw [g3] at g2
    have g4 := mul_le_mul_of_nonneg_right g2 he0n
    linarith
  have hstart : Inv a x0 := by
    change e0 ≤ _
    simp
  obtain ⟨Tl, hTl⟩ : ∃ Tl, (t1 :: rest).getLast? = some Tl := ⟨_, List.getLast?_eq_some_getLast (by simp)⟩
  have hTlm : Tl ∈ t1 :: rest := List.mem_of_getLast? hTl
  set δs := min δe (atol / (2 * (E + 1))) with hδs
  have H1 := fun (dt : ℝ) (hdt : 0 < dt) => adaptive_terminates_good hs (by norm_num [dopri5Solver]) rfl rfl rfl (fun _ x => F x)
    hinc hTl atol rtol (odeintInterp (dopri5Solver (Except PyErr) ℝ (ι → ℝ) A) false) false sel (δ := δs)
    (lt_min hδe (by positivity))
    (fun x t k => k = F x ∧ Inv t x)
    (by
      rintro x t dt k1 x' e st ⟨rfl, hx⟩ ht0 hdt hle hnext hst
      refine ⟨rfl, ?_⟩
      obtain ⟨c, hc, hc1, hc2⟩ := exists_next a (t1 :: rest) hinc hgap ht0 ⟨Tl, hTlm, by linarith⟩
      have hdth : dt ≤ δc := by
        have := hnext rfl c hc hc1
        linarith
      have hst' := (hs.first_stage (fun _ x => F x) x t dt).symm.trans hst
      have hx' : x' = dopri5Map F x t dt := dopri5_step_rk _ x t dt hst'
      rw [hx']
      exact hinv t dt x ht0 hdt.le hdth hx)
    (by
      rintro x t dt k1 k x' e st ⟨rfl, hx⟩ ht0 htT hdt hle hst
      have hst' := (hs.first_stage (fun _ x => F x) x t dt).symm.trans hst
      have he := dopri5_step_err _ x t dt hst'
      have hb := herr 0 dt x le_rfl le_rfl hdt.le (hle.trans (min_le_left _ _)) (hball t x ht0 hx)
      rw [show rkStagesT (fun _ x => F x) x t dt ((0 :: (constructDopri5 ℝ).c).zip (butcherRows (constructDopri5 ℝ))) [] =
        rkStagesT (fun _ x => F x) x 0 dt ((0 :: (constructDopri5 ℝ).c).zip (butcherRows (constructDopri5 ℝ))) [] by
          rw [rkStagesT_autonomous, rkStagesT_autonomous]] at he
      have hb' : ∀ i, |e i| ≤ E * dt := by
        intro i
        refine (norm_le_pi_norm e i).trans ?_
        rw [he, norm_smul, Real.norm_of_nonneg hdt.le, mul_comm]
        exact mul_le_mul_of_nonneg_right hb hdt.le
      refine lt_of_le_of_lt (errorNorm_le sel atol rtol hat hrt x x' _ (E * dt) (by positivity) hb') ?_
      rw [div_lt_one hat]
      have e1 : (E + 1) * dt ≤ (E + 1) * (atol / (2 * (E + 1))) :=
        mul_le_mul_of_nonneg_left (hle.trans (min_le_right _ _)) (by positivity)
      have e2 : (E + 1) * (atol / (2 * (E + 1))) = atol / 2 := by field_simp
      rw [e2] at e1
      linarith)
    (F x0) x0 ⟨rfl, hstart⟩ hdt
  obtain ⟨dt, hdt, hinit, -⟩ := odeint_forward 0 (fun _ x => F x) x0 rest (dopri5Solver (Except PyErr) ℝ (ι → ℝ) A) hs.adaptive
    atol rtol false false saveAt args sel h01.le
  obtain ⟨fuel, ts, xs, hrun⟩ := H1 dt hdt
  obtain ⟨dt', _, hinit', e⟩ := odeint_forward fuel (fun _ x => F x) x0 rest (dopri5Solver (Except PyErr) ℝ (ι → ℝ) A)
    hs.adaptive atol rtol false false saveAt args sel h01.le
  rw [hinit] at hinit'
  cases hinit'
  have hrun' : odeint fuel (pureField fun _ x => F x) x0 (a :: t1 :: rest) (dopri5Solver (Except PyErr) ℝ (ι → ℝ) A) atol rtol
      false false saveAt args sel = .ok (some (ts, xs)) := by rw [e]; exact hrun
  obtain ⟨r, hr, h21⟩ := C21_times hs (fun _ x => F x) x0 a t1 rest hinc atol rtol false saveAt sel fuel
  rw [hrun'] at hr
  obtain ⟨hts, hlen, hx0'⟩ := h21 ts xs (Except.ok.inj hr).symm
  subst hts
  obtain ⟨-, -, -, hch⟩ := C22_accepted hs (fun _ x => F x) x0 a t1 rest hinc atol rtol false false (Or.inl rfl) saveAt sel fuel
    _ xs hrun'
  refine ⟨fuel, xs, fun fuel' hle => C21_fuel_irrelevant hs _ x0 a t1 rest atol rtol false false saveAt sel fuel fuel' hle _
    hrun', hlen, hx0', ?_⟩
  have hage : ∀ t ∈ a :: t1 :: rest, a ≤ t := by
    intro t ht
    rcases List.mem_cons.1 ht with rfl | hm
    · exact le_rfl
    · exact ((List.pairwise_cons.1 hinc).1 t hm).le
  have key : ∀ (k : ℕ) (t : ℝ) (x : ι → ℝ), (a :: t1 :: rest)[k]? = some t → xs[k]? = some x → Inv t x := by
    intro k
    induction k with
    | zero =>
      intro t x ht hx
      rw [hx0'] at hx
      simp only [List.getElem?_cons_zero, Option.some.injEq] at ht hx
      subst ht hx
      exact hstart
    | succ k ih =>
      intro t' x' ht' hx'
      have hk : k + 1 < (a :: t1 :: rest).length := (List.getElem?_eq_some_iff.1 ht').1
      obtain ⟨t, ht⟩ : ∃ t, (a :: t1 :: rest)[k]? = some t := ⟨_, List.getElem?_eq_getElem (by omega)⟩
      obtain ⟨x, hx⟩ : ∃ x, xs[k]? = some x := ⟨_, List.getElem?_eq_getElem (by omega)⟩
      have hat' := hage t (List.mem_of_getElem? ht)
      have hg := hgap k t t' ht ht'
      have hI := ih t x ht hx
      have hreach := hch k t x t' x' ht hx ht' hx'
      have gen : ∀ q, Reached (dopri5Solver (Except PyErr) ℝ (ι → ℝ) A) args (fun _ x => F x) sel atol rtol (t, x) q →
          q.1 ≤ t' → t ≤ q.1 ∧ Inv q.1 q.2 := by
        intro q hq
        induction hq with
        | refl => intro _; exact ⟨le_rfl, hI⟩
        | @tail q r _ hqr ih =>
          intro hrt'
          obtain ⟨hlt, k, e, st, hst, -⟩ := hqr
          obtain ⟨g1, g2⟩ := ih (by linarith)
          refine ⟨by linarith, ?_⟩
          have hx : r.2 = dopri5Map F q.2 q.1 (r.1 - q.1) := dopri5_step_rk _ _ _ _ hst
          have := hinv q.1 (r.1 - q.1) q.2 (by linarith) (by linarith) (by linarith) g2
          rw [← hx, show q.1 + (r.1 - q.1) = r.1 by ring] at this
          exact this
      exact (gen _ hreach le_rfl).2
  exact key

/-- Non-vacuity: `x' = -x - x³` contracts at rate 1 and rests at 0: from every initial state in `[-100, 100]`, on every grid that is
fine enough, the states decay. -/
example : ∃ δ : ℝ, 0 < δ ∧ ∀ (x0 : Fin 1 → ℝ) (t1 : ℝ) (rest : List ℝ), |x0 0| ≤ 100 →
    Increasing (0 :: t1 :: rest) → GapsAtMost δ (0 :: t1 :: rest) →
    ∃ fuel0 xs, (∀ fuel, fuel0 ≤ fuel → odeint fuel (pureField fun _ x i => -x i - x i ^ 3) x0 (0 :: t1 :: rest)
        (dopri5Solver (Except PyErr) ℝ (Fin 1 → ℝ) Unit) (1 / 1000) (1 / 1000) false false [] () Finset.univ =
          .ok (some (0 :: t1 :: rest, xs))) ∧
      ∀ (k : ℕ) (t : ℝ) (x : Fin 1 → ℝ), (0 :: t1 :: rest)[k]? = some t → xs[k]? = some x →
        |x 0| ≤ Real.exp (-(t / 2)) * |x0 0| := by
  have he : ∀ v : Fin 1 → ℝ, eucl v = |v 0| := by
    intro v
    rw [eucl, EuclideanSpace.norm_eq]
    simp [Real.sqrt_sq_eq_abs]
  obtain ⟨δ, hδ, H⟩ := C155_dopri5_equilibrium (ι := Fin 1) (A := Unit) (F := fun x i => -x i - x i ^ 3)
    (contDiff_pi.2 fun i => (contDiff_apply ℝ ℝ i).neg.sub ((contDiff_apply ℝ ℝ i).pow 3)) (μ := 1) one_pos
    (fun x y => by
      simp only [Finset.univ_unique, Finset.sum_singleton]
      generalize x _ = u
      generalize y _ = v
      have h1 : 0 ≤ (u - v) ^ 2 * (u ^ 2 + u * v + v ^ 2) :=
        mul_nonneg (sq_nonneg _) (by nlinarith [sq_nonneg (u + v), sq_nonneg u, sq_nonneg v])
      nlinarith) () 0 (by funext; simp) 100
  refine ⟨δ, hδ, fun x0 t1 rest hx0 hinc hgap => ?_⟩
  obtain ⟨fuel0, xs, h1, -, -, h3⟩ := H x0 0 t1 rest (1 / 1000) (1 / 1000) [] Finset.univ (by rw [he]; simpa using hx0) hinc hgap
    (by norm_num) (by norm_num)
  refine ⟨fuel0, xs, h1, fun k t x hk hx => ?_⟩
  have := h3 k t x hk hx
  rw [he, he] at this
  simpa using this

end Torchdyn
