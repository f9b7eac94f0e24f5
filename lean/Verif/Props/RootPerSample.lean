import Verif.Props.RootCall

/-!
Property C127, residuals with data per sample: what the termination condition of `root_find` certifies, which errors the call
raises, and what `broyden_fast` makes of the diagonal.
-/

set_option linter.unusedSectionVars false
set_option linter.unusedSimpArgs false

namespace Torchdyn

variable {β ι : Type} [Fintype β] [Fintype ι]

/-- What the termination condition certifies of a tensor of shape `(bs, bs, dims)`: the tolerances hold for the norms over all
samples `b` of one coordinate `i`, in every slice `a`. -/
def WithinTolerancesMid (cfg : RootCfg) (G : β → (ι → ℝ) → (ι → ℝ)) (F : β → ι → ℝ) (z dz : β × β → ι → ℝ) : Prop :=
  ∀ a i, Real.sqrt (∑ b, G b (z (a, b)) i ^ 2) ≤ cfg.fTol ∧ Real.sqrt (∑ b, G b (z (a, b)) i ^ 2) / cfg.fRtol ≤ F a i ∧
    Real.sqrt (∑ b, dz (a, b) i ^ 2) ≤ cfg.xTol ∧
    Real.sqrt (∑ b, dz (a, b) i ^ 2) / cfg.xRtol ≤ Real.sqrt (∑ b, z (a, b) i ^ 2)

/-- The update behind the two names. -/
noncomputable def updateOf3 (method : RootMethod) (Δg Δz : Batch (β × β) ι) (J : BatchMat (β × β) ι ι) : BatchMat (β × β) ι ι :=
  match method with
  | .broydenFast => broydenBadUpdate3 (1 / 10 ^ 6) Δg Δz J
  | _ => broydenFullUpdate (1 / 10 ^ 6) Δg Δz J

/-- One iteration of the loop. -/
theorem rootLoop3_succ {cfg : RootCfg} {method : RootMethod} {search : SearchMethod} {G : β → (ι → ℝ) → (ι → ℝ)} {fuel : ℕ}
    (hm : IsBroyden method) (hf : 7 ≤ fuel) (left : ℕ) (s : RootState3 β ι) :
    ∃ s1 : RootState3 β ι, s1.iteration = s.iteration + 1 ∧ s1.dz = (fun p i => ∑ o, s.geval p o * s.Jinv p i o) ∧
      s1.z = (fun p i => s.z p i - s.alpha * s1.dz p i) ∧ s1.geval = (fun p => G p.2 (s1.z p)) ∧
      s1.Jinv = updateOf3 method (fun p o => s1.geval p o - s.geval p o) (fun p i => s1.z p i - s.z p i) s.Jinv ∧
      searchAlpha search (fun z p => G p.2 (z p)) s1.geval s1.dz s1.z s.alpha fuel = some s1.alpha ∧
      s1.f0Norm = some (s.f0Norm.getD (midNorm s1.geval)) ∧
      (s1.terminated = true ↔
        WithinTolerancesMid cfg G (fun a i => s.f0Norm.getD (midNorm s1.geval) (a, i)) s1.z s1.dz) ∧
      rootLoop3 cfg method search (fun z p => G p.2 (z p)) fuel (left + 1) s =
        if s1.terminated then .ok (some s1) else rootLoop3 cfg method search (fun z p => G p.2 (z p)) fuel left s1 := by
  set g : Batch (β × β) ι → Batch (β × β) ι := fun z p => G p.2 (z p) with hg
  set r := broydenStep (updateOf3 method) g s.z s.Jinv s.geval s.alpha with hr
  have hstep : rootStep3 method g s.z s.Jinv s.geval s.alpha = .ok r := by rcases hm with rfl | rfl <;> rfl
  obtain ⟨a, ha⟩ := C49_searches_return search g r.2.2.1 r.2.1 r.1 s.alpha fuel hf
  refine ⟨⟨s.iteration + 1, r.1, r.2.1, r.2.2.1, r.2.2.2, a,
    some (termCheck3 cfg.fTol cfg.fRtol cfg.xTol cfg.xRtol s.f0Norm r.2.2.1 r.1 r.2.1).1,
    (termCheck3 cfg.fTol cfg.fRtol cfg.xTol cfg.xRtol s.f0Norm r.2.2.1 r.1 r.2.1).2⟩, rfl, rfl, rfl, rfl, rfl, ha, rfl, ?_, ?_⟩
  · simp only [termCheck3, decide_eq_true_eq, WithinTolerancesMid]
    constructor
    · rintro ⟨⟨h1, h2⟩, h3, h4⟩ a i
      exact ⟨h1 (a, i), h2 (a, i), h3 (a, i), h4 (a, i)⟩
    · intro h
      exact ⟨⟨fun p => (h p.1 p.2).1, fun p => (h p.1 p.2).2.1⟩, fun p => (h p.1 p.2).2.2.1, fun p => (h p.1 p.2).2.2.2⟩
  · rw [rootLoop3, hstep]
    simp only [bind, Except.bind, ha, pure, Except.pure]

theorem rootLoop3_spec {cfg : RootCfg} {method : RootMethod} {search : SearchMethod} {G : β → (ι → ℝ) → (ι → ℝ)} {fuel : ℕ}
    (hm : IsBroyden method) (hf : 7 ≤ fuel) (F : β × ι → ℝ) (left : ℕ) :
    ∀ s : RootState3 β ι, s.f0Norm = some F → s.terminated = false →
    ∃ s', rootLoop3 cfg method search (fun z p => G p.2 (z p)) fuel left s = .ok (some s') ∧
      s.iteration ≤ s'.iteration ∧ s'.iteration ≤ s.iteration + left ∧
      (s'.terminated = false → s'.iteration = s.iteration + left) ∧
      (s'.terminated = true → WithinTolerancesMid cfg G (fun a i => F (a, i)) s'.z s'.dz) := by
  induction left with
  | zero => exact fun s _ ht => ⟨s, rfl, le_rfl, le_rfl, fun _ => rfl, fun h => by rw [ht] at h; cases h⟩
  | succ left ih =>
    intro s hF ht
    obtain ⟨s1, h1, _, _, _, _, _, h7, h8, h9⟩ := rootLoop3_succ (cfg := cfg) (search := search) (G := G) hm hf left s
    rw [hF, Option.getD_some] at h7 h8
    rw [h9]
    by_cases hs : s1.terminated = true
    · rw [if_pos hs]
      exact ⟨s1, rfl, by omega, by omega, (fun h => by rw [hs] at h; cases h), h8.1⟩
    · rw [if_neg hs]
      obtain ⟨s', k1, k2, k3, k4, k5⟩ := ih s1 h7 (by simpa using hs)
      exact ⟨s', k1, by omega, by omega, fun h => by rw [k4 h]; omega, k5⟩

theorem rootFindPerSample_names {method search : String} {p : RootMethod} {q : SearchMethod} (hp : (method, p) ∈ rootSolverDict)
    (hq : (search, q) ∈ searchMethods) (cfg : RootCfg) (G : β → (ι → ℝ) → (ι → ℝ)) (z : Batch β ι) (alpha : ℝ) (fuel : ℕ) :
    rootFindPerSample cfg method search G z alpha fuel = if Fintype.card β = 0 then .error .runtimeError else
      rootLoop3 cfg p q (fun z p => G p.2 (z p)) fuel (cfg.maxiters + 1)
        ⟨0, fun p => z p.2, fun _ _ => 0, fun p => G p.2 (z p.2), initialInverse3 G z, alpha, none, false⟩ := by
  have h1 : rootSolverDict.find? (fun r => r.1 == method) = some (method, p) := by
    simp only [rootSolverDict, List.mem_cons, Prod.mk.injEq, List.not_mem_nil, or_false] at hp
    rcases hp with ⟨rfl, rfl⟩ | ⟨rfl, rfl⟩ | ⟨rfl, rfl⟩ | ⟨rfl, rfl⟩ <;> decide
  have h2 : searchMethods.find? (fun r => r.1 == search) = some (search, q) := by
    simp only [searchMethods, List.mem_cons, Prod.mk.injEq, List.not_mem_nil, or_false] at hq
    rcases hq with ⟨rfl, rfl⟩ | ⟨rfl, rfl⟩ | ⟨rfl, rfl⟩ <;> decide
  simp only [rootFindPerSample, h1, h2]

/-- **C127 (residuals with data per sample, termination).** Both Broyden methods with any line search return after at most
`maxiters + 1` iterations. If the termination condition was met then the four tolerances hold for norms that run over the
samples, coordinate by coordinate, the reference being those norms after the first iteration; otherwise all `maxiters + 1`
iterations were performed. The other two methods raise `NotImplementedError`, unknown names `AssertionError`, and an empty
batch `RuntimeError`. -/
theorem C127_per_sample_certified (cfg : RootCfg) (method search : String) (G : β → (ι → ℝ) → (ι → ℝ)) (z : Batch β ι)
    (alpha : ℝ) (fuel : ℕ) (hf : 7 ≤ fuel) :
    (method = "broyden" ∨ method = "broyden_fast" → search = "naive" ∨ search = "armijo" ∨ search = "none" → Nonempty β →
      ∃ s, rootFindPerSample cfg method search G z alpha fuel = .ok (some s) ∧ 1 ≤ s.iteration ∧
        s.iteration ≤ cfg.maxiters + 1 ∧ (s.terminated = false → s.iteration = cfg.maxiters + 1) ∧
        (s.terminated = true → WithinTolerancesMid cfg G (fun a i => Real.sqrt (∑ b, G b (fun i => z b i - alpha *
          ∑ o, G b (z b) o * pinverse (rowJacobian (G b) (z a)) i o) i ^ 2)) s.z s.dz)) ∧
    (method = "newton" ∨ method = "chord" → search = "naive" ∨ search = "armijo" ∨ search = "none" → Nonempty β →
      rootFindPerSample cfg method search G z alpha fuel = .error .notImplementedError) ∧
    ((¬ ∃ p, (method, p) ∈ rootSolverDict) ∨ (¬ ∃ q, (search, q) ∈ searchMethods) →
      rootFindPerSample cfg method search G z alpha fuel = .error .assertionError) ∧
    ((∃ p, (method, p) ∈ rootSolverDict) → (∃ q, (search, q) ∈ searchMethods) → IsEmpty β →
      rootFindPerSample cfg method search G z alpha fuel = .error .runtimeError) := by
  have hsearch : search = "naive" ∨ search = "armijo" ∨ search = "none" → ∃ q, (search, q) ∈ searchMethods := by
    rintro (rfl | rfl | rfl)
    · exact ⟨.naive, by simp [searchMethods]⟩
    · exact ⟨.armijo, by simp [searchMethods]⟩
    · exact ⟨.none, by simp [searchMethods]⟩
  refine ⟨fun hm hs hβ => ?_, fun hm hs hβ => ?_, fun h => ?_, fun ⟨p, hp⟩ ⟨q, hq⟩ hβ => ?_⟩
  · obtain ⟨p, hp, hb⟩ : ∃ p, (method, p) ∈ rootSolverDict ∧ IsBroyden p := by
      rcases hm with rfl | rfl
      · exact ⟨.broyden, by simp [rootSolverDict], Or.inl rfl⟩
      · exact ⟨.broydenFast, by simp [rootSolverDict], Or.inr rfl⟩
    obtain ⟨q, hq⟩ := hsearch hs
    rw [rootFindPerSample_names hp hq, if_neg Fintype.card_ne_zero]
    set s0 : RootState3 β ι :=
      ⟨0, fun p => z p.2, fun _ _ => 0, fun p => G p.2 (z p.2), initialInverse3 G z, alpha, none, false⟩ with hs0
    obtain ⟨s1, h1, h2, h3, h4, _, _, h7, h8, h9⟩ :=
      rootLoop3_succ (cfg := cfg) (search := q) (G := G) hb hf cfg.maxiters s0
    have h1' : s1.iteration = 1 := h1
    have hF : ∀ a i, midNorm s1.geval (a, i) = Real.sqrt (∑ b, G b (fun i => z b i - alpha *
        ∑ o, G b (z b) o * pinverse (rowJacobian (G b) (z a)) i o) i ^ 2) := by
      intro a i
      rw [h4, h3, h2]
      rfl
    have e0 : s0.f0Norm.getD (midNorm s1.geval) = midNorm s1.geval := rfl
    rw [e0] at h7 h8
    simp only [← hF]
    rw [h9]
    by_cases ht : s1.terminated = true
    · rw [if_pos ht]
      exact ⟨s1, rfl, by omega, by omega, (fun h => by rw [ht] at h; cases h), h8.1⟩
    · rw [if_neg ht]
      obtain ⟨s', k1, k2, k3, k4, k5⟩ := rootLoop3_spec (cfg := cfg) (search := q) (G := G) hb hf _ cfg.maxiters s1 h7
        (by simpa using ht)
      exact ⟨s', k1, by omega, by omega, fun h => by rw [k4 h]; omega, k5⟩
  · obtain ⟨q, hq⟩ := hsearch hs
    rcases hm with rfl | rfl
    · rw [rootFindPerSample_names (p := .newton) (by simp [rootSolverDict]) hq, if_neg Fintype.card_ne_zero]
      rfl
    · rw [rootFindPerSample_names (p := .chord) (by simp [rootSolverDict]) hq, if_neg Fintype.card_ne_zero]
      rfl
  · have hnone : ∀ {α : Type} (l : List (String × α)) (n : String), (¬ ∃ p, (n, p) ∈ l) → l.find? (fun p => p.1 == n) = none := by
      intro α l n hn
      rw [List.find?_eq_none]
      rintro ⟨m, p⟩ hmem heq
      have : m = n := by simpa using heq
      exact hn ⟨p, this ▸ hmem⟩
    rw [rootFindPerSample]
    rcases h with h | h
    · rw [hnone _ _ h]
    · rw [hnone _ _ h]
      cases rootSolverDict.find? (fun p => p.1 == method) <;> rfl
  · rw [rootFindPerSample_names hp hq, if_pos (Fintype.card_eq_zero_iff.2 hβ)]

/-- **C127, `broyden_fast`.** On residuals with data per sample the second iteration of `broyden_fast` mixes the samples even
on the diagonal: for `x² = 1` and `x² = 2`, both started at `2`, two iterations of the call give another value for the second
sample than two iterations of the method on that sample; and although all slices of the tensor start from the same numbers,
they differ from each other. -/
theorem C127_fast_diagonal_refuted :
    ∃ (cfg : RootCfg) (G : Fin 2 → (Unit → ℝ) → (Unit → ℝ)) (z : Batch (Fin 2) Unit) (s3 : RootState3 (Fin 2) Unit)
      (s : RootState (Fin 2) Unit Unit), rootFindPerSample cfg "broyden_fast" "none" G z 1 7 = .ok (some s3) ∧
      rootFind ⟨-1, cfg.fRtol, cfg.xTol, cfg.xRtol, s3.iteration - 1⟩ "broyden_fast" "none" (fun z b => G b (z b))
        (fun b => pinverse (rowJacobian (G b) (z b))) z 1 7 = .ok (some s) ∧
      s.iteration = s3.iteration ∧ s3.z (1, 1) ≠ s.z 1 ∧ s3.z (0, 1) ≠ s3.z (1, 1) := by
  set cfg : RootCfg := ⟨1 / 10 ^ 2, 1 / 10, 1 / 10 ^ 2, 1, 1⟩ with hcfg
  set z : Batch (Fin 2) Unit := fun _ _ => 2 with hz
  have hpin : ∀ b, pinverse (rowJacobian (squareRow b) fun _ => 2) () () = 1 / 4 := by
    intro b
    rw [pinverse_square b (fun _ => 2) two_ne_zero]
    norm_num
  have hp : ("broyden_fast", RootMethod.broydenFast) ∈ rootSolverDict := by simp [rootSolverDict]
  have hq : ("none", SearchMethod.none) ∈ searchMethods := by simp [searchMethods]
  have hb : IsBroyden .broydenFast := Or.inr rfl
  -- the call
  set s0 : RootState3 (Fin 2) Unit :=
    ⟨0, fun p => z p.2, fun _ _ => 0, fun p => squareRow p.2 (z p.2), initialInverse3 squareRow z, 1, none, false⟩ with hs0
  obtain ⟨s1, a1, a2, a3, a4, a5, a6, _, a8, a9⟩ :=
    rootLoop3_succ (cfg := cfg) (search := .none) (G := squareRow) hb le_rfl 1 s0
  obtain ⟨s2, b1, b2, b3, _, _, _, _, _, b9⟩ :=
    rootLoop3_succ (cfg := cfg) (search := .none) (G := squareRow) hb le_rfl 0 s1
  have z1 : ∀ p, s1.z p () = 2 - (3 - (p.2 : ℕ)) / 4 := by
    intro p
    rw [a3, a2]
    simp only [hs0, initialInverse3, Finset.univ_unique, Finset.sum_singleton, PUnit.default_eq_unit, hz, squareRow]
    rw [hpin]
    ring
  have g1 : ∀ p, s1.geval p () = (2 - (3 - (p.2 : ℕ)) / 4) ^ 2 - (p.2 : ℕ) - 1 := by
    intro p
    rw [a4]
    simp only [squareRow, z1]
  have ht1 : ¬ s1.terminated = true := by
    intro h
    have h1 := ((a8.1 h) 0 ()).1
    have h2 : (9 / 16 : ℝ) ≤ Real.sqrt (∑ b, squareRow b (s1.z (0, b)) () ^ 2) := by
      apply Real.le_sqrt_of_sq_le
      simp only [Fin.sum_univ_two, squareRow, z1]
      norm_num
    have h3 : cfg.fTol = 1 / 100 := by norm_num [hcfg]
    rw [h3] at h1
    linarith
  have hal : s1.alpha = 1 := by
    have : some s0.alpha = some s1.alpha := a6
    exact (Option.some.inj this).symm
  have hrun : rootFindPerSample cfg "broyden_fast" "none" squareRow z 1 7 = .ok (some s2) := by
    rw [rootFindPerSample_names hp hq, if_neg Fintype.card_ne_zero]
    change rootLoop3 cfg .broydenFast .none _ 7 2 s0 = _
    rw [a9, if_neg ht1, b9]
    split <;> rfl
  have J1 : s1.Jinv (1, 1) () () = 1 / 4 + (-(1 / 16)) * (-(7 / 4)) / ((39 / 16) ^ 2 + (7 / 4) ^ 2 + 1 / 10 ^ 6) := by
    rw [a5]
    simp only [updateOf3, broydenBadUpdate3, Finset.univ_unique, Finset.sum_singleton, PUnit.default_eq_unit, Fin.sum_univ_two, g1, z1]
    simp only [hs0, initialInverse3, hz, squareRow, hpin]
    norm_num
  have J1' : s1.Jinv (0, 1) () () = 1 / 4 + (-(1 / 16)) * (-(39 / 16)) / ((39 / 16) ^ 2 + (7 / 4) ^ 2 + 1 / 10 ^ 6) := by
    rw [a5]
    simp only [updateOf3, broydenBadUpdate3, Finset.univ_unique, Finset.sum_singleton, PUnit.default_eq_unit, Fin.sum_univ_two, g1, z1]
    simp only [hs0, initialInverse3, hz, squareRow, hpin]
    norm_num
  have z2' : s2.z (0, 1) () = 3 / 2 - 1 / 4 * s1.Jinv (0, 1) () () := by
    rw [b3, b2, hal]
    simp only [Finset.univ_unique, Finset.sum_singleton, PUnit.default_eq_unit, g1, z1]
    norm_num
  have z2 : s2.z (1, 1) () = 3 / 2 - 1 / 4 * s1.Jinv (1, 1) () () := by
    rw [b3, b2, hal]
    simp only [Finset.univ_unique, Finset.sum_singleton, PUnit.default_eq_unit, g1, z1]
    norm_num
  have hit : s2.iteration = 2 := by
    rw [b1, a1]
  -- the sample for itself
  set cfg' : RootCfg := ⟨-1, cfg.fRtol, cfg.xTol, cfg.xRtol, s2.iteration - 1⟩ with hcfg'
  set t0 : RootState (Fin 2) Unit Unit := ⟨0, z, fun _ _ => 0, (fun z b => squareRow b (z b)) z,
    fun b => pinverse (rowJacobian (squareRow b) (z b)), 1, none, false⟩ with ht0
  obtain ⟨t1, c1, c2, c3, c4, c5, c6, _, c8, c9⟩ := rootLoop_succ (cfg := cfg') (search := .none)
    (g := fun (z : Batch (Fin 2) Unit) b => squareRow b (z b)) hb (le_refl 7) 1 t0
  obtain ⟨t2, d1, d2, d3, _, _, _, _, d8, d9⟩ := rootLoop_succ (cfg := cfg') (search := .none)
    (g := fun (z : Batch (Fin 2) Unit) b => squareRow b (z b)) hb (le_refl 7) 0 t1
  have hneg : ∀ F y dy, ¬ WithinTolerances cfg' (fun (z : Batch (Fin 2) Unit) b => squareRow b (z b)) F y dy := by
    intro F y dy h
    have h1 : Real.sqrt _ ≤ -1 := (h 0).1
    linarith [Real.sqrt_nonneg (∑ o, squareRow 0 (y 0) o ^ 2)]
  have y1 : t1.z 1 () = 3 / 2 := by
    rw [c3, c2]
    simp only [ht0, Finset.univ_unique, Finset.sum_singleton, PUnit.default_eq_unit, hz, squareRow, hpin]
    norm_num
  have h1 : t1.geval 1 () = 1 / 4 := by
    rw [c4]
    simp only [squareRow, y1]
    norm_num
  have hal' : t1.alpha = 1 := by
    have : some t0.alpha = some t1.alpha := c6
    exact (Option.some.inj this).symm
  have K1 : t1.Jinv 1 () () = 1 / 4 + (-(1 / 16)) * (-(7 / 4)) / ((7 / 4) ^ 2 + 1 / 10 ^ 6) := by
    rw [c5]
    simp only [updateOf, broydenBadUpdate, Finset.univ_unique, Finset.sum_singleton, PUnit.default_eq_unit, h1, y1]
    simp only [ht0, hz, squareRow, hpin]
    norm_num
  have y2 : t2.z 1 () = 3 / 2 - 1 / 4 * t1.Jinv 1 () () := by
    rw [d3, d2, hal']
    simp only [Finset.univ_unique, Finset.sum_singleton, PUnit.default_eq_unit, h1, y1]
    norm_num
  refine ⟨cfg, squareRow, z, s2, t2, hrun, ?_, by rw [d1, c1, hit], fun h => ?_, fun h => ?_⟩
  · refine (rootFind_names hp hq cfg' _ _ z 1 7).trans ?_
    have hmax : s2.iteration - 1 + 1 = 2 := by omega
    change rootLoop cfg' .broydenFast .none _ 7 (s2.iteration - 1 + 1) t0 = _
    rw [hmax, c9, if_neg fun h => hneg _ _ _ (c8.1 h), d9, if_neg fun h => hneg _ _ _ (d8.1 h)]
    rfl
  · have h2 := congrFun h ()
    rw [z2, y2, J1, K1] at h2
    norm_num at h2
  · have h2 := congrFun h ()
    rw [z2, z2', J1, J1'] at h2
    norm_num at h2

end Torchdyn
