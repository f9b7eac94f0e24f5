import Verif.Model.SdeShapes
import Verif.Proofs.FixedOdeint

/-!
Property C135: the SDE solvers integrate every noise type that they declare to support.
-/

set_option linter.unusedSectionVars false
set_option linter.unusedSimpArgs false

namespace Torchdyn

open Spec

/-! ### Broadcasting -/

theorem broadcastRev_length : ∀ (s t u : List ℕ), broadcastRev s t = some u → u.length = max s.length t.length
  | [], t, u, h => by simp only [broadcastRev, Option.some.injEq] at h; simp [← h]
  | a :: s, [], u, h => by simp only [broadcastRev, Option.some.injEq] at h; simp [← h]
  | a :: s, b :: t, u, h => by
    rw [broadcastRev] at h
    have key : ∀ c : ℕ, (broadcastRev s t).map (c :: ·) = some u → u.length = max (a :: s).length (b :: t).length := by
      intro c hc
      obtain ⟨v, hv, rfl⟩ := Option.map_eq_some_iff.1 hc
      have := broadcastRev_length s t v hv
      simp only [List.length_cons, this]
      omega
    split at h
    · exact key a h
    · split at h
      · exact key b h
      · cases h

theorem broadcastRev_self (s : List ℕ) : broadcastRev s s = some s := by
  induction s with
  | nil => rfl
  | cons a s ih => rw [broadcastRev, if_pos (Or.inl rfl), ih]; rfl

theorem broadcastShape_self (s : List ℕ) : broadcastShape s s = some s := by
  rw [broadcastShape, broadcastRev_self]
  simp

section

variable {K : Type}

/-- The result of an elementwise operation has as many axes as the operand with more axes. -/
theorem STensor.bin_rank {op : K → K → K} {a b c : STensor K} (h : a.bin op b = .ok c) :
    c.shape.length = max a.shape.length b.shape.length := by
  unfold STensor.bin at h
  split at h
  · cases h
  · rename_i s hs
    cases h
    obtain ⟨v, hv, rfl⟩ := Option.map_eq_some_iff.1 hs
    have := broadcastRev_length _ _ _ hv
    simpa using this

theorem STensor.bin_same (op : K → K → K) (s : List ℕ) (u v : List ℕ → K) :
    (STensor.mk s u).bin op ⟨s, v⟩ = .ok ⟨s, fun i => op (u i) (v i)⟩ := by
  simp [STensor.bin, broadcastShape_self, broadcastIndex]

theorem except_bind_ok {ε α β : Type} {a : Except ε α} {k : α → Except ε β} {r : β} (h : (a >>= k) = .ok r) :
    ∃ v, a = .ok v ∧ k v = .ok r := by
  cases a with
  | error e => cases h
  | ok v => exact ⟨v, rfl, h⟩

variable [Field K]

/-- The result of a step has at least as many axes as the value of the diffusion at its start. -/
def RankKeeping (g : K → STensor K → Except PyErr (STensor K)) (step : STensor K → K → K → Except PyErr (StepOut (STensor K))) :
    Prop :=
  ∀ x t dt o, step x t dt = .ok o → ∃ y G, o = .three none y none ∧ g t x = .ok G ∧ G.shape.length ≤ y.shape.length

theorem eulerMaruyama_rank (sde : SdeFunc (Except PyErr) K (STensor K)) (bm : K → K → Except PyErr (STensor K)) :
    RankKeeping sde.g (eulerMaruyamaShaped sde bm) := by
  intro x t dt o h
  obtain ⟨f, hf, h⟩ := except_bind_ok h
  obtain ⟨s, hs, h⟩ := except_bind_ok h
  obtain ⟨g, hg, h⟩ := except_bind_ok h
  obtain ⟨b, hb, h⟩ := except_bind_ok h
  obtain ⟨gb, hgb, h⟩ := except_bind_ok h
  obtain ⟨y, hy, h⟩ := except_bind_ok h
  cases h
  refine ⟨y, g, rfl, hg, ?_⟩
  have := STensor.bin_rank hgb
  have := STensor.bin_rank hy
  omega

theorem eulerHeun_rank (sde : SdeFunc (Except PyErr) K (STensor K)) (bm : K → K → Except PyErr (STensor K)) :
    RankKeeping sde.g (eulerHeunShaped sde bm) := by
  intro x t dt o h
  obtain ⟨f, hf, h⟩ := except_bind_ok h
  obtain ⟨g, hg, h⟩ := except_bind_ok h
  obtain ⟨b, hb, h⟩ := except_bind_ok h
  obtain ⟨gb, hgb, h⟩ := except_bind_ok h
  obtain ⟨x', hx', h⟩ := except_bind_ok h
  obtain ⟨s, hs, h⟩ := except_bind_ok h
  obtain ⟨g', hg', h⟩ := except_bind_ok h
  obtain ⟨gg, hgg, h⟩ := except_bind_ok h
  obtain ⟨b', hb', h⟩ := except_bind_ok h
  obtain ⟨r, hr, h⟩ := except_bind_ok h
  obtain ⟨y, hy, h⟩ := except_bind_ok h
  cases h
  refine ⟨y, g, rfl, hg, ?_⟩
  have h1 := STensor.bin_rank hgg
  have h2 := STensor.bin_rank hr
  have h3 := STensor.bin_rank hy
  simp only [STensor.map] at h2
  omega

theorem milstein_rank (sqrt : K → K) (vTerm : K → K → K) (sde : SdeFunc (Except PyErr) K (STensor K))
    (bm : K → K → Except PyErr (STensor K)) : RankKeeping sde.g (milsteinShaped sqrt vTerm sde bm) := by
  intro x t dt o h
  obtain ⟨b, hb, h⟩ := except_bind_ok h
  obtain ⟨f, hf, h⟩ := except_bind_ok h
  obtain ⟨g, hg, h⟩ := except_bind_ok h
  obtain ⟨s, hs, h⟩ := except_bind_ok h
  obtain ⟨x', hx', h⟩ := except_bind_ok h
  obtain ⟨g', hg', h⟩ := except_bind_ok h
  obtain ⟨gdg, hgdg, h⟩ := except_bind_ok h
  obtain ⟨gb, hgb, h⟩ := except_bind_ok h
  obtain ⟨z, hz, h⟩ := except_bind_ok h
  obtain ⟨w, hw, h⟩ := except_bind_ok h
  obtain ⟨y, hy, h⟩ := except_bind_ok h
  cases h
  refine ⟨y, g, rfl, hg, ?_⟩
  have h1 := STensor.bin_rank hgb
  have h2 := STensor.bin_rank hz
  have h3 := STensor.bin_rank hy
  omega

theorem mkSdeSolverShaped_rank {sqrt : K → K} {cls : SdeSolverClass} {sde : SdeFunc (Except PyErr) K (STensor K)}
    {bm : K → K → Except PyErr (STensor K)} {solver : SdeSolver (Except PyErr) K (STensor K)}
    (h : mkSdeSolverShaped sqrt cls sde bm = .ok solver) : RankKeeping sde.g solver.step := by
  cases cls with
  | eulerMaruyama =>
    obtain ⟨_, -, h⟩ := except_bind_ok h
    cases h
    exact eulerMaruyama_rank sde bm
  | eulerHeun =>
    obtain ⟨_, -, h⟩ := except_bind_ok h
    cases h
    exact eulerHeun_rank sde bm
  | midpoint => cases h
  | milsteinIto => cases h; exact milstein_rank _ _ sde bm
  | milsteinStratonovich => cases h; exact milstein_rank _ _ sde bm

theorem fixedLoop_prefix {V : Type} (isclose : K → K → Bool) (step : V → K → K → Except PyErr (StepOut V))
    (tSpan saveAt : List K) (fuel : ℕ) : ∀ (n : ℕ) (t dt : K) (x : V) (sol xs : List V),
      fixedLoop isclose step tSpan saveAt fuel n t dt x sol = .ok xs → ∃ ys, xs = sol ++ ys := by
  induction fuel with
  | zero =>
    intro n t dt x sol xs h
    exact ⟨[], by rw [← Except.ok.inj h, List.append_nil]⟩
  | succ fuel ih =>
    intro n t dt x sol xs h
    rw [fixedLoop] at h
    split at h
    · obtain ⟨o, -, h⟩ := except_bind_ok h
      obtain ⟨⟨k, y, e⟩, -, h⟩ := except_bind_ok h
      have key : ∀ d, fixedLoop isclose step tSpan saveAt fuel (n + 1) (t + dt) d y
          (if closeCount isclose (t + dt) saveAt ≠ 0 then sol ++ [y] else sol) = .ok xs → ∃ ys, xs = sol ++ ys := by
        intro d h
        obtain ⟨ys, hys⟩ := ih _ _ _ _ _ _ h
        split at hys
        · exact ⟨[y] ++ ys, by rw [hys, List.append_assoc]⟩
        · exact ⟨ys, hys⟩
      dsimp only at h
      split at h
      · obtain ⟨tn, -, h⟩ := except_bind_ok h
        exact key _ h
      · exact key _ h
    · exact ⟨[], by rw [← Except.ok.inj h, List.append_nil]⟩

variable [LinearOrder K] [IsStrictOrderedRing K]

/-- **C135 is false** for the noise types `general`, `additive` and `scalar`. For these the value of the diffusion has one axis more
than the state, for the components of the noise. Whenever this is so at the start, `sdeint` raises, for every solver name, whatever
the label `noise_type`, the drift, the Brownian motion, the sizes and the grid: `g * bm` is an elementwise product, its sum with the
state either raises or has the axes of the diffusion, and then cannot be stacked with the initial state. -/
theorem C135_noise_axis_refuted (sqrt : K → K) (sde : SdeFunc (Except PyErr) K (STensor K)) (bm : K → K → Except PyErr (STensor K))
    (x : STensor K) (t0 t1 : K) (rest : List K) (name : String)
    (hg : ∀ G, sde.g t0 x = .ok G → x.shape.length < G.shape.length) :
    ∃ e, sdeintShaped sqrt (.sdeFunc sde) x (t0 :: t1 :: rest) name bm [] = .error e := by
  by_contra hne
  obtain ⟨r, hr⟩ : ∃ r, sdeintShaped sqrt (.sdeFunc sde) x (t0 :: t1 :: rest) name bm [] = .ok r := by
    cases h : sdeintShaped sqrt (.sdeFunc sde) x (t0 :: t1 :: rest) name bm [] with
    | error e => exact absurd ⟨e, h⟩ hne
    | ok r => exact ⟨r, rfl⟩
  unfold sdeintShaped at hr
  obtain ⟨sde', hs, hr⟩ := except_bind_ok hr
  cases hs
  obtain ⟨solver, hsol, hr⟩ := except_bind_ok hr
  have hrank : RankKeeping sde.g solver.step := by
    unfold sdeStrToSolverShaped at hsol
    split at hsol
    · exact mkSdeSolverShaped_rank hsol
    · cases hsol
  obtain ⟨⟨ts, sol⟩, hrun, hr⟩ := except_bind_ok hr
  obtain ⟨sol', hst, -⟩ := except_bind_ok hr
  simp only [List.length_nil, if_true] at hrun
  unfold fixedSdeint at hrun
  obtain ⟨t, ht, hrun⟩ := except_bind_ok hrun
  cases ht
  obtain ⟨t', ht', hrun⟩ := except_bind_ok hrun
  cases ht'
  obtain ⟨sol₁, hloop, hrun⟩ := except_bind_ok hrun
  obtain ⟨y₀, -, hrun⟩ := except_bind_ok hrun
  cases hrun
  have hc : ∀ t ∈ t0 :: t1 :: rest, closeCount torchIsclose t (t0 :: t1 :: rest) ≠ 0 := by
    intro t ht
    exact closeCount_ne_zero.2 ⟨t, ht, torchIsclose_self t⟩
  rw [if_pos (hc t0 (by simp))] at hloop
  rw [show (t0 :: t1 :: rest).length = rest.length + 1 + 1 from rfl, fixedLoop, if_pos (by simp)] at hloop
  obtain ⟨o, ho, hloop⟩ := except_bind_ok hloop
  obtain ⟨y, G, rfl, hG, hle⟩ := hrank _ _ _ _ ho
  obtain ⟨⟨k, y', e⟩, hu, hloop⟩ := except_bind_ok hloop
  cases hu
  dsimp only at hloop
  obtain ⟨d, hloop⟩ : ∃ d, fixedLoop torchIsclose solver.step (t0 :: t1 :: rest) (t0 :: t1 :: rest) (rest.length + 1) (1 + 1)
      (t0 + (t1 - t0)) d y (if closeCount torchIsclose (t0 + (t1 - t0)) (t0 :: t1 :: rest) ≠ 0 then [x] ++ [y] else [x]) =
        .ok sol := by
    split at hloop
    · obtain ⟨tn, -, h⟩ := except_bind_ok hloop
      exact ⟨_, h⟩
    · exact ⟨_, hloop⟩
  obtain ⟨ys, hys⟩ := fixedLoop_prefix _ _ _ _ _ _ _ _ _ _ _ hloop
  rw [add_sub_cancel, if_pos (hc t1 (by simp))] at hys
  have hlt := hg G hG
  rw [hys] at hst
  simp only [List.cons_append, List.nil_append, stackTensors] at hst
  split at hst
  · rename_i hall
    rw [List.all_cons, Bool.and_eq_true, beq_iff_eq] at hall
    rw [hall.1] at hle
    omega
  · cases hst

/-! ### All shapes equal -/

/-- `S` and `B` are drift, diffusion and Brownian motion that keep the shape `s`, with entries given by `f`, `g`, `b`. -/
structure KeepsShape (s : List ℕ) (S : SdeFunc (Except PyErr) K (STensor K)) (B : K → K → Except PyErr (STensor K))
    (f g : K → (List ℕ → K) → (List ℕ → K)) (b : K → K → (List ℕ → K)) : Prop where
  drift : ∀ t v, S.f t ⟨s, v⟩ = .ok ⟨s, f t v⟩
  diffusion : ∀ t v, S.g t ⟨s, v⟩ = .ok ⟨s, g t v⟩
  noise : ∀ t t', B t t' = .ok ⟨s, b t t'⟩

theorem stack_same (s : List ℕ) (l : List (List ℕ → K)) : stackTensors (l.map (STensor.mk s)) = .ok (l.map (STensor.mk s)) := by
  cases l with
  | nil => rfl
  | cons v l =>
    rw [List.map_cons, stackTensors, if_pos]
    simp

theorem fixedSdeint_map (step : (List ℕ → K) → K → K → Except PyErr (StepOut (List ℕ → K)))
    (step' : STensor K → K → K → Except PyErr (StepOut (STensor K))) (s : List ℕ) (h : StepCommutes (STensor.mk s) step step')
    (v : List ℕ → K) (tSpan saveAt : List K) :
    fixedSdeint torchIsclose step' ⟨s, v⟩ tSpan saveAt =
      (fixedSdeint torchIsclose step v tSpan saveAt).map (fun r => (r.1, r.2.map (STensor.mk s))) := by
  unfold fixedSdeint
  cases (getItem tSpan 0 : Except PyErr K) with
  | error e => rfl
  | ok t =>
    cases (getItem tSpan 1 : Except PyErr K) with
    | error e => rfl
    | ok t1 =>
      simp only [bind, Except.bind]
      have := fixedLoop_map torchIsclose (STensor.mk s) step step' h tSpan saveAt tSpan.length 1 t (t1 - t) v
        (if closeCount torchIsclose t saveAt ≠ 0 then [v] else [])
      have e : (if closeCount torchIsclose t saveAt ≠ 0 then [v] else []).map (STensor.mk s) =
          if closeCount torchIsclose t saveAt ≠ 0 then [⟨s, v⟩] else [] := by split <;> rfl
      rw [e] at this
      rw [← this]
      cases fixedLoop torchIsclose step tSpan saveAt tSpan.length 1 t (t1 - t) v
        (if closeCount torchIsclose t saveAt ≠ 0 then [v] else []) with
      | error e => rfl
      | ok l =>
        cases l with
        | nil => rfl
        | cons a l => rfl

/-- **C135**, diagonal noise: when drift, diffusion and Brownian motion have the shape of the state, whatever it is, `sdeint` with
every solver name, every grid and every `save_at` returns tensors of this shape with the entries of the elementwise schemes
(`Verif.Model.Sde`, whose runs C43–C45, C100, C114, C116, C117 and C124 describe), or raises the same error. -/
theorem C135_diagonal (sqrt : K → K) (s : List ℕ) (S : SdeFunc (Except PyErr) K (STensor K))
    (B : K → K → Except PyErr (STensor K)) (f g : K → (List ℕ → K) → (List ℕ → K)) (b : K → K → (List ℕ → K))
    (h : KeepsShape s S B f g b) (v : List ℕ → K) (tSpan saveAt : List K) (name : String) :
    sdeintShaped sqrt (.sdeFunc S) ⟨s, v⟩ tSpan name B saveAt =
      (sdeint (m := Except PyErr) sqrt (.sdeFunc ⟨fun t v => pure (f t v), fun t v => pure (g t v), S.noiseType, S.sdeType⟩) v tSpan
        (.inl name) (fun t t' => pure (b t t')) saveAt).map (fun r => (r.1, r.2.map (STensor.mk s))) := by
  have hrun : ∀ (step : (List ℕ → K) → K → K → Except PyErr (StepOut (List ℕ → K)))
      (step' : STensor K → K → K → Except PyErr (StepOut (STensor K))), StepCommutes (STensor.mk s) step step' →
      ∀ saveAt, (fixedSdeint torchIsclose step' ⟨s, v⟩ tSpan saveAt >>= fun r => stackTensors r.2 >>= fun sol => pure (r.1, sol)) =
        (fixedSdeint torchIsclose step v tSpan saveAt).map (fun r => (r.1, r.2.map (STensor.mk s))) := by
    intro step step' hc saveAt
    rw [fixedSdeint_map step step' s hc]
    cases fixedSdeint torchIsclose step v tSpan saveAt with
    | error e => rfl
    | ok r =>
      show (stackTensors (r.2.map (STensor.mk s)) >>= fun sol => pure (r.1, sol)) = _
      rw [stack_same]
      rfl
  have hE : StepCommutes (STensor.mk s)
      (eulerMaruyamaStep (m := Except PyErr) ⟨fun t v => pure (f t v), fun t v => pure (g t v), S.noiseType, S.sdeType⟩
        (fun t t' => pure (b t t'))) (eulerMaruyamaShaped S B) := by
    intro x t dt
    simp only [eulerMaruyamaShaped, eulerMaruyamaStep, h.drift, h.diffusion, h.noise, STensor.bin_same, STensor.map, bind,
      Except.bind, pure, Except.pure, StepOut.unpack3, Except.map]
    congr 2
    funext i
    simp only [Pi.add_apply, Pi.smul_apply, Pi.mul_apply, smul_eq_mul]
    ring
  have hH : StepCommutes (STensor.mk s)
      (eulerHeunStep (m := Except PyErr) ⟨fun t v => pure (f t v), fun t v => pure (g t v), S.noiseType, S.sdeType⟩
        (fun t t' => pure (b t t'))) (eulerHeunShaped S B) := by
    intro x t dt
    simp only [eulerHeunShaped, eulerHeunStep, h.drift, h.diffusion, h.noise, STensor.bin_same, STensor.map, bind,
      Except.bind, pure, Except.pure, StepOut.unpack3, Except.map]
    congr 2
    funext i
    have e : (fun i => x i + g t x i * b t (t + dt) i) = x + g t x * b t (t + dt) := rfl
    simp only [e, Pi.add_apply, Pi.smul_apply, Pi.mul_apply, smul_eq_mul]
    ring
  have hM : ∀ (vTerm : K → K → K) (vTerm' : (List ℕ → K) → K → (List ℕ → K)), (∀ u dt i, vTerm' u dt i = vTerm (u i) dt) →
      StepCommutes (STensor.mk s) (milsteinStep (m := Except PyErr) sqrt vTerm'
        ⟨fun t v => pure (f t v), fun t v => pure (g t v), S.noiseType, S.sdeType⟩ (fun t t' => pure (b t t')))
        (milsteinShaped sqrt vTerm S B) := by
    intro vTerm vTerm' hv x t dt
    simp only [milsteinShaped, milsteinStep, h.drift, h.diffusion, h.noise, STensor.bin_same, STensor.map, bind,
      Except.bind, pure, Except.pure, StepOut.unpack3, Except.map]
    congr 2
    funext i
    have e : (fun i => x i + f t x i * dt + g t x i * sqrt dt) = x + dt • f t x + sqrt dt • g t x := by
      funext j
      simp only [Pi.add_apply, Pi.smul_apply, smul_eq_mul]
      ring
    simp only [e, Pi.add_apply, Pi.sub_apply, Pi.smul_apply, Pi.mul_apply, smul_eq_mul, hv]
    ring
  have hck : ∀ ty, checkTypes (m := Except PyErr) (⟨fun t v => pure (f t v), fun t v => pure (g t v), S.noiseType, S.sdeType⟩ :
      SdeFunc (Except PyErr) K (List ℕ → K)) ty allNoiseTypes = checkTypes S ty allNoiseTypes := fun ty => rfl
  unfold sdeintShaped sdeint sdeStrToSolverShaped
  simp only [checkSde, sdeStrToSolver, bind_pure_comp, pure_bind]
  cases hfind : sdeSolverDict.find? (fun p => p.1 == name) with
  | none => rfl
  | some p =>
    obtain ⟨nm, cls⟩ := p
    dsimp only
    cases cls with
    | eulerMaruyama =>
      simp only [mkSdeSolverShaped, mkSdeSolver, hck]
      cases checkTypes (m := Except PyErr) S "ito" allNoiseTypes with
      | error e => rfl
      | ok u => exact hrun _ _ hE _
    | eulerHeun =>
      simp only [mkSdeSolverShaped, mkSdeSolver, hck]
      cases checkTypes (m := Except PyErr) S "stratonovich" allNoiseTypes with
      | error e => rfl
      | ok u => exact hrun _ _ hH _
    | midpoint => rfl
    | milsteinIto =>
      exact hrun _ _ (hM (fun b dt => b ^ 2 - dt) itoTerm (fun u dt i => rfl)) _
    | milsteinStratonovich =>
      exact hrun _ _ (hM (fun b _ => b ^ 2) stratonovichTerm (fun u dt i => rfl)) _

/-- Non-vacuity of `C135_noise_axis_refuted`: two samples, two states, two noises — the sizes for which nothing is incompatible —
with general noise. The step of `euler` does not raise, its result has three axes. -/
example : ∃ y, eulerMaruyamaShaped (K := ℚ) ⟨fun _ x => .ok x, fun _ _ => .ok ⟨[2, 2, 2], fun _ => 1⟩, some "general", some "ito"⟩
      (fun _ _ => .ok ⟨[2, 2], fun _ => 1⟩) ⟨[2, 2], fun _ => 1⟩ 0 1 = .ok (.three none y none) ∧ y.shape = [2, 2, 2] :=
  ⟨_, rfl, rfl⟩

/-- With three states instead of two the product `g * bm` raises. -/
example : eulerMaruyamaShaped (K := ℚ) ⟨fun _ x => .ok x, fun _ _ => .ok ⟨[2, 3, 2], fun _ => 1⟩, some "general", some "ito"⟩
      (fun _ _ => .ok ⟨[2, 2], fun _ => 1⟩) ⟨[2, 3], fun _ => 1⟩ 0 1 = .error .runtimeError := rfl

/-- Non-vacuity of `C135_diagonal`: `dX = -X dt + X dW` on two samples with three states. -/
example : KeepsShape (K := ℚ) [2, 3] ⟨fun _ x => .ok (x.map (-·)), fun _ x => .ok x, some "diagonal", some "ito"⟩
    (fun t t' => .ok ⟨[2, 3], fun _ => t' - t⟩) (fun _ v i => -v i) (fun _ v => v) (fun t t' _ => t' - t) :=
  ⟨fun _ _ => rfl, fun _ _ => rfl, fun _ _ => rfl⟩

end

end Torchdyn
